import Verif.Spec.Urdf
import Mathlib.Data.List.Forall2

/-!
# What visual elements and the unused elements of joints say (specification)

As `Spec/Urdf`, for what the C++ model carries but the kinematics does not use.
-/

namespace Tinyfk

variable {K : Type} [Scalar K]

/-- the text consists of these words, separated by spaces -/
inductive Words : List Char → List String → Prop
  | none {p : List Char} : Spaces p → Words p []
  | word {p w t : List Char} {ws : List String} : Spaces p → w ≠ [] → ' ' ∉ w → (t = [] ∨ t.head? = some ' ') → Words t ws →
      Words (p ++ w ++ t) (String.ofList w :: ws)

/-- the word is a number between 0 and 1, and `x` is this number as a `float` -/
def UnitSays (num : String → Option K) (w : String) (x : K) : Prop :=
  ∃ y, num w = some y ∧ Scalar.lt y 0 = false ∧ Scalar.lt 1 y = false ∧ x = Scalar.toFloat y

/-- The colour of a `<material>` and whether it counts as given. The default is black, opaque. -/
inductive ColorSays (num : String → Option K) (e : Elem) : K × K × K × K → Bool → Prop
  | missing : (∀ c, e.firstChild "color" = some c → c.attr "rgba" = none) → ColorSays num e (0, 0, 0, 1) false
  | bad {c : Elem} {s w : String} {ws : List String} : e.firstChild "color" = some c → c.attr "rgba" = some s → Words s.toList ws →
      w ∈ ws → (¬ ∃ x, UnitSays num w x) → ColorSays num e (0, 0, 0, 1) false
  | count {c : Elem} {s : String} {ws : List String} {xs : List K} : e.firstChild "color" = some c → c.attr "rgba" = some s →
      Words s.toList ws → List.Forall₂ (UnitSays num) ws xs → xs.length ≠ 4 → ColorSays num e (0, 0, 0, 1) true
  | given {c : Elem} {s : String} {ws : List String} {r g b a : K} : e.firstChild "color" = some c → c.attr "rgba" = some s →
      Words s.toList ws → List.Forall₂ (UnitSays num) ws [r, g, b, a] → ColorSays num e (r, g, b, a) true

/-- The file name of the texture of a `<material>`, if any. -/
def TextureSays (e : Elem) (t : Option String) : Prop :=
  (∃ c s, e.firstChild "texture" = some c ∧ c.attr "filename" = some s ∧ t = some s) ∨
  ((∀ c, e.firstChild "texture" = some c → c.attr "filename" = none) ∧ t = none)

/-- A `<material>` and whether it is a definition: one with a colour or a texture. -/
inductive MaterialSays (num : String → Option K) (e : Elem) : Material K → Bool → Prop
  | nameless : e.attr "name" = none → MaterialSays num e ⟨"", "", (0, 0, 0, 1)⟩ false
  | named {n : String} {t : Option String} {c : K × K × K × K} {given : Bool} : e.attr "name" = some n → TextureSays e t →
      ColorSays num e c given → MaterialSays num e ⟨n, t.getD "", c⟩ (given || t.isSome)

/-- A shape: the first child of a `<geometry>`. -/
inductive ShapeSays (num : String → Option K) (e : Elem) : Geometry K → Prop
  | sphere {r : K} : e.name = "sphere" → NumSays num e "radius" none r → ShapeSays num e (.sphere r)
  | box {s : String} {d : Vec3 K} : e.name = "box" → e.attr "size" = some s → VecSays num s d → ShapeSays num e (.box d)
  | cylinder {l r : K} : e.name = "cylinder" → NumSays num e "length" none l → NumSays num e "radius" none r →
      ShapeSays num e (.cylinder l r)
  | mesh {f : String} : e.name = "mesh" → e.attr "filename" = some f → e.attr "scale" = none → ShapeSays num e (.mesh f ⟨1, 1, 1⟩)
  | scaled {f s : String} {v : Vec3 K} : e.name = "mesh" → e.attr "filename" = some f → e.attr "scale" = some s → VecSays num s v →
      ShapeSays num e (.mesh f v)

/-- the `<geometry>` child of `e` -/
def GeometrySays (num : String → Option K) (e : Elem) (g : Geometry K) : Prop :=
  ∃ c x, e.firstChild "geometry" = some c ∧ c.children.head? = some x ∧ ShapeSays num x g

/-- a `<collision>` -/
structure CollisionSays (num : String → Option K) (e : Elem) (c : Collision K) : Prop where
  origin : OriginSays num e c.origin
  geometry : GeometrySays num e c.geometry
  name : c.name = (e.attr "name").getD ""

/-- a `<visual>`, with the material that is defined in it -/
structure VisualSays (num : String → Option K) (e : Elem) (v : Visual K) : Prop where
  origin : OriginSays num e v.origin
  geometry : GeometrySays num e v.geometry
  name : v.name = (e.attr "name").getD ""
  material : (e.firstChild "material" = none ∧ v.materialName = "" ∧ v.material = none) ∨
    ∃ c m d, e.firstChild "material" = some c ∧ c.attr "name" = some v.materialName ∧ MaterialSays num c m d ∧
      v.material = if d then some m else none

/-- `as` is what the elements `es` say up to the first that is malformed; `whole` when none is. -/
inductive Prefix {α : Type} (R : Elem → α → Prop) : List Elem → List α → Bool → Prop
  | nil : Prefix R [] [] true
  | bad {e : Elem} {es : List Elem} : (¬ ∃ a, R e a) → Prefix R (e :: es) [] false
  | cons {e : Elem} {es : List Elem} {a : α} {as : List α} {whole : Bool} : R e a → Prefix R es as whole →
      Prefix R (e :: es) (a :: as) whole

/-- The shapes of a `<link>`: nothing after a malformed element. -/
inductive LinkShapes (num : String → Option K) (e : Elem) : List (Visual K) → List (Collision K) → Prop
  | nameless : e.attr "name" = none → LinkShapes num e [] []
  | inertial {n : String} {c : Elem} : e.attr "name" = some n → e.firstChild "inertial" = some c → (¬ ∃ i, InertialSays num c i) →
      LinkShapes num e [] []
  | visual {n : String} {vs : List (Visual K)} : e.attr "name" = some n →
      (∀ c, e.firstChild "inertial" = some c → ∃ i, InertialSays num c i) →
      Prefix (VisualSays num) (e.childrenNamed "visual") vs false → LinkShapes num e vs []
  | collision {n : String} {vs : List (Visual K)} {cs : List (Collision K)} {whole : Bool} : e.attr "name" = some n →
      (∀ c, e.firstChild "inertial" = some c → ∃ i, InertialSays num c i) →
      Prefix (VisualSays num) (e.childrenNamed "visual") vs true →
      Prefix (CollisionSays num) (e.childrenNamed "collision") cs whole → LinkShapes num e vs cs

/-- The material of the visual `v`: the `<material>` of the robot with that name, or else that of the first visual before it that
defines one with that name, or else its own. -/
def Resolved (top : List (Material K)) (before : List (Visual K)) (v v' : Visual K) : Prop :=
  v' = { v with material :=
    if v.materialName = "" then v.material
    else ((top.find? fun m => m.name = v.materialName).or
      ((before.filterMap fun w => if w.materialName = "" then none else w.material).find? fun m => m.name = v.materialName)).or v.material }

/-- an optional child element -/
def ChildSays {α : Type} (e : Elem) (tag : String) (R : Elem → α → Prop) (a : Option α) : Prop :=
  (e.firstChild tag = none ∧ a = none) ∨ ∃ c x, e.firstChild tag = some c ∧ R c x ∧ a = some x

/-- a `<dynamics>` element: one of the two must be given -/
structure DynamicsSays (num : String → Option K) (e : Elem) (d : JointDynamics K) : Prop where
  damping : NumSays num e "damping" (some 0) d.damping
  friction : NumSays num e "friction" (some 0) d.friction
  given : e.attr "damping" ≠ none ∨ e.attr "friction" ≠ none

/-- a `<safety_controller>` element -/
structure SafetySays (num : String → Option K) (e : Elem) (s : JointSafety K) : Prop where
  lower : NumSays num e "soft_lower_limit" (some 0) s.softLowerLimit
  upper : NumSays num e "soft_upper_limit" (some 0) s.softUpperLimit
  position : NumSays num e "k_position" (some 0) s.kPosition
  velocity : NumSays num e "k_velocity" none s.kVelocity

/-- an attribute that may be missing -/
def OptSays (num : String → Option K) (e : Elem) (k : String) (x : Option K) : Prop :=
  (e.attr k = none ∧ x = none) ∨ ∃ s y, e.attr k = some s ∧ num s = some y ∧ x = some y

/-- a `<calibration>` element -/
structure CalibrationSays (num : String → Option K) (e : Elem) (c : JointCalibration K) : Prop where
  rising : OptSays num e "rising" c.rising
  falling : OptSays num e "falling" c.falling

/-- a `<mimic>` element -/
structure MimicSays (num : String → Option K) (e : Elem) (m : JointMimic K) : Prop where
  joint : e.attr "joint" = some m.jointName
  multiplier : NumSays num e "multiplier" (some 1) m.multiplier
  offset : NumSays num e "offset" (some 0) m.offset

/-- the elements of a joint that the kinematics does not use -/
structure ExtrasSay (num : String → Option K) (e : Elem) (j : XJoint K) : Prop where
  dynamics : ChildSays e "dynamics" (DynamicsSays num) j.dynamics
  safety : ChildSays e "safety_controller" (SafetySays num) j.safety
  calibration : ChildSays e "calibration" (CalibrationSays num) j.calibration
  mimic : ChildSays e "mimic" (MimicSays num) j.mimic

end Tinyfk
