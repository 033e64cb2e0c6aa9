import Verif.Model.Xml
import Verif.Spec.Text

/-!
# What URDF elements say (specification)

These definitions use the element tree (`attr`, `firstChild`) but none of the parser's functions. `num` reads a
number, as `strToDouble` does.
-/

namespace Tinyfk

variable {K : Type} [Scalar K]

/-- the text is the vector `v`: three numbers separated by spaces -/
def VecSays (num : String → Option K) (s : String) (v : Vec3 K) : Prop :=
  ∃ a b c, ThreeWords s a b c ∧ num a = some v.x ∧ num b = some v.y ∧ num c = some v.z

/-- the attribute `k` of `e` is the number `x`, or is missing and `x` is the default `d` -/
def NumSays (num : String → Option K) (e : Elem) (k : String) (d : Option K) (x : K) : Prop :=
  (e.attr k = none ∧ d = some x) ∨ ∃ s, e.attr k = some s ∧ num s = some x

/-- an `<origin>` element: `xyz` is the position (default 0), `rpy` are roll, pitch and yaw (default 0) -/
structure PoseSays (num : String → Option K) (e : Elem) (p : Pose K) : Prop where
  xyz : (e.attr "xyz" = none ∧ p.position = ⟨0, 0, 0⟩) ∨ ∃ s, e.attr "xyz" = some s ∧ VecSays num s p.position
  rpy : (e.attr "rpy" = none ∧ p.rotation = ⟨0, 0, 0, 1⟩) ∨
    ∃ s r, e.attr "rpy" = some s ∧ VecSays num s r ∧ p.rotation = Rot.fromRPY r.x r.y r.z

/-- the `<origin>` child of `e`, the identity when there is none -/
def OriginSays (num : String → Option K) (e : Elem) (p : Pose K) : Prop :=
  (e.firstChild "origin" = none ∧ p = ⟨⟨0, 0, 0⟩, ⟨0, 0, 0, 1⟩⟩) ∨ ∃ o, e.firstChild "origin" = some o ∧ PoseSays num o p

/-- a `<limit>` element: `effort` and `velocity` are required -/
structure LimitsSays (num : String → Option K) (e : Elem) (l : JointLimits K) : Prop where
  lower : NumSays num e "lower" (some 0) l.lower
  upper : NumSays num e "upper" (some 0) l.upper
  effort : NumSays num e "effort" none l.effort
  velocity : NumSays num e "velocity" none l.velocity

/-- the link named by the child `tag` of `e`, or the empty string -/
def LinkRefSays (e : Elem) (tag : String) (n : String) : Prop :=
  (∃ c, e.firstChild tag = some c ∧ c.attr "link" = some n) ∨
  (n = "" ∧ ∀ c, e.firstChild tag = some c → c.attr "link" = none)

/-- the joint types of the URDF format -/
inductive TypeSays : String → JointType → Prop
  | planar : TypeSays "planar" .planar
  | floating : TypeSays "floating" .floating
  | revolute : TypeSays "revolute" .revolute
  | continuous : TypeSays "continuous" .continuous
  | prismatic : TypeSays "prismatic" .prismatic
  | fixed : TypeSays "fixed" .fixed

/-- the axis of a joint: the vector `xyz` of `<axis>`, (1,0,0) without `<axis>`. It is not normalised, and an
`<axis>` without `xyz` is the zero vector. Floating and fixed joints have no axis (zero, whatever is written). -/
inductive AxisSays (num : String → Option K) (e : Elem) (t : JointType) : Vec3 K → Prop
  | none : t = .floating ∨ t = .fixed → AxisSays num e t ⟨0, 0, 0⟩
  | default : ¬ (t = .floating ∨ t = .fixed) → e.firstChild "axis" = .none → AxisSays num e t ⟨1, 0, 0⟩
  | empty {a : Elem} : ¬ (t = .floating ∨ t = .fixed) → e.firstChild "axis" = some a → a.attr "xyz" = .none →
      AxisSays num e t ⟨0, 0, 0⟩
  | given {a : Elem} {s : String} {v : Vec3 K} : ¬ (t = .floating ∨ t = .fixed) → e.firstChild "axis" = some a →
      a.attr "xyz" = some s → VecSays num s v → AxisSays num e t v

/-- a `<joint>` element -/
structure JointSays (num : String → Option K) (e : Elem) (j : RawJoint K) : Prop where
  name : e.attr "name" = some j.name
  type : ∃ s, e.attr "type" = some s ∧ TypeSays s j.type
  origin : OriginSays num e j.origin
  parent : LinkRefSays e "parent" j.parentLinkName
  child : LinkRefSays e "child" j.childLinkName
  axis : AxisSays num e j.type j.axis
  limits : (∃ c l, e.firstChild "limit" = some c ∧ LimitsSays num c l ∧ j.limits = some l) ∨
    (e.firstChild "limit" = none ∧ j.limits = none ∧ j.type ≠ .revolute ∧ j.type ≠ .prismatic)

/-- the attribute `k` of `e` is missing or a number -/
def NumOk (num : String → Option K) (e : Elem) (k : String) : Prop := ∀ s, e.attr k = some s → (num s).isSome

/-- the elements of a joint that the kinematics does not use are well formed -/
structure ExtrasOk (num : String → Option K) (e : Elem) : Prop where
  safety : ∀ c, e.firstChild "safety_controller" = some c → (∀ k ∈ ["soft_lower_limit", "soft_upper_limit", "k_position",
    "k_velocity"], NumOk num c k) ∧ (c.attr "k_velocity").isSome
  calibration : ∀ c, e.firstChild "calibration" = some c → ∀ k ∈ ["rising", "falling"], NumOk num c k
  mimic : ∀ c, e.firstChild "mimic" = some c → (∀ k ∈ ["multiplier", "offset"], NumOk num c k) ∧ (c.attr "joint").isSome
  dynamics : ∀ c, e.firstChild "dynamics" = some c → (∀ k ∈ ["damping", "friction"], NumOk num c k) ∧
    ((c.attr "damping").isSome ∨ (c.attr "friction").isSome)

/-- an `<inertial>` element: `<mass>` and the six entries of `<inertia>` are required -/
structure InertialSays (num : String → Option K) (e : Elem) (i : Inertial K) : Prop where
  origin : OriginSays num e i.origin
  mass : ∃ c, e.firstChild "mass" = some c ∧ NumSays num c "value" none i.mass
  inertia : ∃ c, e.firstChild "inertia" = some c ∧ NumSays num c "ixx" none i.ixx ∧ NumSays num c "ixy" none i.ixy ∧
    NumSays num c "ixz" none i.ixz ∧ NumSays num c "iyy" none i.iyy ∧ NumSays num c "iyz" none i.iyz ∧
    NumSays num c "izz" none i.izz

/-- a `<link>` element -/
structure LinkSays (num : String → Option K) (e : Elem) (l : RawLink K) : Prop where
  name : e.attr "name" = some l.name
  inertial : (e.firstChild "inertial" = none ∧ l.inertial = none) ∨
    ∃ c i, e.firstChild "inertial" = some c ∧ InertialSays num c i ∧ l.inertial = some i

end Tinyfk
