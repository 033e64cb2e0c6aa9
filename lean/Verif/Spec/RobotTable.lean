import Lean.Elab.Term
import Verif.Spec.Desc

/-!
# Specification: tables of robots

A robot written down as a table of links and joints with decimal numbers, and the description it stands for. Used for
the robots in `data/`.
-/

namespace Tinyfk

open Lean Elab Term in
/-- `chars "abc"` is the list `['a', 'b', 'c']` -/
elab "chars " s:str : term => return toExpr s.getString.toList

/-- the decimal number `±digits·10^exp` -/
structure Dec where
  neg : Bool
  digits : Nat
  exp : Int
  deriving DecidableEq

namespace Dec

instance : OfScientific Dec := ⟨fun m s e => ⟨false, m, if s then -e else e⟩⟩
instance (n : Nat) : OfNat Dec n := ⟨⟨false, n, 0⟩⟩
instance : Neg Dec := ⟨fun d => { d with neg := !d.neg }⟩

/-- a number with at most 20 digits and an exponent of at most 40 -/
def Ordinary (d : Dec) : Prop := d.digits < 10 ^ 20 ∧ -40 ≤ d.exp ∧ d.exp ≤ 40

instance (d : Dec) : Decidable d.Ordinary := inferInstanceAs (Decidable (_ ∧ _))

end Dec

/-- an `<origin>` -/
structure OriginRow where
  xyz : Option (Vec3 Dec)
  rpy : Option (Vec3 Dec)
  deriving DecidableEq

/-- a `<limit>` -/
structure LimitRow where
  lower : Option Dec
  upper : Option Dec
  effort : Dec
  velocity : Dec
  deriving DecidableEq

/-- a `<joint>`: name, type, parent, child, origin, axis, limits -/
structure JointRow where
  name : List Char
  type : JointType
  parent : List Char
  child : List Char
  origin : Option OriginRow
  axis : Option (Vec3 Dec)
  limit : Option LimitRow
  deriving DecidableEq

/-- an `<inertial>` -/
structure InertialRow where
  origin : Option OriginRow
  mass : Dec
  ixx : Dec
  ixy : Dec
  ixz : Dec
  iyy : Dec
  iyz : Dec
  izz : Dec
  deriving DecidableEq

/-- a `<link>` -/
structure LinkRow where
  name : List Char
  inertial : Option InertialRow
  deriving DecidableEq

variable {K : Type} [Scalar K] (val : Dec → K)

/-- a vector of numbers -/
def decVec (v : Vec3 Dec) : Vec3 K := ⟨val v.x, val v.y, val v.z⟩

/-- the pose: without `<origin>` the identity, without `xyz` no translation, without `rpy` no rotation -/
def originOf : Option OriginRow → Pose K
  | none => ⟨⟨0, 0, 0⟩, ⟨0, 0, 0, 1⟩⟩
  | some o =>
    ⟨match o.xyz with
      | none => ⟨0, 0, 0⟩
      | some v => decVec val v,
     match o.rpy with
      | none => ⟨0, 0, 0, 1⟩
      | some v => Rot.fromRPY (val v.x) (val v.y) (val v.z)⟩

/-- a number that is 0 when it is not given -/
def decOr0 : Option Dec → K
  | none => 0
  | some d => val d

/-- the limits -/
def LimitRow.limits (l : LimitRow) : JointLimits K := ⟨decOr0 val l.lower, decOr0 val l.upper, val l.effort, val l.velocity⟩

/-- the axis: (1, 0, 0) when it is not given -/
def axisOf : Option (Vec3 Dec) → Vec3 K
  | none => ⟨1, 0, 0⟩
  | some v => decVec val v

/-- The joint of the description. Fixed and floating joints have the axis 0. -/
def JointRow.joint (j : JointRow) : RawJoint K where
  name := String.ofList j.name
  type := j.type
  axis := if j.type = .floating ∨ j.type = .fixed then ⟨0, 0, 0⟩ else axisOf val j.axis
  origin := originOf val j.origin
  parentLinkName := String.ofList j.parent
  childLinkName := String.ofList j.child
  limits := j.limit.map (LimitRow.limits val)

/-- the inertial data of the description -/
def InertialRow.inertial (i : InertialRow) : Inertial K :=
  ⟨originOf val i.origin, val i.mass, val i.ixx, val i.ixy, val i.ixz, val i.iyy, val i.iyz, val i.izz⟩

/-- the link of the description -/
def LinkRow.link (l : LinkRow) : RawLink K := ⟨String.ofList l.name, l.inertial.map (InertialRow.inertial val)⟩

/-- The reader of numbers: ordinary decimal numbers are finite (`rnd` is the rounding of a decimal number to a `double`, `none` when
it overflows), and are rounded to what `val` says. -/
def Reads {K : Type} (rnd : Bool → Nat → Int → Option K) (val : Dec → K) : Prop :=
  ∀ d : Dec, d.Ordinary → rnd d.neg d.digits d.exp = some (val d)

/-- lines of text, with a line break after each but the last -/
def lines : List (List Char) → List Char
  | [] => []
  | [l] => l
  | l :: ls => l ++ '\n' :: lines ls

end Tinyfk
