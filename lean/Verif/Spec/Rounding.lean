import Verif.Model.Rounding
import Verif.Spec.Desc

/-!
# Specification: how far a computed pose may be from the exact one

Lengths and distances of vectors and quaternions, the length of the path from the root to a link, and what it means that a
description held in `double` is close to an exact one.
-/

namespace Tinyfk

/-- the length of a vector -/
noncomputable def Vec3.len (v : Vec3 ℝ) : ℝ := √(v.x ^ 2 + v.y ^ 2 + v.z ^ 2)
/-- the distance of two points -/
noncomputable def Vec3.dist (v w : Vec3 ℝ) : ℝ := √((v.x - w.x) ^ 2 + (v.y - w.y) ^ 2 + (v.z - w.z) ^ 2)
/-- the length of a quaternion -/
noncomputable def Rot.len (q : Rot ℝ) : ℝ := √(q.x ^ 2 + q.y ^ 2 + q.z ^ 2 + q.w ^ 2)
/-- the distance of two quaternions -/
noncomputable def Rot.dist (q r : Rot ℝ) : ℝ := √((q.x - r.x) ^ 2 + (q.y - r.y) ^ 2 + (q.z - r.z) ^ 2 + (q.w - r.w) ^ 2)

/-- the real numbers that the components of a vector are -/
def Vec3.real {F : Rounding} (v : Vec3 (Fl F)) : Vec3 ℝ := v
/-- the real numbers that the components of a rotation are -/
def Rot.real {F : Rounding} (q : Rot (Fl F)) : Rot ℝ := q
/-- the real numbers that the components of a pose are -/
def Pose.real {F : Rounding} (T : Pose (Fl F)) : Pose ℝ := T

/-- The pose `T'` is within `a`, relatively, of `T` in its rotation and within `b` in its position. -/
structure PoseNear {F : Rounding} (a b : ℝ) (T' : Pose (Fl F)) (T : Pose ℝ) : Prop where
  rot : Rot.dist T'.real.rotation T.rotation ≤ a * T.rotation.len
  pos : Vec3.dist T'.real.position T.position ≤ b

/-- A joint held in `double` and an exact joint: the same names and type, and numbers that agree to the relative accuracy `ε`
(for positions, to the absolute accuracy `ε * μ` when they are smaller than `μ`). -/
structure JointNear {F : Rounding} (ε μ : ℝ) (j' : RawJoint (Fl F)) (j : RawJoint ℝ) : Prop where
  name : j'.name = j.name
  type : j'.type = j.type
  parent : j'.parentLinkName = j.parentLinkName
  child : j'.childLinkName = j.childLinkName
  origin : PoseNear ε (ε * (j.origin.position.len + μ)) j'.origin j.origin
  axis : Vec3.dist j'.axis.real j.axis ≤ ε * j.axis.len

/-- the same for an added link -/
structure WeldNear {F : Rounding} (ε μ : ℝ) (w' : Weld (Fl F)) (w : Weld ℝ) : Prop where
  name : w'.name = w.name
  carrier : w'.carrier = w.carrier
  offset : PoseNear ε (ε * (w.offset.position.len + μ)) w'.offset w.offset

/-- A robot held in `double` and an exact robot. -/
structure RobotNear {F : Rounding} (ε μ : ℝ) (ls' : List (RawLink (Fl F))) (js' : List (RawJoint (Fl F))) (welds' : Weld (Fl F) → Prop)
    (ls : List (RawLink ℝ)) (js : List (RawJoint ℝ)) (welds : Weld ℝ → Prop) : Prop where
  links : ∀ l' ∈ ls', ∃ l ∈ ls, l'.name = l.name
  joints : ∀ j' ∈ js', ∃ j ∈ js, JointNear ε μ j' j
  children : ∀ j ∈ js, ∃ j' ∈ js', j'.childLinkName = j.childLinkName
  welds : ∀ w', welds' w' → ∃ w, welds w ∧ WeldNear ε μ w' w

/-- Rotations are given by quaternions of length between 1/2 and 2 and turning axes by vectors of such a length. -/
structure Proper (js : List (RawJoint ℝ)) (welds : Weld ℝ → Prop) : Prop where
  origin : ∀ j ∈ js, 1 / 2 ≤ j.origin.rotation.len ∧ j.origin.rotation.len ≤ 2
  axis : ∀ j ∈ js, j.type = .revolute ∨ j.type = .continuous → 1 / 2 ≤ j.axis.len ∧ j.axis.len ≤ 2
  offset : ∀ w, welds w → 1 / 2 ≤ w.offset.rotation.len ∧ w.offset.rotation.len ≤ 2

/-- the length of a joint: that of its offset, and how far a sliding joint is out -/
noncomputable def RawJoint.reach (j : RawJoint ℝ) (θ : ℝ) : ℝ :=
  j.origin.position.len + if j.type = .prismatic then j.axis.len * |θ| else 0

/-- `PathLength ls js welds θ base n d L`: from the world frame to the link named `n` there are `d` joints and welds, and the
lengths of the base position, of the joints and of the welds add up to `L`. -/
inductive PathLength (ls : List (RawLink ℝ)) (js : List (RawJoint ℝ)) (welds : Weld ℝ → Prop) (θ : String → ℝ) (base : Pose ℝ) :
    String → Nat → ℝ → Prop
  | root {l : RawLink ℝ} : l ∈ ls → (∀ j ∈ js, j.childLinkName ≠ l.name) → PathLength ls js welds θ base l.name 0 base.position.len
  | joint {j : RawJoint ℝ} {d : Nat} {L : ℝ} : j ∈ js → PathLength ls js welds θ base j.parentLinkName d L →
      PathLength ls js welds θ base j.childLinkName (d + 1) (L + j.reach (θ j.name))
  | weld {w : Weld ℝ} {d : Nat} {L : ℝ} : welds w → PathLength ls js welds θ base w.carrier d L →
      PathLength ls js welds θ base w.name (d + 1) (L + w.offset.position.len)

/-- The numbers are of ordinary size, for links behind at most `D` joints and at most `R` away: the accuracy `ε` is small
against the number of joints and the angles `A`, and neither `tiny` nor `big` is met. (With `ε = 2^-53` and `A = 10` the first
allows for millions of millions of joints; with `μ = 2^-800`, `tiny = 2^-1022` and `big = 2^1000` the others allow for 30 joints
and lengths up to `2^800`.) -/
structure Small (F : Rounding) (ε μ A : ℝ) (D : Nat) (R : ℝ) : Prop where
  acc : 500 * (D + 1) * ε * A ≤ 1
  tiny : F.tiny * 64 ^ (D + 2) ≤ μ
  unit : μ ≤ 1
  range : 64 ^ (D + 2) * (1 + R + A) ≤ F.big

/-- the components of a vector, rounded -/
structure VecRounded {F : Rounding} (v' : Vec3 (Fl F)) (v : Vec3 ℝ) : Prop where
  x : Rounded F.u F.tiny v'.real.x v.x
  y : Rounded F.u F.tiny v'.real.y v.y
  z : Rounded F.u F.tiny v'.real.z v.z

/-- `T'` is the pose that the code makes of the rounded numbers `xyz` and `rpy`, `T` the one that they describe; the angles are
at most `A`. -/
def PoseRounded {F : Rounding} (A : ℝ) (T' : Pose (Fl F)) (T : Pose ℝ) : Prop :=
  ∃ (v' a' : Vec3 (Fl F)) (v a : Vec3 ℝ), VecRounded v' v ∧ VecRounded a' a ∧
    |a'.real.x| ≤ A ∧ |a'.real.y| ≤ A ∧ |a'.real.z| ≤ A ∧ |a.x| ≤ A ∧ |a.y| ≤ A ∧ |a.z| ≤ A ∧
    T' = ⟨v', Rot.fromRPY a'.x a'.y a'.z⟩ ∧ T = ⟨v, Rot.fromRPY a.x a.y a.z⟩

/-- How far the position rows of the column of joint `r` in a computed Jacobian may be from the derivative, for a link behind `d`
joints and welds and a path of length `L`. -/
noncomputable def colBound (ε μ A : ℝ) (r : RawJoint ℝ) (d : Nat) (L : ℝ) : ℝ :=
  if r.type = .prismatic then 500 * (d + 1) * ε * A * (r.axis.len + μ) else 3000 * (d + 1) * ε * A * (L + (d + 1) * μ)

end Tinyfk
