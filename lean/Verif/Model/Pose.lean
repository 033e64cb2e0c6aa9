/-!
# Vectors, quaternions and poses

Models `urdf_parser/include/urdf_model/pose.h` and the arithmetic part of
`urdf_parser/src/pose.cpp`, operation by operation and in the source's order of
evaluation, over an arbitrary scalar type.
-/

namespace Tinyfk

/-- The operations the code performs on `double`. No laws are assumed, so a
theorem stated for every `Scalar` holds for IEEE arithmetic as well.
`lit m e` is the decimal literal `m * 10^(-e)`, `toFloat` the conversion to `float` (a colour, color.h:80) and back. -/
class Scalar (K : Type) extends Add K, Sub K, Mul K, Div K, Neg K, Zero K, One K where
  lit : Int → Nat → K
  sin : K → K
  cos : K → K
  asin : K → K
  sqrt : K → K
  atan2 : K → K → K
  lt : K → K → Bool
  le : K → K → Bool
  eq : K → K → Bool
  toFloat : K → K

open Scalar

/-- pose.h:51-114 `class Vector3` -/
@[ext] structure Vec3 (K : Type) where
  x : K
  y : K
  z : K
  deriving DecidableEq, Repr

/-- pose.h:118-313 `class Rotation` -/
@[ext] structure Rot (K : Type) where
  x : K
  y : K
  z : K
  w : K
  deriving DecidableEq, Repr

/-- pose.h:315-340 `class Pose` -/
@[ext] structure Pose (K : Type) where
  position : Vec3 K
  rotation : Rot K
  deriving DecidableEq, Repr

variable {K : Type} [Scalar K]

/-- the literal `2` -/
def two : K := lit 2 0
/-- the literal `0.5` -/
def half : K := lit 5 1
/-- the literal `1e-7` (kinematics.cpp:201) -/
def epsFD : K := lit 1 7
/-- the literal `0.99999` (pose.h:178,182) -/
def sargCut : K := lit 99999 5
/-- the literal `1.57079632679489661923` (pose.h:175) -/
def pi2 : K := lit 157079632679489661923 20

namespace Vec3

/-- pose.h:55,69 default constructor / `clear` -/
def zero : Vec3 K := ⟨0, 0, 0⟩
/-- pose.h:100-103 -/
def add (a b : Vec3 K) : Vec3 K := ⟨a.x + b.x, a.y + b.y, a.z + b.z⟩
/-- pose.h:105-108 -/
def sub (a b : Vec3 K) : Vec3 K := ⟨a.x - b.x, a.y - b.y, a.z - b.z⟩
/-- pose.h:94-98 `inverse_inplace`: each component `*= -1` -/
def inverseInplace (a : Vec3 K) : Vec3 K := ⟨a.x * -1, a.y * -1, a.z * -1⟩
/-- pose.cpp:90-94 `cross_product(a, b, out)` -/
def cross (a b : Vec3 K) : Vec3 K :=
  ⟨a.y * b.z - a.z * b.y, a.z * b.x - a.x * b.z, a.x * b.y - a.y * b.x⟩

end Vec3

namespace Rot

/-- pose.h:122,228 default constructor / `clear` -/
def one : Rot K := ⟨0, 0, 0, 1⟩

/-- pose.h:253-263 `operator*(const Rotation&)` -/
def mul (a q : Rot K) : Rot K where
  x := a.w * q.x + a.x * q.w + a.y * q.z - a.z * q.y
  y := a.w * q.y - a.x * q.z + a.y * q.w + a.z * q.x
  z := a.w * q.z + a.x * q.y - a.y * q.x + a.z * q.w
  w := a.w * q.w - a.x * q.x - a.y * q.y - a.z * q.z

/-- pose.h:288 the squared norm, in the source's order of summation -/
def norm2 (q : Rot K) : K := q.w * q.w + q.x * q.x + q.y * q.y + q.z * q.z

/-- pose.h:284-299 `GetInverse`: the default rotation when the norm is not positive -/
def getInverse (q : Rot K) : Rot K :=
  let norm := q.norm2
  if lt (0 : K) norm then ⟨-q.x / norm, -q.y / norm, -q.z / norm, q.w / norm⟩ else one

/-- pose.h:265-282 `operator*(Vector3)`: `q * (v * q.GetInverse())` -/
def rotate (q : Rot K) (v : Vec3 K) : Vec3 K :=
  let tmp : Rot K := ⟨v.x, v.y, v.z, 0⟩
  let r := mul q (mul tmp q.getInverse)
  ⟨r.x, r.y, r.z⟩

/-- pose.h:301-304 `inverse()`: unlike `GetInverse` there is no test of the norm -/
def inverse (q : Rot K) : Rot K :=
  let norm := q.norm2
  ⟨-q.x / norm, -q.y / norm, -q.z / norm, q.w / norm⟩

/-- pose.h:306-312 `inverse_inplace` computes the same values as `inverse` -/
def inverseInplace (q : Rot K) : Rot K :=
  let norm := q.norm2
  ⟨-q.x / norm, -q.y / norm, -q.z / norm, q.w / norm⟩

/-- pose.h:230-250 `normalize` -/
def normalize (q : Rot K) : Rot K :=
  let s := sqrt (q.x * q.x + q.y * q.y + q.z * q.z + q.w * q.w)
  if eq s (0 : K) then ⟨0, 0, 0, 1⟩ else ⟨q.x / s, q.y / s, q.z / s, q.w / s⟩

/-- pose.h:202-216 `setFromRPY` -/
def fromRPY (roll pitch yaw : K) : Rot K :=
  let phi := roll / two
  let the := pitch / two
  let psi := yaw / two
  normalize
    ⟨sin phi * cos the * cos psi - cos phi * sin the * sin psi,
     cos phi * sin the * cos psi + sin phi * cos the * sin psi,
     cos phi * cos the * sin psi - sin phi * sin the * cos psi,
     cos phi * cos the * cos psi + sin phi * sin the * sin psi⟩

/-- pose.h:174 `sarg` -/
def sarg (q : Rot K) : K := -two * (q.x * q.z - q.w * q.y)

/-- pose.h:161-192 `getRPY()`; the result is (roll, pitch, yaw). -/
def getRPY (q : Rot K) : Vec3 K :=
  let sqx := q.x * q.x
  let sqy := q.y * q.y
  let sqz := q.z * q.z
  let sqw := q.w * q.w
  let s := q.sarg
  if le s (-sargCut) then ⟨0, -pi2, two * atan2 q.x (-q.y)⟩
  else if le sargCut s then ⟨0, pi2, two * atan2 (-q.x) q.y⟩
  else
    ⟨atan2 (two * (q.y * q.z + q.w * q.x)) (sqw - sqx - sqy + sqz),
     asin s,
     atan2 (two * (q.x * q.y + q.w * q.z)) (sqw + sqx - sqy - sqz)⟩

end Rot

namespace Pose

/-- pose.h:318-327 default constructor / `clear` -/
def identity : Pose K := ⟨Vec3.zero, Rot.one⟩

/-- pose.cpp:139-146 `pose_transform(pose12, pose23)` -/
def transform (a b : Pose K) : Pose K :=
  ⟨Vec3.add (a.rotation.rotate b.position) a.position, Rot.mul a.rotation b.rotation⟩

/-- pose.h:329-339 `inverse()` via `inverse_inplace`: invert the rotation, negate the
position, then rotate the position by the new rotation -/
def inverse (a : Pose K) : Pose K :=
  let r := a.rotation.inverseInplace
  let p := a.position.inverseInplace
  ⟨r.rotate p, r⟩

end Pose
end Tinyfk
