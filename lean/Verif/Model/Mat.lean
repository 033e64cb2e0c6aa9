import Verif.Model.Outcome
import Verif.Model.Pose

/-!
# Dense matrices

`Eigen::MatrixXd` as used by the library: zero-initialised, written entry by entry or
block by block. The library is built with `NDEBUG`, so an access outside the matrix is
undefined behaviour; it is an outcome here. Entries outside the bounds of a model matrix
are never written and stay 0.
-/

namespace Tinyfk

/-- `Eigen::MatrixXd` -/
structure Mat (K : Type) where
  rows : Nat
  cols : Nat
  f : Nat → Nat → K

namespace Mat
variable {K : Type} [Scalar K]

/-- `Eigen::MatrixXd::Zero(r, c)` -/
def zero (r c : Nat) : Mat K := ⟨r, c, fun _ _ => 0⟩

/-- `M(i, j) = v` -/
def set (M : Mat K) (i j : Nat) (v : K) : Outcome (Mat K) :=
  if i < M.rows ∧ j < M.cols then
    .ok { M with f := fun a b => if a = i ∧ b = j then v else M.f a b }
  else .ub (.outOfBounds "Eigen matrix")

/-- `M(i, j)` as an rvalue -/
def get (M : Mat K) (i j : Nat) : Outcome K :=
  if i < M.rows ∧ j < M.cols then .ok (M.f i j) else .ub (.outOfBounds "Eigen matrix")

/-- the consecutive statements `M(i, j) = v0; M(i+1, j) = v1; ...` -/
def setCol (M : Mat K) (i j : Nat) : List K → Outcome (Mat K)
  | [] => .ok M
  | v :: vs => do
    let M' ← M.set i j v
    setCol M' (i + 1) j vs

/-- `M.transpose()` -/
def transpose (M : Mat K) : Mat K := ⟨M.cols, M.rows, fun i j => M.f j i⟩

/-- `M.block(i, j, B.rows(), B.cols()) = B` -/
def setBlock (M : Mat K) (i j : Nat) (B : Mat K) : Outcome (Mat K) :=
  if i + B.rows ≤ M.rows ∧ j + B.cols ≤ M.cols then
    .ok { M with f := fun a b =>
      if i ≤ a ∧ a < i + B.rows ∧ j ≤ b ∧ b < j + B.cols then B.f (a - i) (b - j) else M.f a b }
  else .ub (.outOfBounds "Eigen block")

/-- apply `g` to every entry of `M.block(i, j, r, c)`, as in `M.block(..) /= s` -/
def mapBlock (M : Mat K) (i j r c : Nat) (g : K → K) : Outcome (Mat K) :=
  if i + r ≤ M.rows ∧ j + c ≤ M.cols then
    .ok { M with f := fun a b =>
      if i ≤ a ∧ a < i + r ∧ j ≤ b ∧ b < j + c then g (M.f a b) else M.f a b }
  else .ub (.outOfBounds "Eigen block")

/-- `M.block(i, j, r, c) += s * B`; operands of different size are undefined -/
def addBlock (M : Mat K) (i j r c : Nat) (s : K) (B : Mat K) : Outcome (Mat K) :=
  if i + r ≤ M.rows ∧ j + c ≤ M.cols ∧ B.rows = r ∧ B.cols = c then
    .ok ⟨M.rows, M.cols, fun a b =>
      if i ≤ a ∧ a < i + r ∧ j ≤ b ∧ b < j + c then M.f a b + s * B.f (a - i) (b - j)
      else M.f a b⟩
  else .ub (.outOfBounds "Eigen block")

/-- `M += s * B` -/
def addScaled (M : Mat K) (s : K) (B : Mat K) : Outcome (Mat K) :=
  M.addBlock 0 0 M.rows M.cols s B

/-- `M /= s` -/
def divScalar (M : Mat K) (s : K) : Outcome (Mat K) := M.mapBlock 0 0 M.rows M.cols (· / s)

/-- numpy `J[:, idx]`: select columns; an index outside the matrix raises IndexError -/
def selectCols (M : Mat K) (idx : List Nat) : Outcome (Mat K) :=
  if ∀ c ∈ idx, c < M.cols then
    .ok ⟨M.rows, idx.length, fun a b => match idx[b]? with
      | some c => M.f a c
      | none => 0⟩
  else .exn (.indexError "index out of bounds")

end Mat
end Tinyfk
