import Verif.Proofs.RoundScale
import Verif.Proofs.ComQuery
import Verif.Spec.RoundInertia
import Mathlib.Tactic.FinCases

/-!
# Rounding errors of the inertia sum
-/

namespace Tinyfk

open Scalar

variable {F : Rounding} {η B B1 B2 k k1 k2 H V : ℝ}

/-- the entries of a matrix, relative to one scale -/
def ScM (F : Rounding) (η B k : ℝ) (A' : M3 (Fl F)) (A : M3 ℝ) : Prop := ∀ i j, Sc F η B k (A' i j) (A i j)

theorem ScM.add {A' C' : M3 (Fl F)} {A C : M3 ℝ} (hF : Fine F η) (h1 : ScM F η B1 k1 A' A) (h2 : ScM F η B2 k2 C' C) (hk1 : k1 ≤ k) (hk2 : k2 ≤ k)
    (hk : k ≤ 1000) (hb : 2 * (B1 + B2) ≤ F.big) : ScM F η (B1 + B2) (k + 2) (M3.add A' C') (M3.add A C) :=
  fun i j => Sc.add hF (h1 i j) (h2 i j) hk1 hk2 hk hb

theorem ScM.tr {A' : M3 (Fl F)} {A : M3 ℝ} (h : ScM F η B k A' A) : ScM F η B k (M3.tr A') (M3.tr A) := fun i j => h j i

theorem ScM.mul {A' C' : M3 (Fl F)} {A C : M3 ℝ} (hF : Fine F η) (h1 : ScM F η B1 k1 A' A) (h2 : ScM F η B2 k2 C' C) (hk1 : k1 ≤ 100)
    (hk2 : k2 ≤ 100) (ht : F.tiny ≤ B1 * B2) (hb : 6 * (B1 * B2) ≤ F.big) :
    ScM F η (3 * (B1 * B2)) (k1 + k2 + 7) (M3.mul A' C') (M3.mul A C) := by
  intro i j
  have h0 : 0 ≤ B1 * B2 := F.tiny_nonneg.trans ht
  have p := fun l => Sc.mul hF (h1 i l) (h2 l j) hk1 hk2 ht (by linarith)
  have s := Sc.add (k := k1 + k2 + 5) hF (Sc.add (k := k1 + k2 + 3) hF (p 0) (p 1) le_rfl le_rfl (by linarith) (by linarith)) (p 2) (by linarith) (by linarith)
    (by linarith) (by linarith)
  exact s.mono hF (by linarith) (by linarith)

theorem two_scale (hF : Fine F η) (ht : F.tiny ≤ 2) (hb : 2 ≤ F.big) : Sc F η 2 1 (two : Fl F) 2 := by
  refine ⟨by norm_num, ?_, ht, by norm_num⟩
  have h := F.lit_rounded 2 0 (by norm_num; exact hb)
  have e : ((2 : ℤ) : ℝ) / 10 ^ 0 = 2 := by norm_num
  rw [e] at h
  refine h.trans ?_
  rw [one_mul, abs_of_nonneg (by norm_num), max_eq_left ht]
  exact mul_le_mul_of_nonneg_right hF.u (by norm_num)

/-- the rotation matrix of a quaternion -/
theorem mat_scale {q' : Rot (Fl F)} {q : Rot ℝ} (hF : Fine F η) (ht : F.tiny ≤ 1) (hb : 10 ≤ F.big)
    (hx : Sc F η 1 1 q'.x q.x) (hy : Sc F η 1 1 q'.y q.y) (hz : Sc F η 1 1 q'.z q.z) (hw : Sc F η 1 1 q'.w q.w) :
    ScM F η 5 13 q'.mat q.mat := by
  have p : ∀ {a' b' : Fl F} {a b : ℝ}, Sc F η 1 1 a' a → Sc F η 1 1 b' b → Sc F η 2 9 ((two : Fl F) * (a' * b') : Fl F) ((2 : ℝ) * (a * b)) := by
    intro a' b' a b ha hb'
    have h1 := Sc.mul hF ha hb' (by norm_num) (by norm_num) (by linarith) (by linarith)
    have h2 := Sc.mul hF (two_scale hF (by linarith) (by linarith)) h1 (by norm_num) (by norm_num) (by linarith) (by linarith)
    exact h2.mono hF (by norm_num) (by norm_num)
  have one' : Sc F η 1 1 (1 : ℝ) (1 : ℝ) := Sc.exact hF (by rw [abs_one]) ht (by norm_num)
  have one : Sc F η 1 1 ((1 : Fl F)) (1 : ℝ) := one'
  have d : ∀ {a' b' : Fl F} {a b : ℝ}, Sc F η 2 9 a' a → Sc F η 2 9 b' b → Sc F η 5 13 (1 - a' - b' : Fl F) (1 - a - b) := by
    intro a' b' a b ha hb'
    have h1 := Sc.sub (k := 9) hF one ha (by norm_num) le_rfl (by norm_num) (by linarith)
    have h2 := Sc.sub (k := 11) hF h1 hb' (by norm_num) (by norm_num) (by norm_num) (by linarith)
    exact h2.mono hF (by norm_num) (by norm_num)
  have s : ∀ {a' b' : Fl F} {a b : ℝ}, Sc F η 2 9 a' a → Sc F η 2 9 b' b → Sc F η 5 13 (a' + b' : Fl F) (a + b) := by
    intro a' b' a b ha hb'
    exact (Sc.add (k := 9) hF ha hb' le_rfl le_rfl (by norm_num) (by linarith)).mono hF (by norm_num) (by norm_num)
  have m : ∀ {a' b' : Fl F} {a b : ℝ}, Sc F η 2 9 a' a → Sc F η 2 9 b' b → Sc F η 5 13 (a' - b' : Fl F) (a - b) := by
    intro a' b' a b ha hb'
    exact (Sc.sub (k := 9) hF ha hb' le_rfl le_rfl (by norm_num) (by linarith)).mono hF (by norm_num) (by norm_num)
  have t2 : (two : ℝ) = 2 := by show ((2 : ℤ) : ℝ) / 10 ^ 0 = 2; norm_num
  intro i j
  simp only [Rot.mat, t2]
  fin_cases i <;> fin_cases j
  · exact d (p hy hy) (p hz hz)
  · exact m (p hx hy) (p hz hw)
  · exact s (p hx hz) (p hy hw)
  · exact s (p hx hy) (p hz hw)
  · exact d (p hx hx) (p hz hz)
  · exact m (p hy hz) (p hx hw)
  · exact m (p hx hz) (p hy hw)
  · exact s (p hy hz) (p hx hw)
  · exact d (p hx hx) (p hy hy)

/-- the squared length, computed by way of the length -/
theorem square_scale {S' S : ℝ} (hF : Fine F η) (h : Sc F η (3 * V ^ 2) 19 S' S) (hS' : 0 ≤ S') (hV : 0 ≤ V) (htV : F.tiny ≤ V)
    (hb : 10 * V ^ 2 ≤ F.big) (hb1 : 2 * V ≤ F.big) : Sc F η (3 * V ^ 2) 24 (F.mul (F.sqrt S') (F.sqrt S')) S := by
  have h0 := hF.nonneg
  have hsm := hF.small
  have hle := h.abs_le hF (by norm_num)
  have hs : √S' ≤ 2 * V := by
    rw [Real.sqrt_le_left (by linarith)]
    rw [abs_of_nonneg hS'] at hle
    nlinarith [sq_nonneg V]
  have hs0 := Real.sqrt_nonneg S'
  have hr : |F.sqrt S' - √S'| ≤ η * (2 * V) :=
    (F.sqrt_rounded hS' (hs.trans hb1)).trans (mul_le_mul hF.u (max_le (by rw [abs_of_nonneg hs0]; exact hs) (by linarith))
      (le_max_of_le_left (abs_nonneg _)) h0)
  have hηV : η * (2 * V) ≤ 1 / 10 * V := by
    have : η * (2 * V) ≤ 1 / 10 ^ 6 * (2 * V) := mul_le_mul_of_nonneg_right hsm (by linarith)
    linarith
  have habs : |F.sqrt S' + √S'| ≤ 41 / 10 * V := by
    have := abs_add_le (F.sqrt S' - √S') (2 * √S')
    rw [show F.sqrt S' - √S' + 2 * √S' = F.sqrt S' + √S' by ring, abs_of_nonneg (by linarith : 0 ≤ 2 * √S')] at this
    linarith
  have hd : |F.sqrt S' * F.sqrt S' - S'| ≤ 3 * η * (3 * V ^ 2) := by
    have e : F.sqrt S' * F.sqrt S' - S' = (F.sqrt S' - √S') * (F.sqrt S' + √S') := by
      have := Real.mul_self_sqrt hS'
      linear_combination this
    rw [e, abs_mul]
    calc |F.sqrt S' - √S'| * |F.sqrt S' + √S'| ≤ η * (2 * V) * (41 / 10 * V) := mul_le_mul hr habs (abs_nonneg _) (by positivity)
      _ = 82 / 10 * (η * V ^ 2) := by ring
      _ ≤ 9 * (η * V ^ 2) := mul_le_mul_of_nonneg_right (by norm_num) (by positivity)
      _ = _ := by ring
  have hp : Sc F η (3 * V ^ 2) 22 (F.sqrt S' * F.sqrt S') S := by
    refine ⟨h.size, ?_, h.tiny, by norm_num⟩
    have := abs_add_le (F.sqrt S' * F.sqrt S' - S') (S' - S)
    rw [sub_add_sub_cancel] at this
    linarith [h.near]
  exact (hp.rounded hF (by norm_num) (F.mul_rounded ((hp.abs_le hF (by norm_num)).trans (by nlinarith [sq_nonneg V])))).mono hF le_rfl (by norm_num)

/-- the parallel-axis term -/
theorem trans_scale {m' : Fl F} {m Mb : ℝ} {v' : Vec3 (Fl F)} {v : Vec3 ℝ} (hF : Fine F η) (hS : KeepsSign F) (hm : Sc F η Mb 1 m' m)
    (hx : Sc F η V 5 v'.x v.x) (hy : Sc F η V 5 v'.y v.y) (hz : Sc F η V 5 v'.z v.z) (ht2 : F.tiny ≤ V ^ 2)
    (htm : F.tiny ≤ Mb * V ^ 2) (ht1 : F.tiny ≤ 1) (hb : 10 * V ^ 2 ≤ F.big) (hb1 : 2 * V ≤ F.big) (hbm : 8 * (Mb * V ^ 2) ≤ F.big) :
    ScM F η (4 * (Mb * V ^ 2)) 34 (transTerm m' v') (transTerm m v) := by
  have hV := hx.B0
  have hMb := hm.B0
  have sq : ∀ {a' b' : Fl F} {a b : ℝ}, Sc F η V 5 a' a → Sc F η V 5 b' b → Sc F η (V ^ 2) 13 (a' * b' : Fl F) (a * b) := by
    intro a' b' a b ha hb'
    rw [pow_two] at ht2 hb ⊢
    exact (Sc.mul hF ha hb' (by norm_num) (by norm_num) ht2 (by nlinarith)).mono hF le_rfl (by norm_num)
  have hV2 : 0 ≤ V ^ 2 := by positivity
  have hsum := Sc.add (k := 15) hF (Sc.add (k := 13) hF (sq hx hx) (sq hy hy) le_rfl le_rfl (by norm_num) (by linarith)) (sq hz hz) (by norm_num) (by norm_num)
    (by norm_num) (by linarith)
  have hnn : Sc F η (3 * V ^ 2) 24 (F.mul (F.sqrt (v'.x * v'.x + v'.y * v'.y + v'.z * v'.z : Fl F)) (F.sqrt (v'.x * v'.x + v'.y * v'.y + v'.z * v'.z : Fl F)))
      (v.x * v.x + v.y * v.y + v.z * v.z) :=
    square_scale hF (hsum.mono hF (by linarith) (by norm_num)) (hS.add (hS.add (hS.mul _) (hS.mul _)) (hS.mul _)) hV hx.tiny hb hb1
  have he : √(v.x * v.x + v.y * v.y + v.z * v.z) * √(v.x * v.x + v.y * v.y + v.z * v.z) = v.x * v.x + v.y * v.y + v.z * v.z :=
    Real.mul_self_sqrt (by nlinarith [sq_nonneg v.x, sq_nonneg v.y, sq_nonneg v.z])
  have c : ∀ {c : ℝ}, |c| ≤ 1 → Sc F η (3 * V ^ 2) 27
      ((F.mul (F.mul (F.sqrt (v'.x * v'.x + v'.y * v'.y + v'.z * v'.z : Fl F)) (F.sqrt (v'.x * v'.x + v'.y * v'.y + v'.z * v'.z : Fl F))) c))
      (√(v.x * v.x + v.y * v.y + v.z * v.z) * √(v.x * v.x + v.y * v.y + v.z * v.z) * c) := by
    intro c hc
    rw [he]
    have one : Sc F η 1 0 c c := Sc.exact hF hc ht1 le_rfl
    exact (Sc.mul hF hnn one (by norm_num) (by norm_num) (by linarith) (by linarith)).mono hF (by linarith) (by norm_num)
  have fin : ∀ {c0 : ℝ} {a' b' : Fl F} {a b : ℝ}, |c0| ≤ 1 → Sc F η V 5 a' a → Sc F η V 5 b' b →
      Sc F η (4 * (Mb * V ^ 2)) 34
        (F.mul m' (F.sub (F.mul (F.mul (F.sqrt (v'.x * v'.x + v'.y * v'.y + v'.z * v'.z : Fl F)) (F.sqrt (v'.x * v'.x + v'.y * v'.y + v'.z * v'.z : Fl F))) c0)
          (a' * b' : Fl F)))
        (m * (√(v.x * v.x + v.y * v.y + v.z * v.z) * √(v.x * v.x + v.y * v.y + v.z * v.z) * c0 - a * b)) := by
    intro c0 a' b' a b h0 ha hb'
    have h1 := Sc.sub (k := 27) hF (c h0) (sq ha hb') le_rfl (by norm_num) (by norm_num) (by linarith)
    have h2 := Sc.mul hF hm h1 (by norm_num) (by norm_num) (by nlinarith) (by nlinarith)
    exact h2.mono hF (by nlinarith) (by norm_num)
  intro i j
  simp only [transTerm]
  fin_cases i <;> fin_cases j
  · exact fin (c0 := 1) (by norm_num) hx hx
  · exact fin (c0 := 0) (by norm_num) hx hy
  · exact fin (c0 := 0) (by norm_num) hx hz
  · exact fin (c0 := 0) (by norm_num) hy hx
  · exact fin (c0 := 1) (by norm_num) hy hy
  · exact fin (c0 := 0) (by norm_num) hy hz
  · exact fin (c0 := 0) (by norm_num) hz hx
  · exact fin (c0 := 0) (by norm_num) hz hy
  · exact fin (c0 := 1) (by norm_num) hz hz

theorem Sc.add_long {x' x y' y : ℝ} (hF : Fine F η) (h1 : Sc F η B1 k1 x' x) (h2 : Sc F η B2 k2 y' y) (hk1 : k1 ≤ k) (hk2 : k2 ≤ k)
    (hk : k * η ≤ 1 / 1000) (hb : 2 * (B1 + B2) ≤ F.big) : Sc F η (B1 + B2) (k + 2) (F.add x' y') (x + y) := by
  have h := Sc.sum hF h1 h2 hk1 hk2
  have h0 := hF.nonneg
  have hB := h.B0
  have ha : |x' + y'| ≤ 1001 / 1000 * (B1 + B2) := by
    have h4 : k * η * (B1 + B2) ≤ 1 / 1000 * (B1 + B2) := mul_le_mul_of_nonneg_right hk hB
    have := abs_add_le (x' + y' - (x + y)) (x + y)
    rw [sub_add_cancel] at this
    linarith [h.near, h.size]
  have e1 : |F.add x' y' - (x' + y')| ≤ η * (2 * (B1 + B2)) := by
    refine (F.add_rounded (by linarith)).trans (mul_le_mul hF.u ?_ (le_max_of_le_left (abs_nonneg _)) h0)
    exact max_le (by linarith) (by linarith [h.tiny])
  refine ⟨h.size, ?_, h.tiny, by linarith [h.k0]⟩
  have := abs_add_le (F.add x' y' - (x' + y')) (x' + y' - (x + y))
  rw [sub_add_sub_cancel] at this
  linarith [h.near]

/-- the bodies of a computed robot and of an exact one, as the inertia sum meets them -/
structure MassNear (F : Rounding) (η H V μ : ℝ) (x' : Inertial (Fl F) × Pose (Fl F)) (x : Inertial ℝ × Pose ℝ) : Prop where
  mass : Sc F η (x.1.mass + μ) 1 x'.1.mass x.1.mass
  mat : ScM F η H 1 x'.1.mat x.1.mat
  qx : Sc F η 1 1 x'.2.rotation.x x.2.rotation.x
  qy : Sc F η 1 1 x'.2.rotation.y x.2.rotation.y
  qz : Sc F η 1 1 x'.2.rotation.z x.2.rotation.z
  qw : Sc F η 1 1 x'.2.rotation.w x.2.rotation.w
  px : Sc F η (V / 2) 1 x'.2.position.x x.2.position.x
  py : Sc F η (V / 2) 1 x'.2.position.y x.2.position.y
  pz : Sc F η (V / 2) 1 x'.2.position.z x.2.position.z

/-- the sizes of the numbers in the inertia sum stay away from the ends of the range -/
structure InertiaRange (F : Rounding) (H V μ M : ℝ) : Prop where
  tiny : F.tiny ≤ H
  one : F.tiny ≤ 1
  V2 : F.tiny ≤ V ^ 2
  μV2 : F.tiny ≤ μ * V ^ 2
  big : 10 * (225 * H + 4 * V ^ 2 * (M + 1) + 1) ≤ F.big

/-- the term of one body -/
theorem body_scale {M μ : ℝ} {x' : Inertial (Fl F) × Pose (Fl F)} {x : Inertial ℝ × Pose ℝ} {c' : Vec3 (Fl F)} {c : Vec3 ℝ} (hF : Fine F η) (hS : KeepsSign F)
    (hr : InertiaRange F H V μ M) (h : MassNear F η H V μ x' x) (hm0 : 0 ≤ x.1.mass) (hM : x.1.mass + μ ≤ M) (hμ : 0 ≤ μ)
    (hx : Sc F η (V / 2) 3 c'.x c.x) (hy : Sc F η (V / 2) 3 c'.y c.y) (hz : Sc F η (V / 2) 3 c'.z c.z) :
    ScM F η (225 * H + 4 * ((x.1.mass + μ) * V ^ 2)) 43
      (M3.add (M3.mul (M3.mul x'.2.rotation.mat x'.1.mat) (M3.tr x'.2.rotation.mat)) (transTerm x'.1.mass (Vec3.sub x'.2.position c')))
      (M3.add (M3.mul (M3.mul x.2.rotation.mat x.1.mat) (M3.tr x.2.rotation.mat)) (transTerm x.1.mass (Vec3.sub x.2.position c))) := by
  have hV : 0 ≤ V := by linarith [hx.B0]
  have hV2 : 0 ≤ V ^ 2 := by positivity
  have hH : 0 ≤ H := F.tiny_nonneg.trans hr.tiny
  have hM0 : 0 ≤ M := by linarith
  have hMV : (x.1.mass + μ) * V ^ 2 ≤ M * V ^ 2 := mul_le_mul_of_nonneg_right hM hV2
  have hMV0 : 0 ≤ (x.1.mass + μ) * V ^ 2 := by positivity
  have hb := hr.big
  have ht := hr.tiny
  have hR := mat_scale hF hr.one (by nlinarith) h.qx h.qy h.qz h.qw
  have h1 := ScM.mul hF hR h.mat (by norm_num) (by norm_num) (by linarith) (by nlinarith)
  have h2 := ScM.mul hF h1 hR.tr (by norm_num) (by norm_num) (by linarith) (by nlinarith)
  have v : ∀ {a' b' : Fl F} {a b : ℝ}, Sc F η (V / 2) 1 a' a → Sc F η (V / 2) 3 b' b → Sc F η V 5 (F.sub a' b') (a - b) := by
    intro a' b' a b ha hb'
    exact (Sc.sub (k := 3) hF ha hb' (by norm_num) le_rfl (by norm_num) (by nlinarith [sq_nonneg (V - 1)])).mono hF (by linarith) (by norm_num)
  have h3 := trans_scale (v' := Vec3.sub x'.2.position c') (v := Vec3.sub x.2.position c) hF hS h.mass (v h.px hx) (v h.py hy) (v h.pz hz) hr.V2
    (by have : 0 ≤ x.1.mass * V ^ 2 := by positivity
        linarith [hr.μV2]) hr.one (by nlinarith) (by nlinarith [sq_nonneg (V - 1)]) (by nlinarith)
  have h4 := ScM.add (k := 41) hF h2 h3 (by norm_num) (by norm_num) (by norm_num) (by nlinarith)
  intro i j
  exact (h4 i j).mono hF (by linarith) (by norm_num)

/-- the sum over the bodies -/
theorem inertia_scale {M μ : ℝ} {c' : Vec3 (Fl F)} {c : Vec3 ℝ} (hF : Fine F η) (hS : KeepsSign F) (hμ : 0 ≤ μ) (hr : InertiaRange F H V μ M)
    (hx : Sc F η (V / 2) 3 c'.x c.x) (hy : Sc F η (V / 2) 3 c'.y c.y) (hz : Sc F η (V / 2) 3 c'.z c.z)
    {xs' : List (Inertial (Fl F) × Pose (Fl F))} {xs : List (Inertial ℝ × Pose ℝ)} (h : List.Forall₂ (MassNear F η H V μ) xs' xs) :
    ∀ (acc' : M3 (Fl F)) (acc : M3 ℝ) (B k : ℝ), (∀ x ∈ xs, 0 ≤ x.1.mass ∧ x.1.mass + μ ≤ M) → ScM F η B k acc' acc → 43 ≤ k →
      (k + 2 * xs.length) * η ≤ 1 / 1000 →
      2 * (B + (xs.map fun x => 225 * H + 4 * ((x.1.mass + μ) * V ^ 2)).sum) ≤ F.big →
      ScM F η (B + (xs.map fun x => 225 * H + 4 * ((x.1.mass + μ) * V ^ 2)).sum) (k + 2 * xs.length)
        (xs'.foldl (inertiaStep c') acc') (xs.foldl (inertiaStep c) acc) := by
  have hH : 0 ≤ H := F.tiny_nonneg.trans hr.tiny
  induction h with
  | nil => intro acc' acc B k _ h0 _ _ _; simpa using h0
  | @cons x' x xs' xs h1 h2 ih =>
    intro acc' acc B k hm h0 hk hkη hb
    obtain ⟨m1, m2⟩ := hm x (by simp)
    have hrest : 0 ≤ (xs.map fun x => 225 * H + 4 * ((x.1.mass + μ) * V ^ 2)).sum := by
      refine List.sum_nonneg ?_
      simp only [List.mem_map, forall_exists_index, and_imp, forall_apply_eq_imp_iff₂]
      intro y hy
      have := (hm y (by simp [hy])).1
      positivity
    simp only [List.map_cons, List.sum_cons, List.length_cons] at hb hkη ⊢
    push_cast at hkη ⊢
    have hη := hF.nonneg
    have hl : 0 ≤ (xs.length : ℝ) * η := by positivity
    have hs := body_scale hF hS hr h1 m1 m2 hμ hx hy hz
    have step : ScM F η (B + (225 * H + 4 * ((x.1.mass + μ) * V ^ 2))) (k + 2) (inertiaStep c' acc' x') (inertiaStep c acc x) :=
      fun i j => Sc.add_long hF (h0 i j) (hs i j) le_rfl hk (by linarith) (by linarith)
    have := ih _ _ _ _ (fun y hy => hm y (by simp [hy])) step (by linarith) (by linarith) (by linarith)
    rw [List.foldl_cons, List.foldl_cons]
    intro i j
    exact (this i j).mono hF (by linarith) (by linarith)

/-- a weighted mean of numbers at most `R` is at most `R` -/
theorem mean_le {α : Type} {w t : α → ℝ} {R : ℝ} {bs : List α} (h : ∀ b ∈ bs, 0 ≤ w b ∧ |t b| ≤ R) (hM : 0 < bs.foldl (fun s b => s + w b) 0) :
    |bs.foldl (fun s b => s + w b * t b) 0 / bs.foldl (fun s b => s + w b) 0| ≤ R := by
  have key : ∀ (x y : ℝ), |x| ≤ R * y → |bs.foldl (fun s b => s + w b * t b) x| ≤ R * bs.foldl (fun s b => s + w b) y := by
    clear hM
    induction bs with
    | nil => intro x y h; exact h
    | cons b bs ih =>
      intro x y hxy
      refine ih (fun b hb => h b (by simp [hb])) _ _ ?_
      obtain ⟨h1, h2⟩ := h b (by simp)
      have := abs_add_le x (w b * t b)
      rw [abs_mul, abs_of_nonneg h1] at this
      have := mul_le_mul_of_nonneg_left h2 h1
      linarith
  rw [abs_div, abs_of_pos hM, div_le_iff₀ hM]
  exact key 0 0 (by simp)

end Tinyfk
