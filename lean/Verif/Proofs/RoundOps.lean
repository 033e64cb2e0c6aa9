import Verif.Model.Rounding
import Mathlib.Analysis.Quaternion

/-!
# Rounding errors of the quaternion operations
-/

namespace Tinyfk

open Quaternion

/-- `Rounded`, weakened to a sum -/
theorem Rounded.le {u t y x : ℝ} (h : Rounded u t y x) (hu : 0 ≤ u) (ht : 0 ≤ t) : |y - x| ≤ u * |x| + u * t := by
  unfold Rounded at h
  have : max |x| t ≤ |x| + t := max_le (by linarith) (by linarith [abs_nonneg x])
  calc _ ≤ _ := h
    _ ≤ u * (|x| + t) := mul_le_mul_of_nonneg_left this hu
    _ = _ := by ring

section
variable {u t : ℝ} (hu : 0 ≤ u) (hu1 : u ≤ 1 / 1000) (ht : 0 ≤ t)
include hu hu1 ht

omit hu in
theorem abs_le_of_near {y x : ℝ} (h : |y - x| ≤ u * |x| + u * t) : |y| ≤ 1001 / 1000 * |x| + 1 / 1000 * t := by
  have h1 : |y| ≤ |y - x| + |x| := by
    have := abs_add_le (y - x) x
    simpa using this
  have h2 : u * |x| ≤ 1 / 1000 * |x| := mul_le_mul_of_nonneg_right hu1 (abs_nonneg x)
  have h3 : u * t ≤ 1 / 1000 * t := mul_le_mul_of_nonneg_right hu1 ht
  linarith

/-- The rounded sum of four rounded terms, summed from the left. -/
theorem sum4_near {p1 p2 p3 p4 t1 t2 t3 t4 s2 s3 s4 big : ℝ}
    (h1 : |p1 - t1| ≤ u * |t1| + u * t) (h2 : |p2 - t2| ≤ u * |t2| + u * t)
    (h3 : |p3 - t3| ≤ u * |t3| + u * t) (h4 : |p4 - t4| ≤ u * |t4| + u * t)
    (hb : 2 * (|t1| + |t2| + |t3| + |t4| + t) ≤ big)
    (g2 : |p1 + p2| ≤ big → |s2 - (p1 + p2)| ≤ u * |p1 + p2| + u * t)
    (g3 : |s2 + p3| ≤ big → |s3 - (s2 + p3)| ≤ u * |s2 + p3| + u * t)
    (g4 : |s3 + p4| ≤ big → |s4 - (s3 + p4)| ≤ u * |s3 + p4| + u * t) :
    |s4 - (t1 + t2 + t3 + t4)| ≤ 5 * u * (|t1| + |t2| + |t3| + |t4|) + 8 * u * t := by
  have b1 := abs_le_of_near hu1 ht h1
  have b2 := abs_le_of_near hu1 ht h2
  have b3 := abs_le_of_near hu1 ht h3
  have b4 := abs_le_of_near hu1 ht h4
  have n1 := abs_nonneg t1
  have n2 := abs_nonneg t2
  have n3 := abs_nonneg t3
  have n4 := abs_nonneg t4
  have c2 : |p1 + p2| ≤ |p1| + |p2| := abs_add_le _ _
  have k2 := g2 (by linarith)
  have a2 := abs_le_of_near hu1 ht k2
  have c3 : |s2 + p3| ≤ |s2| + |p3| := abs_add_le _ _
  have k3 := g3 (by linarith)
  have a3 := abs_le_of_near hu1 ht k3
  have c4 : |s3 + p4| ≤ |s3| + |p4| := abs_add_le _ _
  have k4 := g4 (by linarith)
  have e : s4 - (t1 + t2 + t3 + t4) = (s4 - (s3 + p4)) + (s3 - (s2 + p3)) + (s2 - (p1 + p2)) +
      (p1 - t1) + (p2 - t2) + (p3 - t3) + (p4 - t4) := by ring
  have tri : |s4 - (t1 + t2 + t3 + t4)| ≤ |s4 - (s3 + p4)| + |s3 - (s2 + p3)| + |s2 - (p1 + p2)| +
      |p1 - t1| + |p2 - t2| + |p3 - t3| + |p4 - t4| := by
    rw [e]
    refine (abs_add_le _ _).trans (add_le_add ?_ le_rfl)
    refine (abs_add_le _ _).trans (add_le_add ?_ le_rfl)
    refine (abs_add_le _ _).trans (add_le_add ?_ le_rfl)
    refine (abs_add_le _ _).trans (add_le_add ?_ le_rfl)
    refine (abs_add_le _ _).trans (add_le_add ?_ le_rfl)
    exact abs_add_le _ _
  have m2 : u * |p1 + p2| ≤ u * (11 / 10 * (|t1| + |t2| + |t3| + |t4|) + 1 / 10 * t) :=
    mul_le_mul_of_nonneg_left (by linarith) hu
  have m3 : u * |s2 + p3| ≤ u * (11 / 10 * (|t1| + |t2| + |t3| + |t4|) + 1 / 10 * t) :=
    mul_le_mul_of_nonneg_left (by linarith) hu
  have m4 : u * |s3 + p4| ≤ u * (11 / 10 * (|t1| + |t2| + |t3| + |t4|) + 1 / 10 * t) :=
    mul_le_mul_of_nonneg_left (by linarith) hu
  have p1 := mul_nonneg hu n1
  have p2 := mul_nonneg hu n2
  have p3 := mul_nonneg hu n3
  have p4 := mul_nonneg hu n4
  have p5 := mul_nonneg hu ht
  linarith

end

/-- a rotation as a quaternion -/
def Rot.quat (q : Rot ℝ) : ℍ[ℝ] := ⟨q.w, q.x, q.y, q.z⟩

/-- a vector as a quaternion -/
def Vec3.quat (v : Vec3 ℝ) : ℍ[ℝ] := ⟨0, v.x, v.y, v.z⟩

@[simp] theorem Rot.quat_re (q : Rot ℝ) : q.quat.re = q.w := rfl
@[simp] theorem Rot.quat_imI (q : Rot ℝ) : q.quat.imI = q.x := rfl
@[simp] theorem Rot.quat_imJ (q : Rot ℝ) : q.quat.imJ = q.y := rfl
@[simp] theorem Rot.quat_imK (q : Rot ℝ) : q.quat.imK = q.z := rfl
@[simp] theorem Vec3.quat_re (q : Vec3 ℝ) : q.quat.re = 0 := rfl
@[simp] theorem Vec3.quat_imI (q : Vec3 ℝ) : q.quat.imI = q.x := rfl
@[simp] theorem Vec3.quat_imJ (q : Vec3 ℝ) : q.quat.imJ = q.y := rfl
@[simp] theorem Vec3.quat_imK (q : Vec3 ℝ) : q.quat.imK = q.z := rfl

theorem Rot.quat_mul (a b : Rot ℝ) : (Rot.mul a b).quat = a.quat * b.quat := by
  ext <;> simp [Rot.mul]

theorem quat_norm_sq (a : ℍ[ℝ]) : ‖a‖ ^ 2 = a.re ^ 2 + a.imI ^ 2 + a.imJ ^ 2 + a.imK ^ 2 := by
  rw [pow_two, ← Quaternion.normSq_eq_norm_mul_self, Quaternion.normSq_def']

theorem quat_norm_le {a : ℍ[ℝ]} {e : ℝ} (h0 : |a.re| ≤ e) (h1 : |a.imI| ≤ e) (h2 : |a.imJ| ≤ e) (h3 : |a.imK| ≤ e) : ‖a‖ ≤ 2 * e := by
  have he : 0 ≤ e := (abs_nonneg _).trans h0
  refine abs_le_of_sq_le_sq' ?_ (by linarith) |>.2
  rw [quat_norm_sq]
  have k0 := sq_le_sq' (abs_le.mp h0).1 (abs_le.mp h0).2
  have k1 := sq_le_sq' (abs_le.mp h1).1 (abs_le.mp h1).2
  have k2 := sq_le_sq' (abs_le.mp h2).1 (abs_le.mp h2).2
  have k3 := sq_le_sq' (abs_le.mp h3).1 (abs_le.mp h3).2
  linarith

theorem quat_norm_eq_sqrt (a : ℍ[ℝ]) : ‖a‖ = √(a.re ^ 2 + a.imI ^ 2 + a.imJ ^ 2 + a.imK ^ 2) := by
  rw [← quat_norm_sq, Real.sqrt_sq (norm_nonneg _)]

/-- the norm grows with the sizes of the components -/
theorem quat_norm_mono {a b : ℍ[ℝ]} (h0 : |a.re| ≤ |b.re|) (h1 : |a.imI| ≤ |b.imI|) (h2 : |a.imJ| ≤ |b.imJ|) (h3 : |a.imK| ≤ |b.imK|) :
    ‖a‖ ≤ ‖b‖ := by
  rw [quat_norm_eq_sqrt, quat_norm_eq_sqrt]
  apply Real.sqrt_le_sqrt
  have := sq_le_sq.mpr h0
  have := sq_le_sq.mpr h1
  have := sq_le_sq.mpr h2
  have := sq_le_sq.mpr h3
  linarith

theorem cauchy4 (a b : ℍ[ℝ]) {a0 a1 a2 a3 b0 b1 b2 b3 : ℝ} (ha : a0 ^ 2 + a1 ^ 2 + a2 ^ 2 + a3 ^ 2 = ‖a‖ ^ 2)
    (hb : b0 ^ 2 + b1 ^ 2 + b2 ^ 2 + b3 ^ 2 = ‖b‖ ^ 2) : |a0 * b0| + |a1 * b1| + |a2 * b2| + |a3 * b3| ≤ ‖a‖ * ‖b‖ := by
  refine abs_le_of_sq_le_sq' ?_ (by positivity) |>.2
  rw [mul_pow, ← ha, ← hb]
  simp only [abs_mul]
  rw [← sq_abs a0, ← sq_abs a1, ← sq_abs a2, ← sq_abs a3, ← sq_abs b0, ← sq_abs b1, ← sq_abs b2, ← sq_abs b3]
  nlinarith [sq_nonneg (|a0| * |b1| - |a1| * |b0|), sq_nonneg (|a0| * |b2| - |a2| * |b0|), sq_nonneg (|a0| * |b3| - |a3| * |b0|),
    sq_nonneg (|a1| * |b2| - |a2| * |b1|), sq_nonneg (|a1| * |b3| - |a3| * |b1|), sq_nonneg (|a2| * |b3| - |a3| * |b2|)]

section
variable (F : Rounding)

theorem Rounding.mul_near {a b : ℝ} (h : |a * b| ≤ F.big) : |F.mul a b - a * b| ≤ F.u * |a * b| + F.u * F.tiny :=
  (F.mul_rounded h).le F.u_nonneg F.tiny_nonneg
theorem Rounding.add_near {a b : ℝ} (h : |a + b| ≤ F.big) : |F.add a b - (a + b)| ≤ F.u * |a + b| + F.u * F.tiny :=
  (F.add_rounded h).le F.u_nonneg F.tiny_nonneg
theorem Rounding.sub_near {a b : ℝ} (h : |a - b| ≤ F.big) : |F.sub a b - (a - b)| ≤ F.u * |a - b| + F.u * F.tiny :=
  (F.sub_rounded h).le F.u_nonneg F.tiny_nonneg
theorem Rounding.div_near {a b : ℝ} (hb : b ≠ 0) (h : |a / b| ≤ F.big) : |F.div a b - a / b| ≤ F.u * |a / b| + F.u * F.tiny :=
  (F.div_rounded hb h).le F.u_nonneg F.tiny_nonneg

/-- one component of a rounded quaternion product -/
theorem Rounding.dot4 {N a0 a1 a2 a3 b0 b1 b2 b3 r : ℝ} {s2 s3 s4 : Bool}
    (hN : |a0 * b0| + |a1 * b1| + |a2 * b2| + |a3 * b3| ≤ N) (hb : 2 * (N + F.tiny) ≤ F.big)
    (hr : r = (if s4 then F.add else F.sub) ((if s3 then F.add else F.sub) ((if s2 then F.add else F.sub) (F.mul a0 b0) (F.mul a1 b1))
      (F.mul a2 b2)) (F.mul a3 b3)) :
    |r - (a0 * b0 + (if s2 then 1 else -1) * (a1 * b1) + (if s3 then 1 else -1) * (a2 * b2) + (if s4 then 1 else -1) * (a3 * b3))| ≤
      5 * F.u * N + 8 * F.u * F.tiny := by
  have ht := F.tiny_nonneg
  have n0 := abs_nonneg (a0 * b0)
  have n1 := abs_nonneg (a1 * b1)
  have n2 := abs_nonneg (a2 * b2)
  have n3 := abs_nonneg (a3 * b3)
  have k : ∀ (s : Bool) (a b : ℝ), |a * b| ≤ F.big → |(if s then 1 else -1) * F.mul a b - (if s then 1 else -1) * (a * b)| ≤
      F.u * |(if s then 1 else -1) * (a * b)| + F.u * F.tiny := by
    intro s a b h
    cases s
    · have := F.mul_near h
      simp only [Bool.false_eq_true, if_false, neg_mul, one_mul, abs_neg]
      rw [← abs_neg] at this
      convert this using 2
      ring
    · simpa using F.mul_near h
  have g : ∀ (s : Bool) (x y : ℝ), |x + (if s then 1 else -1) * y| ≤ F.big →
      |(if s then F.add else F.sub) x y - (x + (if s then 1 else -1) * y)| ≤ F.u * |x + (if s then 1 else -1) * y| + F.u * F.tiny := by
    intro s x y h
    cases s
    · simp only [Bool.false_eq_true, if_false, neg_mul, one_mul, ← sub_eq_add_neg] at h ⊢
      exact F.sub_near h
    · simp only [if_true, one_mul] at h ⊢
      exact F.add_near h
  have ab : ∀ (s : Bool) (x : ℝ), |(if s then (1 : ℝ) else -1) * x| = |x| := by intro s x; cases s <;> simp
  have main := sum4_near F.u_nonneg F.u_small ht (F.mul_near (a := a0) (b := b0) (by linarith)) (k s2 a1 b1 (by linarith)) (k s3 a2 b2 (by linarith))
    (k s4 a3 b3 (by linarith)) (big := F.big) (by rw [ab, ab, ab]; linarith) (g s2 _ _) (g s3 _ _) (g s4 _ _)
  rw [hr]
  refine main.trans ?_
  rw [ab, ab, ab]
  have := mul_le_mul_of_nonneg_left hN F.u_nonneg
  linarith

theorem Rounding.mul_quat_aux (a b c : Rot ℝ) (hb : 2 * (‖a.quat‖ * ‖b.quat‖ + F.tiny) ≤ F.big)
    (cx : c.x = F.sub (F.add (F.add (F.mul a.w b.x) (F.mul a.x b.w)) (F.mul a.y b.z)) (F.mul a.z b.y))
    (cy : c.y = F.add (F.add (F.sub (F.mul a.w b.y) (F.mul a.x b.z)) (F.mul a.y b.w)) (F.mul a.z b.x))
    (cz : c.z = F.add (F.sub (F.add (F.mul a.w b.z) (F.mul a.x b.y)) (F.mul a.y b.x)) (F.mul a.z b.w))
    (cw : c.w = F.sub (F.sub (F.sub (F.mul a.w b.w) (F.mul a.x b.x)) (F.mul a.y b.y)) (F.mul a.z b.z)) :
    ‖c.quat - a.quat * b.quat‖ ≤ 10 * F.u * (‖a.quat‖ * ‖b.quat‖) + 16 * F.u * F.tiny := by
  have ha : ‖a.quat‖ ^ 2 = a.w ^ 2 + a.x ^ 2 + a.y ^ 2 + a.z ^ 2 := quat_norm_sq _
  have hq : ‖b.quat‖ ^ 2 = b.w ^ 2 + b.x ^ 2 + b.y ^ 2 + b.z ^ 2 := quat_norm_sq _
  have hw := F.dot4 (s2 := false) (s3 := false) (s4 := false) (r := c.w)
    (cauchy4 a.quat b.quat (a0 := a.w) (a1 := a.x) (a2 := a.y) (a3 := a.z) (b0 := b.w) (b1 := b.x) (b2 := b.y) (b3 := b.z)
      (by rw [ha]) (by rw [hq])) hb cw
  have hx := F.dot4 (s2 := true) (s3 := true) (s4 := false) (r := c.x)
    (cauchy4 a.quat b.quat (a0 := a.w) (a1 := a.x) (a2 := a.y) (a3 := a.z) (b0 := b.x) (b1 := b.w) (b2 := b.z) (b3 := b.y)
      (by rw [ha]) (by rw [hq]; ring)) hb cx
  have hy := F.dot4 (s2 := false) (s3 := true) (s4 := true) (r := c.y)
    (cauchy4 a.quat b.quat (a0 := a.w) (a1 := a.x) (a2 := a.y) (a3 := a.z) (b0 := b.y) (b1 := b.z) (b2 := b.w) (b3 := b.x)
      (by rw [ha]) (by rw [hq]; ring)) hb cy
  have hz := F.dot4 (s2 := true) (s3 := false) (s4 := true) (r := c.z)
    (cauchy4 a.quat b.quat (a0 := a.w) (a1 := a.x) (a2 := a.y) (a3 := a.z) (b0 := b.z) (b1 := b.y) (b2 := b.x) (b3 := b.w)
      (by rw [ha]) (by rw [hq]; ring)) hb cz
  have := quat_norm_le (a := c.quat - a.quat * b.quat)
    (e := 5 * F.u * (‖a.quat‖ * ‖b.quat‖) + 8 * F.u * F.tiny) ?_ ?_ ?_ ?_
  · linarith
  · convert hw using 2
    simp; ring
  · convert hx using 2
    simp; ring
  · convert hy using 2
    simp; ring
  · convert hz using 2
    simp; ring

/-- The rounded product of two quaternions. -/
theorem Rounding.mul_quat (a b : Rot ℝ) (hb : 2 * (‖a.quat‖ * ‖b.quat‖ + F.tiny) ≤ F.big) :
    ‖Rot.quat (Rot.mul (K := Fl F) a b) - a.quat * b.quat‖ ≤ 10 * F.u * (‖a.quat‖ * ‖b.quat‖) + 16 * F.u * F.tiny :=
  F.mul_quat_aux a b _ hb rfl rfl rfl rfl

/-- The rounded squared norm. -/
theorem Rounding.norm2_near (a : Rot ℝ) {n : ℝ} (hn : n = Rot.norm2 (K := Fl F) a) (hb : 2 * (‖a.quat‖ ^ 2 + F.tiny) ≤ F.big) :
    |n - ‖a.quat‖ ^ 2| ≤ 5 * F.u * ‖a.quat‖ ^ 2 + 8 * F.u * F.tiny := by
  have ha : ‖a.quat‖ ^ 2 = a.w ^ 2 + a.x ^ 2 + a.y ^ 2 + a.z ^ 2 := quat_norm_sq _
  have hw := F.dot4 (s2 := true) (s3 := true) (s4 := true) (r := n) (N := ‖a.quat‖ ^ 2)
    (a0 := a.w) (a1 := a.x) (a2 := a.y) (a3 := a.z) (b0 := a.w) (b1 := a.x) (b2 := a.y) (b3 := a.z)
    (by rw [pow_two]; exact cauchy4 a.quat a.quat (by rw [ha]) (by rw [ha])) hb hn
  convert hw using 2
  rw [ha]
  simp
  ring

/-- the quaternion with these components -/
def mkQuat (w x y z : ℝ) : ℍ[ℝ] := ⟨w, x, y, z⟩

/-- components that are small relative to those of `a`, up to a constant -/
theorem quat_norm_rel {a e : ℍ[ℝ]} {c d : ℝ} (hc : 0 ≤ c) (hd : 0 ≤ d) (h0 : |e.re| ≤ c * |a.re| + d) (h1 : |e.imI| ≤ c * |a.imI| + d)
    (h2 : |e.imJ| ≤ c * |a.imJ| + d) (h3 : |e.imK| ≤ c * |a.imK| + d) : ‖e‖ ≤ c * ‖a‖ + 2 * d := by
  have hm : ‖e‖ ≤ ‖mkQuat (c * |a.re|) (c * |a.imI|) (c * |a.imJ|) (c * |a.imK|) + mkQuat d d d d‖ := by
    have k : ∀ x : ℝ, c * |x| + d ≤ |c * |x| + d| := fun x => le_abs_self _
    exact quat_norm_mono (h0.trans (k _)) (h1.trans (k _)) (h2.trans (k _)) (h3.trans (k _))
  have h5 : ‖mkQuat (c * |a.re|) (c * |a.imI|) (c * |a.imJ|) (c * |a.imK|)‖ = c * ‖a‖ := by
    rw [quat_norm_eq_sqrt, quat_norm_eq_sqrt]
    simp only [mkQuat, mul_pow, sq_abs]
    rw [← mul_add, ← mul_add, ← mul_add, Real.sqrt_mul (by positivity), Real.sqrt_sq hc]
  have h6 : ‖mkQuat d d d d‖ ≤ 2 * d := quat_norm_le (abs_of_nonneg hd).le (abs_of_nonneg hd).le (abs_of_nonneg hd).le (abs_of_nonneg hd).le
  exact hm.trans ((norm_add_le _ _).trans (by rw [h5]; linarith))

theorem quat_inv_comp (a : ℍ[ℝ]) : a⁻¹ = ⟨a.re / ‖a‖ ^ 2, -a.imI / ‖a‖ ^ 2, -a.imJ / ‖a‖ ^ 2, -a.imK / ‖a‖ ^ 2⟩ := by
  have h : a⁻¹ = (‖a‖ ^ 2)⁻¹ • star a := by
    rw [pow_two, ← Quaternion.normSq_eq_norm_mul_self]; rfl
  rw [h]
  ext <;> simp <;> ring

theorem inv_comp_near {u t n n' x big : ℝ} (hu : 0 ≤ u) (hu1 : u ≤ 1 / 1000) (hn : 0 < n) (h : |n' - n| ≤ 13 * u * n) {y : ℝ}
    (hb : 2 * (|x| / n) ≤ big) (hy : |x / n'| ≤ big → |y - x / n'| ≤ u * |x / n'| + u * t) : |y - x / n| ≤ 15 * u * |x / n| + u * t := by
  have h13 : 13 * u * n ≤ 13 / 1000 * n := mul_le_mul_of_nonneg_right (by linarith) hn.le
  have hl := (abs_le.mp h).1
  have hn' : 987 / 1000 * n ≤ n' := by linarith
  have hp : 0 < n' := lt_of_lt_of_le (by positivity) hn'
  have hx : 0 ≤ |x| / n := by positivity
  have e1 : |x / n'| ≤ 102 / 100 * (|x| / n) := by
    rw [abs_div, abs_of_pos hp, div_le_iff₀ hp]
    have : |x| = |x| / n * n := by field_simp
    calc |x| = |x| / n * n := this
      _ ≤ |x| / n * (102 / 100 * n') := mul_le_mul_of_nonneg_left (by linarith) hx
      _ = _ := by ring
  have e2 : |x / n' - x / n| ≤ 1327 / 100 * u * (|x| / n) := by
    have : x / n' - x / n = x / n * ((n - n') / n') := by field_simp
    rw [this, abs_mul, abs_div, abs_div, abs_of_pos hn, abs_of_pos hp, mul_comm]
    refine mul_le_mul_of_nonneg_right ?_ hx
    rw [div_le_iff₀ hp, abs_sub_comm]
    refine h.trans ?_
    have := mul_le_mul_of_nonneg_left hn' hu
    have := mul_nonneg hu hn.le
    linarith
  have e3 := hy (e1.trans (by linarith))
  have e4 := mul_le_mul_of_nonneg_left e1 hu
  have e5 : |y - x / n| ≤ |y - x / n'| + |x / n' - x / n| := by
    have := abs_add_le (y - x / n') (x / n' - x / n)
    simpa using this
  rw [show |x / n| = |x| / n by rw [abs_div, abs_of_pos hn]]
  have := mul_nonneg hu hx
  linarith

/-- The rounded inverse of a quaternion. -/
theorem Rounding.inv_quat (a : Rot ℝ) (ha : 0 < ‖a.quat‖) (ht : F.tiny ≤ ‖a.quat‖ ^ 2) (hb : 2 * (‖a.quat‖ ^ 2 + F.tiny) ≤ F.big)
    (hb' : 2 * ‖a.quat‖⁻¹ ≤ F.big) :
    ‖Rot.quat (Rot.getInverse (K := Fl F) a) - a.quat⁻¹‖ ≤ 15 * F.u * ‖a.quat⁻¹‖ + 2 * F.u * F.tiny := by
  have hu := F.u_nonneg
  have hn : 0 < ‖a.quat‖ ^ 2 := by positivity
  obtain ⟨n, hne⟩ : ∃ n : ℝ, n = Rot.norm2 (K := Fl F) a := ⟨_, rfl⟩
  have h1 := F.norm2_near a hne hb
  have h2 : |n - ‖a.quat‖ ^ 2| ≤ 13 * F.u * ‖a.quat‖ ^ 2 := by
    have := mul_le_mul_of_nonneg_left ht hu
    linarith
  have hpos : 0 < n := by
    have := (abs_le.mp h2).1
    have : 13 * F.u * ‖a.quat‖ ^ 2 ≤ 13 / 1000 * ‖a.quat‖ ^ 2 := mul_le_mul_of_nonneg_right (by linarith [F.u_small]) hn.le
    linarith
  have hg : Rot.getInverse (K := Fl F) a = (⟨F.div (-a.x) n, F.div (-a.y) n, F.div (-a.z) n, F.div a.w n⟩ : Rot ℝ) := by
    subst hne
    unfold Rot.getInverse
    exact if_pos (@decide_eq_true _ (Classical.dec _) hpos)
  have big : ∀ x : ℝ, |x| ≤ ‖a.quat‖ → 2 * (|x| / ‖a.quat‖ ^ 2) ≤ F.big := by
    intro x hx
    refine le_trans ?_ hb'
    refine mul_le_mul_of_nonneg_left ?_ (by norm_num)
    rw [div_le_iff₀ hn, pow_two, ← mul_assoc, inv_mul_cancel₀ ha.ne', one_mul]
    exact hx
  have nsq : ‖a.quat‖ ^ 2 = a.w ^ 2 + a.x ^ 2 + a.y ^ 2 + a.z ^ 2 := quat_norm_sq _
  have cmp : ∀ x : ℝ, x ^ 2 ≤ ‖a.quat‖ ^ 2 → |x| ≤ ‖a.quat‖ := fun x hx => abs_le_of_sq_le_sq hx ha.le
  have key : ∀ x : ℝ, x ^ 2 ≤ ‖a.quat‖ ^ 2 → |F.div x n - x / ‖a.quat‖ ^ 2| ≤ 15 * F.u * |x / ‖a.quat‖ ^ 2| + F.u * F.tiny :=
    fun x hx => inv_comp_near hu F.u_small hn h2 (big x (cmp x hx)) (fun h => F.div_near hpos.ne' h)
  have kx := key (-a.x) (by rw [nsq, neg_sq]; nlinarith)
  have ky := key (-a.y) (by rw [nsq, neg_sq]; nlinarith)
  have kz := key (-a.z) (by rw [nsq, neg_sq]; nlinarith)
  have kw := key a.w (by rw [nsq]; nlinarith)
  have := quat_norm_rel (a := a.quat⁻¹) (e := Rot.quat ⟨F.div (-a.x) n, F.div (-a.y) n, F.div (-a.z) n, F.div a.w n⟩ - a.quat⁻¹)
    (c := 15 * F.u) (d := F.u * F.tiny) (by linarith) (mul_nonneg hu F.tiny_nonneg)
    (by rw [quat_inv_comp]; exact kw) (by rw [quat_inv_comp]; exact kx) (by rw [quat_inv_comp]; exact ky) (by rw [quat_inv_comp]; exact kz)
  rw [hg]
  linarith

end

end Tinyfk
