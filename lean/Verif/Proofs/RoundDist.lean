import Verif.Proofs.RoundWorld
import Verif.Spec.Dist

/-!
# Rounding errors of a squared distance
-/

namespace Tinyfk

open Quaternion

section
variable {F : Rounding}

theorem Vec3.quat_im (v : Vec3 ℝ) : v.quat.imI = v.x ∧ v.quat.imJ = v.y ∧ v.quat.imK = v.z := ⟨rfl, rfl, rfl⟩

/-- the components of a vector are at most its length -/
theorem Vec3.abs_le (v : Vec3 ℝ) : |v.x| ≤ ‖v.quat‖ ∧ |v.y| ≤ ‖v.quat‖ ∧ |v.z| ≤ ‖v.quat‖ := by
  have h := quat_norm_sq v.quat
  have h1 : v.quat.re = 0 := rfl
  rw [h1, v.quat_im.1, v.quat_im.2.1, v.quat_im.2.2] at h
  refine ⟨?_, ?_, ?_⟩ <;> refine abs_le_of_sq_le_sq ?_ (norm_nonneg _) <;> nlinarith [sq_nonneg v.x, sq_nonneg v.y, sq_nonneg v.z]

/-- The rounded sum of three squares. -/
theorem Rounding.sq_near (x y z r : ℝ) (hb : 2 * (x ^ 2 + y ^ 2 + z ^ 2 + F.tiny) ≤ F.big)
    (hr : r = F.add (F.add (F.mul x x) (F.mul y y)) (F.mul z z)) :
    |r - (x ^ 2 + y ^ 2 + z ^ 2)| ≤ 5 * F.u * (x ^ 2 + y ^ 2 + z ^ 2) + 8 * F.u * F.tiny := by
  have hu := F.u_nonneg
  have ht := F.tiny_nonneg
  have ex : |x * x| = x ^ 2 := by rw [abs_mul_self]; ring
  have ey : |y * y| = y ^ 2 := by rw [abs_mul_self]; ring
  have ez : |z * z| = z ^ 2 := by rw [abs_mul_self]; ring
  have px := sq_nonneg x
  have py := sq_nonneg y
  have pz := sq_nonneg z
  have g := sum4_near (t := F.tiny) (p4 := 0) (t4 := 0) (s2 := F.add (F.mul x x) (F.mul y y)) (s3 := r) (s4 := r) hu F.u_small ht (big := F.big)
    (F.mul_near (a := x) (b := x) (by rw [ex]; linarith)) (F.mul_near (a := y) (b := y) (by rw [ey]; linarith))
    (F.mul_near (a := z) (b := z) (by rw [ez]; linarith)) (by simpa using mul_nonneg hu ht)
    (by rw [ex, ey, ez, abs_zero]; linarith)
    (fun h => (F.add_rounded h).le hu ht) (fun h => by rw [hr]; exact (F.add_rounded h).le hu ht)
    (fun _ => by simp only [add_zero, sub_self, abs_zero]; positivity)
  rw [ex, ey, ez, abs_zero] at g
  have e : x * x + y * y + z * z + 0 = x ^ 2 + y ^ 2 + z ^ 2 := by ring
  rw [e] at g
  linarith

theorem sq_arith {u t e D f n v : ℝ} (hu : 0 ≤ u) (hu1 : u ≤ 1 / 1000) (ht : 0 ≤ t) (he : 0 ≤ e) (hD : 0 ≤ D) (hn : 0 ≤ n)
    (hf : f = e + u * (D + e) + 2 * (u * t)) (h1 : |n - D| ≤ f) (h2 : |v - n ^ 2| ≤ 5 * u * n ^ 2 + 8 * u * t) :
    |v - D ^ 2| ≤ 3 * (e + 4 * u * (D + t)) * (D + e + t) + 8 * u * t := by
  obtain ⟨a1, a2⟩ := abs_le.mp h1
  have ue : u * e ≤ 1 / 1000 * e := mul_le_mul_of_nonneg_right hu1 he
  have ut : u * t ≤ 1 / 1000 * t := mul_le_mul_of_nonneg_right hu1 ht
  have uD : u * D ≤ 1 / 1000 * D := mul_le_mul_of_nonneg_right hu1 hD
  have ue0 : 0 ≤ u * e := by positivity
  have ut0 : 0 ≤ u * t := by positivity
  have uD0 : 0 ≤ u * D := by positivity
  set S := D + e + t with hS
  have hS0 : 0 ≤ S := by positivity
  have hfS : n ≤ 1002 / 1000 * S := by rw [hS]; linarith
  have hsum : n + D ≤ 2004 / 1000 * S := by rw [hS]; linarith
  have hf0 : 0 ≤ f := by rw [hf]; linarith
  have k1 : |n ^ 2 - D ^ 2| ≤ f * (2004 / 1000 * S) := by
    rw [show n ^ 2 - D ^ 2 = (n - D) * (n + D) by ring, abs_mul, abs_of_nonneg (by linarith : 0 ≤ n + D)]
    exact mul_le_mul h1 hsum (by linarith) hf0
  have k2 : n ^ 2 ≤ 1005 / 1000 * (S * S) := by nlinarith
  have k3 : 5 * u * n ^ 2 ≤ 5 * u * (1005 / 1000 * (S * S)) := mul_le_mul_of_nonneg_left k2 (by positivity)
  have k4 := abs_sub_le v (n ^ 2) (D ^ 2)
  have k5 : (2004 / 1000 * f + 5 * (1005 / 1000) * (u * S)) * S ≤ 3 * (e + 4 * u * (D + t)) * S := by
    refine mul_le_mul_of_nonneg_right ?_ hS0
    have : u * S = u * D + u * e + u * t := by rw [hS]; ring
    rw [this, hf]
    linarith
  linarith

/-- The rounded squared distance of two inexact points. -/
theorem sqDist_near (a' b' : Vec3 ℝ) {a b : Vec3 ℝ} {e : ℝ} {v : ℝ} (hab : Vec3.dist a' a + Vec3.dist b' b ≤ e)
    (hb : 4 * (Vec3.dist a b + e + F.tiny + 1) ^ 2 ≤ F.big) (hv : v = sqDist (K := Fl F) a' b') :
    |v - Vec3.dist a b ^ 2| ≤ 3 * (e + 4 * F.u * (Vec3.dist a b + F.tiny)) * (Vec3.dist a b + e + F.tiny) + 8 * F.u * F.tiny := by
  have hu := F.u_nonneg
  have hu1 := F.u_small
  have ht := F.tiny_nonneg
  simp only [Vec3.dist_quat] at hab hb ⊢
  set D := ‖a.quat - b.quat‖ with hD
  have hD0 : 0 ≤ D := norm_nonneg _
  have he : 0 ≤ e := le_trans (by positivity) hab
  set d : Vec3 ℝ := ⟨a'.x - b'.x, a'.y - b'.y, a'.z - b'.z⟩ with hd
  have dq : d.quat = a'.quat - b'.quat := by ext <;> first | rfl | (show (0 : ℝ) = 0 - 0; ring)
  have hdD : ‖d.quat - (a.quat - b.quat)‖ ≤ e := by
    rw [dq, show a'.quat - b'.quat - (a.quat - b.quat) = (a'.quat - a.quat) - (b'.quat - b.quat) by abel]
    exact (norm_sub_le _ _).trans hab
  have hdn : ‖d.quat‖ ≤ D + e := by
    have := norm_add_le (a.quat - b.quat) (d.quat - (a.quat - b.quat))
    rw [add_sub_cancel] at this
    linarith
  have hbig : D + e ≤ F.big := by nlinarith
  obtain ⟨dx, dy, dz⟩ := d.abs_le
  set g : Vec3 ℝ := ⟨F.sub a'.x b'.x, F.sub a'.y b'.y, F.sub a'.z b'.z⟩ with hg
  have gd : ‖g.quat - d.quat‖ ≤ F.u * ‖d.quat‖ + 2 * (F.u * F.tiny) := by
    refine quat_norm_rel (c := F.u) (d := F.u * F.tiny) hu (mul_nonneg hu ht) (by
      show |(0 : ℝ) - 0| ≤ F.u * |(0 : ℝ)| + F.u * F.tiny
      simpa using mul_nonneg hu ht) ?_ ?_ ?_
    · exact F.sub_near (dx.trans (hdn.trans hbig))
    · exact F.sub_near (dy.trans (hdn.trans hbig))
    · exact F.sub_near (dz.trans (hdn.trans hbig))
  have hgD : ‖g.quat - (a.quat - b.quat)‖ ≤ e + F.u * (D + e) + 2 * (F.u * F.tiny) := by
    have h1 := norm_add_le (g.quat - d.quat) (d.quat - (a.quat - b.quat))
    rw [sub_add_sub_cancel] at h1
    have h2 : F.u * ‖d.quat‖ ≤ F.u * (D + e) := mul_le_mul_of_nonneg_left hdn hu
    linarith
  have hn : |‖g.quat‖ - D| ≤ e + F.u * (D + e) + 2 * (F.u * F.tiny) := (abs_norm_sub_norm_le _ _).trans hgD
  have gsq : ‖g.quat‖ ^ 2 = g.x ^ 2 + g.y ^ 2 + g.z ^ 2 := by
    rw [quat_norm_sq]
    show (0 : ℝ) ^ 2 + g.x ^ 2 + g.y ^ 2 + g.z ^ 2 = _
    ring
  refine sq_arith hu hu1 ht he hD0 (norm_nonneg g.quat) rfl hn ?_
  rw [gsq]
  refine F.sq_near _ _ _ v ?_ (by rw [hv]; rfl)
  rw [← gsq]
  have hle : ‖g.quat‖ ≤ 1002 / 1000 * (D + e + F.tiny) := by
    have := (abs_le.mp hn).2
    have c1 : F.u * (D + e) ≤ 1 / 1000 * (D + e) := mul_le_mul_of_nonneg_right hu1 (by positivity)
    have c2 : F.u * F.tiny ≤ 1 / 1000 * F.tiny := mul_le_mul_of_nonneg_right hu1 ht
    linarith
  have h0 := norm_nonneg g.quat
  have hs : 0 ≤ D + e + F.tiny := by positivity
  have : ‖g.quat‖ ^ 2 ≤ (1002 / 1000 * (D + e + F.tiny)) ^ 2 := pow_le_pow_left₀ h0 hle 2
  nlinarith

end
end Tinyfk
