import Verif.Proofs.RoundWorld
import Verif.Proofs.Column

/-!
# Rounding errors of a column of the Jacobian
-/

set_option linter.unusedSectionVars false

namespace Tinyfk

open Quaternion

section
variable (F : Rounding)

theorem Rounding.sub_vec_aux (v w s : Vec3 ℝ) (hx : s.x = F.sub v.x w.x) (hy : s.y = F.sub v.y w.y) (hz : s.z = F.sub v.z w.z)
    (hb : ‖v.quat - w.quat‖ ≤ F.big) : ‖s.quat - (v.quat - w.quat)‖ ≤ F.u * ‖v.quat - w.quat‖ + 2 * (F.u * F.tiny) := by
  have hu := F.u_nonneg
  have sq := quat_norm_sq (v.quat - w.quat)
  have n0 := norm_nonneg (v.quat - w.quat)
  simp at sq
  have cmp : ∀ x : ℝ, x ^ 2 ≤ ‖v.quat - w.quat‖ ^ 2 → |x| ≤ F.big := fun x hx => (abs_le_of_sq_le_sq hx n0).trans hb
  refine quat_norm_rel hu (mul_nonneg hu F.tiny_nonneg) ?_ ?_ ?_ ?_
  · simp; exact mul_nonneg hu F.tiny_nonneg
  · simpa [hx] using F.sub_near (cmp _ (by rw [sq]; nlinarith))
  · simpa [hy] using F.sub_near (cmp _ (by rw [sq]; nlinarith))
  · simpa [hz] using F.sub_near (cmp _ (by rw [sq]; nlinarith))

/-- The rounded difference of two vectors. -/
theorem Rounding.sub_vec (v w : Vec3 ℝ) (hb : ‖v.quat - w.quat‖ ≤ F.big) :
    ‖Vec3.quat (Vec3.sub (K := Fl F) v w) - (v.quat - w.quat)‖ ≤ F.u * ‖v.quat - w.quat‖ + 2 * (F.u * F.tiny) :=
  F.sub_vec_aux v w _ rfl rfl rfl hb

theorem Vec3.quat_sub (v w : Vec3 ℝ) : (Vec3.sub v w).quat = v.quat - w.quat := by
  ext <;> simp [Vec3.sub]

theorem Vec3.cross_len (v w : Vec3 ℝ) : ‖(Vec3.cross v w).quat‖ ≤ ‖v.quat‖ * ‖w.quat‖ := by
  refine abs_le_of_sq_le_sq' ?_ (by positivity) |>.2
  rw [mul_pow, quat_norm_sq, quat_norm_sq, quat_norm_sq]
  simp only [Vec3.quat, Vec3.cross]
  nlinarith [sq_nonneg (v.x * w.x + v.y * w.y + v.z * w.z)]

theorem Vec3.cross_pert (v v' w w' : Vec3 ℝ) :
    ‖(Vec3.cross v' w').quat - (Vec3.cross v w).quat‖ ≤ ‖v'.quat - v.quat‖ * ‖w'.quat‖ + ‖v.quat‖ * ‖w'.quat - w.quat‖ := by
  have e : (Vec3.cross v' w').quat - (Vec3.cross v w).quat =
      (Vec3.cross (Vec3.sub v' v) w').quat + (Vec3.cross v (Vec3.sub w' w)).quat := by
    ext <;> simp [Vec3.cross, Vec3.sub] <;> ring
  rw [e, ← Vec3.quat_sub, ← Vec3.quat_sub]
  exact (norm_add_le _ _).trans (add_le_add (Vec3.cross_len _ _) (Vec3.cross_len _ _))

/-- one component of a rounded cross product -/
theorem Rounding.dot2 {N a b c d r : ℝ} (hN : |a * b| + |c * d| ≤ N) (hb : 2 * (N + F.tiny) ≤ F.big)
    (hr : r = F.sub (F.mul a b) (F.mul c d)) : |r - (a * b - c * d)| ≤ 5 / 2 * F.u * N + 7 / 2 * (F.u * F.tiny) := by
  have hu := F.u_nonneg
  have hu1 := F.u_small
  have ht := F.tiny_nonneg
  have n0 := abs_nonneg (a * b)
  have n1 := abs_nonneg (c * d)
  have h1 := F.mul_near (a := a) (b := b) (by linarith)
  have h2 := F.mul_near (a := c) (b := d) (by linarith)
  have hut : F.u * F.tiny ≤ 1 / 1000 * F.tiny := mul_le_mul_of_nonneg_right hu1 ht
  have hut0 : 0 ≤ F.u * F.tiny := mul_nonneg hu ht
  have huN : F.u * (|a * b| + |c * d|) ≤ F.u * N := mul_le_mul_of_nonneg_left hN hu
  have huN1 : F.u * N ≤ 1 / 1000 * N := mul_le_mul_of_nonneg_right hu1 (by linarith)
  have h3 : |F.mul a b - F.mul c d| ≤ N + F.u * N + 2 * (F.u * F.tiny) := by
    have e : F.mul a b - F.mul c d = (F.mul a b - a * b) - (F.mul c d - c * d) + (a * b - c * d) := by ring
    rw [e]
    have k1 := abs_add_le ((F.mul a b - a * b) - (F.mul c d - c * d)) (a * b - c * d)
    have k2 := abs_sub (F.mul a b - a * b) (F.mul c d - c * d)
    have k3 := abs_sub (a * b) (c * d)
    linarith
  have h4 := F.sub_near (a := F.mul a b) (b := F.mul c d) (by linarith)
  rw [← hr] at h4
  have h5 := mul_le_mul_of_nonneg_left h3 hu
  have h6 : F.u * (F.u * N) ≤ 1 / 1000 * (F.u * N) := mul_le_mul_of_nonneg_right hu1 (mul_nonneg hu (by linarith))
  have h7 : F.u * (F.u * F.tiny) ≤ 1 / 1000 * (F.u * F.tiny) := mul_le_mul_of_nonneg_right hu1 hut0
  have e : r - (a * b - c * d) = (r - (F.mul a b - F.mul c d)) + ((F.mul a b - a * b) - (F.mul c d - c * d)) := by ring
  rw [e]
  have k1 := abs_add_le (r - (F.mul a b - F.mul c d)) ((F.mul a b - a * b) - (F.mul c d - c * d))
  have k2 := abs_sub (F.mul a b - a * b) (F.mul c d - c * d)
  have huN0 : 0 ≤ F.u * N := mul_nonneg hu (by linarith)
  linarith

theorem cauchy2 {a b c d n m : ℝ} (h1 : a ^ 2 + c ^ 2 ≤ n ^ 2) (h2 : b ^ 2 + d ^ 2 ≤ m ^ 2) (hn : 0 ≤ n) (hm : 0 ≤ m) :
    |a * b| + |c * d| ≤ n * m := by
  refine abs_le_of_sq_le_sq' ?_ (by positivity) |>.2
  rw [abs_mul, abs_mul]
  have e1 := sq_abs a
  have e2 := sq_abs b
  have e3 := sq_abs c
  have e4 := sq_abs d
  have : (|a| * |b| + |c| * |d|) ^ 2 ≤ (a ^ 2 + c ^ 2) * (b ^ 2 + d ^ 2) := by
    rw [← e1, ← e2, ← e3, ← e4]
    nlinarith [sq_nonneg (|a| * |d| - |c| * |b|)]
  rw [mul_pow]
  exact this.trans (mul_le_mul h1 h2 (by positivity) (by positivity))

theorem Rounding.cross_vec_aux (v w s : Vec3 ℝ) (hx : s.x = F.sub (F.mul v.y w.z) (F.mul v.z w.y))
    (hy : s.y = F.sub (F.mul v.z w.x) (F.mul v.x w.z)) (hz : s.z = F.sub (F.mul v.x w.y) (F.mul v.y w.x))
    (hb : 2 * (‖v.quat‖ * ‖w.quat‖ + F.tiny) ≤ F.big) :
    ‖s.quat - (Vec3.cross v w).quat‖ ≤ 5 * F.u * (‖v.quat‖ * ‖w.quat‖) + 7 * (F.u * F.tiny) := by
  have hu := F.u_nonneg
  have ht := F.tiny_nonneg
  have hv : ‖v.quat‖ ^ 2 = 0 ^ 2 + v.x ^ 2 + v.y ^ 2 + v.z ^ 2 := quat_norm_sq _
  have hw : ‖w.quat‖ ^ 2 = 0 ^ 2 + w.x ^ 2 + w.y ^ 2 + w.z ^ 2 := quat_norm_sq _
  have nv := norm_nonneg v.quat
  have nw := norm_nonneg w.quat
  have kx := F.dot2 (cauchy2 (a := v.y) (b := w.z) (c := v.z) (d := w.y) (by rw [hv]; nlinarith [sq_nonneg v.x])
    (by rw [hw]; nlinarith [sq_nonneg w.x]) nv nw) hb hx
  have ky := F.dot2 (cauchy2 (a := v.z) (b := w.x) (c := v.x) (d := w.z) (by rw [hv]; nlinarith [sq_nonneg v.y])
    (by rw [hw]; nlinarith [sq_nonneg w.y]) nv nw) hb hy
  have kz := F.dot2 (cauchy2 (a := v.x) (b := w.y) (c := v.y) (d := w.x) (by rw [hv]; nlinarith [sq_nonneg v.z])
    (by rw [hw]; nlinarith [sq_nonneg w.z]) nv nw) hb hz
  have := quat_norm_le (a := s.quat - (Vec3.cross v w).quat)
    (e := 5 / 2 * F.u * (‖v.quat‖ * ‖w.quat‖) + 7 / 2 * (F.u * F.tiny)) (by simp; positivity) kx ky kz
  linarith

/-- The rounded cross product of two vectors. -/
theorem Rounding.cross_vec (v w : Vec3 ℝ) (hb : 2 * (‖v.quat‖ * ‖w.quat‖ + F.tiny) ≤ F.big) :
    ‖Vec3.quat (Vec3.cross (K := Fl F) v w) - (Vec3.cross v w).quat‖ ≤ 5 * F.u * (‖v.quat‖ * ‖w.quat‖) + 7 * (F.u * F.tiny) :=
  F.cross_vec_aux v w _ rfl rfl rfl hb

/-! ### The rate of change of a quaternion -/

/-- the exact rate of change, as a quaternion -/
theorem qDerivative_quat (p : Rot ℝ) (a : Vec3 ℝ) : (qDerivative p a).quat = (-(1 / 2 : ℝ)) • star (p.quat * a.quat) := by
  ext <;> simp [qDerivative] <;> ring

/-- half of a rounded sum -/
theorem Rounding.half_of {N r x : ℝ} (h : |r - x| ≤ 5 * F.u * N + 8 * F.u * F.tiny) (hx : |x| ≤ N) (hN : 0 ≤ N)
    (hb : 2 * (N + F.tiny) ≤ F.big) (hb1 : 1 ≤ F.big) (ht2 : F.tiny ≤ 1 / 2) :
    |F.mul (F.lit 5 1) r - 1 / 2 * x| ≤ 5 * F.u * N + 6 * (F.u * F.tiny) := by
  have hu := F.u_nonneg
  have hu1 := F.u_small
  have ht := F.tiny_nonneg
  have huN0 : 0 ≤ F.u * N := mul_nonneg hu hN
  have hut0 : 0 ≤ F.u * F.tiny := mul_nonneg hu ht
  have huN : F.u * N ≤ 1 / 1000 * N := mul_le_mul_of_nonneg_right hu1 hN
  have hut : F.u * F.tiny ≤ 1 / 1000 * F.tiny := mul_le_mul_of_nonneg_right hu1 ht
  have hh := F.half_near hb1 ht2
  have hr : |r| ≤ N + (5 * F.u * N + 8 * F.u * F.tiny) := by
    have := abs_add_le (r - x) x
    rw [sub_add_cancel] at this
    linarith
  have hl : |F.lit 5 1| ≤ 1 := by
    have := abs_add_le (F.lit 5 1 - 1 / 2) (1 / 2)
    rw [sub_add_cancel, abs_of_pos (show (0 : ℝ) < 1 / 2 by norm_num)] at this
    linarith
  have hp : |F.lit 5 1 * r| ≤ |r| := by
    rw [abs_mul]; exact mul_le_of_le_one_left (abs_nonneg _) hl
  have h1 := F.mul_near (a := F.lit 5 1) (b := r) (by linarith)
  have h2 : |(F.lit 5 1 - 1 / 2) * r| ≤ F.u / 2 * |r| := by
    rw [abs_mul]; exact mul_le_mul_of_nonneg_right hh (abs_nonneg _)
  have h3 : |1 / 2 * (r - x)| ≤ 1 / 2 * (5 * F.u * N + 8 * F.u * F.tiny) := by
    rw [abs_mul, abs_of_pos (show (0 : ℝ) < 1 / 2 by norm_num)]; linarith
  have e : F.mul (F.lit 5 1) r - 1 / 2 * x = (F.mul (F.lit 5 1) r - F.lit 5 1 * r) + (F.lit 5 1 - 1 / 2) * r + 1 / 2 * (r - x) := by ring
  rw [e]
  have k1 := abs_add_le ((F.mul (F.lit 5 1) r - F.lit 5 1 * r) + (F.lit 5 1 - 1 / 2) * r) (1 / 2 * (r - x))
  have k2 := abs_add_le (F.mul (F.lit 5 1) r - F.lit 5 1 * r) ((F.lit 5 1 - 1 / 2) * r)
  have k3 := mul_le_mul_of_nonneg_left hr hu
  have k4 := mul_le_mul_of_nonneg_left hp hu
  have k5 : F.u * (F.u * N) ≤ 1 / 1000 * (F.u * N) := mul_le_mul_of_nonneg_right hu1 huN0
  have k6 : F.u * (F.u * F.tiny) ≤ 1 / 1000 * (F.u * F.tiny) := mul_le_mul_of_nonneg_right hu1 hut0
  linarith

theorem Rounding.qDerivative_aux (p c : Rot ℝ) (o : Vec3 ℝ) (hb : 2 * (‖p.quat‖ * ‖o.quat‖ + F.tiny) ≤ F.big) (hb1 : 1 ≤ F.big)
    (ht2 : F.tiny ≤ 1 / 2)
    (cx : c.x = F.mul (F.lit 5 1) (F.add (F.sub (F.add (F.mul 0 p.x) (F.mul o.z p.y)) (F.mul o.y p.z)) (F.mul o.x p.w)))
    (cy : c.y = F.mul (F.lit 5 1) (F.add (F.add (F.add (F.mul (-o.z) p.x) (F.mul 0 p.y)) (F.mul o.x p.z)) (F.mul o.y p.w)))
    (cz : c.z = F.mul (F.lit 5 1) (F.add (F.add (F.sub (F.mul o.y p.x) (F.mul o.x p.y)) (F.mul 0 p.z)) (F.mul o.z p.w)))
    (cw : c.w = -F.mul (F.lit 5 1) (F.add (F.sub (F.sub (F.mul (-o.x) p.x) (F.mul o.y p.y)) (F.mul o.z p.z)) (F.mul 0 p.w))) :
    ‖c.quat - (qDerivative p o).quat‖ ≤ 10 * F.u * (‖p.quat‖ * ‖o.quat‖) + 12 * (F.u * F.tiny) := by
  have hp : ‖p.quat‖ ^ 2 = p.w ^ 2 + p.x ^ 2 + p.y ^ 2 + p.z ^ 2 := quat_norm_sq _
  have ho : ‖o.quat‖ ^ 2 = 0 ^ 2 + o.x ^ 2 + o.y ^ 2 + o.z ^ 2 := quat_norm_sq _
  rw [mul_comm ‖p.quat‖] at hb ⊢
  have hN : 0 ≤ ‖o.quat‖ * ‖p.quat‖ := by positivity
  have ax := cauchy4 o.quat p.quat (a0 := 0) (a1 := o.z) (a2 := o.y) (a3 := o.x) (b0 := p.x) (b1 := p.y) (b2 := p.z) (b3 := p.w)
      (by rw [ho]; ring) (by rw [hp]; ring)
  have ay := cauchy4 o.quat p.quat (a0 := -o.z) (a1 := 0) (a2 := o.x) (a3 := o.y) (b0 := p.x) (b1 := p.y) (b2 := p.z) (b3 := p.w)
      (by rw [ho]; ring) (by rw [hp]; ring)
  have az := cauchy4 o.quat p.quat (a0 := o.y) (a1 := o.x) (a2 := 0) (a3 := o.z) (b0 := p.x) (b1 := p.y) (b2 := p.z) (b3 := p.w)
      (by rw [ho]; ring) (by rw [hp]; ring)
  have aw := cauchy4 o.quat p.quat (a0 := -o.x) (a1 := o.y) (a2 := o.z) (a3 := 0) (b0 := p.x) (b1 := p.y) (b2 := p.z) (b3 := p.w)
      (by rw [ho]; ring) (by rw [hp]; ring)
  have tri : ∀ (s2 s3 s4 : Bool) (t0 t1 t2 t3 : ℝ), |t0| + |t1| + |t2| + |t3| ≤ ‖o.quat‖ * ‖p.quat‖ →
      |t0 + (if s2 then 1 else -1) * t1 + (if s3 then 1 else -1) * t2 + (if s4 then 1 else -1) * t3| ≤ ‖o.quat‖ * ‖p.quat‖ := by
    intro s2 s3 s4 t0 t1 t2 t3 h
    have ab : ∀ (s : Bool) (x : ℝ), |(if s then (1 : ℝ) else -1) * x| = |x| := by intro s x; cases s <;> simp
    have k1 := abs_add_le (t0 + (if s2 then 1 else -1) * t1 + (if s3 then 1 else -1) * t2) ((if s4 then 1 else -1) * t3)
    have k2 := abs_add_le (t0 + (if s2 then 1 else -1) * t1) ((if s3 then 1 else -1) * t2)
    have k3 := abs_add_le t0 ((if s2 then 1 else -1) * t1)
    rw [ab] at k1 k2 k3
    linarith
  have hx := F.half_of (F.dot4 (s2 := true) (s3 := false) (s4 := true) ax hb rfl) (tri true false true _ _ _ _ ax) hN hb hb1 ht2
  have hy := F.half_of (F.dot4 (s2 := true) (s3 := true) (s4 := true) ay hb rfl) (tri true true true _ _ _ _ ay) hN hb hb1 ht2
  have hz := F.half_of (F.dot4 (s2 := false) (s3 := true) (s4 := true) az hb rfl) (tri false true true _ _ _ _ az) hN hb hb1 ht2
  have hw := F.half_of (F.dot4 (s2 := false) (s3 := false) (s4 := true) aw hb rfl) (tri false false true _ _ _ _ aw) hN hb hb1 ht2
  simp only [if_true, Bool.false_eq_true, if_false] at hx hy hz hw
  rw [← cx] at hx
  rw [← cy] at hy
  rw [← cz] at hz
  have := quat_norm_le (a := c.quat - (qDerivative p o).quat)
    (e := 5 * F.u * (‖o.quat‖ * ‖p.quat‖) + 6 * (F.u * F.tiny)) ?_ ?_ ?_ ?_
  · linarith
  · rw [← abs_neg] at hw
    convert hw using 2
    simp [qDerivative, cw]; ring
  · convert hx using 2
    simp [qDerivative]; ring
  · convert hy using 2
    simp [qDerivative]
  · convert hz using 2
    simp [qDerivative]; ring

/-- The rounded rate of change of a quaternion. -/
theorem Rounding.qDerivative_near (p : Rot ℝ) (o : Vec3 ℝ) (hb : 2 * (‖p.quat‖ * ‖o.quat‖ + F.tiny) ≤ F.big) (hb1 : 1 ≤ F.big)
    (ht2 : F.tiny ≤ 1 / 2) :
    ‖Rot.quat (qDerivative (K := Fl F) p o) - (qDerivative p o).quat‖ ≤ 10 * F.u * (‖p.quat‖ * ‖o.quat‖) + 12 * (F.u * F.tiny) :=
  F.qDerivative_aux p _ o hb hb1 ht2 rfl rfl rfl rfl

/-! ### The axis of a joint in the world -/

theorem norm_le_near {a b : ℍ[ℝ]} {e : ℝ} (h : ‖a - b‖ ≤ e) : ‖a‖ ≤ ‖b‖ + e := by
  have := norm_add_le (a - b) b
  rw [sub_add_cancel] at this
  linarith

theorem Rounding.axis_near {α ε : ℝ} (q' q : Rot ℝ) (a' a w : Vec3 ℝ) (hq : ‖q.quat‖ = 1) (h : ‖q'.quat - q.quat‖ ≤ α) (hα : α ≤ 1 / 4)
    (hue : F.u ≤ ε) (hεα : 125 * ε ≤ α) (ha : ‖a'.quat - a.quat‖ ≤ ε * ‖a.quat‖) (ht : 4 * F.tiny ≤ 1) (hb : 4 * (5 + 3 * ‖a.quat‖) ≤ F.big)
    (hw : w = Rot.rotate (K := Fl F) q' a') :
    ‖w.quat - (q.rotate a).quat‖ ≤ 7 / 2 * α * ‖a.quat‖ + α * F.tiny := by
  have hu := F.u_nonneg
  have ht0 := F.tiny_nonneg
  have hα0 : 0 ≤ α := by linarith
  have n0 := norm_nonneg a.quat
  have hq0 : 0 < ‖q.quat‖ := by rw [hq]; norm_num
  have ha1 : ‖a'.quat‖ ≤ 502 / 500 * ‖a.quat‖ := by
    have h1 := norm_le_near ha
    have h2 : ε * ‖a.quat‖ ≤ 1 / 500 * ‖a.quat‖ := mul_le_mul_of_nonneg_right (by linarith) n0
    linarith
  have n0' := norm_nonneg a'.quat
  obtain ⟨k1, k2⟩ := norm_near (a := α) (q := q.quat) (q' := q'.quat) (by rw [hq, mul_one]; exact h)
  rw [hq] at k1 k2
  have hq' : 0 < ‖q'.quat‖ := by linarith
  have hqi : ‖q'.quat‖⁻¹ ≤ 2 := by
    rw [inv_le_comm₀ hq' (by norm_num)]; linarith
  have e1 := F.rotate_near q' a' (N := 2) hq' (by norm_num) (by linarith) hqi (by linarith) (by linarith)
  rw [← hw] at e1
  have e2 := rotate_pert (v := a'.quat) (a := α) hq0 (by rw [hq, mul_one]; exact h) hα
  have e3 : ‖q.quat * a'.quat * q.quat⁻¹ - q.quat * a.quat * q.quat⁻¹‖ ≤ ε * ‖a.quat‖ := by
    rw [← sub_mul, ← mul_sub, norm_mul, norm_mul, norm_inv, hq]
    simpa using ha
  rw [Rot.quat_rotate q hq0]
  have e : w.quat - q.quat * a.quat * q.quat⁻¹ = (w.quat - q'.quat * a'.quat * q'.quat⁻¹) +
      (q'.quat * a'.quat * q'.quat⁻¹ - q.quat * a'.quat * q.quat⁻¹) +
      (q.quat * a'.quat * q.quat⁻¹ - q.quat * a.quat * q.quat⁻¹) := by abel
  rw [e]
  have t := norm_add₃_le (a := w.quat - q'.quat * a'.quat * q'.quat⁻¹) (b := q'.quat * a'.quat * q'.quat⁻¹ - q.quat * a'.quat * q.quat⁻¹)
    (c := q.quat * a'.quat * q.quat⁻¹ - q.quat * a.quat * q.quat⁻¹)
  have c1 : F.u * ‖a'.quat‖ ≤ ε * (502 / 500 * ‖a.quat‖) := mul_le_mul hue ha1 n0' (by linarith)
  have c2 : α * ‖a'.quat‖ ≤ α * (502 / 500 * ‖a.quat‖) := mul_le_mul_of_nonneg_left ha1 hα0
  have c3 : 125 * (ε * ‖a.quat‖) ≤ α * ‖a.quat‖ := by
    have := mul_le_mul_of_nonneg_right hεα n0
    linarith
  have c4 : 80 * (F.u * F.tiny) ≤ α * F.tiny := by
    have := mul_le_mul_of_nonneg_right (show 80 * F.u ≤ α by linarith) ht0
    linarith
  have c5 : 0 ≤ α * ‖a.quat‖ := by positivity
  linarith

/-- the column of a turning joint, position rows -/
theorem Rounding.turn_pos {α ε M : ℝ} (w' w e' e c' c d : Vec3 ℝ) (hα : α ≤ 1 / 4) (hue : F.u ≤ ε) (hεα : 125 * ε ≤ α) (hM : F.tiny ≤ M)
    (hw1 : ‖w.quat‖ = 1) (hw : ‖w'.quat - w.quat‖ ≤ 7 / 2 * α + α * F.tiny) (he : ‖e'.quat - e.quat‖ ≤ 4 * α * M)
    (hc : ‖c'.quat - c.quat‖ ≤ 4 * α * M) (he1 : ‖e.quat‖ ≤ M) (hc1 : ‖c.quat‖ ≤ M) (ht : 100 * F.tiny ≤ 1) (hb : 20 * (M + 1) ≤ F.big)
    (hd : d = Vec3.cross (K := Fl F) w' (Vec3.sub (K := Fl F) e' c')) :
    ‖d.quat - (Vec3.cross w (Vec3.sub e c)).quat‖ ≤ 24 * α * M := by
  have hu := F.u_nonneg
  have hu1 := F.u_small
  have ht0 := F.tiny_nonneg
  have hα0 : 0 ≤ α := by linarith
  have hM0 : 0 ≤ M := ht0.trans hM
  have hαM : 0 ≤ α * M := mul_nonneg hα0 hM0
  have hαM4 : α * M ≤ 1 / 4 * M := mul_le_mul_of_nonneg_right hα hM0
  have huM : 125 * (F.u * M) ≤ α * M := by
    have := mul_le_mul_of_nonneg_right (show 125 * F.u ≤ α by linarith) hM0
    linarith
  have huM0 : 0 ≤ F.u * M := mul_nonneg hu hM0
  have hut : F.u * F.tiny ≤ F.u * M := mul_le_mul_of_nonneg_left hM hu
  obtain ⟨s, hs⟩ : ∃ s : Vec3 ℝ, s = Vec3.sub (K := Fl F) e' c' := ⟨_, rfl⟩
  rw [← hs] at hd
  have hec : ‖e.quat - c.quat‖ ≤ 2 * M := by
    have := norm_sub_le e.quat c.quat
    linarith
  have h1 : ‖(e'.quat - c'.quat) - (e.quat - c.quat)‖ ≤ 8 * (α * M) := by
    have e1 : (e'.quat - c'.quat) - (e.quat - c.quat) = (e'.quat - e.quat) - (c'.quat - c.quat) := by abel
    rw [e1]
    have := norm_sub_le (e'.quat - e.quat) (c'.quat - c.quat)
    linarith
  have h2 : ‖e'.quat - c'.quat‖ ≤ 4 * M := by
    have := norm_le_near h1
    linarith
  have h3 := F.sub_vec e' c' (by linarith)
  rw [← hs] at h3
  have h4 : ‖s.quat - (e.quat - c.quat)‖ ≤ 81 / 10 * (α * M) := by
    have e1 : s.quat - (e.quat - c.quat) = (s.quat - (e'.quat - c'.quat)) + ((e'.quat - c'.quat) - (e.quat - c.quat)) := by abel
    rw [e1]
    have := norm_add_le (s.quat - (e'.quat - c'.quat)) ((e'.quat - c'.quat) - (e.quat - c.quat))
    have := mul_le_mul_of_nonneg_left h2 hu
    linarith
  have h5 : ‖s.quat‖ ≤ 41 / 10 * M := by
    have := norm_le_near h4
    linarith
  have hαt : α * F.tiny ≤ 1 / 100 * α := by
    have := mul_le_mul_of_nonneg_left (show F.tiny ≤ 1 / 100 by linarith) hα0
    linarith
  have hw2 : ‖w'.quat‖ ≤ 2 := by
    have := norm_le_near hw
    rw [hw1] at this
    linarith
  have n1 := norm_nonneg w'.quat
  have n2 := norm_nonneg s.quat
  have hws : ‖w'.quat‖ * ‖s.quat‖ ≤ 2 * (41 / 10 * M) := mul_le_mul hw2 h5 n2 (by norm_num)
  have h6 := F.cross_vec w' s (by linarith)
  rw [← hd] at h6
  have h7 := Vec3.cross_pert w w' (Vec3.sub e c) s
  rw [Vec3.quat_sub, hw1, one_mul] at h7
  have e1 : d.quat - (Vec3.cross w (Vec3.sub e c)).quat = (d.quat - (Vec3.cross w' s).quat) + ((Vec3.cross w' s).quat - (Vec3.cross w (Vec3.sub e c)).quat) := by abel
  rw [e1]
  have t := norm_add_le (d.quat - (Vec3.cross w' s).quat) ((Vec3.cross w' s).quat - (Vec3.cross w (Vec3.sub e c)).quat)
  have k1 := mul_le_mul_of_nonneg_left hws hu
  have k2 : ‖w'.quat - w.quat‖ * ‖s.quat‖ ≤ (7 / 2 * α + 1 / 100 * α) * (41 / 10 * M) :=
    mul_le_mul (by linarith) h5 n2 (by linarith)
  linarith

/-- the rounded inverse -/
theorem Rounding.inverse_near {α ε : ℝ} (q' q i : Rot ℝ) (hq : ‖q.quat‖ = 1) (h : ‖q'.quat - q.quat‖ ≤ α) (hα : α ≤ 1 / 4)
    (hue : F.u ≤ ε) (hεα : 125 * ε ≤ α) (ht : 4 * F.tiny ≤ 1) (hb : 10 ≤ F.big) (hi : i = Rot.inverse (K := Fl F) q') :
    ‖i.quat - q.quat⁻¹‖ ≤ 16 / 10 * α := by
  have hu := F.u_nonneg
  have ht0 := F.tiny_nonneg
  obtain ⟨k1, k2⟩ := norm_near (a := α) (q := q.quat) (q' := q'.quat) (by rw [hq, mul_one]; exact h)
  rw [hq] at k1 k2
  have hq' : 0 < ‖q'.quat‖ := by linarith
  have hqi : ‖q'.quat‖⁻¹ ≤ 4 / 3 := by
    rw [inv_le_comm₀ hq' (by norm_num)]; linarith
  have sq1 : 1 / 2 ≤ ‖q'.quat‖ ^ 2 := by nlinarith
  have sq2 : ‖q'.quat‖ ^ 2 ≤ 2 := by nlinarith
  have e0 : i = Rot.getInverse (K := Fl F) q' := by
    rw [hi]
    obtain ⟨n, hne⟩ : ∃ n : ℝ, n = Rot.norm2 (K := Fl F) q' := ⟨_, rfl⟩
    have h1 := F.norm2_near q' hne (by linarith)
    have h2 : F.u * ‖q'.quat‖ ^ 2 ≤ 1 / 1000 * 2 := mul_le_mul F.u_small sq2 (by positivity) (by norm_num)
    have h3 : F.u * F.tiny ≤ 1 / 1000 * (1 / 4) := mul_le_mul F.u_small (by linarith) ht0 (by norm_num)
    have hpos : 0 < n := by linarith [(abs_le.mp h1).1]
    subst hne
    unfold Rot.getInverse Rot.inverse
    exact (if_pos (@decide_eq_true _ (Classical.dec _) hpos)).symm
  have e1 := F.inv_quat q' hq' (by linarith) (by linarith) (by linarith)
  rw [← e0, norm_inv] at e1
  have e2 : ‖q'.quat⁻¹ - q.quat⁻¹‖ ≤ 4 / 3 * α := by
    have hq'0 : q'.quat ≠ 0 := norm_pos_iff.mp hq'
    have hq0 : q.quat ≠ 0 := norm_pos_iff.mp (by rw [hq]; norm_num)
    have : q'.quat⁻¹ - q.quat⁻¹ = -(q'.quat⁻¹ * (q'.quat - q.quat) * q.quat⁻¹) := by
      rw [mul_sub, sub_mul, inv_mul_cancel₀ hq'0, mul_assoc, mul_inv_cancel₀ hq0]
      simp
    rw [this, norm_neg, norm_mul, norm_mul, norm_inv, norm_inv, hq, inv_one, mul_one]
    exact mul_le_mul hqi h (norm_nonneg _) (by norm_num)
  have e : i.quat - q.quat⁻¹ = (i.quat - q'.quat⁻¹) + (q'.quat⁻¹ - q.quat⁻¹) := by abel
  rw [e]
  have t := norm_add_le (i.quat - q'.quat⁻¹) (q'.quat⁻¹ - q.quat⁻¹)
  have c1 : F.u * ‖q'.quat‖⁻¹ ≤ ε * (4 / 3) := mul_le_mul hue hqi (by positivity) (by linarith)
  have c2 : F.u * F.tiny ≤ ε * (1 / 4) := mul_le_mul hue (by linarith) ht0 (by linarith)
  linarith

/-- the column of a turning joint, quaternion rows -/
theorem Rounding.turn_rot {α ε : ℝ} (q' q d : Rot ℝ) (w' w : Vec3 ℝ) (hq : q.norm2 = 1) (h : ‖q'.quat - q.quat‖ ≤ α) (hα : α ≤ 1 / 4)
    (hue : F.u ≤ ε) (hεα : 125 * ε ≤ α) (hw1 : ‖w.quat‖ = 1) (hw : ‖w'.quat - w.quat‖ ≤ 7 / 2 * α + α * F.tiny) (ht : 100 * F.tiny ≤ 1)
    (hb : 20 ≤ F.big) (hd : d = qDerivative (K := Fl F) (Rot.inverse (K := Fl F) q') w') :
    ‖d.quat - (Rot.spin w q).quat‖ ≤ 4 * α := by
  have hu := F.u_nonneg
  have ht0 := F.tiny_nonneg
  have hα0 : 0 ≤ α := by linarith
  have hqn : ‖q.quat‖ = 1 := by
    have : ‖q.quat‖ ^ 2 = 1 := by
      rw [quat_norm_sq]
      refine Eq.trans ?_ hq
      simp [Rot.norm2]; ring
    nlinarith [norm_nonneg q.quat]
  have hq0 : 0 < ‖q.quat‖ := by rw [hqn]; norm_num
  obtain ⟨i, hi⟩ : ∃ i : Rot ℝ, i = Rot.inverse (K := Fl F) q' := ⟨_, rfl⟩
  rw [← hi] at hd
  have e1 := F.inverse_near q' q i hqn h hα hue hεα (by linarith) (by linarith) hi
  have hn : ‖q.quat⁻¹‖ = 1 := by rw [norm_inv, hqn, inv_one]
  have hin : ‖i.quat‖ ≤ 14 / 10 := by
    have := norm_le_near e1
    rw [hn] at this
    linarith
  have hαt : α * F.tiny ≤ 1 / 100 * α := by
    have := mul_le_mul_of_nonneg_left (show F.tiny ≤ 1 / 100 by linarith) hα0
    linarith
  have hw2 : ‖w'.quat‖ ≤ 2 := by
    have := norm_le_near hw
    rw [hw1] at this
    linarith
  have hiw : ‖i.quat‖ * ‖w'.quat‖ ≤ 14 / 10 * 2 := mul_le_mul hin hw2 (norm_nonneg _) (by norm_num)
  have e2 := F.qDerivative_near i w' (by linarith) (by linarith) (by linarith)
  rw [← hd] at e2
  have hgi : q.inverse.quat = q.quat⁻¹ := by
    rw [← Rot.quat_getInverse q hq0]
    congr 1
    unfold Rot.getInverse Rot.inverse
    rw [if_pos (by rw [real_lt, hq]; norm_num)]
  rw [← Rot.qDerivative_inverse hq, qDerivative_quat, hgi]
  rw [qDerivative_quat] at e2
  have e3 : ‖(-(1 / 2 : ℝ)) • star (i.quat * w'.quat) - (-(1 / 2 : ℝ)) • star (q.quat⁻¹ * w.quat)‖ ≤ 1 / 2 * (16 / 10 * α * 2 + (7 / 2 * α + 1 / 100 * α)) := by
    rw [← smul_sub, ← star_sub, norm_smul, Quaternion.norm_star]
    have : i.quat * w'.quat - q.quat⁻¹ * w.quat = (i.quat - q.quat⁻¹) * w'.quat + q.quat⁻¹ * (w'.quat - w.quat) := by
      rw [sub_mul, mul_sub]; abel
    rw [this]
    have t := norm_add_le ((i.quat - q.quat⁻¹) * w'.quat) (q.quat⁻¹ * (w'.quat - w.quat))
    rw [norm_mul, norm_mul, hn, one_mul] at t
    have k : ‖i.quat - q.quat⁻¹‖ * ‖w'.quat‖ ≤ 16 / 10 * α * 2 := mul_le_mul e1 hw2 (norm_nonneg _) (by linarith)
    have : ‖(-(1 / 2) : ℝ)‖ = 1 / 2 := by norm_num
    rw [this]
    linarith
  have e : d.quat - (-(1 / 2 : ℝ)) • star (q.quat⁻¹ * w.quat) = (d.quat - (-(1 / 2 : ℝ)) • star (i.quat * w'.quat)) +
      ((-(1 / 2 : ℝ)) • star (i.quat * w'.quat) - (-(1 / 2 : ℝ)) • star (q.quat⁻¹ * w.quat)) := by abel
  rw [e]
  have t := norm_add_le (d.quat - (-(1 / 2 : ℝ)) • star (i.quat * w'.quat))
    ((-(1 / 2 : ℝ)) • star (i.quat * w'.quat) - (-(1 / 2 : ℝ)) • star (q.quat⁻¹ * w.quat))
  have k1 := mul_le_mul_of_nonneg_left hiw hu
  have k2 : F.u * F.tiny ≤ ε * (1 / 100) := mul_le_mul hue (by linarith) ht0 (by linarith)
  linarith

end

end Tinyfk
