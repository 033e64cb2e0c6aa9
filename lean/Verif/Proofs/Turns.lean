import Mathlib.Analysis.SpecialFunctions.Complex.Arg
import Verif.Proofs.Rebase
import Verif.Props.BaseAngles

/-!
# Poses after full turns
-/

namespace Tinyfk

open Scalar

namespace Rot

/-- equal up to the sign of all four numbers -/
def UpToSign (p q : Rot ℝ) : Prop := q = p ∨ q = p.neg

theorem neg_neg (q : Rot ℝ) : q.neg.neg = q := by simp [neg]

theorem UpToSign.refl (p : Rot ℝ) : UpToSign p p := .inl rfl

theorem UpToSign.neg {p q : Rot ℝ} (h : UpToSign p q) : UpToSign p q.neg := by
  rcases h with rfl | rfl
  · exact .inr rfl
  · exact .inl (neg_neg _)

theorem UpToSign.trans {p q r : Rot ℝ} (h : UpToSign p q) (h' : UpToSign q r) : UpToSign p r := by
  rcases h' with rfl | rfl
  · exact h
  · exact h.neg

theorem mul_neg (q r : Rot ℝ) : mul q r.neg = (mul q r).neg := by
  simp only [Rot.neg, mul, Rot.mk.injEq]
  refine ⟨?_, ?_, ?_, ?_⟩ <;> ring

theorem getInverse_neg {q : Rot ℝ} (h : 0 < q.norm2) : q.neg.getInverse = q.getInverse.neg := by
  have e : q.neg.norm2 = q.norm2 := norm2_neg q
  have h' : Scalar.lt 0 q.norm2 = true := by rw [real_lt]; exact h
  simp only [getInverse, e, if_pos h']
  simp [Rot.neg, neg_div]

theorem rotate_neg_any (q : Rot ℝ) (v : Vec3 ℝ) : q.neg.rotate v = q.rotate v := by
  by_cases h : 0 < q.norm2
  · simp only [rotate, getInverse_neg h, mul_neg, neg_mul, neg_neg]
  · have e : q.neg = q := by
      simp only [norm2] at h
      have hx : q.x = 0 := by nlinarith [mul_self_nonneg q.x, mul_self_nonneg q.y, mul_self_nonneg q.z, mul_self_nonneg q.w]
      have hy : q.y = 0 := by nlinarith [mul_self_nonneg q.x, mul_self_nonneg q.y, mul_self_nonneg q.z, mul_self_nonneg q.w]
      have hz : q.z = 0 := by nlinarith [mul_self_nonneg q.x, mul_self_nonneg q.y, mul_self_nonneg q.z, mul_self_nonneg q.w]
      have hw : q.w = 0 := by nlinarith [mul_self_nonneg q.x, mul_self_nonneg q.y, mul_self_nonneg q.z, mul_self_nonneg q.w]
      apply Rot.ext <;> simp [Rot.neg, hx, hy, hz, hw]
    rw [e]

theorem UpToSign.mul {p q p' q' : Rot ℝ} (h : UpToSign p p') (h' : UpToSign q q') :
    UpToSign (Rot.mul p q) (Rot.mul p' q') := by
  rcases h with rfl | rfl <;> rcases h' with rfl | rfl
  · exact .inl rfl
  · exact .inr (mul_neg _ _)
  · exact .inr (neg_mul _ _)
  · rw [mul_neg, neg_mul, neg_neg]; exact .inl rfl

theorem UpToSign.rotate {p q : Rot ℝ} (h : UpToSign p q) (v : Vec3 ℝ) : q.rotate v = p.rotate v := by
  rcases h with rfl | rfl
  · rfl
  · exact rotate_neg_any _ _

end Rot

theorem half_turn (x : ℝ) (z : ℤ) :
    (Real.sin (x + z * Real.pi) = Real.sin x ∧ Real.cos (x + z * Real.pi) = Real.cos x) ∨
    (Real.sin (x + z * Real.pi) = -Real.sin x ∧ Real.cos (x + z * Real.pi) = -Real.cos x) := by
  rw [Real.sin_add_int_mul_pi, Real.cos_add_int_mul_pi]
  rcases Int.even_or_odd z with h | h
  · left; simp [h.neg_one_zpow]
  · right; simp [h.neg_one_zpow]

theorem half_turn_mul (x : ℝ) (z : ℤ) : (x + z * (2 * Real.pi)) * (1 / 2) = x * (1 / 2) + z * Real.pi := by ring
theorem half_turn_div (x : ℝ) (z : ℤ) : (x + z * (2 * Real.pi)) / 2 = x / 2 + z * Real.pi := by ring

/-- the two numbers differ by full turns -/
def FullTurns (v v' : ℝ) : Prop := ∃ z : ℤ, v' = v + z * (2 * Real.pi)

theorem FullTurns.refl (v : ℝ) : FullTurns v v := ⟨0, by simp⟩

theorem Rot.fromRPY_turns {r p y r' p' y' : ℝ} (hr : FullTurns r r') (hp : FullTurns p p') (hy : FullTurns y y') :
    UpToSign (fromRPY r p y) (fromRPY r' p' y') := by
  obtain ⟨a, rfl⟩ := hr
  obtain ⟨b, rfl⟩ := hp
  obtain ⟨c, rfl⟩ := hy
  have h1 : UpToSign (fromRPY r p y) (fromRPY (r + a * (2 * Real.pi)) p y) := by
    rw [fromRPY_raw, fromRPY_raw, half_turn_div]
    rcases half_turn (r / 2) a with ⟨e1, e2⟩ | ⟨e1, e2⟩ <;> rw [e1, e2]
    · exact .inl rfl
    · right; simp only [Rot.neg, Rot.mk.injEq]; refine ⟨?_, ?_, ?_, ?_⟩ <;> ring
  have h2 : ∀ r, UpToSign (fromRPY r p y) (fromRPY r (p + b * (2 * Real.pi)) y) := by
    intro r
    rw [fromRPY_raw, fromRPY_raw, half_turn_div]
    rcases half_turn (p / 2) b with ⟨e1, e2⟩ | ⟨e1, e2⟩ <;> rw [e1, e2]
    · exact .inl rfl
    · right; simp only [Rot.neg, Rot.mk.injEq]; refine ⟨?_, ?_, ?_, ?_⟩ <;> ring
  have h3 : ∀ r p, UpToSign (fromRPY r p y) (fromRPY r p (y + c * (2 * Real.pi))) := by
    intro r p
    rw [fromRPY_raw, fromRPY_raw, half_turn_div]
    rcases half_turn (y / 2) c with ⟨e1, e2⟩ | ⟨e1, e2⟩ <;> rw [e1, e2]
    · exact .inl rfl
    · right; simp only [Rot.neg, Rot.mk.injEq]; refine ⟨?_, ?_, ?_, ?_⟩ <;> ring
  exact (h1.trans (h2 _)).trans (h3 _ _)

/-- the same place in space: equal positions, quaternions equal up to sign -/
structure Pose.SamePlace (T T' : Pose ℝ) : Prop where
  pos : T'.position = T.position
  rot : Rot.UpToSign T.rotation T'.rotation

theorem Pose.SamePlace.refl (T : Pose ℝ) : Pose.SamePlace T T := ⟨rfl, .refl _⟩

theorem Pose.SamePlace.transform {A A' B B' : Pose ℝ} (h : SamePlace A A') (h' : SamePlace B B') :
    SamePlace (Pose.transform A B) (Pose.transform A' B') := by
  constructor
  · simp only [Pose.transform, h.rot.rotate, h.pos, h'.pos]
  · exact h.rot.mul h'.rot

/-- The pose of a link when turning joints make full turns. -/
theorem WorldPose.turns {ls : List (RawLink ℝ)} {js : List (RawJoint ℝ)} {welds : Weld ℝ → Prop} {θ θ' : String → ℝ}
    {b b' : Pose ℝ} (hθ : ∀ j ∈ js, θ' j.name = θ j.name ∨
      (j.type = .revolute ∨ j.type = .continuous) ∧ FullTurns (θ j.name) (θ' j.name))
    (hb : Pose.SamePlace b b') {n : String} {T : Pose ℝ} (h : WorldPose ls js welds θ b n T) :
    ∃ T', WorldPose ls js welds θ' b' n T' ∧ Pose.SamePlace T T' := by
  induction h with
  | root h1 h2 => exact ⟨b', .root h1 h2, hb⟩
  | weld h1 _ ih =>
    obtain ⟨B, hB, hs⟩ := ih
    exact ⟨_, .weld h1 hB, hs.transform (.refl _)⟩
  | @joint j _ _ h1 _ e ih =>
    obtain ⟨B, hB, hs⟩ := ih
    rcases hθ _ h1 with h2 | ⟨h2, z, hz⟩
    · exact ⟨_, .joint h1 hB (h2 ▸ e), hs.transform (.refl _)⟩
    · cases e with
      | fixed ht => rcases h2 with h2 | h2 <;> rw [ht] at h2 <;> cases h2
      | slide ht => rcases h2 with h2 | h2 <;> rw [ht] at h2 <;> cases h2
      | rot ht =>
        refine ⟨_, .joint h1 hB (.rot ht), hs.transform ((Pose.SamePlace.refl _).transform ⟨rfl, ?_⟩)⟩
        rw [hz]
        simp only [real_half, real_sin, real_cos, half_turn_mul]
        rcases half_turn (θ j.name * (1 / 2)) z with ⟨e1, e2⟩ | ⟨e1, e2⟩ <;> rw [e1, e2]
        · exact .inl rfl
        · right; simp [Rot.neg]

theorem toReal_arg_neg (x y : ℝ) : ∃ z : ℤ, 2 * Complex.arg ⟨-x, -y⟩ = 2 * Complex.arg ⟨x, y⟩ + z * (2 * Real.pi) := by
  by_cases h : (⟨x, y⟩ : ℂ) = 0
  · have hx : x = 0 := congrArg Complex.re h
    have hy : y = 0 := congrArg Complex.im h
    subst hx; subst hy
    exact ⟨0, by simp⟩
  · have e : (⟨-x, -y⟩ : ℂ) = -⟨x, y⟩ := by apply Complex.ext <;> simp
    have h1 := Complex.arg_neg_coe_angle h
    rw [← e, ← Real.Angle.coe_add, Real.Angle.angle_eq_iff_two_pi_dvd_sub] at h1
    obtain ⟨k, hk⟩ := h1
    refine ⟨2 * k + 1, ?_⟩
    push_cast
    linarith

/-- roll and pitch do not depend on the sign of the quaternion, the yaw at most by full turns -/
theorem Rot.UpToSign.getRPY {p q : Rot ℝ} (h : UpToSign p q) : q.getRPY.x = p.getRPY.x ∧ q.getRPY.y = p.getRPY.y ∧
    FullTurns p.getRPY.z q.getRPY.z ∧ (|p.sarg| < 99999 / 100000 → q.getRPY.z = p.getRPY.z) := by
  rcases h with rfl | rfl
  · exact ⟨rfl, rfl, .refl _, fun _ => rfl⟩
  · by_cases hb : |p.sarg| < 99999 / 100000
    · rw [getRPY_neg hb]
      exact ⟨rfl, rfl, .refl _, fun _ => rfl⟩
    · have hs : p.neg.sarg = p.sarg := by simp [Rot.neg, sarg]
      refine ⟨?_, ?_, ?_, fun h => absurd h hb⟩
      · simp only [Rot.getRPY, hs]
        split
        · rfl
        · split
          · rfl
          · next h1 h2 =>
            exfalso; apply hb
            rw [real_le, real_sargCut] at h1 h2
            rw [abs_lt]; constructor <;> linarith
      · simp only [Rot.getRPY, hs]
        split
        · rfl
        · split <;> rfl
      · simp only [Rot.getRPY, hs]
        split
        · simp only [real_two, real_atan2, Rot.neg]
          exact toReal_arg_neg _ _
        · split
          · simp only [real_two, real_atan2, Rot.neg]
            obtain ⟨z, hz⟩ := toReal_arg_neg p.y (-p.x)
            exact ⟨z, hz⟩
          · next h1 h2 =>
            exfalso; apply hb
            rw [real_le, real_sargCut] at h1 h2
            rw [abs_lt]; constructor <;> linarith

end Tinyfk
