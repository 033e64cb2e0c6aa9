import Verif.Proofs.Turns
import Verif.Proofs.JacQuery
import Verif.Props.BatchJac

/-!
# Columns of the Jacobian when poses change by the sign of their quaternions
-/

namespace Tinyfk

open Scalar Rot

theorem Rot.inverse_neg (q : Rot ℝ) : q.neg.inverse = q.inverse.neg := by
  simp only [inverse, norm2_neg]
  simp only [neg]
  exact Rot.ext (by ring) (by ring) (by ring) (by ring)

theorem Pose.SamePlace.inverse {A A' : Pose ℝ} (h : SamePlace A A') : SamePlace A.inverse A'.inverse := by
  have hr : UpToSign A.rotation.inverse A'.rotation.inverse := by
    rcases h.rot with e | e
    · exact .inl (by rw [e])
    · exact .inr (by rw [e, Rot.inverse_neg])
  refine ⟨?_, hr⟩
  show A'.rotation.inverse.rotate A'.position.inverseInplace = A.rotation.inverse.rotate A.position.inverseInplace
  rw [h.pos, hr.rotate]

theorem FullTurns.sin {v v' : ℝ} (h : FullTurns v v') : Real.sin v' = Real.sin v := by
  obtain ⟨z, rfl⟩ := h
  exact Real.sin_add_int_mul_two_pi v z

theorem FullTurns.cos {v v' : ℝ} (h : FullTurns v v') : Real.cos v' = Real.cos v := by
  obtain ⟨z, rfl⟩ := h
  exact Real.cos_add_int_mul_two_pi v z

theorem rpyDerivative_turns {a b : Vec3 ℝ} (hy : b.y = a.y) (hz : FullTurns a.z b.z) (w : Vec3 ℝ) :
    rpyDerivative b w = rpyDerivative a w := by
  have h1 := hz.sin
  have h2 := hz.cos
  simp only [rpyDerivative, real_sin, real_cos, Real.sin_neg, Real.cos_neg, hy, h1, h2]

theorem qDerivative_neg (q : Rot ℝ) (w : Vec3 ℝ) : qDerivative q.neg w = (qDerivative q w).neg := by
  simp only [qDerivative, Rot.neg]
  exact Rot.ext (by ring) (by ring) (by ring) (by ring)

variable {E E' C C' B B' : Pose ℝ} {j : Joint ℝ} {rt : RotType}

/-- the column of a joint -/
theorem jointCol_turned (hE : Pose.SamePlace E E') (hC : Pose.SamePlace C C') :
    (∀ r < 3, jointCol rt E' C' j r = jointCol rt E C j r) ∧
    (rt = .rpy → ∀ r, jointCol rt E' C' j r = jointCol rt E C j r) ∧
    (E'.rotation = E.rotation → ∀ r, jointCol rt E' C' j r = jointCol rt E C j r) ∧
    (rt = .xyzw → E'.rotation = E.rotation.neg → ∀ r, 3 ≤ r → jointCol rt E' C' j r = -jointCol rt E C j r) := by
  have ha : C'.rotation.rotate j.axis = C.rotation.rotate j.axis := hC.rot.rotate _
  have h3 : ∀ r < 3, jointCol rt E' C' j r = jointCol rt E C j r := by
    intro r hr
    match r, hr with
    | 0, _ => simp only [jointCol, ha, hE.pos, hC.pos]
    | 1, _ => simp only [jointCol, ha, hE.pos, hC.pos]
    | 2, _ => simp only [jointCol, ha, hE.pos, hC.pos]
  refine ⟨h3, ?_, ?_, ?_⟩
  · rintro rfl r
    match r with
    | 0 | 1 | 2 => exact h3 _ (by decide)
    | r + 3 =>
      obtain ⟨g1, g2, g3, _⟩ := hE.rot.getRPY
      simp only [jointCol, ha, rpyDerivative_turns g2 g3]
  · intro e r
    match r with
    | 0 | 1 | 2 => exact h3 _ (by decide)
    | r + 3 => simp only [jointCol, ha, e]
  · rintro rfl e r hr
    obtain ⟨r, rfl⟩ : ∃ r', r = r' + 3 := ⟨r - 3, by omega⟩
    simp only [jointCol, ha, e, Rot.inverse_neg, qDerivative_neg]
    split
    · simp
    · match r with
      | 0 | 1 | 2 | 3 => simp [Rot.neg]
      | r + 4 => simp

/-- where the tweaked base carries the link -/
theorem tweaked_turned (hE : Pose.SamePlace E E') (hB : Pose.SamePlace B B') (k : Nat) :
    Pose.SamePlace
      (Pose.transform { B with rotation := Rot.fromRPY (tweak B.rotation.getRPY k).x (tweak B.rotation.getRPY k).y (tweak B.rotation.getRPY k).z }
        (Pose.transform B.inverse E))
      (Pose.transform { B' with rotation := Rot.fromRPY (tweak B'.rotation.getRPY k).x (tweak B'.rotation.getRPY k).y (tweak B'.rotation.getRPY k).z }
        (Pose.transform B'.inverse E')) := by
  refine Pose.SamePlace.transform ⟨hB.pos, ?_⟩ (hB.inverse.transform hE)
  obtain ⟨g1, g2, ⟨z, g3⟩, _⟩ := hB.rot.getRPY
  apply Rot.fromRPY_turns
  · match k with
    | 0 | 1 | k + 2 => exact ⟨0, by simp [tweak, g1]⟩
  · match k with
    | 0 | 1 | k + 2 => exact ⟨0, by simp [tweak, g2]⟩
  · match k with
    | 0 | 1 => exact ⟨z, by simp [tweak, g3]⟩
    | k + 2 => exact ⟨z, by simp [tweak, g3]; ring⟩

theorem epsFD_real : (epsFD : ℝ) = 1 / 10 ^ 7 := by simp [epsFD, real_lit]

/-- the column of an angle of the base -/
theorem baseRotCol_turned (hE : Pose.SamePlace E E') (hB : Pose.SamePlace B B') (k : Nat) :
    (∀ r < 3, baseRotCol rt E' B' k r = baseRotCol rt E B k r) ∧
    (rt = .rpy → baseRotCol rt E' B' k 3 = baseRotCol rt E B k 3 ∧ baseRotCol rt E' B' k 4 = baseRotCol rt E B k 4 ∧
      FullTurns (baseRotCol rt E B k 5 / 10 ^ 7) (baseRotCol rt E' B' k 5 / 10 ^ 7) ∧
      (|Real.sin E.rotation.getRPY.y| < 99999 / 100000 →
        |Real.sin (E.rotation.getRPY.y + baseRotCol rt E B k 4 / 10 ^ 7)| < 99999 / 100000 →
        baseRotCol rt E' B' k 5 = baseRotCol rt E B k 5)) := by
  have ho := tweaked_turned hE hB k
  unfold baseRotCol
  simp only
  generalize Pose.transform { B with rotation := Rot.fromRPY (tweak B.rotation.getRPY k).x (tweak B.rotation.getRPY k).y (tweak B.rotation.getRPY k).z }
        (Pose.transform B.inverse E) = o at *
  generalize Pose.transform { B' with rotation := Rot.fromRPY (tweak B'.rotation.getRPY k).x (tweak B'.rotation.getRPY k).y (tweak B'.rotation.getRPY k).z }
        (Pose.transform B'.inverse E') = o' at *
  constructor
  · intro r hr
    match r, hr with
    | 0, _ => simp only [hE.pos, ho.pos]
    | 1, _ => simp only [hE.pos, ho.pos]
    | 2, _ => simp only [hE.pos, ho.pos]
  · rintro rfl
    obtain ⟨g1, g2, ⟨z, g3⟩, g4⟩ := hE.rot.getRPY
    obtain ⟨f1, f2, ⟨y, f3⟩, f4⟩ := ho.rot.getRPY
    simp only [Vec3.sub, List.getD_cons_zero, List.getD_cons_succ, epsFD_real]
    refine ⟨by rw [g1, f1], by rw [g2, f2], ⟨y - z, ?_⟩, ?_⟩
    · rw [g3, f3]
      push_cast
      field_simp
      ring
    · intro b1 b2
      have e : E.rotation.getRPY.y + (o.rotation.getRPY.y - E.rotation.getRPY.y) / (1 / 10 ^ 7) / 10 ^ 7 = o.rotation.getRPY.y := by
        field_simp
        ring
      rw [e] at b2
      rw [g4 (Rot.band_of_pitch b1), f4 (Rot.band_of_pitch b2)]

end Tinyfk
