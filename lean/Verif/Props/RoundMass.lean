import Verif.Props.RoundCom
import Verif.Props.Names

/-!
# Properties: rounding errors of the total mass

C133.
-/

namespace Tinyfk

section
variable {F : Rounding} {ls' : List (RawLink (Fl F))} {js' : List (RawJoint (Fl F))} {ls : List (RawLink ℝ)} {ε μ : ℝ}

/-- **C133.** The total mass in rounded arithmetic, of a robot with any past: it is within `4 N ε (M + tiny)` of the sum `M` of the exact
masses of the `N` links. -/
theorem C133_total_mass {m0 m : KinModel (Fl F)} {cs : List (Call (Fl F))} (h : Reach ls' js' m0 cs m) (hL : List.Forall₂ (LinkNear ε μ) ls' ls)
    (hue : F.u ≤ ε) (hN : 10 * (ls.length * ε) ≤ 1) (hB : 3 * (massSum ls + F.tiny) ≤ F.big) :
    |m.totalMass.real - massSum ls| ≤ 4 * ls.length * ε * (massSum ls + F.tiny) := by
  obtain ⟨sorted', hp', _, he⟩ := C35_total_mass h
  obtain ⟨sorted, hn, hp⟩ := List.perm_comp_forall₂ hp' hL
  have key : List.Forall₂ (fun i' i => 0 ≤ i.mass ∧ |i'.mass.real - i.mass| ≤ ε * i.mass) (sorted'.filterMap RawLink.inertial)
      (sorted.filterMap RawLink.inertial) ∧ ((sorted.filterMap RawLink.inertial).map Inertial.mass).sum = massSum sorted ∧
      (sorted.filterMap RawLink.inertial).length ≤ sorted.length := by
    clear * - hn
    induction hn with
    | nil => exact ⟨.nil, rfl, le_rfl⟩
    | @cons l' l sorted' sorted hl _ ih =>
      obtain ⟨k1, k2, k3⟩ := ih
      cases hi : l'.inertial with
      | none =>
        have hi2 := hl.none.mp hi
        rw [List.filterMap_cons_none hi, List.filterMap_cons_none hi2]
        refine ⟨k1, ?_, k3.trans (by simp)⟩
        rw [k2]
        simp [massSum, RawLink.massOf, hi2]
      | some i' =>
        cases hi2 : l.inertial with
        | none => rw [hl.none.mpr hi2] at hi; cases hi
        | some i =>
          obtain ⟨m1, m2, _⟩ := hl.some i' i hi hi2
          rw [List.filterMap_cons_some hi, List.filterMap_cons_some hi2]
          refine ⟨.cons ⟨m1, m2⟩ k1, ?_, by simpa using k3⟩
          rw [List.map_cons, List.sum_cons, k2]
          simp [massSum, RawLink.massOf, hi2]
  obtain ⟨k1, k2, k3⟩ := key
  rw [massSum_perm hp] at k2
  rw [hp.length_eq] at k3
  have hε0 := F.u_nonneg.trans hue
  have ht0 := F.tiny_nonneg
  have hu0 := F.u_nonneg
  generalize sorted'.filterMap RawLink.inertial = as at he k1
  generalize sorted.filterMap RawLink.inertial = bs at k1 k2 k3
  have hk3 : (bs.length : ℝ) ≤ ls.length := by exact_mod_cast k3
  have hM0 : 0 ≤ massSum ls := by
    rw [← k2]
    refine List.sum_nonneg ?_
    simp only [List.mem_map, forall_exists_index, and_imp, forall_apply_eq_imp_iff₂]
    intro b hb
    obtain ⟨i, hi, rfl⟩ := List.getElem_of_mem hb
    exact (k1.get (i := i) (by rw [k1.length_eq]; exact hi) hi).1
  have e1 : m.totalMass = as.foldl (fun s a => F.add s a.mass) (0 : ℝ) := by rw [he, List.foldl_map]; rfl
  have e2 : massSum ls = bs.foldl (fun s b => s + b.mass) 0 := by
    have : ∀ (bs : List (Inertial ℝ)) (s : ℝ), bs.foldl (fun s b => s + b.mass) s = s + (bs.map Inertial.mass).sum := by
      intro bs
      induction bs with
      | nil => intro s; simp
      | cons b bs ih => intro s; rw [List.foldl_cons, ih, List.map_cons, List.sum_cons]; ring
    rw [this, zero_add, k2]
  cases hbs : bs with
  | nil =>
    subst hbs
    have has : as = [] := by cases k1; rfl
    subst has
    have e3 : m.totalMass.real - massSum ls = 0 := by
      rw [e2, e1]
      exact sub_self (0 : ℝ)
    rw [e3, abs_zero]
    positivity
  | cons b0 bs0 =>
    have h1 : (1 : ℝ) ≤ ls.length := by
      refine le_trans ?_ hk3
      rw [hbs]; simp
    clear hbs
    have hε1 : ε ≤ 1 / 10 := by
      have := mul_le_mul_of_nonneg_right h1 hε0
      linarith
    have hNu : (bs.length : ℝ) * F.u ≤ ls.length * ε := mul_le_mul hk3 hue hu0 (by positivity)
    have hBle : 2 * (1 + ε) * massSum ls + 3 * F.tiny ≤ 3 * (massSum ls + F.tiny) := by nlinarith
    have := fold_near (F := F) (r := fun (i' : Inertial (Fl F)) (i : Inertial ℝ) => 0 ≤ i.mass ∧ |i'.mass.real - i.mass| ≤ ε * i.mass)
      (p := fun a => a.mass) (t := fun b => b.mass) (w := fun b => b.mass) (η := ε) (ρ := 1) (W := massSum ls) hε0 zero_le_one
      (fun a b hab => ⟨hab.1, hab.2.trans (by have := mul_nonneg hu0 ht0; linarith), by rw [abs_of_nonneg hab.1, one_mul]⟩) rfl (hBle.trans hB) k1 0 0 0 0 le_rfl
      (by rw [zero_add]; exact k2.le) (by rw [Nat.zero_add]; linarith) (by simp) (by simp)
    rw [← e2, Nat.zero_add, zero_add] at this
    have k2' : (bs.map fun b => b.mass).sum = massSum ls := k2
    rw [k2'] at this
    rw [e1]
    refine this.trans ?_
    have q1 : (bs.length : ℝ) * (F.u * (2 * (1 + ε) * massSum ls + 3 * F.tiny)) ≤ ls.length * ε * (3 * (massSum ls + F.tiny)) := by
      rw [← mul_assoc]
      exact mul_le_mul hNu hBle (by positivity) (by positivity)
    have q2 : ε * massSum ls ≤ ls.length * ε * (massSum ls + F.tiny) := by
      have : 1 * ε ≤ ls.length * ε := mul_le_mul_of_nonneg_right h1 hε0
      exact mul_le_mul (by linarith) (by linarith) hM0 (by positivity)
    linarith

/-- **C133.** `total_mass` of a Python object with any past. -/
theorem C133_python {m0 : KinModel (Fl F)} {h : List (PyCall (Fl F))} {cs : List (Call (Fl F))} {s : PyModel (Fl F)} (hr : PyReach ls' js' m0 h cs s)
    (hL : List.Forall₂ (LinkNear ε μ) ls' ls) (hue : F.u ≤ ε) (hN : 10 * (ls.length * ε) ≤ 1) (hB : 3 * (massSum ls + F.tiny) ≤ F.big) :
    ∃ M, pyTotalMass s = .ok M s ∧ |M.real - massSum ls| ≤ 4 * ls.length * ε * (massSum ls + F.tiny) := by
  obtain ⟨mc, hat⟩ := hr.at
  refine ⟨s.robot.totalMass, rfl, ?_⟩
  have hm : s.robot.totalMass = mc.totalMass := by
    obtain ⟨⟨st, c, e⟩, _⟩ := hat.same
    rw [e]
  rw [hm]
  exact C133_total_mass hat.reach hL hue hN hB

end

/-! ### The hypotheses are met -/

namespace RoundExample

example := C133_total_mass (ε := 200 * dbl.u * 2) (⟨isTree, supported, m0_spec, .nil⟩ : Reach ls' js' m0 [] m0) links_near
  (by have := dbl.u_nonneg; linarith) (by rw [u_eq]; norm_num [ls]) (by rw [mass_sum, big_eq]; have := tiny_le; linarith)

/-- In IEEE arithmetic `total_mass` is right to eleven digits. -/
theorem hand_mass : ∃ M, pyTotalMass s0 = .ok M s0 ∧ |M.real - 1| ≤ 1 / 10 ^ 11 := by
  have ht := tiny_le
  have ht0 := dbl.tiny_nonneg
  obtain ⟨M, e, h⟩ := C133_python (ε := 200 * dbl.u * 2) s0_reach links_near (by have := dbl.u_nonneg; linarith) (by rw [u_eq]; norm_num [ls])
    (by rw [mass_sum, big_eq]; linarith)
  rw [mass_sum] at h
  refine ⟨M, e, h.trans ?_⟩
  have hl : (ls.length : ℝ) = 3 := by norm_num [ls]
  rw [hl]
  have : 4 * 3 * (200 * dbl.u * 2) * (1 + dbl.tiny) ≤ 4 * 3 * (200 * dbl.u * 2) * 2 :=
    mul_le_mul_of_nonneg_left (by linarith) (by have := dbl.u_nonneg; linarith)
  refine this.trans ?_
  rw [u_eq]; norm_num

end RoundExample
end Tinyfk
