import Verif.Proofs.RoundDist
import Verif.Spec.RoundSums

/-!
# Rounding errors of the centre of mass
-/

namespace Tinyfk

open Quaternion

section
variable {F : Rounding}

/-- Rounding errors of a sum: `p` are the computed terms, `t` the exact ones and `w` weights to which the errors of the terms are
relative. -/
theorem fold_near {α β : Type} {r : α → β → Prop} {p : α → ℝ} {t w : β → ℝ} {η ρ W B : ℝ} (hη : 0 ≤ η) (hρ : 0 ≤ ρ)
    (hr : ∀ a b, r a b → 0 ≤ w b ∧ |p a - t b| ≤ η * w b + F.u * F.tiny ∧ |t b| ≤ ρ * w b)
    (hB : B = 2 * (ρ + η) * W + 3 * F.tiny) (hbig : B ≤ F.big) {as : List α} {bs : List β} (h : List.Forall₂ r as bs) :
    ∀ (s' s : ℝ) (k : Nat) (V : ℝ), 0 ≤ V → V + (bs.map w).sum ≤ W → 10 * (((k + bs.length : Nat) : ℝ) * F.u) ≤ 1 →
      |s' - s| ≤ η * V + k * (F.u * B) → |s| ≤ ρ * V →
      |as.foldl (fun s a => F.add s (p a)) s' - bs.foldl (fun s b => s + t b) s| ≤
        η * (V + (bs.map w).sum) + ((k + bs.length : Nat) : ℝ) * (F.u * B) := by
  have hu := F.u_nonneg
  have hu1 := F.u_small
  have ht := F.tiny_nonneg
  induction h with
  | nil =>
    intro s' s k V _ _ _ h1 _
    simpa using h1
  | @cons a b as bs hab _ ih =>
    intro s' s k V hV0 hVW hk h1 h2
    obtain ⟨w0, e1, e2⟩ := hr a b hab
    simp only [List.map_cons, List.sum_cons, List.foldl_cons, List.length_cons] at hVW hk ⊢
    have hsum : ∀ bs : List β, (∀ b ∈ bs, 0 ≤ w b) → 0 ≤ (bs.map w).sum := fun bs h => List.sum_nonneg (by simpa using h)
    have hs0 : 0 ≤ (bs.map w).sum := by
      refine hsum bs fun b hb => ?_
      rename_i hf
      obtain ⟨i, hi, rfl⟩ := List.getElem_of_mem hb
      have := hf.get (i := i) (by rw [hf.length_eq]; exact hi) hi
      exact (hr _ _ this).1
    have hW : V + w b ≤ W := by linarith
    have hW0 : 0 ≤ W := by linarith
    have hB0 : 0 ≤ B := by rw [hB]; positivity
    have hku : 10 * ((k : ℝ) * F.u) ≤ 1 := by
      refine le_trans ?_ hk
      have : (k : ℝ) ≤ ((k + (bs.length + 1) : Nat) : ℝ) := by exact_mod_cast Nat.le_add_right _ _
      linarith [mul_le_mul_of_nonneg_right this hu]
    have hkB : (k : ℝ) * (F.u * B) ≤ 1 / 10 * B := by
      have := mul_le_mul_of_nonneg_right hku hB0
      linarith
    have c1 : η * V + η * w b ≤ η * W := by rw [← mul_add]; exact mul_le_mul_of_nonneg_left hW hη
    have c2 : ρ * V + ρ * w b ≤ ρ * W := by rw [← mul_add]; exact mul_le_mul_of_nonneg_left hW hρ
    have ut : F.u * F.tiny ≤ 1 / 1000 * F.tiny := mul_le_mul_of_nonneg_right hu1 ht
    have hst : |s' + p a| + 2 * F.tiny ≤ B := by
      have a1 := abs_add_le ((s' - s) + (p a - t b)) (s + t b)
      have a2 := abs_add_le (s' - s) (p a - t b)
      have a3 := abs_add_le s (t b)
      rw [show (s' - s) + (p a - t b) + (s + t b) = s' + p a by ring] at a1
      have p1 : 0 ≤ ρ * W := by positivity
      have p2 : 0 ≤ η * W := by positivity
      have : B = 2 * (ρ * W) + 2 * (η * W) + 3 * F.tiny := by rw [hB]; ring
      linarith
    have hadd := (F.add_rounded (a := s') (b := p a) (by linarith)).le hu ht
    have key : |F.add s' (p a) - (s + t b)| ≤ η * (V + w b) + ((k + 1 : Nat) : ℝ) * (F.u * B) := by
      have a1 := abs_add_le (F.add s' (p a) - (s' + p a)) ((s' - s) + (p a - t b))
      have a2 := abs_add_le (s' - s) (p a - t b)
      rw [show F.add s' (p a) - (s' + p a) + ((s' - s) + (p a - t b)) = F.add s' (p a) - (s + t b) by ring] at a1
      have a3 : F.u * |s' + p a| + 2 * (F.u * F.tiny) ≤ F.u * B := by
        have := mul_le_mul_of_nonneg_left hst hu
        linarith
      push_cast
      linarith
    have := ih (F.add s' (p a)) (s + t b) (k + 1) (V + w b) (by linarith) (by linarith) (by
      rw [show k + 1 + bs.length = k + (bs.length + 1) by omega]; exact hk) key (by
      have a3 := abs_add_le s (t b)
      rw [mul_add]
      linarith)
    rw [show k + 1 + bs.length = k + (bs.length + 1) by omega, add_assoc V] at this
    exact this

/-- the rounded quotient of two inexact numbers -/
theorem quot_arith {u ε δ R μ t M X M' X' q N : ℝ} (hu : 0 ≤ u) (hue : u ≤ ε) (he : ε ≤ 1 / 500) (hδ : 0 ≤ δ) (hR : 0 ≤ R) (hμ : 0 ≤ μ)
    (ht : t ≤ μ) (hM : 0 < M) (hN1 : 1 ≤ N) (hN : 100 * (N * ε) ≤ 1) (hX : |X| ≤ R * M)
    (h1 : |M' - M| ≤ 61 / 10 * (N * ε) * M) (h2 : |X' - X| ≤ (21 / 20 * δ + 3 * (N * ε) * (R + μ)) * M)
    (hq : M' ≠ 0 → |X' / M'| ≤ 2 * R + 2 * δ + 1 * μ → |q - X' / M'| ≤ u * |X' / M'| + u * t) :
    |q - X / M| ≤ 6 / 5 * δ + 12 * (N * ε) * (R + μ) := by
  have he0 : 0 ≤ ε := hu.trans hue
  have hNε : 0 ≤ N * ε := by positivity
  have hεN : ε ≤ N * ε := le_mul_of_one_le_left he0 hN1
  have hM' : 939 / 1000 * M ≤ M' := by
    have := (abs_le.mp h1).1
    have : 61 / 10 * (N * ε) * M ≤ 61 / 1000 * M := mul_le_mul_of_nonneg_right (by linarith) hM.le
    linarith
  have hM'0 : 0 < M' := by linarith
  have hx : |X / M| ≤ R := by
    rw [abs_div, abs_of_pos hM, div_le_iff₀ hM]; exact hX
  set G := 21 / 20 * δ + 3 * (N * ε) * (R + μ) with hG
  have hdiff : |X' / M' - X / M| ≤ (G + R * (61 / 10 * (N * ε))) * (1000 / 939) := by
    have e1 : X' / M' - X / M = ((X' - X) - X / M * (M' - M)) / M' := by
      field_simp
      ring
    rw [e1, abs_div, abs_of_pos hM'0, div_le_iff₀ hM'0]
    have a1 : |X' - X - X / M * (M' - M)| ≤ |X' - X| + |X / M| * |M' - M| := by
      rw [← abs_mul]; exact abs_sub _ _
    have a2 : |X / M| * |M' - M| ≤ R * (61 / 10 * (N * ε) * M) := mul_le_mul hx h1 (abs_nonneg _) hR
    have a3 : (G + R * (61 / 10 * (N * ε))) * M ≤ (G + R * (61 / 10 * (N * ε))) * (1000 / 939 * M') := by
      refine mul_le_mul_of_nonneg_left (by linarith) ?_
      rw [hG]; positivity
    linarith
  have b0 : 0 ≤ N * ε * R := by positivity
  have b1 : 0 ≤ N * ε * μ := by positivity
  have b2 : N * ε * R ≤ 1 / 100 * R := by nlinarith
  have b3 : N * ε * μ ≤ 1 / 100 * μ := by nlinarith
  have hd2 : |X' / M' - X / M| ≤ 28 / 25 * δ + 97 / 10 * (N * ε * R) + 32 / 10 * (N * ε * μ) := by
    refine hdiff.trans ?_
    rw [hG]
    linarith
  have hq1 : |X' / M'| ≤ R + 28 / 25 * δ + 97 / 10 * (N * ε * R) + 32 / 10 * (N * ε * μ) := by
    have := abs_add_le (X' / M' - X / M) (X / M)
    rw [sub_add_cancel] at this
    linarith
  have hq2 := hq hM'0.ne' (by linarith)
  have hq3 : u * |X' / M'| + u * t ≤ ε * (R + 28 / 25 * δ + 97 / 10 * (N * ε * R) + 32 / 10 * (N * ε * μ)) + ε * μ :=
    add_le_add (mul_le_mul hue hq1 (abs_nonneg _) he0) ((mul_le_mul_of_nonneg_left ht hu).trans (mul_le_mul_of_nonneg_right hue hμ))
  have c1 : ε * (28 / 25 * δ) ≤ 1 / 500 * (28 / 25 * δ) := mul_le_mul_of_nonneg_right he (by positivity)
  have c2 : ε * (97 / 10 * (N * ε * R)) ≤ 1 / 500 * (97 / 10 * (N * ε * R)) := mul_le_mul_of_nonneg_right he (by positivity)
  have c3 : ε * (32 / 10 * (N * ε * μ)) ≤ 1 / 500 * (32 / 10 * (N * ε * μ)) := mul_le_mul_of_nonneg_right he (by positivity)
  have c4 : ε * R ≤ N * ε * R := mul_le_mul_of_nonneg_right hεN hR
  have c5 : ε * μ ≤ N * ε * μ := mul_le_mul_of_nonneg_right hεN hμ
  have := abs_sub_le q (X' / M') (X / M)
  linarith

/-- Rounding errors of one coordinate of the centre of mass: `m'`, `m` are the masses, `c'`, `c` the coordinates of the centres. -/
theorem mean_near {α β : Type} {r : α → β → Prop} {m' c' : α → ℝ} {m c : β → ℝ} {ε δ R μ M X : ℝ} (hue : F.u ≤ ε) (he : ε ≤ 1 / 500)
    (hR : 0 ≤ R) (hδ : 500 * ε * (R + μ) ≤ δ) (htμ : F.tiny ≤ μ) {as : List α} {bs : List β} (h : List.Forall₂ r as bs)
    (hr : ∀ a b, r a b → 0 ≤ m b ∧ |m' a - m b| ≤ ε * m b ∧ |c' a - c b| ≤ δ ∧ |c b| ≤ R)
    (hM : M = bs.foldl (fun s b => s + m b) 0) (hX : X = bs.foldl (fun s b => s + m b * c b) 0) (hM0 : 0 < M)
    (htM : F.tiny ≤ μ * M) (hμ1 : μ ≤ 1) (hN : 100 * (bs.length * ε) ≤ 1) (hbig : 6 * (M + 1) * (R + δ + 1) ≤ F.big) :
    |F.div (as.foldl (fun s a => F.add s (F.mul (m' a) (c' a))) 0) (as.foldl (fun s a => F.add s (m' a)) 0) - X / M| ≤
      6 / 5 * δ + 12 * (bs.length * ε) * (R + μ) := by
  have hu := F.u_nonneg
  have hu1 := F.u_small
  have ht := F.tiny_nonneg
  have he0 : 0 ≤ ε := hu.trans hue
  have hμ : 0 ≤ μ := ht.trans htμ
  have hδ0 : 0 ≤ δ := le_trans (by positivity) hδ
  have hfold : ∀ (f : β → ℝ) (bs : List β) (s : ℝ), bs.foldl (fun s b => s + f b) s = s + (bs.map f).sum := by
    intro f bs
    induction bs with
    | nil => intro s; simp
    | cons b bs ih => intro s; rw [List.foldl_cons, ih, List.map_cons, List.sum_cons]; ring
  have hMs : M = (bs.map m).sum := by rw [hM, hfold]; ring
  have hbs : bs ≠ [] := by
    rintro rfl
    rw [hM] at hM0
    exact lt_irrefl _ hM0
  have hpos : ∀ b ∈ bs, 0 ≤ m b := by
    intro b hb
    obtain ⟨i, hi, rfl⟩ := List.getElem_of_mem hb
    exact (hr _ _ (h.get (i := i) (by rw [h.length_eq]; exact hi) hi)).1
  have hN1 : (1 : ℝ) ≤ bs.length := by
    exact_mod_cast List.length_pos_iff.mpr hbs
  set N : ℝ := (bs.length : ℝ) with hNdef
  have hNε0 : 0 ≤ N * ε := by positivity
  have hNu : N * F.u ≤ N * ε := mul_le_mul_of_nonneg_left hue (by linarith)
  have hNu0 : 0 ≤ N * F.u := by positivity
  have hεN : ε ≤ N * ε := le_mul_of_one_le_left he0 hN1
  have hR1 : 0 ≤ M * R := by positivity
  have hδ1 : 0 ≤ M * δ := by positivity
  have hle : List.Forall₂ (fun a b => r a b ∧ m b ≤ M) as bs := by
    rw [List.forall₂_iff_get] at h ⊢
    refine ⟨h.1, fun i h1 h2 => ⟨h.2 i h1 h2, ?_⟩⟩
    rw [hMs]
    refine List.single_le_sum ?_ _ (List.mem_map_of_mem (List.get_mem _ _))
    simp only [List.mem_map, forall_exists_index, and_imp, forall_apply_eq_imp_iff₂]
    exact fun a ha => hpos a ha
  -- the masses
  have kM := fold_near (F := F) (p := m') (t := m) (w := m) (η := ε) (ρ := 1) (W := M) he0 one_pos.le
    (fun a b hab => by
      obtain ⟨g1, g2, _, _⟩ := hr a b hab
      refine ⟨g1, by linarith [mul_nonneg hu ht], by rw [abs_of_nonneg g1, one_mul]⟩) rfl (by
      have : ε * M ≤ 1 / 500 * M := mul_le_mul_of_nonneg_right he hM0.le
      have : μ * M ≤ 1 * M := mul_le_mul_of_nonneg_right hμ1 hM0.le
      refine le_trans ?_ hbig
      linarith) h 0 0 0 0 le_rfl (by rw [hMs]; linarith) (by
      rw [Nat.zero_add]
      linarith) (by simp) (by simp)
  rw [Nat.zero_add, zero_add, ← hMs, ← hM, ← hNdef] at kM
  have h1 : |as.foldl (fun s a => F.add s (m' a)) 0 - M| ≤ 61 / 10 * (N * ε) * M := by
    refine kM.trans ?_
    have a1 : ε * M ≤ N * ε * M := mul_le_mul_of_nonneg_right hεN hM0.le
    have a2 : 2 * (1 + ε) * M + 3 * F.tiny ≤ 51 / 10 * M := by
      have : ε * M ≤ 1 / 500 * M := mul_le_mul_of_nonneg_right he hM0.le
      have : μ * M ≤ 1 * M := mul_le_mul_of_nonneg_right hμ1 hM0.le
      linarith
    have a3 : N * F.u * (2 * (1 + ε) * M + 3 * F.tiny) ≤ N * ε * (51 / 10 * M) := mul_le_mul hNu a2 (by positivity) hNε0
    linarith
  -- the moments
  have kX := fold_near (F := F) (p := fun a => F.mul (m' a) (c' a)) (t := fun b => m b * c b) (w := m) (η := 51 / 50 * δ) (ρ := R) (W := M)
    (by positivity) hR
    (fun a b hab => by
      obtain ⟨hab, hmb⟩ := hab
      obtain ⟨g1, g2, g3, g4⟩ := hr a b hab
      have b0 : |m' a| ≤ 501 / 500 * m b := by
        have := abs_add_le (m' a - m b) (m b)
        rw [sub_add_cancel, abs_of_nonneg g1] at this
        have : ε * m b ≤ 1 / 500 * m b := mul_le_mul_of_nonneg_right he g1
        linarith
      have b1 : |c' a| ≤ R + δ := by
        have := abs_add_le (c' a - c b) (c b)
        rw [sub_add_cancel] at this
        linarith
      have b2 : |m' a * c' a| ≤ 501 / 500 * m b * (R + δ) := by
        rw [abs_mul]; exact mul_le_mul b0 b1 (abs_nonneg _) (by positivity)
      have b3 : |m' a * c' a - m b * c b| ≤ 501 / 500 * m b * δ + ε * m b * R := by
        rw [show m' a * c' a - m b * c b = m' a * (c' a - c b) + (m' a - m b) * c b by ring]
        refine (abs_add_le _ _).trans ?_
        rw [abs_mul, abs_mul]
        exact add_le_add (mul_le_mul b0 g3 (abs_nonneg _) (by positivity)) (mul_le_mul g2 g4 (abs_nonneg _) (by positivity))
      have b4 := F.mul_near (a := m' a) (b := c' a) (by
        refine b2.trans (le_trans ?_ hbig)
        nlinarith)
      refine ⟨g1, ?_, by rw [abs_mul, abs_of_nonneg g1, mul_comm]; exact mul_le_mul_of_nonneg_right g4 g1⟩
      have b5 := abs_sub_le (F.mul (m' a) (c' a)) (m' a * c' a) (m b * c b)
      have b6 : F.u * |m' a * c' a| ≤ ε * (501 / 500 * m b * (R + δ)) := mul_le_mul hue b2 (abs_nonneg _) he0
      have b7 : 500 * (ε * R) ≤ δ := by nlinarith
      have b8 : ε * δ ≤ 1 / 500 * δ := mul_le_mul_of_nonneg_right he hδ0
      have b9 : ε * (501 / 500 * m b * (R + δ)) + (501 / 500 * m b * δ + ε * m b * R) ≤ 51 / 50 * δ * m b := by
        have : (501 / 500 * (ε * R) + 501 / 500 * (ε * δ) + 501 / 500 * δ + ε * R) * m b ≤ (51 / 50 * δ) * m b :=
          mul_le_mul_of_nonneg_right (by linarith) g1
        linarith
      linarith) rfl (by
      have : μ * M ≤ 1 * M := mul_le_mul_of_nonneg_right hμ1 hM0.le
      refine le_trans ?_ hbig
      linarith) hle 0 0 0 0 le_rfl (by rw [hMs]; linarith) (by
      rw [Nat.zero_add]
      linarith) (by simp) (by simp)
  rw [Nat.zero_add, zero_add, ← hMs, ← hX, ← hNdef] at kX
  have h2 : |as.foldl (fun s a => F.add s (F.mul (m' a) (c' a))) 0 - X| ≤ (21 / 20 * δ + 3 * (N * ε) * (R + μ)) * M := by
    refine kX.trans ?_
    have a2 : 2 * (R + 51 / 50 * δ) * M + 3 * F.tiny ≤ (2 * R + 3 * μ + 51 / 25 * δ) * M := by linarith
    have a3 : N * F.u * (2 * (R + 51 / 50 * δ) * M + 3 * F.tiny) ≤ N * ε * ((2 * R + 3 * μ + 51 / 25 * δ) * M) :=
      mul_le_mul hNu a2 (by positivity) hNε0
    have a4 : N * ε * (δ * M) ≤ 1 / 100 * (δ * M) := mul_le_mul_of_nonneg_right (by linarith) (by positivity)
    have a5 : 0 ≤ N * ε * (R * M) := by positivity
    linarith
  have hXR : |X| ≤ R * M := by
    rw [hX, hM]
    have hc : ∀ b ∈ bs, |c b| ≤ R := by
      intro b hb
      obtain ⟨i, hi, rfl⟩ := List.getElem_of_mem hb
      exact (hr _ _ (h.get (i := i) (by rw [h.length_eq]; exact hi) hi)).2.2.2
    rw [hfold, hfold, zero_add, zero_add]
    clear * - hc hpos
    induction bs with
    | nil => simp
    | cons b bs ih =>
      simp only [List.map_cons, List.sum_cons]
      have i1 := ih (fun a ha => hpos a (by simp [ha])) (fun a ha => hc a (by simp [ha]))
      have i2 := abs_add_le (m b * c b) (bs.map fun b => m b * c b).sum
      rw [abs_mul, abs_of_nonneg (hpos b (by simp))] at i2
      have i3 := mul_le_mul_of_nonneg_left (hc b (by simp)) (hpos b (by simp))
      linarith
  refine quot_arith (t := F.tiny) hu hue he hδ0 hR hμ htμ hM0 hN1 hN hXR h1 h2 fun g1 g2 => ?_
  exact (F.div_rounded g1 (g2.trans (le_trans (by nlinarith) hbig))).le hu ht

end
end Tinyfk
