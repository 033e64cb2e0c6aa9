import Verif.Proofs.RoundCom

/-!
# Rounding errors of the mean with action forces
-/

namespace Tinyfk

section
variable {F : Rounding}

/-- the share of a force in the weight of the robot -/
theorem share_near {f' f M' M ε N : ℝ} (hue : F.u ≤ ε) (hN1 : 1 ≤ N) (hN : 100 * (N * ε) ≤ 1) (hM : 0 < M) (hf : 0 ≤ f)
    (h1 : |f' - f| ≤ ε * f) (h2 : |M' - M| ≤ 8 * (N * ε) * M) (hbig : 2 * (f / M) ≤ F.big) :
    |F.div f' M' - f / M| ≤ 11 * (N * ε) * (f / M + F.tiny) := by
  have hu := F.u_nonneg
  have ht := F.tiny_nonneg
  have he0 : 0 ≤ ε := hu.trans hue
  have hNε : 0 ≤ N * ε := by positivity
  have hεN : ε ≤ N * ε := le_mul_of_one_le_left he0 hN1
  have hM' : 92 / 100 * M ≤ M' := by
    have := (abs_le.mp h2).1
    have : 8 * (N * ε) * M ≤ 8 / 100 * M := mul_le_mul_of_nonneg_right (by linarith) hM.le
    linarith
  have hM'0 : 0 < M' := by linarith
  set g := f / M with hg
  have hg0 : 0 ≤ g := by positivity
  have hfg : f = g * M := by rw [hg]; field_simp
  have hdiff : |f' / M' - g| ≤ 49 / 5 * (N * ε) * g := by
    have e1 : f' / M' - g = ((f' - f) - g * (M' - M)) / M' := by
      rw [hfg]
      field_simp
      ring
    rw [e1, abs_div, abs_of_pos hM'0, div_le_iff₀ hM'0]
    have a1 : |f' - f - g * (M' - M)| ≤ |f' - f| + |g| * |M' - M| := by
      rw [← abs_mul]; exact abs_sub _ _
    have a2 : |g| * |M' - M| ≤ g * (8 * (N * ε) * M) := by
      rw [abs_of_nonneg hg0]; exact mul_le_mul_of_nonneg_left h2 hg0
    have a3 : ε * f ≤ N * ε * (g * M) := by rw [← hfg]; exact mul_le_mul_of_nonneg_right hεN hf
    have a4 : 49 / 5 * (N * ε) * g * (92 / 100 * M) ≤ 49 / 5 * (N * ε) * g * M' := mul_le_mul_of_nonneg_left hM' (by positivity)
    have a5 : 0 ≤ N * ε * (g * M) := by positivity
    linarith
  have hng : N * ε * g ≤ 1 / 100 * g := mul_le_mul_of_nonneg_right (by linarith) hg0
  have hq : |f' / M'| ≤ 11 / 10 * g := by
    have := abs_add_le (f' / M' - g) g
    rw [sub_add_cancel, abs_of_nonneg hg0] at this
    linarith
  have h3 := F.div_near (a := f') (b := M') hM'0.ne' (by linarith)
  have h4 : F.u * |f' / M'| ≤ N * ε * (11 / 10 * g) := mul_le_mul (hue.trans hεN) hq (abs_nonneg _) hNε
  have h5 : F.u * F.tiny ≤ N * ε * F.tiny := mul_le_mul_of_nonneg_right (hue.trans hεN) ht
  have := abs_sub_le (F.div f' M') (f' / M') g
  have h6 : 0 ≤ N * ε * F.tiny := by positivity
  have h7 : 0 ≤ N * ε * g := by positivity
  linarith

/-- one product of a share and a coordinate -/
theorem share_mul {g' g p' p η δ R : ℝ} (hu : F.u ≤ η) (he : η ≤ 1 / 500) (hδ : 0 ≤ δ) (hR : 0 ≤ R) (hg : 0 ≤ g)
    (h1 : |g' - g| ≤ η * (g + F.tiny)) (h2 : |p' - p| ≤ δ) (h3 : |p| ≤ R) (hbig : 2 * (g + F.tiny) * (R + δ) ≤ F.big) :
    |F.mul g' p' - g * p| ≤ (51 / 50 * δ + 21 / 10 * η * R) * (g + F.tiny) + F.u * F.tiny := by
  have hu0 := F.u_nonneg
  have ht := F.tiny_nonneg
  have he0 : 0 ≤ η := hu0.trans hu
  set w := g + F.tiny with hw
  have hw0 : 0 ≤ w := by positivity
  have hgw : g ≤ w := by linarith
  have b0 : |g'| ≤ 501 / 500 * w := by
    have := abs_add_le (g' - g) g
    rw [sub_add_cancel, abs_of_nonneg hg] at this
    have : η * w ≤ 1 / 500 * w := mul_le_mul_of_nonneg_right he hw0
    linarith
  have b1 : |p'| ≤ R + δ := by
    have := abs_add_le (p' - p) p
    rw [sub_add_cancel] at this
    linarith
  have b2 : |g' * p'| ≤ 501 / 500 * w * (R + δ) := by
    rw [abs_mul]; exact mul_le_mul b0 b1 (abs_nonneg _) (by positivity)
  have b3 : |g' * p' - g * p| ≤ 501 / 500 * w * δ + η * w * R := by
    rw [show g' * p' - g * p = g' * (p' - p) + (g' - g) * p by ring]
    refine (abs_add_le _ _).trans ?_
    rw [abs_mul, abs_mul]
    exact add_le_add (mul_le_mul b0 h2 (abs_nonneg _) (by positivity)) (mul_le_mul h1 h3 (abs_nonneg _) (by positivity))
  have b4 := F.mul_near (a := g') (b := p') (by
    refine b2.trans (le_trans ?_ hbig)
    have : 0 ≤ w * (R + δ) := by positivity
    linarith)
  have b5 := abs_sub_le (F.mul g' p') (g' * p') (g * p)
  have b6 : F.u * |g' * p'| ≤ η * (501 / 500 * w * (R + δ)) := mul_le_mul hu b2 (abs_nonneg _) he0
  have b8 : η * (w * δ) ≤ 1 / 500 * (w * δ) := mul_le_mul_of_nonneg_right he (by positivity)
  have b9 : 0 ≤ w * δ := by positivity
  have b10 : 0 ≤ η * (w * R) := by positivity
  linarith

/-- Rounding errors of one coordinate of the balance with action forces: `g'`, `g` are the shares, `p'`, `p` the coordinates of the points
of attack, `x'`, `x` that of the centre of mass. -/
theorem action_near {α β : Type} {r : α → β → Prop} {g' p' : α → ℝ} {g p : β → ℝ} {η δ R μ S X x' x : ℝ} (hu : F.u ≤ η) (he : η ≤ 1 / 500)
    (hR : 0 ≤ R) (hδ : 0 ≤ δ) (htμ : F.tiny ≤ μ) (hμ1 : μ ≤ 1) {as : List α} {bs : List β} (h : List.Forall₂ r as bs) (hne : bs ≠ [])
    (hr : ∀ a b, r a b → 0 ≤ g b ∧ |g' a - g b| ≤ η * (g b + F.tiny) ∧ |p' a - p b| ≤ δ ∧ |p b| ≤ R) (hx' : |x' - x| ≤ δ) (hx : |x| ≤ R)
    (hS : S = bs.foldl (fun s b => s + g b) 1) (hX : X = bs.foldl (fun s b => s + g b * p b) x)
    (hN : 200 * (bs.length * η) ≤ 1) (hnt : 100 * (bs.length * F.tiny) ≤ 1) (hbig : 6 * (S + 1) * (R + δ + 1) ≤ F.big) :
    |F.div (as.foldl (fun s a => F.add s (F.mul (g' a) (p' a))) x') (as.foldl (fun s a => F.add s (g' a)) 1) - X / S| ≤
      6 / 5 * δ + 15 * (bs.length * η) * (R + μ) := by
  have hu0 := F.u_nonneg
  have ht := F.tiny_nonneg
  have he0 : 0 ≤ η := hu0.trans hu
  have hμ : 0 ≤ μ := ht.trans htμ
  have hfold : ∀ (f : β → ℝ) (bs : List β) (s : ℝ), bs.foldl (fun s b => s + f b) s = s + (bs.map f).sum := by
    intro f bs
    induction bs with
    | nil => intro s; simp
    | cons b bs ih => intro s; rw [List.foldl_cons, ih, List.map_cons, List.sum_cons]; ring
  have hsh : ∀ (bs : List β), (bs.map fun b => g b + F.tiny).sum = (bs.map g).sum + bs.length * F.tiny := by
    intro bs
    induction bs with
    | nil => simp
    | cons b bs ih => rw [List.map_cons, List.sum_cons, ih, List.map_cons, List.sum_cons, List.length_cons]; push_cast; ring
  have hpos : ∀ b ∈ bs, 0 ≤ g b ∧ |p b| ≤ R := by
    intro b hb
    obtain ⟨i, hi, rfl⟩ := List.getElem_of_mem hb
    have := hr _ _ (h.get (i := i) (by rw [h.length_eq]; exact hi) hi)
    exact ⟨this.1, this.2.2.2⟩
  have hG0 : 0 ≤ (bs.map g).sum := by
    refine List.sum_nonneg ?_
    simp only [List.mem_map, forall_exists_index, and_imp, forall_apply_eq_imp_iff₂]
    exact fun b hb => (hpos b hb).1
  have hN1 : (1 : ℝ) ≤ bs.length := by exact_mod_cast List.length_pos_iff.mpr hne
  have hSs : S = 1 + (bs.map g).sum := by rw [hS, hfold]
  have hS1 : 1 ≤ S := by linarith
  set N : ℝ := (bs.length : ℝ) with hNdef
  have htN : F.tiny ≤ N * F.tiny := le_mul_of_one_le_left ht hN1
  set W := 1 + (bs.map fun b => g b + F.tiny).sum with hW
  have hWS : W = S + N * F.tiny := by rw [hW, hsh, hSs]; ring
  have hW1 : W ≤ 101 / 100 * S := by linarith
  have hW0 : S ≤ W := by rw [hWS]; have : 0 ≤ N * F.tiny := by positivity
                         linarith
  have hWp : 0 ≤ W := by linarith
  have hNη0 : 0 ≤ N * η := by positivity
  have hNu : N * F.u ≤ N * η := mul_le_mul_of_nonneg_left hu (by linarith)
  have hηN : η ≤ N * η := le_mul_of_one_le_left he0 hN1
  have hSR : 0 ≤ S * R := by positivity
  have hSδ : 0 ≤ S * δ := by positivity
  have hle : List.Forall₂ (fun a b => r a b ∧ g b + F.tiny ≤ 101 / 100 * S) as bs := by
    rw [List.forall₂_iff_get] at h ⊢
    refine ⟨h.1, fun i h1 h2 => ⟨h.2 i h1 h2, ?_⟩⟩
    have : g (bs.get ⟨i, h2⟩) ≤ (bs.map g).sum := by
      refine List.single_le_sum ?_ _ (List.mem_map_of_mem (List.get_mem _ _))
      simp only [List.mem_map, forall_exists_index, and_imp, forall_apply_eq_imp_iff₂]
      exact fun a ha => (hpos a ha).1
    linarith
  have hηW : η * W ≤ 1 / 500 * W := mul_le_mul_of_nonneg_right he (by linarith)
  have hbig' : 6 * (S * R) + 6 * (S * δ) + 6 * S + 6 ≤ F.big := by linarith
  -- the denominator
  have kM := fold_near (F := F) (p := g') (t := g) (w := fun b => g b + F.tiny) (η := η) (ρ := 1) (W := W) he0 one_pos.le
    (fun a b hab => by
      obtain ⟨g1, g2, _, _⟩ := hr a b hab
      refine ⟨by linarith, by linarith [mul_nonneg hu0 ht], by rw [abs_of_nonneg g1, one_mul]; linarith⟩) rfl (by linarith) h 1 1 0 1 zero_le_one le_rfl (by
      rw [Nat.zero_add]
      linarith) (by simpa using he0) (by simp)
  rw [Nat.zero_add, ← hW, ← hS, ← hNdef] at kM
  have h1 : |as.foldl (fun s a => F.add s (g' a)) 1 - S| ≤ 61 / 10 * (N * η) * S := by
    refine kM.trans ?_
    have a1 : η * W ≤ N * η * (101 / 100 * S) := mul_le_mul hηN hW1 (by linarith) hNη0
    have a2 : 2 * (1 + η) * W + 3 * F.tiny ≤ 21 / 10 * S := by linarith
    have a3 : N * F.u * (2 * (1 + η) * W + 3 * F.tiny) ≤ N * η * (21 / 10 * S) := mul_le_mul hNu a2 (by positivity) hNη0
    have a4 : 0 ≤ N * η * S := by positivity
    linarith
  -- the numerator
  set η2 := 51 / 50 * δ + 21 / 10 * η * R with hη2
  have hηR : η * R ≤ 1 / 500 * R := mul_le_mul_of_nonneg_right he hR
  have hηR0 : 0 ≤ η * R := by positivity
  have hη20 : 0 ≤ η2 := by rw [hη2]; positivity
  have hW0' : 0 ≤ W := by linarith
  have c1 : 2 * (R + η2) * W + 3 * F.tiny ≤ (21 / 10 * R + 21 / 10 * δ) * S + 3 * F.tiny := by
    have : (2 * (R + η2)) * W ≤ (2 * (R + η2)) * (101 / 100 * S) := mul_le_mul_of_nonneg_left hW1 (by positivity)
    have e : (2 * (R + η2)) * (101 / 100 * S) ≤ (21 / 10 * R + 21 / 10 * δ) * S := by
      have : 2 * (R + η2) * (101 / 100) * S ≤ (21 / 10 * R + 21 / 10 * δ) * S := mul_le_mul_of_nonneg_right (by linarith) (by linarith)
      linarith
    linarith
  have kX := fold_near (F := F) (p := fun a => F.mul (g' a) (p' a)) (t := fun b => g b * p b) (w := fun b => g b + F.tiny) (η := η2) (ρ := R) (W := W)
    hη20 hR
    (fun a b hab => by
      obtain ⟨hab, hmb⟩ := hab
      obtain ⟨g1, g2, g3, g4⟩ := hr a b hab
      refine ⟨by linarith, share_mul hu he hδ hR g1 g2 g3 g4 ?_, ?_⟩
      · have : 2 * (g b + F.tiny) * (R + δ) ≤ 2 * (101 / 100 * S) * (R + δ) := mul_le_mul_of_nonneg_right (by linarith) (by positivity)
        linarith
      · rw [abs_mul, abs_of_nonneg g1, mul_comm]
        exact mul_le_mul g4 (by linarith) g1 hR) rfl (by linarith) hle x' x 0 1 zero_le_one le_rfl (by
      rw [Nat.zero_add]
      linarith) (by
      simp only [Nat.cast_zero, zero_mul, add_zero, mul_one]
      linarith) (by rw [mul_one]; exact hx)
  rw [Nat.zero_add, ← hW, ← hX, ← hNdef] at kX
  set δ2 := δ + 2 * (N * η) * (R + μ) with hδ2
  have hRμ : 0 ≤ N * η * (R + μ) := by positivity
  have h2 : |as.foldl (fun s a => F.add s (F.mul (g' a) (p' a))) x' - X| ≤ (21 / 20 * δ2 + 3 * (N * η) * (R + μ)) * S := by
    refine kX.trans ?_
    have a0 : η2 * W ≤ η2 * (101 / 100 * S) := mul_le_mul_of_nonneg_left hW1 hη20
    have a1 : η * (R * S) ≤ N * η * (R * S) := mul_le_mul_of_nonneg_right hηN (by positivity)
    have a1' : F.tiny ≤ μ * S := by
      have := mul_le_mul_of_nonneg_left hS1 hμ
      linarith
    have a3 : N * F.u * (2 * (R + η2) * W + 3 * F.tiny) ≤ N * η * ((21 / 10 * R + 21 / 10 * δ) * S + 3 * (μ * S)) :=
      mul_le_mul hNu (by linarith) (by positivity) hNη0
    have a4 : N * η * (δ * S) ≤ 1 / 200 * (δ * S) := mul_le_mul_of_nonneg_right (by linarith) (by positivity)
    have a5 : 0 ≤ N * η * (R * S) := by positivity
    have a6 : 0 ≤ N * η * (μ * S) := by positivity
    have a7 : 0 ≤ δ * S := by positivity
    have a8 : η2 * (101 / 100 * S) = 101 / 100 * (51 / 50 * (δ * S) + 21 / 10 * (η * (R * S))) := by rw [hη2]; ring
    rw [hδ2]
    linarith
  have hXR : |X| ≤ R * S := by
    rw [hX, hSs, hfold]
    have : |(bs.map fun b => g b * p b).sum| ≤ R * (bs.map g).sum := by
      clear * - hpos
      induction bs with
      | nil => simp
      | cons b bs ih =>
        simp only [List.map_cons, List.sum_cons]
        have i1 := ih (fun a ha => hpos a (by simp [ha]))
        have i2 := abs_add_le (g b * p b) (bs.map fun b => g b * p b).sum
        rw [abs_mul, abs_of_nonneg (hpos b (by simp)).1] at i2
        have i3 := mul_le_mul_of_nonneg_left (hpos b (by simp)).2 (hpos b (by simp)).1
        linarith
    have := abs_add_le x (bs.map fun b => g b * p b).sum
    linarith
  have hδ20 : 0 ≤ δ2 := by rw [hδ2]; positivity
  refine le_trans (b := 6 / 5 * δ2 + 12 * (N * η) * (R + μ)) (quot_arith (t := F.tiny) (μ := μ) hu0 hu he hδ20 hR hμ htμ (by linarith) hN1
    (by linarith) hXR h1 h2 fun g1 g2 => (F.div_rounded g1 (g2.trans (le_trans ?_ hbig'))).le hu0 ht) ?_
  · have j1 : 1 * R ≤ S * R := mul_le_mul_of_nonneg_right hS1 hR
    have j2 : 1 * δ ≤ S * δ := mul_le_mul_of_nonneg_right hS1 hδ
    have j3 : N * η * (R + μ) ≤ 1 / 200 * (R + μ) := mul_le_mul_of_nonneg_right (by linarith) (by positivity)
    rw [hδ2]
    linarith
  rw [hδ2]
  linarith

end
end Tinyfk
