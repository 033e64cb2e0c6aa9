import Verif.Proofs.RoundAction
import Verif.Props.RoundInertia
import Verif.Props.RoundMass

/-!
# Properties: rounding errors of the centre of mass with action forces

C134.
-/

namespace Tinyfk

section
variable {F : Rounding} {ls' : List (RawLink (Fl F))} {js' : List (RawJoint (Fl F))} {ls : List (RawLink ℝ)} {js : List (RawJoint ℝ)}
  {welds : Weld ℝ → Prop} {ε μ A R : ℝ} {D : Nat}

theorem forall₂_zip {α β γ δ : Type} {P : α → β → Prop} {Q : γ → δ → Prop} {as : List α} {bs : List β} (h : List.Forall₂ P as bs) :
    ∀ {cs : List γ} {ds : List δ}, List.Forall₂ Q cs ds → List.Forall₂ (fun x y => P x.1 y.1 ∧ Q x.2 y.2) (as.zip cs) (bs.zip ds) := by
  induction h with
  | nil => intro cs ds _; simp
  | cons h _ ih =>
    intro cs ds h2
    cases h2 with
    | nil => simp
    | cons h3 h4 => exact .cons ⟨h, h3⟩ (ih h4)

theorem forall₂_choose {α β γ : Type} {P : α → β → Prop} {Q : α → γ → Prop} {S : β → γ → Prop} {as : List α} {bs : List β} (h : List.Forall₂ P as bs)
    (hc : ∀ a b, P a b → ∃ c, Q a c ∧ S b c) : ∃ cs, List.Forall₂ Q as cs ∧ List.Forall₂ S bs cs := by
  induction h with
  | nil => exact ⟨[], .nil, .nil⟩
  | cons h _ ih =>
    obtain ⟨cs, h1, h2⟩ := ih
    obtain ⟨c, h3, h4⟩ := hc _ _ h
    exact ⟨c :: cs, .cons h3 h1, .cons h4 h2⟩

/-- one coordinate of the balance -/
theorem balance_near {fs' : List (Fl F)} {fs : List ℝ} {ps' : List (Fl F)} {ps : List ℝ} {M' x' : Fl F} {M x δ N : ℝ} (hue : F.u ≤ ε)
    (hfs : List.Forall₂ (fun f' f => 0 ≤ f ∧ |f'.real - f| ≤ ε * f) fs' fs) (hps : List.Forall₂ (fun p' p => |p'.real - p| ≤ δ ∧ |p| ≤ R) ps' ps)
    (hlen : ps.length = fs.length) (hM : 0 < M) (hM' : |M'.real - M| ≤ 8 * (N * ε) * M) (hx' : |x'.real - x| ≤ δ) (hx : |x| ≤ R)
    (hN1 : 1 ≤ N) (hN : 100 * (N * ε) ≤ 1) (hn : 10000 * (N * fs.length * ε) ≤ 1) (hte : F.tiny ≤ ε) (htμ : F.tiny ≤ μ) (hμ1 : μ ≤ 1) (hδ : 0 ≤ δ)
    (hbig : 6 * (fs.sum / M + 2) * (R + δ + 1) ≤ F.big) :
    |(actionMean M' (fs'.zip ps') x').real - actionMean M (fs.zip ps) x| ≤ 6 / 5 * δ + 165 * (N * fs.length) * ε * (R + μ) := by
  have hu0 := F.u_nonneg
  have ht := F.tiny_nonneg
  have he0 : 0 ≤ ε := hu0.trans hue
  have hμ : 0 ≤ μ := ht.trans htμ
  have hR : 0 ≤ R := (abs_nonneg _).trans hx
  have hz := forall₂_zip hfs hps
  have hzl : (fs.zip ps).length = fs.length := by rw [List.length_zip, hlen, min_self]
  have hf0 : ∀ f ∈ fs, 0 ≤ f := by
    intro f hf
    obtain ⟨i, hi, rfl⟩ := List.getElem_of_mem hf
    exact (hfs.get (i := i) (by rw [hfs.length_eq]; exact hi) hi).1
  by_cases hne : fs = []
  · subst hne
    cases hfs
    have e1 : actionMean M' (([] : List (Fl F)).zip ps') x' = x' := rfl
    have e2 : actionMean M (([] : List ℝ).zip ps) x = x := rfl
    rw [e1, e2]
    simp only [List.length_nil, Nat.cast_zero, mul_zero, zero_mul, add_zero]
    linarith
  have hn1 : (1 : ℝ) ≤ fs.length := by exact_mod_cast List.length_pos_iff.mpr hne
  have hzne : fs.zip ps ≠ [] := by
    intro h
    rw [h] at hzl
    exact hne (List.length_eq_zero_iff.mp hzl.symm)
  have hzne' : fs'.zip ps' ≠ [] := by
    intro h
    rw [h] at hz
    cases hz' : fs.zip ps with
    | nil => exact hzne hz'
    | cons a b => rw [hz'] at hz; cases hz
  have hfold : ∀ (bs : List (ℝ × ℝ)) (s : ℝ), bs.foldl (fun s b => s + b.1 / M) s = s + (bs.map Prod.fst).sum / M := by
    intro bs
    induction bs with
    | nil => intro s; simp
    | cons b bs ih => intro s; rw [List.foldl_cons, ih, List.map_cons, List.sum_cons]; ring
  have hfst : (fs.zip ps).map Prod.fst = fs := List.map_fst_zip (by omega)
  have hsum : (fs.zip ps).foldl (fun s b => s + b.1 / M) 1 = 1 + fs.sum / M := by rw [hfold, hfst]
  have hNε : 0 ≤ N * ε := by positivity
  have hNn : N * ε ≤ N * fs.length * ε := by
    have := mul_le_mul_of_nonneg_left hn1 hNε
    linarith
  have hεN : ε ≤ N * ε := le_mul_of_one_le_left he0 hN1
  have hsum0 : 0 ≤ fs.sum := List.sum_nonneg hf0
  have hle : ∀ f ∈ fs, f / M ≤ fs.sum / M := fun f hf => by
    have := List.single_le_sum hf0 _ hf
    gcongr
  have hS0 : 0 ≤ fs.sum / M := by positivity
  have hR1 : 0 ≤ fs.sum / M * (R + δ) := by positivity
  have hb2 : 2 * (fs.sum / M) ≤ F.big := by linarith
  have hz' : List.Forall₂ (fun (a : Fl F × Fl F) (b : ℝ × ℝ) => 0 ≤ b.1 / M ∧ |F.div a.1 M' - b.1 / M| ≤ 11 * (N * ε) * (b.1 / M + F.tiny) ∧
      |a.2.real - b.2| ≤ δ ∧ |b.2| ≤ R) (fs'.zip ps') (fs.zip ps) := by
    rw [List.forall₂_iff_get] at hz ⊢
    refine ⟨hz.1, fun i h1 h2 => ?_⟩
    obtain ⟨⟨k1, k2⟩, k3, k4⟩ := hz.2 i h1 h2
    refine ⟨by positivity, ?_, k3, k4⟩
    refine share_near hue hN1 hN hM k1 k2 hM' ?_
    have := hle ((fs.zip ps).get ⟨i, h2⟩).1 (List.of_mem_zip (List.get_mem (fs.zip ps) ⟨i, h2⟩)).1
    exact (mul_le_mul_of_nonneg_left this zero_le_two).trans hb2
  have key := action_near (F := F) (g' := fun a : Fl F × Fl F => F.div a.1 M') (p' := fun a : Fl F × Fl F => a.2) (g := fun b : ℝ × ℝ => b.1 / M) (p := fun b : ℝ × ℝ => b.2)
    (η := 11 * (N * ε)) (δ := δ) (R := R) (μ := μ) (x' := x') (x := x) (by linarith) (by linarith) hR hδ htμ hμ1 hz' hzne (fun a b h => h) hx' hx rfl rfl
    (by rw [hzl]; linarith) (by
      rw [hzl]
      have : (fs.length : ℝ) * F.tiny ≤ N * fs.length * ε := by
        have h1 : (fs.length : ℝ) * F.tiny ≤ fs.length * ε := mul_le_mul_of_nonneg_left hte (by linarith)
        have h2 : 1 * (fs.length * ε) ≤ N * (fs.length * ε) := mul_le_mul_of_nonneg_right hN1 (by positivity)
        linarith
      linarith) (by
      rw [hsum, show 1 + fs.sum / M + 1 = fs.sum / M + 2 by ring]; exact hbig)
  rw [hzl] at key
  unfold actionMean
  rw [if_neg hzne, if_neg hzne']
  refine le_trans key (le_of_eq ?_)
  ring

variable {m0 : KinModel (Fl F)} {cs : List (Call (Fl F))} {h : List (PyCall (Fl F))} {s s' : PyModel (Fl F)} {qs : QArg (Fl F)} {ids al : List Nat}
  {bt : BaseType} {wj : Bool} {fs' : List (Fl F)} {fs : List ℝ}

theorem coord_dist {v' v : Vec3 ℝ} (r : Nat) : |v'.coord r - v.coord r| ≤ Vec3.dist v' v := by
  have sub : (Vec3.mk (v'.x - v.x) (v'.y - v.y) (v'.z - v.z)).quat = v'.quat - v.quat := by
    ext <;> first | rfl | (show (0 : ℝ) = 0 - 0; ring)
  rw [Vec3.dist_quat, ← sub]
  obtain ⟨b1, b2, b3⟩ := (Vec3.mk (v'.x - v.x) (v'.y - v.y) (v'.z - v.z)).abs_le
  match r with
  | 0 => exact b1
  | 1 => exact b2
  | _ + 2 => exact b3

theorem coord_real (v : Vec3 (Fl F)) (r : Nat) : (v.coord r).real = v.real.coord r := by
  match r with
  | 0 => rfl
  | 1 => rfl
  | _ + 2 => rfl

theorem coord_len {v : Vec3 ℝ} (r : Nat) : |v.coord r| ≤ v.len := by
  rw [Vec3.len_quat]
  obtain ⟨b1, b2, b3⟩ := v.abs_le
  match r with
  | 0 => exact b1
  | 1 => exact b2
  | _ + 2 => exact b3

/-- **C134.** `solve_com_fk` with action links and forces that are not negative, in rounded arithmetic: each number of row `k` of `C` is
near the balance of the exact robot at configuration `k` with the exact forces. -/
theorem C134_solve_com_fk (hr : PyReach ls' js' m0 h cs s) (hf : Shallow ls' js' m0 cs) (ha : ComArgs m0 s qs ids al fs' bt)
    (hc : (bt ≠ .fixed ∧ s' = s) ∨ (pyClearCache s = .ok () s' ∧ qs.rows.length = 1))
    (hR : RobotNear ε μ ls' js' (AllWelds ls' m0 cs) ls js welds) (hP : Proper js welds) (hue : F.u ≤ ε) (hA : 1 ≤ A) (hsm : Small F ε μ A D R)
    (hcom : ∀ l ∈ ls, ∀ i, l.inertial = some i → welds ⟨l.name ++ "_com", l.name, ⟨i.origin.position, Rot.one⟩⟩)
    (hL : List.Forall₂ (LinkNear ε μ) ls' ls) (hpos : 0 < massSum ls) (hM : F.tiny ≤ μ * massSum ls)
    (hN : 100 * (ls.length * ε) ≤ 1) (hB : 12 * (massSum ls + 1) * (R + D + 1) ≤ F.big)
    (hfs : List.Forall₂ (fun f' f => 0 ≤ f ∧ |f'.real - f| ≤ ε * f) fs' fs) (hn : 10000 * (ls.length * al.length * ε) ≤ 1)
    (hte : F.tiny ≤ ε) (hBf : 40 * (fs.sum / massSum ls + 2) * (R + D + 1) ≤ F.big) :
    ∃ C J s'', pySolveComFk qs ids (some (al, fs')) bt wj s' = .ok (C, J) s'' ∧ C.rows = qs.rows.length ∧ C.cols = 3 ∧
      ∀ (k : Nat) (q : List (Fl F)) (θ : String → ℝ) (base : Pose ℝ), qs.rows[k]? = some q →
        AnglesAfter (K := Fl F) m0 (cs ++ configCalls ids bt q) θ →
        PoseNear ε (ε * (base.position.len + μ)) (baseAfter Pose.identity (cs ++ configCalls ids bt q)) base →
        1 / 2 ≤ base.rotation.len → base.rotation.len ≤ 2 → (∀ j ∈ js, |θ j.name| ≤ A) →
        (∀ n d L, PathLength ls js welds θ base n d L → d ≤ D ∧ L ≤ R) →
        ∃ bs Ts, Bodies ls js welds θ base bs ∧
          List.Forall₂ (fun l T => ∃ n, getLinkIds [n] s.robot = .ok [l] s.robot ∧ WorldPose ls js welds θ base n T) al Ts ∧
          ∀ r < 3, |(C.f k r).real - actionMean (massSum ls) (fs.zip (Ts.map fun T => T.position.coord r)) ((comOf bs).coord r)| ≤
            6 / 5 * comBound ε μ A D bs.length R + 165 * (ls.length * al.length) * ε * (R + μ) := by
  have hu0 := F.u_nonneg
  have ht := F.tiny_nonneg
  have he0 : 0 ≤ ε := hu0.trans hue
  have hμ : 0 ≤ μ := ht.trans hsm.tiny_le
  obtain ⟨l0, hl0, hl0i⟩ := massSum_exists hpos
  have hsome : ∃ r ∈ ls', r.inertial.isSome := by
    obtain ⟨i, hi, rfl⟩ := List.getElem_of_mem hl0
    have hi' : i < ls'.length := by rw [hL.length_eq]; exact hi
    refine ⟨_, List.getElem_mem hi', ?_⟩
    have := (hL.get (i := i) hi' hi).none
    rw [Option.isSome_iff_ne_none] at hl0i ⊢
    exact fun h => hl0i (this.mp h)
  have hN1 : (1 : ℝ) ≤ ls.length := by exact_mod_cast List.length_pos_of_mem hl0
  obtain ⟨C, J, s'', e, hrows, hcols, hrow⟩ := C05_com_partial (act := some (al, fs')) (wj := wj) hr hf ha hc (fun _ _ => .inl hsome)
  refine ⟨C, J, s'', e, hrows, hcols, fun k q θ base h1 h2 hb hb1 hb2 hθ hD => ?_⟩
  obtain ⟨bs', Ts', hbs', hT, hv⟩ := hrow k q θ h1 h2
  obtain ⟨bs, hbs, hbn, hsum⟩ := bodies_near hR hP hue hA hsm hcom hθ hb hb1 hb2 hD (fun _ _ => True)
    (hL.imp fun _ _ h => ⟨h, fun _ _ _ _ => trivial⟩) ((hbs' bs').mpr rfl)
  have hmean := mean_bodies hue hA hsm hpos hM hN hB hbs (hbn.imp fun _ _ h => h.1) hsum
  have hget : ∀ b ∈ bs, 0 ≤ b.1.mass ∧ (bodyCentre b).len ≤ R := by
    intro b hb
    obtain ⟨i, hi, rfl⟩ := List.getElem_of_mem hb
    have := (hbn.get (i := i) (by rw [hbn.length_eq]; exact hi) hi).1
    exact ⟨this.pos, this.len⟩
  have hbne : bs ≠ [] := by
    rintro rfl
    rw [← hsum] at hpos
    exact lt_irrefl _ hpos
  have hR0 : 0 ≤ R := by
    obtain ⟨b, hb⟩ := List.exists_mem_of_ne_nil _ hbne
    exact (Real.sqrt_nonneg _).trans (hget b hb).2
  have hblen : (bs.length : ℝ) ≤ ls.length := by
    obtain ⟨sorted, hp, _, hf⟩ := hbs
    have : bs.length ≤ ls.length := by
      rw [← hf.length_eq, ← hp.length_eq]
      exact List.length_filter_le _ _
    exact_mod_cast this
  have hM1 : 0 < bs.foldl (fun s b => s + b.1.mass) (0 : ℝ) := by rw [mass_fold, zero_add, hsum]; exact hpos
  have hcl : ∀ r, |(comOf bs).coord r| ≤ R := by
    intro r
    match r with
    | 0 =>
      exact mean_le (w := fun b : Inertial ℝ × Pose ℝ => b.1.mass) (t := fun b : Inertial ℝ × Pose ℝ => (bodyCentre b).x)
        (fun b hb => ⟨(hget b hb).1, (coord_len 0).trans (hget b hb).2⟩) hM1
    | 1 =>
      exact mean_le (w := fun b : Inertial ℝ × Pose ℝ => b.1.mass) (t := fun b : Inertial ℝ × Pose ℝ => (bodyCentre b).y)
        (fun b hb => ⟨(hget b hb).1, (coord_len 1).trans (hget b hb).2⟩) hM1
    | _ + 2 =>
      exact mean_le (w := fun b : Inertial ℝ × Pose ℝ => b.1.mass) (t := fun b : Inertial ℝ × Pose ℝ => (bodyCentre b).z)
        (fun b hb => ⟨(hget b hb).1, (coord_len 2).trans (hget b hb).2⟩) hM1
  obtain ⟨p1, p2⟩ := posBound_le hsm hue hA le_rfl le_rfl hR0
  have hNε : (bs.length : ℝ) * ε * (R + μ) ≤ 1 / 100 * (R + μ) := by
    refine mul_le_mul_of_nonneg_right ?_ (by positivity)
    have := mul_le_mul_of_nonneg_right hblen he0
    linarith
  have hNε0 : 0 ≤ (bs.length : ℝ) * ε * (R + μ) := by positivity
  have hp0 : 0 ≤ posBound ε μ A D R := by unfold posBound; positivity
  have hcb : comBound ε μ A D bs.length R = 3 * posBound ε μ A D R + 25 * ((bs.length : ℝ) * ε * (R + μ)) := by unfold comBound; ring
  have hcb1 : posBound ε μ A D R ≤ comBound ε μ A D bs.length R := by rw [hcb]; linarith
  obtain ⟨Ts, hT1, hT2⟩ := forall₂_choose (Q := fun l (T : Pose ℝ) => ∃ n, getLinkIds [n] s.robot = .ok [l] s.robot ∧ WorldPose ls js welds θ base n T)
    (S := fun (T' : Pose (Fl F)) (T : Pose ℝ) => Vec3.dist T'.real.position T.position ≤ comBound ε μ A D bs.length R ∧ T.position.len ≤ R) hT (by
    rintro l T' ⟨n, hn1, hn2⟩
    obtain ⟨d, L, T, g1, g2, g3, g4, g5, g6⟩ := world_pos hR hP hue hA hsm hθ hb hb1 hb2 (hD n) hn2
    refine ⟨T, ⟨n, hn1, g1⟩, (g6.trans ?_).trans hcb1, g3.trans g5⟩
    have hL0 : 0 ≤ L := (Real.sqrt_nonneg _).trans g3
    have hdR : (d : ℝ) ≤ D := by exact_mod_cast g4
    unfold posBound
    gcongr)
  refine ⟨bs, Ts, hbs, hT1, fun r hr3 => ?_⟩
  rw [hv r hr3]
  have hlT : Ts.length = al.length := hT1.length_eq.symm
  have hlf : fs.length = al.length := by rw [← hfs.length_eq]; exact ha.forces
  obtain ⟨M, eM, hMn⟩ := C133_python hr hL hue (by linarith) (by
    have : μ * massSum ls ≤ 1 * massSum ls := mul_le_mul_of_nonneg_right hsm.unit hpos.le
    have h1 : 12 * (massSum ls + 1) * 1 ≤ 12 * (massSum ls + 1) * (R + D + 1) :=
      mul_le_mul_of_nonneg_left (by have : (0 : ℝ) ≤ D := by positivity
                                    linarith) (by linarith)
    linarith)
  cases eM
  have hps : List.Forall₂ (fun (p' : Fl F) p => |p'.real - p| ≤ comBound ε μ A D bs.length R ∧ |p| ≤ R)
      (Ts'.map fun T => T.position.coord r) (Ts.map fun T => T.position.coord r) := by
    rw [List.forall₂_map_left_iff, List.forall₂_map_right_iff]
    refine hT2.imp fun T' T g => ⟨?_, (coord_len r).trans g.2⟩
    refine le_trans ?_ g.1
    rw [coord_real]
    exact coord_dist r
  have hcx : |((comOf (K := Fl F) bs').coord r).real - (comOf bs).coord r| ≤ comBound ε μ A D bs.length R := by
    refine le_trans ?_ hmean
    rw [coord_real]
    exact coord_dist r
  have fin := balance_near (F := F) (ε := ε) (μ := μ) (R := R) (N := ls.length) (δ := comBound ε μ A D bs.length R) hue hfs hps
    (by rw [List.length_map, hlT, hlf]) hpos (by
      refine hMn.trans ?_
      have : μ * massSum ls ≤ 1 * massSum ls := mul_le_mul_of_nonneg_right hsm.unit hpos.le
      have := mul_le_mul_of_nonneg_left (show massSum ls + F.tiny ≤ 2 * massSum ls by linarith) (show 0 ≤ 4 * (ls.length : ℝ) * ε by positivity)
      linarith) hcx (hcl r) hN1 hN (by rw [hlf]; exact hn) hte hsm.tiny_le hsm.unit (hp0.trans hcb1) (by
      have hS0 : 0 ≤ fs.sum / massSum ls := div_nonneg (List.sum_nonneg fun f hf => by
        obtain ⟨i, hi, rfl⟩ := List.getElem_of_mem hf
        exact (hfs.get (i := i) (by rw [hfs.length_eq]; exact hi) hi).1) hpos.le
      refine le_trans ?_ hBf
      have : 6 * (fs.sum / massSum ls + 2) * (R + comBound ε μ A D bs.length R + 1) ≤ 6 * (fs.sum / massSum ls + 2) * (20 / 3 * (R + D + 1)) := by
        refine mul_le_mul_of_nonneg_left ?_ (by linarith)
        have : (0 : ℝ) ≤ D := by positivity
        have := hsm.unit
        rw [hcb]
        linarith
      linarith)
  rw [hlf] at fin
  exact fin

end

/-! ### The hypotheses are met -/

namespace RoundExample

theorem comArgs_force : ComArgs m0 s0 (.list1 q) [0, 1] [2] [(1 : Fl dbl)] .planer := by
  obtain ⟨h1, h2, h3, h4, _, _⟩ := comArgs
  exact ⟨h1, h2, h3, h4, by intro l hl; simp only [List.mem_singleton] at hl; subst hl; show 2 < m0.links.length; rw [links_length]; simp, rfl⟩

theorem tiny_u : dbl.tiny ≤ 200 * dbl.u * 2 := by
  have h : dbl.tiny ≤ dbl.u := by
    rw [tiny_eq, u_eq]
    exact zpow_le_zpow_right₀ (by norm_num) (by norm_num)
  have := dbl.u_nonneg
  linarith

/-- In IEEE arithmetic `solve_com_fk` balances this robot and a force as large as its weight at its hand to seven digits. -/
theorem hand_balance : ∃ C J s', pySolveComFk (.list1 q) [0, 1] (some ([2], [(1 : Fl dbl)])) .planer false s0 = .ok (C, J) s' ∧
    ∃ bs T n, Bodies ls js (fun w => w = com) θ base bs ∧ getLinkIds [n] s0.robot = .ok [2] s0.robot ∧
      WorldPose ls js (fun w => w = com) θ base n T ∧
      ∀ r < 3, |(C.f 0 r).real - ((comOf bs).coord r + T.position.coord r) / 2| ≤ 1 / 10 ^ 7 := by
  have hμ : 0 ≤ μ := by unfold μ; positivity
  have hμ1 := μ_le
  have hu := dbl.u_nonneg
  have h1f : ((1 : Fl dbl)).real = 1 := rfl
  obtain ⟨C, J, s', e, _, _, h⟩ := C134_solve_com_fk (wj := false) (A := 2) (fs := [1]) s0_reach shallow comArgs_force (.inl ⟨nofun, rfl⟩)
    robot_near proper (by linarith) (by norm_num) small3 com_welds links_near
    (by rw [mass_sum]; norm_num) (by rw [mass_sum]; linarith [tiny_μ', dbl.tiny_nonneg])
    (by rw [u_eq]; norm_num [ls]) (by rw [mass_sum, big_eq]; norm_num)
    (.cons ⟨zero_le_one, by rw [h1f, sub_self, abs_zero, mul_one]; linarith⟩ .nil) (by rw [u_eq]; norm_num [ls])
    tiny_u (by rw [mass_sum, big_eq]; norm_num)
  obtain ⟨bs, Ts, h1, h2, h3⟩ := h 0 q θ base rfl angles base_near.1
    (by rw [base_near.2]; norm_num) (by rw [base_near.2]; norm_num) (by
      intro j hj
      simp only [js, List.mem_cons, List.not_mem_nil, or_false] at hj
      rcases hj with rfl | rfl <;> simp [turn, slide, θ]; norm_num)
    (fun n d L h => by
      obtain ⟨k1, k2⟩ := path h
      refine ⟨?_, k2.trans ?_⟩
      · rw [k1]; split_ifs <;> omega
      · split_ifs <;> norm_num)
  cases h2 with
  | @cons _ T _ Ts' hT h2 =>
  cases h2
  obtain ⟨n, hn, hT⟩ := hT
  refine ⟨C, J, s', e, bs, T, n, h1, hn, hT, fun r hr => ?_⟩
  have h4 := h3 r hr
  have e1 : actionMean (massSum ls) (([1] : List ℝ).zip ([T].map fun T => T.position.coord r)) ((comOf bs).coord r) =
      ((comOf bs).coord r + T.position.coord r) / 2 := by
    rw [mass_sum]
    simp [actionMean]
    norm_num
  rw [e1] at h4
  refine h4.trans ?_
  have hl : (bs.length : ℝ) ≤ 3 := by
    obtain ⟨sorted, hp, _, hf⟩ := h1
    have : bs.length ≤ ls.length := by
      rw [← hf.length_eq, ← hp.length_eq]
      exact List.length_filter_le _ _
    exact_mod_cast this
  have hl0 : (0 : ℝ) ≤ bs.length := by positivity
  have k1 : 25 * (bs.length : ℝ) * (200 * dbl.u * 2) * (5 + μ) ≤ 25 * 3 * (200 * dbl.u * 2) * (5 + 1) := by
    refine mul_le_mul ?_ (by linarith) (by linarith) (by linarith)
    exact mul_le_mul_of_nonneg_right (by linarith) (by linarith)
  have k2 : 25 * 3 * (200 * dbl.u * 2) * (5 + 1) ≤ 1 / 10 ^ 10 := by
    rw [u_eq]; norm_num
  have k3 : posBound (200 * dbl.u * 2) μ 2 3 5 ≤ 2 / 10 ^ 9 := by
    unfold posBound
    rw [u_eq]
    norm_num
    linarith
  have k4 : 165 * ((ls.length : ℝ) * ([2] : List Nat).length) * (200 * dbl.u * 2) * (5 + μ) ≤ 165 * 3 * (200 * dbl.u * 2) * (5 + 1) := by
    have : (ls.length : ℝ) * ([2] : List Nat).length = 3 := by norm_num [ls]
    rw [this]
    exact mul_le_mul_of_nonneg_left (by linarith) (by linarith)
  have k5 : 165 * 3 * (200 * dbl.u * 2) * (5 + 1) ≤ 1 / 10 ^ 9 := by
    rw [u_eq]; norm_num
  unfold comBound
  linarith

end RoundExample
end Tinyfk
