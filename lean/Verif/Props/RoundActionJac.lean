import Verif.Props.RoundAction
import Verif.Props.RoundComJac
import Verif.Props.ComBatchJac

/-!
# Properties: rounding errors of the Jacobian of the centre of mass with action forces

C135.
-/

namespace Tinyfk

section
variable {F : Rounding} {ls' : List (RawLink (Fl F))} {js' : List (RawJoint (Fl F))} {ls : List (RawLink ℝ)} {js : List (RawJoint ℝ)}
  {welds : Weld ℝ → Prop} {ε μ A R : ℝ} {D : Nat}
  {m0 : KinModel (Fl F)} {cs : List (Call (Fl F))} {h : List (PyCall (Fl F))} {s s' : PyModel (Fl F)} {qs : QArg (Fl F)} {ids al : List Nat}
  {bt : BaseType} {fs' : List (Fl F)} {fs : List ℝ}

theorem coord_deriv {T : ℝ → Pose ℝ} {X : Vec3 ℝ} {x : ℝ} (h : Vec3.HasDeriv (fun v => (T v).position) X x) (a : Nat) :
    HasDerivAt (fun v => (T v).position.coord a) (X.coord a) x := by
  match a with
  | 0 => exact h.1
  | 1 => exact h.2.1
  | _ + 2 => exact h.2.2

theorem coord_deriv' {g : ℝ → Vec3 ℝ} {X : Vec3 ℝ} {x : ℝ} (h : Vec3.HasDeriv g X x) (a : Nat) :
    HasDerivAt (fun v => (g v).coord a) (X.coord a) x := by
  match a with
  | 0 => exact h.1
  | 1 => exact h.2.1
  | _ + 2 => exact h.2.2

/-- **C135.** `solve_com_fk` with `with_jacobian=True`, action links and forces that are not negative, in rounded arithmetic: each number
in a joint column of `J` is near the derivative of the balance of the exact robot. -/
theorem C135_solve_com_fk (hr : PyReach ls' js' m0 h cs s) (hf : Shallow ls' js' m0 cs) (ha : ComArgs m0 s qs ids al fs' bt)
    (hc : (bt ≠ .fixed ∧ s' = s) ∨ (pyClearCache s = .ok () s' ∧ qs.rows.length = 1))
    (hR : RobotNear ε μ ls' js' (AllWelds ls' m0 cs) ls js welds) (hnd : (js.map RawJoint.name).Nodup) (hW : WeldsApart ls js welds)
    (hu : UnitDesc js) (hw : ∀ w, welds w → w.offset.rotation.norm2 = 1) (hax : ∀ r ∈ js, r.axis.len ≤ 1 + R)
    (hue : F.u ≤ ε) (hA : 1 ≤ A) (hsm : Small F ε μ A D R)
    (hcom : ∀ l ∈ ls, ∀ i, l.inertial = some i → welds ⟨l.name ++ "_com", l.name, ⟨i.origin.position, Rot.one⟩⟩)
    (hL : List.Forall₂ (LinkNear ε μ) ls' ls) (hpos : 0 < massSum ls) (hM : F.tiny ≤ μ * massSum ls)
    (hN : 100 * (ls.length * ε) ≤ 1) (hB : 48 * (massSum ls + 1) * (R + D + 1) ≤ F.big)
    (hfs : List.Forall₂ (fun f' f => 0 ≤ f ∧ |f'.real - f| ≤ ε * f) fs' fs) (hn : 10000 * (ls.length * al.length * ε) ≤ 1)
    (hte : F.tiny ≤ ε) (hBf : 130 * (fs.sum / massSum ls + 2) * (R + D + 1) ≤ F.big) :
    ∃ C J s'', pySolveComFk qs ids (some (al, fs')) bt true s' = .ok (C, J) s'' ∧
      ∀ (k c i : Nat) (q : List (Fl F)) (jn : String) (θ : String → ℝ) (base : Pose ℝ), qs.rows[k]? = some q → ids[c]? = some i →
        getJointIds [jn] m0 = .ok [i] m0 → AnglesAfter (K := Fl F) m0 (cs ++ configCalls ids bt q) θ →
        PoseNear ε (ε * (base.position.len + μ)) (baseAfter Pose.identity (cs ++ configCalls ids bt q)) base →
        base.rotation.norm2 = 1 → (∀ j ∈ js, |θ j.name| ≤ A) → (∀ n d L, PathLength ls js welds θ base n d L → d ≤ D ∧ L ≤ R) →
        ∃ (r : RawJoint ℝ) (g : ℝ → Vec3 ℝ) (Ts : List (ℝ → Pose ℝ)) (N : Nat), r ∈ js ∧ r.name = jn ∧ N ≤ ls.length ∧
          (∀ v, ∃ bs, Bodies ls js welds (Function.update θ jn v) base bs ∧ bs.length = N ∧ comOf bs = g v) ∧
          List.Forall₂ (fun l T => ∃ n, getLinkIds [n] s.robot = .ok [l] s.robot ∧
            ∀ v, WorldPose ls js welds (Function.update θ jn v) base n (T v)) al Ts ∧
          ∀ a < 3, ∃ Y, HasDerivAt (fun v => actionMean (massSum ls) (fs.zip (Ts.map fun T => (T v).position.coord a)) ((g v).coord a)) Y (θ jn) ∧
            |(J.f (3 * k + a) c).real - Y| ≤ 6 / 5 * comColBound ε μ A r D N R + 165 * (ls.length * al.length) * ε * (colSize r R + μ) := by
  have hu0 := F.u_nonneg
  have ht := F.tiny_nonneg
  have he0 : 0 ≤ ε := hu0.trans hue
  have hμ : 0 ≤ μ := ht.trans hsm.tiny_le
  have hD0 : (0 : ℝ) ≤ D := by positivity
  obtain ⟨mc, hat⟩ := hr.at
  have key : At ls' js' m0 cs mc s'.robot ∧ (bt ≠ .fixed ∨ (Fresh s'.robot ∧ qs.rows.length = 1)) ∧ s'.robot.links = s.robot.links := by
    rcases hc with ⟨h1, rfl⟩ | ⟨h1, h2⟩
    · exact ⟨hat, .inl h1, rfl⟩
    · obtain ⟨m1, e1, a1, a2, _⟩ := hat.clear
      simp only [pyClearCache, onRobot, e1] at h1
      cases h1
      refine ⟨a1, .inr ⟨a2, h2⟩, ?_⟩
      show m1.links = _
      rw [a1.links, hat.links]
  obtain ⟨hat', hc', hlinks⟩ := key
  obtain ⟨l0, hl0, hl0i⟩ := massSum_exists hpos
  have hsome : ∃ r ∈ ls', r.inertial.isSome := by
    obtain ⟨i, hi, rfl⟩ := List.getElem_of_mem hl0
    have hi' : i < ls'.length := by rw [hL.length_eq]; exact hi
    refine ⟨_, List.getElem_mem hi', ?_⟩
    have := (hL.get (i := i) hi' hi).none
    rw [Option.isSome_iff_ne_none] at hl0i ⊢
    exact fun h => hl0i (this.mp h)
  have hN1 : (1 : ℝ) ≤ ls.length := by exact_mod_cast List.length_pos_of_mem hl0
  obtain ⟨C, J, s'', mc', e, _, hres⟩ := hat'.pySolveComFk (act := some (al, fs')) (wj := true) hf
    ⟨ha.notFlat, ha.nonempty, ha.shape, ha.joints, by rw [hlinks]; exact ha.links, ha.forces⟩ hc' (fun _ _ => .inl hsome)
  refine ⟨C, J, s'', e, ?_⟩
  intro k c i q jn θ base hk hci hjn hθ hb hbu hθA hD
  have hql := ha.shape q (List.mem_of_getElem? hk)
  obtain ⟨mk, hmk⟩ := hat.reach.config ha.joints hql
  have hset := configCalls_isSet ids bt q
  have hids : ∀ i ∈ ids, i < mk.joints.length := by rw [hmk.abs.joints]; exact ha.joints
  have hcl := (List.getElem?_eq_some_iff.mp hci).1
  obtain ⟨B, mk', Bs, eB, _, _, hBs, hJ⟩ := hres.jac rfl k q mk hk hmk
  obtain ⟨B', mk'', eB', hcol⟩ := hmk.com_jacobian_near (hf.sets hset) (by rw [allWelds_sets hset]; exact hR) hnd hW hu hw hax hue hA hsm hcom hL hpos hM
    hN hB hids (bt != .fixed)
  rw [eB] at eB'
  cases eB'
  obtain ⟨r, g, X, N, h1, h2, h3, h4, h5, h6, h7, hR0⟩ := hcol c i jn θ base hci hjn hθ hb hbu hθA hD
  have hlk : ∀ l ∈ al, ∃ n, getLinkIds [n] mk = .ok [l] mk ∧ getLinkIds [n] s.robot = .ok [l] s.robot := by
    intro l hl
    have hl' : l < mk.links.length := by
      rw [← hmk.length, links_sets _ hset, ← hat.nlinks]; exact ha.links l hl
    obtain ⟨lk, hlk⟩ : ∃ lk, mk.links[l]? = some lk := ⟨_, List.getElem?_eq_getElem hl'⟩
    have hn : getLinkIds [lk.name] mk = .ok [l] mk := by
      rw [getLinkIds_one]; exact (hmk.abs.inv.graph.linkNames _ _).mpr ⟨lk, hlk, rfl⟩
    refine ⟨lk.name, hn, ?_⟩
    obtain ⟨θ', p, c', rfl⟩ := hmk.sets_eq hat.reach hset
    obtain ⟨⟨st, cc, e⟩, _⟩ := hat.same
    rw [e, getLinkIds_one]
    rw [getLinkIds_one] at hn
    exact hn
  obtain ⟨q1, _, q3⟩ := colBound_le (r := r) hsm hue hA le_rfl le_rfl hR0 (hax r h1)
  have q2 := colBound_size (D := D) (r := r) he0 hμ hA hR0
  have hS0 := colSize_nonneg (r := r) hR0
  have hcb0 : 0 ≤ colBound ε μ A r D R := le_trans (by positivity) q2
  have hNl : (N : ℝ) ≤ ls.length := by exact_mod_cast h3
  have hNε : (N : ℝ) * ε * (colSize r R + μ) ≤ 1 / 100 * (colSize r R + μ) := by
    refine mul_le_mul_of_nonneg_right ?_ (by positivity)
    have := mul_le_mul_of_nonneg_right hNl he0
    linarith
  have hNε0 : 0 ≤ (N : ℝ) * ε * (colSize r R + μ) := by positivity
  have hcb : comColBound ε μ A r D N R = 3 * colBound ε μ A r D R + 25 * ((N : ℝ) * ε * (colSize r R + μ)) := by unfold comColBound; ring
  have hcb1 : colBound ε μ A r D R ≤ comColBound ε μ A r D N R := by rw [hcb]; linarith
  obtain ⟨Ps, hP1, hP2⟩ := forall₂_choose (Q := fun l (z : (ℝ → Pose ℝ) × Vec3 ℝ) => ∃ n, getLinkIds [n] s.robot = .ok [l] s.robot ∧
      ∀ v, WorldPose ls js welds (Function.update θ jn v) base n (z.1 v))
    (S := fun (B : Mat (Fl F)) (z : (ℝ → Pose ℝ) × Vec3 ℝ) => Vec3.HasDeriv (fun v => (z.1 v).position) z.2 (θ jn) ∧
      Vec3.dist ⟨B.f 0 c, B.f 1 c, B.f 2 c⟩ z.2 ≤ comColBound ε μ A r D N R ∧ z.2.len ≤ colSize r R)
    (forall₂_imp_mem (S := fun l B => l ∈ al ∧ ∃ m', getJacobian l ids .ignore (bt != .fixed) mk = .ok B m') hBs fun l hl B hB => ⟨hl, hB⟩) (by
    rintro l B ⟨hl, m', eB⟩
    obtain ⟨n, hn1, hn2⟩ := hlk l hl
    obtain ⟨J1, m2, eJ, hcolB⟩ := hmk.jacobian_near (hf.sets hset) (.inl hsome) (by rw [allWelds_sets hset]; exact hR)
      hu hw hax hue hA hsm hn1 (ids := ids) hids .ignore (bt != .fixed) hθ hb hbu hθA (hD n)
    rw [eB] at eJ
    cases eJ
    obtain ⟨r', d, L, T, X, Q, p1, p2, p3, p4, p5, p6, p7, _, p9⟩ := hcolB c i jn hci hjn
    have : r' = r := List.inj_on_of_nodup_map hnd p1 h1 (p2.trans h2.symm)
    subst this
    obtain ⟨g4, g5⟩ := hD n d L p3
    refine ⟨(T, X), ⟨n, hn2, p4⟩, p5, (p7.trans (colBound_mono he0 hμ (by linarith) g4 g5 (path_nonneg p3))).trans hcb1, p9.trans ?_⟩
    unfold colSize
    split <;> linarith)
  refine ⟨r, g, Ps.map Prod.fst, N, h1, h2, h3, h4, ?_, fun a ha3 => ?_⟩
  · rw [List.forall₂_map_right_iff]
    exact hP1
  have hder : List.Forall₂ (fun f d => HasDerivAt f d (θ jn)) (Ps.map fun z v => (z.1 v).position.coord a) (Ps.map fun z => z.2.coord a) := by
    rw [List.forall₂_map_left_iff, List.forall₂_map_right_iff, List.forall₂_same]
    intro z hz
    obtain ⟨i, hi, rfl⟩ := List.getElem_of_mem hz
    exact coord_deriv (hP2.get (i := i) (by rw [hP2.length_eq]; exact hi) hi).1 a
  refine ⟨actionMean (massSum ls) (fs.zip (Ps.map fun z => z.2.coord a)) (X.coord a), ?_, ?_⟩
  · have := actionMean_deriv (M := massSum ls) (fs := fs) hder (coord_deriv' h5 a)
    simpa only [List.map_map, Function.comp_def] using this
  rw [hJ a ha3 c (by rw [hres.jCols]; omega)]
  have hcol3 : ∀ B : Mat (Fl F), (B.f a c).real = Vec3.coord ⟨(B.f 0 c : ℝ), B.f 1 c, B.f 2 c⟩ a := by
    intro B
    match a, ha3 with
    | 0, _ => rfl
    | 1, _ => rfl
    | 2, _ => rfl
  have hlT : Ps.length = al.length := hP1.length_eq.symm
  have hlf : fs.length = al.length := by rw [← hfs.length_eq]; exact ha.forces
  have hps : List.Forall₂ (fun (p' : Fl F) p => |p'.real - p| ≤ comColBound ε μ A r D N R ∧ |p| ≤ colSize r R)
      (Bs.map fun B => B.f a c) (Ps.map fun z => z.2.coord a) := by
    rw [List.forall₂_map_left_iff, List.forall₂_map_right_iff]
    refine hP2.imp fun B z g => ⟨?_, (coord_len a).trans g.2.2⟩
    rw [hcol3]
    exact (coord_dist a).trans g.2.1
  have hMn := C133_total_mass hmk hL hue (by linarith) (by
    have : μ * massSum ls ≤ 1 * massSum ls := mul_le_mul_of_nonneg_right hsm.unit hpos.le
    have h1 : 48 * (massSum ls + 1) * 1 ≤ 48 * (massSum ls + 1) * (R + D + 1) := mul_le_mul_of_nonneg_left (by linarith) (by linarith)
    linarith)
  have fin := balance_near (F := F) (ε := ε) (μ := μ) (R := colSize r R) (N := ls.length) (δ := comColBound ε μ A r D N R) hue hfs hps
    (by rw [List.length_map, hlT, hlf]) hpos (by
      refine hMn.trans ?_
      have : μ * massSum ls ≤ 1 * massSum ls := mul_le_mul_of_nonneg_right hsm.unit hpos.le
      have := mul_le_mul_of_nonneg_left (show massSum ls + F.tiny ≤ 2 * massSum ls by linarith) (show 0 ≤ 4 * (ls.length : ℝ) * ε by positivity)
      linarith) (x' := B.f a c) (x := X.coord a) (by rw [hcol3]; exact (coord_dist a).trans h6) (h7 a) hN1 hN (by rw [hlf]; exact hn) hte hsm.tiny_le hsm.unit
      (hcb0.trans hcb1) (by
      have hS0 : 0 ≤ fs.sum / massSum ls := div_nonneg (List.sum_nonneg fun f hf => by
        obtain ⟨i, hi, rfl⟩ := List.getElem_of_mem hf
        exact (hfs.get (i := i) (by rw [hfs.length_eq]; exact hi) hi).1) hpos.le
      refine le_trans ?_ hBf
      have : 6 * (fs.sum / massSum ls + 2) * (colSize r R + comColBound ε μ A r D N R + 1) ≤ 6 * (fs.sum / massSum ls + 2) * (65 / 3 * (R + D + 1)) := by
        refine mul_le_mul_of_nonneg_left ?_ (by linarith)
        have := hsm.unit
        rw [hcb]
        linarith
      linarith)
  rw [hlf] at fin
  exact fin

end

/-! ### The hypotheses are met -/

namespace RoundExample

/-- In IEEE arithmetic `solve_com_fk` returns the derivatives of the balance of this robot and a force as large as its weight at its hand
to seven digits. -/
theorem hand_balance_jacobian : ∃ C J s', pySolveComFk (.list1 q) [0, 1] (some ([2], [(1 : Fl dbl)])) .planer true s0 = .ok (C, J) s' ∧
    ∀ c s, (c = 0 ∧ s = "slide") ∨ (c = 1 ∧ s = "turn") → ∃ (g : ℝ → Vec3 ℝ) (T : ℝ → Pose ℝ) (n : String),
      (∀ v, ∃ bs, Bodies ls js (fun w => w = com) (Function.update θ s v) base bs ∧ comOf bs = g v) ∧
      getLinkIds [n] s0.robot = .ok [2] s0.robot ∧ (∀ v, WorldPose ls js (fun w => w = com) (Function.update θ s v) base n (T v)) ∧
      ∀ a < 3, ∃ Y, HasDerivAt (fun v => ((g v).coord a + (T v).position.coord a) / 2) Y (θ s) ∧ |(J.f a c).real - Y| ≤ 1 / 10 ^ 7 := by
  have hμ : 0 ≤ μ := by unfold μ; positivity
  have hμ1 := μ_le
  have hu := dbl.u_nonneg
  have h1f : ((1 : Fl dbl)).real = 1 := rfl
  obtain ⟨C, J, s', e, h⟩ := C135_solve_com_fk (A := 2) (fs := [1]) s0_reach shallow comArgs_force (.inl ⟨nofun, rfl⟩)
    robot_near (by simp [js, turn, slide]) weldsApart unitDesc (fun w hw => by rw [hw]; simp [com, Rot.norm2, Rot.one])
    (fun r hr => by have := axes r hr; linarith) (by linarith) (by norm_num) small3 com_welds links_near
    (by rw [mass_sum]; norm_num) (by rw [mass_sum]; linarith [tiny_μ', dbl.tiny_nonneg])
    (by rw [u_eq]; norm_num [ls]) (by rw [mass_sum, big_eq]; norm_num)
    (.cons ⟨zero_le_one, by rw [h1f, sub_self, abs_zero, mul_one]; linarith⟩ .nil) (by rw [u_eq]; norm_num [ls])
    tiny_u (by rw [mass_sum, big_eq]; norm_num)
  refine ⟨C, J, s', e, fun c s hcs => ?_⟩
  obtain ⟨r, g, Ts, N, p1, _, p3, p4, p5, p6⟩ := h 0 c c q s θ base rfl (by rcases hcs with ⟨rfl, rfl⟩ | ⟨rfl, rfl⟩ <;> rfl)
    (by rw [getJointIds_one, jointIds]; rcases hcs with ⟨rfl, rfl⟩ | ⟨rfl, rfl⟩ <;> simp) angles base_near.1
    (Rot.norm2_fromRPY _ _ _) (by
      intro j hj
      simp only [js, List.mem_cons, List.not_mem_nil, or_false] at hj
      rcases hj with rfl | rfl <;> simp [turn, slide, θ]; norm_num)
    (fun n d L h => by
      obtain ⟨k1, k2⟩ := path h
      refine ⟨?_, k2.trans ?_⟩
      · rw [k1]; split_ifs <;> omega
      · split_ifs <;> norm_num)
  cases p5 with
  | @cons _ T _ Ts' hT h2 =>
  cases h2
  obtain ⟨n, hn, hT⟩ := hT
  refine ⟨g, T, n, fun v => ?_, hn, hT, fun a ha => ?_⟩
  · obtain ⟨bs, b1, _, b3⟩ := p4 v
    exact ⟨bs, b1, b3⟩
  obtain ⟨Y, y1, y2⟩ := p6 a ha
  have e1 : (fun v => actionMean (massSum ls) (([1] : List ℝ).zip ([T].map fun T => (T v).position.coord a)) ((g v).coord a)) =
      fun v => ((g v).coord a + (T v).position.coord a) / 2 := by
    funext v
    rw [mass_sum]
    simp [actionMean]
    norm_num
  rw [e1] at y1
  rw [Nat.mul_zero, Nat.zero_add] at y2
  refine ⟨Y, y1, y2.trans ?_⟩
  have hl : (N : ℝ) ≤ 3 := by exact_mod_cast p3
  have hr := axes r p1
  have ha0 : 0 ≤ r.axis.len := Real.sqrt_nonneg _
  have hS : colSize r 5 ≤ 10 := by unfold colSize; split <;> linarith
  have hS0 := colSize_nonneg (r := r) (R := 5) (by norm_num)
  have k1 : 25 * (N : ℝ) * (200 * dbl.u * 2) * (colSize r 5 + μ) ≤ 25 * 3 * (200 * dbl.u * 2) * (10 + 1) := by
    refine mul_le_mul ?_ (by linarith) (by linarith) (by linarith)
    exact mul_le_mul_of_nonneg_right (by linarith) (by linarith)
  have k2 : 25 * 3 * (200 * dbl.u * 2) * (10 + 1) ≤ 1 / 10 ^ 9 := by
    rw [u_eq]; norm_num
  have k3 : colBound (200 * dbl.u * 2) μ 2 r 3 5 ≤ 12 / 10 ^ 9 := by
    unfold colBound
    rw [u_eq]
    split
    · norm_num
      linarith
    · norm_num
      linarith
  have k4 : 165 * ((ls.length : ℝ) * ([2] : List Nat).length) * (200 * dbl.u * 2) * (colSize r 5 + μ) ≤ 165 * 3 * (200 * dbl.u * 2) * (10 + 1) := by
    have : (ls.length : ℝ) * ([2] : List Nat).length = 3 := by norm_num [ls]
    rw [this]
    exact mul_le_mul_of_nonneg_left (by linarith) (by linarith)
  have k5 : 165 * 3 * (200 * dbl.u * 2) * (10 + 1) ≤ 1 / 10 ^ 9 := by
    rw [u_eq]; norm_num
  unfold comColBound
  linarith

end RoundExample
end Tinyfk
