import Verif.Proofs.Turns
import Verif.Props.Motion

/-!
# Properties: full turns

C109.
-/

namespace Tinyfk

open Scalar

/-- Configuration `q'` is `q` except for full turns of joints and base angles: an entry may differ by a multiple of
`2π` if every joint of the robot with the id listed there is revolute or continuous, or if it is an angle of the
base. -/
structure TurnedConfig (js : List (RawJoint ℝ)) (m0 : KinModel ℝ) (ids : List Nat) (bt : BaseType) (q q' : List ℝ) : Prop where
  length : q'.length = q.length
  entries : ∀ c v v', q[c]? = some v → q'[c]? = some v' → v' = v ∨ FullTurns v v' ∧
    ((∃ i, ids[c]? = some i ∧ ∀ j ∈ js, getJointIds [j.name] m0 = .ok [i] m0 → j.type = .revolute ∨ j.type = .continuous) ∨
      IsBaseAngleCol ids.length bt c)

section
variable {ls : List (RawLink ℝ)} {js : List (RawJoint ℝ)} {m0 mc mk mk' : KinModel ℝ} {cs : List (Call ℝ)}
  {h : List (PyCall ℝ)} {s : PyModel ℝ} {es ids : List Nat} {ps : List (Nat × Nat)}
  {bt : BaseType} {rt : RotType} {wj uc : Bool} {c0 : SizedCache (Pose ℝ)} {q q' : List ℝ}

theorem TurnedConfig.get (ht : TurnedConfig js m0 ids bt q q') {c : Nat} (hc : c < q.length) :
    ∃ v v', q[c]? = some v ∧ q'[c]? = some v' ∧ (v' = v ∨ FullTurns v v' ∧
    ((∃ i, ids[c]? = some i ∧ ∀ j ∈ js, getJointIds [j.name] m0 = .ok [i] m0 → j.type = .revolute ∨ j.type = .continuous) ∨
      IsBaseAngleCol ids.length bt c)) := by
  have h1 : q[c]? = some q[c] := List.getElem?_eq_getElem hc
  have h2 : q'[c]? = some (q'[c]'(by rw [ht.length]; exact hc)) := List.getElem?_eq_getElem _
  exact ⟨_, _, h1, h2, ht.entries c _ _ h1 h2⟩

/-- the joint values after two configurations that differ by full turns -/
theorem TurnedConfig.angles (ht : TurnedConfig js m0 ids bt q q') (hq : q.length = ids.length + bt.dof) :
    ∃ θ θ', AnglesAfter m0 (cs ++ configCalls ids bt q) θ ∧ AnglesAfter m0 (cs ++ configCalls ids bt q') θ' ∧
      ∀ j ∈ js, θ' j.name = θ j.name ∨ (j.type = .revolute ∨ j.type = .continuous) ∧ FullTurns (θ j.name) (θ' j.name) := by
  refine ⟨fun s => match m0.jointIds.find s with | some i => angleAfter i 0 (cs ++ configCalls ids bt q) | none => 0,
    fun s => match m0.jointIds.find s with | some i => angleAfter i 0 (cs ++ configCalls ids bt q') | none => 0, ?_, ?_, ?_⟩
  · intro s i h
    rw [getJointIds_one] at h
    simp only [h]
  · intro s i h
    rw [getJointIds_one] at h
    simp only [h]
  · intro j hj
    cases hi : m0.jointIds.find j.name with
    | none => simp only [hi]; exact .inl trivial
    | some i =>
      simp only [hi]
      by_cases hm : i ∈ ids
      · obtain ⟨c, hcl, e, hn⟩ := exists_lastListing hm
        obtain ⟨v, v', e1, e2, hv⟩ := ht.get (c := c) (by omega)
        have hic : ids[c]? = some i := by simp [hcl, e]
        rw [angleAfter_append, angleAfter_append, angleAfter_config, angleAfter_config,
          lastWrite_last hn hic (by rw [List.getElem?_take_of_lt hcl]; exact e2),
          lastWrite_last hn hic (by rw [List.getElem?_take_of_lt hcl]; exact e1)]
        simp only [Option.getD_some]
        rcases hv with hv | ⟨hv, ⟨i', h1, h2⟩ | ⟨d, h1, _⟩⟩
        · exact .inl hv
        · rw [hic] at h1
          cases h1
          exact .inr ⟨h2 j hj (getJointIds_one.mpr hi), hv⟩
        · omega
      · left
        rw [angleAfter_append, angleAfter_append, angleAfter_config, angleAfter_config, lastWrite_eq_none hm, lastWrite_eq_none hm]

/-- the base after two configurations that differ by full turns -/
theorem TurnedConfig.base (ht : TurnedConfig js m0 ids bt q q') (hq : q.length = ids.length + bt.dof) (b : Pose ℝ) :
    Pose.SamePlace (baseAfter b (cs ++ configCalls ids bt q)) (baseAfter b (cs ++ configCalls ids bt q')) := by
  rw [baseAfter_append, baseAfter_append, baseAfter_config, baseAfter_config]
  have hl := ht.length
  have hcol : ∀ d < bt.dof, ∃ v v', (q.drop ids.length)[d]? = some v ∧ (q'.drop ids.length)[d]? = some v' ∧
      (v' = v ∨ FullTurns v v' ∧ IsBaseAngle bt d) := by
    intro d hd
    obtain ⟨v, v', e1, e2, hv⟩ := ht.get (c := ids.length + d) (by omega)
    refine ⟨v, v', by rw [List.getElem?_drop]; exact e1, by rw [List.getElem?_drop]; exact e2, ?_⟩
    rcases hv with hv | ⟨hv, ⟨i, h1, _⟩ | ⟨d', h1, h2⟩⟩
    · exact .inl hv
    · have := (List.getElem?_eq_some_iff.mp h1).1
      omega
    · obtain rfl : d = d' := by omega
      exact .inr ⟨hv, h2⟩
  have l1 : (q.drop ids.length).length = bt.dof := by simp [hq]
  have l2 : (q'.drop ids.length).length = bt.dof := by simp [hl, hq]
  unfold basePart
  generalize q.drop ids.length = u at *
  generalize q'.drop ids.length = u' at *
  cases bt with
  | fixed => exact .refl _
  | planer =>
    obtain ⟨x, y, w, rfl⟩ := List.length_eq_three.mp l1
    obtain ⟨x', y', w', rfl⟩ := List.length_eq_three.mp l2
    have h0 := hcol 0 (by decide)
    have h1 := hcol 1 (by decide)
    have h2 := hcol 2 (by decide)
    simp [IsBaseAngle] at h0 h1 h2
    subst h0; subst h1
    refine ⟨rfl, Rot.fromRPY_turns (.refl _) (.refl _) ?_⟩
    rcases h2 with rfl | h2
    · exact .refl _
    · exact h2
  | floating =>
    match u, u', l1, l2 with
    | [x, y, z, r, p, w], [x', y', z', r', p', w'], _, _ =>
      have h0 := hcol 0 (by decide)
      have h1 := hcol 1 (by decide)
      have h2 := hcol 2 (by decide)
      have h3 := hcol 3 (by decide)
      have h4 := hcol 4 (by decide)
      have h5 := hcol 5 (by decide)
      simp [IsBaseAngle] at h0 h1 h2 h3 h4 h5
      subst h0; subst h1; subst h2
      refine ⟨rfl, Rot.fromRPY_turns ?_ ?_ ?_⟩
      · rcases h3 with rfl | h3
        · exact .refl _
        · exact h3
      · rcases h4 with rfl | h4
        · exact .refl _
        · exact h4
      · rcases h5 with rfl | h5
        · exact .refl _
        · exact h5

/-- the poses of a link in two configurations that differ by full turns -/
theorem Reach.turned (ht : TurnedConfig js m0 ids bt q q') (hq : q.length = ids.length + bt.dof)
    (h1 : Reach ls js m0 (cs ++ configCalls ids bt q) mk) (h2 : Reach ls js m0 (cs ++ configCalls ids bt q') mk')
    (hc : Reach ls js m0 cs mc) {l : Nat} (hl : l < mc.links.length) {T T' : Pose ℝ} {m1 m2 : KinModel ℝ}
    (e1 : getLinkPose l mk = .ok T m1) (e2 : getLinkPose l mk' = .ok T' m2) : Pose.SamePlace T T' := by
  obtain ⟨θ, θ', a1, a2, hθ⟩ := ht.angles (cs := cs) hq
  have s1 := configCalls_isSet ids bt q
  have s2 := configCalls_isSet ids bt q'
  obtain ⟨lk, hlk⟩ : ∃ lk, mc.links[l]? = some lk := ⟨_, List.getElem?_eq_getElem hl⟩
  have hn : mc.linkIds.find lk.name = some l := (hc.abs.inv.graph.linkNames _ _).mpr ⟨lk, hlk, rfl⟩
  have n1 : getLinkIds [lk.name] mk = .ok [l] mk := by
    obtain ⟨_, _, _, rfl⟩ := h1.sets_eq hc s1
    rw [getLinkIds_one]; exact hn
  have n2 : getLinkIds [lk.name] mk' = .ok [l] mk' := by
    obtain ⟨_, _, _, rfl⟩ := h2.sets_eq hc s2
    rw [getLinkIds_one]; exact hn
  obtain ⟨U, hU, hcase⟩ := C01_link_pose h1 a1 n1
  obtain ⟨U', hU', hcase'⟩ := C01_link_pose h2 a2 n2
  rw [allWelds_sets s1] at hU
  rw [allWelds_sets s2] at hU'
  obtain rfl : U = T := by
    rcases hcase with ⟨_, f⟩ | ⟨⟨_, f⟩, _⟩ <;> rw [e1] at f <;> cases f
    rfl
  obtain rfl : U' = T' := by
    rcases hcase' with ⟨_, f⟩ | ⟨⟨_, f⟩, _⟩ <;> rw [e2] at f <;> cases f
    rfl
  obtain ⟨V, hV, hs⟩ := WorldPose.turns hθ (ht.base hq _) ((hU U).mpr rfl)
  rw [(hU' V).mp hV] at hs
  exact hs

/-- **C109.** Full turns of joints and base angles do not change the answers of `solve_fk`: if configuration `k` of
the second batch is configuration `k` of the first one except that entries of turning joints and base angles may
differ by multiples of `2π`, then the returned positions are the same, the returned quaternions are the same up to
the sign of all four numbers, the returned roll and pitch are the same, and so is the yaw away from the singularity
(close to it the yaw may differ by a multiple of `2π`). -/
theorem C109_solve_fk (hr : PyReach ls js m0 h cs s) (hf : Shallow ls js m0 cs) {qs qs' : QArg ℝ}
    (hc : c0.Fits s.robot.links.length) (ha : FkArgs m0 s qs es ids bt) (ha' : FkArgs m0 s qs' es ids bt)
    (huc : bt ≠ .fixed ∨ uc = false)
    (hne : wj = true → (∃ r ∈ ls, r.inertial.isSome) ∨ weldsAfter (names0 m0) cs ≠ []) :
    ∃ P J s1 P' J' s2, pySolveFk qs es ids rt bt wj uc (s.withCache c0) = .ok (P, J) s1 ∧
      pySolveFk qs' es ids rt bt wj uc (s.withCache c0) = .ok (P', J') s2 ∧
      ∀ (k j : Nat) (q q' : List ℝ), qs.rows[k]? = some q → qs'.rows[k]? = some q' → j < es.length →
        TurnedConfig js m0 ids bt q q' →
        (∀ c < 3, P'.f (k * es.length + j) c = P.f (k * es.length + j) c) ∧
        (rt = .xyzw → (∀ c, 3 ≤ c → c < 7 → P'.f (k * es.length + j) c = P.f (k * es.length + j) c) ∨
          (∀ c, 3 ≤ c → c < 7 → P'.f (k * es.length + j) c = -P.f (k * es.length + j) c)) ∧
        (rt = .rpy → P'.f (k * es.length + j) 3 = P.f (k * es.length + j) 3 ∧
          P'.f (k * es.length + j) 4 = P.f (k * es.length + j) 4 ∧
          FullTurns (P.f (k * es.length + j) 5) (P'.f (k * es.length + j) 5) ∧
          (|Real.sin (P.f (k * es.length + j) 4)| < 99999 / 100000 →
            P'.f (k * es.length + j) 5 = P.f (k * es.length + j) 5)) := by
  obtain ⟨mc, hat⟩ := hr.at
  obtain ⟨P, J, s1, _, e, _, hres⟩ := (hat.withCache hc).pySolveFk (rt := rt) (wj := wj) (uc := uc)
    (qs := qs) (es := es) hf ⟨ha.notFlat, ha.nonempty, ha.shape, ha.joints, ha.links⟩ huc hne
  obtain ⟨P', J', s2, _, e', _, hres'⟩ := (hat.withCache hc).pySolveFk (rt := rt) (wj := wj) (uc := uc)
    (qs := qs') (es := es) hf ⟨ha'.notFlat, ha'.nonempty, ha'.shape, ha'.joints, ha'.links⟩ huc hne
  refine ⟨P, J, s1, P', J', s2, e, e', ?_⟩
  intro k j q q' hk hk' hj ht
  have hjl : es[j]? = some es[j] := by simp [hj]
  have hql := ha.shape q (List.mem_of_getElem? hk)
  obtain ⟨mk, hmk⟩ := hat.reach.config ha.joints hql
  obtain ⟨mk', hmk'⟩ := hat.reach.config ha.joints (ha'.shape q' (List.mem_of_getElem? hk'))
  obtain ⟨T, m1, eT, hrow⟩ := hres.pose k j _ q mk hk hjl hmk
  obtain ⟨T', m2, eT', hrow'⟩ := hres'.pose k j _ q' mk' hk' hjl hmk'
  have hs := Reach.turned ht hql hmk hmk' hat.reach
    (lt_of_lt_of_eq (ha.links es[j] (by simp)) (congrArg List.length hat.links)) eT eT'
  obtain ⟨x1, x2, x3, x4⟩ := hrow
  obtain ⟨y1, y2, y3, y4⟩ := hrow'
  have hp := hs.pos
  refine ⟨?_, ?_, ?_⟩
  · intro c hc3
    match c, hc3 with
    | 0, _ => rw [x1, y1, hp]
    | 1, _ => rw [x2, y2, hp]
    | 2, _ => rw [x3, y3, hp]
  · rintro rfl
    obtain ⟨a1, a2, a3, a4⟩ := x4
    obtain ⟨b1, b2, b3, b4⟩ := y4
    rcases hs.rot with hr' | hr'
    · left
      intro c c3 c7
      match c, c3, c7 with
      | 3, _, _ => rw [a1, b1, hr']
      | 4, _, _ => rw [a2, b2, hr']
      | 5, _, _ => rw [a3, b3, hr']
      | 6, _, _ => rw [a4, b4, hr']
    · right
      intro c c3 c7
      match c, c3, c7 with
      | 3, _, _ => rw [a1, b1, hr']; rfl
      | 4, _, _ => rw [a2, b2, hr']; rfl
      | 5, _, _ => rw [a3, b3, hr']; rfl
      | 6, _, _ => rw [a4, b4, hr']; rfl
  · rintro rfl
    obtain ⟨a1, a2, a3⟩ := x4
    obtain ⟨b1, b2, b3⟩ := y4
    obtain ⟨g1, g2, g3, g4⟩ := hs.rot.getRPY
    rw [a1, a2, a3, b1, b2, b3]
    exact ⟨g1, g2, g3, fun hb => g4 (Rot.band_of_pitch hb)⟩

/-- **C109, squared distances.** Full turns do not change the squared distances between links. -/
theorem C109_sqdists (hr : PyReach ls js m0 h cs s) (hf : Shallow ls js m0 cs) {qs qs' : List (List ℝ)}
    (hc : c0.Fits s.robot.links.length) (ha : DistArgs m0 s qs ps ids bt) (ha' : DistArgs m0 s qs' ps ids bt)
    (huc : uc = false ∨ bt ≠ .fixed)
    (hne : wj = true → (∃ r ∈ ls, r.inertial.isSome) ∨ weldsAfter (names0 m0) cs ≠ []) :
    ∃ V J s1 V' J' s2, pySqdists qs ps ids bt wj uc (s.withCache c0) = .ok (V, J) s1 ∧
      pySqdists qs' ps ids bt wj uc (s.withCache c0) = .ok (V', J') s2 ∧
      ∀ (k j : Nat) (q q' : List ℝ), qs[k]? = some q → qs'[k]? = some q' → j < ps.length →
        TurnedConfig js m0 ids bt q q' → V'.f (k * ps.length + j) 0 = V.f (k * ps.length + j) 0 := by
  obtain ⟨mc, hat⟩ := hr.at
  obtain ⟨V, J, s1, e, hres⟩ := hr.sqdists (wj := wj) hf hc ha huc hne
  obtain ⟨V', J', s2, e', hres'⟩ := hr.sqdists (wj := wj) hf hc ha' huc hne
  refine ⟨V, J, s1, V', J', s2, e, e', ?_⟩
  intro k j q q' hk hk' hj ht
  have hjl : ps[j]? = some ps[j] := by simp [hj]
  have hql := ha.shape q (List.mem_of_getElem? hk)
  obtain ⟨mk, hmk⟩ := hat.reach.config ha.joints hql
  obtain ⟨mk', hmk'⟩ := hat.reach.config ha.joints (ha'.shape q' (List.mem_of_getElem? hk'))
  obtain ⟨T1, a1, T2, a2, f1, f2, f3⟩ := hres.dist k j ps[j].1 ps[j].2 q mk hk hjl hmk
  obtain ⟨U1, b1, U2, b2, g1, g2, g3⟩ := hres'.dist k j ps[j].1 ps[j].2 q' mk' hk' hjl hmk'
  obtain ⟨l1, l2⟩ := ha.links ps[j] (by simp)
  have w1 := Reach.turned ht hql hmk hmk' hat.reach (lt_of_lt_of_eq l1 (congrArg List.length hat.links)) f1 g1
  have w2 := Reach.turned ht hql hmk hmk' hat.reach (lt_of_lt_of_eq l2 (congrArg List.length hat.links)) f2 g2
  rw [f3, g3, w1.pos, w2.pos]

theorem foldl_congr₂ {α : Type} {f : α → ℝ} {R : α → α → Prop} (hR : ∀ a b, R a b → f b = f a) {xs ys : List α}
    (h : List.Forall₂ R xs ys) : ∀ z : ℝ, ys.foldl (fun s x => s + f x) z = xs.foldl (fun s x => s + f x) z := by
  induction h with
  | nil => intro z; rfl
  | cons h1 _ ih => intro z; simp only [List.foldl_cons]; rw [hR _ _ h1, ih]

theorem comOf_samePlace {xs ys : List (Inertial ℝ × Pose ℝ)}
    (h : List.Forall₂ (fun x y => y.1 = x.1 ∧ Pose.SamePlace x.2 y.2) xs ys) : comOf ys = comOf xs := by
  have hb : ∀ x y : Inertial ℝ × Pose ℝ, y.1 = x.1 ∧ Pose.SamePlace x.2 y.2 → bodyCentre y = bodyCentre x := by
    rintro x y ⟨h1, h2⟩
    unfold bodyCentre
    rw [h1]
    exact (h2.transform (.refl _)).pos
  unfold comOf
  rw [foldl_congr₂ (f := fun x => x.1.mass) (fun x y hxy => by rw [hxy.1]) h,
    foldl_congr₂ (f := fun x => x.1.mass * (bodyCentre x).x) (fun x y hxy => by rw [hxy.1, hb x y hxy]) h,
    foldl_congr₂ (f := fun x => x.1.mass * (bodyCentre x).y) (fun x y hxy => by rw [hxy.1, hb x y hxy]) h,
    foldl_congr₂ (f := fun x => x.1.mass * (bodyCentre x).z) (fun x y hxy => by rw [hxy.1, hb x y hxy]) h]

theorem Bodies.turns {welds : Weld ℝ → Prop} {θ θ' : String → ℝ} {b b' : Pose ℝ} (hθ : ∀ j ∈ js, θ' j.name = θ j.name ∨
      (j.type = .revolute ∨ j.type = .continuous) ∧ FullTurns (θ j.name) (θ' j.name))
    (hb : Pose.SamePlace b b') {xs : List (Inertial ℝ × Pose ℝ)} (h : Bodies ls js welds θ b xs) :
    ∃ ys, Bodies ls js welds θ' b' ys ∧ comOf ys = comOf xs := by
  obtain ⟨sorted, h1, h2, h3⟩ := h
  suffices H : ∃ ys, List.Forall₂ (fun (r : RawLink ℝ) (x : Inertial ℝ × Pose ℝ) => r.inertial = some x.1 ∧
      WorldPose ls js welds θ' b' r.name x.2) (sorted.filter fun r => r.inertial.isSome) ys ∧
      List.Forall₂ (fun (x y : Inertial ℝ × Pose ℝ) => y.1 = x.1 ∧ Pose.SamePlace x.2 y.2) xs ys by
    obtain ⟨ys, a, b⟩ := H
    exact ⟨ys, ⟨sorted, h1, h2, a⟩, comOf_samePlace b⟩
  clear h1 h2
  generalize (sorted.filter fun r => r.inertial.isSome) = fl at h3
  induction h3 with
  | nil => exact ⟨[], .nil, .nil⟩
  | cons h1 _ ih =>
    obtain ⟨ys, a, b⟩ := ih
    obtain ⟨T', w1, w2⟩ := h1.2.turns hθ hb
    exact ⟨(_, T') :: ys, .cons ⟨h1.1, w1⟩ a, .cons ⟨rfl, w2⟩ b⟩

/-- **C109, centre of mass.** Full turns do not change the centre of mass, action forces included. (With a base, or
for one configuration right after `clear_cache`, as in C05.) -/
theorem C109_solve_com_fk {qs qs' : QArg ℝ} {act : Option (List Nat × List ℝ)} {s' : PyModel ℝ}
    (hr : PyReach ls js m0 h cs s) (hf : Shallow ls js m0 cs)
    (ha : ComArgs m0 s qs ids (act.getD ([], [])).1 (act.getD ([], [])).2 bt)
    (ha' : ComArgs m0 s qs' ids (act.getD ([], [])).1 (act.getD ([], [])).2 bt)
    (hc : (bt ≠ .fixed ∧ s' = s) ∨ (pyClearCache s = .ok () s' ∧ qs.rows.length = 1 ∧ qs'.rows.length = 1))
    (hne : wj = true → act ≠ none → (∃ r ∈ ls, r.inertial.isSome) ∨ weldsAfter (names0 m0) cs ≠ []) :
    ∃ C J s1 C' J' s2, pySolveComFk qs ids act bt wj s' = .ok (C, J) s1 ∧
      pySolveComFk qs' ids act bt wj s' = .ok (C', J') s2 ∧
      ∀ (k : Nat) (q q' : List ℝ), qs.rows[k]? = some q → qs'.rows[k]? = some q' → TurnedConfig js m0 ids bt q q' →
        ∀ r < 3, C'.f k r = C.f k r := by
  obtain ⟨C, J, s1, e, _, _, h1⟩ := C05_com_partial (wj := wj) hr hf ha (hc.imp_right fun a => ⟨a.1, a.2.1⟩) hne
  obtain ⟨C', J', s2, e', _, _, h2⟩ := C05_com_partial (wj := wj) hr hf ha' (hc.imp_right fun a => ⟨a.1, a.2.2⟩) hne
  refine ⟨C, J, s1, C', J', s2, e, e', ?_⟩
  intro k q q' hk hk' ht r hr3
  obtain ⟨mc, hat⟩ := hr.at
  have hql := ha.shape q (List.mem_of_getElem? hk)
  obtain ⟨θ, θ', a1, a2, hθ⟩ := ht.angles (cs := cs) hql
  obtain ⟨bs, Ts, hb, hT, hC⟩ := h1 k q θ hk a1
  obtain ⟨bs', Ts', hb', hT', hC'⟩ := h2 k q' θ' hk' a2
  have hB := ht.base (cs := cs) hql Pose.identity
  obtain ⟨ys, y1, y2⟩ := ((hb bs).mpr rfl).turns hθ hB
  rw [(hb' ys).mp y1] at y2
  have hTT : Ts'.map (fun T => T.position.coord r) = Ts.map (fun T => T.position.coord r) := by
    obtain ⟨mk', hmk'⟩ := hat.reach.config ha.joints (ha'.shape q' (List.mem_of_getElem? hk'))
    have hset := configCalls_isSet ids bt q'
    generalize (act.getD ([], [])).1 = al at hT hT'
    clear hC hC' h1 h2 e e'
    induction hT generalizing Ts' with
    | nil => cases hT'; rfl
    | cons u1 _ ih =>
      cases hT' with
      | cons v1 v2 =>
        obtain ⟨n, g1, g2⟩ := u1
        obtain ⟨n', g3, g4⟩ := v1
        have en : n' = n := by
          obtain ⟨lk, f1, f2⟩ := hmk'.link (hat.getLinkIds_config g1 hmk' hset)
          obtain ⟨lk', f3, f4⟩ := hmk'.link (hat.getLinkIds_config g3 hmk' hset)
          rw [f1] at f3
          cases f3
          rw [← f2, ← f4]
        subst en
        obtain ⟨V, w1, w2⟩ := g2.turns hθ hB
        obtain ⟨U, hU, _⟩ := C01_link_pose hmk' a2 (hat.getLinkIds_config g1 hmk' hset)
        rw [allWelds_sets hset] at hU
        rw [(hU _).mp w1] at w2
        rw [List.map_cons, List.map_cons, ih _ v2, (hU _).mp g4, w2.pos]
  rw [hC r hr3, hC' r hr3, y2, hTT]

end

namespace Example

/-! ### The hypotheses are met -/

/-- the configurations of `a1` after full turns of the joint "turn" and of the base -/
noncomputable def a1t : Arr2 ℝ := ⟨5, [[2, 1/2 + 2 * Real.pi, 1, 2, 3 - 6 * Real.pi], [0, 1 - 4 * Real.pi, 0, 0, 4]], by simp⟩

theorem a1t_args {s : PyModel ℝ} (hs : s.robot.links.length = 6) : FkArgs m0 s (.nd2 a1t) [3, 0] [0, 1] .planer := by
  refine ⟨by simp, by simp [QArg.rows, a1t], by simp [QArg.rows, a1t, BaseType.dof], ?_, ?_⟩
  · rw [joints_length]; simp
  · rw [hs]; simp

theorem turn_turns : ∃ i, ([0, 1] : List Nat)[1]? = some i ∧
    ∀ j ∈ js, getJointIds [j.name] m0 = .ok [i] m0 → j.type = .revolute ∨ j.type = .continuous := by
  refine ⟨1, rfl, ?_⟩
  intro j hj hi
  rw [getJointIds_one, jointIds] at hi
  simp only [js, List.mem_cons, List.not_mem_nil, or_false] at hj
  rcases hj with rfl | rfl | rfl
  · simp [turn]
  · simp [slide] at hi
  · simp [weld] at hi

theorem a1_turned (k : Nat) (q q' : List ℝ) (h1 : a1.rows[k]? = some q) (h2 : a1t.rows[k]? = some q') :
    TurnedConfig js m0 [0, 1] .planer q q' := by
  match k, h1, h2 with
  | 0, h1, h2 =>
    cases h1; cases h2
    refine ⟨rfl, ?_⟩
    intro c v v' e1 e2
    match c, e1, e2 with
    | 0, e1, e2 => cases e1; cases e2; exact .inl rfl
    | 1, e1, e2 => cases e1; cases e2; exact .inr ⟨⟨1, by push_cast; ring⟩, .inl turn_turns⟩
    | 2, e1, e2 => cases e1; cases e2; exact .inl rfl
    | 3, e1, e2 => cases e1; cases e2; exact .inl rfl
    | 4, e1, e2 => cases e1; cases e2; exact .inr ⟨⟨-3, by push_cast; ring⟩, .inr ⟨2, rfl, .inl ⟨rfl, rfl⟩⟩⟩
  | 1, h1, h2 =>
    cases h1; cases h2
    refine ⟨rfl, ?_⟩
    intro c v v' e1 e2
    match c, e1, e2 with
    | 0, e1, e2 => cases e1; cases e2; exact .inl rfl
    | 1, e1, e2 => cases e1; cases e2; exact .inr ⟨⟨-2, by push_cast; ring⟩, .inl turn_turns⟩
    | 2, e1, e2 => cases e1; cases e2; exact .inl rfl
    | 3, e1, e2 => cases e1; cases e2; exact .inl rfl
    | 4, e1, e2 => cases e1; cases e2; exact .inl rfl

example := C109_solve_fk (rt := .rpy) (uc := true) (wj := true) s1_reach s1_shallow bad_fits (a1_args s1_links) (a1t_args s1_links)
  (.inl (by decide)) (fun _ => .inl inertial)

example := C109_sqdists (uc := true) (wj := true) (qs' := a1t.rows) s1_reach s1_shallow bad_fits (distArgs s1_links)
  ⟨by simp, by simp [a1t, BaseType.dof], (distArgs s1_links).joints, (distArgs s1_links).links⟩ (.inr (by decide)) (fun _ => .inl inertial)

example := C109_solve_com_fk (act := some ([3], [2])) (wj := true) (qs' := .nd2 a1t) s1_reach s1_shallow (comArgs_planar s1_links)
  ⟨by simp, by simp [QArg.rows, a1t], by simp [QArg.rows, a1t, BaseType.dof], (comArgs_planar s1_links).joints,
    (comArgs_planar s1_links).links, rfl⟩
  (.inl ⟨by simp, rfl⟩) (fun _ _ => .inl inertial)

end Example
end Tinyfk
