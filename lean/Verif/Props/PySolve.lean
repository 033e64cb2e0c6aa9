import Verif.Props.SolveFk

/-!
# Properties: `solve_fk` from Python

C02, C03, C37, C39, C40.
-/

set_option linter.unusedSectionVars false

namespace Tinyfk

open Scalar

section
variable {K : Type} [Scalar K]
  {ls : List (RawLink K)} {js : List (RawJoint K)} {m0 : KinModel K} {cs : List (Call K)} {mc m : KinModel K}
  {h : List (PyCall K)} {s : PyModel K} {qs : QArg K} {es ids : List Nat} {rt : RotType} {bt : BaseType}
  {wj : Bool} {c : SizedCache (Pose K)}

/-- ids of links do not change under setters -/
theorem At.getLinkIds_config (ha : At ls js m0 cs mc m) {n : String} {l : Nat}
    (hn : getLinkIds [n] m = .ok [l] m) {a : List (Call K)} {mk : KinModel K}
    (hk : Reach ls js m0 (cs ++ a) mk) (hs : ∀ c ∈ a, c.IsSet) : getLinkIds [n] mk = .ok [l] mk := by
  obtain ⟨θ, p, c', rfl⟩ := hk.sets_eq ha.reach hs
  obtain ⟨⟨st, cc, rfl⟩, _⟩ := ha.same
  rw [getLinkIds_one] at hn ⊢
  exact hn

/-- the rows of a result are the poses of the described robot -/
theorem FkResult.world {rows : List (List K)} {P J : Mat K}
    (hr : FkResult ls js m0 cs rows es ids rt bt wj P J) (ha : At ls js m0 cs mc m)
    (hq : ∀ q ∈ rows, q.length = ids.length + bt.dof) (hi : ∀ i ∈ ids, i < m0.joints.length)
    (k j l : Nat) (q : List K) (n : String) (θ : String → K)
    (hk : rows[k]? = some q) (hj : es[j]? = some l) (hn : getLinkIds [n] m = .ok [l] m)
    (hθ : AnglesAfter m0 (cs ++ configCalls ids bt q) θ)
    : ∃ T, (∀ T', WorldPose ls js (AllWelds ls m0 cs) θ
        (baseAfter Pose.identity (cs ++ configCalls ids bt q)) n T' ↔ T' = T) ∧
      PoseRow rt P (k * es.length + j) T := by
  obtain ⟨mk, hmk⟩ := ha.reach.config hi (hq q (List.mem_of_getElem? hk))
  obtain ⟨T', mk', e, hrow⟩ := hr.pose k j l q mk hk hj hmk
  have hs := configCalls_isSet ids bt q
  obtain ⟨T'', hu, hcase⟩ := C01_link_pose hmk hθ (ha.getLinkIds_config hn hmk hs)
  rw [allWelds_sets hs] at hu
  refine ⟨T'', hu, ?_⟩
  rcases hcase with ⟨m', e'⟩ | ⟨⟨u, e'⟩, _⟩
  · rw [e] at e'; cases e'; exact hrow
  · rw [e] at e'; cases e'

/-- a pose row fixes the entries -/
theorem PoseRow.entry {P Q : Mat K} {r r' : Nat} {T : Pose K} (h1 : PoseRow rt P r T) (h2 : PoseRow rt Q r' T)
    {c : Nat} (hc : c < rt.width) : P.f r c = Q.f r' c := by
  obtain ⟨a0, a1, a2, a3⟩ := h1
  obtain ⟨b0, b1, b2, b3⟩ := h2
  match c with
  | 0 => rw [a0, b0]
  | 1 => rw [a1, b1]
  | 2 => rw [a2, b2]
  | 3 => cases rt with
    | ignore => simp [RotType.width] at hc
    | rpy => rw [a3.1, b3.1]
    | xyzw => rw [a3.1, b3.1]
  | 4 => cases rt with
    | ignore => simp [RotType.width] at hc
    | rpy => rw [a3.2.1, b3.2.1]
    | xyzw => rw [a3.2.1, b3.2.1]
  | 5 => cases rt with
    | ignore => simp [RotType.width] at hc
    | rpy => rw [a3.2.2, b3.2.2]
    | xyzw => rw [a3.2.2.1, b3.2.2.1]
  | 6 => cases rt with
    | ignore => simp [RotType.width] at hc
    | rpy => simp [RotType.width] at hc
    | xyzw => rw [a3.2.2.2, b3.2.2.2]
  | c + 7 => cases rt <;> simp [RotType.width] at hc <;> omega

theorem div_split {r n w : Nat} (h : r < n * w) : ∃ k j, k < n ∧ j < w ∧ r = k * w + j := by
  have hw : 0 < w := Nat.pos_of_ne_zero (by rintro rfl; simp at h)
  refine ⟨r / w, r % w, (Nat.div_lt_iff_lt_mul hw).mpr h, Nat.mod_lt _ hw, ?_⟩
  rw [Nat.mul_comm]; exact (Nat.div_add_mod r w).symm

/-- Two results agree on the configurations on which their inputs agree. -/
theorem FkResult.agree {rows rows' : List (List K)} {P J P' J' : Mat K} {bt' : BaseType}
    (h1 : FkResult ls js m0 cs rows es ids rt bt wj P J) (h2 : FkResult ls js m0 cs rows' es ids rt bt' wj P' J')
    {k k' : Nat} {q q' : List K} (hk : rows[k]? = some q) (hk' : rows'[k']? = some q')
    (hfix : (bt != .fixed) = (bt' != .fixed))
    (hcfg : configCalls ids bt q = configCalls ids bt' q') {mk : KinModel K}
    (hmk : Reach ls js m0 (cs ++ configCalls ids bt q) mk) {j l : Nat} (hj : es[j]? = some l) :
    (∀ c < rt.width, P.f (k * es.length + j) c = P'.f (k' * es.length + j) c) ∧
    (wj = true → ∀ r < rt.width, ∀ c c', c < ids.length + bt.dof → c' < ids.length + bt'.dof →
      fullCol ids.length bt c = fullCol ids.length bt' c' →
      J.f ((k * es.length + j) * rt.width + r) c = J'.f ((k' * es.length + j) * rt.width + r) c') := by
  refine ⟨?_, ?_⟩
  · intro c hc
    obtain ⟨T, m', e, hr⟩ := h1.pose k j l q mk hk hj hmk
    obtain ⟨T', m'', e', hr'⟩ := h2.pose k' j l q' mk hk' hj (hcfg ▸ hmk)
    rw [e] at e'; cases e'
    exact hr.entry hr' hc
  · intro hw r hr c c' hc hc' hcc
    obtain ⟨B, m', e, _, _, f⟩ := h1.jac hw k j l q mk hk hj hmk
    obtain ⟨B', m'', e', _, _, f'⟩ := h2.jac hw k' j l q' mk hk' hj (hcfg ▸ hmk)
    rw [← hfix, e] at e'; cases e'
    rw [f r hr c hc, f' r hr c' hc', hcc]

/-- **C02.** `solve_fk(..., use_cache=False)` on a robot with any past of Python calls, and with any
contents of the cache: the call returns, and row `k * n_link + j` of `P` is the pose of link
`elinks[j]` in the described robot, with the listed joints (and the base) where configuration `k`
puts them and everything else as the past left it. (That pose is unique.) -/
theorem C02_solve_fk (hr : PyReach ls js m0 h cs s) (hf : Shallow ls js m0 cs)
    (hc : c.Fits s.robot.links.length) (ha : FkArgs m0 s qs es ids bt)
    (hne : wj = true → (∃ r ∈ ls, r.inertial.isSome) ∨ weldsAfter (names0 m0) cs ≠ []) :
    ∃ P J s', pySolveFk qs es ids rt bt wj false (s.withCache c) = .ok (P, J) s' ∧
      P.rows = qs.rows.length * es.length ∧ P.cols = rt.width ∧
      ∀ (k j l : Nat) (q : List K) (n : String) (θ : String → K),
        qs.rows[k]? = some q → es[j]? = some l → getLinkIds [n] s.robot = .ok [l] s.robot →
        AnglesAfter m0 (cs ++ configCalls ids bt q) θ →
        ∃ T, (∀ T', WorldPose ls js (AllWelds ls m0 cs) θ
            (baseAfter Pose.identity (cs ++ configCalls ids bt q)) n T' ↔ T' = T) ∧
          PoseRow rt P (k * es.length + j) T := by
  obtain ⟨mc, hat⟩ := hr.at
  obtain ⟨P, J, s', mc', e, _, hres⟩ := (hat.withCache hc).pySolveFk (rt := rt) (wj := wj) (uc := false)
    (qs := qs) (es := es) hf ⟨ha.notFlat, ha.nonempty, ha.shape, ha.joints, ha.links⟩ (.inr rfl) hne
  exact ⟨P, J, s', e, hres.pRows, hres.pCols, fun k j l q n θ h1 h2 h3 h4 =>
    hres.world hat ha.shape ha.joints k j l q n θ h1 h2 h3 h4⟩

/-- **C03.** With a planar or floating base, `solve_fk` returns the poses of the described robot (as in
C02) also for `use_cache=True`, whatever the cache holds, and `P` and `J` are the same for both. -/
theorem C03_solve_fk_base (hr : PyReach ls js m0 h cs s) (hf : Shallow ls js m0 cs)
    (hc : c.Fits s.robot.links.length) (ha : FkArgs m0 s qs es ids bt) (hbt : bt ≠ .fixed)
    (hne : wj = true → (∃ r ∈ ls, r.inertial.isSome) ∨ weldsAfter (names0 m0) cs ≠ []) :
    ∃ P J s1 P' J' s2, pySolveFk qs es ids rt bt wj true (s.withCache c) = .ok (P, J) s1 ∧
      pySolveFk qs es ids rt bt wj false (s.withCache c) = .ok (P', J') s2 ∧
      P.Same P' ∧ J.Same J' ∧
      ∀ (k j l : Nat) (q : List K) (n : String) (θ : String → K),
        qs.rows[k]? = some q → es[j]? = some l → getLinkIds [n] s.robot = .ok [l] s.robot →
        AnglesAfter m0 (cs ++ configCalls ids bt q) θ →
        ∃ T, (∀ T', WorldPose ls js (AllWelds ls m0 cs) θ
            (baseAfter Pose.identity (cs ++ configCalls ids bt q)) n T' ↔ T' = T) ∧
          PoseRow rt P (k * es.length + j) T := by
  obtain ⟨mc, hat⟩ := hr.at
  have ha' : FkArgs m0 (s.withCache c) qs es ids bt := ⟨ha.notFlat, ha.nonempty, ha.shape, ha.joints, ha.links⟩
  obtain ⟨P, J, s1, _, e1, _, h1⟩ := (hat.withCache hc).pySolveFk (rt := rt) (wj := wj) (uc := true)
    hf ha' (.inl hbt) hne
  obtain ⟨P', J', s2, _, e2, _, h2⟩ := (hat.withCache hc).pySolveFk (rt := rt) (wj := wj) (uc := false)
    hf ha' (.inr rfl) hne
  have key : ∀ k j, k < qs.rows.length → j < es.length → ∃ q l mk, qs.rows[k]? = some q ∧ es[j]? = some l ∧
      Reach ls js m0 (cs ++ configCalls ids bt q) mk := by
    intro k j hk hj
    obtain ⟨mk, hmk⟩ := hat.reach.config (q := qs.rows[k]) (bt := bt) ha.joints (ha.shape _ (by simp))
    exact ⟨_, _, mk, List.getElem?_eq_getElem hk, List.getElem?_eq_getElem hj, hmk⟩
  refine ⟨P, J, s1, P', J', s2, e1, e2, ⟨h1.pRows.trans h2.pRows.symm, h1.pCols.trans h2.pCols.symm, ?_⟩,
    ⟨h1.jRows.trans h2.jRows.symm, h1.jCols.trans h2.jCols.symm, ?_⟩,
    fun k j l q n θ a1 a2 a3 a4 => h1.world hat ha.shape ha.joints k j l q n θ a1 a2 a3 a4⟩
  · intro r hr c hc
    rw [h1.pRows] at hr
    rw [h1.pCols] at hc
    obtain ⟨k, j, hk, hj, rfl⟩ := div_split hr
    obtain ⟨q, l, mk, a1, a2, a3⟩ := key k j hk hj
    exact (h1.agree h2 a1 a1 rfl rfl a3 a2).1 c hc
  · intro r hr c hc
    cases wj with
    | false =>
      rw [h1.noJac rfl r hr c hc, h2.noJac rfl r (by rw [h2.jRows, ← h1.jRows]; exact hr) c
        (by rw [h2.jCols, ← h1.jCols]; exact hc)]
    | true =>
      rw [h1.jRows] at hr
      rw [h1.jCols] at hc
      obtain ⟨kj, r', hkj, hr', rfl⟩ := div_split hr
      obtain ⟨k, j, hk, hj, rfl⟩ := div_split hkj
      obtain ⟨q, l, mk, a1, a2, a3⟩ := key k j hk hj
      exact (h1.agree h2 a1 a1 rfl rfl a3 a2).2 rfl r' hr' c c hc hc rfl

/-- **C39.** Shapes and layout: `P` has one row of width 3, 6 or 7 per configuration and link,
configurations outermost; `J` has one block of 3, 6 or 7 rows for each of these, in the same order, and
one column per listed joint and base coordinate; each block is what `get_jacobian` returns for that
link on a robot with the same past put in that configuration alone; without `with_jacobian`, `J` is
zero. -/
theorem C39_layout (hr : PyReach ls js m0 h cs s) (hf : Shallow ls js m0 cs)
    (hc : c.Fits s.robot.links.length) (ha : FkArgs m0 s qs es ids bt)
    (hne : wj = true → (∃ r ∈ ls, r.inertial.isSome) ∨ weldsAfter (names0 m0) cs ≠ []) :
    ∃ P J s', pySolveFk qs es ids rt bt wj false (s.withCache c) = .ok (P, J) s' ∧
      FkResult ls js m0 cs qs.rows es ids rt bt wj P J ∧
      ∀ q ∈ qs.rows, ∃ mk, Reach ls js m0 (cs ++ configCalls ids bt q) mk := by
  obtain ⟨mc, hat⟩ := hr.at
  obtain ⟨P, J, s', mc', e, _, hres⟩ := (hat.withCache hc).pySolveFk (rt := rt) (wj := wj) (uc := false)
    (qs := qs) (es := es) hf ⟨ha.notFlat, ha.nonempty, ha.shape, ha.joints, ha.links⟩ (.inr rfl) hne
  exact ⟨P, J, s', e, hres, fun q hq => hat.reach.config ha.joints (ha.shape q hq)⟩

theorem planarToFloat_length {n : Nat} {q : List K} (hq : q.length = n + 3) :
    (planarToFloat n q).length = n + 6 := by
  simp [planarToFloat]; omega

theorem planarToFloat_calls {q : List K} (hq : q.length = ids.length + 3) :
    configCalls ids .floating (planarToFloat ids.length q) = configCalls ids .planer q := by
  obtain ⟨x, y, w, hd⟩ := drop_three hq
  have hs : q = q.take ids.length ++ [x, y, w] := by rw [← hd, List.take_append_drop]
  have hl : (q.take ids.length).length = ids.length := by simp; omega
  have hp : planarToFloat ids.length q = q.take ids.length ++ [x, y, 0, 0, 0, w] := by
    unfold planarToFloat
    have h1 : q.take (ids.length + 2) = q.take ids.length ++ [x, y] := by
      conv_lhs => rw [hs]
      rw [List.take_append, hl]; simp
    have h2 : q.drop (ids.length + 2) = [w] := by
      conv_lhs => rw [hs]
      rw [List.drop_append, hl]; simp
    rw [h1, h2]; simp
  unfold configCalls
  have h3 : (planarToFloat ids.length q).take ids.length = q.take ids.length := by
    rw [hp, List.take_append, hl]; simp
  have h4 : (planarToFloat ids.length q).drop ids.length = [x, y, 0, 0, 0, w] := by
    rw [hp, List.drop_append, hl]; simp
  simp only [h3, basePart, h4, hd]

/-- **C37.** A planar call on `(joints, x, y, yaw)` returns the same `P` as the floating call on
`(joints, x, y, 0, 0, 0, yaw)`, and its `J` has the columns of the joints, of x, of y and of yaw of the
floating `J`, in this order. -/
theorem C37_planar {a b : Arr2 K} {uc uc' : Bool} (hr : PyReach ls js m0 h cs s) (hf : Shallow ls js m0 cs)
    (hc : c.Fits s.robot.links.length) (ha : FkArgs m0 s (.nd2 a) es ids .planer)
    (hb : b.rows = a.rows.map (planarToFloat ids.length))
    (hne : wj = true → (∃ r ∈ ls, r.inertial.isSome) ∨ weldsAfter (names0 m0) cs ≠ []) :
    ∃ P J s1 P' J' s2, pySolveFk (.nd2 a) es ids rt .planer wj uc (s.withCache c) = .ok (P, J) s1 ∧
      pySolveFk (.nd2 b) es ids rt .floating wj uc' (s.withCache c) = .ok (P', J') s2 ∧
      P.Same P' ∧ J.rows = J'.rows ∧ J.cols = ids.length + 3 ∧ J'.cols = ids.length + 6 ∧
      ∀ r < J.rows, (∀ i < ids.length + 2, J.f r i = J'.f r i) ∧
        J.f r (ids.length + 2) = J'.f r (ids.length + 5) := by
  obtain ⟨mc, hat⟩ := hr.at
  have ha' : FkArgs m0 (s.withCache c) (.nd2 a) es ids .planer :=
    ⟨ha.notFlat, ha.nonempty, ha.shape, ha.joints, ha.links⟩
  have hb' : FkArgs m0 (s.withCache c) (.nd2 b) es ids .floating := by
    refine ⟨by simp, ?_, ?_, ha.joints, ha.links⟩
    · simp only [QArg.rows, hb, ne_eq, List.map_eq_nil_iff]; exact ha.nonempty
    · intro q hq
      simp only [QArg.rows, hb, List.mem_map] at hq
      obtain ⟨q0, h0, rfl⟩ := hq
      exact planarToFloat_length (ha.shape q0 h0)
  obtain ⟨P, J, s1, _, e1, _, h1⟩ := (hat.withCache hc).pySolveFk (rt := rt) (wj := wj) (uc := uc)
    hf ha' (.inl (by simp)) hne
  obtain ⟨P', J', s2, _, e2, _, h2⟩ := (hat.withCache hc).pySolveFk (rt := rt) (wj := wj) (uc := uc')
    hf hb' (.inl (by simp)) hne
  have hlen : b.rows.length = a.rows.length := by rw [hb]; simp
  have key : ∀ k j, k < a.rows.length → j < es.length → ∃ q l mk, a.rows[k]? = some q ∧ es[j]? = some l ∧
      Reach ls js m0 (cs ++ configCalls ids .planer q) mk ∧
      b.rows[k]? = some (planarToFloat ids.length q) ∧
      configCalls ids .planer q = configCalls ids .floating (planarToFloat ids.length q) := by
    intro k j hk hj
    have hs := ha.shape (a.rows[k]) (by simp [QArg.rows])
    obtain ⟨mk, hmk⟩ := hat.reach.config (q := a.rows[k]) (bt := .planer) ha.joints hs
    refine ⟨_, _, mk, List.getElem?_eq_getElem hk, List.getElem?_eq_getElem hj, hmk, ?_,
      (planarToFloat_calls hs).symm⟩
    rw [hb, List.getElem?_map, List.getElem?_eq_getElem hk]; rfl
  refine ⟨P, J, s1, P', J', s2, e1, e2, ⟨?_, h1.pCols.trans h2.pCols.symm, ?_⟩, ?_, h1.jCols, h2.jCols, ?_⟩
  · rw [h1.pRows, h2.pRows]; simp only [QArg.rows, hlen]
  · intro r hr c hc
    rw [h1.pRows] at hr
    rw [h1.pCols] at hc
    obtain ⟨k, j, hk, hj, rfl⟩ := div_split hr
    obtain ⟨q, l, mk, a1, a2, a3, a4, a5⟩ := key k j hk hj
    exact (h1.agree h2 a1 a4 rfl a5 a3 a2).1 c hc
  · rw [h1.jRows, h2.jRows]; simp only [QArg.rows, hlen]
  · intro r hr
    have hr0 := hr
    cases wj with
    | false =>
      have hr2 : r < J'.rows := by rw [h2.jRows]; rw [h1.jRows] at hr; simpa only [QArg.rows, hlen] using hr
      have hz1 := h1.noJac rfl r hr
      have hz2 := h2.noJac rfl r hr2
      rw [h1.jCols] at hz1
      rw [h2.jCols] at hz2
      simp only [BaseType.dof] at hz1 hz2
      exact ⟨fun i hi => by rw [hz1 i (by omega), hz2 i (by omega)],
        by rw [hz1 _ (by omega), hz2 _ (by omega)]⟩
    | true =>
      rw [h1.jRows] at hr
      obtain ⟨kj, r', hkj, hr', rfl⟩ := div_split hr
      obtain ⟨k, j, hk, hj, rfl⟩ := div_split hkj
      obtain ⟨q, l, mk, a1, a2, a3, a4, a5⟩ := key k j hk hj
      have := (h1.agree h2 a1 a4 rfl a5 a3 a2).2 rfl r' hr'
      simp only [BaseType.dof] at this
      refine ⟨fun i hi => this i i (by omega) (by omega) ?_, this _ _ (by omega) (by omega) ?_⟩
      · simp only [fullCol]; rw [if_neg (by omega)]
      · simp [fullCol]

theorem batchCalls_last (ids : List Nat) (bt : BaseType) {rows : List (List K)} {q : List K}
    (hl : rows.getLast? = some q) : batchCalls ids bt rows =
      batchCalls ids bt rows.dropLast ++ configCalls ids bt q := by
  rw [List.getLast?_eq_some_iff] at hl
  obtain ⟨ys, rfl⟩ := hl
  simp [batchCalls]

/-- **C40.** Solving a batch gives, row for row and block for block, what solving each configuration in
its own call gives (started from the same state, whatever is cached there), and leaves joints and base
where the last configuration alone would have left them. -/
theorem C40_batch (hr : PyReach ls js m0 h cs s) (hf : Shallow ls js m0 cs)
    (hc : c.Fits s.robot.links.length) (ha : FkArgs m0 s qs es ids bt)
    (hne : wj = true → (∃ r ∈ ls, r.inertial.isSome) ∨ weldsAfter (names0 m0) cs ≠ []) :
    ∃ P J s', pySolveFk qs es ids rt bt wj false (s.withCache c) = .ok (P, J) s' ∧
      (∀ (k : Nat) q, qs.rows[k]? = some q → ∀ c', c'.Fits s.robot.links.length →
        ∃ P1 J1 s1, pySolveFk (.nd1 q) es ids rt bt wj false (s.withCache c') = .ok (P1, J1) s1 ∧
          P1.rows = es.length ∧ J1.rows = es.length * rt.width ∧ P1.cols = P.cols ∧ J1.cols = J.cols ∧
          (∀ r < P1.rows, ∀ c < P.cols, P.f (k * es.length + r) c = P1.f r c) ∧
          ∀ r < J1.rows, ∀ c < J.cols, J.f (k * (es.length * rt.width) + r) c = J1.f r c) ∧
      ∀ q, qs.rows.getLast? = some q →
        s'.robot.base = baseAfter Pose.identity (cs ++ configCalls ids bt q) ∧
        ∀ i < m0.joints.length,
          getJointAngles [i] s'.robot = .ok [angleAfter i 0 (cs ++ configCalls ids bt q)] s'.robot := by
  obtain ⟨mc, hat⟩ := hr.at
  obtain ⟨P, J, s', mc', e, hat', hres⟩ := (hat.withCache hc).pySolveFk (rt := rt) (wj := wj) (uc := false)
    (qs := qs) (es := es) hf ⟨ha.notFlat, ha.nonempty, ha.shape, ha.joints, ha.links⟩ (.inr rfl) hne
  refine ⟨P, J, s', e, ?_, ?_⟩
  · intro k q hk c' hc'
    have hs := ha.shape q (List.mem_of_getElem? hk)
    obtain ⟨P1, J1, s1, _, e1, _, h1⟩ := (hat.withCache hc').pySolveFk (rt := rt) (wj := wj) (uc := false)
      (qs := .nd1 q) (es := es) hf ⟨by simp, by simp [QArg.rows], by simpa [QArg.rows] using hs, ha.joints, ha.links⟩
      (.inr rfl) hne
    obtain ⟨mk, hmk⟩ := hat.reach.config ha.joints hs
    have d1 := h1.pRows
    have d2 := h1.jRows
    simp only [QArg.rows, List.length_singleton, Nat.one_mul] at d1 d2
    refine ⟨P1, J1, s1, e1, d1, d2, h1.pCols.trans hres.pCols.symm, h1.jCols.trans hres.jCols.symm, ?_, ?_⟩
    · intro r hr c hc
      rw [d1] at hr
      have := (hres.agree h1 (k' := 0) hk rfl rfl rfl hmk (List.getElem?_eq_getElem hr)).1 c
        (by rw [← hres.pCols]; exact hc)
      simpa using this
    · intro r hr c hc
      have hkl := (List.getElem?_eq_some_iff.mp hk).1
      cases wj with
      | false =>
        rw [h1.noJac rfl r hr c (by rw [h1.jCols, ← hres.jCols]; exact hc), hres.noJac rfl _ ?_ c hc]
        rw [d2] at hr
        rw [hres.jRows, Nat.mul_assoc]
        calc k * (es.length * rt.width) + r < k * (es.length * rt.width) + es.length * rt.width :=
              Nat.add_lt_add_left hr _
          _ = (k + 1) * (es.length * rt.width) := by rw [Nat.succ_mul]
          _ ≤ _ := Nat.mul_le_mul_right _ hkl
      | true =>
        rw [d2] at hr
        rw [hres.jCols] at hc
        obtain ⟨j, r', hj, hr', rfl⟩ := div_split hr
        have := (hres.agree h1 (k' := 0) hk rfl rfl rfl hmk (List.getElem?_eq_getElem hj)).2 rfl r' hr' c c hc hc rfl
        rw [Nat.zero_mul, Nat.zero_add, Nat.add_mul, Nat.mul_assoc, Nat.add_assoc] at this
        exact this
  · intro q hq
    have hs := ha.shape q (List.mem_of_getLast? hq)
    have ebatch := batchCalls_last ids bt hq
    rw [ebatch] at hat'
    have hA := hat'.reach.abs
    obtain ⟨⟨st, cc, hst⟩, _⟩ := hat'.same
    refine ⟨?_, ?_⟩
    · rw [hst]
      exact hA.base.trans (baseAfter_override _ ids bt _ q hs cs)
    · intro i hi
      have := hat'.reach.angles_get i hi
      rw [angleAfter_override i 0 ids bt _ q (by omega) cs] at this
      have h2 : s'.robot.angles[i]? = some (angleAfter i 0 (cs ++ configCalls ids bt q)) := by
        rw [hst]; exact this
      simp only [getJointAngles, Prog.read, mapOutcome, Outcome.idx, h2, Outcome.bind_eq, Outcome.bind_ok,
        Outcome.pure_eq]

end

/-! ### The hypotheses are met -/

namespace Example

/-- two planar configurations of the two joints -/
noncomputable def a1 : Arr2 ℝ := ⟨5, [[2, 1/2, 1, 2, 3], [0, 1, 0, 0, 4]], by simp⟩

/-- the same configurations with a floating base -/
noncomputable def b1 : Arr2 ℝ := ⟨8, [[2, 1/2, 1, 2, 0, 0, 0, 3], [0, 1, 0, 0, 0, 0, 0, 4]], by simp⟩

/-- a freshly constructed Python object -/
noncomputable def s0 : PyModel ℝ := ⟨"", m0, [], []⟩

theorem s0_reach : PyReach ls js m0 [] [] s0 := ⟨isTree, supported, m0_spec, _, .nil⟩

theorem inertial : ∃ r ∈ ls, r.inertial.isSome := ⟨⟨"arm", some armInertial⟩, by simp [ls], rfl⟩

theorem shallow_sets {cs : List (Call ℝ)} (h : weldsAfter (names0 m0) cs = []) : Shallow ls js m0 cs := by
  intro n d hd
  refine shallow n d (LinkDepth.mono ?_ hd)
  rintro w (hw | hw)
  · exact .inl hw
  · rw [h] at hw; cases hw

theorem a1_args {s : PyModel ℝ} (hs : s.robot.links.length = 6) :
    FkArgs m0 s (.nd2 a1) [3, 0] [0, 1] .planer := by
  refine ⟨by simp, by simp [QArg.rows, a1], by simp [QArg.rows, a1, BaseType.dof], ?_, ?_⟩
  · rw [joints_length]; simp
  · rw [hs]; simp

/-- the effect of solving `a1` -/
noncomputable def cs1 : List (Call ℝ) := batchCalls [0, 1] .planer a1.rows ++ []

theorem s1_exists : ∃ s, PyReach ls js m0
    [.solveFk (.nd2 a1) [3, 0] [0, 1] .rpy .planer true true, .getLinkIds ["gripper"]] cs1 s ∧
    s.robot.links.length = 6 := by
  obtain ⟨mc, h0⟩ := s0_reach.at
  obtain ⟨P, J, s, mc', e, hat, _⟩ := h0.pySolveFk (qs := .nd2 a1) (es := [3, 0]) (ids := [0, 1]) (rt := .rpy)
    (wj := true) (uc := true) (shallow_sets rfl) (a1_args links_length) (.inl (by simp)) (fun _ => .inl inertial)
  have hn : s.robot.links.length = 6 := by
    rw [hat.nlinks, links_sets _ (batchCalls_isSet _ _ _)]
    simp [linksAfter, names0, linkNames]
  have hg : s.robot.linkIds.find "gripper" = none := by
    cases hf : s.robot.linkIds.find "gripper" with
    | none => rfl
    | some l =>
      obtain ⟨⟨st, c, hst⟩, _⟩ := hat.same
      have := (hat.reach.mem_names "gripper").mpr ⟨l, by rw [← hf, hst]⟩
      rw [links_sets _ (batchCalls_isSet _ _ _)] at this
      simp [linksAfter, names0, linkNames] at this
  refine ⟨s, ⟨isTree, supported, m0_spec, "", .ok trivial (s1 := s) ?_
    (.exn (e := .invalidArgument ("no link named " ++ "gripper")) (s1 := s) trivial ?_ .nil)⟩, hn⟩
  · show (PyCall.solveFk (.nd2 a1) [3, 0] [0, 1] .rpy .planer true true).run s0 = _
    simp only [PyCall.run, Prog.bind, e, Prog.pure]
  · simp only [PyCall.run, Prog.bind, pyGetLinkIds, onRobot, getLinkIds, Prog.read, mapOutcome, hg,
      Outcome.bind_eq, Outcome.bind]

/-- a Python object after a solver call and a call that raised -/
noncomputable def s1 : PyModel ℝ := s1_exists.choose

theorem s1_reach : PyReach ls js m0
    [.solveFk (.nd2 a1) [3, 0] [0, 1] .rpy .planer true true, .getLinkIds ["gripper"]] cs1 s1 :=
  s1_exists.choose_spec.1

theorem s1_links : s1.robot.links.length = 6 := s1_exists.choose_spec.2

theorem s1_shallow : Shallow ls js m0 cs1 := shallow_sets (by
  rw [cs1, List.append_nil]; exact sets_welds _ (batchCalls_isSet _ _ _))

/-- a corrupted cache: every entry set, to the identity -/
noncomputable def bad : SizedCache (Pose ℝ) :=
  ⟨6, List.replicate 6 Pose.identity, List.replicate 6 true⟩

theorem bad_fits : bad.Fits s1.robot.links.length := by rw [s1_links]; exact ⟨rfl, rfl, rfl⟩

example := C02_solve_fk (rt := .xyzw) (wj := true) s1_reach s1_shallow bad_fits (a1_args s1_links)
  (fun _ => .inl inertial)
example := C03_solve_fk_base (rt := .rpy) (wj := true) s1_reach s1_shallow bad_fits (a1_args s1_links)
  (by simp) (fun _ => .inl inertial)
example := C39_layout (rt := .rpy) (wj := true) s1_reach s1_shallow bad_fits (a1_args s1_links)
  (fun _ => .inl inertial)
example := C37_planar (rt := .rpy) (wj := true) (b := b1) (uc := true) (uc' := false) s1_reach s1_shallow bad_fits
  (a1_args s1_links) (by simp [a1, b1, planarToFloat]) (fun _ => .inl inertial)
example := C40_batch (rt := .rpy) (wj := true) s1_reach s1_shallow bad_fits (a1_args s1_links)
  (fun _ => .inl inertial)
-- C02 also with a fixed base
example := C02_solve_fk (rt := .xyzw) (wj := false) (qs := .nd1 [1, 2]) (es := [5]) (ids := [1, 0]) (bt := .fixed)
  s1_reach s1_shallow bad_fits ⟨by simp, by simp [QArg.rows], by simp [QArg.rows, BaseType.dof],
    by rw [joints_length]; simp, by rw [s1_links]; simp⟩ (by simp)

end Example
end Tinyfk
