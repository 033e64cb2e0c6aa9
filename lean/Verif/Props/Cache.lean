import Verif.Proofs.Stale
import Verif.Props.Com

/-!
# Properties: the pose cache between solver calls

C04, C05, C06, C38: what is right, and what is stale.
-/

set_option linter.unusedSectionVars false

namespace Tinyfk

open Scalar

section
variable {K : Type} [Scalar K]
  {ls : List (RawLink K)} {js : List (RawJoint K)} {m0 : KinModel K} {cs : List (Call K)} {mc m : KinModel K}
  {h : List (PyCall K)} {s : PyModel K}

/-! ### C04 -/

/-- writing the values that are there changes nothing -/
theorem writeAngles_same {ids : List Nat} {q a : List K} (hi : ∀ i ∈ ids, i < a.length) (hq : ids.length ≤ q.length)
    (h : ∀ (i : Nat) v, lastWrite (ids.zip q) i = some v → a[i]? = some v) : writeAngles ids q a = .ok a := by
  obtain ⟨a', ha⟩ := writeAngles_ok (a := a) hq hi
  have hl := writeAngles_length ha
  have : a' = a := by
    refine List.ext_getElem hl fun i h1 h2 => ?_
    have hg := writeAngles_get ha i h2
    rw [List.getElem?_eq_getElem h1] at hg
    cases hw : lastWrite (ids.zip q) i with
    | none => rw [hw] at hg; simpa using hg
    | some v =>
      rw [hw] at hg
      have h3 := h i v hw
      rw [List.getElem?_eq_getElem h2] at h3
      simp only [Option.getD_some, Option.some.injEq] at hg h3
      rw [hg, h3]
  rw [ha, this]

/-- **C04 (partial): when `use_cache=True` is right.** After a `solve_fk` with fixed base and
`use_cache=False`, a call with `use_cache=True` for the same joints at the same angles (the last
configuration of the first call) returns the poses of the described robot, for any links. Missing: the
claim for other angles, which is false (`C04_stale`, `C04_witness`). -/
theorem C04_use_cache_partial {qs1 qs2 : QArg K} {es1 es2 ids : List Nat} {rt1 rt2 : RotType} {wj1 wj2 : Bool}
    {P1 J1 : Mat K} {s1 : PyModel K} {q : List K}
    (hr : PyReach ls js m0 h cs s) (hf : Shallow ls js m0 cs)
    (ha1 : FkArgs m0 s qs1 es1 ids .fixed) (ha2 : FkArgs m0 s qs2 es2 ids .fixed)
    (hne : (∃ r ∈ ls, r.inertial.isSome) ∨ weldsAfter (names0 m0) cs ≠ [])
    (hlast : qs1.rows.getLast? = some q) (hsame : ∀ q' ∈ qs2.rows, q' = q)
    (e1 : pySolveFk qs1 es1 ids rt1 .fixed wj1 false s = .ok (P1, J1) s1) :
    ∃ P2 J2 s2, pySolveFk qs2 es2 ids rt2 .fixed wj2 true s1 = .ok (P2, J2) s2 ∧
      P2.rows = qs2.rows.length * es2.length ∧
      ∀ (k j l : Nat) (n : String) (θ : String → K), k < qs2.rows.length → es2[j]? = some l →
        getLinkIds [n] s.robot = .ok [l] s.robot → AnglesAfter m0 (cs ++ configCalls ids .fixed q) θ →
        ∃ T, (∀ T', WorldPose ls js (AllWelds ls m0 cs) θ
            (baseAfter Pose.identity (cs ++ configCalls ids .fixed q)) n T' ↔ T' = T) ∧
          PoseRow rt2 P2 (k * es2.length + j) T := by
  obtain ⟨mc, hat⟩ := hr.at
  obtain ⟨P, J, s', mc', e, h1, _, hcoh⟩ := hat.pySolveFk_coh (rt := rt1) (wj := wj1) (uc := false) hf ha1
    (.inr ⟨rfl, .inr (.inl rfl)⟩) (fun _ => hne)
  rw [e1] at e
  simp only [Res.ok.injEq, Prod.mk.injEq] at e
  obtain ⟨_, rfl⟩ := e
  have hset := batchCalls_isSet ids .fixed qs1.rows
  have hn1 : s1.robot.links.length = s.robot.links.length := by
    rw [h1.nlinks, hat.nlinks, links_sets _ hset]
  have hqlen : q.length = ids.length + BaseType.fixed.dof := ha1.shape q (List.mem_of_getLast? hlast)
  have hang : ∀ q' ∈ qs2.rows, writeAngles ids q' s1.robot.angles = .ok s1.robot.angles := by
    intro q' hq'
    rw [hsame q' hq']
    obtain ⟨⟨st, c, hst⟩, _⟩ := h1.same
    have hang : s1.robot.angles = mc'.angles := by rw [hst]
    rw [hang]
    refine writeAngles_same (by rw [h1.reach.anglesLen]; exact ha1.joints) (by omega) ?_
    intro i v hw
    have hi : i < m0.joints.length := by
      by_contra hcon
      have : lastWrite (ids.zip q) i = none := lastWrite_eq_none (fun hm => hcon (ha1.joints i hm))
      rw [this] at hw; cases hw
    rw [h1.reach.angles_get i hi, batchCalls_last ids .fixed hlast,
      angleAfter_override i 0 ids .fixed _ q (by omega) cs, angleAfter_append, angleAfter_config,
      List.take_of_length_le (by simp [BaseType.dof] at hqlen; omega), hw]
    rfl
  have ha2' : FkArgs m0 s1 qs2 es2 ids .fixed :=
    ⟨ha2.notFlat, ha2.nonempty, ha2.shape, ha2.joints, by rw [hn1]; exact ha2.links⟩
  obtain ⟨P2, J2, s2, mc2, e2, h2, hres, _⟩ := h1.pySolveFk_coh (rt := rt2) (wj := wj2) (uc := true)
    (hf.sets hset) ha2' (.inr ⟨rfl, .inr (.inr ⟨hcoh, hang⟩)⟩) (fun _ => by rw [welds_sets _ hset]; exact hne)
  refine ⟨P2, J2, s2, e2, hres.pRows, ?_⟩
  intro k j l n θ hk hj hn hθ
  have hqk : qs2.rows[k]? = some q := by
    rw [List.getElem?_eq_getElem hk, hsame _ (List.getElem_mem hk)]
  have hn' : getLinkIds [n] s1.robot = .ok [l] s1.robot := by
    obtain ⟨⟨st, c, hst⟩, _⟩ := h1.same
    have := hat.getLinkIds_config hn h1.reach hset
    rw [getLinkIds_one] at this ⊢
    rw [hst]; exact this
  have hbatch : batchCalls ids .fixed qs1.rows = batchCalls ids .fixed qs1.rows.dropLast ++ configCalls ids .fixed q :=
    batchCalls_last ids .fixed hlast
  have key : ∀ i, angleAfter i 0 (cs ++ batchCalls ids .fixed qs1.rows ++ configCalls ids .fixed q) =
      angleAfter i 0 (cs ++ configCalls ids .fixed q) := by
    intro i
    rw [List.append_assoc]
    exact angleAfter_override i 0 ids .fixed qs1.rows q (by omega) cs
  have hθ' : AnglesAfter m0 (cs ++ batchCalls ids .fixed qs1.rows ++ configCalls ids .fixed q) θ := by
    intro s i hs
    rw [hθ s i hs, key]
  obtain ⟨T, hT1, hT2⟩ := hres.world h1 ha2'.shape ha2'.joints k j l q n θ hqk hj hn' hθ'
  rw [allWelds_sets hset, List.append_assoc, baseAfter_override Pose.identity ids .fixed qs1.rows q hqlen cs] at hT1
  exact ⟨T, hT1, hT2⟩

theorem poseColumn_get (rt : RotType) (T : Pose K) {c : Nat} (hc : c < rt.width) :
    ∃ v, (poseColumn rt T)[c]? = some v := by
  have : c < (poseColumn rt T).length := by rw [poseColumn_length, rt.dim_eq]; exact hc
  exact ⟨_, List.getElem?_eq_getElem this⟩

/-- a fixed-base call in terms of the loop -/
theorem pySolveFk_fixed_inv {qs : QArg K} {es ids : List Nat} {rt : RotType} {wj uc : Bool} {s s' : PyModel K}
    {P J : Mat K} (e : pySolveFk qs es ids rt .fixed wj uc s = .ok (P, J) s') :
    ∃ Q P0 J0, Tinyfk.fkLoop es ids rt false wj uc qs.rows 0 P0 J0 s.robot = .ok (Q, J) s'.robot ∧
      P = Q.transpose := by
  unfold pySolveFk at e
  obtain ⟨a, s1, e1', e'⟩ := bind_ok_inv e
  clear e
  obtain ⟨e1, rfl⟩ := lift_ok_inv e1'
  clear e1'
  obtain ⟨rows, s2, e2, e⟩ := bind_ok_inv e'
  clear e'
  have hrows : rows = qs.rows ∧ s2 = s1 := by
    have ha : a.rows = qs.rows := by
      cases qs <;> simp only [fkArg] at e1 <;> cases e1 <;> rfl
    simp only [prepareRows] at e2
    obtain ⟨u, s3, e3, e4⟩ := bind_ok_inv e2
    cases e4
    refine ⟨ha, ?_⟩
    unfold pyAssert at e3
    split at e3
    · cases e3; rfl
    · cases e3
  obtain ⟨rfl, rfl⟩ := hrows
  obtain ⟨⟨P', J'⟩, s3, e3, e4⟩ := bind_ok_inv e
  clear e
  simp only [reduceCtorEq, if_false] at e4
  cases e4
  unfold onRobot at e3
  split at e3
  · next r hr =>
    cases e3
    simp only [bne_self_eq_false, solveForwardKinematics, Bool.false_eq_true, if_false] at hr
    obtain ⟨⟨Q, J2⟩, m2, hQ, hr'⟩ := bind_ok_inv hr
    clear hr
    cases hr'
    exact ⟨Q, _, _, hQ, rfl⟩
  all_goals cases e3

theorem PyReach.hasParent (hat : At ls js m0 cs mc m) {n : String} {l d : Nat}
    (hn : getLinkIds [n] m = .ok [l] m) (hd : LinkDepth ls js (AllWelds ls m0 cs) n (d + 1)) : HasParent m l := by
  have hn' : getLinkIds [n] mc = .ok [l] mc := by
    obtain ⟨⟨st, c, rfl⟩, _⟩ := hat.same
    rw [getLinkIds_one] at hn ⊢; exact hn
  have := (hat.reach.depth_iff hn' (d + 1)).mpr hd
  cases this with
  | child h1 h2 _ => exact ⟨_, _, by rw [hat.links]; exact h1, h2⟩

/-- **C04 is false in general.** After any fixed-base `solve_fk` of one configuration, a fixed-base call
with `use_cache=True` returns for every link it shares with the first call, except the root, the pose of
the first call's configuration, whatever angles it is given. -/
theorem C04_stale {qs1 qs2 : QArg K} {es1 es2 ids1 ids2 : List Nat} {rt : RotType} {wj1 wj2 uc : Bool}
    {P1 J1 P2 J2 : Mat K} {s1 s2 : PyModel K} {n : String} {l d j1 j2 : Nat}
    (hr : PyReach ls js m0 h cs s) (hone : qs1.rows.length = 1)
    (hn : getLinkIds [n] s.robot = .ok [l] s.robot) (hd : LinkDepth ls js (AllWelds ls m0 cs) n (d + 1))
    (hj1 : es1[j1]? = some l) (hj2 : es2[j2]? = some l)
    (e1 : pySolveFk qs1 es1 ids1 rt .fixed wj1 uc s = .ok (P1, J1) s1)
    (e2 : pySolveFk qs2 es2 ids2 rt .fixed wj2 true s1 = .ok (P2, J2) s2) :
    ∀ k < qs2.rows.length, ∀ c < rt.width, P2.f (k * es2.length + j2) c = P1.f j1 c := by
  obtain ⟨mc, hat⟩ := hr.at
  have hpar := PyReach.hasParent hat hn hd
  have ht : Tree s.robot := by
    obtain ⟨⟨st, c, hst⟩, _⟩ := hat.same
    rw [hst]
    exact Tree.congr (m := mc) rfl rfl rfl hat.reach.abs.inv.graph.tree
  obtain ⟨Q1, P0, J0, g1, rfl⟩ := pySolveFk_fixed_inv e1
  obtain ⟨Q2, P0', J0', g2, rfl⟩ := pySolveFk_fixed_inv e2
  obtain ⟨q1, hq1⟩ := List.length_eq_one_iff.mp hone
  rw [hq1] at g1
  obtain ⟨m1, P1', J1', m2, m3, f1, ht1, f2, x1, x2, f3⟩ := fkRow_inv ht g1
  cases f3
  obtain ⟨_, _, f4⟩ := fkPoseLoop_inv ht1 f2
  obtain ⟨T, m4, m5, y1, y2, y3, y4⟩ := f4 j1 l hj1
  have hpar1 : HasParent m4 l := by
    obtain ⟨lk, p, hl1, hl2⟩ := hpar
    refine ⟨lk, p, ?_, hl2⟩
    have hm1 : m1.links = s.robot.links := by
      simp only [applyConfig, Bool.false_eq_true, if_false] at f1
      obtain ⟨u', ma, ea, eb⟩ := bind_ok_inv f1
      obtain ⟨a, _, rfl⟩ := setJointAnglesNC_angles ea
      cases uc <;> simp only [Bool.false_eq_true, if_false, if_true] at eb <;> cases eb <;> rfl
    obtain ⟨⟨⟨st, c, rfl⟩, _⟩, _⟩ := y1
    rw [← hl1, ← hm1]
  have hv := fun m6 (hp : Pins s1.robot m6) =>
    Replays.getLinkPose (y1.tree ht1) hpar1 m4 m5 T (.refl _) y2 m6 ((y3.trans x2).pins.trans hp)
  obtain ⟨hs, _⟩ := fkLoop_stale (l := l) (T := T) qs2.rows (x2.tree (x1.tree ht1))
    (fun m6 hp => by obtain ⟨m7, h7, _⟩ := hv m6 hp; exact ⟨m7, h7⟩) g2
  intro k hk c hc
  obtain ⟨v, hv'⟩ := poseColumn_get rt T hc
  have a1 := hs k hk j2 hj2 c v hv'
  have a2 := y4 c v hv'
  simp only [Nat.zero_add, Nat.zero_mul] at a1 a2
  show Q2.f c (k * es2.length + j2) = Q1.f c j1
  rw [a1, a2]

/-- such a call returns, e.g. for one configuration and link -/
theorem C04_stale_returns {qs1 : QArg K} {es1 ids1 ids2 : List Nat} {rt1 : RotType} {wj1 uc : Bool}
    {P1 J1 : Mat K} {s1 : PyModel K} {n : String} {l d j1 : Nat} {q : List K}
    (hr : PyReach ls js m0 h cs s) (hone : qs1.rows.length = 1)
    (hn : getLinkIds [n] s.robot = .ok [l] s.robot) (hd : LinkDepth ls js (AllWelds ls m0 cs) n (d + 1))
    (hj1 : es1[j1]? = some l)
    (e1 : pySolveFk qs1 es1 ids1 rt1 .fixed wj1 uc s = .ok (P1, J1) s1)
    (hi : ∀ i ∈ ids2, i < m0.joints.length) (hq : q.length = ids2.length) :
    ∃ P2 J2 s2, pySolveFk (.nd2 ⟨q.length, [q], by simp⟩) [l] ids2 .ignore .fixed false true s1 = .ok (P2, J2) s2 := by
  obtain ⟨mc, hat⟩ := hr.at
  have hpar := PyReach.hasParent hat hn hd
  have ht := hat.tree
  obtain ⟨Q1, P0, J0, g1, rfl⟩ := pySolveFk_fixed_inv e1
  obtain ⟨q1, hq1⟩ := List.length_eq_one_iff.mp hone
  rw [hq1] at g1
  obtain ⟨m1, P1', J1', m2, m3, f1, ht1, f2, x1, x2, f3⟩ := fkRow_inv ht g1
  cases f3
  obtain ⟨_, _, f4⟩ := fkPoseLoop_inv ht1 f2
  obtain ⟨T, m4, m5, y1, y2, y3, y4⟩ := f4 j1 l hj1
  have hpar1 : HasParent m4 l := by
    obtain ⟨lk, p, hl1, hl2⟩ := hpar
    refine ⟨lk, p, ?_, hl2⟩
    have hm1 : m1.links = s.robot.links := by
      simp only [applyConfig, Bool.false_eq_true, if_false] at f1
      obtain ⟨u', ma, ea, eb⟩ := bind_ok_inv f1
      obtain ⟨a, _, rfl⟩ := setJointAnglesNC_angles ea
      cases uc <;> simp only [Bool.false_eq_true, if_false, if_true] at eb <;> cases eb <;> rfl
    obtain ⟨⟨⟨st, c, rfl⟩, _⟩, _⟩ := y1
    rw [← hl1, ← hm1]
  have hlen : s1.robot.angles.length = m0.joints.length := by
    have := PyDoes.solveFk (ls := ls) (js := js) (m0 := m0) qs1 es1 ids1 rt1 .fixed wj1 uc _ _ _ hat
    rw [e1] at this
    obtain ⟨mc1, hat1⟩ := this
    obtain ⟨⟨st, c, hst⟩, _⟩ := hat1.same
    rw [← hat1.reach.anglesLen, hst]
  obtain ⟨m6, e6, _⟩ := setJointAnglesNC_ok (ids := ids2) (q := q) (m := s1.robot) (by rw [hlen]; exact hi) (by omega)
  obtain ⟨m7, e7, _⟩ := Replays.getLinkPose (y1.tree ht1) hpar1 m4 m5 T (.refl _) y2 m6
    ((y3.trans x2).pins.trans (setJointAnglesNC_pins e6))
  simp only [Tinyfk.pySolveFk, Prog.bind_apply, Prog.lift, Prog.read, fkArg, prepareRows, pyAssert, hq,
    beq_self_eq_true, if_true, onRobot, bne_self_eq_false, Prog.pure_apply, solveForwardKinematics,
    Bool.false_eq_true, if_false, fkLoop, applyConfig, e6, fkPoseLoop, e7, Mat.zero, poseColumn,
    RotType.dim, List.length_cons, List.length_nil]
  simp [Mat.setCol, Mat.set, Outcome.bind_eq, Outcome.bind]

/-! ### C05 -/

theorem forall₂_imp_mem {α β : Type} {R S : α → β → Prop} {as : List α} {bs : List β} (h : List.Forall₂ R as bs)
    (hi : ∀ a ∈ as, ∀ b, R a b → S a b) : List.Forall₂ S as bs := by
  induction h with
  | nil => exact .nil
  | cons h1 _ ih => exact .cons (hi _ (by simp) _ h1) (ih fun a ha => hi a (by simp [ha]))

/-- the rows of a result of `solve_com_fk` in terms of the described robot -/
theorem ComResult.world {rows : List (List K)} {ids al : List Nat} {fs : List K} {bt : BaseType} {wj : Bool}
    {C J : Mat K} (hres : ComResult ls js m0 cs rows ids al fs bt wj C J) (ha : At ls js m0 cs mc m)
    (hf : Shallow ls js m0 cs) (hq : ∀ q ∈ rows, q.length = ids.length + bt.dof)
    (hi : ∀ i ∈ ids, i < m0.joints.length) (hal : ∀ l ∈ al, l < m.links.length)
    (k : Nat) (q : List K) (θ : String → K) (hk : rows[k]? = some q) (hθ : AnglesAfter m0 (cs ++ configCalls ids bt q) θ) :
    ∃ bs Ts, (∀ bs', Bodies ls js (AllWelds ls m0 cs) θ
        (baseAfter Pose.identity (cs ++ configCalls ids bt q)) bs' ↔ bs' = bs) ∧
      List.Forall₂ (fun l T => ∃ n, getLinkIds [n] m = .ok [l] m ∧ WorldPose ls js (AllWelds ls m0 cs) θ
        (baseAfter Pose.identity (cs ++ configCalls ids bt q)) n T) al Ts ∧
      ∀ r < 3, C.f k r = actionMean m.totalMass (fs.zip (Ts.map fun T => T.position.coord r)) ((comOf bs).coord r) := by
  obtain ⟨mk, hmk⟩ := ha.reach.config hi (hq q (List.mem_of_getElem? hk))
  have hs := configCalls_isSet ids bt q
  obtain ⟨v, mk', Ts, e1, e2, e3⟩ := hres.com k q mk hk hmk
  obtain ⟨bs, hb, m', e4⟩ := C30_com hmk (hf.sets hs) hθ
  rw [e1] at e4; cases e4
  rw [allWelds_sets hs] at hb
  have hmass : mk.totalMass = m.totalMass := by
    obtain ⟨⟨st, c, rfl⟩, _⟩ := ha.same
    show mk.totalMass = mc.totalMass
    rw [hmk.abs.mass, ha.reach.abs.mass]
  refine ⟨bs, Ts, hb, ?_, ?_⟩
  · refine forall₂_imp_mem e2 ?_
    rintro l hmem T ⟨m2, e5⟩
    have hl : l < mk.links.length := by
      rw [← hmk.length, links_sets _ hs, ← ha.nlinks]; exact hal l hmem
    obtain ⟨lk, hlk⟩ : ∃ lk, mk.links[l]? = some lk := ⟨_, List.getElem?_eq_getElem hl⟩
    have hn : getLinkIds [lk.name] mk = .ok [l] mk := by
      rw [getLinkIds_one]; exact (hmk.abs.inv.graph.linkNames _ _).mpr ⟨lk, hlk, rfl⟩
    have hn' : getLinkIds [lk.name] m = .ok [l] m := by
      obtain ⟨θ', p, c', rfl⟩ := hmk.sets_eq ha.reach hs
      obtain ⟨⟨st, cc, rfl⟩, _⟩ := ha.same
      rw [getLinkIds_one] at hn ⊢
      exact hn
    refine ⟨lk.name, hn', ?_⟩
    obtain ⟨T', hu, hcase⟩ := C01_link_pose hmk hθ hn
    rw [allWelds_sets hs] at hu
    rcases hcase with ⟨m', e'⟩ | ⟨⟨u, e'⟩, _⟩
    · rw [e5] at e'; cases e'; exact (hu _).mpr rfl
    · rw [e5] at e'; cases e'
  · intro r hr
    rw [e3 r hr, hmass]

/-- **C05 (partial).** `solve_com_fk` with a planar or floating base, or of a single configuration
right after `clear_cache`: row `k` of `C` is the centre of mass of the described robot at configuration
`k` (combined with the action links). Missing: the claim for a fixed base without `clear_cache` before
and between configurations, which is false (`C05_stale`, `C05_witness`). -/
theorem C05_com_partial {qs : QArg K} {ids : List Nat} {act : Option (List Nat × List K)} {bt : BaseType} {wj : Bool}
    {s' : PyModel K} (hr : PyReach ls js m0 h cs s) (hf : Shallow ls js m0 cs)
    (ha : ComArgs m0 s qs ids (act.getD ([], [])).1 (act.getD ([], [])).2 bt)
    (hc : (bt ≠ .fixed ∧ s' = s) ∨ (pyClearCache s = .ok () s' ∧ qs.rows.length = 1))
    (hne : wj = true → act ≠ none → (∃ r ∈ ls, r.inertial.isSome) ∨ weldsAfter (names0 m0) cs ≠ []) :
    ∃ C J s'', pySolveComFk qs ids act bt wj s' = .ok (C, J) s'' ∧ C.rows = qs.rows.length ∧ C.cols = 3 ∧
      ∀ (k : Nat) (q : List K) (θ : String → K), qs.rows[k]? = some q →
        AnglesAfter m0 (cs ++ configCalls ids bt q) θ →
        ∃ bs Ts, (∀ bs', Bodies ls js (AllWelds ls m0 cs) θ
            (baseAfter Pose.identity (cs ++ configCalls ids bt q)) bs' ↔ bs' = bs) ∧
          List.Forall₂ (fun l T => ∃ n, getLinkIds [n] s.robot = .ok [l] s.robot ∧
            WorldPose ls js (AllWelds ls m0 cs) θ
              (baseAfter Pose.identity (cs ++ configCalls ids bt q)) n T) (act.getD ([], [])).1 Ts ∧
          ∀ r < 3, C.f k r = actionMean s.robot.totalMass
            ((act.getD ([], [])).2.zip (Ts.map fun T => T.position.coord r)) ((comOf bs).coord r) := by
  obtain ⟨mc, hat⟩ := hr.at
  have key : At ls js m0 cs mc s'.robot ∧ (bt ≠ .fixed ∨ (Fresh s'.robot ∧ qs.rows.length = 1)) ∧
      s'.robot.links = s.robot.links := by
    rcases hc with ⟨h1, rfl⟩ | ⟨h1, h2⟩
    · exact ⟨hat, .inl h1, rfl⟩
    · obtain ⟨m1, e1, a1, a2, _⟩ := hat.clear
      simp only [pyClearCache, onRobot, e1] at h1
      cases h1
      refine ⟨a1, .inr ⟨a2, h2⟩, ?_⟩
      show m1.links = _
      rw [a1.links, hat.links]
  obtain ⟨hat', hc', hl⟩ := key
  obtain ⟨C, J, s'', mc', e, _, hres⟩ := hat'.pySolveComFk (wj := wj) hf
    ⟨ha.notFlat, ha.nonempty, ha.shape, ha.joints, by rw [hl]; exact ha.links, ha.forces⟩ hc' hne
  refine ⟨C, J, s'', e, hres.cRows, hres.cCols, ?_⟩
  intro k q θ hk hθ
  exact hres.world hat hf ha.shape ha.joints ha.links k q θ hk hθ

/-- every centre-of-mass link hangs below the link it belongs to -/
theorem Reach.comParents (h : Reach ls js m0 cs m) : ComParents m := by
  intro d hd
  obtain ⟨sorted, hp, _, _, hcom, _⟩ := h.constructed.order
  rw [h.abs.coms] at hd
  obtain ⟨i, hi, hdi⟩ := List.getElem_of_mem hd
  rw [List.forall₂_iff_get] at hcom
  obtain ⟨lk, g1, g2, _⟩ := hcom.2 i hi (by rw [← hcom.1]; exact hi)
  simp only [List.get_eq_getElem, hdi] at g1
  obtain ⟨lk', k1, k2, _⟩ := h.abs.old d lk g1
  have hmem := List.getElem_mem (l := withInertial sorted) (n := i) (by rw [← hcom.1]; exact hi)
  obtain ⟨r, hr, hri⟩ := List.mem_filterMap.mp hmem
  obtain ⟨inr, hinr, hpair⟩ := Option.map_eq_some_iff.mp hri
  have hw : ComWeld ls ⟨r.name ++ "_com", r.name, ⟨inr.origin.position, Rot.one⟩⟩ :=
    .mk (hp.mem_iff.mp hr) hinr
  obtain ⟨l, lk2, p, _, _, _, w1, w2, w3, _⟩ := h.abs.desc.edge_of_weld (.inl hw)
  have hname : lk2.name = lk'.name := by
    rw [w2, k2, g2]
    simp only [List.get_eq_getElem, ← hpair]
  have e1 := (h.abs.inv.graph.linkNames lk2.name l).mpr ⟨lk2, w1, rfl⟩
  have e2 := (h.abs.inv.graph.linkNames lk2.name d).mpr ⟨lk', k1, hname.symm⟩
  rw [e1] at e2; cases e2
  exact ⟨lk2, p, w1, w3⟩

theorem At.comParents (hat : At ls js m0 cs mc m) : ComParents m := by
  obtain ⟨⟨st, c, hst⟩, _⟩ := hat.same
  rw [hst]
  exact hat.reach.comParents

/-- a fixed-base call without action links in terms of the loop -/
theorem pySolveComFk_fixed_inv {qs : QArg K} {ids : List Nat} {wj : Bool} {s s' : PyModel K}
    {C J : Mat K} (e : pySolveComFk qs ids none .fixed wj s = .ok (C, J) s') :
    ∃ D C0 J0, Tinyfk.comFkLoop ids [] [] false wj ids.length qs.rows 0 C0 J0 s.robot = .ok (D, J) s'.robot ∧
      C = D.transpose := by
  unfold pySolveComFk at e
  obtain ⟨a, s1, e1', e'⟩ := bind_ok_inv e
  clear e
  obtain ⟨e1, rfl⟩ := lift_ok_inv e1'
  clear e1'
  obtain ⟨rows, s2, e2, e3⟩ := bind_ok_inv e'
  clear e'
  have hrows : rows = qs.rows ∧ s2 = s1 := by
    have ha : a.rows = qs.rows := by
      cases qs <;> simp only [comArg] at e1 <;> cases e1 <;> rfl
    simp only [prepareRows] at e2
    obtain ⟨u, s3, e3, e4⟩ := bind_ok_inv e2
    cases e4
    refine ⟨ha, ?_⟩
    unfold pyAssert at e3
    split at e3
    · cases e3; rfl
    · cases e3
  obtain ⟨rfl, rfl⟩ := hrows
  simp only [onRobot] at e3
  split at e3
  · next r hr =>
    cases e3
    simp only [bne_self_eq_false, solveComForwardKinematics, Bool.false_eq_true, if_false, Option.getD_none] at hr
    obtain ⟨⟨D, J2⟩, m2, hQ, hr'⟩ := bind_ok_inv hr
    clear hr
    cases hr'
    exact ⟨D, _, _, hQ, rfl⟩
  all_goals cases e3

/-- **C05 is false in general.** With a fixed base and without action links, all rows of a batch are
the first row, whatever the configurations; and the next such call returns that row again. -/
theorem C05_stale {qs1 qs2 : QArg K} {ids1 ids2 : List Nat} {wj1 wj2 : Bool} {C1 J1 C2 J2 : Mat K} {s1 s2 : PyModel K}
    (hr : PyReach ls js m0 h cs s) (hne : qs1.rows ≠ [])
    (e1 : pySolveComFk qs1 ids1 none .fixed wj1 s = .ok (C1, J1) s1)
    (e2 : pySolveComFk qs2 ids2 none .fixed wj2 s1 = .ok (C2, J2) s2) :
    (∀ k < qs1.rows.length, ∀ r < 3, C1.f k r = C1.f 0 r) ∧
    ∀ k < qs2.rows.length, ∀ r < 3, C2.f k r = C1.f 0 r := by
  obtain ⟨mc, hat⟩ := hr.at
  obtain ⟨D1, _, _, g1, rfl⟩ := pySolveComFk_fixed_inv e1
  obtain ⟨D2, _, _, g2, rfl⟩ := pySolveComFk_fixed_inv e2
  obtain ⟨v, h1, ht1, hv⟩ := comFkLoop_first hat.tree hat.comParents hne g1
  obtain ⟨h2, _⟩ := comFkLoop_stale qs2.rows ht1 hv g2
  have hpos : 0 < qs1.rows.length := List.length_pos_iff.mpr hne
  refine ⟨fun k hk r hr => ?_, fun k hk r hr => ?_⟩
  · show D1.f r k = D1.f r 0
    rw [h1 k hk r hr, h1 0 hpos r hr]
  · show D2.f r k = D1.f r 0
    have := h2 k hk r hr
    rw [Nat.zero_add] at this
    rw [this, h1 0 hpos r hr]

/-- such calls return -/
theorem C05_stale_returns {qs1 qs2 : QArg K} {ids1 ids2 : List Nat} {wj1 : Bool} {C1 J1 : Mat K} {s1 : PyModel K}
    (hr : PyReach ls js m0 h cs s) (hne : qs1.rows ≠ [])
    (e1 : pySolveComFk qs1 ids1 none .fixed wj1 s = .ok (C1, J1) s1)
    (ha : ComArgs m0 s qs2 ids2 [] [] .fixed) :
    ∃ C2 J2 s2, pySolveComFk qs2 ids2 none .fixed false s1 = .ok (C2, J2) s2 := by
  obtain ⟨mc, hat⟩ := hr.at
  obtain ⟨D1, _, _, g1, rfl⟩ := pySolveComFk_fixed_inv e1
  obtain ⟨v, h1, ht1, hv⟩ := comFkLoop_first hat.tree hat.comParents hne g1
  obtain ⟨a, e2, e3⟩ := comArg_of ha.notFlat
  have hcols : a.cols = ids2.length := by
    cases hr : qs2.rows with
    | nil => exact absurd hr ha.nonempty
    | cons q0 rs =>
      have h1 := a.wf q0 (by rw [e3, hr]; simp)
      rw [← h1]; simpa [BaseType.dof] using ha.shape q0 (by rw [hr]; simp)
  have hlen : s1.robot.angles.length = m0.joints.length := by
    have := PyDoes.solveComFk (ls := ls) (js := js) (m0 := m0) qs1 ids1 none .fixed wj1 _ _ _ hat
    rw [e1] at this
    obtain ⟨mc1, hat1⟩ := this
    obtain ⟨⟨st, c, hst⟩, _⟩ := hat1.same
    rw [← hat1.reach.anglesLen, hst]
  obtain ⟨x, m', e4⟩ := comFkLoop_total (ids := ids2) (fs := []) (nDof := ids2.length) qs2.rows (i := 0)
    (C := Mat.zero 3 qs2.rows.length) (J := Mat.zero (3 * qs2.rows.length) ids2.length) (m := s1.robot)
    (by simp [Mat.zero]) (by rw [hlen]; exact ha.joints) (fun q hq => (ha.shape q hq).ge.trans' (by simp))
    (by simp [Mat.zero]) hv
  refine ⟨x.1.transpose, x.2, { s1 with robot := m' }, ?_⟩
  simp only [Tinyfk.pySolveComFk, Prog.bind_apply, Prog.lift, Prog.read, e2, prepareRows, pyAssert, hcols,
    beq_self_eq_true, if_true, e3]
  simp only [onRobot, bne_self_eq_false, Prog.pure_apply, solveComForwardKinematics, Option.getD_none,
    Bool.false_eq_true, if_false, Nat.add_zero, Prog.bind_apply, e4]

/-! ### C06 -/

/-- **C06 (partial).** Right after `clear_cache`, `compute_total_inertia_matrix(q, ids)` returns the
inertia matrix that `get_total_inertia_matrix` returns on a robot with the same past in configuration
`q`. Missing: the claim without `clear_cache`, which is false (`C06_stale`, `C06_witness`). -/
theorem C06_inertia_partial {q : List K} {ids : List Nat} {s' : PyModel K} (hr : PyReach ls js m0 h cs s)
    (hf : Shallow ls js m0 cs) (hi : ∀ i ∈ ids, i < m0.joints.length) (hq : q.length = ids.length)
    (hc : pyClearCache s = .ok () s') : ∃ I s'', pyInertia q ids s' = .ok I s'' ∧
      ∃ mk, Reach ls js m0 (cs ++ [.setJointAngles ids q]) mk ∧ ∃ mk', getTotalInertia mk = .ok I mk' := by
  obtain ⟨mc, hat⟩ := hr.at
  obtain ⟨m1, e1, a1, a2, _⟩ := hat.clear
  simp only [pyClearCache, onRobot, e1] at hc
  cases hc
  obtain ⟨m2, mc2, e2, h2, hca, _⟩ := a1.setNC (ids := ids) (q := q) hi (by omega)
  rw [List.take_of_length_le (by omega)] at h2
  have hset : ∀ c ∈ [Call.setJointAngles ids q], c.IsSet := by
    intro c hc; simp only [List.mem_singleton] at hc; subst hc; trivial
  have hf2 := hf.sets hset
  obtain ⟨xs, hxs⟩ := h2.reach.abs.inv.exists_comPts
  have hQ := Query.getTotalInertia hxs
  obtain ⟨m3, e3, _⟩ := h2.query (h2.ready hf2 (by intro l; rw [hca]; exact a2 l)) hQ
  obtain ⟨m4, e4, _⟩ := hQ.run (h2.reach.ready hf2)
  refine ⟨_, { s with robot := m3 }, ?_, mc2, h2.reach, m4, e4⟩
  simp only [pyInertia, onRobot, computeTotalInertiaMatrix, Prog.bind_apply, e2, e3]

/-- **C06 is false in general.** Once `compute_total_inertia_matrix` has answered, further calls return
the same matrix whatever configuration they are given, and they do return. -/
theorem C06_stale {q1 q2 : List K} {ids1 ids2 : List Nat} {I1 : M3 K} {s1 : PyModel K}
    (hr : PyReach ls js m0 h cs s) (e1 : pyInertia q1 ids1 s = .ok I1 s1)
    (hi : ∀ i ∈ ids2, i < m0.joints.length) (hq : q2.length = ids2.length) :
    ∃ s2, pyInertia q2 ids2 s1 = .ok I1 s2 := by
  obtain ⟨mc, hat⟩ := hr.at
  simp only [pyInertia, onRobot] at e1
  split at e1
  · next I m1 hr1 =>
    cases e1
    unfold computeTotalInertiaMatrix at hr1
    obtain ⟨u, ma, ea, eb⟩ := bind_ok_inv hr1
    clear hr1
    have hta := hat.tree.setNC ea
    obtain ⟨a, ha, rfl⟩ := setJointAnglesNC_angles ea
    have x1 := Stays.getTotalInertia.ok hta eb
    have hlen : m1.angles.length = m0.joints.length := by
      obtain ⟨⟨⟨st, c, rfl⟩, _⟩, _⟩ := x1
      show a.length = _
      rw [writeAngles_length ha]
      obtain ⟨⟨st, c, hst⟩, _⟩ := hat.same
      rw [hst]; exact hat.reach.anglesLen
    obtain ⟨m2, e2, _⟩ := setJointAnglesNC_ok (ids := ids2) (q := q2) (m := m1) (by rw [hlen]; exact hi) (by omega)
    obtain ⟨m3, e3, _⟩ := Replays.getTotalInertia hta (hat.comParents) _ _ _ (.refl _) eb m2 (setJointAnglesNC_pins e2)
    exact ⟨{ s with robot := m3 }, by simp only [pyInertia, onRobot, computeTotalInertiaMatrix, Prog.bind_apply, e2, e3]⟩
  all_goals cases e1

/-! ### C38 -/

/-- **C38 (partial).** With a floating base, `J` of `solve_com_fk` has as many columns as a configuration
has entries. Missing: the planar base, for which it is false (`C38_planar_columns`). -/
theorem C38_columns_partial {qs : QArg K} {ids : List Nat} {act : Option (List Nat × List K)} {wj : Bool}
    (hr : PyReach ls js m0 h cs s) (hf : Shallow ls js m0 cs)
    (ha : ComArgs m0 s qs ids (act.getD ([], [])).1 (act.getD ([], [])).2 .floating)
    (hne : wj = true → act ≠ none → (∃ r ∈ ls, r.inertial.isSome) ∨ weldsAfter (names0 m0) cs ≠ []) :
    ∃ C J s', pySolveComFk qs ids act .floating wj s = .ok (C, J) s' ∧ J.cols = ids.length + 6 ∧
      ∀ q ∈ qs.rows, q.length = J.cols := by
  obtain ⟨mc, hat⟩ := hr.at
  obtain ⟨C, J, s', mc', e, _, hres⟩ := hat.pySolveComFk (wj := wj) hf ha (.inl (by simp)) hne
  have := hres.jCols
  simp only [reduceCtorEq, if_false] at this
  exact ⟨C, J, s', e, this, fun q hq => by rw [ha.shape q hq, this]; rfl⟩

/-- **C38 is false.** `solve_com_fk` with a planar base returns a Jacobian with six base columns (x, y,
z, roll, pitch, yaw), not three. -/
theorem C38_planar_columns {qs : QArg K} {ids : List Nat} {act : Option (List Nat × List K)} {wj : Bool}
    (hr : PyReach ls js m0 h cs s) (hf : Shallow ls js m0 cs)
    (ha : ComArgs m0 s qs ids (act.getD ([], [])).1 (act.getD ([], [])).2 .planer)
    (hne : wj = true → act ≠ none → (∃ r ∈ ls, r.inertial.isSome) ∨ weldsAfter (names0 m0) cs ≠ []) :
    ∃ C J s', pySolveComFk qs ids act .planer wj s = .ok (C, J) s' ∧ J.cols = ids.length + 6 ∧
      J.cols ≠ ids.length + 3 := by
  obtain ⟨mc, hat⟩ := hr.at
  obtain ⟨C, J, s', mc', e, _, hres⟩ := hat.pySolveComFk (wj := wj) hf ha (.inl (by simp)) hne
  have := hres.jCols
  simp only [reduceCtorEq, if_false] at this
  exact ⟨C, J, s', e, this, by omega⟩

end
end Tinyfk
