import Verif.Proofs.Loops

/-!
# Robots with loops: construction and histories of calls
-/

set_option linter.unusedSectionVars false

namespace Tinyfk

open Scalar

variable {K : Type} [Scalar K]

/-- the centre-of-mass links of the first `k` links -/
def ComUpTo (m0 : KinModel K) (k : Nat) (w : Weld K) : Prop :=
  ∃ (b : Nat) (lk0 : Link K) (inr : Inertial K), b < k ∧ m0.links[b]? = some lk0 ∧ lk0.inertial = some inr ∧
    w = ⟨lk0.name ++ "_com", lk0.name, ⟨inr.origin.position, Rot.one⟩⟩

/-- The state of the constructor after the first `k` links have been treated. -/
structure NetState (ls : List (RawLink K)) (js : List (RawJoint K)) (m0 : KinModel K) (k : Nat)
    (m : KinModel K) : Prop where
  net : Net ls js (ComUpTo m0 k) m
  sized : CacheSized m
  fresh : ∀ l : Nat, m.cache.pred[l]? ≠ some true
  rp : (∃ w, ComUpTo m0 k w) → RpNet m
  rest : ∀ (l : Nat) (lk0 : Link K), k ≤ l → m0.links[l]? = some lk0 →
    ∃ lk : Link K, m.links[l]? = some lk ∧ lk.name = lk0.name ∧ lk.inertial = lk0.inertial
  joints : m.joints = m0.joints
  jointIds : m.jointIds = m0.jointIds
  angles : m.angles = m0.angles
  stack : m.stack = m0.stack

section
variable {ls : List (RawLink K)} {js : List (RawJoint K)} {m0 m : KinModel K}

theorem Net.weaken {W W' : Weld K → Prop} (hW : ∀ w, W w ↔ W' w) (h : Net ls js W m) : Net ls js W' m := by
  have : W = W' := funext fun w => propext (hW w)
  exact this ▸ h

theorem comUpTo_none {k : Nat} {lk0 : Link K} (hl : m0.links[k]? = some lk0) (hi : lk0.inertial = none)
    (w : Weld K) : ComUpTo m0 k w ↔ ComUpTo m0 (k + 1) w := by
  constructor
  · rintro ⟨b, lk, inr, h1, h2⟩; exact ⟨b, lk, inr, by omega, h2⟩
  · rintro ⟨b, lk, inr, h1, h2, h3, h4⟩
    refine ⟨b, lk, inr, ?_, h2, h3, h4⟩
    rcases Nat.lt_succ_iff_lt_or_eq.mp h1 with h | rfl
    · exact h
    · rw [hl] at h2; cases h2; rw [hi] at h3; cases h3

theorem comUpTo_some {k : Nat} {lk0 : Link K} {inr : Inertial K} (hl : m0.links[k]? = some lk0)
    (hi : lk0.inertial = some inr) (w : Weld K) :
    (ComUpTo m0 k w ∨ w = ⟨lk0.name ++ "_com", lk0.name, ⟨inr.origin.position, Rot.one⟩⟩) ↔
      ComUpTo m0 (k + 1) w := by
  constructor
  · rintro (⟨b, lk, inr, h1, h2⟩ | h)
    · exact ⟨b, lk, inr, by omega, h2⟩
    · exact ⟨k, lk0, inr, by omega, hl, hi, h⟩
  · rintro ⟨b, lk, inr', h1, h2, h3, h4⟩
    rcases Nat.lt_succ_iff_lt_or_eq.mp h1 with h | rfl
    · exact .inl ⟨b, lk, inr', h, h2, h3, h4⟩
    · rw [hl] at h2; cases h2; rw [hi] at h3; cases h3
      exact .inr h4

theorem addComLinks_net (n : Nat) : ∀ (k : Nat) (m : KinModel K), NetState ls js m0 k m →
    k + n = m0.links.length → ∀ m', addComLinks (List.range' k n) m = .ok () m' →
    NetState ls js m0 m0.links.length m' := by
  induction n with
  | zero =>
    intro k m h hk m' hm
    cases hm
    have : k = m0.links.length := by omega
    exact this ▸ h
  | succ n ih =>
    intro k m h hk m' hm
    have hlt : k < m0.links.length := by omega
    have hl := List.getElem?_eq_getElem hlt
    obtain ⟨lk, h1, h2, h3⟩ := h.rest k _ (Nat.le_refl _) hl
    rw [List.range'_succ] at hm
    cases hi : m0.links[k].inertial with
    | none =>
      rw [addComLinks_none h1 (by rw [h3, hi])] at hm
      refine ih (k + 1) m ⟨h.net.weaken (comUpTo_none hl hi), h.sized, h.fresh, ?_, ?_, h.joints, h.jointIds,
        h.angles, h.stack⟩ (by omega) m' hm
      · rintro ⟨w, hw⟩; exact h.rp ⟨w, (comUpTo_none hl hi w).mpr hw⟩
      · intro l lk0 hkl; exact h.rest l lk0 (by omega)
    | some inr =>
      cases hf : m.linkIds.find (m0.links[k].name ++ "_com") with
      | some x =>
        rw [addComLinks_exn' h1 (by rw [h3, hi]) (by rw [h2]; exact addNewLink_dup hf _ _)] at hm
        cases hm
      | none =>
        obtain ⟨t, ha, hn, hr⟩ := h.net.addNewLink ⟨inr.origin.position, Rot.one⟩ hf h1
        rw [addComLinks_some h1 (by rw [h3, hi]) (by rw [h2, h.net.ids h1]; exact ha)] at hm
        have hsh := comAttached_shape { attached m (m0.links[k].name ++ "_com") k ⟨inr.origin.position, Rot.one⟩ with rptable := t }
          k m.links.length inr.reset
        have hs0 := cacheSized_attached h.sized (m0.links[k].name ++ "_com") k ⟨inr.origin.position, Rot.one⟩
        refine ih (k + 1) _ ⟨?_, ?_, clear_pred _, fun _ => RpNet.congr hsh rfl rfl rfl hr, ?_, h.joints, h.jointIds,
          h.angles, h.stack⟩ (by omega) m' hm
        · refine (Net.congr hsh rfl rfl rfl rfl rfl rfl rfl hn).weaken ?_
          rw [h2]
          exact comUpTo_some hl hi
        · have e := hsh.length
          exact ⟨hs0.size.trans (by rw [e]), hs0.pred.trans (by rw [e]), hs0.data.trans (by rw [e])⟩
        · intro l lk0 hkl hl0
          obtain ⟨x, a1, a2, a3⟩ := h.rest l lk0 (by omega) hl0
          have hp := (List.getElem?_eq_some_iff.mp h1).1
          obtain ⟨y, d1, d2, _, d3, d4, d5⟩ := attached_old (name := m0.links[k].name ++ "_com")
            (pose := ⟨inr.origin.position, Rot.one⟩) hp a1
          obtain ⟨z, e1, e2, e3, e4, e5⟩ := comAttached_get
            (m' := { attached m (m0.links[k].name ++ "_com") k ⟨inr.origin.position, Rot.one⟩ with rptable := t })
            (l := k) (n := m.links.length) (i' := inr.reset) d1
          have hlt := (List.getElem?_eq_some_iff.mp a1).1
          exact ⟨z, e1, by rw [e2, d2, a2], by rw [e5, if_neg (by omega), d3, a3]⟩

/-- A constructed robot whose joints may close loops. -/
structure NetBuilt (ls : List (RawLink K)) (js : List (RawJoint K)) (m : KinModel K) : Prop where
  net : Net ls js (ComWeld ls) m
  sized : CacheSized m
  coh : Coherent m
  base : m.base = Pose.identity
  angles : m.angles = List.replicate m.joints.length 0
  capacity : m.stack.data.length = ls.length
  rp : (∃ r ∈ ls, r.inertial.isSome) → RpNet m

theorem construct_net (hn : NoCycle js) (hs : Supported js) (hc : construct (buildModel ls js) = .ok m) :
    NetBuilt ls js m := by
  cases hb : buildModel ls js with
  | none => rw [hb] at hc; cases hc
  | some mi =>
    rw [hb] at hc
    have hB := buildModel_spec hb
    obtain ⟨m0, e0, net, elinks, eang, estack, ecache⟩ := initMembers_net hb hn hs
    simp only [construct, e0, Prog.bind] at hc
    cases ha : addComLinks (List.range m0.links.length) m0 with
    | exn e m' => rw [ha] at hc; cases hc
    | ub u => rw [ha] at hc; cases hc
    | hang => rw [ha] at hc; cases hc
    | ok x m' =>
      simp only [ha, setBasePose_eq, Res.toOutcome, Outcome.ok.injEq] at hc
      have hlen : m0.links.length = mi.links.length := by rw [elinks]; simp
      have hN : mi.links.length = ls.length := by
        have := hB.sortedPerm.length_eq
        rw [← this]; simp
      rw [List.range_eq_range'] at ha
      have h0 : NetState ls js m0 0 m0 := by
        refine ⟨net.weaken ?_, ?_, ?_, ?_, fun l lk0 _ h => ⟨lk0, h, rfl, rfl⟩, rfl, rfl, rfl, rfl⟩
        · intro w
          refine ⟨False.elim, ?_⟩
          rintro ⟨b, _, _, hb, _⟩; omega
        · exact ⟨by simp [ecache, SizedCache.mk', hlen], by simp [ecache, SizedCache.mk', hlen], by simp [ecache, SizedCache.mk', hlen]⟩
        · intro l
          rw [ecache]
          simp only [SizedCache.mk', List.getElem?_replicate]
          split <;> simp
        · rintro ⟨_, b, _, _, hb, _⟩; omega
      have hst := addComLinks_net m0.links.length 0 m0 h0 (by omega) m' ha
      have hraw : ∀ (l : Nat) (lk : Link K), m0.links[l]? = some lk → lk.toRaw ∈ ls := by
        intro l lk hl
        rw [elinks, List.getElem?_mapIdx] at hl
        cases hx : mi.links[l]? with
        | none => rw [hx] at hl; cases hl
        | some x =>
          rw [hx] at hl; cases hl
          exact hB.sortedPerm.mem_iff.mp (List.mem_map.mpr ⟨x, List.mem_of_getElem? hx, rfl⟩)
      have hraw' : ∀ r ∈ ls, ∃ (l : Nat) (lk : Link K), m0.links[l]? = some lk ∧ lk.toRaw = r := by
        intro r hr
        obtain ⟨x, hx, rfl⟩ := List.mem_map.mp (hB.sortedPerm.mem_iff.mpr hr)
        obtain ⟨l, hl⟩ := List.mem_iff_getElem?.mp hx
        exact ⟨l, { x with id := l }, by rw [elinks, List.getElem?_mapIdx, hl]; rfl, rfl⟩
      have hW : ∀ w, ComUpTo m0 m0.links.length w ↔ ComWeld ls w := by
        intro w
        constructor
        · rintro ⟨b, lk, inr, h1, h2, h3, rfl⟩
          exact ComWeld.mk (l := lk.toRaw) (hraw b lk h2) h3
        · rintro @⟨r, inr, hr, h1⟩
          obtain ⟨l, lk, h2, rfl⟩ := hraw' r hr
          exact ⟨l, lk, inr, (List.getElem?_eq_some_iff.mp h2).1, h2, h1, rfl⟩
      subst hc
      refine ⟨Net.congr (m := m') (.of_links rfl) rfl rfl rfl rfl rfl rfl rfl (hst.net.weaken hW),
        ⟨hst.sized.size, by simp [SizedCache.clear, hst.sized.size], hst.sized.data⟩, coherent_of_fresh (clear_pred _), rfl, ?_, ?_, ?_⟩
      · show m'.angles = _
        rw [hst.angles, eang, ← hst.joints]
      · show m'.stack.data.length = _
        rw [hst.stack, estack, ← hN]
        simp [SizedStack.mk']
      · rintro ⟨r, hr, hi⟩
        obtain ⟨inr, hi⟩ := Option.isSome_iff_exists.mp hi
        exact RpNet.congr (m := m') (.of_links rfl) rfl rfl rfl
          (hst.rp ⟨_, (hW _).mpr (ComWeld.mk hr hi)⟩)

/-- the abstraction of a state used for histories -/
structure NetAbs (ls : List (RawLink K)) (js : List (RawJoint K)) (m0 : KinModel K)
    (ns : List String) (welds : List (Weld K)) (θ : Nat → K) (b : Pose K) (m : KinModel K) : Prop where
  net : Net ls js (fun w => ComWeld ls w ∨ w ∈ welds) m
  sized : CacheSized m
  coh : Coherent m
  names : m.links.map Link.name = ns
  angles : ∀ i, i < m.joints.length → m.angles[i]? = some (θ i)
  base : m.base = b
  cap : m.stack.data.length = m0.stack.data.length
  joints : m.joints = m0.joints
  jointIds : m.jointIds = m0.jointIds
  rp : (∃ r ∈ ls, r.inertial.isSome) ∨ welds ≠ [] → RpNet m

variable {ns : List String} {welds : List (Weld K)} {θ : Nat → K} {b : Pose K}

theorem NetAbs.keeps (h : NetAbs ls js m0 ns welds θ b m) {α : Type} {p : Prog (KinModel K) α} (hk : Keeps m p)
    {m1 : KinModel K} (hr : (∃ a, p m = .ok a m1) ∨ ∃ e, p m = .exn e m1) :
    NetAbs ls js m0 ns welds θ b m1 := by
  have hg := hk m ⟨.refl m, h.net.tree, h.sized, h.coh⟩
  have : GoodCache m m1 := by
    rcases hr with ⟨a, e⟩ | ⟨e', e⟩ <;> (rw [e] at hg; exact hg)
  obtain ⟨⟨⟨s, c, rfl⟩, hcap⟩, h1, h2, h3⟩ := this
  exact ⟨Net.congr (m := m) (.of_links rfl) rfl rfl rfl rfl rfl rfl rfl h.net, h2, h3, h.names, h.angles, h.base,
    hcap.trans h.cap, h.joints, h.jointIds, fun hne => RpNet.congr (m := m) (.of_links rfl) rfl rfl rfl (h.rp hne)⟩

/-- the step of the specification -/
theorem NetAbs.step (h : NetAbs ls js m0 ns welds θ b m) {c : Call K} {m1 : KinModel K}
    (hr : c.run m = .ok () m1 ∨ ∃ e, c.run m = .exn e m1) :
    NetAbs ls js m0 (linksAfter ns [c]) (welds ++ weldsAfter ns [c])
      (fun i => angleAfter i (θ i) [c]) (baseAfter b [c]) m1 := by
  -- queries
  have query : ∀ {α : Type} {p : Prog (KinModel K) α}, Keeps m p →
      ((Prog.bind p fun _ => Prog.pure ()) m = .ok () m1 ∨ ∃ e, (Prog.bind p fun _ => Prog.pure ()) m = .exn e m1) →
      NetAbs ls js m0 ns welds θ b m1 := by
    intro α p hk hr
    have hk' : Keeps m (Prog.bind p fun _ => Prog.pure ()) := hk.bind fun _ => Keeps.pure m ()
    exact h.keeps hk' (hr.imp (fun h => ⟨_, h⟩) id)
  cases c with
  | setJointAngles ids vals =>
    simp only [linksAfter, weldsAfter, List.append_nil, angleAfter, baseAfter]
    have e : (Call.setJointAngles ids vals).run m = match writeAngles ids vals m.angles with
        | .ok a => .ok () { m with angles := a, cache := m.cache.clear }
        | .exn e => .exn e m
        | .ub u => .ub u
        | .hang => .hang := by
      simp only [Call.run, Tinyfk.setJointAngles, Prog.bind_apply, setJointAnglesNC]
      cases writeAngles ids vals m.angles <;> rfl
    have hnoexn : ∀ (ids : List Nat) (vals a : List K) e, writeAngles ids vals a ≠ .exn e := by
      intro ids
      induction ids with
      | nil => intro vals a e; simp [writeAngles]
      | cons x ids ih =>
        intro vals a e
        cases vals with
        | nil => simp [writeAngles]
        | cons v vals =>
          simp only [writeAngles]
          split
          · exact ih _ _ _
          · simp
    rw [e] at hr
    cases hw : writeAngles ids vals m.angles with
    | exn e' => exact absurd hw (hnoexn _ _ _ _)
    | ub u => rw [hw] at hr; rcases hr with h | ⟨_, h⟩ <;> cases h
    | hang => rw [hw] at hr; rcases hr with h | ⟨_, h⟩ <;> cases h
    | ok a =>
      rw [hw] at hr
      have hm1 : m1 = { m with angles := a, cache := m.cache.clear } := by
        rcases hr with h | ⟨_, h⟩
        · cases h; rfl
        · cases h
      subst hm1
      refine ⟨Net.congr (m := m) (.of_links rfl) rfl rfl rfl rfl (writeAngles_length hw) rfl rfl h.net,
        ⟨h.sized.size, by simp [SizedCache.clear, h.sized.size], h.sized.data⟩, coherent_of_fresh (clear_pred _), h.names,
        ?_, h.base, h.cap, h.joints, h.jointIds,
        fun hne => RpNet.congr (m := m) (.of_links rfl) rfl rfl rfl (h.rp hne)⟩
      intro i hi
      have hi' : i < m.joints.length := hi
      have hlt : i < m.angles.length := by rw [h.net.anglesLen]; exact hi'
      have hθ := h.angles i hi'
      rw [List.getElem?_eq_getElem hlt, Option.some.injEq] at hθ
      show a[i]? = _
      rw [writeAngles_get hw i hlt, hθ]
  | setBasePose p =>
    have e : (Call.setBasePose p).run m = .ok () { m with base := p, cache := m.cache.clear } := rfl
    rw [e] at hr
    have hm1 : m1 = { m with base := p, cache := m.cache.clear } := by
      rcases hr with h | ⟨_, h⟩
      · cases h; rfl
      · cases h
    subst hm1
    simp only [linksAfter, weldsAfter, List.append_nil, angleAfter, baseAfter]
    exact ⟨Net.congr (m := m) (.of_links rfl) rfl rfl rfl rfl rfl rfl rfl h.net,
        ⟨h.sized.size, by simp [SizedCache.clear, h.sized.size], h.sized.data⟩, coherent_of_fresh (clear_pred _), h.names,
        h.angles, rfl, h.cap, h.joints, h.jointIds,
        fun hne => RpNet.congr (m := m) (.of_links rfl) rfl rfl rfl (h.rp hne)⟩
  | setInitAngles =>
    have e : (Call.setInitAngles : Call K).run m =
      .ok () { m with angles := List.replicate m.numDof 0, cache := m.cache.clear } := rfl
    rw [e] at hr
    have hm1 : m1 = { m with angles := List.replicate m.numDof 0, cache := m.cache.clear } := by
      rcases hr with h | ⟨_, h⟩
      · cases h; rfl
      · cases h
    subst hm1
    simp only [linksAfter, weldsAfter, List.append_nil, angleAfter, baseAfter]
    refine ⟨Net.congr (m := m) (.of_links rfl) rfl rfl rfl rfl (by simp [h.net.numDof, h.net.anglesLen]) rfl rfl h.net,
        ⟨h.sized.size, by simp [SizedCache.clear, h.sized.size], h.sized.data⟩, coherent_of_fresh (clear_pred _), h.names,
        ?_, h.base, h.cap, h.joints, h.jointIds,
        fun hne => RpNet.congr (m := m) (.of_links rfl) rfl rfl rfl (h.rp hne)⟩
    intro i hi
    have hi' : i < m.joints.length := hi
    show (List.replicate m.numDof (0 : K))[i]? = some 0
    simp [h.net.numDof, hi']
  | clearCache =>
    have e : (Call.clearCache : Call K).run m = .ok () { m with cache := m.cache.clear } := rfl
    rw [e] at hr
    have hm1 : m1 = { m with cache := m.cache.clear } := by
      rcases hr with h | ⟨_, h⟩
      · cases h; rfl
      · cases h
    subst hm1
    simp only [linksAfter, weldsAfter, List.append_nil, angleAfter, baseAfter]
    exact ⟨Net.congr (m := m) (.of_links rfl) rfl rfl rfl rfl rfl rfl rfl h.net,
        ⟨h.sized.size, by simp [SizedCache.clear, h.sized.size], h.sized.data⟩, coherent_of_fresh (clear_pred _), h.names,
        h.angles, h.base, h.cap, h.joints, h.jointIds,
        fun hne => RpNet.congr (m := m) (.of_links rfl) rfl rfl rfl (h.rp hne)⟩
  | addNewLink name parent pose =>
    simp only [linksAfter, weldsAfter, angleAfter, baseAfter, List.append_nil]
    have hmem : name ∈ ns ↔ ∃ l, m.linkIds.find name = some l := by
      rw [← h.names, List.mem_map]
      constructor
      · rintro ⟨lk, h1, h2⟩
        obtain ⟨l, hl⟩ := List.mem_iff_getElem?.mp h1
        exact ⟨l, (h.net.linkNames name l).mpr ⟨lk, hl, h2⟩⟩
      · rintro ⟨l, hl⟩
        obtain ⟨lk, h1, h2⟩ := (h.net.linkNames name l).mp hl
        exact ⟨lk, List.mem_of_getElem? h1, h2⟩
    by_cases hn : name ∈ ns
    · obtain ⟨l, hl⟩ := hmem.mp hn
      simp only [hn, if_true, List.append_nil]
      have e : (Call.addNewLink name parent pose).run m =
          .exn (.invalidArgument ("link name : " ++ name ++ " already exists")) m := by
        simp only [Call.run, Prog.bind, addNewLink_dup hl]
      rw [e] at hr
      rcases hr with h' | ⟨_, h'⟩
      · cases h'
      · cases h'; exact h
    · have hnone : m.linkIds.find name = none := by
        by_contra hne
        exact hn (hmem.mpr (Option.ne_none_iff_exists'.mp hne))
      simp only [hn, if_false]
      by_cases hp : parent < m.links.length
      · have hpk : m.links[parent]? = some m.links[parent] := List.getElem?_eq_getElem hp
        obtain ⟨t, h1, h2, h3⟩ := h.net.addNewLink pose hnone hpk
        have hm1 : m1 = { attached m name parent pose with rptable := t } := by
          have e : (Call.addNewLink name parent pose).run m =
              .ok () { attached m name parent pose with rptable := t } := by
            simp only [Call.run, Prog.bind, h1, Prog.pure]
          rw [e] at hr
          rcases hr with h' | ⟨_, h'⟩
          · cases h'; rfl
          · cases h'
        subst hm1
        have hns : ns[parent]? = some m.links[parent].name := by
          rw [← h.names, List.getElem?_map, hpk]; rfl
        rw [hns]
        refine ⟨h2.weaken (fun w => by simp [or_assoc]), ?_, coherent_of_fresh (clear_pred _), ?_, h.angles, h.base,
          h.cap, h.joints, h.jointIds, fun _ => h3⟩
        · have hs := cacheSized_attached h.sized name parent pose
          exact ⟨hs.size, hs.pred, hs.data⟩
        · show (attached m name parent pose).links.map Link.name = _
          rw [← h.names]
          apply List.ext_getElem?
          intro l
          rw [List.getElem?_map]
          by_cases hl : l < m.links.length
          · obtain ⟨lk', a1, a2, _⟩ := attached_old (name := name) (pose := pose) hp (List.getElem?_eq_getElem hl)
            rw [a1, List.getElem?_append_left (by simpa using hl), List.getElem?_map, List.getElem?_eq_getElem hl]
            simp [a2]
          · by_cases hl' : l = m.links.length
            · subst hl'
              rw [attached_new hp, List.getElem?_append_right (by simp)]
              simp [newLink]
            · rw [List.getElem?_eq_none_iff.mpr (by rw [attached_length]; omega),
                List.getElem?_eq_none_iff.mpr (by simp; omega)]
              rfl
      · exfalso
        have e : (Call.addNewLink name parent pose).run m = .ub (.outOfBounds "links_[parent_id]") := by
          simp only [Call.run, Prog.bind, addNewLink, hnone, hp, if_false]
        rw [e] at hr
        rcases hr with h' | ⟨_, h'⟩ <;> cases h'
  | getLinkPose l => simpa only [linksAfter, weldsAfter, List.append_nil, angleAfter, baseAfter] using query (Keeps.getLinkPose l) hr
  | getJacobian l ids rt wb => simpa only [linksAfter, weldsAfter, List.append_nil, angleAfter, baseAfter] using query (Keeps.getJacobian l ids rt wb) hr
  | getCom => simpa only [linksAfter, weldsAfter, List.append_nil, angleAfter, baseAfter] using query Keeps.getCom hr
  | getComJacobian ids wb => simpa only [linksAfter, weldsAfter, List.append_nil, angleAfter, baseAfter] using query (Keeps.getComJacobian ids wb) hr
  | getTotalInertia => simpa only [linksAfter, weldsAfter, List.append_nil, angleAfter, baseAfter] using query Keeps.getTotalInertia hr
  | getJointIds x => simpa only [linksAfter, weldsAfter, List.append_nil, angleAfter, baseAfter] using query (Keeps.read _) hr
  | getLinkIds x => simpa only [linksAfter, weldsAfter, List.append_nil, angleAfter, baseAfter] using query (Keeps.read _) hr
  | getJointAngles x => simpa only [linksAfter, weldsAfter, List.append_nil, angleAfter, baseAfter] using query (Keeps.read _) hr
  | getJointPositionLimits x => simpa only [linksAfter, weldsAfter, List.append_nil, angleAfter, baseAfter] using query (Keeps.read _) hr

theorem NetAbs.runs (h : NetAbs ls js m0 ns welds θ b m) {cs : List (Call K)} {m' : KinModel K}
    (hr : Runs m cs m') : NetAbs ls js m0 (linksAfter ns cs) (welds ++ weldsAfter ns cs)
      (fun i => angleAfter i (θ i) cs) (baseAfter b cs) m' := by
  induction hr generalizing ns welds θ b with
  | nil => simpa [linksAfter, weldsAfter, angleAfter, baseAfter] using h
  | ok h1 _ ih =>
    have := ih (h.step (.inl h1))
    rw [linksAfter_cons, weldsAfter_cons, baseAfter_cons, ← List.append_assoc]
    rw [funext fun i => angleAfter_cons i (θ i) _ _]
    exact this
  | exn h1 _ ih =>
    have := ih (h.step (.inr ⟨_, h1⟩))
    rw [linksAfter_cons, weldsAfter_cons, baseAfter_cons, ← List.append_assoc]
    rw [funext fun i => angleAfter_cons i (θ i) _ _]
    exact this

theorem NetBuilt.abs (h : NetBuilt ls js m) :
    NetAbs ls js m (m.links.map Link.name) [] (fun _ => 0) Pose.identity m := by
  refine ⟨h.net.weaken (fun w => by simp), h.sized, h.coh, rfl, ?_, h.base, rfl, rfl, rfl, ?_⟩
  · intro i hi
    rw [h.angles]
    simp [hi]
  · rintro (hr | hne)
    · exact h.rp hr
    · exact absurd rfl hne

/-- Everything known about a state reached from construction by a history of calls. -/
theorem LoopReach.abs {cs : List (Call K)} (h : LoopReach ls js m0 cs m) :
    NetAbs ls js m0 (linksAfter (names0 m0) cs) (weldsAfter (names0 m0) cs)
      (fun i => angleAfter i 0 cs) (baseAfter Pose.identity cs) m := by
  have := (construct_net h.noCycle h.supported h.built).abs.runs h.runs
  simpa [names0] using this

theorem LoopReach.capacity {cs : List (Call K)} (h : LoopReach ls js m0 cs m) :
    m.stack.data.length = ls.length :=
  h.abs.cap.trans (construct_net h.noCycle h.supported h.built).capacity

theorem NetAbs.anglesAre {θ : Nat → K} (h : NetAbs ls js m0 ns welds θ b m) {φ : String → K}
    (hφ : ∀ s i, m0.jointIds.find s = some i → φ s = θ i) : AnglesAre m φ := by
  intro s i hi
  rw [h.jointIds] at hi
  have hlt : i < m.joints.length := by
    rw [← h.jointIds] at hi
    obtain ⟨jp, _, hj, _⟩ := (h.net.jointNames s i).mp hi
    exact (List.getElem?_eq_some_iff.mp hj).1
  rw [h.angles i hlt, hφ s i hi]

end

end Tinyfk
