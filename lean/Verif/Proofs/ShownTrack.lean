import Verif.Proofs.Shown

/-!
# Following the cache through a history
-/

set_option linter.unusedSectionVars false

namespace Tinyfk

open Scalar

variable {K : Type} [Scalar K] {α β : Type}

/-- the angles with which the joints show -/
def shownList (m : KinModel K) (sn : Nat → Seen K) : List K := (List.range m.angles.length).map fun i => (sn i).value

theorem shownList_get {m : KinModel K} {sn : Nat → Seen K} {i : Nat} (h : i < m.angles.length) :
    (shownList m sn)[i]? = some (sn i).value := by
  simp [shownList, h]

theorem shownList_length (m : KinModel K) (sn : Nat → Seen K) : (shownList m sn).length = m.angles.length := by
  simp [shownList]

/-- `sn` tells the values of the joints of `m`, and what the cache holds of them. -/
structure Tracks (m : KinModel K) (sn : Nat → Seen K) : Prop where
  now : ∀ i, i < m.angles.length → m.angles[i]? = some (sn i).now
  held : ∀ (i jp h : Nat) (lk : Link K), m.joints[i]? = some jp → m.links[h]? = some lk → lk.parentJoint = some jp →
    ((sn i).held.isSome ↔ Cached m h)
  coh : Coherent (m.hid (shownList m sn))

theorem Seen.value_none {s : Seen K} (h : ¬ s.held.isSome) : s.value = s.now := by
  rcases s with ⟨now, _ | v⟩
  · rfl
  · simp at h

theorem Tracks.sees {m : KinModel K} {sn : Nat → Seen K} (h : Tracks m sn) (g : Graph m) : Sees (shownList m sn) m := by
  intro x p jp i lk j h1 h2 h3 h4 h5 h6 h7
  obtain ⟨jp', j', e1, e2, e3⟩ := g.pjoint h1 h3
  rw [h4] at e1; cases e1
  rw [h5] at e2; cases e2
  rcases e3 with e3 | ⟨_, i', e4, e5⟩
  · exact absurd e3 h6
  rw [h7] at e4; cases e4
  have hi : i < m.angles.length := by rw [g.anglesLen]; exact (List.getElem?_eq_some_iff.mp e5).1
  rw [shownList_get hi, h.now i hi, Seen.value_none]
  intro hs
  obtain ⟨T, hT⟩ := (h.held i jp x lk e5 h1 h4).mp hs
  exact h2 T (by rw [g.ids h1]; exact hT)

theorem cached_iff_pred {m : KinModel K} (hs : CacheSized m) (x : Nat) : Cached m x ↔ m.cache.pred[x]? = some true := by
  constructor
  · rintro ⟨T, hT⟩
    unfold SizedCache.getCache at hT
    split at hT
    · cases hT
    · cases hT
    · assumption
  · intro h
    have hlt : x < m.links.length := by
      rw [← hs.pred]; exact (List.getElem?_eq_some_iff.mp h).1
    rcases getCache_of_lt hs hlt with ⟨_, h'⟩ | ⟨T, h', _⟩
    · rw [h] at h'; cases h'
    · exact ⟨T, h'⟩

theorem Fresh.not_cached {m : KinModel K} (h : Fresh m) (x : Nat) : ¬ Cached m x := by
  rintro ⟨T, hT⟩
  unfold SizedCache.getCache at hT
  split at hT
  · cases hT
  · cases hT
  · exact h _ (by assumption)

theorem Fresh.closed {m : KinModel K} (h : Fresh m) : Closed m := fun x _ _ hx => absurd hx (h.not_cached x)

theorem IsPose.hid {m : KinModel K} (g : Graph m) (hc : Closed m) {a a' : List K} {l : Nat} {T : Pose K}
    (h : IsPose (m.hid a) l T) (hl : Cached m l ∨ ¬ HasParent m l)
    (he : ∀ (i jp h : Nat) (lk : Link K), m.joints[i]? = some jp → m.links[h]? = some lk → lk.parentJoint = some jp →
      Cached m h → a'[i]? = a[i]?) : IsPose (m.hid a') l T := by
  induction h with
  | root h1 h2 => exact .root (m := m.hid a') h1 h2
  | @child l p jp lk j T B h1 h2 h3 h4 h5 h6 ih =>
    have h1' : m.links[l]? = some lk := h1
    have h4' : m.jheap[jp]? = some j := h4
    have hcl : Cached m l := hl.resolve_right (fun hn => hn ⟨lk, p, h1', h2⟩)
    refine .child (m := m.hid a') h1 h2 h3 h4 ?_ (ih ?_)
    · cases h5 with
      | fixed hf => exact .fixed hf
      | @movable i θ M e1 e2 e3 =>
        obtain ⟨jp', j', f1, f2, f3⟩ := g.pjoint h1' h2
        rw [h3] at f1; cases f1
        rw [h4'] at f2; cases f2
        rcases f3 with f3 | ⟨_, i', f4, f5⟩
        · cases e3 with
          | rot h => rcases h with h | h <;> rw [f3] at h <;> cases h
          | slide h => rw [f3] at h; cases h
        · rw [e1] at f4; cases f4
          refine .movable e1 ?_ e3
          exact (he i jp l lk f5 h1' h3 hcl).trans e2
    · by_cases hp : HasParent m p
      · exact .inl (hc l p lk hcl h1' h2 hp)
      · exact .inr hp

/-- writing angles -/
theorem Tracks.write {m : KinModel K} {sn sn' : Nat → Seen K} (h : Tracks m sn) (g : Graph m) (hs : CacheSized m) (hc : Closed m)
    {a : List K} (hlen : a.length = m.angles.length) (ha : ∀ i, i < m.angles.length → a[i]? = some (sn' i).now)
    (hh : ∀ i, (sn' i).held = (sn i).held) : Tracks { m with angles := a } sn' := by
  refine ⟨fun i hi => ha i (by rw [← hlen]; exact hi), ?_, ?_⟩
  · intro i jp x lk h1 h2 h3
    rw [hh]
    exact h.held i jp x lk h1 h2 h3
  · intro l hl
    obtain ⟨T, hT, hp⟩ := h.coh l hl
    refine ⟨T, hT, ?_⟩
    have := hp.hid (a' := shownList { m with angles := a } sn') g hc (.inl ((cached_iff_pred hs l).mpr hl)) ?_
    · exact IsPose.congr (m := m.hid (shownList { m with angles := a } sn')) rfl rfl rfl rfl this
    · intro i jp x lk h1 h2 h3 h4
      have hi : i < m.angles.length := by rw [g.anglesLen]; exact (List.getElem?_eq_some_iff.mp h1).1
      rw [shownList_get hi, shownList_get (m := { m with angles := a }) (by show i < a.length; omega)]
      have hsome := (h.held i jp x lk h1 h2 h3).mpr h4
      have := hh i
      unfold Seen.value
      rw [this]
      cases hv : (sn i).held with
      | none => rw [hv] at hsome; cases hsome
      | some v => rfl

/-- no pose cached -/
theorem Tracks.fresh {m : KinModel K} {sn : Nat → Seen K} (hf : Fresh m)
    (ha : ∀ i, i < m.angles.length → m.angles[i]? = some (sn i).now) (hh : ∀ i, (sn i).held = none) : Tracks m sn := by
  refine ⟨ha, ?_, coherent_of_fresh hf⟩
  intro i jp x lk _ _ _
  rw [hh]
  simp [hf.not_cached x]

/-- a query that caches what `A` says -/
theorem Tracks.ask {m m' : KinModel K} {sn sn' : Nat → Seen K} (h : Tracks m sn) (g : Graph m) (hs : CacheSized m)
    {p : Prog (KinModel K) α} {v : α} (e : p m = .ok v m') (hst : Stays p) (hb : Blind p) (hk : ∀ m, Keeps m p)
    {A : Nat → Prop} (hA : ∀ x, Cached m' x ↔ Cached m x ∨ A x)
    (hn : ∀ i, (sn' i).now = (sn i).now ∧ (sn' i).value = (sn i).value)
    (hh : ∀ (i jp h : Nat) (lk : Link K), m.joints[i]? = some jp → m.links[h]? = some lk → lk.parentJoint = some jp →
      ((sn' i).held.isSome ↔ (sn i).held.isSome ∨ A h)) : Tracks m' sn' := by
  have he := hst.ok g.tree e
  have hsame := he.same
  have hl : shownList m' sn' = shownList m sn := by
    obtain ⟨⟨st, c, rfl⟩, _⟩ := hsame
    simp only [shownList, (hn _).2]
  have e' := hb m (shownList m sn) g.tree (h.sees g)
  rw [e] at e'
  have hgood : GoodCache (m.hid (shownList m sn)) (m.hid (shownList m sn)) :=
    ⟨.refl _, Tree.congr (m := m) rfl rfl (shownList_length m sn) g.tree, ⟨hs.size, hs.pred, hs.data⟩, h.coh⟩
  have hk' := hk (m.hid (shownList m sn)) _ hgood
  rw [e'] at hk'
  refine ⟨?_, ?_, by rw [hl]; exact hk'.coh⟩
  · intro i hi
    have : m'.angles = m.angles := by obtain ⟨⟨st, c, rfl⟩, _⟩ := hsame; rfl
    rw [this] at hi ⊢
    rw [(hn i).1]
    exact h.now i hi
  · intro i jp x lk h1 h2 h3
    have e1 : m'.joints = m.joints := by obtain ⟨⟨st, c, rfl⟩, _⟩ := hsame; rfl
    rw [e1] at h1
    rw [hsame.links] at h2
    rw [hh i jp x lk h1 h2 h3, hA, h.held i jp x lk h1 h2 h3]

/-! ### Events -/

variable {i : Nat} {on : Nat → Prop} {mass : Prop}

theorem seenAfter_append (evs evs' : List (Event K)) :
    seenAfter i on mass (evs ++ evs') = evs'.foldl (Seen.step i on mass) (seenAfter i on mass evs) := by
  simp [seenAfter]

open Classical in
theorem Seen.asks (L : List Nat) (s : Seen K) :
    ((L.map Event.ask).foldl (Seen.step i on mass) s).now = s.now ∧
    ((L.map Event.ask).foldl (Seen.step i on mass) s).value = s.value ∧
    (((L.map Event.ask).foldl (Seen.step i on mass) s).held.isSome ↔ s.held.isSome ∨ ∃ l ∈ L, on l) := by
  induction L generalizing s with
  | nil => simp
  | cons l L ih =>
    simp only [List.map_cons, List.foldl_cons]
    obtain ⟨h1, h2, h3⟩ := ih (s.step i on mass (.ask l))
    rw [h1, h2, h3]
    simp only [Seen.step]
    split
    · rename_i h
      refine ⟨rfl, rfl, ?_⟩
      simp only [Option.isSome_some, true_or, true_iff]
      exact .inr ⟨l, by simp, h⟩
    · rename_i h
      refine ⟨rfl, rfl, ?_⟩
      constructor
      · rintro (h | ⟨l', h', h''⟩)
        · exact .inl h
        · exact .inr ⟨l', by simp [h'], h''⟩
      · rintro (h | ⟨l', h', h''⟩)
        · exact .inl h
        · rcases List.mem_cons.mp h' with rfl | h'
          · exact absurd h'' h
          · exact .inr ⟨l', h', h''⟩

open Classical in
theorem Seen.askMasses (s : Seen K) :
    (s.step i on mass .askMasses).now = s.now ∧ (s.step i on mass .askMasses).value = s.value ∧
    ((s.step i on mass .askMasses).held.isSome ↔ s.held.isSome ∨ mass) := by
  simp only [Seen.step]
  split
  · rename_i h
    refine ⟨rfl, rfl, by simp [h]⟩
  · rename_i h
    refine ⟨rfl, rfl, by simp [h]⟩

/-- `on` and `mass` tell which links and whether some mass are below which joint -/
def Agrees (m : KinModel K) (on : Nat → Nat → Prop) (mass : Nat → Prop) : Prop :=
  ∀ i jp, m.joints[i]? = some jp → (∀ l, l < m.links.length → (on i l ↔ OnPath m jp l)) ∧
    (mass i ↔ ∃ d ∈ m.comDummy, OnPath m jp d)

theorem Agrees.same {m m' : KinModel K} {on : Nat → Nat → Prop} {mass : Nat → Prop} (h : Agrees m' on mass)
    (h1 : m'.joints = m.joints) (h2 : m'.links = m.links) (h3 : m'.comDummy = m.comDummy) : Agrees m on mass := by
  intro i jp hi
  obtain ⟨a, b⟩ := h i jp (by rw [h1]; exact hi)
  refine ⟨fun l hl => (a l (by rw [h2]; exact hl)).trans ⟨fun h => h.congr h2.symm, fun h => h.congr h2⟩, b.trans ?_⟩
  rw [h3]
  exact ⟨fun ⟨d, x, h⟩ => ⟨d, x, h.congr h2.symm⟩, fun ⟨d, x, h⟩ => ⟨d, x, h.congr h2⟩⟩

/-- `m` after calls with effect `cs` and the events `evs` -/
structure Sits (ls : List (RawLink K)) (js : List (RawJoint K)) (m0 : KinModel K) (cs : List (Call K)) (evs : List (Event K))
    (m : KinModel K) : Prop where
  at_ : ∃ mc, At ls js m0 cs mc m
  closed : Closed m
  tracks : ∀ on mass, Agrees m on mass → Tracks m fun i => seenAfter i (on i) (mass i) evs

section
variable {ls : List (RawLink K)} {js : List (RawJoint K)} {m0 m m' : KinModel K} {cs : List (Call K)} {evs : List (Event K)}

theorem Sits.graph (h : Sits ls js m0 cs evs m) : Graph m := h.at_.choose_spec.graph

theorem construct_fresh {x : Option (ModelInterface K)} (h : construct x = .ok m0) : Fresh m0 := by
  cases x with
  | none => cases h
  | some mi =>
    simp only [construct] at h
    split at h
    · rename_i m1 _
      unfold Prog.bind at h
      cases ha : addComLinks (List.range m1.links.length) m1 with
      | ok u m2 =>
        rw [ha] at h
        simp only [setBasePose_eq, Res.toOutcome, Outcome.ok.injEq] at h
        subst h
        exact clear_pred _
      | exn e m2 => rw [ha] at h; cases h
      | ub u => rw [ha] at h; cases h
      | hang => rw [ha] at h; cases h
    all_goals cases h

theorem Sits.start (ht : IsTree js) (hs : Supported js) (hb : construct (buildModel ls js) = .ok m0) : Sits ls js m0 [] [] m0 := by
  have hr : Reach ls js m0 [] m0 := ⟨ht, hs, hb, .nil⟩
  have hf := construct_fresh hb
  refine ⟨⟨m0, .of_reach hr⟩, hf.closed, fun on mass _ => .fresh hf ?_ fun _ => rfl⟩
  intro i hi
  rw [hr.abs.angles i (by rw [← hr.abs.inv.graph.anglesLen]; exact hi)]
  rfl

theorem At.setNC' {mc : KinModel K} (h : At ls js m0 cs mc m) {ids : List Nat} {q : List K} {u : Unit}
    (e : setJointAnglesNC ids q m = .ok u m') : ∃ mc1, At ls js m0 (cs ++ [.setJointAngles ids q]) mc1 m' := by
  obtain ⟨a, hw, rfl⟩ := setJointAnglesNC_angles e
  obtain ⟨⟨st, c, rfl⟩, hcap⟩ := h.same
  have hw' : writeAngles ids q mc.angles = .ok a := hw
  have hrun : Call.run (.setJointAngles ids q) mc = .ok () { mc with angles := a, cache := mc.cache.clear } := by
    simp only [Call.run, setJointAngles, Prog.bind_apply, setJointAnglesNC, hw', clearCache, Prog.modify]
  exact ⟨_, h.reach.snoc hrun, ⟨⟨st, c, rfl⟩, hcap⟩, ⟨h.sized.size, h.sized.pred, h.sized.data⟩⟩

theorem Sits.write' (h : Sits ls js m0 cs evs m) {ids : List Nat} {q : List K} {u : Unit} (e : setJointAnglesNC ids q m = .ok u m')
    {cs' : List (Call K)} {mc1 : KinModel K} (h1 : At ls js m0 cs' mc1 m') : Sits ls js m0 cs' (evs ++ [.write ids q]) m' := by
  obtain ⟨mc, ha⟩ := h.at_
  obtain ⟨a, hw, rfl⟩ := setJointAnglesNC_angles e
  have hlen := writeAngles_length hw
  refine ⟨⟨mc1, h1⟩, ?_, ?_⟩
  · exact fun x p lk hx h1 h2 h3 => h.closed x p lk hx h1 h2 h3
  · intro on mass hag
    have ht := h.tracks on mass (hag.same rfl rfl rfl)
    refine ht.write ha.graph ha.sized h.closed hlen ?_ fun i => ?_
    · intro i hi
      rw [writeAngles_get hw i hi, seenAfter_append]
      have := ht.now i hi
      rw [List.getElem?_eq_getElem hi] at this
      simp only [Option.some.injEq] at this
      simp only [List.foldl_cons, List.foldl_nil, Seen.step, this]
    · rw [seenAfter_append]
      rfl

theorem Sits.write (h : Sits ls js m0 cs evs m) {ids : List Nat} {q : List K} {u : Unit} (e : setJointAnglesNC ids q m = .ok u m') :
    Sits ls js m0 (cs ++ [.setJointAngles ids q]) (evs ++ [.write ids q]) m' := by
  obtain ⟨mc, ha⟩ := h.at_
  obtain ⟨mc1, h1⟩ := ha.setNC' e
  exact h.write' e h1

theorem Sits.cleared (h : Sits ls js m0 cs evs m) {cs' : List (Call K)} {mc : KinModel K} (ha : At ls js m0 cs' mc m')
    (hf : Fresh m') (ho : ∀ on mass, Agrees m' on mass → Agrees m on mass) (han : m'.angles = m.angles) :
    Sits ls js m0 cs' (evs ++ [.clear]) m' := by
  refine ⟨⟨mc, ha⟩, hf.closed, fun on mass hag => .fresh hf ?_ ?_⟩
  · intro i hi
    rw [han] at hi ⊢
    rw [(h.tracks on mass (ho on mass hag)).now i hi, seenAfter_append]
    rfl
  · intro i
    rw [seenAfter_append]
    rfl

theorem Sits.clear (h : Sits ls js m0 cs evs m) {u : Unit} (e : clearCache m = .ok u m') : Sits ls js m0 cs (evs ++ [.clear]) m' := by
  obtain ⟨mc, ha⟩ := h.at_
  obtain ⟨m1, e1, h1, h2, _⟩ := ha.clear
  rw [e] at e1; cases e1
  cases e
  exact h.cleared h1 h2 (fun on mass hag => hag.same rfl rfl rfl) rfl

theorem Sits.setBase (h : Sits ls js m0 cs evs m) {b : Pose K} {u : Unit} (e : setBasePose b m = .ok u m') :
    Sits ls js m0 (cs ++ [.setBasePose b]) (evs ++ [.clear]) m' := by
  obtain ⟨mc, ha⟩ := h.at_
  obtain ⟨m1, mc1, e1, h1, h2⟩ := ha.setBase b
  rw [e] at e1; cases e1
  rw [setBasePose_eq] at e
  cases e
  exact h.cleared h1 h2 (fun on mass hag => hag.same rfl rfl rfl) rfl

theorem Sits.zero (h : Sits ls js m0 cs evs m) {u : Unit} (e : setInitAngles m = .ok u m') :
    Sits ls js m0 (cs ++ [.setInitAngles]) (evs ++ [.zero, .clear]) m' := by
  obtain ⟨mc, ha⟩ := h.at_
  have hg := ha.graph
  cases e
  obtain ⟨⟨st, c, rfl⟩, hcap⟩ := ha.same
  have hf : Fresh { mc with stack := st, cache := c.clear, angles := List.replicate mc.numDof (0 : K) } := clear_pred _
  have h1 : At ls js m0 (cs ++ [.setInitAngles]) { mc with angles := List.replicate mc.numDof (0 : K), cache := mc.cache.clear }
      { mc with stack := st, cache := c.clear, angles := List.replicate mc.numDof (0 : K) } := by
    refine ⟨ha.reach.snoc rfl, ⟨⟨st, c.clear, rfl⟩, hcap⟩, ?_⟩
    have := cacheSized_clear ha.sized
    exact ⟨this.size, this.pred, this.data⟩
  refine ⟨⟨_, h1⟩, hf.closed, fun on mass hag => .fresh hf ?_ ?_⟩
  · intro i hi
    rw [seenAfter_append]
    have hi' : i < mc.numDof := by simpa using hi
    simp [Seen.step, hi']
  · intro i
    rw [seenAfter_append]
    rfl

theorem At.find_none {mc : KinModel K} (h : At ls js m0 cs mc m) (name : String) :
    m.linkIds.find name = none ↔ name ∉ linksAfter (names0 m0) cs := by
  have hA := h.reach.abs
  have hmem : name ∈ linksAfter (names0 m0) cs ↔ ∃ l, m.linkIds.find name = some l := by
    obtain ⟨⟨st, c, rfl⟩, _⟩ := h.same
    rw [← hA.names, List.mem_map]
    constructor
    · rintro ⟨lk, h1, h2⟩
      obtain ⟨l, hl⟩ := List.mem_iff_getElem?.mp h1
      exact ⟨l, (hA.inv.graph.linkNames name l).mpr ⟨lk, hl, h2⟩⟩
    · rintro ⟨l, hl⟩
      obtain ⟨lk, h1, h2⟩ := (hA.inv.graph.linkNames name l).mp hl
      exact ⟨lk, List.mem_of_getElem? h1, h2⟩
  rw [hmem]
  cases m.linkIds.find name <;> simp

theorem addNewLink_ok_inv {name : String} {parent : Nat} {o : Pose K} {v : Nat} (e : addNewLink name parent o m = .ok v m') :
    m.linkIds.find name = none ∧ parent < m.links.length ∧ v = m.links.length ∧
      ∃ t, m' = { attached m name parent o with rptable := t } := by
  cases hn : m.linkIds.find name with
  | some l => rw [addNewLink_dup hn] at e; cases e
  | none =>
    by_cases hp : parent < m.links.length
    · have e1 : addNewLink name parent o m =
          Prog.bind updateRptable (fun _ => Prog.pure m.links.length) (attached m name parent o) := by
        simp only [Tinyfk.addNewLink, hn]
        rw [if_pos hp]; rfl
      rw [e1] at e
      unfold Prog.bind at e
      cases hu : updateRptable (attached m name parent o) with
      | ok a m1 =>
        rw [hu] at e
        simp only [Prog.pure, Res.ok.injEq] at e
        refine ⟨rfl, hp, e.1.symm, ?_⟩
        unfold updateRptable at hu
        split at hu
        · rename_i t _
          simp only [Res.ok.injEq] at hu
          exact ⟨t, by rw [← e.2, hu.2]⟩
        all_goals cases hu
      | exn x m1 => rw [hu] at e; cases e
      | ub u => rw [hu] at e; cases e
      | hang => rw [hu] at e; cases e
    · simp only [Tinyfk.addNewLink, hn] at e
      rw [if_neg hp] at e
      cases e

theorem Sits.addLink (h : Sits ls js m0 cs evs m) {name : String} {parent : Nat} {o : Pose K} {v : Nat}
    (e : addNewLink name parent o m = .ok v m') : Sits ls js m0 (cs ++ [.addNewLink name parent o]) (evs ++ [.clear]) m' := by
  obtain ⟨mc, ha⟩ := h.at_
  obtain ⟨hn, hp, rfl, t, rfl⟩ := addNewLink_ok_inv e
  obtain ⟨mc1, m1, e1, h1⟩ := ha.addLink (o := o) hn hp
  rw [e] at e1; cases e1
  refine h.cleared h1 (clear_pred _) (fun on mass hag => ?_) rfl
  intro i jp hi
  obtain ⟨a, b⟩ := hag i jp hi
  have hl : ∀ l, l < m.links.length → (OnPath { attached m name parent o with rptable := t } jp l ↔ OnPath m jp l) := fun l hl =>
    ⟨fun h => OnPath.of_attached ha.graph hp hl
        (OnPath.congr (m := { attached m name parent o with rptable := t }) (m' := attached m name parent o) rfl h),
      fun h => OnPath.congr (m := attached m name parent o) (m' := { attached m name parent o with rptable := t }) rfl
        (h.attached hp)⟩
  refine ⟨fun l hll => (a l ?_).trans (hl l hll), b.trans ?_⟩
  · show l < (attached m name parent o).links.length
    rw [attached_length]
    omega
  · have hd : ∀ d ∈ m.comDummy, d < m.links.length := by
      intro d hd
      obtain ⟨⟨st, c, rfl⟩, _⟩ := ha.same
      obtain ⟨lk, _, h, _⟩ := ha.reach.abs.inv.com d hd
      exact (List.getElem?_eq_some_iff.mp h).1
    exact ⟨fun ⟨d, x, y⟩ => ⟨d, x, (hl d (hd d x)).mp y⟩, fun ⟨d, x, y⟩ => ⟨d, x, (hl d (hd d x)).mpr y⟩⟩

theorem At.rpSound {mc : KinModel K} (h : At ls js m0 cs mc m) : RpSound m := by
  have hA := h.reach.abs
  have key : RpSound mc := by
    by_cases hw : weldsAfter (names0 m0) cs = []
    · by_cases hc : mc.comDummy = []
      · intro l i hl
        have h1 : m0.comDummy = [] := by rw [← hA.coms]; exact hc
        rw [hA.noRp hw, h.reach.constructed.noRp h1] at hl
        simp [RpTable.isRelevant] at hl
      · intro l i hl
        exact ((hA.inv.rp hc).iff l i).mp hl
    · intro l i hl
      exact ((hA.rpw hw).iff l i).mp hl
  intro l i hl
  obtain ⟨⟨st, c, rfl⟩, _⟩ := h.same
  obtain ⟨jp, h1, h2⟩ := key l i hl
  exact ⟨jp, h1, OnPath.congr (m := mc) (m' := { mc with stack := st, cache := c }) rfl h2⟩

/-- a query of links -/
theorem Sits.ask (h : Sits ls js m0 cs evs m) {p : Prog (KinModel K) α} {v : α} (e : p m = .ok v m') (hst : Stays p) (hb : Blind p)
    (hk : ∀ m, Keeps m p) {L : List Nat} (hl : ∀ l ∈ L, l < m.links.length) (ha : Asks m p (AboveAny m L) (AboveAny m L)) :
    Sits ls js m0 cs (evs ++ L.map .ask) m' := by
  obtain ⟨mc, hat⟩ := h.at_
  have g := hat.graph
  obtain ⟨h1, h2, h3, h4, h5⟩ := ha m v m' (.refl m) h.closed e
  have he := hst.ok g.tree e
  refine ⟨⟨mc, hat.ext he⟩, h2, fun on mass hag => ?_⟩
  have hag' : Agrees m on mass := by
    obtain ⟨⟨st, c, rfl⟩, _⟩ := h1
    exact hag.same rfl rfl rfl
  refine (h.tracks on mass hag').ask g hat.sized e hst hb hk
    (A := AboveAny m L) (fun x => ⟨h5 x, fun hx => hx.elim (h3 x) (h4 x)⟩) ?_ ?_
  · intro i
    rw [seenAfter_append]
    exact ⟨(Seen.asks L _).1, (Seen.asks L _).2.1⟩
  · intro i jp x lk f1 f2 f3
    rw [seenAfter_append, (Seen.asks L _).2.2]
    refine or_congr Iff.rfl ?_
    obtain ⟨_, _, lk', p', _, _, _, _, g1, g2, g3⟩ := g.joint f1
    have := g.pjUnique f2 g1 f3 g2
    subst this
    rw [f2] at g1; cases g1
    constructor
    · rintro ⟨l, hl', hon⟩
      exact ⟨l, hl', ⟨lk, p', f2, g3⟩, (g.onPath_iff f2 f3 g3 l).mp (((hag' i jp f1).1 l (hl l hl')).mp hon)⟩
    · rintro ⟨l, hl', _, hanc⟩
      exact ⟨l, hl', ((hag' i jp f1).1 l (hl l hl')).mpr ((g.onPath_iff f2 f3 g3 l).mpr hanc)⟩

/-- a query of the masses -/
theorem Sits.askMasses (h : Sits ls js m0 cs evs m) {p : Prog (KinModel K) α} {v : α} (e : p m = .ok v m') (hst : Stays p)
    (hb : Blind p) (hk : ∀ m, Keeps m p) (ha : Asks m p (AboveAny m m.comDummy) (AboveAny m m.comDummy)) :
    Sits ls js m0 cs (evs ++ [.askMasses]) m' := by
  obtain ⟨mc, hat⟩ := h.at_
  have g := hat.graph
  obtain ⟨h1, h2, h3, h4, h5⟩ := ha m v m' (.refl m) h.closed e
  have he := hst.ok g.tree e
  refine ⟨⟨mc, hat.ext he⟩, h2, fun on mass hag => ?_⟩
  have hag' : Agrees m on mass := by
    obtain ⟨⟨st, c, rfl⟩, _⟩ := h1
    exact hag.same rfl rfl rfl
  refine (h.tracks on mass hag').ask g hat.sized e hst hb hk
    (A := AboveAny m m.comDummy) (fun x => ⟨h5 x, fun hx => hx.elim (h3 x) (h4 x)⟩) ?_ ?_
  · intro i
    rw [seenAfter_append]
    exact ⟨(Seen.askMasses (i := i) (on := on i) _).1, (Seen.askMasses (i := i) (on := on i) _).2.1⟩
  · intro i jp x lk f1 f2 f3
    rw [seenAfter_append]
    show ((Seen.step i (on i) (mass i) _ .askMasses).held.isSome ↔ _)
    rw [(Seen.askMasses _).2.2]
    refine or_congr Iff.rfl ((hag' i jp f1).2.trans ?_)
    obtain ⟨_, _, lk', p', _, _, _, _, g1, g2, g3⟩ := g.joint f1
    have := g.pjUnique f2 g1 f3 g2
    subst this
    rw [f2] at g1; cases g1
    constructor
    · rintro ⟨l, hl', hon⟩
      exact ⟨l, hl', ⟨lk, p', f2, g3⟩, (g.onPath_iff f2 f3 g3 l).mp hon⟩
    · rintro ⟨l, hl', _, hanc⟩
      exact ⟨l, hl', (g.onPath_iff f2 f3 g3 l).mpr hanc⟩

end

end Tinyfk
