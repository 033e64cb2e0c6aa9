import Verif.Proofs.Inv

/-!
# The constructor: the centre-of-mass links and the finished model
-/

set_option linter.unusedSectionVars false

namespace Tinyfk

open Scalar

variable {K : Type} [Scalar K]

/-- the inertial with its origin reset -/
def Inertial.reset (i : Inertial K) : Inertial K := { i with origin := Pose.identity }

/-- does link `b` have an inertial -/
def hasInertial (m : KinModel K) (b : Nat) : Bool := (m.links[b]?.bind Link.inertial).isSome

/-- the links with an inertial among the first `k` -/
def comBases (m0 : KinModel K) (k : Nat) : List Nat :=
  (List.range k).filter (hasInertial m0)

theorem comBases_succ (m0 : KinModel K) (k : Nat) :
    comBases m0 (k + 1) = comBases m0 k ++ if hasInertial m0 k then [k] else [] := by
  unfold comBases
  rw [List.range_succ, List.filter_append]
  simp only [List.filter_cons, List.filter_nil]

theorem mem_comBases {m0 : KinModel K} {k b : Nat} :
    b ∈ comBases m0 k ↔ b < k ∧ hasInertial m0 b = true := by
  simp [comBases]

/-- The state of the constructor after the first `k` links have been treated. -/
structure ComState (m0 : KinModel K) (k : Nat) (m : KinModel K) : Prop where
  graph : Graph m
  sized : CacheSized m
  fresh : ∀ l : Nat, m.cache.pred[l]? ≠ some true
  rp : m.comDummy ≠ [] → RpOK m
  com : m.comDummy = List.range' m0.links.length (comBases m0 k).length
  len : m.links.length = m0.links.length + (comBases m0 k).length
  bases : ∀ (i b : Nat), (comBases m0 k)[i]? = some b → ∃ (lk0 : Link K) (inr : Inertial K)
    (lk : Link K) (jp : Nat), m0.links[b]? = some lk0 ∧ lk0.inertial = some inr ∧
    m.links[m0.links.length + i]? = some lk ∧ lk.name = lk0.name ++ "_com" ∧
    lk.parent = some b ∧ lk.inertial = some inr.reset ∧ lk.parentJoint = some jp ∧
    m.jheap[jp]? = some (newFixedJoint ⟨inr.origin.position, Rot.one⟩)
  old : ∀ (l : Nat) (lk0 : Link K), m0.links[l]? = some lk0 → ∃ lk, m.links[l]? = some lk ∧
    lk.name = lk0.name ∧ lk.parent = lk0.parent ∧ lk.parentJoint = lk0.parentJoint ∧
    lk.inertial = (if l < k then lk0.inertial.map Inertial.reset else lk0.inertial)
  heap : ∃ ext, m.jheap = m0.jheap ++ ext
  joints : m.joints = m0.joints
  jointIds : m.jointIds = m0.jointIds
  angles : m.angles = m0.angles
  base : m.base = m0.base
  mass : m.totalMass = m0.totalMass
  stack : m.stack = m0.stack
  noRp : m.comDummy = [] → m.rptable = m0.rptable
  root : m.rootLinkId = m0.rootLinkId

/-- the model after the new link got its inertial -/
def comAttached (m' : KinModel K) (l n : Nat) (i' : Inertial K) : KinModel K :=
  { m' with
    links := (m'.links.modify l fun x => { x with inertial := some i' }).modify n
      fun x => { x with inertial := some i' }
    comDummy := m'.comDummy ++ [n] }

theorem comAttached_get {m' : KinModel K} {l n k : Nat} {i' : Inertial K} {lk' : Link K}
    (h : m'.links[k]? = some lk') : ∃ lk, (comAttached m' l n i').links[k]? = some lk ∧
      lk.name = lk'.name ∧ lk.parent = lk'.parent ∧ lk.parentJoint = lk'.parentJoint ∧
      lk.inertial = if k = l ∨ k = n then some i' else lk'.inertial := by
  simp only [comAttached, List.getElem?_modify, h]
  by_cases h1 : l = k <;> by_cases h2 : n = k <;> simp [h1, h2, eq_comm]

theorem comAttached_shape (m' : KinModel K) (l n : Nat) (i' : Inertial K) :
    SameShape m' (comAttached m' l n i') := by
  intro k
  simp only [comAttached, List.getElem?_modify]
  cases m'.links[k]? with
  | none => simp
  | some x => by_cases h1 : l = k <;> by_cases h2 : n = k <;> simp [h1, h2, Link.strip]

theorem Graph.name_unique {m : KinModel K} (g : Graph m) {a b : Nat} {la lb : Link K}
    (ha : m.links[a]? = some la) (hb : m.links[b]? = some lb) (h : la.name = lb.name) : a = b := by
  have h1 := (g.linkNames la.name a).mpr ⟨la, ha, rfl⟩
  have h2 := (g.linkNames la.name b).mpr ⟨lb, hb, h.symm⟩
  rw [h1] at h2; exact Option.some.inj h2

theorem append_com_inj {a b : String} (h : a ++ "_com" = b ++ "_com") : a = b := by
  have := congrArg String.toList h
  simp only [String.toList_append] at this
  exact String.toList_injective (List.append_cancel_right this)

theorem ComState.step_none {m0 m : KinModel K} {k : Nat} (h : ComState m0 k m)
    (hi : hasInertial m0 k = false) : ComState m0 (k + 1) m := by
  have e : comBases m0 (k + 1) = comBases m0 k := by simp [comBases_succ, hi]
  refine ⟨h.graph, h.sized, h.fresh, h.rp, by rw [e]; exact h.com, by rw [e]; exact h.len,
    by rw [e]; exact h.bases, ?_, h.heap, h.joints, h.jointIds, h.angles, h.base, h.mass, h.stack, h.noRp, h.root⟩
  intro l lk0 hl
  obtain ⟨lk, a1, a2, a3, a4, a5⟩ := h.old l lk0 hl
  refine ⟨lk, a1, a2, a3, a4, ?_⟩
  rw [a5]
  by_cases h1 : l < k
  · simp [h1, Nat.lt_succ_of_lt h1]
  · by_cases h2 : l = k
    · subst h2
      have : lk0.inertial = none := by
        simpa [hasInertial, hl] using hi
      simp [this]
    · have : ¬ l < k + 1 := by omega
      simp [h1, this]

/-- link `b` has an inertial and its centre-of-mass name is already a link name -/
def Clash (m0 : KinModel K) (b : Nat) : Prop :=
  ∃ (lk0 : Link K) (inr : Inertial K) (l' : Nat) (lk' : Link K), m0.links[b]? = some lk0 ∧ lk0.inertial = some inr ∧ m0.links[l']? = some lk' ∧
    lk'.name = lk0.name ++ "_com"

theorem ComState.find_none {m0 m : KinModel K} {k : Nat} (h : ComState m0 k m) (g0 : Graph m0)
    {lk0 : Link K} {inr : Inertial K} (hl : m0.links[k]? = some lk0)
    (hi : lk0.inertial = some inr) (hc : ¬ Clash m0 k) :
    m.linkIds.find (lk0.name ++ "_com") = none := by
  by_contra hne
  obtain ⟨l, hl'⟩ := Option.ne_none_iff_exists'.mp hne
  obtain ⟨lk, a1, a2⟩ := (h.graph.linkNames _ l).mp hl'
  by_cases hlt : l < m0.links.length
  · obtain ⟨lk', b1, b2, _⟩ := h.old l _ (List.getElem?_eq_getElem hlt)
    rw [a1] at b1; cases b1
    exact hc ⟨lk0, inr, l, _, hl, hi, List.getElem?_eq_getElem hlt, by rw [← b2, a2]⟩
  · have hlt' := (List.getElem?_eq_some_iff.mp a1).1
    rw [h.len] at hlt'
    have hb : l - m0.links.length < (comBases m0 k).length := by omega
    obtain ⟨lk1, inr1, lk', jp, c1, c2, c3, c4, _⟩ := h.bases (l - m0.links.length) _ (List.getElem?_eq_getElem hb)
    rw [show m0.links.length + (l - m0.links.length) = l by omega, a1] at c3
    cases c3
    have := append_com_inj (c4.symm.trans a2)
    have := g0.name_unique c1 hl this
    have hm := List.getElem_mem hb
    rw [mem_comBases] at hm
    omega

theorem ComState.step_some {m0 m : KinModel K} {k : Nat} (h : ComState m0 k m) (g0 : Graph m0)
    {lk0 : Link K} {inr : Inertial K} (hl : m0.links[k]? = some lk0)
    (hi : lk0.inertial = some inr) (hc : ¬ Clash m0 k) :
    ∃ m', addNewLink (lk0.name ++ "_com") k ⟨inr.origin.position, Rot.one⟩ m
        = .ok m.links.length m' ∧ ComState m0 (k + 1) (comAttached m' k m.links.length inr.reset) := by
  have hn := h.find_none g0 hl hi hc
  have hk : k < m0.links.length := (List.getElem?_eq_some_iff.mp hl).1
  have hp : k < m.links.length := by rw [h.len]; omega
  obtain ⟨t, h1, h2, h3⟩ := addNewLink_spec h.graph _ k ⟨inr.origin.position, Rot.one⟩ hn hp
  refine ⟨_, h1, ?_⟩
  set m' : KinModel K := { attached m (lk0.name ++ "_com") k ⟨inr.origin.position, Rot.one⟩ with rptable := t } with hm'
  have hsh := comAttached_shape m' k m.links.length inr.reset
  have hlen' : m'.links.length = m.links.length + 1 := attached_length m (lk0.name ++ "_com") k ⟨inr.origin.position, Rot.one⟩
  have hs0 := cacheSized_attached h.sized (lk0.name ++ "_com") k ⟨inr.origin.position, Rot.one⟩
  have hhas : hasInertial m0 k = true := by simp [hasInertial, hl, hi]
  have hcb : comBases m0 (k + 1) = comBases m0 k ++ [k] := by simp [comBases_succ, hhas]
  have hrp : RpOK (comAttached m' k m.links.length inr.reset) := RpOK.congr (m := m') hsh rfl rfl h3
  refine ⟨Graph.congr (m := m') hsh rfl rfl rfl rfl rfl rfl rfl h2, ?_, ?_, fun _ => hrp, ?_, ?_, ?_,
    ?_, ?_, h.joints, h.jointIds, h.angles, h.base, h.mass, h.stack, (fun hnil => absurd hnil (by simp [comAttached])), h.root⟩
  · have e := hsh.length
    exact ⟨hs0.size.trans (by rw [e]), hs0.pred.trans (by rw [e]), hs0.data.trans (by rw [e])⟩
  · exact clear_pred _
  · show m.comDummy ++ [m.links.length] = _
    rw [h.com, hcb, List.length_append, List.length_singleton, List.range'_concat, h.len]
    simp
  · rw [hsh.length, hlen', h.len, hcb]; simp; omega
  · intro i b hb
    rw [hcb, List.getElem?_append] at hb
    split at hb
    · obtain ⟨lk1, inr1, lk', jp, c1, c2, c3, c4, c5, c6, c7, c8⟩ := h.bases i b hb
      obtain ⟨y, d1, d2, _, d3, d4, d5⟩ := attached_old (name := lk0.name ++ "_com")
        (pose := ⟨inr.origin.position, Rot.one⟩) hp c3
      obtain ⟨z, e1, e2, e3, e4, e5⟩ := comAttached_get (m' := m') (l := k) (n := m.links.length)
        (i' := inr.reset) d1
      have hlt := (List.getElem?_eq_some_iff.mp c3).1
      refine ⟨lk1, inr1, z, jp, c1, c2, e1, by rw [e2, d2, c4], by rw [e3, d4, c5], ?_,
        by rw [e4, d5, c7], Graph.jheap_attached (name := lk0.name ++ "_com") (parent := k)
          (pose := ⟨inr.origin.position, Rot.one⟩) c8⟩
      rw [e5, if_neg (by omega), d3, c6]
    · rename_i hge
      have hi' : i = (comBases m0 k).length ∧ b = k := by
        have := (List.getElem?_eq_some_iff.mp hb).1
        simp only [List.length_singleton] at this
        have h0 : i - (comBases m0 k).length = 0 := by omega
        rw [h0] at hb
        simp at hb
        exact ⟨by omega, hb.symm⟩
      obtain ⟨rfl, rfl⟩ := hi'
      obtain ⟨z, e1, e2, e3, e4, e5⟩ := comAttached_get (m' := m') (l := b) (n := m.links.length)
        (i' := inr.reset) (attached_new (name := lk0.name ++ "_com")
        (pose := ⟨inr.origin.position, Rot.one⟩) hp)
      refine ⟨lk0, inr, z, m.jheap.length, hl, hi, by rw [← h.len]; exact e1, e2, e3, by simp [e5],
        e4, ?_⟩
      show (m.jheap ++ [_])[m.jheap.length]? = _
      simp
  · intro l lk1 hl1
    obtain ⟨x, a1, a2, a3, a4, a5⟩ := h.old l lk1 hl1
    obtain ⟨y, d1, d2, _, d3, d4, d5⟩ := attached_old (name := lk0.name ++ "_com")
        (pose := ⟨inr.origin.position, Rot.one⟩) hp a1
    obtain ⟨z, e1, e2, e3, e4, e5⟩ := comAttached_get (m' := m') (l := k) (n := m.links.length)
        (i' := inr.reset) d1
    refine ⟨z, e1, by rw [e2, d2, a2], by rw [e3, d4, a3], by rw [e4, d5, a4], ?_⟩
    have hlt := (List.getElem?_eq_some_iff.mp a1).1
    rw [e5, d3, a5]
    by_cases hlk : l = k
    · subst hlk
      rw [hl] at hl1; cases hl1
      simp [hi]
    · have hne : ¬ (l = k ∨ l = m.links.length) := by omega
      rw [if_neg hne]
      by_cases hlt : l < k
      · simp [hlt, Nat.lt_succ_of_lt hlt]
      · have : ¬ l < k + 1 := by omega
        simp [hlt, this]
  · obtain ⟨ext, he⟩ := h.heap
    refine ⟨ext ++ [newFixedJoint ⟨inr.origin.position, Rot.one⟩], ?_⟩
    show m.jheap ++ _ = _
    rw [he, List.append_assoc]

theorem addNewLink_dup {m : KinModel K} {name : String} {l : Nat} (h : m.linkIds.find name = some l)
    (parent : Nat) (pose : Pose K) : addNewLink name parent pose m =
      .exn (.invalidArgument ("link name : " ++ name ++ " already exists")) m := by
  simp only [addNewLink, h]

theorem addComLinks_none {m : KinModel K} {l : Nat} {ls : List Nat} {lk : Link K}
    (hl : m.links[l]? = some lk) (hi : lk.inertial = none) :
    addComLinks (l :: ls) m = addComLinks ls m := by
  rw [addComLinks]
  simp only [hl, hi]

theorem addComLinks_some {m m' : KinModel K} {l n : Nat} {ls : List Nat} {lk : Link K}
    {inr : Inertial K} (hl : m.links[l]? = some lk) (hi : lk.inertial = some inr)
    (ha : addNewLink (lk.name ++ "_com") lk.id ⟨inr.origin.position, Rot.one⟩ m = .ok n m') :
    addComLinks (l :: ls) m = addComLinks ls (comAttached m' l n inr.reset) := by
  rw [addComLinks]
  simp only [hl, hi, ha, comAttached, Inertial.reset]

theorem addComLinks_exn' {m m' : KinModel K} {l : Nat} {ls : List Nat} {lk : Link K} {e : Exn}
    {inr : Inertial K} (hl : m.links[l]? = some lk) (hi : lk.inertial = some inr)
    (ha : addNewLink (lk.name ++ "_com") lk.id ⟨inr.origin.position, Rot.one⟩ m = .exn e m') :
    addComLinks (l :: ls) m = .exn e m' := by
  rw [addComLinks]
  simp only [hl, hi, ha]

theorem addComLinks_ok {m0 : KinModel K} (g0 : Graph m0) (hc : ∀ b, ¬ Clash m0 b) (n : Nat) :
    ∀ (k : Nat) (m : KinModel K), ComState m0 k m → k + n = m0.links.length →
    ∃ m', addComLinks (List.range' k n) m = .ok () m' ∧ ComState m0 m0.links.length m' := by
  induction n with
  | zero =>
    intro k m h hk
    refine ⟨m, rfl, ?_⟩
    have : k = m0.links.length := by omega
    exact this ▸ h
  | succ n ih =>
    intro k m h hk
    have hlt : k < m0.links.length := by omega
    obtain ⟨lk, a1, a2, a3, a4, a5⟩ := h.old k _ (List.getElem?_eq_getElem hlt)
    rw [List.range'_succ]
    simp only [Nat.lt_irrefl, if_false] at a5
    cases hi : m0.links[k].inertial with
    | none =>
      rw [hi] at a5
      rw [addComLinks_none a1 a5]
      exact ih (k + 1) m (h.step_none (by simp [hasInertial, hlt, hi])) (by omega)
    | some inr =>
      rw [hi] at a5
      obtain ⟨m', b1, b2⟩ := h.step_some g0 (List.getElem?_eq_getElem hlt) hi (hc k)
      rw [addComLinks_some a1 a5 (by rw [h.graph.ids a1, a2]; exact b1)]
      exact ih (k + 1) _ b2 (by omega)

theorem addComLinks_exn {m0 : KinModel K} (g0 : Graph m0) (n : Nat) :
    ∀ (k : Nat) (m : KinModel K), ComState m0 k m → k + n = m0.links.length →
    (∃ b, k ≤ b ∧ Clash m0 b) →
    ∃ e m', addComLinks (List.range' k n) m = .exn (.invalidArgument e) m' := by
  induction n with
  | zero =>
    rintro k m h hk ⟨b, hb, lk0, _, _, _, hl, _⟩
    have := (List.getElem?_eq_some_iff.mp hl).1
    omega
  | succ n ih =>
    rintro k m h hk ⟨b, hb, hcl⟩
    have hlt : k < m0.links.length := by omega
    obtain ⟨lk, a1, a2, a3, a4, a5⟩ := h.old k _ (List.getElem?_eq_getElem hlt)
    rw [List.range'_succ]
    simp only [Nat.lt_irrefl, if_false] at a5
    cases hi : m0.links[k].inertial with
    | none =>
      rw [hi] at a5
      rw [addComLinks_none a1 a5]
      refine ih (k + 1) m (h.step_none (by simp [hasInertial, hlt, hi])) (by omega) ⟨b, ?_, hcl⟩
      rcases Nat.eq_or_lt_of_le hb with rfl | h'
      · obtain ⟨lk0, inr, _, _, hl, hi', _⟩ := hcl
        rw [List.getElem?_eq_getElem hlt] at hl; cases hl
        rw [hi] at hi'; cases hi'
      · omega
    | some inr =>
      rw [hi] at a5
      by_cases hck : Clash m0 k
      · obtain ⟨lk0, inr', l', lk', c1, c2, c3, c4⟩ := hck
        rw [List.getElem?_eq_getElem hlt] at c1; cases c1
        obtain ⟨y, d1, d2, _⟩ := h.old l' lk' c3
        have := (h.graph.linkNames (m0.links[k].name ++ "_com") l').mpr ⟨y, d1, by rw [d2, c4]⟩
        exact ⟨_, m, addComLinks_exn' a1 a5 (addNewLink_dup (by rw [a2]; exact this) _ _)⟩
      · obtain ⟨m', b1, b2⟩ := h.step_some g0 (List.getElem?_eq_getElem hlt) hi hck
        rw [addComLinks_some a1 a5 (by rw [h.graph.ids a1, a2]; exact b1)]
        refine ih (k + 1) _ b2 (by omega) ⟨b, ?_, hcl⟩
        rcases Nat.eq_or_lt_of_le hb with rfl | h'
        · exact absurd hcl hck
        · omega

theorem Initial.comState {mi : ModelInterface K} {m0 : KinModel K} (h : Initial mi m0) :
    ComState m0 0 m0 := by
  have hl : m0.links.length = mi.links.length := by rw [h.links]; simp
  refine ⟨h.graph, ?_, ?_, fun hne => absurd h.com hne, by simp [h.com, comBases],
    by simp [comBases], by simp [comBases], ?_, ⟨[], by simp⟩, rfl, rfl, rfl, rfl, rfl, rfl, fun _ => rfl, rfl⟩
  · exact ⟨by simp [h.cache, SizedCache.mk', hl], by simp [h.cache, SizedCache.mk', hl], by simp [h.cache, SizedCache.mk', hl]⟩
  · intro l
    rw [h.cache]
    simp only [SizedCache.mk', List.getElem?_replicate]
    split <;> simp
  · intro l lk0 hl
    exact ⟨lk0, hl, rfl, rfl, rfl, by simp⟩

end Tinyfk
