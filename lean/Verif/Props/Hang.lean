import Verif.Proofs.Hang
import Verif.Props.Build

/-!
# Property: when construction ends

C79.
-/

set_option linter.unusedSectionVars false

namespace Tinyfk

open Scalar

section
variable {K : Type} [Scalar K] {ls : List (RawLink K)} {js : List (RawJoint K)}

/-- a link of the description and its number -/
theorem Built.rawOf {mi : ModelInterface K} (hb : Built ls js mi) {b : Nat} {lk : Link K} (h : mi.links[b]? = some lk) :
    ∃ r ∈ ls, r.name = lk.name ∧ r.inertial = lk.inertial := by
  have : (lk.name, lk.inertial) ∈ mi.links.map fun l => (l.name, l.inertial) :=
    List.mem_map.mpr ⟨lk, List.mem_of_getElem? h, rfl⟩
  obtain ⟨r, hr, e⟩ := List.mem_map.mp (hb.linkPerm.mem_iff.mp this)
  simp only [Prod.mk.injEq] at e
  exact ⟨r, hr, e.1, e.2⟩

theorem Built.numberOf {mi : ModelInterface K} (hb : Built ls js mi) {r : RawLink K} (h : r ∈ ls) :
    ∃ (b : Nat) (lk : Link K), mi.links[b]? = some lk ∧ lk.name = r.name ∧ lk.inertial = r.inertial := by
  have : (r.name, r.inertial) ∈ ls.map fun l => (l.name, l.inertial) := List.mem_map.mpr ⟨r, h, rfl⟩
  obtain ⟨lk, hl, e⟩ := List.mem_map.mp (hb.linkPerm.mem_iff.mpr this)
  obtain ⟨b, hb⟩ := List.mem_iff_getElem?.mp hl
  simp only [Prod.mk.injEq] at e
  exact ⟨b, lk, hb, e.1, e.2⟩

theorem Built.name_lt {mi : ModelInterface K} (hb : Built ls js mi) {a b : Nat} {la lb : Link K}
    (ha : mi.links[a]? = some la) (hb' : mi.links[b]? = some lb) (h : a < b) : la.name < lb.name := by
  obtain ⟨h1, e1⟩ := List.getElem?_eq_some_iff.mp ha
  obtain ⟨h2, e2⟩ := List.getElem?_eq_some_iff.mp hb'
  have := List.pairwise_iff_getElem.mp hb.linkSorted a b (by simpa using h1) (by simpa using h2) h
  simpa [e1, e2] using this

/-- What the constructor does with an accepted description, case by case. -/
theorem construct_cases {mi : ModelInterface K} (hb : Built ls js mi) (hs : Supported js) :
    (¬ MovableIntoCycle js → NoComClash ls → ∃ m, construct (some mi) = .ok m) ∧
    (¬ MovableIntoCycle js → (∃ r ∈ ls, r.inertial.isSome ∧ ComNameTaken ls r) →
      ∃ e, construct (some mi) = .exn (.invalidArgument e)) ∧
    (MovableIntoCycle js → (∀ r ∈ ls, r.inertial = none) → ∃ m, construct (some mi) = .ok m) ∧
    (MovableIntoCycle js → (∃ r ∈ ls, r.inertial.isSome) → ∃ r, FirstInertial ls r ∧
      (ComNameTaken ls r → ∃ e, construct (some mi) = .exn (.invalidArgument e)) ∧
      (¬ ComNameTaken ls r → construct (some mi) = .hang)) := by
  obtain ⟨m0, e0, hl0, hlinks, hjo, hjc⟩ := initMembers_loose hb hs
  have hget : ∀ {l : Nat} {lk : Link K}, mi.links[l]? = some lk → m0.links[l]? = some { lk with id := l } := by
    intro l lk h; rw [hlinks]; simp [h]
  have hget' : ∀ {l : Nat} {lk : Link K}, m0.links[l]? = some lk →
      ∃ lk0, mi.links[l]? = some lk0 ∧ lk = { lk0 with id := l } := by
    intro l lk h
    rw [hlinks] at h
    simp only [List.getElem?_mapIdx, Option.map_eq_some_iff] at h
    obtain ⟨lk0, h1, h2⟩ := h
    exact ⟨lk0, h1, h2.symm⟩
  have hstuck : Stuck m0 ↔ MovableIntoCycle js := by
    constructor
    · rintro ⟨jp, hjp, j, c, h1, h2, h3⟩
      obtain ⟨j0, i, c0, ck, g1, g2, g3, g4, g5⟩ := hjo jp hjp
      rw [g3] at h1; cases h1
      simp only [Option.some.injEq] at h2; subst h2
      obtain ⟨r, hr, rfl⟩ := List.mem_map.mp (hb.jointPerm.mem_iff.mp (List.mem_of_getElem? g1))
      refine ⟨r, hr, g2, ?_⟩
      rw [acc_kid_iff hb hlinks g4, g5, acc_iff_no_cycle] at h3
      exact not_not.mp h3
    · rintro ⟨r, hr, h1, h2⟩
      obtain ⟨jp, hjp⟩ := List.mem_iff_getElem?.mp (hb.jointPerm.mem_iff.mpr (List.mem_map_of_mem hr))
      have hm := hjc jp _ hjp h1
      obtain ⟨j0, i, c0, ck, g1, g2, g3, g4, g5⟩ := hjo jp hm
      rw [hjp] at g1; cases g1
      refine ⟨jp, hm, _, c0, g3, rfl, ?_⟩
      rw [acc_kid_iff hb hlinks g4, g5, acc_iff_no_cycle]
      exact not_not.mpr h2
  have hclash : ∀ {b : Nat} {lk : Link K}, mi.links[b]? = some lk → lk.inertial.isSome →
      (Clash m0 b ↔ lk.name ++ "_com" ∈ ls.map RawLink.name) := by
    intro b lk h hi
    constructor
    · rintro ⟨lk0, inr, l', lk', g1, g2, g3, g4⟩
      rw [hget h] at g1; cases g1
      obtain ⟨lk1, h1, rfl⟩ := hget' g3
      obtain ⟨r, hr, e, _⟩ := hb.rawOf h1
      exact List.mem_map.mpr ⟨r, hr, by rw [e]; exact g4⟩
    · intro hm
      obtain ⟨r, hr, e⟩ := List.mem_map.mp hm
      obtain ⟨l', lk', h1, h2, _⟩ := hb.numberOf hr
      obtain ⟨inr, hinr⟩ := Option.isSome_iff_exists.mp hi
      exact ⟨_, inr, l', _, hget h, hinr, hget h1, by rw [← e, ← h2]⟩
  have hinert : ∀ {b : Nat} {lk : Link K}, mi.links[b]? = some lk → hasInertial m0 b = lk.inertial.isSome := by
    intro b lk h; simp [hasInertial, hget h]
  have hrange : List.range m0.links.length = List.range' 0 m0.links.length := List.range_eq_range' ..
  have hok : ∀ m1 : KinModel K, addComLinks (List.range' 0 m0.links.length) m0 = .ok () m1 →
      ∃ m, construct (some mi) = .ok m := by
    intro m1 h
    simp only [construct, e0, hrange, Prog.bind, h]
    exact ⟨_, rfl⟩
  have hexn : ∀ e m1, addComLinks (List.range' 0 m0.links.length) m0 = .exn (.invalidArgument e) m1 →
      ∃ e, construct (some mi) = .exn (.invalidArgument e) := by
    intro e m1 h
    refine ⟨e, ?_⟩
    simp only [construct, e0, hrange, Prog.bind, h]
    rfl
  refine ⟨?_, ?_, ?_, ?_⟩
  · intro hc hno
    obtain ⟨m1, h⟩ := (addComLinks_free hl0 (hstuck.not.mpr hc) m0.links.length 0 m0 hl0.loopState (by omega)).1 (by
      intro b _ hcl
      obtain ⟨lk0, inr, l', lk', g1, g2, g3, g4⟩ := hcl
      obtain ⟨lk1, h1, rfl⟩ := hget' g1
      obtain ⟨lk2, h2, rfl⟩ := hget' g3
      obtain ⟨r, hr, e1, e2⟩ := hb.rawOf h1
      obtain ⟨r2, hr2, e3, _⟩ := hb.rawOf h2
      refine hno r hr (by rw [e2, show lk1.inertial = some inr from g2]; rfl) (List.mem_map.mpr ⟨r2, hr2, ?_⟩)
      rw [e3, e1]; exact g4)
    exact hok m1 h
  · rintro hc ⟨r, hr, hi, hcl⟩
    obtain ⟨b, lk, h1, h2, h3⟩ := hb.numberOf hr
    obtain ⟨e, m1, h⟩ := (addComLinks_free hl0 (hstuck.not.mpr hc) m0.links.length 0 m0 hl0.loopState (by omega)).2
      ⟨b, by omega, (hclash h1 (by rw [h3]; exact hi)).mpr (by rw [h2]; exact hcl)⟩
    exact hexn e m1 h
  · intro hc hno
    have h := (addComLinks_stuck hl0 (hstuck.mpr hc) m0.links.length 0 m0 hl0.loopState (by omega)).1 (by
      intro b _
      cases hbk : mi.links[b]? with
      | none =>
        have : m0.links[b]? = none := by
          rw [hlinks]
          simp only [List.getElem?_eq_none_iff, List.length_mapIdx] at hbk ⊢
          exact hbk
        simp [hasInertial, this]
      | some lk =>
        rw [hinert hbk]
        obtain ⟨r, hr, _, e2⟩ := hb.rawOf hbk
        rw [← e2, hno r hr]; rfl)
    exact hok m0 h
  · rintro hc ⟨r0, hr0, hi0⟩
    have hex : ∃ b, hasInertial m0 b = true := by
      obtain ⟨b, lk, h1, h2, h3⟩ := hb.numberOf hr0
      exact ⟨b, by rw [hinert h1, h3]; exact hi0⟩
    classical
    have hfirst : ∃ b, hasInertial m0 b = true ∧ ∀ b' < b, hasInertial m0 b' = false :=
      ⟨Nat.find hex, Nat.find_spec hex, fun b' hb' => by simpa using Nat.find_min hex hb'⟩
    obtain ⟨b, hb1, hb2⟩ := hfirst
    have hblt : b < mi.links.length := by
      by_contra hge
      have : m0.links[b]? = none := by
        rw [hlinks]; simp only [List.getElem?_eq_none_iff, List.length_mapIdx]; omega
      simp [hasInertial, this] at hb1
    have hbk := List.getElem?_eq_getElem hblt
    obtain ⟨r, hr, e1, e2⟩ := hb.rawOf hbk
    have hbi : (mi.links[b]).inertial.isSome := by rw [← hinert hbk]; exact hb1
    obtain ⟨p1, p2⟩ := (addComLinks_stuck hl0 (hstuck.mpr hc) m0.links.length 0 m0 hl0.loopState (by omega)).2 b (by omega) hb1
      (fun b' _ h => hb2 b' h)
    have hct : ComNameTaken ls r ↔ Clash m0 b := by
      rw [hclash hbk hbi, ComNameTaken, e1]
    refine ⟨r, ⟨hr, by rw [e2]; exact hbi, ?_⟩, ?_, ?_⟩
    · intro r' hr' hi' hlt
      obtain ⟨b', lk', g1, g2, g3⟩ := hb.numberOf hr'
      rw [← g2, e1] at hlt
      have hge : ¬ b' < b := by
        intro h
        have := hb2 b' h
        rw [hinert g1, g3, hi'] at this
        cases this
      rcases Nat.lt_or_ge b b' with h | h
      · exact absurd hlt (String.lt_asymm (hb.name_lt hbk g1 h))
      · have : b' = b := by omega
        subst this
        rw [hbk] at g1; cases g1
        exact String.lt_irrefl _ hlt
    · intro h
      obtain ⟨e, m1, h⟩ := p1 (hct.mp h)
      exact hexn e m1 h
    · intro h
      have := p2 (fun hh => h (hct.mpr hh))
      simp only [construct, e0, hrange, Prog.bind, this]
      rfl

theorem FirstInertial.name_eq {mi : ModelInterface K} (hb : Built ls js mi) {r r' : RawLink K} (h : FirstInertial ls r)
    (h' : FirstInertial ls r') : r.name = r'.name := by
  obtain ⟨b, lk, h1, h2, _⟩ := hb.numberOf h.1
  obtain ⟨b', lk', h1', h2', _⟩ := hb.numberOf h'.1
  rcases Nat.lt_trichotomy b b' with hlt | rfl | hlt
  · exact absurd (by rw [← h2, ← h2']; exact hb.name_lt h1 h1' hlt) (h'.2.2 r h.1 h.2.1)
  · rw [h1] at h1'; cases h1'; rw [← h2, h2']
  · exact absurd (by rw [← h2, ← h2']; exact hb.name_lt h1' h1 hlt) (h.2.2 r' h'.1 h'.2.1)

/-- **C79.** Take any accepted description, tree or not. The constructor

* returns a model iff all joint types are supported, no centre-of-mass name is taken, and, if the child of
  some movable joint leads to a cycle of links, no link has an inertial;
* never returns iff all joint types are supported, the child of some movable joint leads to a cycle, and the
  centre-of-mass name of the first link (by name) with an inertial is free;
* throws `invalid_argument` in all other cases.

It is never undefined. -/
theorem C79_construction (hb : (buildModel ls js).isSome) :
    ((∃ m, construct (buildModel ls js) = .ok m) ↔
      Supported js ∧ (∀ r ∈ ls, r.inertial.isSome → ¬ ComNameTaken ls r) ∧
        (MovableIntoCycle js → ∀ r ∈ ls, r.inertial = none)) ∧
    (construct (buildModel ls js) = .hang ↔
      Supported js ∧ MovableIntoCycle js ∧ ∃ r, FirstInertial ls r ∧ ¬ ComNameTaken ls r) ∧
    ((∃ m, construct (buildModel ls js) = .ok m) ∨ construct (buildModel ls js) = .hang ∨
      ∃ e, construct (buildModel ls js) = .exn (.invalidArgument e)) := by
  obtain ⟨mi, hmi⟩ := Option.isSome_iff_exists.mp hb
  have hB := buildModel_spec hmi
  by_cases hs : Supported js
  swap
  · obtain ⟨e, he⟩ := (C50_errors_partial (fun _ => buildModel ls js)).2 "x" ls js (by decide) rfl hb hs
    have he : construct (buildModel ls js) = .exn (.invalidArgument e) := by simpa [constructXml] using he
    rw [he]
    simp [hs]
  rw [hmi]
  obtain ⟨c1, c2, c3, c4⟩ := construct_cases hB hs
  by_cases hc : MovableIntoCycle js
  · by_cases hi : ∃ r ∈ ls, r.inertial.isSome
    · obtain ⟨r, hr, d1, d2⟩ := c4 hc hi
      have hi' : ¬ ∀ r ∈ ls, r.inertial = none := by
        obtain ⟨r, h1, h2⟩ := hi
        intro h; rw [h r h1] at h2; cases h2
      by_cases ht : ComNameTaken ls r
      · obtain ⟨e, he⟩ := d1 ht
        rw [he]
        refine ⟨⟨fun ⟨_, h⟩ => (by cases h), fun h => absurd (h.2.2 hc) hi'⟩, ⟨fun h => (by cases h), ?_⟩, .inr (.inr ⟨e, rfl⟩)⟩
        rintro ⟨_, _, r', hr', hn⟩
        exact absurd (by rw [ComNameTaken, ← hr.name_eq hB hr']; exact ht) hn
      · rw [d2 ht]
        exact ⟨⟨fun ⟨_, h⟩ => (by cases h), fun h => absurd (h.2.2 hc) hi'⟩, ⟨fun _ => ⟨hs, hc, r, hr, ht⟩, fun _ => rfl⟩,
          .inr (.inl rfl)⟩
    · have hi' : ∀ r ∈ ls, r.inertial = none := by
        intro r hr
        cases h : r.inertial with
        | none => rfl
        | some _ => exact absurd ⟨r, hr, by rw [h]; rfl⟩ hi
      obtain ⟨m, hm⟩ := c3 hc hi'
      rw [hm]
      refine ⟨⟨fun _ => ⟨hs, fun r hr h => absurd ⟨r, hr, h⟩ hi, fun _ => hi'⟩, fun _ => ⟨m, rfl⟩⟩,
        ⟨fun h => (by cases h), ?_⟩, .inl ⟨m, rfl⟩⟩
      rintro ⟨_, _, r', hr', _⟩
      exact absurd ⟨r', hr'.1, hr'.2.1⟩ hi
  · by_cases hcl : ∃ r ∈ ls, r.inertial.isSome ∧ ComNameTaken ls r
    · obtain ⟨e, he⟩ := c2 hc hcl
      rw [he]
      refine ⟨⟨fun ⟨_, h⟩ => (by cases h), ?_⟩, ⟨by intro h; (cases h), fun h => absurd h.2.1 hc⟩, .inr (.inr ⟨e, rfl⟩)⟩
      rintro ⟨_, h, _⟩
      obtain ⟨r, h1, h2, h3⟩ := hcl
      exact absurd h3 (h r h1 h2)
    · have hcl' : ∀ r ∈ ls, r.inertial.isSome → ¬ ComNameTaken ls r := fun r h1 h2 h3 => hcl ⟨r, h1, h2, h3⟩
      obtain ⟨m, hm⟩ := c1 hc hcl'
      rw [hm]
      exact ⟨⟨fun _ => ⟨hs, hcl', fun h => absurd h hc⟩, fun _ => ⟨m, rfl⟩⟩,
        ⟨by intro h; (cases h), fun h => absurd h.2.1 hc⟩, .inl ⟨m, rfl⟩⟩

/-- the child of a joint on a cycle leads to the cycle -/
theorem LeadsToCycle.of_two {j1 j2 : RawJoint K} (h1 : j1 ∈ js) (h2 : j2 ∈ js)
    (e1 : j1.childLinkName = j2.parentLinkName) (e2 : j2.childLinkName = j1.parentLinkName) :
    LeadsToCycle js j1.childLinkName :=
  ⟨j1.childLinkName, .refl, .head ⟨j2, h2, e1.symm, rfl⟩ (.single ⟨j1, h1, e2.symm, rfl⟩)⟩

/-! ### Instances -/

/-- the cycle of `C49_cycle_hangs`, from the general condition -/
example (i : Inertial K) : construct (buildModel (cycleLinks i) (cycleJoints (K := K))) = .hang := by
  refine (C79_construction (C49_cycle_hangs i).1).2.1.mpr ⟨?_, ?_, ⟨"root", some i⟩, ⟨?_, rfl, ?_⟩, ?_⟩
  · intro j hj
    simp only [cycleJoints, List.mem_cons, List.not_mem_nil, or_false] at hj
    rcases hj with rfl | rfl <;> exact .inr (.inl rfl)
  · refine ⟨_, List.mem_cons_self, .inl rfl, ?_⟩
    exact LeadsToCycle.of_two (j2 := ⟨"j2", .revolute, ⟨0, 0, 1⟩, Pose.identity, "b", "a", some ⟨0, 0, 0, 0⟩⟩)
      (by simp [cycleJoints]) (by simp [cycleJoints]) rfl rfl
  · simp [cycleLinks]
  · intro r' hr' hi
    simp only [cycleLinks, List.mem_cons, List.not_mem_nil, or_false] at hr'
    rcases hr' with rfl | rfl | rfl
    · exact String.lt_irrefl _
    · cases hi
    · cases hi
  · simp [ComNameTaken, cycleLinks]

/-- the same cycle without an inertial: the constructor returns -/
example : ∃ m, construct (buildModel [⟨"root", none⟩, ⟨"a", none⟩, ⟨"b", none⟩] (cycleJoints (K := K))) = .ok m := by
  refine (C79_construction ?_).1.mpr ⟨?_, ?_, ?_⟩
  · rw [buildModel_isSome]
    refine ⟨by simp, by simp [cycleJoints], by simp, by simp [cycleJoints], "root", by simp [cycleJoints], ?_⟩
    simp [cycleJoints]
  · intro j hj
    simp only [cycleJoints, List.mem_cons, List.not_mem_nil, or_false] at hj
    rcases hj with rfl | rfl <;> exact .inr (.inl rfl)
  · simp
  · simp

end

end Tinyfk
