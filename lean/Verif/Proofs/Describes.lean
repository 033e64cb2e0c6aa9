import Verif.Proofs.ComLinks
import Mathlib.Data.Fintype.Card

/-!
# Reachable models describe the robot of the description
-/

set_option linter.unusedSectionVars false

namespace Tinyfk

open Scalar

variable {K : Type} [Scalar K]

/-- Edge `j` of the model is the joint `r` of the description. -/
def IsRaw (r : RawJoint K) (j : Joint K) : Prop :=
  ∃ i c, j = { r.toJoint with id := i, childLink := c }

/-- Every link of `m` is the link of that name in the description `ls`, `js` extended by the
welded links `welds`, and nothing is missing. -/
structure Describes (ls : List (RawLink K)) (js : List (RawJoint K)) (welds : Weld K → Prop)
    (m : KinModel K) : Prop where
  links : ∀ (l : Nat) (lk : Link K), m.links[l]? = some lk →
    (lk.parent = none ∧ (∃ r ∈ ls, r.name = lk.name) ∧ ∀ j ∈ js, j.childLinkName ≠ lk.name) ∨
    ∃ (p : Nat) (pk : Link K) (jp : Nat) (j : Joint K), lk.parent = some p ∧
      m.links[p]? = some pk ∧ lk.parentJoint = some jp ∧ m.jheap[jp]? = some j ∧
      ((∃ r ∈ js, IsRaw r j ∧ r.parentLinkName = pk.name ∧ r.childLinkName = lk.name) ∨
        (j = newFixedJoint j.origin ∧ welds ⟨lk.name, pk.name, j.origin⟩))
  all : ∀ r ∈ ls, ∃ (l : Nat) (lk : Link K), m.links[l]? = some lk ∧ lk.name = r.name
  names : ∀ j ∈ js, j.childLinkName ∈ ls.map RawLink.name
  jointNodup : (js.map RawJoint.name).Nodup
  welded : ∀ w, welds w → ∃ (l : Nat) (lk : Link K), m.links[l]? = some lk ∧ lk.name = w.name
  weldFresh : ∀ w, welds w → w.name ∉ ls.map RawLink.name
  weldUnique : ∀ w w', welds w → welds w' → w.name = w'.name → w = w'
  joints : ∀ (i jp : Nat), m.joints[i]? = some jp → ∃ r j, r ∈ js ∧ m.jheap[jp]? = some j ∧ IsRaw r j
  movable : ∀ r ∈ js, r.type.Movable → ∃ (i jp : Nat) (j : Joint K), m.joints[i]? = some jp ∧
    m.jheap[jp]? = some j ∧ IsRaw r j

/-- The joint angles of `m`, by name, are `θ`. -/
def AnglesAre (m : KinModel K) (θ : String → K) : Prop :=
  ∀ (s : String) (i : Nat), m.jointIds.find s = some i → m.angles[i]? = some (θ s)

theorem IsRaw.edge {m : KinModel K} (g : Graph m) {θ : String → K} (ha : AnglesAre m θ)
    {r : RawJoint K} {j : Joint K} (hr : IsRaw r j) {l p jp : Nat} {lk : Link K}
    (h1 : m.links[l]? = some lk) (h2 : lk.parent = some p) (h3 : lk.parentJoint = some jp)
    (h4 : m.jheap[jp]? = some j) (T : Pose K) : EdgeTf m.angles j T ↔ RawEdge r (θ r.name) T := by
  obtain ⟨i0, c0, rfl⟩ := hr
  obtain ⟨jp', j', e1, e2, e3⟩ := g.pjoint h1 h2
  rw [h3] at e1; cases e1
  rw [h4] at e2; cases e2
  have key : ∀ i, i0 = some i → r.type.Movable → m.angles[i]? = some (θ r.name) := by
    intro i hi hm
    rcases e3 with h | ⟨_, i', a1, a2⟩
    · have h' : r.type = .fixed := h
      rw [h'] at hm
      rcases hm with h | h | h <;> cases h
    · have : i0 = some i' := a1
      rw [hi] at this; cases this
      exact ha r.name i ((g.jointNames r.name i).mpr ⟨jp, _, a2, h4, rfl⟩)
  constructor
  · intro hE
    cases hE with
    | fixed h => exact .fixed h
    | @movable i θ' M hi hθ hM =>
      cases hM with
      | rot h =>
        have := key i hi (by rcases h with h | h; exact .inl h; exact .inr (.inl h))
        rw [this] at hθ; cases hθ
        exact .rot h
      | slide h =>
        have := key i hi (.inr (.inr h))
        rw [this] at hθ; cases hθ
        exact .slide h
  · intro hE
    have hmov : r.type.Movable → ∃ i, i0 = some i := by
      intro hm
      rcases e3 with h | ⟨_, i', a1, _⟩
      · have h' : r.type = .fixed := h
        rw [h'] at hm
        rcases hm with h | h | h <;> cases h
      · exact ⟨i', a1⟩
    cases hE with
    | fixed h => exact .fixed h
    | rot h =>
      have hm : r.type.Movable := by rcases h with h | h; exact .inl h; exact .inr (.inl h)
      obtain ⟨i, hi⟩ := hmov hm
      exact .movable hi (key i hi hm) (.rot h)
    | slide h =>
      have hm : r.type.Movable := .inr (.inr h)
      obtain ⟨i, hi⟩ := hmov hm
      exact .movable hi (key i hi hm) (.slide h)

theorem newFixedJoint_edge {a : List K} {j : Joint K} (hj : j = newFixedJoint j.origin)
    (T : Pose K) : EdgeTf a j T ↔ T = j.origin := by
  have ht : j.type = .fixed := by rw [hj]; rfl
  constructor
  · intro h
    cases h with
    | fixed => rfl
    | movable _ _ hM =>
      cases hM with
      | rot h => rw [ht] at h; rcases h with h | h <;> cases h
      | slide h => rw [ht] at h; cases h
  · rintro rfl
    exact .fixed ht

section
variable {ls : List (RawLink K)} {js : List (RawJoint K)} {welds : Weld K → Prop} {m : KinModel K}

/-- The chain of poses in the model is the one of the description. -/
theorem Describes.worldPose (hd : Describes ls js welds m) (g : Graph m) {θ : String → K}
    (ha : AnglesAre m θ) {l : Nat} {lk : Link K} {T : Pose K} (hl : m.links[l]? = some lk)
    (hp : IsPose m l T) : WorldPose ls js welds θ m.base lk.name T := by
  induction hp generalizing lk with
  | root h1 h2 =>
    rw [h1] at hl; cases hl
    rcases hd.links _ _ h1 with ⟨_, ⟨r, hr, he⟩, hn⟩ | ⟨p, _, _, _, hp, _⟩
    · rw [← he] at hn ⊢
      exact .root hr hn
    · rw [h2] at hp; cases hp
  | child h1 h2 h3 h4 h5 _ ih =>
    rw [h1] at hl; cases hl
    rcases hd.links _ _ h1 with ⟨hn, _⟩ | ⟨p, pk, jp, j, a1, a2, a3, a4, a5⟩
    · rw [h2] at hn; cases hn
    · rw [h2] at a1; cases a1
      rw [h3] at a3; cases a3
      rw [h4] at a4; cases a4
      have hB := ih a2
      rcases a5 with ⟨r, hr, hraw, e1, e2⟩ | ⟨hj, hw⟩
      · rw [← e2]
        rw [← e1] at hB
        exact .joint hr hB ((hraw.edge g ha h1 h2 h3 h4 _).mp h5)
      · rw [(newFixedJoint_edge hj _).mp h5]
        exact .weld (w := ⟨_, _, _⟩) hw hB

/-- Two joints of a tree with the same child are the same. -/
theorem IsTree.eq_of_child (ht : IsTree js) {a b : RawJoint K} (ha : a ∈ js) (hb : b ∈ js)
    (h : a.childLinkName = b.childLinkName) : a = b :=
  List.inj_on_of_nodup_map ht.oneParent ha hb h

/-- the edge of the model above the child of joint `r` -/
theorem Describes.edge_of_joint (hd : Describes ls js welds m) (ht : IsTree js)
    {r : RawJoint K} (hr : r ∈ js) : ∃ (l : Nat) (lk : Link K) (p : Nat) (pk : Link K) (jp : Nat)
      (j : Joint K), m.links[l]? = some lk ∧ lk.name = r.childLinkName ∧ lk.parent = some p ∧
      m.links[p]? = some pk ∧ pk.name = r.parentLinkName ∧ lk.parentJoint = some jp ∧
      m.jheap[jp]? = some j ∧ IsRaw r j := by
  obtain ⟨rl, hrl, hn⟩ := List.mem_map.mp (hd.names r hr)
  obtain ⟨l, lk, h1, h2⟩ := hd.all rl hrl
  rcases hd.links l lk h1 with ⟨_, _, hno⟩ | ⟨p, pk, jp, j, a1, a2, a3, a4, a5⟩
  · exact absurd (by rw [h2, hn]) (hno r hr)
  · rcases a5 with ⟨r', hr', hraw, e1, e2⟩ | ⟨_, hw⟩
    · have : r' = r := ht.eq_of_child hr' hr (by rw [e2, h2, hn])
      subst this
      exact ⟨l, lk, p, pk, jp, j, h1, e2.symm, a1, a2, e1.symm, a3, a4, hraw⟩
    · exact absurd (by rw [show (⟨lk.name, pk.name, j.origin⟩ : Weld K).name = rl.name from h2]
                       exact List.mem_map_of_mem hrl) (hd.weldFresh _ hw)

/-- the edge of the model above a welded link -/
theorem Describes.edge_of_weld (hd : Describes ls js welds m)
    {w : Weld K} (hw : welds w) : ∃ (l : Nat) (lk : Link K) (p : Nat) (pk : Link K) (jp : Nat)
      (j : Joint K), m.links[l]? = some lk ∧ lk.name = w.name ∧ lk.parent = some p ∧
      m.links[p]? = some pk ∧ pk.name = w.carrier ∧ lk.parentJoint = some jp ∧
      m.jheap[jp]? = some j ∧ j = newFixedJoint w.offset := by
  obtain ⟨l, lk, h1, h2⟩ := hd.welded w hw
  have hfresh := hd.weldFresh w hw
  rcases hd.links l lk h1 with ⟨_, ⟨r, hr, he⟩, _⟩ | ⟨p, pk, jp, j, a1, a2, a3, a4, a5⟩
  · exact absurd (by rw [← h2, ← he]; exact List.mem_map_of_mem hr) hfresh
  · rcases a5 with ⟨r', hr', hraw, e1, e2⟩ | ⟨hj, hw'⟩
    · exact absurd (by rw [← h2, ← e2]; exact hd.names r' hr') hfresh
    · have := hd.weldUnique _ _ hw' hw h2
      subst this
      exact ⟨l, lk, p, pk, jp, j, h1, h2, a1, a2, rfl, a3, a4, hj⟩

/-- The converse of `Describes.worldPose`. -/
theorem Describes.isPose (hd : Describes ls js welds m) (g : Graph m) (ht : IsTree js)
    {θ : String → K} (ha : AnglesAre m θ) {n : String} {T : Pose K}
    (h : WorldPose ls js welds θ m.base n T) :
    ∃ (l : Nat) (lk : Link K), m.links[l]? = some lk ∧ lk.name = n ∧ IsPose m l T := by
  induction h with
  | @root r hr hn =>
    obtain ⟨l, lk, h1, h2⟩ := hd.all r hr
    refine ⟨l, lk, h1, h2, ?_⟩
    rcases hd.links l lk h1 with ⟨hp, _⟩ | ⟨p, pk, jp, j, a1, a2, a3, a4, a5⟩
    · exact .root h1 hp
    · rcases a5 with ⟨r', hr', hraw, e1, e2⟩ | ⟨_, hw⟩
      · exact absurd (e2.trans h2) (hn r' hr')
      · exact absurd (by rw [show (⟨lk.name, pk.name, j.origin⟩ : Weld K).name = r.name from h2]
                         exact List.mem_map_of_mem hr) (hd.weldFresh _ hw)
  | @joint r B T hr _ hE ih =>
    obtain ⟨l, lk, p, pk, jp, j, h1, h2, h3, h4, h5, h6, h7, h8⟩ := hd.edge_of_joint ht hr
    obtain ⟨p', pk', e1, e2, e3⟩ := ih
    have := g.name_unique e1 h4 (e2.trans h5.symm)
    subst this
    exact ⟨l, lk, h1, h2, .child h1 h3 h6 h7 ((h8.edge g ha h1 h3 h6 h7 T).mpr hE) e3⟩
  | @weld w B hw _ ih =>
    obtain ⟨l, lk, p, pk, jp, j, h1, h2, h3, h4, h5, h6, h7, h8⟩ := hd.edge_of_weld hw
    obtain ⟨p', pk', e1, e2, e3⟩ := ih
    have := g.name_unique e1 h4 (e2.trans h5.symm)
    subst this
    have hE : EdgeTf m.angles j w.offset := by
      rw [h8]; exact .fixed rfl
    exact ⟨l, lk, h1, h2, .child h1 h3 h6 h7 hE e3⟩

/-- A joint is on the path in the model iff it is in the description. -/
theorem Describes.onPath_iff (hd : Describes ls js welds m) (g : Graph m) (ht : IsTree js)
    {s : String} {i jp l : Nat} {lk : Link K} (hs : m.jointIds.find s = some i)
    (hjp : m.joints[i]? = some jp) (hl : m.links[l]? = some lk) :
    OnPath m jp l ↔ JointOnPath js welds s lk.name := by
  obtain ⟨jp', j, f1, f2, f3⟩ := (g.jointNames s i).mp hs
  rw [hjp] at f1; cases f1
  constructor
  · intro h
    induction h generalizing lk with
    | here h1 h2 h3 =>
      rw [h1] at hl; cases hl
      rcases hd.links _ _ h1 with ⟨hn, _⟩ | ⟨p, pk, jp1, j1, a1, a2, a3, a4, a5⟩
      · rw [h2] at hn; cases hn
      · rw [h3] at a3; cases a3
        rw [f2] at a4; cases a4
        rcases a5 with ⟨r, hr, ⟨_, _, hraw⟩, e1, e2⟩ | ⟨hj, _⟩
        · rw [← e2]
          exact .here hr (by rw [← f3, hraw]; rfl)
        · obtain ⟨j', _, _, _, b1, b2, b3, _⟩ := g.joint hjp
          rw [f2] at b1; cases b1
          rw [hj] at b3
          rcases b3 with h | h | h <;> cases h
    | up h1 h2 _ ih =>
      rw [h1] at hl; cases hl
      rcases hd.links _ _ h1 with ⟨hn, _⟩ | ⟨p, pk, jp1, j1, a1, a2, a3, a4, a5⟩
      · rw [h2] at hn; cases hn
      · rw [h2] at a1; cases a1
        have hp := ih a2
        rcases a5 with ⟨r, hr, hraw, e1, e2⟩ | ⟨hj, hw⟩
        · rw [← e2]; rw [← e1] at hp
          exact .up hr hp
        · exact .weld (w := ⟨_, _, _⟩) hw hp
  · intro h
    have key : ∀ n, JointOnPath js welds s n → ∀ (l : Nat) (lk : Link K), m.links[l]? = some lk →
        lk.name = n → OnPath m jp l := by
      intro n hn
      induction hn with
      | @here r hr hs' =>
        intro l lk hl hn
        obtain ⟨l', lk', p, pk, jp', j', h1, h2, h3, h4, h5, h6, h7, i', c', h8⟩ := hd.edge_of_joint ht hr
        have := g.name_unique hl h1 (hn.trans h2.symm)
        subst this
        rw [h1] at hl; cases hl
        have hjj : jp' = jp := by
          obtain ⟨jx, jpj, e1, e2, e3⟩ := g.pjoint h1 h3
          rw [h6] at e1; cases e1
          rw [h7] at e2; cases e2
          obtain ⟨r2, j2, hr2, b1, i2, c2, b2⟩ := hd.joints i jp hjp
          rw [f2] at b1; cases b1
          have hnm : r2.name = r.name := by rw [hs', ← f3, b2]; rfl
          rcases e3 with hfix | ⟨hmov, ii, hii, hjj⟩
          · have hrr : r2 = r := List.inj_on_of_nodup_map hd.jointNodup hr2 hr hnm
            subst hrr
            obtain ⟨j3, _, _, _, d1, _, d3, _⟩ := g.joint hjp
            rw [f2] at d1; cases d1
            have hf : r2.type = .fixed := by rw [h8] at hfix; exact hfix
            rw [b2] at d3
            have d3' : r2.type.Movable := d3
            rw [hf] at d3'
            rcases d3' with h | h | h <;> cases h
          · have := (g.jointNames s ii).mpr ⟨jp', _, hjj, h7, by rw [h8]; exact hs'⟩
            rw [hs] at this; cases this
            rw [hjp] at hjj; cases hjj; rfl
        subst hjj
        exact .here h1 h3 h6
      | @up r hr _ ih =>
        intro l lk hl hn
        obtain ⟨l', lk', p, pk, jp', j', h1, h2, h3, h4, h5, h6, h7, h8⟩ := hd.edge_of_joint ht hr
        have := g.name_unique hl h1 (hn.trans h2.symm)
        subst this
        exact .up h1 h3 (ih p pk h4 h5)
      | @weld w hw _ ih =>
        intro l lk hl hn
        obtain ⟨l', lk', p, pk, jp', j', h1, h2, h3, h4, h5, h6, h7, h8⟩ := hd.edge_of_weld hw
        have := g.name_unique hl h1 (hn.trans h2.symm)
        subst this
        exact .up h1 h3 (ih p pk h4 h5)
    exact key lk.name h l lk hl rfl

/-- Describing only depends on names, parents, joints. -/
theorem Describes.congr (hd : Describes ls js welds m) {m' : KinModel K} (h : SameShape m m')
    (hj : m'.jheap = m.jheap) (hjo : m'.joints = m.joints) : Describes ls js welds m' := by
  refine ⟨?_, ?_, hd.names, hd.jointNodup, ?_, hd.weldFresh, hd.weldUnique, ?_, ?_⟩
  · intro l lk' hl
    obtain ⟨lk, e1, e2, e3, e4, e5, e6⟩ := h.get hl
    rw [hj, e4, e2, e5]
    rcases hd.links l lk e1 with h1 | ⟨p, pk, jp, j, a1, a2, a3, a4, a5⟩
    · exact .inl h1
    · obtain ⟨pk', f1, f2, _⟩ := h.symm.get a2
      exact .inr ⟨p, pk', jp, j, a1, f1, a3, a4, f2 ▸ a5⟩
  · intro r hr
    obtain ⟨l, lk, h1, h2⟩ := hd.all r hr
    obtain ⟨lk', f1, f2, _⟩ := h.symm.get h1
    exact ⟨l, lk', f1, f2 ▸ h2⟩
  · intro w hw
    obtain ⟨l, lk, h1, h2⟩ := hd.welded w hw
    obtain ⟨lk', f1, f2, _⟩ := h.symm.get h1
    exact ⟨l, lk', f1, f2 ▸ h2⟩
  · rw [hjo, hj]; exact hd.joints
  · rw [hjo, hj]; exact hd.movable

/-- Adding a link adds a weld. -/
theorem Describes.attached (hd : Describes ls js welds m) (g : Graph m) {name : String} {parent : Nat}
    {pk0 : Link K} (pose : Pose K) (hn : m.linkIds.find name = none)
    (hp : m.links[parent]? = some pk0) :
    Describes ls js (fun w => welds w ∨ w = ⟨name, pk0.name, pose⟩)
      (Tinyfk.attached m name parent pose) := by
  have hlt := (List.getElem?_eq_some_iff.mp hp).1
  have hfresh : ∀ (l : Nat) (lk : Link K), m.links[l]? = some lk → lk.name ≠ name := by
    intro l lk hl he
    have := (g.linkNames name l).mpr ⟨lk, hl, he⟩
    rw [hn] at this; cases this
  have hold : ∀ {l : Nat} {lk : Link K}, m.links[l]? = some lk → ∃ lk',
      (Tinyfk.attached m name parent pose).links[l]? = some lk' ∧ lk'.name = lk.name :=
    fun hl => let ⟨lk', a, b, _⟩ := attached_old hlt hl; ⟨lk', a, b⟩
  refine ⟨?_, ?_, hd.names, hd.jointNodup, ?_, ?_, ?_, ?_, ?_⟩
  · intro l lk' hl
    rcases attached_cases hlt hl with ⟨rfl, rfl⟩ | ⟨lk, e1, e2, _, _, e4, e5, _⟩
    · obtain ⟨pk', f1, f2⟩ := hold hp
      refine .inr ⟨parent, pk', m.jheap.length, newFixedJoint pose, rfl, f1, rfl, ?_, .inr ⟨rfl, .inr ?_⟩⟩
      · show (m.jheap ++ [newFixedJoint pose])[m.jheap.length]? = _
        simp
      · rw [f2]; rfl
    · rw [e4, e2, e5]
      rcases hd.links l lk e1 with h1 | ⟨p, pk, jp, j, a1, a2, a3, a4, a5⟩
      · exact .inl h1
      · obtain ⟨pk', f1, f2⟩ := hold a2
        refine .inr ⟨p, pk', jp, j, a1, f1, a3, Graph.jheap_attached a4, ?_⟩
        rw [f2]
        rcases a5 with h | ⟨h1, h2⟩
        · exact .inl h
        · exact .inr ⟨h1, .inl h2⟩
  · intro r hr
    obtain ⟨l, lk, h1, h2⟩ := hd.all r hr
    obtain ⟨lk', f1, f2⟩ := hold h1
    exact ⟨l, lk', f1, f2.trans h2⟩
  · rintro w (hw | rfl)
    · obtain ⟨l, lk, h1, h2⟩ := hd.welded w hw
      obtain ⟨lk', f1, f2⟩ := hold h1
      exact ⟨l, lk', f1, f2.trans h2⟩
    · exact ⟨m.links.length, _, attached_new hlt, rfl⟩
  · rintro w (hw | rfl)
    · exact hd.weldFresh w hw
    · intro hmem
      obtain ⟨r, hr, hrn⟩ := List.mem_map.mp hmem
      obtain ⟨l, lk, h1, h2⟩ := hd.all r hr
      exact hfresh l lk h1 (h2.trans hrn)
  · rintro w w' (hw | rfl) (hw' | rfl) he
    · exact hd.weldUnique w w' hw hw' he
    · obtain ⟨l, lk, h1, h2⟩ := hd.welded w hw
      exact absurd (h2.trans he) (hfresh l lk h1)
    · obtain ⟨l, lk, h1, h2⟩ := hd.welded w' hw'
      exact absurd (h2.trans he.symm) (hfresh l lk h1)
    · rfl
  · intro i jp hi
    obtain ⟨r, j, h1, h2, h3⟩ := hd.joints i jp hi
    exact ⟨r, j, h1, Graph.jheap_attached h2, h3⟩
  · intro r hr hm
    obtain ⟨i, jp, j, h1, h2, h3⟩ := hd.movable r hr hm
    exact ⟨i, jp, j, h1, Graph.jheap_attached h2, h3⟩

end

/-! ### The finished model -/

/-- the model before the centre-of-mass links describes the bare description -/
theorem Initial.describes {ls : List (RawLink K)} {js : List (RawJoint K)} {mi : ModelInterface K}
    {m0 : KinModel K} (hb : Built ls js mi) (h : Initial mi m0) :
    Describes ls js (fun _ => False) m0 := by
  have hget : ∀ {l : Nat} {lk : Link K}, m0.links[l]? = some lk →
      ∃ lk', mi.links[l]? = some lk' ∧ lk = { lk' with id := l } := by
    intro l lk hl
    rw [h.links, List.getElem?_mapIdx] at hl
    cases h' : mi.links[l]? with
    | none => rw [h'] at hl; cases hl
    | some x => rw [h'] at hl; cases hl; exact ⟨x, rfl, rfl⟩
  have hget' : ∀ {l : Nat} {lk' : Link K}, mi.links[l]? = some lk' →
      m0.links[l]? = some { lk' with id := l } := by
    intro l lk' hl
    rw [h.links, List.getElem?_mapIdx, hl]; rfl
  have hname : ∀ {l : Nat} {lk' : Link K}, mi.links[l]? = some lk' → ∃ r ∈ ls, r.name = lk'.name := by
    intro l lk' hl
    have := hb.linkPerm.mem_iff.mp (List.mem_map_of_mem (f := fun l : Link K => (l.name, l.inertial))
      (List.mem_of_getElem? hl))
    obtain ⟨r, hr, he⟩ := List.mem_map.mp this
    exact ⟨r, hr, (Prod.mk.inj he).1⟩
  have hraw : ∀ {k : Nat} {j : Joint K}, mi.joints[k]? = some j → ∃ r ∈ js, r.toJoint = j := by
    intro k j hk
    exact List.mem_map.mp (hb.jointPerm.mem_iff.mp (List.mem_of_getElem? hk))
  have hraw' : ∀ r ∈ js, ∃ k : Nat, mi.joints[k]? = some r.toJoint := by
    intro r hr
    exact List.mem_iff_getElem?.mp (hb.jointPerm.mem_iff.mpr (List.mem_map_of_mem hr))
  refine ⟨?_, ?_, ?_, ?_, ?_, ?_, ?_, ?_, ?_⟩
  · intro l lk hl
    obtain ⟨lk', h1, rfl⟩ := hget hl
    rcases hb.state.par h1 with ⟨a, _, b⟩ | ⟨p, pk, k, j, a1, a2, a3, a4, a5, a6⟩
    · obtain ⟨r0, hr0, e0⟩ := hname h1
      refine .inl ⟨a, ⟨r0, hr0, e0⟩, ?_⟩
      intro r hr
      obtain ⟨k, hk⟩ := hraw' r hr
      exact b _ (List.mem_of_getElem? hk)
    · obtain ⟨i, c, hh⟩ := h.heap a4
      obtain ⟨r, hr, hrj⟩ := hraw a4
      refine .inr ⟨p, _, k, _, a1, hget' a3, a2, hh, .inl ⟨r, hr, ⟨i, c, by rw [hrj]⟩, ?_, ?_⟩⟩
      · rw [← a6, ← hrj]; rfl
      · rw [← a5, ← hrj]; rfl
  · intro r hr
    have := hb.linkPerm.mem_iff.mpr (List.mem_map_of_mem (f := fun l : RawLink K => (l.name, l.inertial)) hr)
    obtain ⟨lk, hlk, he⟩ := List.mem_map.mp this
    obtain ⟨l, hl⟩ := List.mem_iff_getElem?.mp hlk
    exact ⟨l, _, hget' hl, (Prod.mk.inj he).1⟩
  · intro r hr
    obtain ⟨k, hk⟩ := hraw' r hr
    have := (hb.state.ok _ (List.mem_of_getElem? hk)).1
    obtain ⟨lk, hlk, hn⟩ := List.mem_map.mp this
    obtain ⟨l, hl⟩ := List.mem_iff_getElem?.mp hlk
    obtain ⟨r', hr', e⟩ := hname hl
    exact List.mem_map.mpr ⟨r', hr', e.trans hn⟩
  · have := (hb.jointPerm.map Joint.name).nodup_iff.mp hb.jointNodup
    rwa [List.map_map] at this
  · intro w hw; exact hw.elim
  · intro w hw; exact hw.elim
  · intro w _ hw; exact hw.elim
  · intro i jp hi
    rw [h.joints] at hi
    obtain ⟨k, j, hx, hj, _⟩ := movPos_get _ _ 0 hi
    rw [Nat.zero_add] at hx; subst hx
    obtain ⟨r, hr, hrj⟩ := hraw hj
    obtain ⟨i', c, hh⟩ := h.heap hj
    exact ⟨r, _, hr, hh, i', c, by rw [hrj]⟩
  · intro r hr hm
    obtain ⟨k, hk⟩ := hraw' r hr
    obtain ⟨i', c, hh⟩ := h.heap hk
    obtain ⟨i, hi, _⟩ := movPos_of_get _ 0 0 hk hm
    rw [Nat.zero_add] at hi
    exact ⟨i, k, _, by rw [h.joints]; exact hi, hh, i', c, rfl⟩

theorem Depth.exists_le {m : KinModel K} {l n : Nat} (h : Depth m l n) : ∀ k ≤ n, ∃ l', Depth m l' k := by
  induction h with
  | root h1 h2 => intro k hk; obtain rfl := Nat.le_zero.mp hk; exact ⟨_, .root h1 h2⟩
  | child h1 h2 h3 ih =>
    intro k hk
    rcases Nat.lt_or_eq_of_le hk with h | rfl
    · exact ih k (by omega)
    · exact ⟨_, .child h1 h2 h3⟩

/-- A path to the root has fewer edges than there are links. -/
theorem Depth.lt_length {m : KinModel K} {l n : Nat} (h : Depth m l n) : n < m.links.length := by
  choose f hf using fun k : Fin (n + 1) => h.exists_le k (Nat.lt_succ_iff.mp k.2)
  have hinj : Function.Injective (fun k : Fin (n + 1) => (⟨f k, (hf k).lt⟩ : Fin m.links.length)) := by
    intro a b hab
    have hab' : f a = f b := by simpa using hab
    have h1 := hf a
    rw [hab'] at h1
    exact Fin.ext (h1.unique (hf b))
  have := Fintype.card_le_of_injective _ hinj
  simp only [Fintype.card_fin] at this
  omega

/-- The centre-of-mass link `d` belongs to link `r`, whose inertial is `inr`. -/
def IsComOf (m : KinModel K) (d : Nat) (p : RawLink K × Inertial K) : Prop :=
  ∃ lk, m.links[d]? = some lk ∧ lk.name = p.1.name ++ "_com" ∧ lk.inertial = some p.2.reset

/-- the links with inertial, with it -/
def withInertial (ls : List (RawLink K)) : List (RawLink K × Inertial K) :=
  ls.filterMap fun r => r.inertial.map fun i => (r, i)

/-- What the constructor produces. -/
structure Constructed (ls : List (RawLink K)) (js : List (RawJoint K)) (m : KinModel K) : Prop where
  inv : Inv m
  desc : Describes ls js (ComWeld ls) m
  base : m.base = Pose.identity
  angles : m.angles = List.replicate m.joints.length 0
  capacity : m.stack.data.length = ls.length
  fits : FitsStack m
  noRp : m.comDummy = [] → m.rptable = []
  /-- masses are added in the order of link names; centre-of-mass links come in that order -/
  order : ∃ sorted : List (RawLink K), sorted.Perm ls ∧
    (sorted.map RawLink.name).Pairwise (· < ·) ∧
    m.totalMass = ((withInertial sorted).map fun p => p.2.mass).foldl (· + ·) 0 ∧
    List.Forall₂ (IsComOf m) m.comDummy (withInertial sorted) ∧
    m.links.map Link.name = sorted.map RawLink.name ++ (withInertial sorted).map fun p => p.1.name ++ "_com"
  jointOrder : ∃ names : List String, names.Pairwise (· < ·) ∧
    names.Perm ((js.filter fun j => decide j.type.Movable).map RawJoint.name) ∧
    ∀ (i : Nat) (s : String), names[i]? = some s ↔ ∃ (jp : Nat) (j : Joint K), m.joints[i]? = some jp ∧
      m.jheap[jp]? = some j ∧ j.name = s

/-! ### Proof of the constructor -/

theorem withInertial_cons (r : RawLink K) (ls : List (RawLink K)) :
    withInertial (r :: ls) = (match r.inertial with | some i => [(r, i)] | none => []) ++ withInertial ls := by
  unfold withInertial
  rw [List.filterMap_cons]
  cases r.inertial <;> rfl

theorem withInertial_append (a b : List (RawLink K)) :
    withInertial (a ++ b) = withInertial a ++ withInertial b := by
  simp [withInertial]

/-- the parsed element a link came from -/
def Link.toRaw (l : Link K) : RawLink K := ⟨l.name, l.inertial⟩

theorem sumMass_eq (links : List (Link K)) (acc : K) : sumMass links acc =
    ((withInertial (links.map Link.toRaw)).map fun p => p.2.mass).foldl (· + ·) acc := by
  induction links generalizing acc with
  | nil => rfl
  | cons a l ih =>
    rw [List.map_cons, withInertial_cons, sumMass]
    cases h : a.inertial with
    | none => simp [Link.toRaw, h, ih]
    | some i => simp [Link.toRaw, h, ih]

theorem withInertial_bases (L : List (RawLink K)) :
    List.Forall₂ (fun (b : Nat) (p : RawLink K × Inertial K) => L[b]? = some p.1 ∧
        p.1.inertial = some p.2)
      ((List.range L.length).filter fun b => (L[b]?.bind RawLink.inertial).isSome) (withInertial L) := by
  induction L using List.reverseRecOn with
  | nil => exact .nil
  | append_singleton L a ih =>
    rw [withInertial_append, List.length_append, List.length_singleton, List.range_succ,
      List.filter_append]
    refine List.rel_append ?_ ?_
    · have : (List.range L.length).filter (fun b => ((L ++ [a])[b]?.bind RawLink.inertial).isSome) =
          (List.range L.length).filter fun b => (L[b]?.bind RawLink.inertial).isSome := by
        apply List.filter_congr
        intro b hb
        rw [List.getElem?_append_left (List.mem_range.mp hb)]
      rw [this]
      refine ih.imp ?_
      rintro b p ⟨h1, h2⟩
      refine ⟨?_, h2⟩
      rw [List.getElem?_append_left (List.getElem?_eq_some_iff.mp h1).1]; exact h1
    · rw [withInertial_cons]
      cases h : a.inertial with
      | none => simp [h, withInertial]
      | some i => simp [h, withInertial]

theorem movPos_names (js : List (Joint K)) (jp i : Nat) (s : String) :
    ((js.filter fun j => decide j.type.Movable).map Joint.name)[i]? = some s ↔
      ∃ k j, (movPos jp js)[i]? = some (jp + k) ∧ js[k]? = some j ∧ j.name = s := by
  induction js generalizing jp i with
  | nil => simp
  | cons a js ih =>
    have hsh : (∃ k j, (movPos (jp + 1) js)[i]? = some (jp + 1 + k) ∧ js[k]? = some j ∧ j.name = s) ↔
        ∃ k j, (movPos (jp + 1) js)[i]? = some (jp + k) ∧ (a :: js)[k]? = some j ∧ j.name = s := by
      constructor
      · rintro ⟨k, j, h1, h2, h3⟩
        exact ⟨k + 1, j, by rw [h1]; congr 1; omega, h2, h3⟩
      · rintro ⟨k, j, h1, h2, h3⟩
        have := (movPos_sorted js (jp + 1)).2 _ (List.mem_of_getElem? h1)
        obtain ⟨k', rfl⟩ : ∃ k', k = k' + 1 := ⟨k - 1, by omega⟩
        exact ⟨k', j, by rw [h1]; congr 1; omega, h2, h3⟩
    by_cases hm : a.type.Movable
    · simp only [movPos, hm, List.filter_cons, decide_true, if_true, List.map_cons]
      cases i with
      | zero =>
        simp only [List.getElem?_cons_zero, Option.some.injEq]
        constructor
        · intro h; exact ⟨0, a, rfl, rfl, h⟩
        · rintro ⟨k, j, h1, h2, h3⟩
          obtain rfl : k = 0 := by omega
          simp at h2; subst h2; exact h3
      | succ i =>
        simp only [List.getElem?_cons_succ]
        rw [ih (jp + 1) i]
        constructor
        · rintro ⟨k, j, h1, h2, h3⟩
          exact ⟨k + 1, j, by rw [h1]; congr 1; omega, h2, h3⟩
        · rintro ⟨k, j, h1, h2, h3⟩
          have := (movPos_sorted js (jp + 1)).2 _ (List.mem_of_getElem? h1)
          obtain ⟨k', rfl⟩ : ∃ k', k = k' + 1 := ⟨k - 1, by omega⟩
          exact ⟨k', j, by rw [h1]; congr 1; omega, h2, h3⟩
    · simp only [movPos, hm, List.filter_cons, decide_false, if_false, Bool.false_eq_true]
      rw [ih (jp + 1) i, hsh]

section
variable {ls : List (RawLink K)} {js : List (RawJoint K)} {mi : ModelInterface K} {m0 m : KinModel K}

theorem Built.sortedPerm (hb : Built ls js mi) : (mi.links.map Link.toRaw).Perm ls := by
  have := hb.linkPerm.map (fun p : String × Option (Inertial K) => (⟨p.1, p.2⟩ : RawLink K))
  rw [List.map_map, List.map_map] at this
  have e : ls.map ((fun p : String × Option (Inertial K) => (⟨p.1, p.2⟩ : RawLink K)) ∘
      fun l => (l.name, l.inertial)) = ls := List.map_id _
  rw [e] at this
  exact this

theorem Initial.getRaw (hi : Initial mi m0) (l : Nat) :
    (m0.links[l]?).map Link.toRaw = (mi.links.map Link.toRaw)[l]? := by
  rw [hi.links, List.getElem?_mapIdx, List.getElem?_map]
  cases mi.links[l]? <;> rfl

theorem Initial.raw_mem (hb : Built ls js mi) (hi : Initial mi m0) {l : Nat} {lk : Link K}
    (h : m0.links[l]? = some lk) : lk.toRaw ∈ ls := by
  have := hi.getRaw l
  rw [h] at this
  exact hb.sortedPerm.mem_iff.mp (List.mem_of_getElem? this.symm)

theorem Initial.raw_get (hb : Built ls js mi) (hi : Initial mi m0) {r : RawLink K} (h : r ∈ ls) :
    ∃ (l : Nat) (lk : Link K), m0.links[l]? = some lk ∧ lk.toRaw = r := by
  obtain ⟨l, hl⟩ := List.mem_iff_getElem?.mp (hb.sortedPerm.mem_iff.mpr h)
  rw [← hi.getRaw l] at hl
  cases h' : m0.links[l]? with
  | none => rw [h'] at hl; cases hl
  | some lk => rw [h'] at hl; exact ⟨l, lk, h', by simpa using hl⟩

/-- no description link is called like the centre-of-mass link of another -/
def NoComClash (ls : List (RawLink K)) : Prop :=
  ∀ r ∈ ls, r.inertial.isSome → r.name ++ "_com" ∉ ls.map RawLink.name

theorem Initial.clash_iff (hb : Built ls js mi) (hi : Initial mi m0) :
    (∀ b, ¬ Clash m0 b) ↔ NoComClash ls := by
  constructor
  · intro h r hr hin hmem
    obtain ⟨r', hr', hn⟩ := List.mem_map.mp hmem
    obtain ⟨l, lk, h1, rfl⟩ := hi.raw_get hb hr
    obtain ⟨l', lk', h1', rfl⟩ := hi.raw_get hb hr'
    obtain ⟨inr, hinr⟩ := Option.isSome_iff_exists.mp hin
    exact h l ⟨lk, inr, l', lk', h1, hinr, h1', hn⟩
  · rintro h b ⟨lk0, inr, l', lk', h1, h2, h3, h4⟩
    refine h _ (hi.raw_mem hb h1) (by simp [Link.toRaw, h2]) ?_
    exact List.mem_map.mpr ⟨_, hi.raw_mem hb h3, h4⟩

theorem ComState.old_lt (hc : ComState m0 m0.links.length m) {l : Nat} {lk : Link K}
    (hl : m.links[l]? = some lk) (hlt : l < m0.links.length) : ∃ lk0, m0.links[l]? = some lk0 ∧
      lk.name = lk0.name ∧ lk.parent = lk0.parent ∧ lk.parentJoint = lk0.parentJoint := by
  obtain ⟨lk', a1, a2, a3, a4, _⟩ := hc.old l _ (List.getElem?_eq_getElem hlt)
  rw [hl] at a1; cases a1
  exact ⟨_, List.getElem?_eq_getElem hlt, a2, a3, a4⟩

theorem ComState.new_ge (hc : ComState m0 m0.links.length m) {l : Nat} {lk : Link K}
    (hl : m.links[l]? = some lk) (hge : m0.links.length ≤ l) :
    ∃ (b : Nat) (lk0 : Link K) (inr : Inertial K) (jp : Nat), m0.links[b]? = some lk0 ∧ lk0.inertial = some inr ∧
    lk.name = lk0.name ++ "_com" ∧ lk.parent = some b ∧ lk.parentJoint = some jp ∧
    m.jheap[jp]? = some (newFixedJoint ⟨inr.origin.position, Rot.one⟩) := by
  have hlt := (List.getElem?_eq_some_iff.mp hl).1
  rw [hc.len] at hlt
  have hb : l - m0.links.length < (comBases m0 m0.links.length).length := by omega
  obtain ⟨lk0, inr, lk', jp, c1, c2, c3, c4, c5, c6, c7, c8⟩ := hc.bases _ _ (List.getElem?_eq_getElem hb)
  rw [show m0.links.length + (l - m0.links.length) = l by omega, hl] at c3
  cases c3
  exact ⟨_, lk0, inr, jp, c1, c2, c4, c5, c7, c8⟩

theorem ComState.jheap (hc : ComState m0 m0.links.length m) {jp : Nat} {j : Joint K}
    (h : m0.jheap[jp]? = some j) : m.jheap[jp]? = some j := by
  obtain ⟨ext, he⟩ := hc.heap
  rw [he, List.getElem?_append_left (List.getElem?_eq_some_iff.mp h).1]; exact h

theorem ComState.describes (hb : Built ls js mi) (hi : Initial mi m0)
    (hcl : NoComClash ls) (hc : ComState m0 m0.links.length m) : Describes ls js (ComWeld ls) m := by
  have hd := hi.describes hb
  have hnd : (ls.map RawLink.name).Nodup := by
    refine (hb.sortedPerm.map RawLink.name).nodup_iff.mp ?_
    rw [List.map_map]; exact hb.linkNodup
  refine ⟨?_, ?_, hd.names, hd.jointNodup, ?_, ?_, ?_, ?_, ?_⟩
  · intro l lk hl
    by_cases hlt : l < m0.links.length
    · obtain ⟨lk0, h1, h2, h3, h4⟩ := hc.old_lt hl hlt
      rcases hd.links l lk0 h1 with ⟨a, b, c⟩ | ⟨p, pk, jp, j, a1, a2, a3, a4, a5⟩
      · rw [h2, h3]; exact .inl ⟨a, b, c⟩
      · obtain ⟨pk', b1, b2, _⟩ := hc.old p pk a2
        refine .inr ⟨p, pk', jp, j, h3.trans a1, b1, h4.trans a3, hc.jheap a4, ?_⟩
        rw [b2, h2]
        rcases a5 with h | ⟨_, h⟩
        · exact .inl h
        · exact h.elim
    · obtain ⟨b, lk0, inr, jp, c1, c2, c3, c4, c5, c6⟩ := hc.new_ge hl (by omega)
      obtain ⟨pk', b1, b2, _⟩ := hc.old b lk0 c1
      refine .inr ⟨b, pk', jp, _, c4, b1, c5, c6, .inr ⟨rfl, ?_⟩⟩
      rw [c3, b2]
      exact ComWeld.mk (l := lk0.toRaw) (i := inr) (hi.raw_mem hb c1) c2
  · intro r hr
    obtain ⟨l, lk, h1, h2⟩ := hd.all r hr
    obtain ⟨lk', b1, b2, _⟩ := hc.old l lk h1
    exact ⟨l, lk', b1, b2.trans h2⟩
  · rintro w ⟨hr, hin⟩
    obtain ⟨b, lk0, h1, rfl⟩ := hi.raw_get hb hr
    have hlt := (List.getElem?_eq_some_iff.mp h1).1
    have : b ∈ comBases m0 m0.links.length := by
      rw [mem_comBases]
      refine ⟨hlt, ?_⟩
      have : lk0.inertial = some _ := hin
      simp [hasInertial, h1, this]
    obtain ⟨i, hi'⟩ := List.mem_iff_getElem?.mp this
    obtain ⟨lk1, inr, lk, jp, c1, c2, c3, c4, _⟩ := hc.bases i b hi'
    rw [h1] at c1; cases c1
    exact ⟨_, lk, c3, c4⟩
  · rintro w ⟨hr, hin⟩
    exact hcl _ hr (by rw [hin]; rfl)
  · rintro w w' ⟨hr, hin⟩ ⟨hr', hin'⟩ he
    have := List.inj_on_of_nodup_map hnd hr hr' (append_com_inj he)
    subst this
    rw [hin] at hin'; cases hin'
    rfl
  · intro i jp hi'
    rw [hc.joints] at hi'
    obtain ⟨r, j, h1, h2, h3⟩ := hd.joints i jp hi'
    exact ⟨r, j, h1, hc.jheap h2, h3⟩
  · intro r hr hm
    obtain ⟨i, jp, j, h1, h2, h3⟩ := hd.movable r hr hm
    exact ⟨i, jp, j, by rw [hc.joints]; exact h1, hc.jheap h2, h3⟩

theorem ComState.depth_old (hg : Graph m0) (hc : ComState m0 m0.links.length m) {l n : Nat} (h : Depth m l n)
    (hlt : l < m0.links.length) : Depth m0 l n := by
  induction h with
  | root h1 h2 =>
    obtain ⟨lk0, a1, a2, a3, a4⟩ := hc.old_lt h1 hlt
    exact .root a1 (a3 ▸ h2)
  | child h1 h2 _ ih =>
    obtain ⟨lk0, a1, a2, a3, a4⟩ := hc.old_lt h1 hlt
    have hp := a3 ▸ h2
    exact .child a1 hp (ih (hg.parent_lt a1 hp))

theorem ComState.depth_le (hg : Graph m0) (hc : ComState m0 m0.links.length m) {l n : Nat} (h : Depth m l n) :
    n ≤ m0.links.length := by
  by_cases hlt : l < m0.links.length
  · exact Nat.le_of_lt (hc.depth_old hg h hlt).lt_length
  · cases h with
    | root h1 h2 => omega
    | child h1 h2 hd =>
      obtain ⟨b, lk0, inr, jp, c1, c2, c3, c4, c5, c6⟩ := hc.new_ge h1 (by omega)
      rw [h2] at c4; cases c4
      exact (hc.depth_old hg hd (List.getElem?_eq_some_iff.mp c1).1).lt_length

theorem ComState.comOf (hi : Initial mi m0) (hc : ComState m0 m0.links.length m) :
    List.Forall₂ (fun d (p : RawLink K × Inertial K) => IsComOf m d p)
      m.comDummy (withInertial (mi.links.map Link.toRaw)) := by
  have hN : m0.links.length = (mi.links.map Link.toRaw).length := by rw [hi.links]; simp
  have hbases : comBases m0 m0.links.length = (List.range (mi.links.map Link.toRaw).length).filter
      (fun b => ((mi.links.map Link.toRaw)[b]?.bind RawLink.inertial).isSome) := by
    unfold comBases
    rw [hN]
    apply List.filter_congr
    intro b _
    rw [← hi.getRaw b, hasInertial]
    cases m0.links[b]? <;> rfl
  have hF := withInertial_bases (mi.links.map Link.toRaw)
  rw [← hbases] at hF
  rw [List.forall₂_iff_get] at hF ⊢
  obtain ⟨hlen, hF⟩ := hF
  rw [hc.com]
  refine ⟨by simpa using hlen, ?_⟩
  intro i h1 h2
  have h1' : i < (comBases m0 m0.links.length).length := by simpa using h1
  obtain ⟨f1, f2⟩ := hF i h1' h2
  obtain ⟨lk0, inr, lk, jp, c1, c2, c3, c4, c5, c6, c7, c8⟩ := hc.bases i _ (List.getElem?_eq_getElem h1')
  simp only [List.get_eq_getElem] at f1 f2 ⊢
  rw [← hi.getRaw, c1] at f1
  simp only [Option.map_some, Option.some.injEq] at f1
  refine ⟨lk, ?_, ?_, ?_⟩
  · rw [List.getElem_range']; simpa using c3
  · rw [c4, ← f1]; rfl
  · rw [← f1] at f2
    have : lk0.inertial = some _ := f2
    rw [c2] at this
    rw [c6]
    simp only [Option.some.injEq] at this
    rw [this]

theorem ComState.linkNames (hi : Initial mi m0) (hc : ComState m0 m0.links.length m) :
    m.links.map Link.name = (mi.links.map Link.toRaw).map RawLink.name ++
      (withInertial (mi.links.map Link.toRaw)).map fun p => p.1.name ++ "_com" := by
  have hN : m0.links.length = mi.links.length := by rw [hi.links]; simp
  have hF := hc.comOf hi
  rw [List.forall₂_iff_get, hc.com] at hF
  obtain ⟨hlen, hF⟩ := hF
  rw [List.length_range'] at hlen
  apply List.ext_getElem
  · simp only [List.length_map, List.length_append]
    rw [hc.len, hlen, hN]
  · intro i h1 h2
    simp only [List.length_map] at h1
    by_cases hlt : i < mi.links.length
    · rw [List.getElem_append_left (by simpa using hlt)]
      obtain ⟨lk0, a1, a2, _⟩ := hc.old_lt (List.getElem?_eq_getElem h1) (by omega)
      have := hi.getRaw i
      rw [a1] at this
      simp only [List.getElem_map]
      rw [a2]
      rw [List.getElem?_map, List.getElem?_eq_getElem hlt] at this
      simp only [Option.map_some, Option.some.injEq] at this
      exact congrArg RawLink.name this
    · rw [List.getElem_append_right (by simpa using Nat.le_of_not_lt hlt)]
      simp only [List.getElem_map, List.length_map]
      rw [hc.len] at h1
      obtain ⟨lk, a1, a2, _⟩ := hF (i - mi.links.length) (by rw [List.length_range']; omega) (by omega)
      simp only [List.get_eq_getElem, List.getElem_range'] at a1 a2
      rw [show m0.links.length + 1 * (i - mi.links.length) = i by omega] at a1
      rw [← a2]
      have := (List.getElem?_eq_some_iff.mp a1).2
      rw [this]

theorem setBasePose_eq (b : Pose K) (m : KinModel K) :
    setBasePose b m = .ok () { m with base := b, cache := m.cache.clear } := rfl

/-- The constructor on an accepted, acyclic description with supported joints. -/
theorem construct_ok (hb : Built ls js mi) (ht : IsTree js) (hs : Supported js)
    (hcl : NoComClash ls) : ∃ m, construct (some mi) = .ok m ∧ Constructed ls js m := by
  obtain ⟨m0, hm0, hi⟩ := initMembers_spec hb ht hs
  obtain ⟨m, h1, hc⟩ := addComLinks_ok hi.graph ((hi.clash_iff hb).mpr hcl) m0.links.length 0 m0
    hi.comState (by omega)
  have hN : m0.links.length = ls.length := by
    have := hb.sortedPerm.length_eq
    rw [← this, hi.links]; simp
  rw [← List.range_eq_range'] at h1
  refine ⟨{ m with base := Pose.identity, cache := m.cache.clear }, ?_, ?_⟩
  · simp only [construct, hm0]
    simp only [Prog.bind, h1, setBasePose_eq, Res.toOutcome]
  have hinv : Inv m := by
    refine ⟨hc.graph, hc.sized, coherent_of_fresh hc.fresh, ?_, hc.rp⟩
    intro d hd
    rw [hc.com, List.mem_range'_1] at hd
    have hlt : d - m0.links.length < (comBases m0 m0.links.length).length := by omega
    obtain ⟨lk0, inr, lk, jp, c1, c2, c3, c4, c5, c6, c7, c8⟩ := hc.bases _ _ (List.getElem?_eq_getElem hlt)
    rw [show m0.links.length + (d - m0.links.length) = d by omega] at c3
    exact ⟨lk, inr.reset, c3, c6⟩
  have hjo : m.joints = movPos 0 mi.joints := hc.joints.trans hi.joints
  refine ⟨hinv.setBase _, (hc.describes hb hi hcl).congr (.of_links rfl) rfl rfl, rfl, ?_, ?_, ?_, ?_, ?_, ?_⟩
  · show m.angles = List.replicate m.joints.length 0
    rw [hc.angles, hi.angles, hc.joints]
  · show m.stack.data.length = _
    rw [hc.stack, hi.stack, ← hN, hi.links]
    simp [SizedStack.mk']
  · intro l n hd
    have hd' : Depth m l n := by refine Depth.congr ?_ hd; rfl
    show n ≤ m.stack.data.length
    have := hc.depth_le hi.graph hd'
    rw [hc.stack, hi.stack]
    simp only [SizedStack.mk', List.length_replicate]
    rw [hi.links] at this
    simpa using this
  · intro hnil
    have hnil' : m.comDummy = [] := hnil
    show m.rptable = []
    rw [hc.noRp hnil', hi.rp]; rfl
  · refine ⟨mi.links.map Link.toRaw, hb.sortedPerm, ?_, ?_, ?_, ?_⟩
    rotate_left 2
    · have := hc.comOf hi
      exact this
    · have := hc.linkNames hi
      exact this
    · rw [List.map_map]; exact hb.linkSorted
    · show m.totalMass = _
      have : m0.links.map Link.toRaw = mi.links.map Link.toRaw := by
        apply List.ext_getElem?
        intro l
        rw [List.getElem?_map]; exact hi.getRaw l
      rw [hc.mass, hi.mass, sumMass_eq, this]
  · refine ⟨(mi.joints.filter fun j => decide j.type.Movable).map Joint.name, ?_, ?_, ?_⟩
    · exact hb.jointSorted.sublist (List.filter_sublist.map _)
    · have := (hb.jointPerm.filter fun j => decide j.type.Movable).map Joint.name
      rw [List.filter_map, List.map_map] at this
      exact this
    · intro i s
      rw [movPos_names mi.joints 0 i s]
      show _ ↔ ∃ (jp : Nat) (j : Joint K), m.joints[i]? = some jp ∧ m.jheap[jp]? = some j ∧ j.name = s
      rw [hjo]
      simp only [Nat.zero_add]
      constructor
      · rintro ⟨k, j, a1, a2, a3⟩
        obtain ⟨i', c, hh⟩ := hi.heap a2
        exact ⟨k, _, a1, hc.jheap hh, a3⟩
      · rintro ⟨k, j, a1, a2, a3⟩
        obtain ⟨k', j', hx, hj, _⟩ := movPos_get _ _ 0 a1
        rw [Nat.zero_add] at hx; subst hx
        obtain ⟨i', c, hh⟩ := hi.heap hj
        rw [hc.jheap hh] at a2; cases a2
        exact ⟨k, j', a1, hj, a3⟩

/-- The constructor throws when a centre-of-mass name is taken. -/
theorem construct_clash (hb : Built ls js mi) (ht : IsTree js) (hs : Supported js)
    (hcl : ¬ NoComClash ls) : ∃ e, construct (some mi) = .exn (.invalidArgument e) := by
  obtain ⟨m0, hm0, hi⟩ := initMembers_spec hb ht hs
  have : ∃ b, Clash m0 b := by
    by_contra h
    exact hcl ((hi.clash_iff hb).mp (fun b hb' => h ⟨b, hb'⟩))
  obtain ⟨b, hb'⟩ := this
  obtain ⟨e, m', h1⟩ := addComLinks_exn hi.graph m0.links.length 0 m0 hi.comState (by omega) ⟨b, by omega, hb'⟩
  rw [← List.range_eq_range'] at h1
  refine ⟨e, ?_⟩
  simp only [construct, hm0]
  simp only [Prog.bind, h1, Res.toOutcome]

end

end Tinyfk
