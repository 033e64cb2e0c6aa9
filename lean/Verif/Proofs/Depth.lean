import Verif.Proofs.Names

/-!
# Depth of links, by name; the constructor as a hypothesis
-/

set_option linter.unusedSectionVars false

namespace Tinyfk

open Scalar

variable {K : Type} [Scalar K]
variable {ls : List (RawLink K)} {js : List (RawJoint K)} {welds : Weld K → Prop} {m m0 : KinModel K}

theorem Describes.linkDepth (hd : Describes ls js welds m) {l d : Nat} {lk : Link K}
    (hl : m.links[l]? = some lk) (h : Depth m l d) : LinkDepth ls js welds lk.name d := by
  induction h generalizing lk with
  | root h1 h2 =>
    rw [h1] at hl; cases hl
    rcases hd.links _ _ h1 with ⟨_, ⟨r, hr, he⟩, hn⟩ | ⟨p, _, _, _, hp, _⟩
    · rw [← he] at hn ⊢
      exact .root hr hn
    · rw [h2] at hp; cases hp
  | child h1 h2 _ ih =>
    rw [h1] at hl; cases hl
    rcases hd.links _ _ h1 with ⟨hn, _⟩ | ⟨p, pk, jp, j, a1, a2, a3, a4, a5⟩
    · rw [h2] at hn; cases hn
    · rw [h2] at a1; cases a1
      have := ih a2
      rcases a5 with ⟨r, hr, hraw, e1, e2⟩ | ⟨_, hw⟩
      · rw [← e2]; rw [← e1] at this
        exact .joint hr this
      · exact .weld (w := ⟨_, _, _⟩) hw this

theorem Describes.depth (hd : Describes ls js welds m) (g : Graph m) (ht : IsTree js)
    {n : String} {d : Nat} (h : LinkDepth ls js welds n d) :
    ∃ (l : Nat) (lk : Link K), m.links[l]? = some lk ∧ lk.name = n ∧ Depth m l d := by
  induction h with
  | @root r hr hn =>
    obtain ⟨l, lk, h1, h2⟩ := hd.all r hr
    refine ⟨l, lk, h1, h2, ?_⟩
    rcases hd.links l lk h1 with ⟨hp, _⟩ | ⟨p, pk, jp, j, a1, a2, a3, a4, a5⟩
    · exact .root h1 hp
    · rcases a5 with ⟨r', hr', hraw, e1, e2⟩ | ⟨_, hw⟩
      · exact absurd (e2.trans h2) (hn r' hr')
      · exact absurd (by rw [show (⟨lk.name, pk.name, j.origin⟩ : Weld K).name = r.name from h2]
                         exact List.mem_map_of_mem hr) (hd.weldFresh _ hw)
  | @joint r d hr _ ih =>
    obtain ⟨l, lk, p, pk, jp, j, h1, h2, h3, h4, h5, h6, h7, h8⟩ := hd.edge_of_joint ht hr
    obtain ⟨p', pk', e1, e2, e3⟩ := ih
    have := g.name_unique e1 h4 (e2.trans h5.symm)
    subst this
    exact ⟨l, lk, h1, h2, .child h1 h3 e3⟩
  | @weld w d hw _ ih =>
    obtain ⟨l, lk, p, pk, jp, j, h1, h2, h3, h4, h5, h6, h7, h8⟩ := hd.edge_of_weld hw
    obtain ⟨p', pk', e1, e2, e3⟩ := ih
    have := g.name_unique e1 h4 (e2.trans h5.symm)
    subst this
    exact ⟨l, lk, h1, h2, .child h1 h3 e3⟩

theorem Describes.depth_iff (hd : Describes ls js welds m) (g : Graph m) (ht : IsTree js)
    {l d : Nat} {lk : Link K} (hl : m.links[l]? = some lk) :
    Depth m l d ↔ LinkDepth ls js welds lk.name d := by
  refine ⟨hd.linkDepth hl, fun h => ?_⟩
  obtain ⟨l', lk', h1, h2, h3⟩ := hd.depth g ht h
  have := g.name_unique h1 hl h2
  subst this
  exact h3

/-- A successfully constructed tree robot. -/
theorem constructed_of_ok (ht : IsTree js) (hs : Supported js)
    (hc : construct (buildModel ls js) = .ok m0) : Constructed ls js m0 := by
  cases hb : buildModel ls js with
  | none => rw [hb] at hc; cases hc
  | some mi =>
    rw [hb] at hc
    have hB := buildModel_spec hb
    by_cases hcl : NoComClash ls
    · obtain ⟨m, h1, h2⟩ := construct_ok hB ht hs hcl
      rw [hc] at h1; cases h1
      exact h2
    · obtain ⟨e, h1⟩ := construct_clash hB ht hs hcl
      rw [hc] at h1; cases h1

theorem construct_exists (hb : (buildModel ls js).isSome) (ht : IsTree js) (hs : Supported js)
    (hcl : NoComClash ls) : ∃ m, construct (buildModel ls js) = .ok m := by
  obtain ⟨mi, hmi⟩ := Option.isSome_iff_exists.mp hb
  rw [hmi]
  obtain ⟨m, h, _⟩ := construct_ok (buildModel_spec hmi) ht hs hcl
  exact ⟨m, h⟩

/-- Everything known about a state reached from construction by a history of calls. -/
theorem abs_of_history {cs : List (Call K)} (ht : IsTree js) (hs : Supported js)
    (hc : construct (buildModel ls js) = .ok m0) (hr : Runs m0 cs m) :
    Abs ls js m0 (linksAfter (m0.links.map Link.name) cs) (weldsAfter (m0.links.map Link.name) cs)
      (fun i => angleAfter i 0 cs) (baseAfter Pose.identity cs) m := by
  have := (constructed_of_ok ht hs hc).abs.runs hr
  simpa using this

theorem Abs.anglesAre {ns : List String} {welds : List (Weld K)} {f : Nat → K} {b : Pose K}
    (h : Abs ls js m0 ns welds f b m) {θ : String → K}
    (hθ : ∀ s i, m0.jointIds.find s = some i → θ s = f i) : AnglesAre m θ := by
  intro s i hi
  rw [h.jointIds] at hi
  have hlt : i < m.joints.length := by
    rw [← h.jointIds] at hi
    obtain ⟨jp, _, hj, _⟩ := (h.inv.graph.jointNames s i).mp hi
    exact (List.getElem?_eq_some_iff.mp hj).1
  rw [h.angles i hlt, hθ s i hi]

/-- the pose of a named link, in the model and in the description -/
theorem Abs.worldPose_iff {ns : List String} {welds : List (Weld K)} {f : Nat → K} {b : Pose K}
    (h : Abs ls js m0 ns welds f b m) (ht : IsTree js) {θ : String → K}
    (hθ : ∀ s i, m0.jointIds.find s = some i → θ s = f i) {l : Nat} {lk : Link K}
    (hl : m.links[l]? = some lk) (T : Pose K) :
    IsPose m l T ↔ WorldPose ls js (fun w => ComWeld ls w ∨ w ∈ welds) θ b lk.name T := by
  have ha := h.anglesAre hθ
  constructor
  · intro hp
    have := h.desc.worldPose h.inv.graph ha hl hp
    rwa [h.base] at this
  · intro hp
    rw [← h.base] at hp
    obtain ⟨l', lk', h1, h2, h3⟩ := h.desc.isPose h.inv.graph ht ha hp
    have := h.inv.graph.name_unique h1 hl h2
    subst this
    exact h3

end Tinyfk
