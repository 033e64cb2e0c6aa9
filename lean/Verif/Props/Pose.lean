import Verif.Proofs.Progress
import Verif.Spec.Example

/-!
# Properties: pose queries under any history

C01, C08, C10, C11, C55, C58.
-/

set_option linter.unusedSectionVars false

namespace Tinyfk

open Scalar

section
variable {K : Type} [Scalar K]
variable {ls : List (RawLink K)} {js : List (RawJoint K)} {m0 m : KinModel K} {cs : List (Call K)}

theorem Reach.abs (h : Reach ls js m0 cs m) :
    Abs ls js m0 (linksAfter (names0 m0) cs) (weldsAfter (names0 m0) cs)
      (fun i => angleAfter i 0 cs) (baseAfter Pose.identity cs) m :=
  abs_of_history h.tree h.supported h.built h.runs

theorem Reach.constructed (h : Reach ls js m0 cs m) : Constructed ls js m0 :=
  constructed_of_ok h.tree h.supported h.built

theorem Reach.cap (h : Reach ls js m0 cs m) : m.stack.data.length = ls.length :=
  h.abs.cap.trans h.constructed.capacity

theorem AnglesAfter.find {θ : String → K} (h : AnglesAfter m0 cs θ) :
    ∀ s i, m0.jointIds.find s = some i → θ s = angleAfter i 0 cs :=
  fun s i hi => h s i (getJointIds_one.mpr hi)

theorem Reach.link (h : Reach ls js m0 cs m) {n : String} {l : Nat}
    (hn : getLinkIds [n] m = .ok [l] m) : ∃ lk, m.links[l]? = some lk ∧ lk.name = n :=
  (h.abs.inv.graph.linkNames n l).mp (getLinkIds_one.mp hn)

theorem Reach.worldPose_iff (h : Reach ls js m0 cs m) {θ : String → K} (hθ : AnglesAfter m0 cs θ)
    {n : String} {l : Nat} (hn : getLinkIds [n] m = .ok [l] m) (T : Pose K) :
    IsPose m l T ↔ WorldPose ls js (AllWelds ls m0 cs) θ (baseAfter Pose.identity cs) n T := by
  obtain ⟨lk, h1, rfl⟩ := h.link hn
  exact h.abs.worldPose_iff h.tree hθ.find h1 T

theorem Reach.depth_iff (h : Reach ls js m0 cs m)
    {n : String} {l : Nat} (hn : getLinkIds [n] m = .ok [l] m) (d : Nat) :
    Depth m l d ↔ LinkDepth ls js (AllWelds ls m0 cs) n d := by
  obtain ⟨lk, h1, rfl⟩ := h.link hn
  exact h.abs.desc.depth_iff h.abs.inv.graph h.tree h1

theorem Runs.snoc_ok {a b c : KinModel K} {cl : Call K} (hr : Runs a cs b) (h : cl.run b = .ok () c) :
    Runs a (cs ++ [cl]) c := by
  induction hr with
  | nil => exact .ok h .nil
  | ok h1 _ ih => exact .ok h1 (ih h)
  | exn h1 _ ih => exact .exn h1 (ih h)

theorem Reach.snoc (h : Reach ls js m0 cs m) {c : Call K} {m' : KinModel K} (hc : c.run m = .ok () m') :
    Reach ls js m0 (cs ++ [c]) m' := ⟨h.tree, h.supported, h.built, h.runs.snoc_ok hc⟩

theorem Reach.mem_names (h : Reach ls js m0 cs m) (name : String) :
    name ∈ linksAfter (names0 m0) cs ↔ ∃ l, m.linkIds.find name = some l := by
  rw [← h.abs.names, List.mem_map]
  constructor
  · rintro ⟨lk, h1, h2⟩
    obtain ⟨l, hl⟩ := List.mem_iff_getElem?.mp h1
    exact ⟨l, (h.abs.inv.graph.linkNames name l).mpr ⟨lk, hl, h2⟩⟩
  · rintro ⟨l, hl⟩
    obtain ⟨lk, h1, h2⟩ := (h.abs.inv.graph.linkNames name l).mp hl
    exact ⟨lk, List.mem_of_getElem? h1, h2⟩

theorem Reach.length (h : Reach ls js m0 cs m) : (linksAfter (names0 m0) cs).length = m.links.length := by
  rw [← h.abs.names]; simp

theorem Reach.addLink (h : Reach ls js m0 cs m) {name : String} {parent : Nat} (o : Pose K)
    (hn : name ∉ linksAfter (names0 m0) cs) (hp : parent < m.links.length) :
    ∃ m', addNewLink name parent o m = .ok m.links.length m' ∧
      Reach ls js m0 (cs ++ [.addNewLink name parent o]) m' ∧
      ∀ l : Nat, m'.cache.pred[l]? ≠ some true := by
  have hnone : m.linkIds.find name = none := by
    by_contra hne
    exact hn ((h.mem_names name).mpr (Option.ne_none_iff_exists'.mp hne))
  obtain ⟨t, e, _⟩ := h.abs.inv.addNewLink name parent o hnone hp
  refine ⟨_, e, h.snoc (by simp only [Call.run, Prog.bind, e, Prog.pure]), ?_⟩
  show ∀ l : Nat, (m.cache.extend Pose.identity).pred[l]? ≠ some true
  exact clear_pred _

/-- **C01.** After any history of calls, the pose of the link called `n` in the described
robot is defined and unique, and `get_link_pose` on its id returns it. The only other
outcome is an overflow of the traversal stack, and only for a link with more joints and welds
above it than the description has links (see C08). -/
theorem C01_link_pose (h : Reach ls js m0 cs m) {θ : String → K} (hθ : AnglesAfter m0 cs θ)
    {n : String} {l : Nat} (hn : getLinkIds [n] m = .ok [l] m) :
    ∃ T, (∀ T', WorldPose ls js (AllWelds ls m0 cs) θ (baseAfter Pose.identity cs) n T' ↔ T' = T) ∧
      ((∃ m', getLinkPose l m = .ok T m') ∨
        (∃ u, getLinkPose l m = .ub u) ∧
          ∃ d, LinkDepth ls js (AllWelds ls m0 cs) n d ∧ ls.length < d) := by
  have hi := h.abs.inv
  obtain ⟨lk, h1, _⟩ := h.link hn
  have hlt := (List.getElem?_eq_some_iff.mp h1).1
  obtain ⟨T, hT⟩ := hi.exists_pose hlt
  refine ⟨T, ?_, ?_⟩
  · intro T'
    rw [← h.worldPose_iff hθ hn]
    constructor
    · intro hT'; exact hT'.unique hT
    · rintro rfl; exact hT
  · rcases getLinkPose_total hi.graph.tree hi.sized hi.coh l with ⟨T', m', e1, e2, _⟩ | ⟨u, hu⟩
    · rw [e2.unique hT] at e1
      exact .inl ⟨m', e1⟩
    · right
      refine ⟨⟨u, hu⟩, ?_⟩
      obtain ⟨d, hd⟩ := hi.graph.depth hlt
      refine ⟨d, (h.depth_iff hn d).mp hd, ?_⟩
      by_contra hle
      obtain ⟨T', m', e⟩ := getLinkPose_fits hi.graph.tree hi.sized hi.coh hd (by rw [h.cap]; omega)
      rw [e] at hu; cases hu

/-- **C08 (partial).** A pose query is memory safe for every link with at most as many joints
and welds above it as the description has links; in particular for every link of the
description and every centre-of-mass link. Missing: the claim for all links, which is false
(`C08_overflow`). -/
theorem C08_pose_safe_partial (h : Reach ls js m0 cs m) {n : String} {l d : Nat}
    (hn : getLinkIds [n] m = .ok [l] m) (hd : LinkDepth ls js (AllWelds ls m0 cs) n d)
    (hle : d ≤ ls.length) : ∃ T m', getLinkPose l m = .ok T m' :=
  getLinkPose_fits h.abs.inv.graph.tree h.abs.inv.sized h.abs.inv.coh ((h.depth_iff hn d).mpr hd)
    (by rw [h.cap]; exact hle)

/-- **C08, exact bound.** With an empty cache the bound is sharp: a deeper link overflows. -/
theorem C08_exact (h : Reach ls js m0 cs m) {n : String} {l d : Nat}
    (hn : getLinkIds [n] m = .ok [l] m) (hd : LinkDepth ls js (AllWelds ls m0 cs) n d) :
    (∃ T m', (Prog.bind clearCache fun _ => getLinkPose l) m = .ok T m') ↔ d ≤ ls.length := by
  have hi := h.abs.inv.clear
  have hdep : Depth { m with cache := m.cache.clear } l d := by
    have := (h.depth_iff hn d).mpr hd
    exact Depth.congr (m := m) (m' := { m with cache := m.cache.clear }) rfl this
  have e : (Prog.bind clearCache fun _ => getLinkPose l) m = getLinkPose l { m with cache := m.cache.clear } := rfl
  rw [e]
  constructor
  · rintro ⟨T, m', hT⟩
    by_contra hgt
    have := getLinkPose_overflow hi.graph.tree hi.sized (clear_pred _) hdep
      (show m.stack.data.length < d by rw [h.cap]; omega)
    rw [hT] at this; cases this
  · intro hle
    exact getLinkPose_fits hi.graph.tree hi.sized hi.coh hdep (show d ≤ m.stack.data.length by rw [h.cap]; exact hle)

/-- **C55.** After `set_init_angles` every joint angle is 0, the base pose is as before, and
pose queries are those of the zero configuration. -/
theorem C55_set_init_angles (h : Reach ls js m0 cs m) :
    ∃ m1, setInitAngles m = .ok () m1 ∧ m1.base = baseAfter Pose.identity cs ∧
      (∀ i, i < m.joints.length → getJointAngles [i] m1 = .ok [0] m1) ∧
      ∀ {n : String} {l d : Nat}, getLinkIds [n] m1 = .ok [l] m1 →
        LinkDepth ls js (AllWelds ls m0 cs) n d → d ≤ ls.length →
        ∃ T m2, getLinkPose l m1 = .ok T m2 ∧
          WorldPose ls js (AllWelds ls m0 cs) (fun _ => 0) (baseAfter Pose.identity cs) n T := by
  have e : ∀ cs' : List (Call K), (∀ i v, angleAfter i v (cs' ++ [.setInitAngles]) = 0) ∧
      (∀ b, baseAfter b (cs' ++ [.setInitAngles]) = baseAfter b cs') ∧
      (∀ ns, weldsAfter ns (cs' ++ [.setInitAngles]) = weldsAfter ns cs') := by
    intro cs'
    induction cs' with
    | nil => exact ⟨fun _ _ => rfl, fun _ => rfl, fun _ => rfl⟩
    | cons c cs' ih =>
      refine ⟨?_, ?_, ?_⟩
      · intro i v; rw [List.cons_append, angleAfter_cons]; exact ih.1 _ _
      · intro b; rw [List.cons_append, baseAfter_cons, ih.2.1, ← baseAfter_cons]
      · intro ns; rw [List.cons_append, weldsAfter_cons, ih.2.2, ← weldsAfter_cons]
  have hrun : Runs m0 (cs ++ [.setInitAngles]) { m with angles := List.replicate m.numDof 0, cache := m.cache.clear } := by
    have : ∀ {a : KinModel K} {cs : List (Call K)} {b : KinModel K}, Runs a cs b →
        Runs a (cs ++ [.setInitAngles]) { b with angles := List.replicate b.numDof 0, cache := b.cache.clear } := by
      intro a cs b hr
      induction hr with
      | nil => exact .ok rfl .nil
      | ok h1 _ ih => exact .ok h1 ih
      | exn h1 _ ih => exact .exn h1 ih
    exact this h.runs
  have h1 : Reach ls js m0 (cs ++ [.setInitAngles]) { m with angles := List.replicate m.numDof 0, cache := m.cache.clear } :=
    ⟨h.tree, h.supported, h.built, hrun⟩
  refine ⟨_, rfl, h.abs.base, ?_, ?_⟩
  · intro i hi
    have := h.abs.inv.graph.numDof
    simp [getJointAngles, Prog.read, mapOutcome, Outcome.idx, this, hi]
  · intro n l d hn hd hle
    have hw : AllWelds ls m0 (cs ++ [.setInitAngles]) = AllWelds ls m0 cs := by
      funext w; simp only [AllWelds, (e cs).2.2]
    have hθ : AnglesAfter m0 (cs ++ [.setInitAngles]) (fun _ => (0 : K)) := by
      intro s i _; exact ((e cs).1 _ _).symm
    obtain ⟨T, hT, hq⟩ := C01_link_pose h1 hθ hn
    obtain ⟨T', m', hok⟩ := C08_pose_safe_partial h1 hn (by rw [hw]; exact hd) hle
    rcases hq with ⟨m2, hq⟩ | ⟨⟨u, hu⟩, _⟩
    · refine ⟨T, m2, hq, ?_⟩
      have := (hT T).mpr rfl
      rwa [hw, (e cs).2.1] at this
    · rw [hok] at hu; cases hu

/-- the relevance table is right once there is an inertial link or an added link -/
theorem Reach.rpOK (h : Reach ls js m0 cs m)
    (hne : (∃ r ∈ ls, r.inertial.isSome) ∨ weldsAfter (names0 m0) cs ≠ []) : RpOK m := by
  have hA := h.abs
  rcases hne with ⟨r, hr, hin⟩ | hw
  · apply hA.inv.rp
    rw [hA.coms]
    obtain ⟨sorted, hp, _, _, hf, _⟩ := h.constructed.order
    intro hnil
    rw [hnil] at hf
    obtain ⟨inr, hinr⟩ := Option.isSome_iff_exists.mp hin
    have : (r, inr) ∈ withInertial sorted := by
      simp only [withInertial, List.mem_filterMap]
      exact ⟨r, hp.mem_iff.mpr hr, by simp [hinr]⟩
    cases hs : withInertial sorted with
    | nil => rw [hs] at this; cases this
    | cons a b => rw [hs] at hf; cases hf
  · exact hA.rpw hw

/-- **C10.** As soon as the description has an inertial link or a link has been added, the
relevance table marks joint `s` for link `n` exactly if `s` lies between the root and `n`. -/
theorem C10_relevance (h : Reach ls js m0 cs m)
    (hne : (∃ r ∈ ls, r.inertial.isSome) ∨ weldsAfter (names0 m0) cs ≠ [])
    {s n : String} {i l : Nat} (hs : getJointIds [s] m = .ok [i] m)
    (hn : getLinkIds [n] m = .ok [l] m) :
    ∃ b, RpTable.isRelevant m.rptable l i = .ok b ∧
      (b = true ↔ JointOnPath js (AllWelds ls m0 cs) s n) := by
  have hA := h.abs
  have hrp := h.rpOK hne
  have hfi := getJointIds_one.mp hs
  obtain ⟨jp, j, hj, hjh, _⟩ := (hA.inv.graph.jointNames s i).mp hfi
  obtain ⟨lk, h1, rfl⟩ := h.link hn
  obtain ⟨b, hb, hiff⟩ := hrp.sized.isRelevant (List.getElem?_eq_some_iff.mp h1).1
    (List.getElem?_eq_some_iff.mp hj).1
  refine ⟨b, hb, hiff.trans ?_⟩
  rw [hrp.iff]
  have := hA.desc.onPath_iff hA.inv.graph h.tree hfi hj h1
  constructor
  · rintro ⟨jp', e1, e2⟩
    rw [hj] at e1; cases e1
    exact this.mp e2
  · intro hp
    exact ⟨jp, hj, this.mpr hp⟩

/-! ### C58: histories of valid calls -/

/-- every call of the history is valid when it is made -/
def ValidHistory (nj : Nat) : List String → List (Call K) → Prop
  | _, [] => True
  | ns, c :: cs => c.Valid nj ns.length ∧ ValidHistory nj (linksAfter ns [c]) cs

/-- the calls that compute Jacobians of a link -/
def Call.IsJacobian : Call K → Prop
  | .getJacobian .. => True
  | _ => False

theorem LinkDepth.mono {w w' : Weld K → Prop} (h : ∀ x, w x → w' x) {n : String} {d : Nat}
    (hd : LinkDepth ls js w n d) : LinkDepth ls js w' n d := by
  induction hd with
  | root h1 h2 => exact .root h1 h2
  | joint h1 _ ih => exact .joint h1 ih
  | weld h1 _ ih => exact .weld (h _ h1) ih

theorem Abs.progress {ns : List String} {welds : List (Weld K)} {f : Nat → K} {b : Pose K}
    (h : Abs ls js m0 ns welds f b m) (htree : IsTree js)
    (hlim : ∀ j ∈ js, j.type = .revolute ∨ j.type = .prismatic → j.limits.isSome)
    (hj : m0.comDummy ≠ [] ∨ ∀ c ∈ cs, ¬ c.IsJacobian)
    (hv : ValidHistory m0.joints.length ns cs)
    (hfit : ∀ n d, LinkDepth ls js (fun w => ComWeld ls w ∨ w ∈ welds ++ weldsAfter ns cs) n d →
      d ≤ m0.stack.data.length) : ∃ m', Runs m cs m' := by
  induction cs generalizing ns welds f b m with
  | nil => exact ⟨m, .nil⟩
  | cons c cs ih =>
    obtain ⟨hv1, hv2⟩ := hv
    have hf : FitsStack m := by
      intro l d hd
      have hlt := hd.lt
      have hlk := List.getElem?_eq_getElem hlt
      rw [h.cap]
      apply hfit m.links[l].name d
      refine ((h.desc.depth_iff h.inv.graph htree hlk).mp hd).mono ?_
      intro x hx
      rcases hx with hx | hx
      · exact .inl hx
      · exact .inr (by simp [hx])
    have hnl : ns.length = m.links.length := by rw [← h.names]; simp
    have step : ∀ m1, (c.run m = .ok () m1 ∨ ∃ e, c.run m = .exn e m1) → ∃ m', Runs m1 cs m' := by
      intro m1 hr
      refine ih (h.step hr) ?_ hv2 ?_
      · rcases hj with hj | hj
        · exact .inl hj
        · exact .inr fun c hc => hj c (by simp [hc])
      · intro n d hd
        apply hfit n d
        rw [weldsAfter_cons, ← List.append_assoc]
        exact hd
    have hrp : c.NeedsTable → RpOK m := by
      intro hc
      rcases hj with hj | hj
      · apply h.inv.rp; rw [h.coms]; exact hj
      · exact absurd hc (by
          have := hj c (by simp)
          cases c <;> exact this)
    rcases h.inv.progress hf (c := c) hrp (h.desc.hasLimits h.inv.graph hlim)
      (by rw [h.joints, ← hnl]; exact hv1) with ⟨m1, hm1⟩ | ⟨e, he⟩
    · obtain ⟨m', hm'⟩ := step m1 (.inl hm1)
      exact ⟨m', .ok hm1 hm'⟩
    · obtain ⟨m', hm'⟩ := step m (.inr ⟨_, he⟩)
      exact ⟨m', .exn he hm'⟩

/-- **C58.** Any history of valid calls on a constructed robot runs to its end: no call
crashes or hangs, as long as no link is deeper than the number of links of the description
(C08) and Jacobians are only asked of robots with an inertial link (C09). -/
theorem C58_valid_calls_return (ht : IsTree js) (hs : Supported js)
    (hc : construct (buildModel ls js) = .ok m0)
    (hlim : ∀ j ∈ js, j.type = .revolute ∨ j.type = .prismatic → j.limits.isSome)
    (hj : (∃ r ∈ ls, r.inertial.isSome) ∨ ∀ c ∈ cs, ¬ c.IsJacobian)
    (hv : ValidHistory m0.joints.length (names0 m0) cs)
    (hfit : ∀ n d, LinkDepth ls js (AllWelds ls m0 cs) n d → d ≤ ls.length) :
    ∃ m, Reach ls js m0 cs m := by
  have hC := constructed_of_ok ht hs hc
  have hj' : m0.comDummy ≠ [] ∨ ∀ c ∈ cs, ¬ c.IsJacobian := by
    rcases hj with ⟨r, hr, hin⟩ | hj
    · left
      obtain ⟨sorted, hp, _, _, hf, _⟩ := hC.order
      intro hnil
      rw [hnil] at hf
      obtain ⟨inr, hinr⟩ := Option.isSome_iff_exists.mp hin
      have : (r, inr) ∈ withInertial sorted := by
        simp only [withInertial, List.mem_filterMap]
        exact ⟨r, hp.mem_iff.mpr hr, by simp [hinr]⟩
      cases hs : withInertial sorted with
      | nil => rw [hs] at this; cases this
      | cons a b => rw [hs] at hf; cases hf
    · exact .inr hj
  obtain ⟨m, hm⟩ := (hC.abs).progress (cs := cs) ht hlim hj' hv (by
    intro n d hd
    rw [hC.capacity]
    rw [List.nil_append] at hd
    exact hfit n d hd)
  exact ⟨m, ht, hs, hc, hm⟩

end

/-! ### The hypotheses are met: a history on the example robot -/

namespace Example

/-- a history: angles, a new link, a query, a rejected call, a new base, a Jacobian -/
noncomputable def hist : List (Call ℝ) :=
  [.setJointAngles [1, 0] [1/2, 2], .addNewLink "tool" 3 ⟨⟨0, 0, 1⟩, Rot.one⟩, .getLinkPose 3,
   .addNewLink "arm" 0 Pose.identity, .setBasePose ⟨⟨1, 2, 3⟩, Rot.one⟩,
   .getJacobian 6 [0, 1] .rpy true]

theorem welds_hist : weldsAfter (names0 m0) hist = [⟨"tool", "tip", ⟨⟨0, 0, 1⟩, Rot.one⟩⟩] := by
  simp [names0, linkNames, hist, weldsAfter]

theorem depth_hist {n : String} {d : Nat} (h : LinkDepth ls js (AllWelds ls m0 hist) n d) :
    d = if n = "base" then 0 else if n = "arm" then 1 else if n = "hand" then 2 else
      if n = "arm_com" then 2 else if n = "tip" then 3 else 4 := by
  induction h with
  | @root l h1 h2 =>
    simp only [ls, List.mem_cons, List.not_mem_nil, or_false] at h1
    rcases h1 with rfl | rfl | rfl | rfl <;> simp [js, turn, slide, weld] at h2 ⊢
  | joint h1 _ ih =>
    simp only [js, List.mem_cons, List.not_mem_nil, or_false] at h1
    rcases h1 with rfl | rfl | rfl <;> simp [turn, slide, weld] at ih ⊢ <;> omega
  | weld h1 _ ih =>
    rcases h1 with ⟨h1, h2⟩ | h1
    · simp only [ls, List.mem_cons, List.not_mem_nil, or_false] at h1
      rcases h1 with rfl | rfl | rfl | rfl <;> simp at h2 <;> simp at ih ⊢ <;> omega
    · rw [welds_hist] at h1
      simp only [List.mem_cons, List.not_mem_nil, or_false] at h1
      subst h1
      simp at ih ⊢; omega

/-- the hypotheses of C58 are met, and so are those of C01, C08, C10, C55 -/
theorem reach : ∃ m, Reach ls js m0 hist m := by
  refine C58_valid_calls_return isTree supported m0_spec ?_ (.inl ?_) ?_ ?_
  · intro j hj
    simp only [js, List.mem_cons, List.not_mem_nil, or_false] at hj
    rcases hj with rfl | rfl | rfl <;> simp [turn, slide, weld]
  · exact ⟨⟨"arm", some armInertial⟩, by simp [ls], rfl⟩
  · rw [joints_length, names0, linkNames]
    simp [hist, ValidHistory, Call.Valid, linksAfter]
  · intro n d hd
    have := depth_hist hd
    have hl : ls.length = 4 := rfl
    rw [hl]
    split at this
    · omega
    split at this
    · omega
    split at this
    · omega
    split at this
    · omega
    split at this <;> omega

/-- a reached state -/
noncomputable def m1 : KinModel ℝ := reach.choose

theorem m1_reach : Reach ls js m0 hist m1 := reach.choose_spec

theorem names_m1 : m1.links.map Link.name =
    ["arm", "base", "hand", "tip", "arm_com", "tip_com", "tool"] := by
  rw [m1_reach.abs.names]
  simp [names0, linkNames, hist, linksAfter]

theorem tool_id : getLinkIds ["tool"] m1 = .ok [6] m1 := by
  rw [getLinkIds_one, m1_reach.abs.inv.graph.linkNames]
  have := congrArg (fun l => l[6]?) names_m1
  simpa [List.getElem?_map] using this

theorem turn_id : getJointIds ["turn"] m1 = .ok [1] m1 := by
  rw [getJointIds_one, m1_reach.abs.jointIds, jointIds]
  simp

/-- the angles after the history -/
noncomputable def θ1 : String → ℝ := fun s => if s = "turn" then 1/2 else if s = "slide" then 2 else 0

theorem angles_m1 : AnglesAfter m0 hist θ1 := by
  intro s i h
  rw [getJointIds_one, jointIds] at h
  rcases h with ⟨rfl, rfl⟩ | ⟨rfl, rfl⟩ <;> simp [θ1, hist, angleAfter, lastWrite]

-- C01, C08, C55 and C10 apply to link "tool" of `m1`
example := C01_link_pose m1_reach angles_m1 tool_id
example := C55_set_init_angles m1_reach
example := C10_relevance m1_reach (.inl ⟨⟨"arm", some armInertial⟩, by simp [ls], rfl⟩) turn_id tool_id

theorem tool_depth : LinkDepth ls js (AllWelds ls m0 hist) "tool" 4 := by
  have h0 : LinkDepth ls js (AllWelds ls m0 hist) "base" 0 :=
    .root (l := ⟨"base", none⟩) (by simp [ls]) (by simp [js, turn, slide, weld])
  have h1 : LinkDepth ls js (AllWelds ls m0 hist) "arm" 1 := .joint (j := turn) (by simp [js]) h0
  have h2 : LinkDepth ls js (AllWelds ls m0 hist) "hand" 2 := .joint (j := slide) (by simp [js]) h1
  have h3 : LinkDepth ls js (AllWelds ls m0 hist) "tip" 3 := .joint (j := weld) (by simp [js]) h2
  exact .weld (w := ⟨"tool", "tip", ⟨⟨0, 0, 1⟩, Rot.one⟩⟩) (.inr (by rw [welds_hist]; simp)) h3

example : ∃ T m', getLinkPose 6 m1 = .ok T m' :=
  C08_pose_safe_partial m1_reach tool_id tool_depth (by decide)
example := (C08_exact m1_reach tool_id tool_depth).mpr (by decide)

end Example

/-! ### C08 is false in general -/

section
variable {K : Type} [Scalar K]

/-- **C08 is false.** On a robot of one link, adding a link to the root and a link to that one,
and then asking for the pose of the last, writes past the traversal stack. -/
theorem C08_overflow (o o' : Pose K) : ∃ m0 m : KinModel K,
    Reach [⟨"a", none⟩] [] m0 [.addNewLink "b" 0 o, .addNewLink "c" 1 o'] m ∧
    getLinkIds ["c"] m = .ok [2] m ∧ ∃ u, getLinkPose 2 m = .ub u := by
  have ht : IsTree ([] : List (RawJoint K)) := ⟨by simp, fun _ => 0, by simp⟩
  have hs : Supported ([] : List (RawJoint K)) := by intro j hj; cases hj
  have hb : (buildModel [⟨"a", none⟩] ([] : List (RawJoint K))).isSome := by
    rw [buildModel_isSome]
    exact ⟨by simp, by simp, by simp, by simp, "a", by simp, by simp⟩
  have hcl : NoComClash [(⟨"a", none⟩ : RawLink K)] := by intro r hr; simp at hr; subst hr; simp
  obtain ⟨m0, h0⟩ := construct_exists hb ht hs hcl
  have hC := constructed_of_ok ht hs h0
  have hnames : m0.links.map Link.name = ["a"] := by
    obtain ⟨sorted, hp, _, _, _, h⟩ := hC.order
    have : sorted = [⟨"a", none⟩] := List.perm_singleton.mp hp
    rw [h, this]; rfl
  have r0 : Reach [⟨"a", none⟩] [] m0 [] m0 := ⟨ht, hs, h0, .nil⟩
  have l0 := r0.length
  simp only [names0, hnames, linksAfter, List.length_singleton] at l0
  obtain ⟨m1, _, r1, _⟩ := r0.addLink (name := "b") (parent := 0) o
    (by simp [names0, hnames, linksAfter]) (by omega)
  have l1 := r1.length
  simp [names0, hnames, linksAfter] at l1
  obtain ⟨m2, _, r2, hclear⟩ := r1.addLink (name := "c") (parent := 1) o'
    (by simp [names0, hnames, linksAfter]) (by omega)
  replace r2 : Reach [⟨"a", none⟩] [] m0 [.addNewLink "b" 0 o, .addNewLink "c" 1 o'] m2 := r2
  have n2 := r2.abs.names
  simp only [names0, hnames, linksAfter] at n2
  have hid : getLinkIds ["c"] m2 = .ok [2] m2 := by
    rw [getLinkIds_one, r2.abs.inv.graph.linkNames]
    have := congrArg (fun l => l[2]?) n2
    simpa [List.getElem?_map] using this
  refine ⟨m0, m2, r2, hid, ?_⟩
  have hw : weldsAfter (names0 m0) [.addNewLink "b" 0 o, .addNewLink "c" 1 o'] =
      [⟨"b", "a", o⟩, ⟨"c", "b", o'⟩] := by
    simp [names0, hnames, weldsAfter]
  have d0 : LinkDepth [⟨"a", none⟩] [] (AllWelds [⟨"a", none⟩] m0 [.addNewLink "b" 0 o, .addNewLink "c" 1 o']) "a" 0 :=
    .root (l := ⟨"a", none⟩) (by simp) (by simp)
  have d1 : LinkDepth [⟨"a", none⟩] [] (AllWelds [⟨"a", none⟩] m0 [.addNewLink "b" 0 o, .addNewLink "c" 1 o']) "b" 1 :=
    .weld (w := ⟨"b", "a", o⟩) (.inr (by rw [hw]; simp)) d0
  have d2 : LinkDepth [⟨"a", none⟩] [] (AllWelds [⟨"a", none⟩] m0 [.addNewLink "b" 0 o, .addNewLink "c" 1 o']) "c" 2 :=
    .weld (w := ⟨"c", "b", o'⟩) (.inr (by rw [hw]; simp)) d1
  exact ⟨.outOfBounds "SizedStack::push", getLinkPose_overflow r2.abs.inv.graph.tree r2.abs.inv.sized hclear
    ((r2.depth_iff hid 2).mpr d2) (by rw [r2.cap]; simp)⟩

end

end Tinyfk
