import Verif.Props.Variants

/-!
# C117: names do not matter
-/

namespace Tinyfk

open Scalar

section
variable {K : Type} [Scalar K]
variable {ls : List (RawLink K)} {js : List (RawJoint K)} {m0 m m0' m' : KinModel K} {cs cs' : List (Call K)} {ρ σ : String → String}

omit [Scalar K] in
@[simp] theorem RawJoint.rename_child (ρ σ : String → String) (j : RawJoint K) : (j.rename ρ σ).childLinkName = ρ j.childLinkName := rfl
omit [Scalar K] in
@[simp] theorem RawJoint.rename_parent (ρ σ : String → String) (j : RawJoint K) : (j.rename ρ σ).parentLinkName = ρ j.parentLinkName := rfl
omit [Scalar K] in
@[simp] theorem RawJoint.rename_name (ρ σ : String → String) (j : RawJoint K) : (j.rename ρ σ).name = σ j.name := rfl

theorem RawEdge.rename {j : RawJoint K} {v : K} {T : Pose K} (h : RawEdge j v T) : RawEdge (j.rename ρ σ) v T := by
  cases h with
  | fixed ht => exact .fixed (j := j.rename ρ σ) ht
  | rot ht => exact .rot (j := j.rename ρ σ) ht
  | slide ht => exact .slide (j := j.rename ρ σ) ht

/-- the pose of a renamed link -/
theorem WorldPose.rename (hinj : ∀ a ∈ ls.map RawLink.name, ∀ b ∈ ls.map RawLink.name, ρ a = ρ b → a = b)
    (hch : ∀ j ∈ js, j.childLinkName ∈ ls.map RawLink.name) {W W' : Weld K → Prop} (hW : ∀ w, W w → W' (w.rename ρ))
    {θ θ' : String → K} (hθ : ∀ j ∈ js, θ' (σ j.name) = θ j.name) {base T : Pose K} {n : String} (h : WorldPose ls js W θ base n T) :
    WorldPose (ls.map (RawLink.rename ρ)) (js.map (RawJoint.rename ρ σ)) W' θ' base (ρ n) T := by
  induction h with
  | @root l h1 h2 =>
    refine .root (l := l.rename ρ) (List.mem_map_of_mem h1) fun j hj => ?_
    obtain ⟨j0, hj0, rfl⟩ := List.mem_map.mp hj
    exact fun e => h2 j0 hj0 (hinj _ (hch j0 hj0) _ (List.mem_map_of_mem h1) e)
  | @joint j B T hj _ he ih =>
    exact .joint (j := j.rename ρ σ) (List.mem_map_of_mem hj) ih (by rw [RawJoint.rename_name, hθ j hj]; exact he.rename)
  | @weld w B h1 _ ih => exact .weld (w := w.rename ρ) (hW _ h1) ih

theorem renamed_welds (hc : ComNames ρ ls) (hw : ∀ w ∈ weldsAfter (names0 m0) cs, w.rename ρ ∈ weldsAfter (names0 m0') cs') (w : Weld K)
    (h : AllWelds ls m0 cs w) : AllWelds (ls.map (RawLink.rename ρ)) m0' cs' (w.rename ρ) := by
  rcases h with @⟨l, i, hl, hi⟩ | h
  · left
    have := ComWeld.mk (l := l.rename ρ) (i := i) (List.mem_map_of_mem (f := RawLink.rename ρ) hl) hi
    rw [Weld.rename, hc l hl (by rw [hi]; rfl)]
    exact this
  · exact .inr (hw w h)

theorem Reach.link_names_nodup (h : Reach ls js m0 cs m) : (ls.map RawLink.name).Nodup := by
  have : (buildModel ls js).isSome := by
    cases hb : buildModel ls js with
    | some _ => rfl
    | none => have := h.built; rw [hb] at this; cases this
  exact ((buildModel_isSome ls js).mp this).1

theorem Reach.renames_inj (h' : Reach (ls.map (RawLink.rename ρ)) js m0 cs m) :
    ∀ a ∈ ls.map RawLink.name, ∀ b ∈ ls.map RawLink.name, ρ a = ρ b → a = b := by
  have hnd := h'.link_names_nodup
  have e : (ls.map (RawLink.rename ρ)).map RawLink.name = (ls.map RawLink.name).map ρ := by simp [RawLink.rename, Function.comp_def]
  rw [e] at hnd
  exact fun a ha b hb hab => List.inj_on_of_nodup_map hnd ha hb hab

/-- **C117, poses.** Rename the links and joints of a robot (and the links added to it): with the same joint values and base,
`get_link_pose` returns the same for every link, bit for bit. -/
theorem C117_poses (h : Reach ls js m0 cs m) (hf : Shallow ls js m0 cs)
    (h' : Reach (ls.map (RawLink.rename ρ)) (js.map (RawJoint.rename ρ σ)) m0' cs' m')
    (hf' : Shallow (ls.map (RawLink.rename ρ)) (js.map (RawJoint.rename ρ σ)) m0' cs') (hc : ComNames ρ ls)
    (hw : ∀ w ∈ weldsAfter (names0 m0) cs, w.rename ρ ∈ weldsAfter (names0 m0') cs')
    {θ θ' : String → K} (hθ : AnglesAfter m0 cs θ) (hθ' : AnglesAfter m0' cs' θ') (hs : ∀ j ∈ js, θ' (σ j.name) = θ j.name)
    (hb : baseAfter Pose.identity cs' = baseAfter Pose.identity cs) {n : String} {l l' : Nat} (hn : getLinkIds [n] m = .ok [l] m)
    (hn' : getLinkIds [ρ n] m' = .ok [l'] m') :
    ∃ T a a', getLinkPose l m = .ok T a ∧ getLinkPose l' m' = .ok T a' := by
  obtain ⟨T, a, e, hT⟩ := h.pose_any hf hθ hn
  obtain ⟨T', a', e', hT'⟩ := h'.pose_any hf' hθ' hn'
  have := ((hT T).mpr rfl).rename h'.renames_inj h.abs.desc.names (renamed_welds hc hw) hs
  rw [← hb] at this
  obtain rfl := (hT' _).mp this
  exact ⟨_, a, a', e, e'⟩

end

section
variable {ls : List (RawLink ℝ)} {js : List (RawJoint ℝ)} {m0 m m0' m' : KinModel ℝ} {cs cs' : List (Call ℝ)} {ρ σ : String → String}

theorem comOf_perm {bs bs' : List (Inertial ℝ × Pose ℝ)} (h : bs'.Perm bs) : comOf bs' = comOf bs := by
  have key : ∀ f : Inertial ℝ × Pose ℝ → ℝ, bs'.foldl (fun s x => s + f x) 0 = bs.foldl (fun s x => s + f x) 0 := fun f =>
    h.foldl_eq' (fun x _ y _ z => by ring) 0
  simp only [comOf]
  rw [key fun x => x.1.mass, key fun x => x.1.mass * (bodyCentre x).x, key fun x => x.1.mass * (bodyCentre x).y,
    key fun x => x.1.mass * (bodyCentre x).z]

/-- the bodies of the renamed robot, in another order -/
theorem Bodies.rename (hinj : ∀ a ∈ ls.map RawLink.name, ∀ b ∈ ls.map RawLink.name, ρ a = ρ b → a = b)
    (hch : ∀ j ∈ js, j.childLinkName ∈ ls.map RawLink.name) {W W' : Weld ℝ → Prop} (hW : ∀ w, W w → W' (w.rename ρ))
    {θ θ' : String → ℝ} (hθ : ∀ j ∈ js, θ' (σ j.name) = θ j.name) {base : Pose ℝ} {bs : List (Inertial ℝ × Pose ℝ)} (h : Bodies ls js W θ base bs)
    {sorted' : List (RawLink ℝ)} (hp' : sorted'.Perm (ls.map (RawLink.rename ρ))) (hs' : (sorted'.map RawLink.name).Pairwise (· < ·)) :
    ∃ bs', Bodies (ls.map (RawLink.rename ρ)) (js.map (RawJoint.rename ρ σ)) W' θ' base bs' ∧ bs'.Perm bs := by
  obtain ⟨sorted, hp, hs, hF⟩ := h
  have e1 : (ls.map (RawLink.rename ρ)).filter (fun r => r.inertial.isSome) = (ls.filter fun r => r.inertial.isSome).map (RawLink.rename ρ) := by
    rw [List.filter_map]; rfl
  have h1 : (sorted'.filter fun r => r.inertial.isSome).Perm ((sorted.filter fun r => r.inertial.isSome).map (RawLink.rename ρ)) :=
    (e1 ▸ hp'.filter _).trans ((hp.symm.filter _).map _)
  have h2 : List.Forall₂ (fun r x => r.inertial = some x.1 ∧
      WorldPose (ls.map (RawLink.rename ρ)) (js.map (RawJoint.rename ρ σ)) W' θ' base r.name x.2)
      ((sorted.filter fun r => r.inertial.isSome).map (RawLink.rename ρ)) bs := by
    rw [List.forall₂_map_left_iff]
    exact hF.imp fun r x h => ⟨h.1, h.2.rename hinj hch hW hθ⟩
  obtain ⟨bs', h3, h4⟩ := List.perm_comp_forall₂ h1 h2
  exact ⟨bs', ⟨sorted', hp', hs', h3⟩, h4⟩

theorem Reach.renamed_bodies (h : Reach ls js m0 cs m)
    (h' : Reach (ls.map (RawLink.rename ρ)) (js.map (RawJoint.rename ρ σ)) m0' cs' m') (hc : ComNames ρ ls)
    (hw : ∀ w ∈ weldsAfter (names0 m0) cs, w.rename ρ ∈ weldsAfter (names0 m0') cs')
    {θ θ' : String → ℝ} (hs : ∀ j ∈ js, θ' (σ j.name) = θ j.name) {base : Pose ℝ} {bs : List (Inertial ℝ × Pose ℝ)}
    (hB : Bodies ls js (AllWelds ls m0 cs) θ base bs) :
    ∃ bs', Bodies (ls.map (RawLink.rename ρ)) (js.map (RawJoint.rename ρ σ)) (AllWelds (ls.map (RawLink.rename ρ)) m0' cs') θ' base bs' ∧
      bs'.Perm bs := by
  obtain ⟨sorted', hp', hs', _⟩ := C13_link_names h'
  exact hB.rename h'.renames_inj h.abs.desc.names (renamed_welds hc hw) hs hp' hs'

/-- **C117, centre of mass, inertia and mass.** They do not depend on the names either. (The bodies are summed in the order of the
names, so in floating-point arithmetic the last bits may.) -/
theorem C117_mass (h : Reach ls js m0 cs m) (hf : Shallow ls js m0 cs) (hu : UnitDesc js) (hc1 : UnitCalls cs)
    (h' : Reach (ls.map (RawLink.rename ρ)) (js.map (RawJoint.rename ρ σ)) m0' cs' m')
    (hf' : Shallow (ls.map (RawLink.rename ρ)) (js.map (RawJoint.rename ρ σ)) m0' cs') (hc1' : UnitCalls cs') (hc : ComNames ρ ls)
    (hw : ∀ w ∈ weldsAfter (names0 m0) cs, w.rename ρ ∈ weldsAfter (names0 m0') cs')
    {θ θ' : String → ℝ} (hθ : AnglesAfter m0 cs θ) (hθ' : AnglesAfter m0' cs' θ') (hs : ∀ j ∈ js, θ' (σ j.name) = θ j.name)
    (hb : baseAfter Pose.identity cs' = baseAfter Pose.identity cs) :
    (∃ C a a', getCom m = .ok C a ∧ getCom m' = .ok C a') ∧
    (∃ I a a', getTotalInertia m = .ok I a ∧ getTotalInertia m' = .ok I a') ∧ m'.totalMass = m.totalMass := by
  have hu' : UnitDesc (js.map (RawJoint.rename ρ σ)) := by
    intro j hj
    obtain ⟨j0, hj0, rfl⟩ := List.mem_map.mp hj
    exact hu j0 hj0
  refine ⟨?_, ?_, ?_⟩
  · obtain ⟨bs, hbs, a, e⟩ := C30_com h hf hθ
    obtain ⟨bs', hbs', a', e'⟩ := C30_com h' hf' hθ'
    obtain ⟨bs2, h2, hp⟩ := h.renamed_bodies h' hc hw hs ((hbs bs).mpr rfl)
    rw [← hb] at h2
    obtain rfl := (hbs' _).mp h2
    rw [comOf_perm hp] at e'
    exact ⟨_, a, a', e, e'⟩
  · obtain ⟨bs, hbs, I, a, e, hI⟩ := h.inertia hf hθ hu hc1
    obtain ⟨bs', hbs', I', a', e', hI'⟩ := h'.inertia hf' hθ' hu' hc1'
    obtain ⟨bs2, h2, hp⟩ := h.renamed_bodies h' hc hw hs ((hbs bs).mpr rfl)
    rw [← hb] at h2
    obtain rfl := (hbs' _).mp h2
    have : Matrix.of I' = Matrix.of I := by
      rw [hI, hI', comOf_perm hp, inertiaUnrotated, inertiaUnrotated]
      exact (hp.map _).sum_eq
    obtain rfl : I' = I := this
    exact ⟨_, a, a', e, e'⟩
  · rw [C35_total_mass_real h, C35_total_mass_real h', List.filterMap_map]
    rfl

theorem rename_update (hinj : ∀ a ∈ js.map RawJoint.name, ∀ b ∈ js.map RawJoint.name, σ a = σ b → a = b)
    {θ θ' : String → ℝ} (hs : ∀ j ∈ js, θ' (σ j.name) = θ j.name) {s : String} (hm : ∃ j ∈ js, j.name = s) (v : ℝ) :
    ∀ j ∈ js, Function.update θ' (σ s) v (σ j.name) = Function.update θ s (1 * v + 0) j.name := by
  intro j hj
  obtain ⟨j0, hj0, rfl⟩ := hm
  by_cases e : j.name = j0.name
  · rw [e]; simp
  · rw [Function.update_of_ne e, Function.update_of_ne, hs j hj]
    exact fun e' => e (hinj _ (List.mem_map_of_mem hj) _ (List.mem_map_of_mem hj0) e')

/-- **C117, Jacobians.** The joint columns of `get_jacobian` and `get_com_jacobian` do not depend on the names. -/
theorem C117_jacobian (h : Reach ls js m0 cs m) (hf : Shallow ls js m0 cs) (hu : UnitDesc js) (hc1 : UnitCalls cs)
    (hne : (∃ r ∈ ls, r.inertial.isSome) ∨ weldsAfter (names0 m0) cs ≠ [])
    (h' : Reach (ls.map (RawLink.rename ρ)) (js.map (RawJoint.rename ρ σ)) m0' cs' m')
    (hf' : Shallow (ls.map (RawLink.rename ρ)) (js.map (RawJoint.rename ρ σ)) m0' cs') (hc1' : UnitCalls cs') (hc : ComNames ρ ls)
    (hw : ∀ w ∈ weldsAfter (names0 m0) cs, w.rename ρ ∈ weldsAfter (names0 m0') cs')
    {θ θ' : String → ℝ} (hθ : AnglesAfter m0 cs θ) (hθ' : AnglesAfter m0' cs' θ') (hs : ∀ j ∈ js, θ' (σ j.name) = θ j.name)
    (hb : baseAfter Pose.identity cs' = baseAfter Pose.identity cs) {names : List String} {ids ids' : List Nat}
    (hids : getJointIds names m = .ok ids m) (hids' : getJointIds (names.map σ) m' = .ok ids' m')
    {n : String} {l l' : Nat} (hn : getLinkIds [n] m = .ok [l] m) (hn' : getLinkIds [ρ n] m' = .ok [l'] m') (rt : RotType) (wb : Bool) :
    (∃ J J' x x', getJacobian l ids rt wb m = .ok J x ∧ getJacobian l' ids' rt wb m' = .ok J' x' ∧ ∀ k < names.length,
      (∀ r < 3, J'.f r k = J.f r k) ∧ (rt = .xyzw → ∀ r, 3 ≤ r → r < 7 → J'.f r k = J.f r k)) ∧
    ∃ J J' x x', getComJacobian ids wb m = .ok J x ∧ getComJacobian ids' wb m' = .ok J' x' ∧ ∀ k < names.length,
      ∀ r < 3, J'.f r k = J.f r k := by
  have hu' : UnitDesc (js.map (RawJoint.rename ρ σ)) := by
    intro j hj
    obtain ⟨j0, hj0, rfl⟩ := List.mem_map.mp hj
    exact hu j0 hj0
  have hne' : (∃ r ∈ ls.map (RawLink.rename ρ), r.inertial.isSome) ∨ weldsAfter (names0 m0') cs' ≠ [] := by
    rcases hne with ⟨r, hr, hi⟩ | hn
    · exact .inl ⟨r.rename ρ, List.mem_map_of_mem hr, hi⟩
    · obtain ⟨w, hw1⟩ := List.exists_mem_of_ne_nil _ hn
      exact .inr (List.ne_nil_of_mem (hw w hw1))
  have hinj : ∀ a ∈ js.map RawJoint.name, ∀ b ∈ js.map RawJoint.name, σ a = σ b → a = b := by
    have hnd := h'.abs.desc.jointNodup
    have e : (js.map (RawJoint.rename ρ σ)).map RawJoint.name = (js.map RawJoint.name).map σ := by simp [RawJoint.rename, Function.comp_def]
    rw [e] at hnd
    exact fun a ha b hb hab => List.inj_on_of_nodup_map hnd ha hb hab
  have hab : ∀ s ∈ names, θ s = 1 * θ' (σ s) + 0 := by
    intro s hm
    obtain ⟨j, hj, rfl⟩ := h.joint_named hids hm
    rw [hs j hj]; ring
  constructor
  · obtain ⟨J, J', x, x', e, e', hJ⟩ := related_jacobian h hf hu hc1 hne h' hf' hu' hc1' hne' hθ hθ' σ hids hids' hn hn' rt wb 1
      (fun s => 1) (fun _ => 0) hab
      (fun s hm v T hT => by
        have := hT.rename h'.renames_inj h.abs.desc.names (renamed_welds hc hw) (rename_update hinj hs (h.joint_named hids hm) v)
        rw [Pose.scale_one, hb]
        exact this)
    refine ⟨J, J', x, x', e, e', fun k hk => ?_⟩
    obtain ⟨h1, h2⟩ := hJ k _ (List.getElem?_eq_getElem hk)
    rw [one_mul] at h1
    exact ⟨fun r hr => by rw [rows3 h1 r hr, one_mul], fun hrt r hr hr' => by rw [rows7 (h2 hrt) r hr hr', one_mul]⟩
  · obtain ⟨J, J', x, x', e, e', hJ⟩ := related_com_jacobian h hf hu hc1 h' hf' hu' hc1' hθ hθ' σ hids hids' wb 1
      (fun s => 1) (fun _ => 0) hab
      (fun s hm v bs hB => by
        obtain ⟨bs', h1, h2⟩ := h.renamed_bodies h' hc hw (rename_update hinj hs (h.joint_named hids hm) v) hB
        rw [hb]
        exact ⟨bs', h1, by rw [comOf_perm h2, Vec3.scale_one]⟩)
    refine ⟨J, J', x, x', e, e', fun k hk => ?_⟩
    have h1 := hJ k _ (List.getElem?_eq_getElem hk)
    rw [one_mul] at h1
    exact fun r hr => by rw [rows3 h1 r hr, one_mul]

end

/-! ### The hypotheses are met by the example robot, with a prefix on all names -/

namespace Example

/-- the prefix -/
def pre (s : String) : String := "left_" ++ s

theorem prefixed : ∃ m0 m, Reach (ls.map (RawLink.rename pre)) (js.map (RawJoint.rename pre pre)) m0 (pose2 2 (1/2) ⟨1, 2, 3⟩) m ∧
    AnglesAfter m0 (pose2 2 (1/2) ⟨1, 2, 3⟩) (fun s => if s = "left_slide" then 2 else if s = "left_turn" then 1/2 else 0) ∧
    getJointIds ["left_turn", "left_slide"] m = .ok [1, 0] m := by
  have tree : IsTree (js.map (RawJoint.rename pre pre)) := by
    refine ⟨by simp [js, turn, slide, weld, RawJoint.rename, pre], ?_⟩
    refine ⟨fun s => if s = "left_base" then 0 else if s = "left_arm" then 1 else if s = "left_hand" then 2 else 3, ?_⟩
    simp [js, turn, slide, weld, RawJoint.rename, pre]
  have supp : Supported (js.map (RawJoint.rename pre pre)) := by
    intro j hj
    obtain ⟨j0, hj0, rfl⟩ := List.mem_map.mp hj
    exact supported j0 hj0
  have acc : (buildModel (ls.map (RawLink.rename pre)) (js.map (RawJoint.rename pre pre))).isSome := by
    rw [buildModel_isSome]
    refine ⟨by simp [ls, RawLink.rename, pre], by simp [js, turn, slide, weld, RawJoint.rename, pre], by simp [ls], ?_, "left_base", ?_, ?_⟩
    · simp [ls, js, turn, slide, weld, RawLink.rename, RawJoint.rename, pre]
    · simp [ls, js, turn, slide, weld, RawLink.rename, RawJoint.rename, pre]
    · simp [ls, js, turn, slide, weld, RawLink.rename, RawJoint.rename, pre]
  have clash : NoComClash (ls.map (RawLink.rename pre)) := by
    intro r hr
    simp only [ls, List.map_cons, List.map_nil, List.mem_cons, List.not_mem_nil, or_false] at hr
    rcases hr with rfl | rfl | rfl | rfl <;> simp [ls, RawLink.rename, pre]
  obtain ⟨m0, built⟩ := construct_exists acc tree supp clash
  have hc := constructed_of_ok tree supp built
  have ids := jointIds_two hc (a := "left_slide") (b := "left_turn") (by decide)
    (by simp [js, turn, slide, weld, RawJoint.rename, pre, JointType.Movable])
  have h0 : Reach (ls.map (RawLink.rename pre)) (js.map (RawJoint.rename pre pre)) m0 [] m0 := ⟨tree, supp, built, .nil⟩
  have hlen : ∀ s i, (s = "left_slide" ∧ i = 0) ∨ (s = "left_turn" ∧ i = 1) → i < m0.joints.length := fun s i h =>
    h0.joint_lt (getJointIds_one.mpr ((ids s i).mpr h))
  obtain ⟨m1, e1⟩ : ∃ m1, setJointAngles [0, 1] [2, 1/2] m0 = .ok () m1 := by
    have l0 := hlen "left_slide" 0 (by simp)
    have l1 := hlen "left_turn" 1 (by simp)
    rw [← h0.abs.inv.graph.anglesLen] at l0 l1
    exact ⟨_, by simp [setJointAngles, setJointAnglesNC, writeAngles, l0, l1, Bind.bind, Prog.bind, Tinyfk.clearCache]; rfl⟩
  obtain ⟨m2, e2⟩ : ∃ m2, setBasePose ⟨⟨1, 2, 3⟩, Rot.fromRPY 1 2 3⟩ m1 = .ok () m2 := ⟨_, rfl⟩
  have h2 : Reach (ls.map (RawLink.rename pre)) (js.map (RawJoint.rename pre pre)) m0 (pose2 2 (1/2) ⟨1, 2, 3⟩) m2 :=
    (h0.snoc (c := .setJointAngles [0, 1] [2, 1/2]) e1).snoc (c := .setBasePose ⟨⟨1, 2, 3⟩, Rot.fromRPY 1 2 3⟩) e2
  refine ⟨m0, m2, h2, ?_, ?_⟩
  · intro s i h
    rw [getJointIds_one, ids] at h
    rcases h with ⟨rfl, rfl⟩ | ⟨rfl, rfl⟩ <;> simp [pose2, angleAfter, lastWrite]
  · rw [getJointIds_ok]
    refine ⟨rfl, ?_⟩
    rw [h2.abs.jointIds]
    simp [ids]

example : ∃ m0 m m0' m' l l' T a a',
    Reach ls js m0 (pose2 2 (1/2) ⟨1, 2, 3⟩) m ∧
    Reach (ls.map (RawLink.rename pre)) (js.map (RawJoint.rename pre pre)) m0' (pose2 2 (1/2) ⟨1, 2, 3⟩) m' ∧ getLinkIds ["tip"] m = .ok [l] m ∧
    getLinkIds ["left_tip"] m' = .ok [l'] m' ∧ getLinkPose l m = .ok T a ∧ getLinkPose l' m' = .ok T a' := by
  obtain ⟨m0, m, h, hf, hθ, hj, ⟨l, hl⟩, _, hw⟩ := posed (some armInertial) (some tipInertial) ⟨0, 0, 1⟩ ⟨1, 0, 0⟩ ⟨1, 0, 0⟩ ⟨⟨0, 0, 1⟩, Rot.one⟩
    ⟨⟨0, 0, 2⟩, Rot.one⟩ ⟨⟨0, 3, 0⟩, Rot.one⟩ 2 (1/2) ⟨1, 2, 3⟩
  change Reach ls js m0 _ m at h
  change Shallow ls js m0 _ at hf
  obtain ⟨m0', m', h', hθ', hj'⟩ := prefixed
  obtain ⟨l', hl'⟩ := find_name h' (n := "left_tip") (by simp [ls, RawLink.rename, pre])
  have hf' := C08_no_added_link h' rfl
  have hc : ComNames pre ls := fun l _ _ => by simp [pre, String.append_assoc]
  have hs : ∀ j ∈ js, (fun s => if s = "left_slide" then (2 : ℝ) else if s = "left_turn" then 1/2 else 0) (pre j.name) = value2 2 (1/2) j.name := by
    intro j hj
    simp only [js, List.mem_cons, List.not_mem_nil, or_false] at hj
    rcases hj with rfl | rfl | rfl <;> simp [value2, turn, slide, weld, pre]
  have hw2 : ∀ w ∈ weldsAfter (names0 m0) (pose2 2 (1/2) ⟨1, 2, 3⟩), w.rename pre ∈ weldsAfter (names0 m0') (pose2 2 (1/2) ⟨1, 2, 3⟩) := by
    rw [hw]; simp
  obtain ⟨T, a, a', e, e'⟩ := C117_poses h hf h' hf' hc hw2 hθ hθ' hs rfl hl hl'
  have := C117_mass h hf unitDesc (unitCalls2 _ _ _) h' hf' (unitCalls2 _ _ _) hc hw2 hθ hθ' hs rfl
  have := C117_jacobian h hf unitDesc (unitCalls2 _ _ _) (.inl inertial2) h' hf' (unitCalls2 _ _ _) hc hw2 hθ hθ' hs rfl
    hj hj' hl hl' .xyzw true
  exact ⟨m0, m, m0', m', l, l', T, a, a', h, h', hl, hl', e, e'⟩

end Example

end Tinyfk
