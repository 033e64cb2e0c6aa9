import Verif.Proofs.RoundWorld
import Verif.Proofs.RoundRpy
import Verif.Props.PySolve

/-!
# Properties: rounding errors

C94.
-/

set_option linter.unusedSectionVars false

namespace Tinyfk

open Quaternion

section
variable {F : Rounding}

/-- A vector whose components are rounded. -/
theorem VecRounded.near {v' : Vec3 (Fl F)} {v : Vec3 ℝ} (h : VecRounded v' v) :
    ‖v'.real.quat - v.quat‖ ≤ F.u * ‖v.quat‖ + 2 * (F.u * F.tiny) := by
  have hu := F.u_nonneg
  have ht := F.tiny_nonneg
  refine quat_norm_rel (c := F.u) (d := F.u * F.tiny) hu (mul_nonneg hu ht) (by simpa using mul_nonneg hu ht) ?_ ?_ ?_
  · simpa using h.x.le hu ht
  · simpa using h.y.le hu ht
  · simpa using h.z.le hu ht

/-- **C94**, the poses that are given by `xyz` and `rpy` (origins of joints, added links, the base of a configuration):
if the numbers are rounded, the pose that the code makes of them has a rotation within `200 * u * A` of the one they describe,
and a position within `u` of its length. -/
theorem C94_pose_numbers {A μ : ℝ} (hA : 1 ≤ A) (hs : 5000 * F.u * A ≤ 1) (hb : 2 * A + 4 ≤ F.big) (hμ : 1000 * F.tiny ≤ μ) (hμ1 : μ ≤ 1)
    {T' : Pose (Fl F)} {T : Pose ℝ} (h : PoseRounded A T' T) :
    PoseNear (200 * F.u * A) (200 * F.u * A * (T.position.len + μ)) T' T ∧ T.rotation.len = 1 := by
  have hu := F.u_nonneg
  have ht := F.tiny_nonneg
  obtain ⟨v', a', v, a, hv, ha, x1, y1, z1, x2, y2, z2, rfl, rfl⟩ := h
  have e1 : F.u ≤ F.u * A := le_mul_of_one_le_right hu hA
  have d : ∀ {p q : ℝ}, Rounded F.u F.tiny p q → |q| ≤ A → |p - q| ≤ F.u * A := fun h1 h2 =>
    h1.trans (mul_le_mul_of_nonneg_left (max_le h2 (by linarith)) hu)
  obtain ⟨k1, k2⟩ := F.rpy_near hA x1 y1 z1 (d ha.x x2) (d ha.y y2) (d ha.z z2) hs hb (by linarith)
    (q := Rot.real (Rot.fromRPY (K := Fl F) a'.x a'.y a'.z)) rfl
  refine ⟨poseNear_iff.mpr ⟨?_, ?_⟩, by rw [Rot.len_quat]; exact k2⟩
  · refine k1.trans ?_
    show _ ≤ _ * ‖(Rot.fromRPY (K := ℝ) a.x a.y a.z).quat‖
    rw [k2]
    linarith
  · refine hv.near.trans ?_
    rw [Vec3.len_quat]
    have n0 := norm_nonneg v.quat
    have c1 : F.u * ‖v.quat‖ ≤ F.u * A * ‖v.quat‖ := mul_le_mul_of_nonneg_right e1 n0
    have c2 : F.u * (1000 * F.tiny) ≤ F.u * A * μ := mul_le_mul e1 hμ (by linarith) (by positivity)
    have c3 : 0 ≤ F.u * A * ‖v.quat‖ := by positivity
    have c4 : 0 ≤ F.u * A * μ := le_trans (by positivity) c2
    show _ ≤ 200 * F.u * A * (‖v.quat‖ + μ)
    linarith

/-- **C94**, the joints of the description: a joint whose numbers are rounded is within `200 * u * A` of the described one. -/
theorem C94_joint_numbers {A μ : ℝ} (hA : 1 ≤ A) (hs : 5000 * F.u * A ≤ 1) (hb : 2 * A + 4 ≤ F.big) (hμ : 1000 * F.tiny ≤ μ) (hμ1 : μ ≤ 1)
    {j' : RawJoint (Fl F)} {j : RawJoint ℝ} (h1 : j'.name = j.name) (h2 : j'.type = j.type) (h3 : j'.parentLinkName = j.parentLinkName)
    (h4 : j'.childLinkName = j.childLinkName) (ho : PoseRounded A j'.origin j.origin) (ha : VecRounded j'.axis j.axis)
    (hal : F.tiny ≤ j.axis.len) : JointNear (200 * F.u * A) μ j' j ∧ j.origin.rotation.len = 1 := by
  obtain ⟨k1, k2⟩ := C94_pose_numbers hA hs hb hμ hμ1 ho
  refine ⟨⟨h1, h2, h3, h4, k1, ?_⟩, k2⟩
  have hu := F.u_nonneg
  rw [Vec3.dist_quat]
  rw [Vec3.len_quat] at hal ⊢
  refine ha.near.trans ?_
  have e1 : F.u ≤ F.u * A := le_mul_of_one_le_right hu hA
  have c1 : F.u * ‖j.axis.quat‖ ≤ F.u * A * ‖j.axis.quat‖ := mul_le_mul_of_nonneg_right e1 (norm_nonneg _)
  have c2 := mul_le_mul_of_nonneg_left hal hu
  have c3 : 0 ≤ F.u * ‖j.axis.quat‖ := by positivity
  linarith

variable {ls' : List (RawLink (Fl F))} {js' : List (RawJoint (Fl F))} {ls : List (RawLink ℝ)} {js : List (RawJoint ℝ)} {welds : Weld ℝ → Prop}
  {ε μ A R : ℝ} {D : Nat}

/-- **C94**, the pose of a link: composed along the path with rounding in every operation, it is within
`125 * (d + 1) * ε * A` of the exact pose in its rotation, and within `500 * (d + 1) * ε * A * (L + (d + 1) * μ)` in its
position, for a path of `d` joints and welds and of length `L`. -/
theorem C94_world {welds' : Weld (Fl F) → Prop} {θ : String → ℝ} {base' : Pose (Fl F)} {base : Pose ℝ}
    (hR : RobotNear ε μ ls' js' welds' ls js welds) (hP : Proper js welds) (hue : F.u ≤ ε) (hA : 1 ≤ A) (hsm : Small F ε μ A D R)
    (hθ : ∀ j ∈ js, |θ j.name| ≤ A) (hb : PoseNear ε (ε * (base.position.len + μ)) base' base)
    (hb1 : 1 / 2 ≤ base.rotation.len) (hb2 : base.rotation.len ≤ 2) {n : String}
    (hD : ∀ d L, PathLength ls js welds θ base n d L → d ≤ D ∧ L ≤ R)
    {T' : Pose (Fl F)} (h : WorldPose (K := Fl F) ls' js' welds' θ base' n T') :
    ∃ d L T, WorldPose ls js welds θ base n T ∧ PathLength ls js welds θ base n d L ∧
      PoseNear (125 * (d + 1) * ε * A) (500 * (d + 1) * ε * A * (L + (d + 1) * μ)) T' T := by
  obtain ⟨d, L, T, hT, hL, hTL, _, _, hn⟩ := world_near hR hP hue hA hθ hb hb1 hb2 hsm h hD
  obtain ⟨hdD, _⟩ := hD d L hL
  refine ⟨d, L, T, hT, hL, ?_⟩
  have he : 0 ≤ ε := F.u_nonneg.trans hue
  have hκ : 0 ≤ 100 * ε * A := by positivity
  have hacc := hsm.acc
  have hdR : (d : ℝ) ≤ D := by exact_mod_cast hdD
  have e0 : 0 ≤ ε * A := by positivity
  have g := pow_growth hκ (d + 1) (by
    push_cast
    have : ((d : ℝ) + 1) * (ε * A) ≤ (D + 1) * (ε * A) := mul_le_mul_of_nonneg_right (by linarith) e0
    linarith)
  push_cast at g
  have hL0 : 0 ≤ L := (Real.sqrt_nonneg _).trans hTL
  have hμ0 : 0 ≤ μ := le_trans (mul_nonneg F.tiny_nonneg (by positivity)) hsm.tiny
  refine ⟨hn.rot.trans (mul_le_mul_of_nonneg_right (by linarith) (Real.sqrt_nonneg _)), hn.pos.trans ?_⟩
  exact mul_le_mul_of_nonneg_right (by linarith) (by positivity)

variable {m0 : KinModel (Fl F)} {cs : List (Call (Fl F))} {h : List (PyCall (Fl F))} {s : PyModel (Fl F)} {qs : QArg (Fl F)} {es ids : List Nat}
  {rt : RotType} {bt : BaseType} {wj : Bool} {c : SizedCache (Pose (Fl F))}

/-- **C94.** `solve_fk(..., use_cache=False)` in rounded arithmetic, on a robot with any past: in each row of `P` the position is
within `500 * (d + 1) * ε * A * (L + (d + 1) * μ)` of the position of the link in the exact robot, and the quaternion, relatively,
within `125 * (d + 1) * ε * A` of the exact one. -/
theorem C94_solve_fk (hr : PyReach ls' js' m0 h cs s) (hf : Shallow ls' js' m0 cs)
    (hc : c.Fits s.robot.links.length) (ha : FkArgs m0 s qs es ids bt)
    (hne : wj = true → (∃ r ∈ ls', r.inertial.isSome) ∨ weldsAfter (names0 m0) cs ≠ [])
    (hR : RobotNear ε μ ls' js' (AllWelds ls' m0 cs) ls js welds) (hP : Proper js welds) (hue : F.u ≤ ε) (hA : 1 ≤ A)
    (hsm : Small F ε μ A D R) :
    ∃ P J s', pySolveFk qs es ids rt bt wj false (s.withCache c) = .ok (P, J) s' ∧
      ∀ (k j l : Nat) (q : List (Fl F)) (n : String) (θ : String → ℝ) (base : Pose ℝ),
        qs.rows[k]? = some q → es[j]? = some l → getLinkIds [n] s.robot = .ok [l] s.robot →
        AnglesAfter (K := Fl F) m0 (cs ++ configCalls ids bt q) θ →
        PoseNear ε (ε * (base.position.len + μ)) (baseAfter Pose.identity (cs ++ configCalls ids bt q)) base →
        1 / 2 ≤ base.rotation.len → base.rotation.len ≤ 2 →
        (∀ j ∈ js, |θ j.name| ≤ A) → (∀ d L, PathLength ls js welds θ base n d L → d ≤ D ∧ L ≤ R) →
        ∃ d L T, WorldPose ls js welds θ base n T ∧ PathLength ls js welds θ base n d L ∧
          Vec3.dist ⟨P.f (k * es.length + j) 0, P.f (k * es.length + j) 1, P.f (k * es.length + j) 2⟩ T.position ≤
            500 * (d + 1) * ε * A * (L + (d + 1) * μ) ∧
          (rt = .xyzw → Rot.dist ⟨P.f (k * es.length + j) 3, P.f (k * es.length + j) 4, P.f (k * es.length + j) 5,
            P.f (k * es.length + j) 6⟩ T.rotation ≤ 125 * (d + 1) * ε * A * T.rotation.len) := by
  obtain ⟨P, J, s', e, _, _, hrow⟩ := C02_solve_fk (rt := rt) hr hf hc ha hne
  refine ⟨P, J, s', e, fun k j l q n θ base h1 h2 h3 h4 hb hb1 hb2 hθ hD => ?_⟩
  obtain ⟨T', hT', hp⟩ := hrow k j l q n θ h1 h2 h3 h4
  obtain ⟨d, L, T, hT, hL, hn⟩ := C94_world hR hP hue hA hsm hθ hb hb1 hb2 hD ((hT' T').mpr rfl)
  refine ⟨d, L, T, hT, hL, ?_, fun hrt => ?_⟩
  · obtain ⟨p0, p1, p2, _⟩ := hp
    rw [p0, p1, p2]
    exact hn.pos
  · subst hrt
    obtain ⟨_, _, _, p3, p4, p5, p6⟩ := hp
    rw [p3, p4, p5, p6]
    exact hn.rot

end

/-! ### The hypotheses are met

A robot with a turning and a sliding joint, whose numbers 1/3 and 1/10 are not binary fractions. -/

namespace RoundExample

/-- IEEE arithmetic -/
noncomputable abbrev dbl : Rounding := binary64 (10 ^ 200)

/-- mass and centre of mass of the hand -/
noncomputable def mass' : Inertial (Fl dbl) :=
  ⟨⟨⟨(0 : ℝ), (0 : ℝ), (1 / 2 : ℝ)⟩, Rot.one⟩, (1 : ℝ), (1 : ℝ), (0 : ℝ), (0 : ℝ), (1 : ℝ), (0 : ℝ), (1 : ℝ)⟩
/-- the `<link>` elements -/
noncomputable def ls' : List (RawLink (Fl dbl)) := [⟨"base", none⟩, ⟨"arm", none⟩, ⟨"hand", some mass'⟩]
/-- the turning joint, with rounded numbers -/
noncomputable def turn' : RawJoint (Fl dbl) :=
  ⟨"turn", .revolute, ⟨(0 : ℝ), (0 : ℝ), (1 : ℝ)⟩, ⟨⟨(0 : ℝ), (0 : ℝ), round53 (1 / 3)⟩,
    Rot.fromRPY (K := Fl dbl) (round53 (1 / 10)) (0 : ℝ) (0 : ℝ)⟩, "base", "arm", none⟩
/-- the sliding joint -/
noncomputable def slide' : RawJoint (Fl dbl) :=
  ⟨"slide", .prismatic, ⟨round53 (1 / 3), (0 : ℝ), (0 : ℝ)⟩, ⟨⟨(0 : ℝ), (2 : ℝ), (0 : ℝ)⟩,
    Rot.fromRPY (K := Fl dbl) (0 : ℝ) (0 : ℝ) (0 : ℝ)⟩, "arm", "hand", none⟩
/-- the `<joint>` elements -/
noncomputable def js' : List (RawJoint (Fl dbl)) := [turn', slide']

/-- the exact mass of the hand -/
noncomputable def mass : Inertial ℝ := ⟨⟨⟨0, 0, 1 / 2⟩, Rot.one⟩, 1, 1, 0, 0, 1, 0, 1⟩
/-- the exact robot -/
noncomputable def ls : List (RawLink ℝ) := [⟨"base", none⟩, ⟨"arm", none⟩, ⟨"hand", some mass⟩]
/-- the exact turning joint -/
noncomputable def turn : RawJoint ℝ :=
  ⟨"turn", .revolute, ⟨0, 0, 1⟩, ⟨⟨0, 0, 1 / 3⟩, Rot.fromRPY (1 / 10) 0 0⟩, "base", "arm", none⟩
/-- the exact sliding joint -/
noncomputable def slide : RawJoint ℝ :=
  ⟨"slide", .prismatic, ⟨1 / 3, 0, 0⟩, ⟨⟨0, 2, 0⟩, Rot.fromRPY 0 0 0⟩, "arm", "hand", none⟩
/-- the exact joints -/
noncomputable def js : List (RawJoint ℝ) := [turn, slide]

theorem isTree : IsTree js' := by
  refine ⟨by simp [js', turn', slide'], ?_⟩
  refine ⟨fun s => if s = "base" then 0 else if s = "arm" then 1 else 2, ?_⟩
  simp [js', turn', slide']

theorem supported : Supported js' := by
  intro j hj
  simp only [js', List.mem_cons, List.not_mem_nil, or_false] at hj
  rcases hj with rfl | rfl
  · right; left; rfl
  · right; right; right; rfl

theorem accepted : (buildModel ls' js').isSome := by
  rw [buildModel_isSome]
  refine ⟨by simp [ls'], by simp [js', turn', slide'], by simp [ls'], ?_, "base", ?_, ?_⟩
  · simp [ls', js', turn', slide']
  · simp [ls', js', turn', slide']
  · simp [ls', js', turn', slide']

theorem noClash : NoComClash ls' := by
  intro r hr
  simp only [ls', List.mem_cons, List.not_mem_nil, or_false] at hr
  rcases hr with rfl | rfl | rfl <;> simp [ls']

theorem constructs : ∃ m0, construct (buildModel ls' js') = .ok m0 :=
  construct_exists accepted isTree supported noClash

/-- the constructed robot -/
noncomputable def m0 : KinModel (Fl dbl) := constructs.choose

theorem m0_spec : construct (buildModel ls' js') = .ok m0 := constructs.choose_spec

theorem constructed : Constructed ls' js' m0 := constructed_of_ok isTree supported m0_spec

theorem linkNames : m0.links.map Link.name = ["arm", "base", "hand", "hand_com"] := by
  obtain ⟨sorted, hp, hs, _, _, h⟩ := constructed.order
  have h1 : sorted = [⟨"arm", none⟩, ⟨"base", none⟩, ⟨"hand", some mass'⟩] := by
    have hp' : sorted.Perm [⟨"arm", none⟩, ⟨"base", none⟩, ⟨"hand", some mass'⟩] :=
      hp.trans (List.Perm.swap _ _ _)
    refine List.Perm.eq_of_pairwise (le := fun a b => a.name < b.name) ?_ (List.pairwise_map.mp hs) ?_ hp'
    · intro a b _ _ h1 h2
      exact absurd (String.lt_trans h1 h2) (String.lt_irrefl _)
    · simp only [List.pairwise_cons, List.mem_cons, List.not_mem_nil, or_false, forall_eq_or_imp, forall_eq, false_implies, implies_true, List.Pairwise.nil, and_true]
      decide
  rw [h, h1]
  rfl

theorem joints_length : m0.joints.length = 2 := by
  obtain ⟨names, hs, hp, h⟩ := constructed.jointOrder
  have e : ((js'.filter fun j => decide j.type.Movable).map RawJoint.name).length = 2 := by
    simp [js', turn', slide', JointType.Movable]
  have hl : names.length = 2 := by rw [hp.length_eq, e]
  have key : ∀ i, i < names.length ↔ i < m0.joints.length := by
    intro i
    constructor
    · intro hi
      obtain ⟨jp, j, hj, _⟩ := (h i _).mp (List.getElem?_eq_getElem hi)
      exact (List.getElem?_eq_some_iff.mp hj).1
    · intro hi
      obtain ⟨j, _, _, _, hj, _⟩ := constructed.inv.graph.joint (List.getElem?_eq_getElem hi)
      exact (List.getElem?_eq_some_iff.mp ((h i _).mpr ⟨_, j, List.getElem?_eq_getElem hi, hj, rfl⟩)).1
  have a := key 2
  have b := key 1
  omega

theorem links_length : m0.links.length = 4 := by
  have := congrArg List.length linkNames
  simpa using this

theorem hand_id : getLinkIds ["hand"] m0 = .ok [2] m0 := by
  rw [getLinkIds_one, constructed.inv.graph.linkNames]
  have := congrArg (fun l => l[2]?) linkNames
  simpa [List.getElem?_map] using this

/-- a freshly constructed Python object -/
noncomputable def s0 : PyModel (Fl dbl) := ⟨"", m0, [], []⟩

theorem s0_reach : PyReach ls' js' m0 [] [] s0 := ⟨isTree, supported, m0_spec, _, .nil⟩

/-- the centre-of-mass link of the hand -/
noncomputable def com' : Weld (Fl dbl) := ⟨"hand_com", "hand", ⟨⟨(0 : ℝ), (0 : ℝ), (1 / 2 : ℝ)⟩, Rot.one⟩⟩

theorem allWelds {w : Weld (Fl dbl)} (h : AllWelds ls' m0 [] w) : w = com' := by
  rcases h with ⟨hl, hi⟩ | hw
  · simp only [ls', List.mem_cons, List.not_mem_nil, or_false] at hl
    rcases hl with rfl | rfl | rfl
    · cases hi
    · cases hi
    · cases hi
      rfl
  · cases hw

theorem jointIds (s : String) (i : Nat) : m0.jointIds.find s = some i ↔ (s = "slide" ∧ i = 0) ∨ (s = "turn" ∧ i = 1) := by
  obtain ⟨names, hs, hp, h⟩ := constructed.jointOrder
  have h1 : names = ["slide", "turn"] := by
    have e : ((js'.filter fun j => decide j.type.Movable).map RawJoint.name) = ["turn", "slide"] := by
      simp [js', turn', slide', JointType.Movable]
    rw [e] at hp
    refine List.Perm.eq_of_pairwise (le := fun a b => a < b) ?_ hs ?_ (hp.trans (List.Perm.swap _ _ _))
    · intro a b _ _ h1 h2
      exact absurd (String.lt_trans h1 h2) (String.lt_irrefl _)
    · simp only [List.pairwise_cons, List.mem_cons, List.not_mem_nil, or_false, forall_eq, false_implies, implies_true, List.Pairwise.nil, and_true]
      decide
  rw [constructed.inv.graph.jointNames s i, ← h, h1]
  match i with
  | 0 => simp [eq_comm]
  | 1 => simp [eq_comm]
  | i + 2 => simp

theorem shallow : Shallow ls' js' m0 [] := by
  intro n d hd
  have : d = if n = "base" then 0 else if n = "arm" then 1 else if n = "hand" then 2 else 3 := by
    induction hd with
    | @root l h1 h2 =>
      simp only [ls', List.mem_cons, List.not_mem_nil, or_false] at h1
      rcases h1 with rfl | rfl | rfl <;> simp [js', turn', slide'] at h2 ⊢
    | joint h1 _ ih =>
      simp only [js', List.mem_cons, List.not_mem_nil, or_false] at h1
      rcases h1 with rfl | rfl <;> simp [turn', slide'] at ih ⊢ <;> omega
    | weld h1 _ ih =>
      rw [allWelds h1] at ih ⊢
      simp [com'] at ih ⊢
      omega
  have hl : ls'.length = 3 := rfl
  rw [hl, this]
  split_ifs <;> omega

/-- a configuration: the sliding joint at 1/2, the turning joint at 1, the base at (1, 0) with yaw 1 -/
noncomputable def q : List (Fl dbl) := [(1 / 2 : ℝ), (1 : ℝ), (1 : ℝ), (0 : ℝ), (1 : ℝ)]

/-- the angles of the configuration -/
noncomputable def θ (n : String) : ℝ := if n = "slide" then 1 / 2 else if n = "turn" then 1 else 0

/-- the exact base -/
noncomputable def base : Pose ℝ := ⟨⟨1, 0, 0⟩, Rot.fromRPY 0 0 1⟩

theorem args : FkArgs m0 s0 (.nd1 q) [2] [0, 1] .planer := by
  refine ⟨by simp, by simp [QArg.rows], by intro r hr; simp only [QArg.rows, List.mem_singleton] at hr; subst hr; rfl, ?_, ?_⟩
  · rw [joints_length]; simp
  · show ∀ l ∈ [2], l < m0.links.length
    rw [links_length]; simp

theorem exact_rounded (x : ℝ) : Rounded dbl.u dbl.tiny x x := by
  simp only [Rounded, sub_self, abs_zero]
  exact mul_nonneg dbl.u_nonneg (le_max_of_le_right dbl.tiny_nonneg)

theorem u_eq : dbl.u = 2 ^ (-53 : ℤ) := rfl
theorem tiny_eq : dbl.tiny = 2 ^ (-1022 : ℤ) := rfl
theorem big_eq : dbl.big = 10 ^ 200 := rfl

theorem angle_le : |(1 / 10 : ℝ)| ≤ 2 := by norm_num
theorem angle_le' : |round53 (1 / 10)| ≤ 2 := by
  have h := round53_rounded (1 / 10)
  unfold Rounded at h
  have h1 := abs_add_le (round53 (1 / 10) - 1 / 10) (1 / 10)
  rw [sub_add_cancel] at h1
  have h2 : (2 : ℝ) ^ (-53 : ℤ) * max |(1 / 10 : ℝ)| (2 ^ (-1022 : ℤ)) ≤ 1 * 1 := by
    refine mul_le_mul (by norm_num) (max_le (by norm_num) ?_) (le_max_of_le_left (abs_nonneg _)) (by norm_num)
    exact zpow_le_one_of_nonpos₀ (by norm_num) (by norm_num)
  have := angle_le
  rw [show |(1 / 10 : ℝ)| = 1 / 10 by norm_num] at h1
  linarith

theorem two_u : 5000 * dbl.u * 2 ≤ 1 := by rw [u_eq]; norm_num
theorem fits_big : 2 * 2 + 4 ≤ dbl.big := by rw [big_eq]; norm_num
/-- where positions count as small -/
noncomputable def μ : ℝ := 2 ^ (-900 : ℤ)
theorem tiny_μ : dbl.tiny * 64 ^ (2 + 2) ≤ μ := by
  rw [tiny_eq, μ, show (64 : ℝ) ^ (2 + 2) = 2 ^ (24 : ℤ) by norm_num, ← zpow_add₀ (by norm_num : (2 : ℝ) ≠ 0)]
  exact zpow_le_zpow_right₀ (by norm_num) (by norm_num)
theorem μ_le : μ ≤ 1 := zpow_le_one_of_nonpos₀ (by norm_num) (by norm_num)
theorem tiny_μ' : 1000 * dbl.tiny ≤ μ := by
  have := tiny_μ
  have := dbl.tiny_nonneg
  norm_num at *
  linarith
theorem tiny_le : dbl.tiny ≤ 1 / 10 := by
  have := tiny_μ'
  have := μ_le
  linarith

theorem turn_near : JointNear (200 * dbl.u * 2) μ turn' turn ∧ turn.origin.rotation.len = 1 := by
  refine C94_joint_numbers (by norm_num) two_u fits_big tiny_μ' μ_le rfl rfl rfl rfl ?_ ⟨exact_rounded _, exact_rounded _, exact_rounded _⟩ ?_
  · exact ⟨⟨(0 : ℝ), (0 : ℝ), round53 (1 / 3)⟩, ⟨round53 (1 / 10), (0 : ℝ), (0 : ℝ)⟩, ⟨0, 0, 1 / 3⟩, ⟨1 / 10, 0, 0⟩,
      ⟨exact_rounded _, exact_rounded _, round53_rounded _⟩, ⟨round53_rounded _, exact_rounded _, exact_rounded _⟩, angle_le',
      by simp [Vec3.real], by simp [Vec3.real], angle_le, by simp, by simp, rfl, rfl⟩
  · have : turn.axis.len = 1 := by simp [turn, Vec3.len]
    rw [this]
    linarith [tiny_le]

theorem slide_near : JointNear (200 * dbl.u * 2) μ slide' slide ∧ slide.origin.rotation.len = 1 := by
  refine C94_joint_numbers (by norm_num) two_u fits_big tiny_μ' μ_le rfl rfl rfl rfl ?_ ⟨round53_rounded _, exact_rounded _, exact_rounded _⟩ ?_
  · exact ⟨⟨(0 : ℝ), (2 : ℝ), (0 : ℝ)⟩, ⟨(0 : ℝ), (0 : ℝ), (0 : ℝ)⟩, ⟨0, 2, 0⟩, ⟨0, 0, 0⟩,
      ⟨exact_rounded _, exact_rounded _, exact_rounded _⟩, ⟨exact_rounded _, exact_rounded _, exact_rounded _⟩,
      by simp [Vec3.real], by simp [Vec3.real], by simp [Vec3.real], by simp, by simp, by simp, rfl, rfl⟩
  · have : slide.axis.len = 1 / 3 := by simp [slide, Vec3.len]
    rw [this]
    linarith [tiny_le]

/-- the exact centre-of-mass link -/
noncomputable def com : Weld ℝ := ⟨"hand_com", "hand", ⟨⟨0, 0, 1 / 2⟩, Rot.one⟩⟩

theorem com_len : com.offset.rotation.len = 1 := by
  simp [com, Rot.len, Rot.one]

theorem com_near : WeldNear (200 * dbl.u * 2) μ com' com := by
  refine ⟨rfl, rfl, ?_⟩
  have hu := dbl.u_nonneg
  have hμ : 0 ≤ μ := by unfold μ; positivity
  have n0 : 0 ≤ com.offset.position.len := Real.sqrt_nonneg _
  have e1 : Rot.dist (Pose.real com'.offset).rotation com.offset.rotation = 0 := by
    show Rot.dist com.offset.rotation com.offset.rotation = 0
    simp [Rot.dist]
  have e2 : Vec3.dist (Pose.real com'.offset).position com.offset.position = 0 := by
    show Vec3.dist com.offset.position com.offset.position = 0
    simp [Vec3.dist]
  refine ⟨?_, ?_⟩
  · rw [e1, com_len]; positivity
  · rw [e2]; positivity

theorem robot_near : RobotNear (200 * dbl.u * 2) μ ls' js' (AllWelds ls' m0 []) ls js (fun w => w = com) := by
  refine ⟨?_, ?_, ?_, fun w hw => ⟨com, rfl, allWelds hw ▸ com_near⟩⟩
  · simp [ls, ls']
  · intro j hj
    simp only [js', List.mem_cons, List.not_mem_nil, or_false] at hj
    rcases hj with rfl | rfl
    · exact ⟨turn, by simp [js], turn_near.1⟩
    · exact ⟨slide, by simp [js], slide_near.1⟩
  · simp [js, js', turn, turn', slide, slide']

theorem proper : Proper js (fun w => w = com) := by
  refine ⟨?_, ?_, fun w hw => ?_⟩
  · intro j hj
    simp only [js, List.mem_cons, List.not_mem_nil, or_false] at hj
    rcases hj with rfl | rfl
    · rw [turn_near.2]; norm_num
    · rw [slide_near.2]; norm_num
  · intro j hj h
    simp only [js, List.mem_cons, List.not_mem_nil, or_false] at hj
    rcases hj with rfl | rfl
    · have : turn.axis.len = 1 := by simp [turn, Vec3.len]
      rw [this]; norm_num
    · simp [slide] at h
  · rw [hw, com_len]; norm_num

theorem path {n : String} {d : Nat} {L : ℝ} (h : PathLength ls js (fun w => w = com) θ base n d L) :
    d = (if n = "base" then 0 else if n = "arm" then 1 else if n = "hand" then 2 else 3) ∧
      L ≤ (if n = "base" then 1 else if n = "arm" then 4 / 3 else if n = "hand" then 4 else 5) := by
  induction h with
  | @root l h1 h2 =>
    simp only [ls, List.mem_cons, List.not_mem_nil, or_false] at h1
    rcases h1 with rfl | rfl | rfl <;> simp [js, turn, slide, base, Vec3.len] at h2 ⊢
  | joint h1 _ ih =>
    simp only [js, List.mem_cons, List.not_mem_nil, or_false] at h1
    rcases h1 with rfl | rfl
    · have : turn.reach (θ turn.name) = 1 / 3 := by simp [turn, RawJoint.reach, Vec3.len]
      rw [this]
      simp [turn] at ih ⊢
      exact ⟨ih.1, by linarith⟩
    · have : slide.reach (θ slide.name) = 2 + 1 / 3 * (1 / 2) := by simp [slide, RawJoint.reach, Vec3.len, θ]
      rw [this]
      simp [slide] at ih ⊢
      exact ⟨ih.1, by linarith⟩
  | weld h1 _ ih =>
    rw [h1] at ih ⊢
    have : com.offset.position.len ≤ 1 := by
      simp only [com, Vec3.len]
      rw [Real.sqrt_le_one]
      norm_num
    simp [com] at ih this ⊢
    exact ⟨ih.1, by linarith⟩

theorem small : Small dbl (200 * dbl.u * 2) μ 2 2 4 := by
  refine ⟨?_, tiny_μ, μ_le, ?_⟩
  · rw [u_eq]; norm_num
  · rw [big_eq]; norm_num

theorem angles : AnglesAfter (K := Fl dbl) m0 ([] ++ configCalls [0, 1] .planer q) θ := by
  intro s i hi
  rw [getJointIds_one, jointIds] at hi
  rcases hi with ⟨rfl, rfl⟩ | ⟨rfl, rfl⟩
  · show (θ "slide" : ℝ) = (1 / 2 : ℝ)
    simp [θ]
  · show (θ "turn" : ℝ) = (1 : ℝ)
    simp [θ]

theorem base_near : PoseNear (200 * dbl.u * 2) (200 * dbl.u * 2 * (base.position.len + μ))
    (baseAfter Pose.identity ([] ++ configCalls [0, 1] .planer q)) base ∧ base.rotation.len = 1 :=
  C94_pose_numbers (by norm_num) two_u fits_big tiny_μ' μ_le ⟨⟨(1 : ℝ), (0 : ℝ), (0 : ℝ)⟩, ⟨(0 : ℝ), (0 : ℝ), (1 : ℝ)⟩, ⟨1, 0, 0⟩, ⟨0, 0, 1⟩,
    ⟨exact_rounded _, exact_rounded _, exact_rounded _⟩, ⟨exact_rounded _, exact_rounded _, exact_rounded _⟩,
    by simp [Vec3.real], by simp [Vec3.real], by simp [Vec3.real], by simp, by simp, by simp, rfl, rfl⟩

/-- a full cache of wrong poses -/
noncomputable def stale : SizedCache (Pose (Fl dbl)) := ⟨4, List.replicate 4 Pose.identity, List.replicate 4 true⟩

theorem stale_fits : stale.Fits s0.robot.links.length := by
  show SizedCache.Fits _ m0.links.length
  rw [links_length]
  exact ⟨rfl, rfl, rfl⟩

/-- In IEEE arithmetic `solve_fk` returns the position of the hand to nine digits. -/
theorem hand : ∃ P J s', pySolveFk (.nd1 q) [2] [0, 1] .xyzw .planer false false (s0.withCache stale) = .ok (P, J) s' ∧
    ∃ T, WorldPose ls js (fun w => w = com) θ base "hand" T ∧ Vec3.dist ⟨P.f 0 0, P.f 0 1, P.f 0 2⟩ T.position ≤ 1 / 10 ^ 9 ∧
      Rot.dist ⟨P.f 0 3, P.f 0 4, P.f 0 5, P.f 0 6⟩ T.rotation ≤ 1 / 10 ^ 9 * T.rotation.len := by
  obtain ⟨P, J, s', e, h⟩ := C94_solve_fk (c := stale) (rt := .xyzw) (wj := false) (A := 2) s0_reach shallow stale_fits args nofun robot_near proper
    (by have := dbl.u_nonneg; linarith) (by norm_num) small
  obtain ⟨d, L, T, hT, hp, hd, hq⟩ := h 0 0 2 q "hand" θ base rfl rfl hand_id angles base_near.1 (by rw [base_near.2]; norm_num)
    (by rw [base_near.2]; norm_num) (by
      intro j hj
      simp only [js, List.mem_cons, List.not_mem_nil, or_false] at hj
      rcases hj with rfl | rfl <;> simp [turn, slide, θ]; norm_num)
    (fun d L h => by have := path h; simp at this; exact ⟨by omega, this.2⟩)
  obtain ⟨k1, k2⟩ := path hp
  simp at k1 k2
  subst k1
  refine ⟨P, J, s', e, T, hT, hd.trans ?_, (hq rfl).trans (mul_le_mul_of_nonneg_right ?_ (Real.sqrt_nonneg _))⟩
  · have := μ_le
    rw [u_eq]
    norm_num
    linarith
  · rw [u_eq]; norm_num

end RoundExample

end Tinyfk
