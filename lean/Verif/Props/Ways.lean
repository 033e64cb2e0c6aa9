import Verif.Spec.Ways
import Verif.Props.Change

/-!
# Properties: distances along the robot

C125.
-/

namespace Tinyfk

open Scalar Quaternion

section
variable {ls : List (RawLink ℝ)} {js : List (RawJoint ℝ)} {m0 : KinModel ℝ} {cs : List (Call ℝ)} {h : List (PyCall ℝ)} {s : PyModel ℝ}
  {c0 : SizedCache (Pose ℝ)} {es ids : List Nat} {ps : List (Nat × Nat)} {bt : BaseType} {rt : RotType} {wj uc : Bool}

/-- a pose composed with a displacement is as far away as the displacement is long -/
theorem Pose.dist_transform {B : Pose ℝ} (hB : B.rotation.norm2 = 1) (T : Pose ℝ) :
    Vec3.dist (Pose.transform B T).position B.position = T.position.len := by
  have n1 := Rot.norm_quat hB
  rw [Vec3.dist_quat, Vec3.len_quat]
  show ‖(Vec3.add (B.rotation.rotate T.position) B.position).quat - _‖ = _
  rw [Vec3.quat_add, Rot.quat_rotate _ (by rw [n1]; exact one_pos), add_sub_cancel_right, norm_mul, norm_mul, norm_inv, n1]
  simp

theorem Supported.edge (hs : Supported js) {j : RawJoint ℝ} (hj : j ∈ js) (v : ℝ) : ∃ T, RawEdge j v T := by
  rcases hs j hj with ht | ht | ht | ht
  · exact ⟨_, .fixed ht⟩
  · exact ⟨_, .rot (.inl ht)⟩
  · exact ⟨_, .rot (.inr ht)⟩
  · exact ⟨_, .slide ht⟩

theorem RawEdge.len_le {j : RawJoint ℝ} (hu : j.origin.rotation.norm2 = 1 ∧ ((j.type = .revolute ∨ j.type = .continuous) → j.axis.IsUnit))
    {v : ℝ} {T : Pose ℝ} (h : RawEdge j v T) : T.position.len ≤ j.reach v := by
  obtain ⟨E', h1, _, _, h4⟩ := h.change (θ' := v) hu
  have : E' = T := by
    cases h with
    | fixed ht => cases h1 with
      | fixed _ => rfl
      | rot h' => rw [ht] at h'; simp at h'
      | slide h' => rw [ht] at h'; simp at h'
    | rot ht => cases h1 with
      | fixed h' => rw [h'] at ht; simp at ht
      | rot _ => rfl
      | slide h' => rw [h'] at ht; simp at ht
    | slide ht => cases h1 with
      | fixed h' => rw [ht] at h'; simp at h'
      | rot h' => rw [ht] at h'; simp at h'
      | slide _ => rfl
  rwa [this] at h4

theorem RawEdge.place {j : RawJoint ℝ} (hu : j.origin.rotation.norm2 = 1) {v : ℝ} {T : Pose ℝ} (h : RawEdge j v T) : T.position = j.place v := by
  cases h with
  | fixed ht => simp [RawJoint.place, ht]
  | rot ht =>
    have hns : j.type ≠ .prismatic := by rintro e; rw [e] at ht; simp at ht
    simp only [RawJoint.place, if_neg hns, Pose.transform]
    rw [Rot.rotate_unit _ _ hu]
    simp [Vec3.add, Vec3.zero]
  | slide ht => simp only [RawJoint.place, if_pos ht, Pose.transform]

/-- What hangs on a link is at most as far away as the way is long. -/
theorem HangsOn.near {W : Weld ℝ → Prop} {θ : String → ℝ} {b B : Pose ℝ} {c n : String} {L : ℝ} (hs : Supported js) (hu : UnitDesc js)
    (hw : ∀ w, W w → w.offset.rotation.norm2 = 1) (hb : b.rotation.norm2 = 1) (hB : WorldPose ls js W θ b c B) (h : HangsOn js W θ c n L) :
    ∃ T, WorldPose ls js W θ b n T ∧ Vec3.dist T.position B.position ≤ L := by
  induction h with
  | here => exact ⟨B, hB, (Vec3.dist_self _).le⟩
  | @joint j L hj _ ih =>
    obtain ⟨T, hT, hd⟩ := ih
    obtain ⟨E, hE⟩ := hs.edge hj (θ j.name)
    refine ⟨_, .joint hj hT hE, ?_⟩
    have h1 := Pose.dist_transform (hT.unit hu hw hb) E
    have h2 := hE.len_le (hu j hj)
    rw [Vec3.dist_quat] at *
    have := norm_sub_le_norm_sub_add_norm_sub (Pose.transform T E).position.quat T.position.quat B.position.quat
    linarith
  | @weld w L hw' _ ih =>
    obtain ⟨T, hT, hd⟩ := ih
    refine ⟨_, .weld hw' hT, ?_⟩
    have h1 := Pose.dist_transform (hT.unit hu hw hb) w.offset
    rw [Vec3.dist_quat] at *
    have := norm_sub_le_norm_sub_add_norm_sub (Pose.transform T w.offset).position.quat T.position.quat B.position.quat
    linarith

/-- the link has a pose in every configuration -/
theorem PyReach.posed (hr : PyReach ls js m0 h cs s) (hids : ∀ i ∈ ids, i < m0.joints.length) {q : List ℝ}
    (hq : q.length = ids.length + bt.dof) {θ : String → ℝ} (hθ : AnglesAfter m0 (cs ++ configCalls ids bt q) θ) {n : String} {l : Nat}
    (hn : getLinkIds [n] s.robot = .ok [l] s.robot) :
    ∃ T, WorldPose ls js (AllWelds ls m0 cs) θ (baseAfter Pose.identity (cs ++ configCalls ids bt q)) n T := by
  obtain ⟨mc, hat⟩ := hr.at
  obtain ⟨mk, hmk⟩ := hat.reach.config hids hq
  have hs := configCalls_isSet ids bt q
  obtain ⟨T1, hu1, _⟩ := C01_link_pose hmk hθ (hat.getLinkIds_config hn hmk hs)
  rw [allWelds_sets hs] at hu1
  exact ⟨T1, (hu1 _).mpr rfl⟩

/-- **C125.** Two links that hang on a common link are never farther apart than the two ways to it are long: the lengths of the
`<origin>`s, the offsets of added links and how far the sliding joints are out. This holds for what `compute_inter_link_sqdists` returns
and bounds it for all joint angles. Across one joint or one added link the returned value is exact: it is the squared length of the
place of the child (which a turning joint does not change). -/
theorem C125_sqdists (hr : PyReach ls js m0 h cs s) (hf : Shallow ls js m0 cs) (hu : UnitDesc js) {qs : List (List ℝ)}
    (hc : c0.Fits s.robot.links.length) (ha : DistArgs m0 s qs ps ids bt) (huc : uc = false ∨ bt ≠ .fixed)
    (hne : wj = true → (∃ r ∈ ls, r.inertial.isSome) ∨ weldsAfter (names0 m0) cs ≠ []) :
    ∃ V J s1, pySqdists qs ps ids bt wj uc (s.withCache c0) = .ok (V, J) s1 ∧
      ∀ (k j l1 l2 : Nat) (q : List ℝ) (n1 n2 : String) (θ : String → ℝ), qs[k]? = some q → ps[j]? = some (l1, l2) →
        getLinkIds [n1] s.robot = .ok [l1] s.robot → getLinkIds [n2] s.robot = .ok [l2] s.robot →
        AnglesAfter m0 (cs ++ configCalls ids bt q) θ →
        (∀ (c : String) (lc : Nat) (L1 L2 : ℝ), getLinkIds [c] s.robot = .ok [lc] s.robot →
          HangsOn js (AllWelds ls m0 cs) θ c n1 L1 → HangsOn js (AllWelds ls m0 cs) θ c n2 L2 →
          V.f (k * ps.length + j) 0 ≤ (L1 + L2) ^ 2) ∧
        (∀ x ∈ js, x.parentLinkName = n1 → x.childLinkName = n2 →
          V.f (k * ps.length + j) 0 = (x.place (θ x.name)).len ^ 2) ∧
        (∀ w, AllWelds ls m0 cs w → w.carrier = n1 → w.name = n2 → V.f (k * ps.length + j) 0 = w.offset.position.len ^ 2) := by
  obtain ⟨V, J, s1, e, _, _, h1⟩ := C07_sqdists (wj := wj) hr hf hc ha huc hne
  refine ⟨V, J, s1, e, ?_⟩
  intro k j l1 l2 q n1 n2 θ hk hj hn1 hn2 hθ
  obtain ⟨T1, T2, u1, u2, v⟩ := h1 k j l1 l2 q n1 n2 θ hk hj hn1 hn2 hθ
  have hw : ∀ w, AllWelds ls m0 cs w → w.offset.rotation.norm2 = 1 := fun w hw => hr.unitCalls.allWelds hw
  have hb : (baseAfter Pose.identity (cs ++ configCalls ids bt q)).rotation.norm2 = 1 :=
    (hr.unitCalls.append (configCalls_unit ids bt q)).base Rot.norm2_one
  have hd : V.f (k * ps.length + j) 0 = Vec3.dist T1.position T2.position ^ 2 := by
    rw [v, ← sqrt_sqDist, Real.sq_sqrt]
    unfold sqDist
    nlinarith [sq_nonneg (T1.position.x - T2.position.x), sq_nonneg (T1.position.y - T2.position.y), sq_nonneg (T1.position.z - T2.position.z)]
  have hsym : ∀ a b : Vec3 ℝ, Vec3.dist a b = Vec3.dist b a := fun a b => by rw [Vec3.dist_quat, Vec3.dist_quat, norm_sub_rev]
  refine ⟨?_, ?_, ?_⟩
  · intro c lc L1 L2 hlc w1 w2
    obtain ⟨B, hB⟩ := hr.posed ha.joints (ha.shape q (List.mem_of_getElem? hk)) hθ hlc
    obtain ⟨U1, p1, d1⟩ := w1.near hr.supported hu hw hb hB
    obtain ⟨U2, p2, d2⟩ := w2.near hr.supported hu hw hb hB
    rw [(u1 _).mp p1] at d1
    rw [(u2 _).mp p2] at d2
    rw [hd]
    refine pow_le_pow_left₀ (Real.sqrt_nonneg _) ?_ 2
    show Vec3.dist T1.position T2.position ≤ _
    rw [Vec3.dist_quat] at d1 d2 ⊢
    have := norm_sub_le_norm_sub_add_norm_sub T1.position.quat B.position.quat T2.position.quat
    rw [norm_sub_rev B.position.quat] at this
    linarith
  · rintro x hx rfl rfl
    obtain ⟨E, hE⟩ := hr.supported.edge hx (θ x.name)
    have hT1 := (u1 T1).mpr rfl
    have := (u2 _).mp (.joint hx hT1 hE)
    rw [hd, ← this, hsym, Pose.dist_transform (hT1.unit hu hw hb), hE.place (hu x hx).1]
  · rintro w hw' rfl rfl
    have hT1 := (u1 T1).mpr rfl
    have := (u2 _).mp (.weld hw' hT1)
    rw [hd, ← this, hsym, Pose.dist_transform (hT1.unit hu hw hb)]

/-- **C125, positions.** The positions `solve_fk` returns for a link are never farther from those of a link it hangs on (in the same
row of the batch) than the way is long. -/
theorem C125_solve_fk (hr : PyReach ls js m0 h cs s) (hf : Shallow ls js m0 cs) (hu : UnitDesc js) {qs : QArg ℝ}
    (hc : c0.Fits s.robot.links.length) (ha : FkArgs m0 s qs es ids bt) (huc : bt ≠ .fixed ∨ uc = false)
    (hne : wj = true → (∃ r ∈ ls, r.inertial.isSome) ∨ weldsAfter (names0 m0) cs ≠ []) :
    ∃ P J s1, pySolveFk qs es ids rt bt wj uc (s.withCache c0) = .ok (P, J) s1 ∧
      ∀ (k i j li lj : Nat) (q : List ℝ) (c n : String) (θ : String → ℝ) (L : ℝ), qs.rows[k]? = some q → es[i]? = some li → es[j]? = some lj →
        getLinkIds [c] s.robot = .ok [li] s.robot → getLinkIds [n] s.robot = .ok [lj] s.robot → AnglesAfter m0 (cs ++ configCalls ids bt q) θ →
        HangsOn js (AllWelds ls m0 cs) θ c n L →
        Vec3.dist ⟨P.f (k * es.length + j) 0, P.f (k * es.length + j) 1, P.f (k * es.length + j) 2⟩
          ⟨P.f (k * es.length + i) 0, P.f (k * es.length + i) 1, P.f (k * es.length + i) 2⟩ ≤ L := by
  obtain ⟨mc, hat⟩ := hr.at
  obtain ⟨P, J, s1, _, e, _, hres⟩ := (hat.withCache hc).pySolveFk (rt := rt) (wj := wj) (uc := uc)
    (qs := qs) (es := es) hf ⟨ha.notFlat, ha.nonempty, ha.shape, ha.joints, ha.links⟩ huc hne
  refine ⟨P, J, s1, e, ?_⟩
  intro k i j li lj q c n θ L hk hi hj hc hn hθ hL
  obtain ⟨B, hB, x1, x2, x3, _⟩ := hres.world hat ha.shape ha.joints k i li q c θ hk hi hc hθ
  obtain ⟨T, hT, y1, y2, y3, _⟩ := hres.world hat ha.shape ha.joints k j lj q n θ hk hj hn hθ
  obtain ⟨U, w1, w2⟩ := hL.near hr.supported hu (fun w hw => hr.unitCalls.allWelds hw)
    ((hr.unitCalls.append (configCalls_unit ids bt q)).base Rot.norm2_one) ((hB B).mpr rfl)
  rw [(hT U).mp w1] at w2
  rw [x1, x2, x3, y1, y2, y3]
  exact w2

end

namespace Example

/-! ### The hypotheses are met -/

example := C125_sqdists (uc := true) (wj := true) s1_reach s1_shallow unitDesc bad_fits (distArgs s1_links) (.inr (by decide)) (fun _ => .inl inertial)

example := C125_solve_fk (wj := true) (uc := true) (rt := .rpy) s1_reach s1_shallow unitDesc bad_fits (a1_args s1_links) (.inl (by decide)) (fun _ => .inl inertial)

/-- from "arm" to "hand" it is 2 and what "slide" is out -/
example (θ : String → ℝ) : HangsOn js (fun _ => False) θ "arm" "hand" (2 + |θ "slide"|) := by
  have h := HangsOn.joint (θ := θ) (welds := fun _ => False) (j := slide) (js := js) (by simp [js]) (HangsOn.here (c := "arm"))
  refine cast ?_ h
  congr 1
  norm_num [RawJoint.reach, slide, Vec3.len, show √(4 : ℝ) = 2 by rw [show (4 : ℝ) = 2 ^ 2 by norm_num]; exact Real.sqrt_sq (by norm_num)]

end Example

end Tinyfk
