import Verif.Proofs.LoopsMove
import Verif.Proofs.FwdDiff
import Verif.Props.TwoParents

/-!
# C111: robots whose joints close loops

Several joints may have the same child link. Poses follow, of the joints with the same child, the one with the
greatest name; Jacobians also have columns for the others.
-/

set_option linter.unusedSectionVars false

namespace Tinyfk

open Scalar

section
variable {K : Type} [Scalar K] {ls : List (RawLink K)} {js : List (RawJoint K)} {m0 m : KinModel K} {cs : List (Call K)}

theorem LoopReach.net (h : LoopReach ls js m0 cs m) : Net ls js (AllWelds ls m0 cs) m := h.abs.net

theorem LoopReach.link (h : LoopReach ls js m0 cs m) {n : String} {l : Nat}
    (hn : getLinkIds [n] m = .ok [l] m) : ∃ lk, m.links[l]? = some lk ∧ lk.name = n :=
  (h.net.linkNames n l).mp (getLinkIds_one.mp hn)

theorem LoopReach.worldPose_iff (h : LoopReach ls js m0 cs m) {θ : String → K} (hθ : AnglesAfter m0 cs θ)
    {n : String} {l : Nat} (hn : getLinkIds [n] m = .ok [l] m) (T : Pose K) :
    IsPose m l T ↔ WorldPose ls (followed js) (AllWelds ls m0 cs) θ (baseAfter Pose.identity cs) n T := by
  obtain ⟨lk, h1, rfl⟩ := h.link hn
  have ha : AnglesAre m θ := h.abs.anglesAre fun s i hs => hθ.find s i hs
  rw [← h.abs.base]
  constructor
  · exact h.net.worldPose ha h1
  · intro hw
    obtain ⟨l', lk', e1, e2, e3⟩ := h.net.isPose ha hw
    have := h.net.name_unique e1 h1 e2
    subst this
    exact e3

theorem LoopReach.fits (h : LoopReach ls js m0 cs m) (hf : Shallow ls (followed js) m0 cs) : FitsStack m := by
  intro l d hd
  rw [h.capacity]
  exact hf _ _ (h.net.linkDepth (List.getElem?_eq_getElem hd.lt) hd)

theorem LoopReach.ready (h : LoopReach ls js m0 cs m) (hf : Shallow ls (followed js) m0 cs) : Ready m :=
  ⟨h.net.tree, h.abs.sized, h.abs.coh, h.fits hf⟩

/-- **C111, poses.** In a robot whose joints may close loops, the pose returned for a link is the one obtained by
composing, from the root, the joints with the greatest name among those with the same child (`followed js`), and
it is the only such pose. The query returns it, or the chain of followed joints and welds is longer than the
description has links and the fixed stack overflows. -/
theorem C111_pose (h : LoopReach ls js m0 cs m) {θ : String → K} (hθ : AnglesAfter m0 cs θ)
    {n : String} {l : Nat} (hn : getLinkIds [n] m = .ok [l] m) :
    ∃ T, (∀ T', WorldPose ls (followed js) (AllWelds ls m0 cs) θ (baseAfter Pose.identity cs) n T' ↔ T' = T) ∧
      ((∃ m', getLinkPose l m = .ok T m') ∨
        (∃ u, getLinkPose l m = .ub u) ∧
          ∃ d, LinkDepth ls (followed js) (AllWelds ls m0 cs) n d ∧ ls.length < d) := by
  obtain ⟨lk, h1, hname⟩ := h.link hn
  have hlt := (List.getElem?_eq_some_iff.mp h1).1
  obtain ⟨T, hT⟩ := h.net.tree.exists_pose hlt
  refine ⟨T, ?_, ?_⟩
  · intro T'
    rw [← h.worldPose_iff hθ hn]
    constructor
    · intro hT'; exact hT'.unique hT
    · rintro rfl; exact hT
  · rcases getLinkPose_total h.net.tree h.abs.sized h.abs.coh l with ⟨T', m', e1, e2, _⟩ | ⟨u, hu⟩
    · rw [e2.unique hT] at e1
      exact .inl ⟨m', e1⟩
    · right
      refine ⟨⟨u, hu⟩, ?_⟩
      obtain ⟨d, hd⟩ := h.net.tree.depth hlt
      refine ⟨d, hname ▸ h.net.linkDepth h1 hd, ?_⟩
      by_contra hle
      obtain ⟨T', m', e⟩ := getLinkPose_fits h.net.tree h.abs.sized h.abs.coh hd (by rw [h.capacity]; omega)
      rw [e] at hu; cases hu

theorem LoopReach.turned_ready (h : LoopReach ls js m0 cs m) (hf : Shallow ls (followed js) m0 cs) (i : Nat) (v : K) :
    Ready (turned m i v) :=
  ⟨(Net.congr (m := m) (m' := turned m i v) (.of_links rfl) rfl rfl rfl rfl (by simp [turned]) rfl rfl h.net).tree,
    ⟨h.abs.sized.size, by simp [turned, SizedCache.clear, h.abs.sized.size], h.abs.sized.data⟩,
    coherent_of_fresh (clear_pred _), FitsStack.congr (m := m) rfl rfl (h.fits hf)⟩

/-- **C111, what does not move.** Setting a joint that is not on the followed route to a link, in particular a
joint that is not followed at all, leaves the pose of the link as it is. -/
theorem C111_off_route (h : LoopReach ls js m0 cs m) (hf : Shallow ls (followed js) m0 cs)
    {s n : String} {i l : Nat} (hs : getJointIds [s] m = .ok [i] m) (hn : getLinkIds [n] m = .ok [l] m)
    (hoff : ¬ JointOnPath (followed js) (AllWelds ls m0 cs) s n) (v : K) :
    ∃ m1 T m2 m3, setJointAngles [i] [v] m = .ok () m1 ∧ getLinkPose l m = .ok T m2 ∧
      getLinkPose l m1 = .ok T m3 := by
  have hfi := getJointIds_one.mp hs
  obtain ⟨jp, j, hj, hjh, _⟩ := (h.net.jointNames s i).mp hfi
  obtain ⟨lk, h1, rfl⟩ := h.link hn
  have hoff' : ¬ OnPath m jp l := fun hp => hoff ((h.net.onPath_iff hfi hj h1).mp hp)
  have hi : i < m.angles.length := by
    rw [h.net.anglesLen]; exact (List.getElem?_eq_some_iff.mp hj).1
  obtain ⟨T, hT⟩ := h.net.tree.exists_pose (List.getElem?_eq_some_iff.mp h1).1
  obtain ⟨m2, e2, _⟩ := getLinkPose_spec (h.ready hf) hT
  obtain ⟨m3, e3, _⟩ := getLinkPose_spec (h.turned_ready hf i v) (h.net.pose_turned hj v hT hoff')
  exact ⟨_, T, m2, m3, turned_set hi v, e2, e3⟩

theorem JointOnPath.mono {js' : List (RawJoint K)} {W : Weld K → Prop} {s n : String} (hsub : ∀ r ∈ js, r ∈ js')
    (h : JointOnPath js W s n) : JointOnPath js' W s n := by
  induction h with
  | here hr e => exact .here (hsub _ hr) e
  | up hr _ ih => exact .up (hsub _ hr) ih
  | weld hw _ ih => exact .weld hw ih

theorem JointOnPath.name_mem {W : Weld K → Prop} {s n : String} (h : JointOnPath js W s n) : ∃ r ∈ js, r.name = s := by
  induction h with
  | here hr e => exact ⟨_, hr, e⟩
  | up _ _ ih => exact ih
  | weld _ _ ih => exact ih

theorem RpNet.exists_col (r : RpNet m) {W : Weld K → Prop} (g : Net ls js W m) (rt : RotType) {l i : Nat}
    (hl : l < m.links.length) (hi : i < m.joints.length) (tfE : Pose K) :
    ∃ col, IsJointCol m rt l tfE i col := by
  obtain ⟨b, hb, hiff⟩ := r.sized.isRelevant hl hi
  cases b with
  | false => exact ⟨_, .inl ⟨hb, rfl⟩⟩
  | true =>
    obtain ⟨jp, hjp⟩ : ∃ jp, m.joints[i]? = some jp := ⟨_, List.getElem?_eq_getElem hi⟩
    obtain ⟨j, r, c, ck, a1, a2, a3, a4, a5, a6, a7, a8⟩ := g.joint hjp
    obtain ⟨T, hT⟩ := g.tree.exists_pose (List.getElem?_eq_some_iff.mp a7).1
    exact ⟨_, .inr ⟨jp, j, c, T, hb, hjp, a1, a6, ⟨ck, a7, g.ids a7⟩, hT, rfl⟩⟩

theorem LoopReach.rpNet (h : LoopReach ls js m0 cs m)
    (hne : (∃ r ∈ ls, r.inertial.isSome) ∨ weldsAfter (names0 m0) cs ≠ []) : RpNet m := h.abs.rp hne

theorem LoopReach.jacobian (h : LoopReach ls js m0 cs m) (hf : Shallow ls (followed js) m0 cs)
    (hne : (∃ r ∈ ls, r.inertial.isSome) ∨ weldsAfter (names0 m0) cs ≠ [])
    {l : Nat} (hl : l < m.links.length) {ids : List Nat} (hi : ∀ i ∈ ids, i < m.joints.length)
    (rt : RotType) (wb : Bool) : ∃ tfE cols, IsPose m l tfE ∧
      List.Forall₂ (IsJointCol m rt l tfE) ids cols ∧
      ∃ m', getJacobian l ids rt wb m = .ok (jacMat rt cols tfE (if wb then some m.base else none)) m' := by
  obtain ⟨tfE, hE⟩ := h.net.tree.exists_pose hl
  obtain ⟨cols, hc⟩ := forall₂_exists ids fun i hi' => (h.rpNet hne).exists_col h.net rt hl (hi i hi') tfE
  refine ⟨tfE, cols, hE, hc, ?_⟩
  obtain ⟨lk, g1, g2⟩ := h.net.root
  obtain ⟨m', e, _⟩ := (Query.getJacobian hE hc wb (fun _ => .root g1 g2)).run (h.ready hf)
  exact ⟨m', e⟩

end

section
variable {ls : List (RawLink ℝ)} {js : List (RawJoint ℝ)} {m0 m : KinModel ℝ} {cs : List (Call ℝ)}

theorem LoopReach.unitModel (h : LoopReach ls js m0 cs m) (hu : UnitDesc js) (hc : UnitCalls cs) : UnitModel m where
  base := by rw [h.abs.base]; exact hc.base (b := Pose.identity) Rot.norm2_one
  edges := by
    intro l p jp lk j h1 h2 h3 h4
    rcases h.net.links l lk h1 with ⟨hp, _⟩ | ⟨p', pk, jp', j', e1, e2, e3, e4, hcase⟩
    · rw [h2] at hp; cases hp
    · rw [h3] at e3; cases e3
      rw [h4] at e4; cases e4
      rcases hcase with ⟨r, hr, ⟨_, _, rfl⟩, _⟩ | ⟨hj, hw⟩
      · exact hu r (mem_followed.mp hr).1
      · have hor := hc.allWelds (m0 := m0) (ls := ls) (w := ⟨lk.name, pk.name, j.origin⟩) hw
        refine ⟨hor, ?_⟩
        rw [hj]
        simp [newFixedJoint]

theorem LoopReach.poseCurve (h : LoopReach ls js m0 cs m) (hf : Shallow ls (followed js) m0 cs) {i l : Nat}
    (hi : i < m.joints.length) {T : ℝ → Pose ℝ} (hT : ∀ v, IsPose (turned m i v) l (T v)) : PoseCurve m l i T := by
  intro v
  have hil : i < m.angles.length := by rw [h.net.anglesLen]; exact hi
  obtain ⟨m2, e, _⟩ := getLinkPose_spec (h.turned_ready hf i v) (hT v)
  exact ⟨_, m2, turned_set hil v, e⟩

/-- what a column of the Jacobian is, and what it should be -/
theorem LoopReach.column (h : LoopReach ls js m0 cs m) (hu : UnitDesc js) (hc : UnitCalls cs)
    (hne : (∃ r ∈ ls, r.inertial.isSome) ∨ weldsAfter (names0 m0) cs ≠ []) {s n : String} {l i : Nat}
    (hs : getJointIds [s] m = .ok [i] m) (hn : getLinkIds [n] m = .ok [l] m) {E : Pose ℝ} (hE : IsPose m l E)
    {rt : RotType} {cols : List (Nat → ℝ)} {B : Option (Pose ℝ)} {k : Nat} {col : Nat → ℝ} (hk : cols[k]? = some col)
    (hcol : IsJointCol m rt l E i col) :
    ∃ θ, m.angles[i]? = some θ ∧
    ((JointOnPath (followed js) (AllWelds ls m0 cs) s n ∨ ¬ JointOnPath js (AllWelds ls m0 cs) s n) →
      ∃ d a T, Moves m i l θ E d a T ∧ ColumnIs rt (jacMat rt cols E B) k E d a) ∧
    (JointOnPath js (AllWelds ls m0 cs) s n → ∃ r ∈ js, r.name = s ∧ ∃ (c : Nat) (ck : Link ℝ) (C : Pose ℝ),
      m.links[c]? = some ck ∧ ck.name = r.childLinkName ∧ IsPose m c C ∧ ColumnIs rt (jacMat rt cols E B) k E
        (if r.type = .prismatic then C.rotation.rotate r.axis
          else Vec3.cross (C.rotation.rotate r.axis) (Vec3.sub E.position C.position))
        (if r.type = .prismatic then ⟨0, 0, 0⟩ else C.rotation.rotate r.axis)) := by
  have hum := h.unitModel hu hc
  have hEu := hE.unit hum
  have hfi := getJointIds_one.mp hs
  obtain ⟨jp, j, hjp, hj, hjn⟩ := (h.net.jointNames s i).mp hfi
  obtain ⟨lk, hl, rfl⟩ := h.link hn
  have hi := (List.getElem?_eq_some_iff.mp hjp).1
  have hil : i < m.angles.length := by rw [h.net.anglesLen]; exact hi
  have hθ : m.angles[i]? = some m.angles[i] := List.getElem?_eq_getElem hil
  obtain ⟨j', r, c, ck, a1, a2, a3, a4, a5, a6, a7, a8⟩ := h.net.joint hjp
  rw [hj] at a1; cases a1
  have hR := h.rpNet hne
  obtain ⟨b, hb, hiff⟩ := hR.sized.isRelevant (List.getElem?_eq_some_iff.mp hl).1 hi
  rw [hR.iff] at hiff
  have hrel : b = true ↔ JointOnPath js (AllWelds ls m0 cs) s lk.name := by
    rw [hiff, ← h.net.below_iff hfi hjp hj a6 hl]
    constructor
    · rintro ⟨jp', j', c', b1, b2, b3, b4⟩
      rw [hjp] at b1; cases b1
      rw [hj] at b2; cases b2
      rw [a6] at b3; cases b3
      exact b4
    · intro hB; exact ⟨jp, j, c, hjp, hj, a6, hB⟩
  refine ⟨_, hθ, ?_, ?_⟩
  · rintro (hon | hoff)
    · have hon' := (h.net.onPath_iff hfi hjp hl).mpr hon
      have hb1 : b = true := hrel.mpr (hon.mono fun r hr => (mem_followed.mp hr).1)
      rcases hcol with ⟨q1, q2⟩ | ⟨jp', j', c', C, q1, q2, q3, q4, _, q6, q7⟩
      · rw [hb, hb1] at q1; cases q1
      · rw [hjp] at q2; cases q2
        obtain ⟨T, hT⟩ := moves_of_split hum (h.net.joint_split hjp hon') hE hθ q3 q4 q6
        exact ⟨_, _, T, hT, (columnIs_of hk hEu).2 C _ q7⟩
    · have hoff' : ¬ OnPath m jp l := fun hp =>
        hoff (((h.net.onPath_iff hfi hjp hl).mp hp).mono fun r hr => (mem_followed.mp hr).1)
      have hm : Moves m i l m.angles[i] E ⟨0, 0, 0⟩ ⟨0, 0, 0⟩ (fun _ => E) :=
        ⟨fun v => h.net.pose_turned hjp v hE hoff', rfl, Vec3.hasDeriv_const _ _,
          by rw [Rot.spin_zero]; exact Rot.hasDeriv_const _ _, fun _ => hEu⟩
      rcases hcol with ⟨q1, q2⟩ | ⟨jp', j', c', C, q1, q2, q3, q4, _, q6, q7⟩
      · exact ⟨_, _, _, hm, (columnIs_of hk hEu).1 q2⟩
      · rw [hb] at q1; cases q1
        exact absurd (hrel.mp rfl) hoff
  · intro hon
    rcases hcol with ⟨q1, q2⟩ | ⟨jp', j', c', C, q1, q2, q3, q4, _, q6, q7⟩
    · rw [hb, hrel.mpr hon] at q1; cases q1
    · rw [hjp] at q2; cases q2
      rw [hj] at q3; cases q3
      rw [a6] at q4; cases q4
      obtain ⟨_, _, rfl⟩ := a3
      exact ⟨r, a2, hjn, c, ck, C, a7, a8, q6, (columnIs_of hk hEu).2 C _ q7⟩

/-- **C111, Jacobians (partial).** For a joint that lies on the followed route to the link, or on no route at
all, the column of the Jacobian is the derivative of the pose `get_link_pose` returns with respect to the angle of
that joint: rows 0 to 2 of the position and, with `XYZW`, rows 3 to 6 of the quaternion. Missing: the joints on
another route, for which it is not (`C111_phantom`). -/
theorem C111_jacobian_partial (h : LoopReach ls js m0 cs m) (hf : Shallow ls (followed js) m0 cs) (hu : UnitDesc js)
    (hc : UnitCalls cs) (hne : (∃ r ∈ ls, r.inertial.isSome) ∨ weldsAfter (names0 m0) cs ≠ []) {n : String} {l : Nat}
    (hn : getLinkIds [n] m = .ok [l] m) {ids : List Nat} (hids : ∀ i ∈ ids, i < m.joints.length) (rt : RotType) (wb : Bool) :
    ∃ J m', getJacobian l ids rt wb m = .ok J m' ∧ ∀ (k i : Nat) (s : String), ids[k]? = some i →
      getJointIds [s] m = .ok [i] m →
      (JointOnPath (followed js) (AllWelds ls m0 cs) s n ∨ ¬ JointOnPath js (AllWelds ls m0 cs) s n) →
      ∃ θ T, getJointAngles [i] m = .ok [θ] m ∧ PoseCurve m l i T ∧
        HasDerivAt (fun v => (T v).position.x) (J.f 0 k) θ ∧
        HasDerivAt (fun v => (T v).position.y) (J.f 1 k) θ ∧
        HasDerivAt (fun v => (T v).position.z) (J.f 2 k) θ ∧
        (rt = .xyzw →
          HasDerivAt (fun v => (T v).rotation.x) (J.f 3 k) θ ∧
          HasDerivAt (fun v => (T v).rotation.y) (J.f 4 k) θ ∧
          HasDerivAt (fun v => (T v).rotation.z) (J.f 5 k) θ ∧
          HasDerivAt (fun v => (T v).rotation.w) (J.f 6 k) θ) := by
  obtain ⟨lk, hl, _⟩ := h.link hn
  obtain ⟨E, cols, hE, hcols, m', e⟩ := h.jacobian hf hne (List.getElem?_eq_some_iff.mp hl).1 hids rt wb
  refine ⟨_, m', e, ?_⟩
  intro k i s hk hs hroute
  obtain ⟨hk1, hk2⟩ := List.getElem?_eq_some_iff.mp hk
  have hkl : k < cols.length := by rw [← hcols.length_eq]; exact hk1
  obtain ⟨θ, hθ, hmov, _⟩ := h.column hu hc hne hs hn hE (rt := rt) (B := if wb then some m.base else none)
    (List.getElem?_eq_getElem hkl) (by rw [← hk2]; exact (List.forall₂_iff_get.mp hcols).2 k hk1 hkl)
  obtain ⟨d, a, T, hT, hJ⟩ := hmov hroute
  refine ⟨θ, T, getJointAngles_one hθ, h.poseCurve hf (hids i (List.mem_of_getElem? hk)) hT.pose, ?_⟩
  rw [hJ.x, hJ.y, hJ.z]
  refine ⟨hT.pos.1, hT.pos.2.1, hT.pos.2.2, ?_⟩
  intro hrt
  obtain ⟨e1, e2, e3, e4⟩ := hJ.quat hrt
  rw [e1, e2, e3, e4]
  exact hT.rot

/-- **C111 is false of the other columns.** A joint that lies on some route to the link but not on the followed
one does not move the link at all, but its column is filled as if it did: with its axis, turned by the pose `C` of
its child, for a sliding joint, and with the velocity of a turn about that axis for a turning joint. -/
theorem C111_phantom (h : LoopReach ls js m0 cs m) (hf : Shallow ls (followed js) m0 cs) (hu : UnitDesc js)
    (hc : UnitCalls cs) (hne : (∃ r ∈ ls, r.inertial.isSome) ∨ weldsAfter (names0 m0) cs ≠ [])
    {θ : String → ℝ} (hθ : AnglesAfter m0 cs θ) {s n : String} {i l : Nat}
    (hs : getJointIds [s] m = .ok [i] m) (hn : getLinkIds [n] m = .ok [l] m)
    (hon : JointOnPath js (AllWelds ls m0 cs) s n) (hoff : ¬ JointOnPath (followed js) (AllWelds ls m0 cs) s n)
    (rt : RotType) (wb : Bool) :
    ∃ J m' E, getJacobian l [i] rt wb m = .ok J m' ∧ PoseCurve m l i (fun _ => E) ∧
      ∃ r ∈ js, r.name = s ∧ ∃ C d,
        WorldPose ls (followed js) (AllWelds ls m0 cs) θ (baseAfter Pose.identity cs) r.childLinkName C ∧
        d = (if r.type = .prismatic then C.rotation.rotate r.axis
          else Vec3.cross (C.rotation.rotate r.axis) (Vec3.sub E.position C.position)) ∧
        J.f 0 0 = d.x ∧ J.f 1 0 = d.y ∧ J.f 2 0 = d.z := by
  obtain ⟨lk, hl, hln⟩ := h.link hn
  have hfi := getJointIds_one.mp hs
  obtain ⟨jp, j, hjp, hj, hjn⟩ := (h.net.jointNames s i).mp hfi
  have hi := (List.getElem?_eq_some_iff.mp hjp).1
  obtain ⟨E, cols, hE, hcols, m', e⟩ := h.jacobian hf hne (List.getElem?_eq_some_iff.mp hl).1 (ids := [i]) (by simpa using hi) rt wb
  refine ⟨_, m', E, e, ?_, ?_⟩
  · refine h.poseCurve hf hi fun v => h.net.pose_turned hjp v hE ?_
    intro hp
    exact hoff (hln ▸ (h.net.onPath_iff hfi hjp hl).mp hp)
  · have hkl : 0 < cols.length := by rw [← hcols.length_eq]; simp
    obtain ⟨_, _, _, hcol⟩ := h.column hu hc hne hs hn hE (rt := rt) (B := if wb then some m.base else none)
      (List.getElem?_eq_getElem hkl) ((List.forall₂_iff_get.mp hcols).2 0 (by simp) hkl)
    obtain ⟨r, hr, hrs, c, ck, C, g1, g2, g3, hJ⟩ := hcol hon
    refine ⟨r, hr, hrs, C, _, ?_, rfl, hJ.x, hJ.y, hJ.z⟩
    rw [← g2]
    exact (h.worldPose_iff hθ (getLinkIds_one.mpr ((h.net.linkNames _ _).mpr ⟨ck, g1, rfl⟩)) C).mp g3

/-- **C111, sliding joints.** In particular the column of such a sliding joint with a unit axis is a vector of
length one, although the link does not move. -/
theorem C111_phantom_slide (h : LoopReach ls js m0 cs m) (hf : Shallow ls (followed js) m0 cs) (hu : UnitDesc js)
    (hc : UnitCalls cs) (hne : (∃ r ∈ ls, r.inertial.isSome) ∨ weldsAfter (names0 m0) cs ≠ []) {s n : String} {i l : Nat}
    (hs : getJointIds [s] m = .ok [i] m) (hn : getLinkIds [n] m = .ok [l] m)
    (hon : JointOnPath js (AllWelds ls m0 cs) s n) (hoff : ¬ JointOnPath (followed js) (AllWelds ls m0 cs) s n)
    (hslide : ∀ r ∈ js, r.name = s → r.type = .prismatic ∧ r.axis.IsUnit) (rt : RotType) (wb : Bool) :
    ∃ J m' E, getJacobian l [i] rt wb m = .ok J m' ∧ PoseCurve m l i (fun _ => E) ∧
      J.f 0 0 ^ 2 + J.f 1 0 ^ 2 + J.f 2 0 ^ 2 = 1 := by
  obtain ⟨lk, hl, hln⟩ := h.link hn
  have hfi := getJointIds_one.mp hs
  obtain ⟨jp, j, hjp, hj, hjn⟩ := (h.net.jointNames s i).mp hfi
  have hi := (List.getElem?_eq_some_iff.mp hjp).1
  obtain ⟨E, cols, hE, hcols, m', e⟩ := h.jacobian hf hne (List.getElem?_eq_some_iff.mp hl).1 (ids := [i]) (by simpa using hi) rt wb
  refine ⟨_, m', E, e, ?_, ?_⟩
  · refine h.poseCurve hf hi fun v => h.net.pose_turned hjp v hE ?_
    intro hp
    exact hoff (hln ▸ (h.net.onPath_iff hfi hjp hl).mp hp)
  · have hkl : 0 < cols.length := by rw [← hcols.length_eq]; simp
    obtain ⟨_, _, _, hcol⟩ := h.column hu hc hne hs hn hE (rt := rt) (B := if wb then some m.base else none)
      (List.getElem?_eq_getElem hkl) ((List.forall₂_iff_get.mp hcols).2 0 (by simp) hkl)
    obtain ⟨r, hr, hrs, c, ck, C, g1, g2, g3, hJ⟩ := hcol hon
    obtain ⟨hp, hax⟩ := hslide r hr hrs
    rw [hJ.x, hJ.y, hJ.z, if_pos hp]
    have hCu := g3.unit (h.unitModel hu hc)
    have h2 := len2_rotate hCu r.axis
    simp only [Vec3.len2] at h2
    simp only [Vec3.IsUnit] at hax
    linarith

end

/-! ### A concrete robot: two sliding joints from "root" to "tip" -/

namespace TwoParents

theorem followed_js : followed js = [⟨"j2", .prismatic, ⟨0, 1, 0⟩, Pose.identity, "root", "tip", some ⟨0, 0, 0, 0⟩⟩] := by
  simp [followed, js]

theorem reach : LoopReach ls js m [] m where
  noCycle := ⟨fun n => if n = "tip" then 1 else 0, by
    intro j hj
    simp only [js, List.mem_cons, List.not_mem_nil, or_false] at hj
    rcases hj with rfl | rfl <;> decide⟩
  supported := by
    intro j hj
    simp only [js, List.mem_cons, List.not_mem_nil, or_false] at hj
    rcases hj with rfl | rfl <;> simp [JointType.Movable]
  built := constructs
  runs := .nil

theorem weld_com {w : Weld ℝ} (h : AllWelds ls m [] w) : w.name = "root_com" ∧ w.carrier = "root" := by
  rcases h with h | h
  · obtain @⟨l, i, h1, h2⟩ := h
    simp only [ls, List.mem_cons, List.not_mem_nil, or_false] at h1
    rcases h1 with rfl | rfl
    · exact ⟨rfl, rfl⟩
    · cases h2
  · simp [weldsAfter] at h

theorem depth {n : String} {d : Nat} (h : LinkDepth ls (followed js) (AllWelds ls m []) n d) :
    (n = "root" → d = 0) ∧ d ≤ 1 ∧ (n = "root" ∨ n = "tip" ∨ n = "root_com") := by
  induction h with
  | @root l h1 h2 =>
    simp only [ls, List.mem_cons, List.not_mem_nil, or_false] at h1
    rcases h1 with rfl | rfl <;> simp
  | @joint j d h1 h2 ih =>
    rw [followed_js] at h1
    simp only [List.mem_cons, List.not_mem_nil, or_false] at h1
    subst h1
    have := ih.1 rfl
    subst this
    simp
  | weld h1 h2 ih =>
    obtain ⟨e1, e2⟩ := weld_com h1
    have := ih.1 e2
    subst this
    simp [e1]

theorem shallow : Shallow ls (followed js) m [] := by
  intro n d h
  have := (depth h).2.1
  simp only [ls, List.length_cons, List.length_nil]
  omega

theorem unit : UnitDesc js := by
  intro j hj
  simp only [js, List.mem_cons, List.not_mem_nil, or_false] at hj
  rcases hj with rfl | rfl <;> simp [Pose.identity, Rot.norm2_one]

theorem on_some_route : JointOnPath js (AllWelds ls m []) "j1" "tip" :=
  .here (j := ⟨"j1", .prismatic, ⟨1, 0, 0⟩, Pose.identity, "root", "tip", some ⟨0, 0, 0, 0⟩⟩) (by simp [js]) rfl

theorem not_followed : ¬ JointOnPath (followed js) (AllWelds ls m []) "j1" "tip" := by
  intro h
  obtain ⟨r, hr, e⟩ := h.name_mem
  rw [followed_js] at hr
  simp only [List.mem_cons, List.not_mem_nil, or_false] at hr
  subst hr
  exact absurd e (by decide)

theorem followed_j2 : JointOnPath (followed js) (AllWelds ls m []) "j2" "tip" := by
  rw [followed_js]
  exact .here (j := ⟨"j2", .prismatic, ⟨0, 1, 0⟩, Pose.identity, "root", "tip", some ⟨0, 0, 0, 0⟩⟩) (by simp) rfl

theorem angles0 : AnglesAfter m [] (fun _ => 0) := by
  intro s i _
  rfl

end TwoParents

section
open TwoParents

example : ∃ T m', getLinkPose 1 m = .ok T m' ∧
    WorldPose ls (followed js) (AllWelds ls m []) (fun _ => 0) Pose.identity "tip" T := by
  obtain ⟨T, h1, ⟨m', e⟩ | ⟨_, d, hd, hlt⟩⟩ := C111_pose reach angles0 (n := "tip") (l := 1) (getLinkIds_one.mpr rfl)
  · exact ⟨T, m', e, (h1 T).mpr rfl⟩
  · exact absurd (shallow _ _ hd) (by omega)

example (v : ℝ) := C111_off_route reach shallow (s := "j1") (n := "tip") (i := 0) (l := 1) (getJointIds_one.mpr rfl)
  (getLinkIds_one.mpr rfl) not_followed v

example : ∃ J m', getJacobian 1 [1] .xyzw false m = .ok J m' ∧ ∃ θ T, PoseCurve m 1 1 T ∧
    HasDerivAt (fun v => (T v).position.y) (J.f 1 0) θ := by
  obtain ⟨J, m', e, h⟩ := C111_jacobian_partial reach shallow unit (by intro c hc; simp at hc)
    (.inl ⟨⟨"root", some inr⟩, by simp [ls], rfl⟩) (n := "tip") (l := 1) (getLinkIds_one.mpr rfl) (ids := [1])
    (by intro i hi; simp at hi; subst hi; decide) .xyzw false
  obtain ⟨θ, T, _, hT, _, hy, _⟩ := h 0 1 "j2" rfl (getJointIds_one.mpr rfl) (.inl followed_j2)
  exact ⟨J, m', e, θ, T, hT, hy⟩

example := C111_phantom reach shallow unit (by intro c hc; simp at hc)
  (.inl ⟨⟨"root", some inr⟩, by simp [ls], rfl⟩) angles0 (s := "j1") (n := "tip") (i := 0) (l := 1) (getJointIds_one.mpr rfl)
  (getLinkIds_one.mpr rfl) on_some_route not_followed .ignore false

example := C111_phantom_slide reach shallow unit (by intro c hc; simp at hc)
  (.inl ⟨⟨"root", some inr⟩, by simp [ls], rfl⟩) (s := "j1") (n := "tip") (i := 0) (l := 1) (getJointIds_one.mpr rfl)
  (getLinkIds_one.mpr rfl) on_some_route not_followed (by
    intro r hr e
    simp only [js, List.mem_cons, List.not_mem_nil, or_false] at hr
    rcases hr with rfl | rfl
    · exact ⟨rfl, by simp [Vec3.IsUnit]⟩
    · exact absurd e (by decide)) .ignore false

end

end Tinyfk
