import Verif.Proofs.TurnsJac
import Verif.Props.Turns

/-!
# Properties: full turns and Jacobians

C123.
-/

namespace Tinyfk

open Scalar

section
variable {ls : List (RawLink ℝ)} {js : List (RawJoint ℝ)} {m0 mc mk mk' m1 m2 : KinModel ℝ} {cs : List (Call ℝ)}
  {h : List (PyCall ℝ)} {s : PyModel ℝ} {es ids : List Nat} {ps : List (Nat × Nat)}
  {bt : BaseType} {rt : RotType} {wj uc wb : Bool} {c0 : SizedCache (Pose ℝ)} {q q' : List ℝ}

theorem Reach.turned_pose (ht : TurnedConfig js m0 ids bt q q') (hq : q.length = ids.length + bt.dof) (hf : Shallow ls js m0 cs)
    (h1 : Reach ls js m0 (cs ++ configCalls ids bt q) mk) (h2 : Reach ls js m0 (cs ++ configCalls ids bt q') mk')
    (hc : Reach ls js m0 cs mc) {l : Nat} {T T' : Pose ℝ} (e1 : IsPose mk l T) (e2 : IsPose mk' l T') : Pose.SamePlace T T' := by
  have s1 := configCalls_isSet ids bt q
  have s2 := configCalls_isSet ids bt q'
  obtain ⟨n1, r1, _⟩ := (Query.getLinkPose e1).run (h1.ready (hf.sets s1))
  obtain ⟨n2, r2, _⟩ := (Query.getLinkPose e2).run (h2.ready (hf.sets s2))
  refine Reach.turned ht hq h1 h2 hc ?_ r1 r2
  obtain ⟨_, _, _, rfl⟩ := h1.sets_eq hc s1
  exact e1.lt

/-- the columns of the joints in two configurations that differ by full turns -/
theorem Reach.turned_cols (ht : TurnedConfig js m0 ids bt q q') (hq : q.length = ids.length + bt.dof) (hf : Shallow ls js m0 cs)
    (h1 : Reach ls js m0 (cs ++ configCalls ids bt q) mk) (h2 : Reach ls js m0 (cs ++ configCalls ids bt q') mk')
    (hc : Reach ls js m0 cs mc) {l : Nat} {E E' : Pose ℝ} (e1 : IsPose mk l E) (e2 : IsPose mk' l E')
    {i : Nat} {f f' : Nat → ℝ} (hf1 : IsJointCol mk rt l E i f) (hf2 : IsJointCol mk' rt l E' i f') :
    (∀ r < 3, f' r = f r) ∧ (rt = .rpy → ∀ r, f' r = f r) ∧ (E'.rotation = E.rotation → ∀ r, f' r = f r) ∧
    (rt = .xyzw → E'.rotation = E.rotation.neg → ∀ r, 3 ≤ r → f' r = -f r) := by
  have hE := Reach.turned_pose ht hq hf h1 h2 hc e1 e2
  have hP := fun {l : Nat} {T T' : Pose ℝ} => Reach.turned_pose (l := l) (T := T) (T' := T') ht hq hf h1 h2 hc
  obtain ⟨a, b, c, hk⟩ := h1.sets_eq hc (configCalls_isSet ids bt q)
  obtain ⟨a', b', c', hk'⟩ := h2.sets_eq hc (configCalls_isSet ids bt q')
  have hrp : mk'.rptable = mk.rptable := by rw [hk, hk']
  have hjs : mk'.joints = mk.joints := by rw [hk, hk']
  have hjh : mk'.jheap = mk.jheap := by rw [hk, hk']
  rcases hf1 with ⟨g1, rfl⟩ | ⟨jp, j, c, C, g1, g2, g3, g4, _, g6, rfl⟩ <;>
    rcases hf2 with ⟨k1, rfl⟩ | ⟨jp', j', c', C', k1, k2, k3, k4, _, k6, rfl⟩
  · simp
  · rw [hrp, g1] at k1; cases k1
  · rw [hrp, g1] at k1; cases k1
  · rw [hjs, g2] at k2; cases k2
    rw [hjh, g3] at k3; cases k3
    rw [g4] at k4; cases k4
    exact jointCol_turned hE (hP g6 k6)

/-- the Jacobians of a link in two configurations that differ by full turns -/
theorem Reach.turned_mat (ht : TurnedConfig js m0 ids bt q q') (hq : q.length = ids.length + bt.dof) (hf : Shallow ls js m0 cs)
    (h1 : Reach ls js m0 (cs ++ configCalls ids bt q) mk) (h2 : Reach ls js m0 (cs ++ configCalls ids bt q') mk')
    (hc : Reach ls js m0 cs mc) {l : Nat} {E E' : Pose ℝ} (hE : IsPose mk l E) (hE' : IsPose mk' l E') {cols cols' : List (Nat → ℝ)}
    (hcols : List.Forall₂ (IsJointCol mk rt l E) ids cols) (hcols' : List.Forall₂ (IsJointCol mk' rt l E') ids cols')
    {B B' : Mat ℝ} (hB : B = jacMat rt cols E (if wb then some mk.base else none))
    (hB' : B' = jacMat rt cols' E' (if wb then some mk'.base else none)) (c : Nat) :
    (∀ r < 3, B'.f r c = B.f r c) ∧
      (rt = .rpy → B'.f 3 c = B.f 3 c ∧ B'.f 4 c = B.f 4 c ∧ (c < ids.length + 3 → B'.f 5 c = B.f 5 c) ∧
        FullTurns (B.f 5 c / 10 ^ 7) (B'.f 5 c / 10 ^ 7) ∧
        (|Real.sin E.rotation.getRPY.y| < 99999 / 100000 → |Real.sin (E.rotation.getRPY.y + B.f 4 c / 10 ^ 7)| < 99999 / 100000 →
          B'.f 5 c = B.f 5 c)) ∧
      (E'.rotation = E.rotation → c < ids.length + 3 → ∀ r, B'.f r c = B.f r c) ∧
      (rt = .xyzw → E'.rotation = E.rotation.neg → c < ids.length + 3 → ∀ r, 3 ≤ r → B'.f r c = -B.f r c) := by
  subst hB
  subst hB'
  have hSE := Reach.turned_pose ht hq hf h1 h2 hc hE hE'
  have hSB : Pose.SamePlace mk.base mk'.base := by
    rw [h1.abs.base, h2.abs.base]
    exact ht.base hq _
  have hlen := hcols.length_eq
  have hlen' := hcols'.length_eq
  have h3 : ∀ r, r < rt.dim ∨ ¬ r < rt.dim := fun r => em _
  by_cases hcl : c < ids.length
  · obtain ⟨f, f', hf1, hf2, ef, ef'⟩ : ∃ f f', IsJointCol mk rt l E ids[c] f ∧ IsJointCol mk' rt l E' ids[c] f' ∧
        cols.getD c (fun _ => 0) = f ∧ cols'.getD c (fun _ => 0) = f' := by
      refine ⟨cols[c]'(by omega), cols'[c]'(by omega), ?_, ?_, ?_, ?_⟩
      · exact List.Forall₂.get hcols hcl (by omega)
      · exact List.Forall₂.get hcols' hcl (by omega)
      · rw [List.getD_eq_getElem?_getD, List.getElem?_eq_getElem (by omega)]; rfl
      · rw [List.getD_eq_getElem?_getD, List.getElem?_eq_getElem (by omega)]; rfl
    obtain ⟨k1, k2, k3, k4⟩ := Reach.turned_cols ht hq hf h1 h2 hc hE hE' hf1 hf2
    have eB : ∀ r, (jacMat rt cols E (if wb then some mk.base else none)).f r c = if r < rt.dim then f r else 0 := by
      intro r
      simp only [jacMat, ← hlen, if_pos hcl, ef]
    have eB' : ∀ r, (jacMat rt cols' E' (if wb then some mk'.base else none)).f r c = if r < rt.dim then f' r else 0 := by
      intro r
      simp only [jacMat, ← hlen', if_pos hcl, ef']
    refine ⟨fun r hr => ?_, fun hrt => ?_, fun e _ r => ?_, fun hrt e _ r hr => ?_⟩
    · rw [eB, eB', k1 r hr]
    · rw [eB, eB', eB, eB', eB, eB', k2 hrt 3, k2 hrt 4, k2 hrt 5]
      exact ⟨rfl, rfl, fun _ => rfl, .refl _, fun _ _ => rfl⟩
    · rw [eB, eB', k3 e r]
    · rw [eB, eB', k4 hrt e r hr]
      split <;> simp
  · have eB : ∀ r, (jacMat rt cols E (if wb then some mk.base else none)).f r c =
        if r < rt.dim ∧ c < ids.length + 6 ∧ wb then baseCol rt E mk.base (c - ids.length) r else 0 := by
      intro r
      simp only [jacMat, ← hlen, if_neg hcl]
      cases wb <;> by_cases a : r < rt.dim <;> by_cases b : c < ids.length + 6 <;> simp [a, b]
    have eB' : ∀ r, (jacMat rt cols' E' (if wb then some mk'.base else none)).f r c =
        if r < rt.dim ∧ c < ids.length + 6 ∧ wb then baseCol rt E' mk'.base (c - ids.length) r else 0 := by
      intro r
      simp only [jacMat, ← hlen', if_neg hcl]
      cases wb <;> by_cases a : r < rt.dim <;> by_cases b : c < ids.length + 6 <;> simp [a, b]
    obtain ⟨k1, k2⟩ := baseRotCol_turned (rt := rt) hSE hSB (c - ids.length - 3)
    by_cases hc3 : c - ids.length < 3
    · have e : ∀ r, baseCol rt E' mk'.base (c - ids.length) r = baseCol rt E mk.base (c - ids.length) r := by
        intro r
        simp only [baseCol, if_pos hc3]
      refine ⟨fun r hr => ?_, fun hrt => ?_, fun _ _ r => ?_, fun hrt _ _ r hr => ?_⟩
      · rw [eB, eB', e]
      · rw [eB, eB', eB, eB', eB, eB', e, e, e]
        exact ⟨rfl, rfl, fun _ => rfl, .refl _, fun _ _ => rfl⟩
      · rw [eB, eB', e]
      · rw [eB, eB', e]
        simp only [baseCol, if_pos hc3]
        rw [if_neg (show ¬ r = c - ids.length by omega)]
        simp
    · have e : baseCol rt E mk.base (c - ids.length) = baseRotCol rt E mk.base (c - ids.length - 3) := by
        funext r
        simp only [baseCol, if_neg hc3]
      have e' : baseCol rt E' mk'.base (c - ids.length) = baseRotCol rt E' mk'.base (c - ids.length - 3) := by
        funext r
        simp only [baseCol, if_neg hc3]
      refine ⟨fun r hr => ?_, fun hrt => ?_, fun _ hh => by omega, fun _ _ hh => by omega⟩
      · rw [eB, eB', e, e', k1 r hr]
      · obtain ⟨j1, j2, j3, j4⟩ := k2 hrt
        subst hrt
        simp only [eB, eB', e, e']
        by_cases hw : c < ids.length + 6 ∧ wb
        · simp only [hw, and_self, and_true, if_pos (show 3 < RotType.dim .rpy by decide), if_pos (show 4 < RotType.dim .rpy by decide),
            if_pos (show 5 < RotType.dim .rpy by decide)]
          exact ⟨j1, j2, fun hh => by omega, j3, j4⟩
        · simp only [hw, and_false, if_false]
          exact ⟨trivial, trivial, fun _ => trivial, .refl _, fun _ _ => trivial⟩

theorem Reach.turned_jacobian (ht : TurnedConfig js m0 ids bt q q') (hq : q.length = ids.length + bt.dof) (hf : Shallow ls js m0 cs)
    (hne : (∃ r ∈ ls, r.inertial.isSome) ∨ weldsAfter (names0 m0) cs ≠ [])
    (h1 : Reach ls js m0 (cs ++ configCalls ids bt q) mk) (h2 : Reach ls js m0 (cs ++ configCalls ids bt q') mk')
    (hc : Reach ls js m0 cs mc) {l : Nat} (hl : l < mc.links.length) (hi : ∀ i ∈ ids, i < m0.joints.length) {B B' : Mat ℝ}
    (e1 : getJacobian l ids rt wb mk = .ok B m1) (e2 : getJacobian l ids rt wb mk' = .ok B' m2) :
    ∃ E E' n1 n2, getLinkPose l mk = .ok E n1 ∧ getLinkPose l mk' = .ok E' n2 ∧
    ∀ c, (∀ r < 3, B'.f r c = B.f r c) ∧
      (rt = .rpy → B'.f 3 c = B.f 3 c ∧ B'.f 4 c = B.f 4 c ∧ (c < ids.length + 3 → B'.f 5 c = B.f 5 c) ∧
        FullTurns (B.f 5 c / 10 ^ 7) (B'.f 5 c / 10 ^ 7) ∧
        (|Real.sin E.rotation.getRPY.y| < 99999 / 100000 → |Real.sin (E.rotation.getRPY.y + B.f 4 c / 10 ^ 7)| < 99999 / 100000 →
          B'.f 5 c = B.f 5 c)) ∧
      (E'.rotation = E.rotation → c < ids.length + 3 → ∀ r, B'.f r c = B.f r c) ∧
      (rt = .xyzw → E'.rotation = E.rotation.neg → c < ids.length + 3 → ∀ r, 3 ≤ r → B'.f r c = -B.f r c) := by
  have s1 := configCalls_isSet ids bt q
  have s2 := configCalls_isSet ids bt q'
  obtain ⟨E, cols, hE, hcols, x1, x2, _⟩ := h1.jacobian (hf.sets s1) (by rw [welds_sets _ s1]; exact hne) (l := l)
    (by obtain ⟨_, _, _, rfl⟩ := h1.sets_eq hc s1; exact hl) (ids := ids) (by rw [h1.abs.joints]; exact hi) rt wb
  obtain ⟨E', cols', hE', hcols', y1, y2, _⟩ := h2.jacobian (hf.sets s2) (by rw [welds_sets _ s2]; exact hne) (l := l)
    (by obtain ⟨_, _, _, rfl⟩ := h2.sets_eq hc s2; exact hl) (ids := ids) (by rw [h2.abs.joints]; exact hi) rt wb
  rw [e1] at x2
  rw [e2] at y2
  cases x2
  cases y2
  obtain ⟨n1, r1, _⟩ := (Query.getLinkPose hE).run (h1.ready (hf.sets s1))
  obtain ⟨n2, r2, _⟩ := (Query.getLinkPose hE').run (h2.ready (hf.sets s2))
  refine ⟨E, E', n1, n2, r1, r2, fun c => ?_⟩
  exact Reach.turned_mat ht hq hf h1 h2 hc hE hE' hcols hcols' rfl rfl c

/-- **C123.** Full turns of joints and base angles do not change the Jacobian of `solve_fk`: the position rows are the
same in every column, those of the base included; the roll-pitch-yaw rows are the same (the yaw row of a base angle
column away from the singularity, else up to multiples of `2π` of the difference that is divided by the step); the quaternion rows of joints and base position
have the sign of the returned quaternion. (For the quaternion rows of base angle columns see C119.) -/
theorem C123_solve_fk (hr : PyReach ls js m0 h cs s) (hf : Shallow ls js m0 cs) {qs qs' : QArg ℝ}
    (hc : c0.Fits s.robot.links.length) (ha : FkArgs m0 s qs es ids bt) (ha' : FkArgs m0 s qs' es ids bt)
    (huc : bt ≠ .fixed ∨ uc = false)
    (hne : (∃ r ∈ ls, r.inertial.isSome) ∨ weldsAfter (names0 m0) cs ≠ []) :
    ∃ P J s1 P' J' s2, pySolveFk qs es ids rt bt true uc (s.withCache c0) = .ok (P, J) s1 ∧
      pySolveFk qs' es ids rt bt true uc (s.withCache c0) = .ok (P', J') s2 ∧
      ∀ (k j : Nat) (q q' : List ℝ), qs.rows[k]? = some q → qs'.rows[k]? = some q' → j < es.length →
        TurnedConfig js m0 ids bt q q' →
        (∀ c < ids.length + bt.dof, ∀ r < 3,
          J'.f ((k * es.length + j) * rt.width + r) c = J.f ((k * es.length + j) * rt.width + r) c) ∧
        (rt = .rpy → ∀ c < ids.length + bt.dof,
          J'.f ((k * es.length + j) * 6 + 3) c = J.f ((k * es.length + j) * 6 + 3) c ∧
          J'.f ((k * es.length + j) * 6 + 4) c = J.f ((k * es.length + j) * 6 + 4) c ∧
          (¬ IsBaseAngleCol ids.length bt c → J'.f ((k * es.length + j) * 6 + 5) c = J.f ((k * es.length + j) * 6 + 5) c) ∧
          FullTurns (J.f ((k * es.length + j) * 6 + 5) c / 10 ^ 7) (J'.f ((k * es.length + j) * 6 + 5) c / 10 ^ 7) ∧
          (|Real.sin (P.f (k * es.length + j) 4)| < 99999 / 100000 →
            |Real.sin (P.f (k * es.length + j) 4 + J.f ((k * es.length + j) * 6 + 4) c / 10 ^ 7)| < 99999 / 100000 →
            J'.f ((k * es.length + j) * 6 + 5) c = J.f ((k * es.length + j) * 6 + 5) c)) ∧
        (rt = .xyzw → ∃ ε : ℝ, (ε = 1 ∨ ε = -1) ∧ ∀ r, 3 ≤ r → r < 7 →
          P'.f (k * es.length + j) r = ε * P.f (k * es.length + j) r ∧
          ∀ c < ids.length + bt.dof, ¬ IsBaseAngleCol ids.length bt c →
            J'.f ((k * es.length + j) * 7 + r) c = ε * J.f ((k * es.length + j) * 7 + r) c) := by
  obtain ⟨mc, hat⟩ := hr.at
  obtain ⟨P, J, s1, _, e, _, hres⟩ := (hat.withCache hc).pySolveFk (rt := rt) (wj := true) (uc := uc)
    (qs := qs) (es := es) hf ⟨ha.notFlat, ha.nonempty, ha.shape, ha.joints, ha.links⟩ huc (fun _ => hne)
  obtain ⟨P', J', s2, _, e', _, hres'⟩ := (hat.withCache hc).pySolveFk (rt := rt) (wj := true) (uc := uc)
    (qs := qs') (es := es) hf ⟨ha'.notFlat, ha'.nonempty, ha'.shape, ha'.joints, ha'.links⟩ huc (fun _ => hne)
  refine ⟨P, J, s1, P', J', s2, e, e', ?_⟩
  intro k j q q' hk hk' hj ht
  have hjl : es[j]? = some es[j] := by simp [hj]
  have hql := ha.shape q (List.mem_of_getElem? hk)
  obtain ⟨mk, hmk⟩ := hat.reach.config ha.joints hql
  obtain ⟨mk', hmk'⟩ := hat.reach.config ha.joints (ha'.shape q' (List.mem_of_getElem? hk'))
  have hll := lt_of_lt_of_eq (ha.links es[j] (by simp)) (congrArg List.length hat.links)
  obtain ⟨T, m1, eT, hrow⟩ := hres.pose k j _ q mk hk hjl hmk
  obtain ⟨T', m2, eT', hrow'⟩ := hres'.pose k j _ q' mk' hk' hjl hmk'
  obtain ⟨B, n1, eB, b1, b2, b3⟩ := hres.jac rfl k j _ q mk hk hjl hmk
  obtain ⟨B', n2, eB', b1', b2', b3'⟩ := hres'.jac rfl k j _ q' mk' hk' hjl hmk'
  obtain ⟨E, E', _, _, r1, r2, hJ⟩ := Reach.turned_jacobian ht hql hf hne hmk hmk' hat.reach hll ha.joints eB eB'
  rw [eT] at r1
  rw [eT'] at r2
  cases r1
  cases r2
  have hs := Reach.turned ht hql hmk hmk' hat.reach hll eT eT'
  have h3 : 3 ≤ rt.width := by cases rt <;> decide
  have hfull : ∀ c < ids.length + bt.dof, ¬ IsBaseAngleCol ids.length bt c → fullCol ids.length bt c < ids.length + 3 := by
    intro c hcl hna
    rcases not_baseAngle hcl hna with h | ⟨b, rfl, h, h'⟩
    · unfold fullCol
      split
      · rw [if_neg (by omega)]; omega
      · omega
    · unfold fullCol
      split
      · rcases h' with h' | ⟨_, h'⟩
        · rw [if_neg (by omega)]; omega
        · cases h'
      · omega
  obtain ⟨x1, x2, x3, x4⟩ := hrow
  obtain ⟨y1, y2, y3, y4⟩ := hrow'
  refine ⟨fun c hcl r hr => ?_, ?_, ?_⟩
  · rw [b3 r (by omega) c hcl, b3' r (by omega) c hcl]
    exact (hJ _).1 r hr
  · rintro rfl c hcl
    have hw : RotType.width .rpy = 6 := rfl
    rw [hw] at b3 b3'
    obtain ⟨_, a2, _⟩ := x4
    obtain ⟨k1, k2, k3, k4, k5⟩ := (hJ (fullCol ids.length bt c)).2.1 rfl
    rw [b3 3 (by decide) c hcl, b3' 3 (by decide) c hcl, b3 4 (by decide) c hcl, b3' 4 (by decide) c hcl,
      b3 5 (by decide) c hcl, b3' 5 (by decide) c hcl, a2]
    exact ⟨k1, k2, fun hna => k3 (hfull c hcl hna), k4, k5⟩
  · rintro rfl
    have hw : RotType.width .xyzw = 7 := rfl
    rw [hw] at b3 b3'
    obtain ⟨a1, a2, a3, a4⟩ := x4
    obtain ⟨d1, d2, d3, d4⟩ := y4
    rcases hs.rot with hr' | hr'
    · refine ⟨1, .inl rfl, fun r r3 r7 => ⟨?_, fun c hcl hna => ?_⟩⟩
      · rw [one_mul]
        match r, r3, r7 with
        | 3, _, _ => rw [a1, d1, hr']
        | 4, _, _ => rw [a2, d2, hr']
        | 5, _, _ => rw [a3, d3, hr']
        | 6, _, _ => rw [a4, d4, hr']
      · rw [b3 r r7 c hcl, b3' r r7 c hcl, (hJ _).2.2.1 hr' (hfull c hcl hna) r, one_mul]
    · refine ⟨-1, .inr rfl, fun r r3 r7 => ⟨?_, fun c hcl hna => ?_⟩⟩
      · rw [neg_one_mul]
        match r, r3, r7 with
        | 3, _, _ => rw [a1, d1, hr']; rfl
        | 4, _, _ => rw [a2, d2, hr']; rfl
        | 5, _, _ => rw [a3, d3, hr']; rfl
        | 6, _, _ => rw [a4, d4, hr']; rfl
      · rw [b3 r r7 c hcl, b3' r r7 c hcl, (hJ _).2.2.2 rfl hr' (hfull c hcl hna) r r3, neg_one_mul]

/-- **C123, squared distances.** Full turns do not change the gradients, in any column. -/
theorem C123_sqdists (hr : PyReach ls js m0 h cs s) (hf : Shallow ls js m0 cs) {qs qs' : List (List ℝ)}
    (hc : c0.Fits s.robot.links.length) (ha : DistArgs m0 s qs ps ids bt) (ha' : DistArgs m0 s qs' ps ids bt)
    (huc : uc = false ∨ bt ≠ .fixed)
    (hne : (∃ r ∈ ls, r.inertial.isSome) ∨ weldsAfter (names0 m0) cs ≠ []) :
    ∃ V J s1 V' J' s2, pySqdists qs ps ids bt true uc (s.withCache c0) = .ok (V, J) s1 ∧
      pySqdists qs' ps ids bt true uc (s.withCache c0) = .ok (V', J') s2 ∧
      ∀ (k j : Nat) (q q' : List ℝ), qs[k]? = some q → qs'[k]? = some q' → j < ps.length →
        TurnedConfig js m0 ids bt q q' →
        ∀ c < ids.length + bt.dof, J'.f (k * ps.length + j) c = J.f (k * ps.length + j) c := by
  obtain ⟨mc, hat⟩ := hr.at
  obtain ⟨V, J, s1, e, hres⟩ := hr.sqdists (wj := true) hf hc ha huc (fun _ => hne)
  obtain ⟨V', J', s2, e', hres'⟩ := hr.sqdists (wj := true) hf hc ha' huc (fun _ => hne)
  refine ⟨V, J, s1, V', J', s2, e, e', ?_⟩
  intro k j q q' hk hk' hj ht c hcl
  have hjl : ps[j]? = some ps[j] := by simp [hj]
  have hql := ha.shape q (List.mem_of_getElem? hk)
  obtain ⟨mk, hmk⟩ := hat.reach.config ha.joints hql
  obtain ⟨mk', hmk'⟩ := hat.reach.config ha.joints (ha'.shape q' (List.mem_of_getElem? hk'))
  obtain ⟨T1, _, T2, _, B1, _, B2, _, f1, f2, f3, f4, f5⟩ := hres.grad rfl k j ps[j].1 ps[j].2 q mk hk hjl hmk
  obtain ⟨U1, _, U2, _, D1, _, D2, _, g1, g2, g3, g4, g5⟩ := hres'.grad rfl k j ps[j].1 ps[j].2 q' mk' hk' hjl hmk'
  obtain ⟨l1, l2⟩ := ha.links ps[j] (by simp)
  have hl1 := lt_of_lt_of_eq l1 (congrArg List.length hat.links)
  have hl2 := lt_of_lt_of_eq l2 (congrArg List.length hat.links)
  have w1 := Reach.turned ht hql hmk hmk' hat.reach hl1 f1 g1
  have w2 := Reach.turned ht hql hmk hmk' hat.reach hl2 f2 g2
  obtain ⟨_, _, _, _, _, _, z1⟩ := Reach.turned_jacobian ht hql hf hne hmk hmk' hat.reach hl1 ha.joints f3 g3
  obtain ⟨_, _, _, _, _, _, z2⟩ := Reach.turned_jacobian ht hql hf hne hmk hmk' hat.reach hl2 ha.joints f4 g4
  have z1 := (z1 (fullCol ids.length bt c)).1
  have z2 := (z2 (fullCol ids.length bt c)).1
  rw [f5 c hcl, g5 c hcl]
  unfold sqDistGrad
  rw [z1 0 (by decide), z1 1 (by decide), z1 2 (by decide), z2 0 (by decide), z2 1 (by decide), z2 2 (by decide), w1.pos, w2.pos]

/-- the Jacobians of the centre of mass in two configurations that differ by full turns -/
theorem Reach.turned_com (ht : TurnedConfig js m0 ids bt q q') (hq : q.length = ids.length + bt.dof) (hf : Shallow ls js m0 cs)
    (h1 : Reach ls js m0 (cs ++ configCalls ids bt q) mk) (h2 : Reach ls js m0 (cs ++ configCalls ids bt q') mk')
    (hc : Reach ls js m0 cs mc) (hi : ∀ i ∈ ids, i < m0.joints.length) {B B' : Mat ℝ}
    (e1 : getComJacobian ids wb mk = .ok B m1) (e2 : getComJacobian ids wb mk' = .ok B' m2) : B' = B := by
  have s1 := configCalls_isSet ids bt q
  have s2 := configCalls_isSet ids bt q'
  obtain ⟨xs, hxs⟩ := h1.abs.inv.exists_comJacs (ids := ids) (by rw [h1.abs.joints]; exact hi) wb mk.base
  obtain ⟨ys, hys⟩ := h2.abs.inv.exists_comJacs (ids := ids) (by rw [h2.abs.joints]; exact hi) wb mk'.base
  obtain ⟨_, f1, _⟩ := (Query.getComJacobian hxs (fun _ => h1.root_pose)).run (h1.ready (hf.sets s1))
  obtain ⟨_, f2, _⟩ := (Query.getComJacobian hys (fun _ => h2.root_pose)).run (h2.ready (hf.sets s2))
  rw [e1] at f1
  rw [e2] at f2
  cases f1
  cases f2
  have hcd : mk'.comDummy = mk.comDummy ∧ mk'.links = mk.links := by
    obtain ⟨_, _, _, hk⟩ := h1.sets_eq hc s1
    obtain ⟨_, _, _, hk'⟩ := h2.sets_eq hc s2
    rw [hk, hk']
    exact ⟨rfl, rfl⟩
  rw [hcd.1] at hys
  have hxy : List.Forall₂ (fun (x y : ℝ × Mat ℝ) => y.1 = x.1 ∧ ∀ a < 3, ∀ b, y.2.f a b = x.2.f a b) xs ys := by
    clear e1 e2
    generalize mk.comDummy = ds at hxs hys
    induction hxs generalizing ys with
    | nil => cases hys; exact .nil
    | cons u1 _ ih =>
      cases hys with
      | cons v1 v2 =>
        refine .cons ?_ (ih _ v2)
        obtain ⟨lk, inr, E, cols, g1, g2, g3, g4, g5, g6, g7⟩ := u1
        obtain ⟨lk', inr', E', cols', k1, k2, k3, k4, k5, k6, k7⟩ := v1
        rw [hcd.2, g1] at k1
        cases k1
        rw [g3] at k3
        cases k3
        exact ⟨by rw [← g4, ← k4], fun a ha b => (Reach.turned_mat ht hq hf h1 h2 hc g5 k5 g6 k6 g7 k7 b).1 a ha⟩
  unfold comJacVal
  congr 1
  funext a b
  by_cases hab : a < 3
  · rw [foldl_congr₂ (f := fun x => x.1 * x.2.f a b) (fun x y hxy => by rw [hxy.1, hxy.2 a hab b]) hxy,
      foldl_congr₂ (f := fun x : ℝ × Mat ℝ => x.1) (fun x y hxy => hxy.1) hxy]
  · simp only [hab, false_and, if_false]

/-- **C123, centre of mass.** Full turns do not change the Jacobian of the centre of mass, action forces included, in any column.
(With a base, or for one configuration right after `clear_cache`, as in C05.) -/
theorem C123_solve_com_fk {qs qs' : QArg ℝ} {act : Option (List Nat × List ℝ)} {s' : PyModel ℝ}
    (hr : PyReach ls js m0 h cs s) (hf : Shallow ls js m0 cs)
    (ha : ComArgs m0 s qs ids (act.getD ([], [])).1 (act.getD ([], [])).2 bt)
    (ha' : ComArgs m0 s qs' ids (act.getD ([], [])).1 (act.getD ([], [])).2 bt)
    (hc : (bt ≠ .fixed ∧ s' = s) ∨ (pyClearCache s = .ok () s' ∧ qs.rows.length = 1 ∧ qs'.rows.length = 1))
    (hne : act ≠ none → (∃ r ∈ ls, r.inertial.isSome) ∨ weldsAfter (names0 m0) cs ≠ []) :
    ∃ C J s1 C' J' s2, pySolveComFk qs ids act bt true s' = .ok (C, J) s1 ∧
      pySolveComFk qs' ids act bt true s' = .ok (C', J') s2 ∧
      ∀ (k : Nat) (q q' : List ℝ), qs.rows[k]? = some q → qs'.rows[k]? = some q' → TurnedConfig js m0 ids bt q q' →
        ∀ r < 3, ∀ c < ids.length + (if bt = .fixed then 0 else 6), J'.f (3 * k + r) c = J.f (3 * k + r) c := by
  obtain ⟨mc, hat⟩ := hr.at
  have key : At ls js m0 cs mc s'.robot ∧ (bt ≠ .fixed ∨ (Fresh s'.robot ∧ qs.rows.length = 1 ∧ qs'.rows.length = 1)) ∧
      s'.robot.links = s.robot.links := by
    rcases hc with ⟨h1, rfl⟩ | ⟨h1, h2⟩
    · exact ⟨hat, .inl h1, rfl⟩
    · obtain ⟨m1, e1, a1, a2, _⟩ := hat.clear
      simp only [pyClearCache, onRobot, e1] at h1
      cases h1
      refine ⟨a1, .inr ⟨a2, h2⟩, ?_⟩
      show m1.links = _
      rw [a1.links, hat.links]
  obtain ⟨hat', hc', hl⟩ := key
  obtain ⟨C, J, s1, _, e, _, hres⟩ := hat'.pySolveComFk (wj := true) hf
    ⟨ha.notFlat, ha.nonempty, ha.shape, ha.joints, by rw [hl]; exact ha.links, ha.forces⟩ (hc'.imp_right fun a => ⟨a.1, a.2.1⟩) (fun _ => hne)
  obtain ⟨C', J', s2, _, e', _, hres'⟩ := hat'.pySolveComFk (wj := true) hf
    ⟨ha'.notFlat, ha'.nonempty, ha'.shape, ha'.joints, by rw [hl]; exact ha'.links, ha'.forces⟩ (hc'.imp_right fun a => ⟨a.1, a.2.2⟩) (fun _ => hne)
  refine ⟨C, J, s1, C', J', s2, e, e', ?_⟩
  intro k q q' hk hk' ht r hr3 c hcl
  rw [← hres.jCols] at hcl
  have hql := ha.shape q (List.mem_of_getElem? hk)
  obtain ⟨mk, hmk⟩ := hat.reach.config ha.joints hql
  obtain ⟨mk', hmk'⟩ := hat.reach.config ha.joints (ha'.shape q' (List.mem_of_getElem? hk'))
  obtain ⟨B, _, Bs, b1, _, _, b2, b3⟩ := hres.jac rfl k q mk hk hmk
  obtain ⟨B', _, Bs', b1', _, _, b2', b3'⟩ := hres'.jac rfl k q' mk' hk' hmk'
  have hM : mk'.totalMass = mk.totalMass := by
    obtain ⟨_, _, _, hx⟩ := hmk.sets_eq hat.reach (configCalls_isSet ids bt q)
    obtain ⟨_, _, _, hx'⟩ := hmk'.sets_eq hat.reach (configCalls_isSet ids bt q')
    rw [hx, hx']
  have hBs : Bs'.map (fun B => B.f r c) = Bs.map (fun B => B.f r c) := by
    have hal : ∀ l ∈ (act.getD ([], [])).1, l < mc.links.length ∧ act ≠ none := by
      intro l hlm
      refine ⟨lt_of_lt_of_eq (ha.links l hlm) (congrArg List.length hat.links), ?_⟩
      rintro rfl
      simp at hlm
    generalize (act.getD ([], [])).1 = al at b2 b2' hal
    have hjs := ha.joints
    clear b3 b3' hres hres' e e' ha ha'
    induction b2 generalizing Bs' with
    | nil => cases b2'; rfl
    | cons u1 _ ih =>
      cases b2' with
      | cons v1 v2 =>
        obtain ⟨_, u1⟩ := u1
        obtain ⟨_, v1⟩ := v1
        obtain ⟨q1, q2⟩ := hal _ (List.mem_cons_self ..)
        obtain ⟨_, _, _, _, _, _, z⟩ := Reach.turned_jacobian ht hql hf (hne q2) hmk hmk' hat.reach q1 hjs u1 v1
        rw [List.map_cons, List.map_cons, ih _ v2 (fun l hl => hal l (List.mem_cons_of_mem _ hl)), (z c).1 r hr3]
  have hcols : c < J'.cols := by rw [hres'.jCols, ← hres.jCols]; exact hcl
  rw [b3 r hr3 c hcl, b3' r hr3 c hcols, hM, hBs, Reach.turned_com ht hql hf hmk hmk' hat.reach ha.joints b1 b1']

end

namespace Example

/-! ### The hypotheses are met -/

example := C123_solve_fk (rt := .rpy) (uc := true) s1_reach s1_shallow bad_fits (a1_args s1_links) (a1t_args s1_links)
  (.inl (by decide)) (.inl inertial)

example := C123_solve_fk (rt := .xyzw) (uc := true) s1_reach s1_shallow bad_fits (a1_args s1_links) (a1t_args s1_links)
  (.inl (by decide)) (.inl inertial)

example := C123_sqdists (uc := true) (qs' := a1t.rows) s1_reach s1_shallow bad_fits (distArgs s1_links)
  ⟨by simp, by simp [a1t, BaseType.dof], (distArgs s1_links).joints, (distArgs s1_links).links⟩ (.inr (by decide)) (.inl inertial)

example := C123_solve_com_fk (act := some ([3], [2])) (qs' := .nd2 a1t) s1_reach s1_shallow (comArgs_planar s1_links)
  ⟨by simp, by simp [QArg.rows, a1t], by simp [QArg.rows, a1t, BaseType.dof], (comArgs_planar s1_links).joints,
    (comArgs_planar s1_links).links, rfl⟩
  (.inl ⟨by simp, rfl⟩) (fun _ => .inl inertial)

example (k : Nat) (q q' : List ℝ) (h1 : a1.rows[k]? = some q) (h2 : a1t.rows[k]? = some q') :
    TurnedConfig js m0 [0, 1] .planer q q' := a1_turned k q q' h1 h2

end Example
end Tinyfk
