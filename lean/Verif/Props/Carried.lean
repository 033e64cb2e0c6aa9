import Verif.Spec.Carried
import Verif.Props.Lever
import Verif.Props.Inertia
import Verif.Props.ComBatchJac

/-!
# Properties: what a joint carries

C128.
-/

namespace Tinyfk

open Scalar

section
variable {ls : List (RawLink ℝ)} {js : List (RawJoint ℝ)} {m0 m : KinModel ℝ} {cs : List (Call ℝ)} {h : List (PyCall ℝ)} {s : PyModel ℝ}
  {c0 : SizedCache (Pose ℝ)} {ids : List Nat} {bt : BaseType}

/-- a joint carries the centre-of-mass link of a link when it carries the link -/
theorem Reach.com_onPath (h : Reach ls js m0 cs m) {r : RawLink ℝ} {i : Inertial ℝ} (hr : r ∈ ls) (hi : r.inertial = some i) (x : String) :
    JointOnPath js (AllWelds ls m0 cs) x (r.name ++ "_com") ↔ JointOnPath js (AllWelds ls m0 cs) x r.name := by
  have hd := h.abs.desc
  have hw : AllWelds ls m0 cs ⟨r.name ++ "_com", r.name, ⟨i.origin.position, Rot.one⟩⟩ := Or.inl (.mk hr hi)
  have hfresh := hd.weldFresh _ hw
  constructor
  · intro hj
    generalize hn : r.name ++ "_com" = n at hj
    cases hj with
    | here hj _ => exact absurd (hn ▸ hd.names _ hj) hfresh
    | up hj _ => exact absurd (hn ▸ hd.names _ hj) hfresh
    | @weld w hw' hc =>
      have := hd.weldUnique _ _ hw hw' hn
      rw [← this] at hc
      exact hc
  · intro hj
    exact .weld hw hj

open Classical in
/-- the carried bodies are defined and unique -/
theorem Reach.bodiesWhere (h : Reach ls js m0 cs m) (P : String → Prop) {θ : String → ℝ} (hθ : AnglesAfter m0 cs θ) :
    ∃ bs, ∀ bs', BodiesWhere P ls js (AllWelds ls m0 cs) θ (baseAfter Pose.identity cs) bs' ↔ bs' = bs := by
  obtain ⟨sorted, hp, hs, _⟩ := h.constructed.order
  have hbs : ∃ bs : List (Inertial ℝ × Pose ℝ), List.Forall₂ (fun r x => r.inertial = some x.1 ∧
      WorldPose ls js (AllWelds ls m0 cs) θ (baseAfter Pose.identity cs) r.name x.2)
      ((sorted.filter fun r => r.inertial.isSome).filter fun r => decide (P r.name)) bs := by
    refine forall₂_exists _ ?_
    intro r hr
    have hr := List.mem_of_mem_filter hr
    rw [List.mem_filter] at hr
    obtain ⟨T, hT⟩ := h.link_pose hθ (hp.mem_iff.mp hr.1)
    obtain ⟨i, hi⟩ := Option.isSome_iff_exists.mp hr.2
    exact ⟨(i, T), hi, (hT T).mpr rfl⟩
  obtain ⟨bs, hbs⟩ := hbs
  refine ⟨bs, fun bs' => ⟨?_, ?_⟩⟩
  · rintro ⟨sorted', hp', hs', hbs'⟩
    have e : sorted' = sorted := sorted_unique (hp'.trans hp.symm) hs' hs
    subst e
    have hmem : ∀ r ∈ (sorted'.filter fun r => r.inertial.isSome).filter (fun r => decide (P r.name)), r ∈ ls := by
      intro r hr
      exact hp.mem_iff.mp (List.mem_filter.mp (List.mem_of_mem_filter hr)).1
    clear hs hs' hp hp'
    generalize (sorted'.filter fun r => r.inertial.isSome).filter (fun r => decide (P r.name)) = l at hmem hbs hbs'
    induction hbs generalizing bs' with
    | nil => cases hbs'; rfl
    | @cons r x l bs h1 _ ih =>
      cases hbs' with
      | @cons _ y _ bs' h2 h3 =>
        rw [ih _ (fun r hr => hmem r (by simp [hr])) h3]
        obtain ⟨T, hT⟩ := h.link_pose hθ (hmem r (by simp))
        have e1 : y.1 = x.1 := by have := h2.1.symm.trans h1.1; exact Option.some.inj this
        have e2 : y.2 = x.2 := ((hT _).mp h2.2).trans ((hT _).mp h1.2).symm
        rw [Prod.ext e1 e2]
  · rintro rfl
    exact ⟨sorted, hp, hs, hbs⟩

/-- velocities add up to that of the mean -/
theorem RawJoint.moves_sum (x : RawJoint ℝ) (C : Pose ℝ) (on : List (Inertial ℝ × Pose ℝ)) (hM : massOf on ≠ 0) (a : Nat) :
    (on.map fun y => y.1.mass * (x.moves C (bodyCentre y)).coord a).sum = massOf on * (x.moves C (comOf on)).coord a := by
  have h1 : ∀ (p q α β : ℝ) (u v : Inertial ℝ × Pose ℝ → ℝ), (on.map fun y => y.1.mass * (p * (u y - α) - q * (v y - β))).sum =
      p * ((on.map fun y => y.1.mass * u y).sum - massOf on * α) - q * ((on.map fun y => y.1.mass * v y).sum - massOf on * β) := by
    intro p q α β u v
    clear hM
    unfold massOf
    induction on with
    | nil => simp
    | cons y on ih =>
      simp only [List.map_cons, List.sum_cons, ih]
      ring
  have h2 : ∀ z : ℝ, (on.map fun y => y.1.mass * z).sum = massOf on * z := by
    intro z
    clear hM h1
    unfold massOf
    induction on with
    | nil => simp
    | cons y on ih =>
      simp only [List.map_cons, List.sum_cons, ih]
      ring
  unfold RawJoint.moves
  split
  · exact h2 _
  · rw [comOf_eq]
    match a with
    | 0 =>
      simp only [Vec3.coord, Vec3.cross, Vec3.sub]
      rw [h1]
      field_simp
    | 1 =>
      simp only [Vec3.coord, Vec3.cross, Vec3.sub]
      rw [h1]
      field_simp
    | a + 2 =>
      simp only [Vec3.coord, Vec3.cross, Vec3.sub]
      rw [h1]
      field_simp

open Classical in
/-- what each body contributes to a column of the Jacobian of the centre of mass -/
theorem Reach.comJacs_column (h : Reach ls js m0 cs m) {wb : Bool} {xs : List (ℝ × Mat ℝ)}
    (hxs : List.Forall₂ (IsComJac m ids wb m.base) m.comDummy xs) {θ : String → ℝ} (hθ : AnglesAfter m0 cs θ) {k i : Nat} {x : RawJoint ℝ}
    (hk : ids[k]? = some i) (hx : x ∈ js) (hi : getJointIds [x.name] m0 = .ok [i] m0) {C : Pose ℝ}
    (hC : ∀ C', WorldPose ls js (AllWelds ls m0 cs) θ (baseAfter Pose.identity cs) x.childLinkName C' ↔ C' = C)
    {sorted : List (RawLink ℝ)} (hp : sorted.Perm ls) (hcom : List.Forall₂ (IsComOf m0) m0.comDummy (withInertial sorted)) :
    List.Forall₂ (fun r (y : ℝ × Mat ℝ) => ∃ (inr : Inertial ℝ) (T : Pose ℝ), r.inertial = some inr ∧
      WorldPose ls js (AllWelds ls m0 cs) θ (baseAfter Pose.identity cs) r.name T ∧ y.1 = inr.mass ∧
      ∀ a < 3, y.2.f a k = if JointOnPath js (AllWelds ls m0 cs) x.name r.name then (x.moves C (bodyCentre (inr, T))).coord a else 0)
      (sorted.filter fun r => r.inertial.isSome) xs := by
  have g := h.abs.inv.graph
  have h1 : List.Forall₂ (fun (r : RawLink ℝ) d => r ∈ ls ∧ ∃ inr, r.inertial = some inr ∧ IsComOf m0 d (r, inr))
      (sorted.filter fun r => r.inertial.isSome) m.comDummy := by
    rw [h.abs.coms]
    have h2 := forall₂_comp (Q := fun (r : RawLink ℝ) d => ∃ inr, r.inertial = some inr ∧ IsComOf m0 d (r, inr))
      (fun r p d (hr : p.1 = r ∧ r.inertial = some p.2) (hd : IsComOf m0 d p) => ⟨p.2, hr.2, by rw [← hr.1]; exact hd⟩)
      (withInertial_filter sorted) hcom.flip
    rw [List.forall₂_iff_get] at h2 ⊢
    refine ⟨h2.1, fun i h1 h3 => ⟨?_, h2.2 i h1 h3⟩⟩
    have := List.getElem_mem (l := sorted.filter fun r => r.inertial.isSome) h1
    exact hp.mem_iff.mp (List.mem_filter.mp this).1
  refine forall₂_comp ?_ h1 hxs
  rintro r d ⟨M, B⟩ ⟨hr, inr, hinr, lk0, k1, k2, k3⟩ ⟨lk, inr', E, cols, g1, _, g3, g4, g5, g6, g7⟩
  simp only at k2 k3 g4 g7
  obtain ⟨T, hT⟩ := h.link_pose hθ hr
  obtain ⟨lk', q1, q2, q3, _⟩ := h.abs.old d lk0 k1
  rw [g1] at q1
  cases q1
  rw [g3, k3] at q3
  cases q3
  have hn : getLinkIds [r.name ++ "_com"] m = .ok [d] m := getLinkIds_one.mpr ((g.linkNames _ _).mpr ⟨lk, g1, q2.trans k2⟩)
  have hE : E = Pose.transform T ⟨inr.origin.position, Rot.one⟩ := by
    refine g5.unique ((h.worldPose_iff hθ hn _).mpr ?_)
    exact WorldPose.weld (w := ⟨r.name ++ "_com", r.name, ⟨inr.origin.position, Rot.one⟩⟩) (Or.inl (.mk hr hinr)) ((hT T).mpr rfl)
  refine ⟨inr, T, hinr, (hT T).mpr rfl, g4.symm, fun a ha => ?_⟩
  obtain ⟨hk1, hk2⟩ := List.getElem?_eq_some_iff.mp hk
  have hkl : k < cols.length := by rw [← g6.length_eq]; exact hk1
  have hcol := (List.forall₂_iff_get.mp g6).2 k hk1 hkl
  simp only [List.get_eq_getElem, hk2] at hcol
  have hent : B.f a k = cols[k] a := by
    rw [g7]
    simp [jacMat, hkl, show a < RotType.dim .ignore from ha]
  obtain ⟨z1, z2⟩ := h.column_world (.inl ⟨r, hr, by rw [hinr]; rfl⟩) hx hi hn hcol hθ
  rw [h.com_onPath hr hinr] at z1 z2
  show B.f a k = _
  rw [hent]
  split
  · rename_i hon
    obtain ⟨j, C', t1, x1, _, w1, e⟩ := z2 hon
    obtain rfl := (hC C').mp w1
    rw [e, hE]
    unfold RawJoint.moves bodyCentre
    match a, ha with
    | 0, _ => simp only [jointCol, t1, x1, Vec3.coord]
    | 1, _ => simp only [jointCol, t1, x1, Vec3.coord]
    | 2, _ => simp only [jointCol, t1, x1, Vec3.coord]
  · rename_i hoff
    rw [z1 hoff]

/-- **C128.** The column of a joint in the Jacobian of the centre of mass: what the joint carries moves, the rest does not. The column is the
share of the carried mass in the total mass, times the velocity of the centre of mass of what is carried. -/
theorem C128_com_column (h : Reach ls js m0 cs m) (hf : Shallow ls js m0 cs) (hids : ∀ i ∈ ids, i < m.joints.length) (wb : Bool)
    {θ : String → ℝ} (hθ : AnglesAfter m0 cs θ) :
    ∃ J m', getComJacobian ids wb m = .ok J m' ∧ ∀ (k i : Nat) (x : RawJoint ℝ), ids[k]? = some i → x ∈ js →
      getJointIds [x.name] m0 = .ok [i] m0 →
      ∃ bs on C, (∀ bs', Bodies ls js (AllWelds ls m0 cs) θ (baseAfter Pose.identity cs) bs' ↔ bs' = bs) ∧
        (∀ on', BodiesWhere (JointOnPath js (AllWelds ls m0 cs) x.name) ls js (AllWelds ls m0 cs) θ (baseAfter Pose.identity cs) on' ↔ on' = on) ∧
        (∀ C', WorldPose ls js (AllWelds ls m0 cs) θ (baseAfter Pose.identity cs) x.childLinkName C' ↔ C' = C) ∧
        (on = [] → ∀ a < 3, J.f a k = 0) ∧
        (massOf on ≠ 0 → ∀ a < 3, J.f a k = massOf on / massOf bs * (x.moves C (comOf on)).coord a) := by
  classical
  obtain ⟨xs, hxs⟩ := h.abs.inv.exists_comJacs (ids := ids) hids wb m.base
  obtain ⟨m', e, _⟩ := (Query.getComJacobian hxs (fun _ => h.root_pose)).run (h.ready hf)
  refine ⟨_, m', e, fun k i x hk hx hi => ?_⟩
  obtain ⟨bs, hbs, hpt⟩ := h.bodies hθ
  obtain ⟨on, hon⟩ := h.bodiesWhere (JointOnPath js (AllWelds ls m0 cs) x.name) hθ
  obtain ⟨rc, hrc, hrn⟩ := List.mem_map.mp (h.abs.desc.names x hx)
  obtain ⟨C, hC⟩ := h.link_pose hθ hrc
  rw [hrn] at hC
  refine ⟨bs, on, C, hbs, hon, hC, ?_⟩
  obtain ⟨sorted, hp, hs, _, hcom, _⟩ := h.constructed.order
  have hcols := h.comJacs_column hxs hθ hk hx hi hC hp hcom
  obtain ⟨sorted1, hp1, hs1, hb1⟩ := (hbs bs).mpr rfl
  obtain rfl := sorted_unique (hp1.trans hp.symm) hs1 hs
  obtain ⟨sorted2, hp2, hs2, hb2⟩ := (hon on).mpr rfl
  obtain rfl := sorted_unique (hp2.trans hp1.symm) hs2 hs1
  have hmem : ∀ r ∈ sorted2.filter (fun r => r.inertial.isSome), r ∈ ls := by
    intro r hr
    exact hp.mem_iff.mp (List.mem_filter.mp hr).1
  have key : (xs.map fun y => y.1).sum = massOf bs ∧ ∀ a < 3, (xs.map fun y => y.1 * y.2.f a k).sum =
      (on.map fun y => y.1.mass * (x.moves C (bodyCentre y)).coord a).sum := by
    clear hpt hbs hon e hxs hcom hs hp hp1 hp2 hs1 hs2
    generalize sorted2.filter (fun r => r.inertial.isSome) = l at hmem hb1 hb2 hcols
    unfold massOf
    induction hcols generalizing bs on with
    | nil =>
      cases hb1
      simp only [List.filter_nil, List.forall₂_nil_left_iff] at hb2
      subst hb2
      simp
    | @cons r y l xs h1 _ ih =>
      cases hb1 with
      | @cons _ z _ bs' u1 u2 =>
        obtain ⟨inr, T, w1, w2, w3, w4⟩ := h1
        obtain ⟨T', hT'⟩ := h.link_pose hθ (hmem r (by simp))
        have e1 : z.1 = inr := Option.some.inj (u1.1.symm.trans w1)
        by_cases ho : JointOnPath js (AllWelds ls m0 cs) x.name r.name
        · rw [List.filter_cons_of_pos (by simpa using ho)] at hb2
          cases hb2 with
          | @cons _ v _ on' v1 v2 =>
            obtain ⟨i1, i2⟩ := ih bs' on' (fun r hr => hmem r (by simp [hr])) u2 v2
            have f1 : v.1 = inr := Option.some.inj (v1.1.symm.trans w1)
            have f2 : v.2 = T := ((hT' _).mp v1.2).trans ((hT' _).mp w2).symm
            have f3 : v = (inr, T) := Prod.ext f1 f2
            refine ⟨by simp only [List.map_cons, List.sum_cons, i1, e1, w3], fun a ha => ?_⟩
            simp only [List.map_cons, List.sum_cons, i2 a ha, w3, w4 a ha, if_pos ho, f3]
        · rw [List.filter_cons_of_neg (by simpa using ho)] at hb2
          obtain ⟨i1, i2⟩ := ih bs' on (fun r hr => hmem r (by simp [hr])) u2 hb2
          refine ⟨by simp only [List.map_cons, List.sum_cons, i1, e1, w3], fun a ha => ?_⟩
          simp only [List.map_cons, List.sum_cons, i2 a ha, w4 a ha, if_neg ho, mul_zero, zero_add]
  have hkl := (List.getElem?_eq_some_iff.mp hk).1
  have hval : ∀ a < 3, (comJacVal (ids.length + if wb then 6 else 0) xs).f a k =
      (on.map fun y => y.1.mass * (x.moves C (bodyCentre y)).coord a).sum / massOf bs := by
    intro a ha
    simp only [comJacVal]
    rw [if_pos ⟨ha, by omega⟩, foldl_add_sum, foldl_add_sum, zero_add, zero_add, key.1, key.2 a ha]
  refine ⟨fun ho a ha => ?_, fun hM a ha => ?_⟩
  · rw [hval a ha, ho]
    simp
  · rw [hval a ha, x.moves_sum C on hM a]
    ring

/-- **C128**, the Jacobians of `solve_com_fk` without action forces. -/
theorem C128_solve_com_fk {qs : QArg ℝ} {s' : PyModel ℝ} (hr : PyReach ls js m0 h cs s) (hf : Shallow ls js m0 cs)
    (ha : ComArgs m0 s qs ids [] [] bt) (hc : (bt ≠ .fixed ∧ s' = s) ∨ (pyClearCache s = .ok () s' ∧ qs.rows.length = 1)) :
    ∃ M J s'', pySolveComFk qs ids none bt true s' = .ok (M, J) s'' ∧
      ∀ (k c i : Nat) (q : List ℝ) (x : RawJoint ℝ) (θ : String → ℝ), qs.rows[k]? = some q → ids[c]? = some i → x ∈ js →
        getJointIds [x.name] m0 = .ok [i] m0 → AnglesAfter m0 (cs ++ configCalls ids bt q) θ →
        ∃ bs on C, (∀ bs', Bodies ls js (AllWelds ls m0 cs) θ (baseAfter Pose.identity (cs ++ configCalls ids bt q)) bs' ↔ bs' = bs) ∧
          (∀ on', BodiesWhere (JointOnPath js (AllWelds ls m0 cs) x.name) ls js (AllWelds ls m0 cs) θ
            (baseAfter Pose.identity (cs ++ configCalls ids bt q)) on' ↔ on' = on) ∧
          (∀ C', WorldPose ls js (AllWelds ls m0 cs) θ (baseAfter Pose.identity (cs ++ configCalls ids bt q)) x.childLinkName C' ↔ C' = C) ∧
          (on = [] → ∀ a < 3, J.f (3 * k + a) c = 0) ∧
          (massOf on ≠ 0 → ∀ a < 3, J.f (3 * k + a) c = massOf on / massOf bs * (x.moves C (comOf on)).coord a) := by
  obtain ⟨mc, hat⟩ := hr.at
  have key : At ls js m0 cs mc s'.robot ∧ (bt ≠ .fixed ∨ (Fresh s'.robot ∧ qs.rows.length = 1)) ∧
      s'.robot.links = s.robot.links := by
    rcases hc with ⟨h1, rfl⟩ | ⟨h1, h2⟩
    · exact ⟨hat, .inl h1, rfl⟩
    · obtain ⟨m1, e1, a1, a2, _⟩ := hat.clear
      simp only [pyClearCache, onRobot, e1] at h1
      cases h1
      refine ⟨a1, .inr ⟨a2, h2⟩, ?_⟩
      show m1.links = _
      rw [a1.links, hat.links]
  obtain ⟨hat', hc', hl⟩ := key
  obtain ⟨C, J, s'', mc', e, _, hres⟩ := hat'.pySolveComFk (act := none) (wj := true) hf
    ⟨ha.notFlat, ha.nonempty, ha.shape, ha.joints, by rw [hl]; exact ha.links, ha.forces⟩ hc' (fun _ h => absurd rfl h)
  refine ⟨C, J, s'', e, ?_⟩
  intro k c i q x θ hk hci hx hi hθ
  have hql := ha.shape q (List.mem_of_getElem? hk)
  obtain ⟨mk, hmk⟩ := hat.reach.config ha.joints hql
  have hset := configCalls_isSet ids bt q
  obtain ⟨B, mk', Bs, eB, _, hBc, hBs, hJ⟩ := hres.jac rfl k q mk hk hmk
  obtain ⟨B', m', e', hcol⟩ := C128_com_column hmk (hf.sets hset) (ids := ids) (by rw [hmk.abs.joints]; exact ha.joints) (bt != .fixed) hθ
  rw [eB] at e'
  cases e'
  have hcl := (List.getElem?_eq_some_iff.mp hci).1
  have hent : ∀ a < 3, J.f (3 * k + a) c = B.f a c := by
    intro a ha3
    rw [hJ a ha3 c (by rw [hres.jCols]; omega)]
    cases hBs
    simp [actionMean]
  obtain ⟨bs, on, C, h1, h2, h3, h4, h5⟩ := hcol c i x hci hx hi
  rw [allWelds_sets hset] at h1 h2 h3
  refine ⟨bs, on, C, h1, h2, h3, fun ho a ha3 => ?_, fun hM a ha3 => ?_⟩
  · rw [hent a ha3]; exact h4 ho a ha3
  · rw [hent a ha3]; exact h5 hM a ha3

end

namespace Example

/-! ### The hypotheses are met -/

example := C128_com_column m1_reach shallow two_joints true angles_m1
example (sc : PyModel ℝ) (hc : pyClearCache s0 = .ok () sc) := C128_solve_com_fk s0_reach s0_shallow (comArgs_a s0 1) (.inr ⟨hc, by simp [qa, QArg.rows]⟩)

/-- both masses of the robot, of "arm" and of "tip", are carried by "turn" -/
example (θ : String → ℝ) (b : Pose ℝ) (bs : List (Inertial ℝ × Pose ℝ)) (W : Weld ℝ → Prop) (h : Bodies ls js W θ b bs) :
    BodiesWhere (JointOnPath js W turn.name) ls js W θ b bs := by
  classical
  obtain ⟨sorted, hp, hs, hb⟩ := h
  refine ⟨sorted, hp, hs, ?_⟩
  rw [List.filter_eq_self.mpr ?_]
  · exact hb
  · intro r hr
    obtain ⟨hr, hri⟩ := List.mem_filter.mp hr
    have := hp.mem_iff.mp hr
    simp only [ls, List.mem_cons, List.not_mem_nil, or_false] at this
    rw [decide_eq_true_iff]
    rcases this with rfl | rfl | rfl | rfl
    all_goals first
      | exact turn_arm W
      | exact turn_tip W
      | simp at hri

end Example

end Tinyfk
