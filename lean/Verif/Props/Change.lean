import Verif.Proofs.Change
import Verif.Props.Turns

/-!
# Properties: how far the answers move when the configuration changes

C110.
-/

namespace Tinyfk

open Scalar Quaternion

section
variable {ls : List (RawLink ℝ)} {js : List (RawJoint ℝ)} {m0 mc mk mk' : KinModel ℝ} {cs : List (Call ℝ)}
  {h : List (PyCall ℝ)} {s : PyModel ℝ} {es ids : List Nat} {ps : List (Nat × Nat)}
  {bt : BaseType} {rt : RotType} {wj uc : Bool} {c0 : SizedCache (Pose ℝ)} {q q' : List ℝ}

/-- the change of the base between two configurations -/
theorem base_change (hq : q.length = ids.length + bt.dof) (hq' : q'.length = ids.length + bt.dof) (b : Pose ℝ) :
    Rot.dist (baseAfter b (cs ++ configCalls ids bt q')).rotation (baseAfter b (cs ++ configCalls ids bt q)).rotation ≤
      baseTurn ids.length bt q q' / 2 ∧
    Vec3.dist (baseAfter b (cs ++ configCalls ids bt q')).position (baseAfter b (cs ++ configCalls ids bt q)).position ≤
      baseShift ids.length bt q q' := by
  rw [baseAfter_append, baseAfter_append, baseAfter_config, baseAfter_config]
  have l1 : (q.drop ids.length).length = bt.dof := by simp [hq]
  have l2 : (q'.drop ids.length).length = bt.dof := by simp [hq']
  unfold basePart baseTurn baseShift
  generalize q.drop ids.length = u at *
  generalize q'.drop ids.length = u' at *
  cases bt with
  | fixed =>
    simp only [Option.getD_none, Rot.dist_self, Vec3.dist_self]
    norm_num
  | planer =>
    obtain ⟨x, y, w, rfl⟩ := List.length_eq_three.mp l1
    obtain ⟨x', y', w', rfl⟩ := List.length_eq_three.mp l2
    refine ⟨(Rot.dist_fromRPY _ _ _ _ _ _).trans ?_, le_rfl⟩
    simp
  | floating =>
    match u, u', l1, l2 with
    | [x, y, z, r, p, w], [x', y', z', r', p', w'], _, _ => exact ⟨Rot.dist_fromRPY _ _ _ _ _ _, le_rfl⟩

/-- how far a link is from where it was: at most the shift of the base, plus the turns of the base and of the joints on
the way to the link times the length of this way, plus what the joints on the way slide -/
def MovesAtMost (ls : List (RawLink ℝ)) (js : List (RawJoint ℝ)) (welds : Weld ℝ → Prop) (θ θ' : String → ℝ) (β ρ : ℝ) (n : String)
    (M : ℝ) : Prop :=
  ∃ τ σ L, PathChange ls js welds θ θ' n τ σ L ∧ M = ρ + (β + τ) * L + σ

/-- **C110.** Answers of `solve_fk` for different configurations (in the same batch or in two batches) differ by no more than
the configurations allow: on the path from the root to the link let the turning joints turn by `τ` and the sliding joints slide by
`σ` in all, and let its length be `L`. Then the returned positions are at most
`baseShift + (baseTurn + τ) * L + σ` apart, and the returned quaternions at most `(baseTurn + τ) / 2`. In particular
small changes of a configuration have small effects. -/
theorem C110_solve_fk (hr : PyReach ls js m0 h cs s) (hf : Shallow ls js m0 cs) (hu : UnitDesc js) {qs qs' : QArg ℝ}
    (hc : c0.Fits s.robot.links.length) (ha : FkArgs m0 s qs es ids bt) (ha' : FkArgs m0 s qs' es ids bt)
    (huc : bt ≠ .fixed ∨ uc = false)
    (hne : wj = true → (∃ r ∈ ls, r.inertial.isSome) ∨ weldsAfter (names0 m0) cs ≠ []) :
    ∃ P J s1 P' J' s2, pySolveFk qs es ids rt bt wj uc (s.withCache c0) = .ok (P, J) s1 ∧
      pySolveFk qs' es ids rt bt wj uc (s.withCache c0) = .ok (P', J') s2 ∧
      ∀ (k k' j l : Nat) (q q' : List ℝ) (n : String) (θ θ' : String → ℝ), qs.rows[k]? = some q → qs'.rows[k']? = some q' →
        es[j]? = some l → getLinkIds [n] s.robot = .ok [l] s.robot → AnglesAfter m0 (cs ++ configCalls ids bt q) θ →
        AnglesAfter m0 (cs ++ configCalls ids bt q') θ' →
        ∃ τ σ L, PathChange ls js (AllWelds ls m0 cs) θ θ' n τ σ L ∧
          Vec3.dist ⟨P'.f (k' * es.length + j) 0, P'.f (k' * es.length + j) 1, P'.f (k' * es.length + j) 2⟩
              ⟨P.f (k * es.length + j) 0, P.f (k * es.length + j) 1, P.f (k * es.length + j) 2⟩ ≤
            baseShift ids.length bt q q' + (baseTurn ids.length bt q q' + τ) * L + σ ∧
          (rt = .xyzw → Rot.dist ⟨P'.f (k' * es.length + j) 3, P'.f (k' * es.length + j) 4, P'.f (k' * es.length + j) 5,
                P'.f (k' * es.length + j) 6⟩
              ⟨P.f (k * es.length + j) 3, P.f (k * es.length + j) 4, P.f (k * es.length + j) 5, P.f (k * es.length + j) 6⟩ ≤
            (baseTurn ids.length bt q q' + τ) / 2) := by
  obtain ⟨mc, hat⟩ := hr.at
  obtain ⟨P, J, s1, _, e, _, hres⟩ := (hat.withCache hc).pySolveFk (rt := rt) (wj := wj) (uc := uc)
    (qs := qs) (es := es) hf ⟨ha.notFlat, ha.nonempty, ha.shape, ha.joints, ha.links⟩ huc hne
  obtain ⟨P', J', s2, _, e', _, hres'⟩ := (hat.withCache hc).pySolveFk (rt := rt) (wj := wj) (uc := uc)
    (qs := qs') (es := es) hf ⟨ha'.notFlat, ha'.nonempty, ha'.shape, ha'.joints, ha'.links⟩ huc hne
  refine ⟨P, J, s1, P', J', s2, e, e', ?_⟩
  intro k k' j l q q' n θ θ' hk hk' hj hn hθ hθ'
  obtain ⟨T, hT, hrow⟩ := hres.world hat ha.shape ha.joints k j l q n θ hk hj hn hθ
  obtain ⟨T', hT', hrow'⟩ := hres'.world hat ha'.shape ha'.joints k' j l q' n θ' hk' hj hn hθ'
  obtain ⟨b1, b2⟩ := base_change (cs := cs) (ha.shape q (List.mem_of_getElem? hk)) (ha'.shape q' (List.mem_of_getElem? hk')) Pose.identity
  obtain ⟨U, τ, σ, L, w1, w2, w3, w4, _, _⟩ := ((hT T).mpr rfl).change hu (fun w hw => hr.unitCalls.allWelds hw)
    ((hr.unitCalls.append (configCalls_unit ids bt q)).base Rot.norm2_one)
    ((hr.unitCalls.append (configCalls_unit ids bt q')).base Rot.norm2_one) b1 b2 (θ' := θ')
  rw [(hT' U).mp w1] at w3 w4
  obtain ⟨x1, x2, x3, x4⟩ := hrow
  obtain ⟨y1, y2, y3, y4⟩ := hrow'
  refine ⟨τ, σ, L, w2, ?_, ?_⟩
  · rw [x1, x2, x3, y1, y2, y3]
    exact w4
  · rintro rfl
    obtain ⟨a1, a2, a3, a4⟩ := x4
    obtain ⟨c1, c2, c3, c4⟩ := y4
    rw [a1, a2, a3, a4, c1, c2, c3, c4]
    exact w3

theorem sqrt_sqDist (a b : Vec3 ℝ) : √(sqDist a b) = Vec3.dist a b := by
  unfold sqDist Vec3.dist
  congr 1
  ring

/-- **C110, distances.** The distances between two links (square roots of what `compute_inter_link_sqdists` returns) for two
configurations differ by no more than the two links can move. -/
theorem C110_sqdists (hr : PyReach ls js m0 h cs s) (hf : Shallow ls js m0 cs) (hu : UnitDesc js) {qs qs' : List (List ℝ)}
    (hc : c0.Fits s.robot.links.length) (ha : DistArgs m0 s qs ps ids bt) (ha' : DistArgs m0 s qs' ps ids bt)
    (huc : uc = false ∨ bt ≠ .fixed)
    (hne : wj = true → (∃ r ∈ ls, r.inertial.isSome) ∨ weldsAfter (names0 m0) cs ≠ []) :
    ∃ V J s1 V' J' s2, pySqdists qs ps ids bt wj uc (s.withCache c0) = .ok (V, J) s1 ∧
      pySqdists qs' ps ids bt wj uc (s.withCache c0) = .ok (V', J') s2 ∧
      ∀ (k k' j l1 l2 : Nat) (q q' : List ℝ) (n1 n2 : String) (θ θ' : String → ℝ), qs[k]? = some q → qs'[k']? = some q' →
        ps[j]? = some (l1, l2) → getLinkIds [n1] s.robot = .ok [l1] s.robot → getLinkIds [n2] s.robot = .ok [l2] s.robot →
        AnglesAfter m0 (cs ++ configCalls ids bt q) θ → AnglesAfter m0 (cs ++ configCalls ids bt q') θ' →
        ∃ M1 M2, MovesAtMost ls js (AllWelds ls m0 cs) θ θ' (baseTurn ids.length bt q q') (baseShift ids.length bt q q') n1 M1 ∧
          MovesAtMost ls js (AllWelds ls m0 cs) θ θ' (baseTurn ids.length bt q q') (baseShift ids.length bt q q') n2 M2 ∧
          |√(V'.f (k' * ps.length + j) 0) - √(V.f (k * ps.length + j) 0)| ≤ M1 + M2 := by
  obtain ⟨V, J, s1, e, _, _, h1⟩ := C07_sqdists (wj := wj) hr hf hc ha huc hne
  obtain ⟨V', J', s2, e', _, _, h2⟩ := C07_sqdists (wj := wj) hr hf hc ha' huc hne
  refine ⟨V, J, s1, V', J', s2, e, e', ?_⟩
  intro k k' j l1 l2 q q' n1 n2 θ θ' hk hk' hj hn1 hn2 hθ hθ'
  obtain ⟨T1, T2, u1, u2, v⟩ := h1 k j l1 l2 q n1 n2 θ hk hj hn1 hn2 hθ
  obtain ⟨T1', T2', u1', u2', v'⟩ := h2 k' j l1 l2 q' n1 n2 θ' hk' hj hn1 hn2 hθ'
  obtain ⟨b1, b2⟩ := base_change (cs := cs) (ha.shape q (List.mem_of_getElem? hk)) (ha'.shape q' (List.mem_of_getElem? hk')) Pose.identity
  have key : ∀ {n : String} {T T' : Pose ℝ},
      (∀ U, WorldPose ls js (AllWelds ls m0 cs) θ (baseAfter Pose.identity (cs ++ configCalls ids bt q)) n U ↔ U = T) →
      (∀ U, WorldPose ls js (AllWelds ls m0 cs) θ' (baseAfter Pose.identity (cs ++ configCalls ids bt q')) n U ↔ U = T') →
      ∃ M, MovesAtMost ls js (AllWelds ls m0 cs) θ θ' (baseTurn ids.length bt q q') (baseShift ids.length bt q q') n M ∧
        Vec3.dist T'.position T.position ≤ M := by
    intro n T T' hT hT'
    obtain ⟨U, τ, σ, L, w1, w2, _, w4, _, _⟩ := ((hT T).mpr rfl).change hu (fun w hw => hr.unitCalls.allWelds hw)
      ((hr.unitCalls.append (configCalls_unit ids bt q)).base Rot.norm2_one)
      ((hr.unitCalls.append (configCalls_unit ids bt q')).base Rot.norm2_one) b1 b2 (θ' := θ')
    rw [(hT' U).mp w1] at w4
    exact ⟨_, ⟨τ, σ, L, w2, rfl⟩, w4⟩
  obtain ⟨M1, k1, d1⟩ := key u1 u1'
  obtain ⟨M2, k2, d2⟩ := key u2 u2'
  refine ⟨M1, M2, k1, k2, ?_⟩
  rw [v, v', sqrt_sqDist, sqrt_sqDist]
  rw [Vec3.dist_quat] at *
  rw [Vec3.dist_quat]
  refine (abs_norm_sub_norm_le _ _).trans ?_
  have e3 : T1'.position.quat - T2'.position.quat - (T1.position.quat - T2.position.quat) =
      (T1'.position.quat - T1.position.quat) - (T2'.position.quat - T2.position.quat) := by abel
  rw [e3]
  exact (norm_sub_le _ _).trans (add_le_add d1 d2)

/-- sums that change little -/
theorem foldl_quat {α : Type} {m : α → ℝ} {c : α → Vec3 ℝ} {R : α → α → Prop} {M : ℝ}
    (hR : ∀ a b, R a b → m b = m a ∧ 0 ≤ m a ∧ Vec3.dist (c b) (c a) ≤ M) {xs ys : List α} (h : List.Forall₂ R xs ys) :
    ∀ v w : Vec3 ℝ, ∀ z : ℝ, Vec3.dist w v ≤ M * z →
      Vec3.dist ⟨ys.foldl (fun s x => s + m x * (c x).x) w.x, ys.foldl (fun s x => s + m x * (c x).y) w.y, ys.foldl (fun s x => s + m x * (c x).z) w.z⟩
        ⟨xs.foldl (fun s x => s + m x * (c x).x) v.x, xs.foldl (fun s x => s + m x * (c x).y) v.y, xs.foldl (fun s x => s + m x * (c x).z) v.z⟩ ≤
      M * xs.foldl (fun s x => s + m x) z := by
  induction h with
  | nil => intro v w z hz; exact hz
  | @cons a b _ _ h1 _ ih =>
    intro v w z hz
    obtain ⟨g1, g2, g3⟩ := hR _ _ h1
    simp only [List.foldl_cons]
    refine ih ⟨v.x + m a * (c a).x, v.y + m a * (c a).y, v.z + m a * (c a).z⟩
      ⟨w.x + m b * (c b).x, w.y + m b * (c b).y, w.z + m b * (c b).z⟩ (z + m a) ?_
    rw [g1]
    rw [Vec3.dist_quat] at hz g3 ⊢
    have e : Vec3.quat ⟨w.x + m a * (c b).x, w.y + m a * (c b).y, w.z + m a * (c b).z⟩ -
        Vec3.quat ⟨v.x + m a * (c a).x, v.y + m a * (c a).y, v.z + m a * (c a).z⟩ =
        (w.quat - v.quat) + m a • ((c b).quat - (c a).quat) := by
      ext <;> simp <;> ring
    rw [e]
    refine (norm_add_le _ _).trans ?_
    rw [norm_smul, Real.norm_of_nonneg g2]
    have := mul_le_mul_of_nonneg_left g3 g2
    linarith

theorem comOf_change {xs ys : List (Inertial ℝ × Pose ℝ)} {M : ℝ} (hM : 0 < xs.foldl (fun s x => s + x.1.mass) 0)
    (h : List.Forall₂ (fun x y => y.1 = x.1 ∧ 0 ≤ x.1.mass ∧ Vec3.dist (bodyCentre y) (bodyCentre x) ≤ M) xs ys) :
    Vec3.dist (comOf ys) (comOf xs) ≤ M := by
  have h1 := foldl_congr₂ (f := fun x : Inertial ℝ × Pose ℝ => x.1.mass) (fun x y hxy => by rw [hxy.1]) h 0
  have h2 := foldl_quat (m := fun x : Inertial ℝ × Pose ℝ => x.1.mass) (c := bodyCentre) (M := M)
    (fun x y hxy => ⟨by rw [hxy.1], hxy.2.1, hxy.2.2⟩) h Vec3.zero Vec3.zero 0 (by rw [Vec3.dist_self]; simp)
  unfold comOf
  rw [h1]
  generalize xs.foldl (fun s x => s + x.1.mass) 0 = Z at *
  simp only [Vec3.zero] at h2
  generalize xs.foldl (fun s x => s + x.1.mass * (bodyCentre x).x) 0 = a1 at *
  generalize xs.foldl (fun s x => s + x.1.mass * (bodyCentre x).y) 0 = a2 at *
  generalize xs.foldl (fun s x => s + x.1.mass * (bodyCentre x).z) 0 = a3 at *
  generalize ys.foldl (fun s x => s + x.1.mass * (bodyCentre x).x) 0 = b1 at *
  generalize ys.foldl (fun s x => s + x.1.mass * (bodyCentre x).y) 0 = b2 at *
  generalize ys.foldl (fun s x => s + x.1.mass * (bodyCentre x).z) 0 = b3 at *
  rw [Vec3.dist_quat] at h2 ⊢
  have e : Vec3.quat ⟨b1 / Z, b2 / Z, b3 / Z⟩ - Vec3.quat ⟨a1 / Z, a2 / Z, a3 / Z⟩ = Z⁻¹ • (Vec3.quat ⟨b1, b2, b3⟩ - Vec3.quat ⟨a1, a2, a3⟩) := by
    ext <;> simp <;> ring
  simp only at e ⊢
  rw [e, norm_smul, Real.norm_of_nonneg (by positivity), inv_mul_le_iff₀ hM]
  linarith

/-- the bodies of the robot move by at most `M` if the links at their centres do -/
theorem Bodies.change {welds : Weld ℝ → Prop} (hcw : ∀ w, ComWeld ls w → welds w) (hu : UnitDesc js) (hw : ∀ w, welds w → w.offset.rotation.norm2 = 1)
    {θ θ' : String → ℝ} {b b' : Pose ℝ} (hb : b.rotation.norm2 = 1)
    (hb' : b'.rotation.norm2 = 1) {β ρ M : ℝ} (h1 : Rot.dist b'.rotation b.rotation ≤ β / 2) (h2 : Vec3.dist b'.position b.position ≤ ρ)
    (hmass : ∀ r ∈ ls, ∀ i, r.inertial = some i → 0 ≤ i.mass)
    (hM : ∀ r ∈ ls, ∀ B, r.inertial.isSome → MovesAtMost ls js welds θ θ' β ρ (r.name ++ "_com") B → B ≤ M)
    {xs : List (Inertial ℝ × Pose ℝ)} (h : Bodies ls js welds θ b xs) (hpos : 0 < xs.foldl (fun s x => s + x.1.mass) 0) :
    ∃ ys, Bodies ls js welds θ' b' ys ∧ Vec3.dist (comOf ys) (comOf xs) ≤ M := by
  obtain ⟨sorted, g1, g2, g3⟩ := h
  suffices H : ∃ ys, List.Forall₂ (fun (r : RawLink ℝ) (x : Inertial ℝ × Pose ℝ) => r.inertial = some x.1 ∧
      WorldPose ls js welds θ' b' r.name x.2) (sorted.filter fun r => r.inertial.isSome) ys ∧
      List.Forall₂ (fun (x y : Inertial ℝ × Pose ℝ) => y.1 = x.1 ∧ 0 ≤ x.1.mass ∧ Vec3.dist (bodyCentre y) (bodyCentre x) ≤ M) xs ys by
    obtain ⟨ys, a, b⟩ := H
    exact ⟨ys, ⟨sorted, g1, g2, a⟩, comOf_change hpos b⟩
  have hmem : ∀ r ∈ sorted.filter (fun r => r.inertial.isSome), r ∈ ls := fun r hr => g1.mem_iff.mp (List.mem_filter.mp hr).1
  clear g1 g2 hpos
  generalize (sorted.filter fun r => r.inertial.isSome) = fl at g3 hmem
  induction g3 with
  | nil => exact ⟨[], .nil, .nil⟩
  | @cons r x _ _ k1 _ ih =>
    obtain ⟨ys, a, b⟩ := ih fun r hr => hmem r (by simp [hr])
    have hr := hmem r (by simp)
    obtain ⟨T', _, _, _, w1, _⟩ := k1.2.change hu hw hb hb' h1 h2 (θ' := θ')
    have hweld := hcw _ (ComWeld.mk hr k1.1)
    obtain ⟨U, τ, σ, L, v1, v2, _, v4, _, _⟩ := k1.2.change hu hw hb hb' h1 h2 (θ' := θ')
    obtain ⟨c1, c2⟩ := transform_change (k1.2.unit hu hw hb) (v1.unit hu hw hb') (hw _ hweld) (hw _ hweld)
      (by assumption) (Rot.dist_self _).le v4 (Vec3.dist_self _).le
    refine ⟨(x.1, U) :: ys, .cons ⟨k1.1, v1⟩ a, .cons ⟨rfl, hmass r hr _ k1.1, ?_⟩ b⟩
    refine c2.trans ?_
    refine le_trans (le_of_eq ?_) (hM r hr _ (by rw [k1.1]; rfl) ⟨τ, σ, _, .weld hweld v2, rfl⟩)
    ring

/-- the total mass is positive -/
theorem Bodies.mass_pos {welds : Weld ℝ → Prop} {θ : String → ℝ} {b : Pose ℝ}
    (hmass : ∀ r ∈ ls, ∀ i, r.inertial = some i → 0 ≤ i.mass) (hsome : ∃ r ∈ ls, ∃ i, r.inertial = some i ∧ 0 < i.mass)
    {bs : List (Inertial ℝ × Pose ℝ)} (hB : Bodies ls js welds θ b bs) : 0 < bs.foldl (fun s x => s + x.1.mass) 0 := by
  obtain ⟨sorted, g1, _, g3⟩ := hB
  obtain ⟨r0, m0', i0, p1, p2⟩ := hsome
  have hmem : ∀ r ∈ sorted.filter (fun r => r.inertial.isSome), r ∈ ls := fun r hr => g1.mem_iff.mp (List.mem_filter.mp hr).1
  have hin : r0 ∈ sorted.filter (fun r => r.inertial.isSome) := List.mem_filter.mpr ⟨g1.mem_iff.mpr m0', by rw [p1]; rfl⟩
  generalize (sorted.filter fun r => r.inertial.isSome) = fl at g3 hmem hin
  have mono : ∀ {fl : List (RawLink ℝ)} {xs : List (Inertial ℝ × Pose ℝ)} {R : RawLink ℝ → Inertial ℝ × Pose ℝ → Prop},
      (∀ r x, R r x → r.inertial = some x.1) → List.Forall₂ R fl xs → (∀ r ∈ fl, r ∈ ls) → ∀ z : ℝ, z ≤ xs.foldl (fun s x => s + x.1.mass) z := by
    intro fl xs R hR hF
    induction hF with
    | nil => intro _ z; exact le_rfl
    | @cons r x _ _ k1 _ ih =>
      intro hm z
      have := hmass r (hm r (by simp)) _ (hR _ _ k1)
      exact le_trans (by linarith) (ih (fun r hr => hm r (by simp [hr])) (z + x.1.mass))
  have pos : ∀ {fl : List (RawLink ℝ)} {xs : List (Inertial ℝ × Pose ℝ)} {R : RawLink ℝ → Inertial ℝ × Pose ℝ → Prop},
      (∀ r x, R r x → r.inertial = some x.1) → List.Forall₂ R fl xs → (∀ r ∈ fl, r ∈ ls) → r0 ∈ fl → ∀ z : ℝ, 0 ≤ z →
      0 < xs.foldl (fun s x => s + x.1.mass) z := by
    intro fl xs R hR hF
    induction hF with
    | nil => intro _ hin; simp at hin
    | @cons r x _ _ k1 k2 ih =>
      intro hm hin z hz
      have hrx := hR _ _ k1
      have := hmass r (hm r (by simp)) _ hrx
      have hm' : ∀ r ∈ _, r ∈ ls := fun r hr => hm r (List.mem_cons_of_mem _ hr)
      rcases List.mem_cons.mp hin with rfl | hin
      · rw [p1] at hrx
        cases hrx
        exact lt_of_lt_of_le (by linarith) (mono hR k2 hm' (z + x.1.mass))
      · exact ih hm' hin (z + x.1.mass) (by linarith)
  exact pos (fun r x hx => hx.1) g3 hmem hin 0 le_rfl

/-- **C110, centre of mass.** The centre of mass moves by no more than the centres of the bodies can move: with nonnegative masses that
are not all zero, and without action forces. -/
theorem C110_solve_com_fk {qs qs' : QArg ℝ} {s' : PyModel ℝ}
    (hr : PyReach ls js m0 h cs s) (hf : Shallow ls js m0 cs) (hu : UnitDesc js)
    (ha : ComArgs m0 s qs ids [] [] bt) (ha' : ComArgs m0 s qs' ids [] [] bt)
    (hc : (bt ≠ .fixed ∧ s' = s) ∨ (pyClearCache s = .ok () s' ∧ qs.rows.length = 1 ∧ qs'.rows.length = 1))
    (hmass : ∀ r ∈ ls, ∀ i, r.inertial = some i → 0 ≤ i.mass) (hsome : ∃ r ∈ ls, ∃ i, r.inertial = some i ∧ 0 < i.mass) :
    ∃ C J s1 C' J' s2, pySolveComFk qs ids none bt wj s' = .ok (C, J) s1 ∧
      pySolveComFk qs' ids none bt wj s' = .ok (C', J') s2 ∧
      ∀ (k k' : Nat) (q q' : List ℝ) (θ θ' : String → ℝ) (M : ℝ), qs.rows[k]? = some q → qs'.rows[k']? = some q' →
        AnglesAfter m0 (cs ++ configCalls ids bt q) θ → AnglesAfter m0 (cs ++ configCalls ids bt q') θ' →
        (∀ r ∈ ls, ∀ B, r.inertial.isSome → MovesAtMost ls js (AllWelds ls m0 cs) θ θ' (baseTurn ids.length bt q q')
          (baseShift ids.length bt q q') (r.name ++ "_com") B → B ≤ M) →
        Vec3.dist ⟨C'.f k' 0, C'.f k' 1, C'.f k' 2⟩ ⟨C.f k 0, C.f k 1, C.f k 2⟩ ≤ M := by
  obtain ⟨C, J, s1, e, _, _, h1⟩ := C05_com_partial (act := none) (wj := wj) hr hf ha (hc.imp_right fun a => ⟨a.1, a.2.1⟩) (by simp)
  obtain ⟨C', J', s2, e', _, _, h2⟩ := C05_com_partial (act := none) (wj := wj) hr hf ha' (hc.imp_right fun a => ⟨a.1, a.2.2⟩) (by simp)
  refine ⟨C, J, s1, C', J', s2, e, e', ?_⟩
  intro k k' q q' θ θ' M hk hk' hθ hθ' hM
  obtain ⟨bs, Ts, hb, hT, hC⟩ := h1 k q θ hk hθ
  obtain ⟨bs', Ts', hb', hT', hC'⟩ := h2 k' q' θ' hk' hθ'
  obtain ⟨b1, b2⟩ := base_change (cs := cs) (ha.shape q (List.mem_of_getElem? hk)) (ha'.shape q' (List.mem_of_getElem? hk')) Pose.identity
  have hB := (hb bs).mpr rfl
  have hpos := hB.mass_pos hmass hsome
  obtain ⟨ys, y1, y2⟩ := hB.change (fun w hw => .inl hw) hu (fun w hw => hr.unitCalls.allWelds hw)
    ((hr.unitCalls.append (configCalls_unit ids bt q)).base Rot.norm2_one)
    ((hr.unitCalls.append (configCalls_unit ids bt q')).base Rot.norm2_one) b1 b2 hmass hM hpos
  rw [(hb' ys).mp y1] at y2
  have c : ∀ r < 3, C.f k r = (comOf bs).coord r := by
    intro r hr3
    rw [hC r hr3]
    cases hT
    simp [actionMean]
  have c' : ∀ r < 3, C'.f k' r = (comOf bs').coord r := by
    intro r hr3
    rw [hC' r hr3]
    cases hT'
    simp [actionMean]
  rw [c 0 (by decide), c 1 (by decide), c 2 (by decide), c' 0 (by decide), c' 1 (by decide), c' 2 (by decide)]
  exact y2

end

namespace Example

/-! ### The hypotheses are met -/

theorem masses : ∀ r ∈ ls, ∀ i, r.inertial = some i → 0 ≤ i.mass := by
  intro r hr i hi
  simp only [ls, List.mem_cons, List.not_mem_nil, or_false] at hr
  rcases hr with rfl | rfl | rfl | rfl
  · cases hi
  · cases hi; norm_num [armInertial]
  · cases hi
  · cases hi; norm_num [tipInertial]

example := C110_solve_fk (rt := .xyzw) (uc := true) (wj := true) s1_reach s1_shallow unitDesc bad_fits (a1_args s1_links)
  (a1t_args s1_links) (.inl (by decide)) (fun _ => .inl inertial)

-- two rows of one batch
example := C110_solve_fk (rt := .rpy) (uc := false) (wj := false) s1_reach s1_shallow unitDesc bad_fits (a1_args s1_links)
  (a1_args s1_links) (.inr rfl) (fun _ => .inl inertial)

example := C110_sqdists (uc := true) (wj := true) (qs' := a1t.rows) s1_reach s1_shallow unitDesc bad_fits (distArgs s1_links)
  ⟨by simp, by simp [a1t, BaseType.dof], (distArgs s1_links).joints, (distArgs s1_links).links⟩ (.inr (by decide)) (fun _ => .inl inertial)

example := C110_solve_com_fk (wj := true) (ids := [0, 1]) (bt := .planer) (qs := .nd2 a1) (qs' := .nd2 a1t) s1_reach s1_shallow unitDesc
  ⟨by simp, by simp [QArg.rows, a1], by simp [QArg.rows, a1, BaseType.dof], (comArgs_planar s1_links).joints, by simp, rfl⟩
  ⟨by simp, by simp [QArg.rows, a1t], by simp [QArg.rows, a1t, BaseType.dof], (comArgs_planar s1_links).joints, by simp, rfl⟩
  (.inl ⟨by simp, rfl⟩) masses ⟨⟨"arm", some armInertial⟩, by simp [ls], _, rfl, by norm_num [armInertial]⟩

/-- the way to "hand" when "turn" goes from 0 to 2 and "slide" from 1 to 4: one turn by 2, one slide by 3, length 1 + 2 + 4 -/
example : PathChange ls js (fun _ => False) (fun s => if s = "turn" then 0 else 1) (fun s => if s = "turn" then 2 else 4) "hand" 2 3 7 := by
  have h0 : PathChange ls js (fun _ => False) (fun s => if s = "turn" then 0 else 1) (fun s => if s = "turn" then 2 else 4) "base" 0 0 0 :=
    .root (l := ⟨"base", none⟩) (by simp [ls]) (by simp [js, turn, slide, weld])
  have h2 := PathChange.joint (j := slide) (by simp [js]) (PathChange.joint (j := turn) (by simp [js]) h0)
  refine cast ?_ h2
  congr 1
  · norm_num [RawJoint.turned, turn, slide, show ¬ JointType.prismatic = JointType.revolute by decide,
      show ¬ JointType.prismatic = JointType.continuous by decide]
  · norm_num [RawJoint.slid, turn, slide, Vec3.len, show ¬ JointType.revolute = JointType.prismatic by decide,
      show ¬ "slide" = "turn" by decide]
  · norm_num [RawJoint.reach, turn, slide, Vec3.len, show ¬ JointType.revolute = JointType.prismatic by decide,
      show ¬ "slide" = "turn" by decide, show √(4 : ℝ) = 2 by rw [show (4 : ℝ) = 2 ^ 2 by norm_num]; exact Real.sqrt_sq (by norm_num)]

end Example
end Tinyfk
