import Verif.Props.SolveFk
import Verif.Spec.Dist

/-!
# Proofs about `compute_inter_link_squared_dists`
-/

set_option linter.unusedSectionVars false

namespace Tinyfk

open Scalar

variable {K : Type} [Scalar K]
  {ls : List (RawLink K)} {js : List (RawJoint K)} {m0 : KinModel K} {cs : List (Call K)} {mc m : KinModel K}

/-- one entry and one gradient row -/
def DistPair (m : KinModel K) (ids : List Nat) (wb wg : Bool) (nJ : Nat) (p : Nat × Nat) (d : K) (g : Nat → K) :
    Prop :=
  ∃ T1 T2, IsPose m p.1 T1 ∧ IsPose m p.2 T2 ∧ d = sqDist T1.position T2.position ∧
    (wg = true → ∃ B1 B2, Query m (getJacobian p.1 ids .ignore wb) B1 ∧
      Query m (getJacobian p.2 ids .ignore wb) B2 ∧
      ∀ c < nJ, g c = sqDistGrad B1 B2 T1.position T2.position c)

theorem SameRobot.symm {a b : KinModel K} (h : SameRobot a b) : SameRobot b a := by
  obtain ⟨⟨s, k, rfl⟩, hc⟩ := h
  exact ⟨⟨a.stack, a.cache, rfl⟩, hc.symm⟩

theorem Query.same {α : Type} {m1 m2 : KinModel K} {p : Prog (KinModel K) α} {v : α} (h : Query m1 p v)
    (hs : SameRobot m1 m2) : Query m2 p v := by
  intro m' hs' hr
  obtain ⟨m3, e, h1, h2⟩ := h m' (hs.trans hs') hr
  exact ⟨m3, e, hs.symm.trans h1, h2⟩

theorem Query.distLoop {m : KinModel K} (ids : List Nat) (wb wg : Bool) (nJ head0 : Nat)
    (links2 : List Nat) (ps : List (Nat × Nat))
    (hp : ∀ p ∈ ps, (∃ T, IsPose m p.1 T) ∧ ∃ T, IsPose m p.2 T)
    (hB : wg = true → ∀ p ∈ ps, (∃ B, Query m (Tinyfk.getJacobian p.1 ids .ignore wb) B) ∧
      ∃ B, Query m (Tinyfk.getJacobian p.2 ids .ignore wb) B) (j : Nat)
    (h2 : ∀ (k : Nat) p, ps[k]? = some p → links2[j + k]? = some p.2) (D G : Mat K)
    (hDr : head0 + j + ps.length ≤ D.rows) (hDc : D.cols = 1)
    (hG : wg = true → head0 + j + ps.length ≤ G.rows ∧ G.cols = nJ) :
    ∃ D' G', Query m (Tinyfk.distLoop ids wb wg nJ head0 links2 (ps.map Prod.fst) j D G) (D', G') ∧
      D'.rows = D.rows ∧ D'.cols = D.cols ∧ G'.rows = G.rows ∧ G'.cols = G.cols ∧
      (∀ r c, r < head0 + j → D'.f r c = D.f r c) ∧ (∀ r c, r < head0 + j → G'.f r c = G.f r c) ∧
      ∀ (k : Nat) p, ps[k]? = some p →
        DistPair m ids wb wg nJ p (D'.f (head0 + j + k) 0) (fun c => G'.f (head0 + j + k) c) := by
  induction ps generalizing j D G with
  | nil =>
    refine ⟨D, G, Query.pure _ _, rfl, rfl, rfl, rfl, fun _ _ _ => rfl, fun _ _ _ => rfl, ?_⟩
    intro k p hk; simp at hk
  | cons p ps ih =>
    simp only [List.length_cons] at hDr hG
    obtain ⟨⟨T1, hT1⟩, ⟨T2, hT2⟩⟩ := hp p (by simp)
    have hl2 := h2 0 p (by simp)
    rw [Nat.add_zero] at hl2
    have hset := D.set_ok (head0 + j) 0 (sqDist T1.position T2.position) (by omega) (by omega)
    generalize hD1 : (⟨D.rows, D.cols, fun a b => if a = head0 + j ∧ b = 0 then
      sqDist T1.position T2.position else D.f a b⟩ : Mat K) = D1 at hset
    have hD1r : D1.rows = D.rows := by rw [← hD1]
    have hD1c : D1.cols = D.cols := by rw [← hD1]
    have hD1f : D1.f (head0 + j) 0 = sqDist T1.position T2.position := by rw [← hD1]; simp
    have hD1o : ∀ r c, r < head0 + j → D1.f r c = D.f r c := by
      intro r c hr; rw [← hD1]; simp only; rw [if_neg (by omega)]
    have h2' : ∀ (k : Nat) p, ps[k]? = some p → links2[j + 1 + k]? = some p.2 := by
      intro k p' hk
      have := h2 (k + 1) p' (by simpa using hk)
      rw [show j + 1 + k = j + (k + 1) by omega]; exact this
    -- the gradient step
    have hstep : ∃ G1 : Mat K, G1.rows = G.rows ∧ G1.cols = G.cols ∧
        (∀ r c, r < head0 + j → G1.f r c = G.f r c) ∧ (wg = false → G1 = G) ∧
        (wg = true → ∃ B1 B2, Query m (Tinyfk.getJacobian p.1 ids .ignore wb) B1 ∧
          Query m (Tinyfk.getJacobian p.2 ids .ignore wb) B2 ∧
          G.setBlock (head0 + j) 0 ⟨1, nJ, fun _ c =>
            distGradEntry B1 B2 (Vec3.sub T1.position T2.position) c⟩ = .ok G1 ∧
          ∀ c < nJ, G1.f (head0 + j) c = sqDistGrad B1 B2 T1.position T2.position c) := by
      cases wg with
      | false => exact ⟨G, rfl, rfl, fun _ _ _ => rfl, fun _ => rfl, by simp⟩
      | true =>
        obtain ⟨⟨B1, q1⟩, ⟨B2, q2⟩⟩ := hB rfl p (by simp)
        obtain ⟨g1, g2⟩ := hG rfl
        have hs := Mat.setBlock_ok G (head0 + j) 0 ⟨1, nJ, fun _ c =>
            distGradEntry B1 B2 (Vec3.sub T1.position T2.position) c⟩
            (show head0 + j + 1 ≤ G.rows by omega) (show 0 + nJ ≤ G.cols by omega)
        generalize hG1 : (⟨G.rows, G.cols, _⟩ : Mat K) = G1 at hs
        refine ⟨G1, by rw [← hG1], by rw [← hG1], ?_, by simp, fun _ => ⟨B1, B2, q1, q2, hs, ?_⟩⟩
        · intro r c hr
          rw [← hG1]
          simp only
          rw [if_neg (by omega)]
        · intro c hc
          rw [← hG1]
          simp only
          rw [if_pos (by omega)]
          rfl
    obtain ⟨G1, g1, g2, g3, g5, g4⟩ := hstep
    obtain ⟨D', G', hq, d1, d2, d3, d4, d5, d6, d7⟩ := ih (fun p hp' => hp p (by simp [hp']))
      (fun hw p hp' => hB hw p (by simp [hp'])) (j + 1) h2' D1 G1 (by omega) (by omega)
      (fun hw => by have := hG hw; omega)
    refine ⟨D', G', ?_, by omega, by omega, by omega, by omega, ?_, ?_, ?_⟩
    · rw [List.map_cons]
      unfold Tinyfk.distLoop
      have hidx : Outcome.idx "link_ids2" links2 j = .ok p.2 := by simp [Outcome.idx, hl2]
      refine (Query.getLinkPose hT1).bind ((Query.lift hidx).bind ((Query.getLinkPose hT2).bind
        ((Query.lift hset).bind ?_)))
      cases wg with
      | false =>
        obtain rfl := g5 rfl
        exact (Query.pure _ _).bind hq
      | true =>
        obtain ⟨B1, B2, q1, q2, q3, _⟩ := g4 rfl
        exact q1.bind (q2.bind ((Query.lift q3).bind hq))
    · intro r c hr
      rw [d5 r c (by omega), hD1o r c hr]
    · intro r c hr
      rw [d6 r c (by omega), g3 r c hr]
    · intro k p' hk
      cases k with
      | zero =>
        simp only [List.getElem?_cons_zero, Option.some.injEq] at hk
        subst hk
        refine ⟨T1, T2, hT1, hT2, ?_, fun hw => ?_⟩
        · rw [Nat.add_zero, d5 _ _ (by omega), hD1f]
        · obtain ⟨B1, B2, q1, q2, _, q3⟩ := g4 hw
          refine ⟨B1, B2, q1, q2, fun c hc => ?_⟩
          simp only [Nat.add_zero]
          rw [d6 _ _ (by omega)]; exact q3 c hc
      | succ k =>
        have := d7 k p' (by simpa using hk)
        rw [show head0 + (j + 1) + k = head0 + j + (k + 1) by omega] at this
        exact this

/-- The loop of `compute_inter_link_squared_dists` over the configurations. -/
theorem At.distFkLoop {ids : List Nat} {ps : List (Nat × Nat)} {wb wg uc : Bool}
    (hi : ∀ i ∈ ids, i < m0.joints.length) (n : Nat) (qs : List (List K))
    {cs : List (Call K)} {mc m : KinModel K} (hc : CacheOk ids wb uc qs m) (h : At ls js m0 cs mc m)
    (hf : Shallow ls js m0 cs)
    (he : ∀ p ∈ ps, p.1 < (linksAfter (names0 m0) cs).length ∧ p.2 < (linksAfter (names0 m0) cs).length)
    (hne : wg = true → (∃ r ∈ ls, r.inertial.isSome) ∨ weldsAfter (names0 m0) cs ≠ [])
    (hq : ∀ q ∈ qs, q.length = ids.length + (wrapBase wb).dof)
    (i : Nat) (hin : i + qs.length = n) (D G : Mat K) (hDr : D.rows = n * ps.length) (hDc : D.cols = 1)
    (hG : wg = true → G.rows = n * ps.length ∧ G.cols = ids.length + (wrapBase wb).dof) :
    ∃ D' G' m' mc', Tinyfk.distFkLoop ids (ps.map Prod.fst) (ps.map Prod.snd) wb wg uc
        (ids.length + (wrapBase wb).dof) qs i D G m = .ok (D', G') m' ∧
      At ls js m0 (cs ++ batchCalls ids (wrapBase wb) qs) mc' m' ∧
      D'.rows = D.rows ∧ D'.cols = D.cols ∧ G'.rows = G.rows ∧ G'.cols = G.cols ∧
      (∀ r c, r < i * ps.length → D'.f r c = D.f r c) ∧
      (∀ r c, r < i * ps.length → G'.f r c = G.f r c) ∧ (qs ≠ [] → Coherent m') ∧
      ∀ k < qs.length, ∃ mk, Reach ls js m0 (cs ++ batchCalls ids (wrapBase wb) (qs.take (k + 1))) mk ∧
        ∀ (j : Nat) p, ps[j]? = some p → DistPair mk ids wb wg (ids.length + (wrapBase wb).dof) p
          (D'.f ((i + k) * ps.length + j) 0) (fun c => G'.f ((i + k) * ps.length + j) c) := by
  induction qs generalizing cs mc m i D G with
  | nil =>
    refine ⟨D, G, m, mc, rfl, by simpa [batchCalls] using h, rfl, rfl, rfl, rfl, fun _ _ _ => rfl,
      fun _ _ _ => rfl, fun hn => absurd rfl hn, ?_⟩
    intro k hk; simp at hk
  | cons q qs ih =>
    simp only [List.length_cons] at hin
    obtain ⟨m1, mc1, e1, h1, hcoh, hang⟩ := h.applyConfig hi (hq q (by simp)) hc.head
    have hset := configCalls_isSet ids (wrapBase wb) q
    have hf1 := hf.sets hset
    have hr1 := h1.ready_coh hf1 hcoh
    have hne1 : wg = true → (∃ r ∈ ls, r.inertial.isSome) ∨
        weldsAfter (names0 m0) (cs ++ configCalls ids (wrapBase wb) q) ≠ [] := by
      rw [welds_sets _ hset]; exact hne
    have he1 : ∀ p ∈ ps, p.1 < (linksAfter (names0 m0) (cs ++ configCalls ids (wrapBase wb) q)).length ∧
        p.2 < (linksAfter (names0 m0) (cs ++ configCalls ids (wrapBase wb) q)).length := by
      rw [links_sets _ hset]; exact he
    have he2 : ∀ p ∈ ps, p.1 < mc1.links.length ∧ p.2 < mc1.links.length := by
      intro p hp; rw [← h1.links, h1.nlinks]; exact he1 p hp
    have hle : (i + 1) * ps.length ≤ n * ps.length := Nat.mul_le_mul_right _ (by omega)
    have ea : (i + 1) * ps.length = i * ps.length + ps.length := by ring
    obtain ⟨D1, G1, qD, a1, a2, a3, a4, a5, a6, a7⟩ := Query.distLoop (m := mc1) ids wb wg
      (ids.length + (wrapBase wb).dof) (i * ps.length) (ps.map Prod.snd) ps
      (fun p hp => ⟨h1.reach.abs.inv.exists_pose (he2 p hp).1, h1.reach.abs.inv.exists_pose (he2 p hp).2⟩)
      (fun hw p hp => by
        obtain ⟨B1, q1, _⟩ := h1.reach.jacQuery (hne1 hw) (he2 p hp).1 hi .ignore wb
        obtain ⟨B2, q2, _⟩ := h1.reach.jacQuery (hne1 hw) (he2 p hp).2 hi .ignore wb
        exact ⟨⟨B1, q1⟩, ⟨B2, q2⟩⟩) 0
      (fun k p hk => by rw [Nat.zero_add, List.getElem?_map, hk]; rfl) D G (by omega) hDc
      (fun hw => by have := hG hw; omega)
    obtain ⟨m2, e2, h2, hr2⟩ := h1.query hr1 qD
    have hang2 : ¬ (wb = true ∨ uc = false) → m2.angles = m.angles := by
      intro hb
      rw [← hang hb]
      obtain ⟨⟨st, c, hst⟩, _⟩ := h2.same
      obtain ⟨⟨st', c', hst'⟩, _⟩ := h1.same
      rw [hst, hst']
    obtain ⟨D2, G2, m4, mc4, e4, h4, b1, b2, b3, b4, b5, b6, b9, b8⟩ := ih (hc.tail hr2.coh hang2) h2 hf1 he1 hne1
      (fun x hx => hq x (by simp [hx])) (i + 1) (by omega) D1 G1 (a1.trans hDr) (a2.trans hDc)
      (fun hw => by rw [a3, a4]; exact hG hw)
    refine ⟨D2, G2, m4, mc4, ?_, ?_, b1.trans a1, b2.trans a2, b3.trans a3, b4.trans a4, ?_, ?_, ?_, ?_⟩
    · simp only [Tinyfk.distFkLoop, Prog.bind_apply, e1, List.length_map, e2]
      exact e4
    · simpa [batchCalls, List.append_assoc] using h4
    · intro r c hr
      rw [b5 r c (by omega), a5 r c (by omega)]
    · intro r c hr
      rw [b6 r c (by omega), a6 r c (by omega)]
    · intro _
      by_cases hn : qs = []
      · subst hn
        simp only [Tinyfk.distFkLoop, Prog.pure_apply, Res.ok.injEq] at e4
        obtain ⟨_, rfl⟩ := e4
        exact hr2.coh
      · exact b9 hn
    · intro k hk
      cases k with
      | zero =>
        refine ⟨mc1, by simpa [batchCalls] using h1.reach, ?_⟩
        intro j p hj
        have hlt := (List.getElem?_eq_some_iff.mp hj).1
        obtain ⟨T1, T2, t1, t2, t3, t4⟩ := a7 j p hj
        simp only [Nat.add_zero] at t3 t4 ⊢
        refine ⟨T1, T2, t1, t2, ?_, fun hw => ?_⟩
        · rw [b5 _ _ (by omega)]; exact t3
        · obtain ⟨B1, B2, q1, q2, q3⟩ := t4 hw
          refine ⟨B1, B2, q1, q2, fun c hc => ?_⟩
          simp only
          rw [b6 _ _ (by omega)]; exact q3 c hc
      | succ k =>
        obtain ⟨mk, r1, r2⟩ := b8 k (by simpa using hk)
        refine ⟨mk, by simpa [batchCalls, List.append_assoc] using r1, ?_⟩
        rw [show i + (k + 1) = i + 1 + k by omega]
        exact r2

/-- `compute_inter_link_squared_dists` of the wrapper on any cache -/
theorem At.sqdists {ids : List Nat} {ps : List (Nat × Nat)} {wb wj uc : Bool} {qs : List (List K)}
    (h : At ls js m0 cs mc m) (hf : Shallow ls js m0 cs)
    (hi : ∀ i ∈ ids, i < m0.joints.length) (hc : CacheOk ids wb uc qs m)
    (he : ∀ p ∈ ps, p.1 < m.links.length ∧ p.2 < m.links.length)
    (hne : wj = true → (∃ r ∈ ls, r.inertial.isSome) ∨ weldsAfter (names0 m0) cs ≠ [])
    (hq : ∀ q ∈ qs, q.length = ids.length + (wrapBase wb).dof) :
    ∃ V J m' mc', computeInterLinkSquaredDists qs (ps.map Prod.fst) (ps.map Prod.snd) ids wb wj uc m =
        .ok (V, J) m' ∧
      At ls js m0 (cs ++ batchCalls ids (wrapBase wb) qs) mc' m' ∧
      DistResult ls js m0 cs qs ps ids (wrapBase wb) wj V J ∧ (qs ≠ [] → Coherent m') := by
  have he' : ∀ p ∈ ps, p.1 < (linksAfter (names0 m0) cs).length ∧ p.2 < (linksAfter (names0 m0) cs).length := by
    intro l hl; rw [← h.nlinks]; exact he l hl
  have ed : (if wb then 6 else 0) = (wrapBase wb).dof := (wrapBase_dof wb).symm
  have ec : ps.length * qs.length = qs.length * ps.length := Nat.mul_comm _ _
  obtain ⟨V, J, m', mc', e, ha, d1, d2, d3, d4, _, _, d7, d6⟩ := h.distFkLoop (ps := ps) (wb := wb)
    (wg := wj) (uc := uc) hi qs.length qs hc hf he' hne hq 0 (by simp)
    (Mat.zero (ps.length * qs.length) 1)
    (if wj then Mat.zero (ps.length * qs.length) (ids.length + (wrapBase wb).dof) else Mat.zero 1 1)
    ec rfl (by intro hw; rw [if_pos hw]; exact ⟨ec, rfl⟩)
  have main : ∀ (k j l1 l2 : Nat) q mk, qs[k]? = some q → ps[j]? = some (l1, l2) →
      Reach ls js m0 (cs ++ configCalls ids (wrapBase wb) q) mk →
      DistPair mk ids wb wj (ids.length + (wrapBase wb).dof) (l1, l2)
          (V.f (k * ps.length + j) 0) (fun c => J.f (k * ps.length + j) c) ∧ Ready mk := by
    intro k j l1 l2 q mk hk hj hmk
    obtain ⟨hlt, hqk⟩ := List.getElem?_eq_some_iff.mp hk
    have hmem : q ∈ qs := List.mem_of_getElem? hk
    obtain ⟨mb, hb, hB⟩ := d6 k hlt
    rw [batchCalls_take hk] at hb
    have hs1 : ∀ c ∈ batchCalls ids (wrapBase wb) (qs.take k) ++ configCalls ids (wrapBase wb) q, c.IsSet := by
      intro c hc
      rcases List.mem_append.mp hc with hc | hc
      · exact batchCalls_isSet _ _ _ c hc
      · exact configCalls_isSet _ _ _ c hc
    have hs2 := configCalls_isSet ids (wrapBase wb) q
    have hlen := hq q hmem
    have hsame : SameRobot mb mk := h.reach.sameRobot hb hmk hs1 hs2
      (fun i => angleAfter_override i 0 ids (wrapBase wb) (qs.take k) q (by omega) cs)
      (baseAfter_override Pose.identity ids (wrapBase wb) (qs.take k) q hlen cs)
    have hrk : Ready mk := hmk.ready (hf.sets hs2)
    obtain ⟨T1, T2, t1, t2, t3, t4⟩ := hB j (l1, l2) hj
    rw [Nat.zero_add] at t3 t4
    refine ⟨⟨T1, T2, (IsPose.of_same hsame).mpr t1, (IsPose.of_same hsame).mpr t2, t3, fun hw => ?_⟩, hrk⟩
    obtain ⟨B1, B2, q1, q2, q3⟩ := t4 hw
    exact ⟨B1, B2, q1.same hsame, q2.same hsame, q3⟩
  refine ⟨V, J, m', mc', ?_, ha, ⟨d1.trans ec, d2, ?_, ?_, ?_, ?_⟩, d7⟩
  · unfold computeInterLinkSquaredDists
    simp only [List.length_map, ed]
    exact e
  · intro hw; rw [d3, if_pos hw]; exact ec
  · intro hw; rw [d4, if_pos hw]; rfl
  · intro k j l1 l2 q mk hk hj hmk
    obtain ⟨⟨T1, T2, t1, t2, t3, _⟩, hr⟩ := main k j l1 l2 q mk hk hj hmk
    obtain ⟨m1, f1, _⟩ := (Query.getLinkPose t1).run hr
    obtain ⟨m2, f2, _⟩ := (Query.getLinkPose t2).run hr
    exact ⟨T1, m1, T2, m2, f1, f2, t3⟩
  · intro hw k j l1 l2 q mk hk hj hmk
    obtain ⟨⟨T1, T2, t1, t2, _, t4⟩, hr⟩ := main k j l1 l2 q mk hk hj hmk
    obtain ⟨m1, f1, _⟩ := (Query.getLinkPose t1).run hr
    obtain ⟨m2, f2, _⟩ := (Query.getLinkPose t2).run hr
    obtain ⟨B1, B2, q1, q2, q3⟩ := t4 hw
    obtain ⟨m3, f3, _⟩ := q1.run hr
    obtain ⟨m4, f4, _⟩ := q2.run hr
    have hfc : ∀ c, fullCol ids.length (wrapBase wb) c = c := by
      intro c; cases wb <;> rfl
    have hwb : (wrapBase wb != .fixed) = wb := by cases wb <;> rfl
    refine ⟨T1, m1, T2, m2, B1, m3, B2, m4, f1, f2, by rw [hwb]; exact f3, by rw [hwb]; exact f4, ?_⟩
    intro c hc
    rw [hfc]; exact q3 c hc

/-- the Python call -/
theorem At.pySqdists {s : PyModel K} {qs : List (List K)} {ps : List (Nat × Nat)} {ids : List Nat}
    {bt : BaseType} {wj uc : Bool} (h : At ls js m0 cs mc s.robot) (hf : Shallow ls js m0 cs)
    (ha : DistArgs m0 s qs ps ids bt) (hc : bt ≠ .fixed ∨ (bt = .fixed ∧ CacheOk ids false uc qs s.robot))
    (hne : wj = true → (∃ r ∈ ls, r.inertial.isSome) ∨ weldsAfter (names0 m0) cs ≠ []) :
    ∃ V J s' mc', pySqdists qs ps ids bt wj uc s = .ok (V, J) s' ∧
      At ls js m0 (cs ++ batchCalls ids bt qs) mc' s'.robot ∧
      DistResult ls js m0 cs qs ps ids bt wj V J ∧ (qs ≠ [] → Coherent s'.robot) := by
  cases bt with
  | fixed =>
    obtain ⟨V, J, m', mc', e, hat, d, d7⟩ := h.sqdists (wb := false) (wj := wj) (uc := uc) (ps := ps)
      hf ha.joints (hc.resolve_left (by simp)).2 ha.links hne (by simpa [wrapBase] using ha.shape)
    refine ⟨V, J, { s with robot := m' }, mc', ?_, hat, d, d7⟩
    simp only [Tinyfk.pySqdists, Prog.bind_apply, reduceCtorEq, if_false, Prog.pure_apply, ha.nonempty, onRobot,
      false_and, bne_self_eq_false]
    rw [e]
  | floating =>
    obtain ⟨V, J, m', mc', e, hat, d, d7⟩ := h.sqdists (wb := true) (wj := wj) (uc := uc) (ps := ps)
      hf ha.joints (.inl rfl) ha.links hne (by simpa [wrapBase] using ha.shape)
    refine ⟨V, J, { s with robot := m' }, mc', ?_, hat, d, d7⟩
    simp only [Tinyfk.pySqdists, Prog.bind_apply, reduceCtorEq, if_false, Prog.pure_apply, ha.nonempty, onRobot,
      false_and, show ((BaseType.floating != .fixed) = true) from rfl]
    rw [e]
  | planer =>
    obtain ⟨rows', g1, g2, g3⟩ := modifyInput_spec (n := ids.length) ha.shape
    obtain ⟨g4, g5⟩ := modifyInput_calls ha.shape g1
    obtain ⟨V, J, m', mc', e, hat, d, d7⟩ := h.sqdists (wb := true) (wj := wj) (uc := uc) (qs := rows') (ps := ps)
      hf ha.joints (.inl rfl) ha.links hne (by simpa [wrapBase, BaseType.dof] using g4)
    have hw : wrapBase true = .floating := rfl
    rw [hw] at hat d
    rw [g5] at hat
    have hcoh : qs ≠ [] → Coherent m' := fun hn => d7 (fun hr => hn (by
      rw [hr] at g2; exact List.length_eq_zero_iff.mp (by simpa using g2.symm)))
    have hdist : ∀ (k j l1 l2 : Nat) q mk, qs[k]? = some q → ps[j]? = some (l1, l2) →
        Reach ls js m0 (cs ++ configCalls ids .planer q) mk →
        ∃ T1 mk1 T2 mk2, getLinkPose l1 mk = .ok T1 mk1 ∧ getLinkPose l2 mk = .ok T2 mk2 ∧
          V.f (k * ps.length + j) 0 = sqDist T1.position T2.position := by
      intro k j l1 l2 q mk h1 h2 h3
      obtain ⟨q', r1, r2⟩ := g3 k q h1
      have := (modifyRow_calls (ha.shape q (List.mem_of_getElem? h1)) r2).2
      exact d.dist k j l1 l2 q' mk r1 h2 (by rw [this]; exact h3)
    cases wj with
    | false =>
      refine ⟨V, J, { s with robot := m' }, mc', ?_, hat, ⟨by rw [d.vRows, g2], d.vCols, by simp, by simp, hdist,
        by simp⟩, hcoh⟩
      simp only [Tinyfk.pySqdists, Prog.bind_apply, if_true, Prog.lift, Prog.read, g1, ha.nonempty, if_false, onRobot,
        show ((BaseType.planer != .fixed) = true) from rfl]
      rw [e]
      simp
    | true =>
      obtain ⟨J', j1, j2, j3, j4⟩ := selectCols_spec (n := ids.length) (d.jCols rfl)
      refine ⟨V, J', { s with robot := m' }, mc', ?_, hat, ⟨by rw [d.vRows, g2], d.vCols, ?_, fun _ => j3, hdist,
        ?_⟩, hcoh⟩
      · simp only [Tinyfk.pySqdists, Prog.bind_apply, if_true, Prog.lift, Prog.read, g1, ha.nonempty, if_false, onRobot,
          show ((BaseType.planer != .fixed) = true) from rfl]
        rw [e]
        simp [Prog.bind_apply, Prog.read, j1]
      · intro _; rw [j2, d.jRows rfl, g2]
      · intro _ k j l1 l2 q mk h1 h2 h3
        obtain ⟨q', r1, r2⟩ := g3 k q h1
        have := (modifyRow_calls (ha.shape q (List.mem_of_getElem? h1)) r2).2
        obtain ⟨T1, m1, T2, m2, B1, m3, B2, m4, f1, f2, f3, f4, f5⟩ :=
          d.grad rfl k j l1 l2 q' mk r1 h2 (by rw [this]; exact h3)
        refine ⟨T1, m1, T2, m2, B1, m3, B2, m4, f1, f2, f3, f4, ?_⟩
        intro c hc
        rw [j4 _ c hc]
        refine f5 _ ?_
        simp only [BaseType.dof] at hc ⊢
        simp only [fullCol]
        split <;> omega

end Tinyfk
