import Verif.Proofs.SafeQuery
import Mathlib.Tactic.Push

/-!
# Defined behaviour of the centre-of-mass and distance solvers
-/

namespace Tinyfk

set_option linter.unusedSectionVars false

open Scalar

variable {K : Type} [Scalar K] {α β : Type} {B : Bounds}

theorem Bad.lift_ok {a : α} {f : α → Prog (KinModel K) β} (h : Bad B (f a)) : Bad B (Prog.lift (.ok a) >>= f) :=
  fun m hm => h m hm

theorem Mild.getJacobian {l : Nat} {ids : List Nat} {rt : RotType} {wb : Bool} (ht : B.T) (hi : Below B.nj ids) :
    Mild B (getJacobian l ids rt wb : Prog (KinModel K) (Mat K)) := by
  by_cases hl : l < B.nl
  · exact (Tot.getJacobian ht hl hi).mild
  · exact (Bad.left (Bad.getLinkPose hl)).mild

/-! ### `solve_com_forward_kinematics` -/

/-- the action links and forces that remain from number `j` -/
def ActOk (nl : Nat) (fs : List K) (j : Nat) (al : List Nat) : Prop := Below nl al ∧ (al ≠ [] → j + al.length ≤ fs.length)

theorem comAdd_size {C : Mat K} {i n : Nat} (hC : Dim 3 n C) (hi : i < n) (f : K) (p : Vec3 K) :
    SizeOf C (do
      let c0 ← C.get 0 i
      let C ← C.set 0 i (c0 + f * p.x)
      let c1 ← C.get 1 i
      let C ← C.set 1 i (c1 + f * p.y)
      let c2 ← C.get 2 i
      C.set 2 i (c2 + f * p.z)) := by
  have h1 := hC.1
  have h2 := hC.2
  have hget : ∀ {M : Mat K} {k : Nat}, M.rows = 3 → M.cols = n → k < 3 → M.get k i = .ok (M.f k i) := by
    intro M k e1 e2 hk
    unfold Mat.get; rw [if_pos ⟨by omega, by omega⟩]
  rw [hget h1 h2 (by omega)]
  show SizeOf C (_ >>= _)
  refine SizeOf.bind (SizeOf.set (by omega) (by omega)) fun M e1 e2 => ?_
  rw [hget (by omega) (by omega) (by omega)]
  refine SizeOf.bind (SizeOf.set (by omega) (by omega)) fun M e1 e2 => ?_
  rw [hget (by omega) (by omega) (by omega)]
  exact SizeOf.set (by omega) (by omega)

theorem Tot.actionLoop {ids al : List Nat} {wb wj : Bool} {fs : List K} {i n j : Nat} {s : K} {C J : Mat K}
    (ht : wj = true → B.T) (hi : Below B.nj ids) (ha : ActOk B.nl fs j al) (hin : i < n)
    (hC : Dim 3 n C) (hJ : Dim (3 * n) (nCols ids wb) J) :
    Tot B (actionLoop ids wb wj fs i (nCols ids wb) al j s C J)
      (fun x => Dim 3 n x.2.1 ∧ Dim (3 * n) (nCols ids wb) x.2.2) := by
  induction al generalizing j s C J with
  | nil => exact Tot.pure ⟨hC, hJ⟩
  | cons l al ih =>
    obtain ⟨h1, h2⟩ := ha
    have h2 := h2 (by simp)
    simp only [List.length_cons] at h2
    have ha' : ActOk B.nl fs (j + 1) al := ⟨fun k hk => h1 k (by simp [hk]), fun _ => by omega⟩
    unfold Tinyfk.actionLoop
    refine Tot.bind (Q := fun _ => True) (Tot.lift ?_) fun fj _ => ?_
    · have : j < fs.length := by omega
      exact ⟨fs[j], by simp [Outcome.idx, this], trivial⟩
    refine Tot.bind (Q := fun _ => True) (Tot.read fun m _ => ⟨_, rfl, trivial⟩) fun mt _ => ?_
    refine Tot.bind (Tot.getLinkPose (h1 l (by simp))) fun tf _ => ?_
    refine Tot.bind (Tot.size hC (comAdd_size hC hin _ _)) fun C' hC' => ?_
    cases wj with
    | false => exact ih ha' hC' hJ
    | true =>
      refine Tot.bind (Tot.getJacobian (ht rfl) (h1 l (by simp)) hi) fun A hA => ?_
      refine Tot.bind (Tot.size hJ (SizeOf.addBlock (by rw [hJ.1]; omega) (by rw [hJ.2]; omega) hA.1 hA.2))
        fun J' hJ' => ih ha' hC' hJ'

theorem Bad.actionLoop {ids al : List Nat} {wb wj : Bool} {fs : List K} {i nd j : Nat} {s : K} {C J : Mat K}
    (ht : wj = true → B.T) (hi : Below B.nj ids) (ha : ¬ ActOk B.nl fs j al) :
    Bad B (actionLoop ids wb wj fs i nd al j s C J) := by
  induction al generalizing j s C J with
  | nil => exact absurd ⟨fun _ h => (by cases h), fun h => absurd rfl h⟩ ha
  | cons l al ih =>
    unfold Tinyfk.actionLoop
    by_cases hj : j < fs.length
    · refine Bad.right (Mild.lift (OkUb.idx _ _ _)) fun fj => ?_
      refine Bad.right (Mild.read fun m => OkUb.ok _) fun mt => ?_
      by_cases hl : l < B.nl
      · refine Bad.right (Mild.getLinkPose l) fun tf => ?_
        refine Bad.right (Mild.lift ?_) fun C' => ?_
        · exact (OkUb.get _ _ _).bind fun _ => (OkUb.set _ _ _ _).bind fun _ => (OkUb.get _ _ _).bind fun _ =>
            (OkUb.set _ _ _ _).bind fun _ => (OkUb.get _ _ _).bind fun _ => OkUb.set _ _ _ _
        have hrest : ¬ ActOk B.nl fs (j + 1) al := by
          rintro ⟨h1, h2⟩
          refine ha ⟨fun k hk => ?_, fun _ => ?_⟩
          · rcases List.mem_cons.mp hk with rfl | hk
            · exact hl
            · exact h1 k hk
          · cases al with
            | nil => simp; omega
            | cons a b => have := h2 (by simp); simp only [List.length_cons] at this ⊢; omega
        cases wj with
        | false => exact ih hrest
        | true =>
          refine Bad.right (Tot.getJacobian (ht rfl) hl hi).mild fun A => ?_
          exact Bad.right (Mild.lift (OkUb.addBlock _ _ _ _ _ _ _)) fun J' => ih hrest
      · exact Bad.left (Bad.getLinkPose hl)
    · refine Bad.left ?_
      have : fs[j]? = none := List.getElem?_eq_none_iff.mpr (by omega)
      simp only [Outcome.idx, this]
      exact Bad.lift

theorem Tot.comRow {ids al : List Nat} {wb wj : Bool} {fs : List K} {i n : Nat} {C J : Mat K}
    (ht : wj = true → B.T) (hi : Below B.nj ids) (ha : ActOk B.nl fs 0 al) (hin : i < n)
    (hC : Dim 3 n C) (hJ : Dim (3 * n) (nCols ids wb) J) :
    Tot B (comRow ids al fs wb wj (nCols ids wb) i C J)
      (fun x => Dim 3 n x.1 ∧ Dim (3 * n) (nCols ids wb) x.2) := by
  have key : ∀ C J, Dim 3 n C → Dim (3 * n) (nCols ids wb) J → Tot B (if al.length > 0 then (do
      let (s, C, J) ← Tinyfk.actionLoop ids wb wj fs i (nCols ids wb) al 0 1 C J
      let C ← Prog.lift (C.mapBlock 0 i 3 1 (· / s))
      let J ← if wj then Prog.lift (J.mapBlock (3 * i) 0 3 (nCols ids wb) (· / s)) else Pure.pure J
      Pure.pure (C, J))
      else Pure.pure (C, J) : Prog (KinModel K) (Mat K × Mat K))
      (fun x => Dim 3 n x.1 ∧ Dim (3 * n) (nCols ids wb) x.2) := by
    intro C J hC hJ
    refine Tot.ite (fun _ => ?_) fun _ => Tot.pure ⟨hC, hJ⟩
    refine Tot.bind (Tot.actionLoop ht hi ha hin hC hJ) fun x hx => ?_
    refine Tot.bind (Tot.size hx.1 (SizeOf.mapBlock (by rw [hx.1.1]) (by rw [hx.1.2]; omega))) fun C' hC' => ?_
    cases wj with
    | false => exact Tot.pure ⟨hC', hx.2⟩
    | true =>
      exact Tot.bind (Tot.size hx.2 (SizeOf.mapBlock (by rw [hx.2.1]; omega) (by rw [hx.2.2]; omega))) fun J' hJ' =>
        Tot.pure ⟨hC', hJ'⟩
  unfold Tinyfk.comRow
  refine Tot.bind Tot.getCom fun _ _ => Tot.bind (Tot.size hC (SizeOf.setCol (by rw [hC.1]; rfl) (by rw [hC.2]; omega)))
    fun C' hC' => ?_
  cases wj with
  | false => exact key _ _ hC' hJ
  | true =>
    refine Tot.bind (Tot.getComJacobian (ht rfl) hi) fun A hA => ?_
    exact Tot.bind (Tot.size hJ (SizeOf.setBlock (by rw [hA.1, hJ.1]; omega) (by rw [hA.2, hJ.2]; omega)))
      fun J' hJ' => key _ _ hC' hJ'

theorem Bad.comRow {ids al : List Nat} {wb wj : Bool} {fs : List K} {i nd : Nat} {C J : Mat K}
    (ht : wj = true → B.T) (hi : Below B.nj ids) (ha : ¬ ActOk B.nl fs 0 al) :
    Bad B (comRow ids al fs wb wj nd i C J) := by
  have key : ∀ C J, Bad B (if al.length > 0 then (do
      let (s, C, J) ← Tinyfk.actionLoop ids wb wj fs i nd al 0 1 C J
      let C ← Prog.lift (C.mapBlock 0 i 3 1 (· / s))
      let J ← if wj then Prog.lift (J.mapBlock (3 * i) 0 3 nd (· / s)) else Pure.pure J
      Pure.pure (C, J))
      else Pure.pure (C, J) : Prog (KinModel K) (Mat K × Mat K)) := by
    intro C J
    have : al.length > 0 := by
      cases al with
      | nil => exact absurd ⟨fun _ h => (by cases h), fun h => absurd rfl h⟩ ha
      | cons => simp
    rw [if_pos this]
    exact Bad.left (Bad.actionLoop ht hi ha)
  unfold Tinyfk.comRow
  refine Bad.right Tot.getCom.mild fun _ => Bad.right (Mild.lift (OkUb.setCol _ _ _ _)) fun C' => ?_
  cases wj with
  | false => exact key _ _
  | true =>
    exact Bad.right (Tot.getComJacobian (ht rfl) hi).mild fun A => Bad.right (Mild.lift (OkUb.setBlock _ _ _ _))
      fun J' => key _ _

theorem Tot.comFkLoop {ids al : List Nat} {wb wj : Bool} {fs : List K} {qs : List (List K)} {i n : Nat} {C J : Mat K}
    (ht : wj = true → B.T) (hq : ∀ q ∈ qs, RowOk B.nj ids wb q) (ha : ActOk B.nl fs 0 al) (hin : i + qs.length ≤ n)
    (hC : Dim 3 n C) (hJ : Dim (3 * n) (nCols ids wb) J) :
    Tot B (comFkLoop ids al fs wb wj (nCols ids wb) qs i C J) (fun _ => True) := by
  induction qs generalizing i C J with
  | nil => exact Tot.pure trivial
  | cons q qs ih =>
    simp only [List.length_cons] at hin
    exact Tot.config (hq q (by simp)) (Tot.bind (Tot.comRow ht (hq q (by simp)).1 ha (by omega) hC hJ) fun x hx =>
      ih (fun q h => hq q (by simp [h])) (by omega) hx.1 hx.2)

theorem Bad.comFkLoop {ids al : List Nat} {wb wj : Bool} {fs : List K} {q : List K} {qs : List (List K)} {i nd : Nat}
    {C J : Mat K} (ht : wj = true → B.T) (hb : ¬ (RowOk B.nj ids wb q ∧ ActOk B.nl fs 0 al)) :
    Bad B (comFkLoop ids al fs wb wj nd (q :: qs) i C J) := by
  by_cases h1 : RowOk B.nj ids wb q
  · exact Bad.config_then (Bad.left (Bad.comRow ht h1.1 fun h => hb ⟨h1, h⟩))
  · exact Bad.config h1 _

theorem Tot.solveComFk {qs : List (List K)} {ids al : List Nat} {fs : List K} {wb wj : Bool}
    (ht : wj = true → B.T) (hr : Rows ids wb qs) (h : qs ≠ [] → Below B.nj ids ∧ ActOk B.nl fs 0 al) :
    Tot B (solveComForwardKinematics qs ids al fs wb wj) (fun _ => True) := by
  refine Tot.bind (Q := fun _ => True) ?_ fun x _ => Tot.pure trivial
  cases qs with
  | nil => exact Tot.pure trivial
  | cons q qs =>
    obtain ⟨a, b⟩ := h (by simp)
    exact Tot.comFkLoop (n := (q :: qs).length) ht (hr.ok a) b (by simp) ⟨rfl, rfl⟩ ⟨rfl, rfl⟩

theorem Bad.solveComFk {qs : List (List K)} {ids al : List Nat} {fs : List K} {wb wj : Bool}
    (ht : wj = true → B.T) (hb : ¬ (qs ≠ [] → Below B.nj ids ∧ ActOk B.nl fs 0 al)) :
    Bad B (solveComForwardKinematics qs ids al fs wb wj) := by
  cases qs with
  | nil => exact absurd (fun h => absurd rfl h) hb
  | cons q qs => exact Bad.left (Bad.comFkLoop ht fun h => hb fun _ => ⟨h.1.1, h.2⟩)

/-! ### `compute_inter_link_squared_dists` -/

theorem Tot.distLoop {ids : List Nat} {wb wg : Bool} {head0 : Nat} {l1 l2 : List Nat} {j n r c : Nat} {D G : Mat K}
    (ht : wg = true → B.T) (hi : Below B.nj ids) (h1 : Below B.nl l1)
    (h2 : ∀ k, j ≤ k → k < j + l1.length → ∃ l, l2[k]? = some l ∧ l < B.nl)
    (hn : head0 + j + l1.length ≤ n) (hD : Dim n 1 D) (hG : Dim r c G)
    (hg : wg = true → r = n ∧ c = nCols ids wb) :
    Tot B (distLoop ids wb wg (nCols ids wb) head0 l2 l1 j D G) (fun x => Dim n 1 x.1 ∧ Dim r c x.2) := by
  induction l1 generalizing j D G with
  | nil => exact Tot.pure ⟨hD, hG⟩
  | cons l l1 ih =>
    simp only [List.length_cons] at hn h2
    obtain ⟨l', e1, e2⟩ := h2 j (by omega) (by omega)
    unfold Tinyfk.distLoop
    refine Tot.bind (Tot.getLinkPose (h1 l (by simp))) fun tf1 _ => ?_
    refine Tot.bind (Q := fun x => x = l') (Tot.lift ⟨l', by simp [Outcome.idx, e1], rfl⟩) fun x hx => ?_
    subst hx
    refine Tot.bind (Tot.getLinkPose e2) fun tf2 _ => ?_
    refine Tot.bind (Tot.size hD (SizeOf.set (by rw [hD.1]; omega) (by rw [hD.2]; omega))) fun D' hD' => ?_
    have h2' : ∀ k, j + 1 ≤ k → k < j + 1 + l1.length → ∃ l, l2[k]? = some l ∧ l < B.nl :=
      fun k a b => h2 k (by omega) (by omega)
    cases wg with
    | false => exact ih (fun i h => h1 i (by simp [h])) h2' (by omega) hD' hG
    | true =>
      obtain ⟨rfl, rfl⟩ := hg rfl
      refine Tot.bind (Tot.getJacobian (ht rfl) (h1 l (by simp)) hi) fun A hA => ?_
      refine Tot.bind (Tot.getJacobian (ht rfl) e2 hi) fun A' hA' => ?_
      exact Tot.bind (Tot.size hG (SizeOf.setBlock (by rw [hG.1]; simp; omega) (by rw [hG.2]; simp))) fun G' hG' =>
        ih (fun i h => h1 i (by simp [h])) h2' (by omega) hD' hG'

theorem Bad.distLoop {ids : List Nat} {wb wg : Bool} {nJ head0 : Nat} {ps : List (Nat × Nat)} {l2 : List Nat} {j : Nat}
    {D G : Mat K} (ht : wg = true → B.T) (hi : Below B.nj ids)
    (hl2 : ∀ k p, ps[k]? = some p → l2[j + k]? = some p.2)
    (hb : ¬ ∀ p ∈ ps, p.1 < B.nl ∧ p.2 < B.nl) :
    Bad B (distLoop ids wb wg nJ head0 l2 (ps.map Prod.fst) j D G) := by
  induction ps generalizing j D G with
  | nil => exact absurd (fun p h => by cases h) hb
  | cons p ps ih =>
    have e1 : l2[j]? = some p.2 := hl2 0 p rfl
    rw [List.map_cons]
    unfold Tinyfk.distLoop
    by_cases h1 : p.1 < B.nl
    · refine Bad.right (Mild.getLinkPose _) fun tf1 => ?_
      have : (Outcome.idx "link_ids2" l2 j) = .ok p.2 := by simp [Outcome.idx, e1]
      rw [this]
      refine Bad.lift_ok ?_
      by_cases h2 : p.2 < B.nl
      · refine Bad.right (Mild.getLinkPose _) fun tf2 => Bad.right (Mild.lift (OkUb.set _ _ _ _)) fun D' => ?_
        have hb' : ¬ ∀ p ∈ ps, p.1 < B.nl ∧ p.2 < B.nl := fun h => hb fun p' hp' => by
          rcases List.mem_cons.mp hp' with rfl | hp'
          · exact ⟨h1, h2⟩
          · exact h p' hp'
        have hl2' : ∀ k p, ps[k]? = some p → l2[j + 1 + k]? = some p.2 := fun k p' hk => by
          have := hl2 (k + 1) p' (by simpa using hk)
          rw [show j + 1 + k = j + (k + 1) by omega]; exact this
        cases wg with
        | false => exact ih hl2' hb'
        | true =>
          exact Bad.right (Mild.getJacobian (ht rfl) hi) fun A => Bad.right (Mild.getJacobian (ht rfl) hi) fun A' =>
            Bad.right (Mild.lift (OkUb.setBlock _ _ _ _)) fun G' => ih hl2' hb'
      · exact Bad.left (Bad.getLinkPose h2)
    · exact Bad.left (Bad.getLinkPose h1)

theorem Mild.distLoop {ids : List Nat} {wb wg : Bool} {nJ head0 : Nat} {l1 l2 : List Nat} {j : Nat}
    {D G : Mat K} (ht : wg = true → B.T) (hi : Below B.nj ids) :
    Mild B (distLoop ids wb wg nJ head0 l2 l1 j D G) := by
  induction l1 generalizing j D G with
  | nil => exact Mild.pure _
  | cons p ps ih =>
    unfold Tinyfk.distLoop
    refine Mild.bind (Mild.getLinkPose _) fun tf1 => Mild.bind (Mild.lift (OkUb.idx _ _ _)) fun l' => ?_
    refine Mild.bind (Mild.getLinkPose _) fun tf2 => Mild.bind (Mild.lift (OkUb.set _ _ _ _)) fun D' => ?_
    cases wg with
    | false => exact ih
    | true =>
      exact Mild.bind (Mild.getJacobian (ht rfl) hi) fun A => Mild.bind (Mild.getJacobian (ht rfl) hi) fun A' =>
        Mild.bind (Mild.lift (OkUb.setBlock _ _ _ _)) fun G' => ih

theorem pairs_snd {ps : List (Nat × Nat)} (h : ∀ p ∈ ps, p.1 < B.nl ∧ p.2 < B.nl) (k : Nat) (hk : k < ps.length) :
    ∃ l, (ps.map Prod.snd)[k]? = some l ∧ l < B.nl :=
  ⟨(ps[k]).2, by simp [hk], (h _ (List.getElem_mem hk)).2⟩

theorem Tot.distFkLoop {ids : List Nat} {ps : List (Nat × Nat)} {wb wg uc : Bool} {qs : List (List K)} {i n : Nat}
    {r c : Nat} {D G : Mat K} (ht : wg = true → B.T) (hp : ∀ p ∈ ps, p.1 < B.nl ∧ p.2 < B.nl)
    (hq : ∀ q ∈ qs, RowOk B.nj ids wb q) (hin : i + qs.length ≤ n)
    (hD : Dim (ps.length * n) 1 D) (hG : Dim r c G) (hg : wg = true → r = ps.length * n ∧ c = nCols ids wb) :
    Tot B (distFkLoop ids (ps.map Prod.fst) (ps.map Prod.snd) wb wg uc (nCols ids wb) qs i D G)
      (fun x => Dim r c x.2) := by
  induction qs generalizing i D G with
  | nil => exact Tot.pure hG
  | cons q qs ih =>
    simp only [List.length_cons] at hin
    have hle : ps.length * (i + 1) ≤ ps.length * n := Nat.mul_le_mul_left _ (by omega)
    have ea : ps.length * (i + 1) = i * ps.length + ps.length := by ring
    refine Tot.bind (Tot.applyConfig (hq q (by simp))) fun _ _ => ?_
    refine Tot.bind (Tot.distLoop ht (hq q (by simp)).1 (fun l hl => ?_) (fun k _ hk => ?_) ?_ hD hG hg) fun x hx =>
      ih (fun q h => hq q (by simp [h])) (by omega) hx.1 hx.2
    · obtain ⟨p, hp', rfl⟩ := List.mem_map.mp hl
      exact (hp p hp').1
    · exact pairs_snd hp k (by simpa using hk)
    · simp only [List.length_map]; omega

theorem Bad.distFkLoop {ids : List Nat} {ps : List (Nat × Nat)} {wb wg uc : Bool} {qs : List (List K)} {i nJ : Nat}
    {D G : Mat K} (ht : wg = true → B.T)
    (hb : ¬ (qs ≠ [] → (∀ p ∈ ps, p.1 < B.nl ∧ p.2 < B.nl) ∧ ∀ q ∈ qs, RowOk B.nj ids wb q)) :
    Bad B (distFkLoop ids (ps.map Prod.fst) (ps.map Prod.snd) wb wg uc nJ qs i D G) := by
  induction qs generalizing i D G with
  | nil => exact absurd (fun h => absurd rfl h) hb
  | cons q qs ih =>
    by_cases hq : RowOk B.nj ids wb q
    · refine Bad.right (Mild.applyConfig _ _ _ _) fun _ => ?_
      by_cases hp : ∀ p ∈ ps, p.1 < B.nl ∧ p.2 < B.nl
      · refine Bad.right (Mild.distLoop ht hq.1) fun x => ih fun h => hb fun _ => ⟨hp, fun q' hq' => ?_⟩
        rcases List.mem_cons.mp hq' with rfl | hq'
        · exact hq
        · exact (h (List.ne_nil_of_mem hq')).2 q' hq'
      · exact Bad.left (Bad.distLoop ht hq.1 (fun k p hk => by simp [hk]) hp)
    · exact Bad.left (Bad.applyConfig hq)

theorem Tot.sqdists {ids : List Nat} {ps : List (Nat × Nat)} {wb wg uc : Bool} {qs : List (List K)}
    (ht : wg = true → B.T)
    (h : qs ≠ [] → (∀ p ∈ ps, p.1 < B.nl ∧ p.2 < B.nl) ∧ ∀ q ∈ qs, RowOk B.nj ids wb q) :
    Tot B (computeInterLinkSquaredDists qs (ps.map Prod.fst) (ps.map Prod.snd) ids wb wg uc)
      (fun x => wg = true → x.2.cols = nCols ids wb) := by
  unfold computeInterLinkSquaredDists
  cases qs with
  | nil =>
    refine Tot.pure fun hw => ?_
    simp [hw, Mat.zero, nCols]
  | cons q qs =>
    obtain ⟨a, b⟩ := h (by simp)
    cases wg with
    | false =>
      exact (Tot.distFkLoop (n := (q :: qs).length) ht a b (by simp) ⟨by simp [Mat.zero], rfl⟩ ⟨rfl, rfl⟩ (by simp)).mono
        fun x _ h => by cases h
    | true =>
      exact (Tot.distFkLoop (n := (q :: qs).length) ht a b (by simp) ⟨by simp [Mat.zero], rfl⟩
        ⟨rfl, rfl⟩ (fun _ => by simp [Mat.zero, nCols])).mono fun x hx _ => hx.2

theorem Bad.sqdists {ids : List Nat} {ps : List (Nat × Nat)} {wb wg uc : Bool} {qs : List (List K)}
    (ht : wg = true → B.T)
    (h : ¬ (qs ≠ [] → (∀ p ∈ ps, p.1 < B.nl ∧ p.2 < B.nl) ∧ ∀ q ∈ qs, RowOk B.nj ids wb q)) :
    Bad B (computeInterLinkSquaredDists qs (ps.map Prod.fst) (ps.map Prod.snd) ids wb wg uc) := Bad.distFkLoop ht h

/-! ### Other methods -/

theorem Tot.inertia {q : List K} {ids : List Nat} (h1 : Below B.nj ids) (h2 : ids.length ≤ q.length) :
    Tot B (computeTotalInertiaMatrix q ids) (fun _ => True) := Tot.bind (Tot.setNC h1 h2) fun _ _ => Tot.getTotalInertia

theorem Bad.inertia {q : List K} {ids : List Nat} (h : ¬ (Below B.nj ids ∧ ids.length ≤ q.length)) :
    Bad B (computeTotalInertiaMatrix q ids) := Bad.left (Bad.setNC h)

theorem mapOutcome_bad {f : α → Outcome β} {l : List α} (h : ∀ a ∈ l, OkUb (f a)) (hb : ∃ a ∈ l, ∃ u, f a = .ub u) :
    ∃ u, mapOutcome f l = .ub u := by
  induction l with
  | nil => obtain ⟨a, ha, _⟩ := hb; cases ha
  | cons a l ih =>
    unfold mapOutcome
    rcases h a (by simp) with ⟨b, e⟩ | ⟨u, e⟩
    · rw [e]
      have : ∃ a ∈ l, ∃ u, f a = .ub u := by
        obtain ⟨a', ha', u, hu⟩ := hb
        rcases List.mem_cons.mp ha' with rfl | ha'
        · rw [e] at hu; cases hu
        · exact ⟨a', ha', u, hu⟩
      obtain ⟨u, hu⟩ := ih (fun a ha => h a (by simp [ha])) this
      exact ⟨u, by simp [Outcome.bind, hu]⟩
    · exact ⟨u, by rw [e]; rfl⟩

theorem Tot.getJointAngles {ids : List Nat} (h : Below B.nj ids) :
    Tot B (getJointAngles ids : Prog (KinModel K) (List K)) (fun _ => True) := by
  refine Tot.read fun m hm => ?_
  obtain ⟨bs, e⟩ := mapOutcome_total (Outcome.idx "joint_angles_" m.angles) ids fun i hi => by
    have : i < m.angles.length := by rw [hm.angles]; exact h i hi
    exact ⟨m.angles[i], by simp [Outcome.idx, this]⟩
  exact ⟨bs, e, trivial⟩

theorem Bad.getJointAngles {ids : List Nat} (h : ¬ Below B.nj ids) :
    Bad B (getJointAngles ids : Prog (KinModel K) (List K)) := by
  intro m hm
  unfold Below at h
  push Not at h
  obtain ⟨i, hi, hlt⟩ := h
  obtain ⟨u, e⟩ := mapOutcome_bad (f := Outcome.idx "joint_angles_" m.angles) (l := ids) (fun _ _ => OkUb.idx _ _ _)
    ⟨i, hi, _, by
      have : m.angles[i]? = none := List.getElem?_eq_none_iff.mpr (by rw [hm.angles]; exact hlt)
      simp only [Outcome.idx, this]; rfl⟩
  exact ⟨u, by simp [Tinyfk.getJointAngles, Prog.read, e]⟩

theorem Tot.limits {ids : List Nat} (hl : B.L) (h : Below B.nj ids) :
    Tot B (getJointPositionLimits ids : Prog (KinModel K) _) (fun _ => True) := by
  refine Tot.read fun m hm => ?_
  obtain ⟨bs, e⟩ := mapOutcome_total (positionLimit m) ids fun i hi => by
    obtain ⟨jp, j, c, h1, h2, _, _, h3⟩ := hm.joint i (h i hi)
    unfold positionLimit
    simp only [Outcome.idx, h1, derefJoint, h2, Outcome.bind_eq, Outcome.bind_ok]
    by_cases hc : j.type = .continuous
    · exact ⟨_, by simp [hc]; rfl⟩
    · obtain ⟨l, hl'⟩ := Option.isSome_iff_exists.mp (h3 hl hc)
      simp [hc, hl']
  exact ⟨bs, e, trivial⟩

theorem positionLimit_okUb (m : KinModel K) (i : Nat) : OkUb (positionLimit m i) := by
  unfold positionLimit
  refine (OkUb.idx _ _ _).bind fun jp => OkUb.bind ?_ fun j => ?_
  · unfold derefJoint; split
    · exact .ok _
    · exact .ub _
  · split
    · exact .ok _
    · split
      · exact .ok _
      · exact .ub _

theorem Bad.limits {ids : List Nat} (h : ¬ Below B.nj ids) :
    Bad B (getJointPositionLimits ids : Prog (KinModel K) _) := by
  intro m hm
  unfold Below at h
  push Not at h
  obtain ⟨i, hi, hlt⟩ := h
  obtain ⟨u, e⟩ := mapOutcome_bad (f := positionLimit m) (l := ids) (fun _ _ => positionLimit_okUb _ _)
    ⟨i, hi, _, by
      have : m.joints[i]? = none := List.getElem?_eq_none_iff.mpr (by rw [hm.njoints]; exact hlt)
      unfold positionLimit
      simp only [Outcome.idx, this]; rfl⟩
  exact ⟨u, by simp [getJointPositionLimits, Prog.read, e]⟩

end Tinyfk
