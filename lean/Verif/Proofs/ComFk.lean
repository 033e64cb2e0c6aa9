import Verif.Props.SolveFk
import Verif.Spec.Com

/-!
# `solve_com_forward_kinematics`
-/

set_option linter.unusedSectionVars false

namespace Tinyfk

open Scalar

variable {K : Type} [Scalar K]
  {ls : List (RawLink K)} {js : List (RawJoint K)} {m0 : KinModel K} {cs : List (Call K)} {mc m : KinModel K}

/-- three `+=` on a column -/
theorem Mat.addCol3 (C : Mat K) (i : Nat) (v : Vec3 K) (f : K) (hr : 3 ≤ C.rows) (hc : i < C.cols) :
    ((do
      let c0 ← C.get 0 i
      let C ← C.set 0 i (c0 + f * v.x)
      let c1 ← C.get 1 i
      let C ← C.set 1 i (c1 + f * v.y)
      let c2 ← C.get 2 i
      C.set 2 i (c2 + f * v.z)) : Outcome (Mat K)) =
    .ok ⟨C.rows, C.cols, fun r c => if c = i ∧ r < 3 then C.f r c + f * v.coord r else C.f r c⟩ := by
  simp only [Mat.get, Mat.set, hc, and_true, show 0 < C.rows by omega, show 1 < C.rows by omega,
    show 2 < C.rows by omega, if_true, Outcome.bind_eq, Outcome.bind_ok, Outcome.ok.injEq]
  congr 1
  funext r c
  match r with
  | 0 => by_cases h : c = i <;> simp [h, Vec3.coord]
  | 1 => by_cases h : c = i <;> simp [h, Vec3.coord]
  | 2 => by_cases h : c = i <;> simp [h, Vec3.coord]
  | r + 3 => simp

theorem Mat.addBlock_ok (M : Mat K) (i j r c : Nat) (s : K) (B : Mat K) (h1 : i + r ≤ M.rows)
    (h2 : j + c ≤ M.cols) (h3 : B.rows = r) (h4 : B.cols = c) :
    M.addBlock i j r c s B = .ok ⟨M.rows, M.cols, fun a b =>
      if i ≤ a ∧ a < i + r ∧ j ≤ b ∧ b < j + c then M.f a b + s * B.f (a - i) (b - j) else M.f a b⟩ := by
  unfold Mat.addBlock; rw [if_pos ⟨h1, h2, h3, h4⟩]

theorem Mat.mapBlock_ok (M : Mat K) (i j r c : Nat) (g : K → K) (h1 : i + r ≤ M.rows)
    (h2 : j + c ≤ M.cols) :
    M.mapBlock i j r c g = .ok { M with f := fun a b =>
      if i ≤ a ∧ a < i + r ∧ j ≤ b ∧ b < j + c then g (M.f a b) else M.f a b } := by
  unfold Mat.mapBlock; rw [if_pos ⟨h1, h2⟩]

theorem Query.actionLoop {m : KinModel K} {ids : List Nat} {wb wj : Bool} {fs : List K} {i nDof : Nat}
    {al : List Nat} {Ts : List (Pose K)} (hT : List.Forall₂ (IsPose m) al Ts) (Bs : List (Mat K))
    (hB : wj = true → List.Forall₂ (fun l B => Query m (Tinyfk.getJacobian l ids .ignore wb) B ∧ B.rows = 3 ∧
      B.cols = nDof) al Bs) (j : Nat) (s : K) (C J : Mat K) (hf : j + al.length ≤ fs.length)
    (hCr : 3 ≤ C.rows) (hCc : i < C.cols) (hJr : 3 * i + 3 ≤ J.rows) (hJc : nDof ≤ J.cols) :
    ∃ C' J', Query m (actionLoop ids wb wj fs i nDof al j s C J)
        (((fs.drop j).zip Ts).foldl (fun s a => s + a.1 / m.totalMass) s, C', J') ∧
      C'.rows = C.rows ∧ C'.cols = C.cols ∧ J'.rows = J.rows ∧ J'.cols = J.cols ∧
      (∀ r c, C'.f r c = if c = i ∧ r < 3 then
        ((fs.drop j).zip Ts).foldl (fun x a => x + a.1 / m.totalMass * a.2.position.coord r) (C.f r c)
        else C.f r c) ∧
      ∀ r c, J'.f r c = if wj = true ∧ 3 * i ≤ r ∧ r < 3 * i + 3 ∧ c < nDof then
        ((fs.drop j).zip Bs).foldl (fun x a => x + a.1 / m.totalMass * a.2.f (r - 3 * i) c) (J.f r c)
        else J.f r c := by
  induction hT generalizing Bs j s C J with
  | nil =>
    refine ⟨C, J, ?_, rfl, rfl, rfl, rfl, ?_, ?_⟩
    · rw [List.zip_nil_right]
      exact Query.pure m (s, C, J)
    · intro r c; simp
    · intro r c
      by_cases hw : wj = true
      · cases hB hw; simp
      · simp [hw]
  | @cons l T al Ts hT hTs ih =>
    simp only [List.length_cons] at hf
    have hd : fs.drop j = fs[j] :: fs.drop (j + 1) := (List.getElem_cons_drop (by omega)).symm
    have hadd := Mat.addCol3 C i T.position (fs[j] / m.totalMass) hCr hCc
    generalize hC1 : (⟨C.rows, C.cols, fun r c => if c = i ∧ r < 3 then
      C.f r c + fs[j] / m.totalMass * T.position.coord r else C.f r c⟩ : Mat K) = C1 at hadd
    have c1 : C1.rows = C.rows := by rw [← hC1]
    have c2 : C1.cols = C.cols := by rw [← hC1]
    have c3 : ∀ r c, C1.f r c = if c = i ∧ r < 3 then
      C.f r c + fs[j] / m.totalMass * T.position.coord r else C.f r c := by rw [← hC1]; intros; rfl
    have hread : Query m (Prog.lift (Outcome.idx "forces" fs j)) fs[j] :=
      Query.lift (by simp only [Outcome.idx, List.getElem?_eq_getElem (by omega : j < fs.length)])
    have hmt : Query m (Prog.read fun m => Outcome.ok m.totalMass) m.totalMass :=
      Query.read (by rintro m1 ⟨⟨st, c, rfl⟩, _⟩; rfl)
    cases wj with
    | false =>
      obtain ⟨C', J', hq, d1, d2, d3, d4, d5, d6⟩ := ih [] (by simp) (j + 1) (s + fs[j] / m.totalMass) C1 J (by omega)
        (by omega) (by omega) hJr hJc
      refine ⟨C', J', ?_, d1.trans c1, d2.trans c2, d3, d4, ?_, ?_⟩
      · rw [hd]
        simp only [Tinyfk.actionLoop]
        exact hread.bind (hmt.bind ((Query.getLinkPose hT).bind ((Query.lift hadd).bind hq)))
      · intro r c
        rw [d5, hd]
        simp only [List.zip_cons_cons, List.foldl_cons, c3]
        by_cases h : c = i ∧ r < 3
        · simp only [h, and_self, if_true]
        · simp only [h, if_false]
      · intro r c; rw [d6]; simp
    | true =>
      have hBB := hB rfl
      cases hBB with
      | @cons _ B _ Bs hB0 hBs =>
        obtain ⟨hq0, hBr, hBc⟩ := hB0
        have hj := Mat.addBlock_ok J (3 * i) 0 3 nDof (fs[j] / m.totalMass) B hJr (by omega) hBr hBc
        generalize hJ1 : (⟨J.rows, J.cols, fun a b =>
          if 3 * i ≤ a ∧ a < 3 * i + 3 ∧ 0 ≤ b ∧ b < 0 + nDof then
          J.f a b + fs[j] / m.totalMass * B.f (a - 3 * i) (b - 0) else J.f a b⟩ : Mat K) = J1 at hj
        have j1 : J1.rows = J.rows := by rw [← hJ1]
        have j2 : J1.cols = J.cols := by rw [← hJ1]
        have j3 : ∀ r c, J1.f r c = if 3 * i ≤ r ∧ r < 3 * i + 3 ∧ c < nDof then
          J.f r c + fs[j] / m.totalMass * B.f (r - 3 * i) c else J.f r c := by
          rw [← hJ1]; intro r c; simp
        obtain ⟨C', J', hq, d1, d2, d3, d4, d5, d6⟩ := ih Bs (fun _ => hBs) (j + 1) (s + fs[j] / m.totalMass) C1 J1
          (by omega) (by omega) (by omega) (by omega) (by omega)
        refine ⟨C', J', ?_, d1.trans c1, d2.trans c2, d3.trans j1, d4.trans j2, ?_, ?_⟩
        · rw [hd]
          simp only [Tinyfk.actionLoop, if_true]
          exact hread.bind (hmt.bind ((Query.getLinkPose hT).bind ((Query.lift hadd).bind
            (hq0.bind ((Query.lift hj).bind hq)))))
        · intro r c
          rw [d5, hd]
          simp only [List.zip_cons_cons, List.foldl_cons, c3]
          by_cases h : c = i ∧ r < 3
          · simp only [h, and_self, if_true]
          · simp only [h, if_false]
        · intro r c
          rw [d6, hd]
          simp only [List.zip_cons_cons, List.foldl_cons, j3, true_and]
          by_cases h : 3 * i ≤ r ∧ r < 3 * i + 3 ∧ c < nDof
          · simp only [h, and_self, if_true]
          · simp only [h, if_false]

/-- The results of one configuration: `C` and `J` of configuration `i` on robot `mc`. -/
structure ComBlock (mc : KinModel K) (ids al : List Nat) (fs : List K) (wb wj : Bool) (i : Nat) (C J : Mat K) :
    Prop where
  com : ∃ v Ts, Query mc getCom v ∧ List.Forall₂ (fun l T => Query mc (getLinkPose l) T) al Ts ∧
    ∀ r < 3, C.f r i = actionMean mc.totalMass (fs.zip (Ts.map fun T => T.position.coord r)) (v.coord r)
  jac : wj = true → ∃ B Bs, Query mc (getComJacobian ids wb) B ∧ B.rows = 3 ∧
    B.cols = ids.length + (if wb then 6 else 0) ∧
    List.Forall₂ (fun l B => Query mc (getJacobian l ids .ignore wb) B) al Bs ∧
    ∀ r < 3, ∀ c < ids.length + (if wb then 6 else 0), J.f (3 * i + r) c =
      actionMean mc.totalMass (fs.zip (Bs.map fun B => B.f r c)) (B.f r c)

theorem zip_ne_nil {α β : Type} {as : List α} {bs : List β} (h : bs ≠ []) (hl : bs.length ≤ as.length) :
    as.zip bs ≠ [] := by
  intro hn
  have := congrArg List.length hn
  simp at this
  rcases this with rfl | rfl
  · simp at hl; exact h hl
  · exact h rfl

theorem foldl_zip_map {α β γ : Type} (fs : List K) (Ts : List α) (g : α → β) (F : γ → K → β → γ) (x : γ) :
    (fs.zip (Ts.map g)).foldl (fun y a => F y a.1 a.2) x = (fs.zip Ts).foldl (fun y a => F y a.1 (g a.2)) x := by
  induction fs generalizing Ts x with
  | nil => simp
  | cons f fs ih =>
    cases Ts with
    | nil => simp
    | cons T Ts => simp only [List.map_cons, List.zip_cons_cons, List.foldl_cons]; exact ih _ _

theorem Reach.comRow (h : Reach ls js m0 cs mc) {ids al : List Nat} {fs : List K} {wb wj : Bool}
    (hi : ∀ i ∈ ids, i < m0.joints.length) (ha : ∀ l ∈ al, l < mc.links.length) (hfs : al.length ≤ fs.length)
    (hne : wj = true → al ≠ [] → (∃ r ∈ ls, r.inertial.isSome) ∨ weldsAfter (names0 m0) cs ≠ [])
    (i n : Nat) (hin : i < n) (C J : Mat K) (hCr : C.rows = 3) (hCc : C.cols = n)
    (hJr : J.rows = 3 * n) (hJc : J.cols = ids.length + if wb then 6 else 0) :
    ∃ C' J', Query mc (Tinyfk.comRow ids al fs wb wj (ids.length + if wb then 6 else 0) i C J) (C', J') ∧
      C'.rows = C.rows ∧ C'.cols = C.cols ∧ J'.rows = J.rows ∧ J'.cols = J.cols ∧
      (∀ r c, c ≠ i → C'.f r c = C.f r c) ∧ (∀ r c, r < 3 * i → J'.f r c = J.f r c) ∧
      (wj = false → J' = J) ∧ ComBlock mc ids al fs wb wj i C' J' := by
  have hinv := h.abs.inv
  obtain ⟨xs, hxs⟩ := hinv.exists_comPts
  have hcom := Query.getCom hxs
  generalize comVal xs = v at hcom
  clear hxs xs
  obtain ⟨Ts, hTs⟩ := forall₂_exists (R := IsPose mc) al fun l hl => hinv.exists_pose (ha l hl)
  have hTq : List.Forall₂ (fun l T => Query mc (getLinkPose l) T) al Ts := hTs.imp fun _ _ h => Query.getLinkPose h
  have hTl := hTs.length_eq
  have hset := Mat.setCol_spec C 0 i [v.x, v.y, v.z] (by simp [hCr]) (by omega)
  generalize hC1 : (⟨C.rows, C.cols, fun a b => if b = i ∧ 0 ≤ a ∧ a < 0 + [v.x, v.y, v.z].length then
    [v.x, v.y, v.z].getD (a - 0) 0 else C.f a b⟩ : Mat K) = C1 at hset
  have c1 : C1.rows = C.rows := by rw [← hC1]
  have c2 : C1.cols = C.cols := by rw [← hC1]
  have c3 : ∀ r c, C1.f r c = if c = i ∧ r < 3 then v.coord r else C.f r c := by
    rw [← hC1]; intro r c
    match r with
    | 0 => simp [Vec3.coord]
    | 1 => simp [Vec3.coord]
    | 2 => simp [Vec3.coord]
    | r + 3 => simp
  have hmap3 : ∀ (x : Mat K) (s : K), x.rows = C.rows → x.cols = C.cols →
      ∃ y, x.mapBlock 0 i 3 1 (· / s) = .ok y ∧ y.rows = C.rows ∧ y.cols = C.cols ∧
        ∀ r c, y.f r c = if c = i ∧ r < 3 then x.f r c / s else x.f r c := by
    intro x s h1 h2
    refine ⟨_, Mat.mapBlock_ok x 0 i 3 1 _ (by omega) (by omega), h1, h2, ?_⟩
    intro r c
    by_cases h : c = i ∧ r < 3
    · simp only [if_pos h, if_pos (show 0 ≤ r ∧ r < 0 + 3 ∧ i ≤ c ∧ c < i + 1 by omega)]
    · simp only [if_neg h, if_neg (show ¬ (0 ≤ r ∧ r < 0 + 3 ∧ i ≤ c ∧ c < i + 1) by omega)]
  have hsum : ∀ g : Pose K → K, (fs.zip (Ts.map g)).foldl (fun s a => s + a.1 / mc.totalMass) 1 =
      (fs.zip Ts).foldl (fun s a => s + a.1 / mc.totalMass) 1 := fun g =>
    foldl_zip_map fs Ts g (fun s f _ => s + f / mc.totalMass) 1
  have hpos : ∀ r x, (fs.zip (Ts.map fun T => T.position.coord r)).foldl (fun y a => y + a.1 / mc.totalMass * a.2) x =
      (fs.zip Ts).foldl (fun y a => y + a.1 / mc.totalMass * a.2.position.coord r) x := fun r x =>
    foldl_zip_map fs Ts (fun T : Pose K => T.position.coord r) (fun y f t => y + f / mc.totalMass * t) x
  cases wj with
  | false =>
    by_cases hal : al.length > 0
    · obtain ⟨C2, J2, hq, d1, d2, d3, d4, d5, d6⟩ := Query.actionLoop (wj := false) (i := i)
        (nDof := ids.length + if wb then 6 else 0) (ids := ids) (wb := wb) (fs := fs) hTs [] (by simp) 0 1 C1 J
        (by omega) (by omega) (by omega) (by omega) (by omega)
      have hJ2 : J2 = J := by
        cases J2; cases J; simp only at d3 d4 d6; subst d3 d4
        congr 1; funext r c; rw [d6]; simp
      subst hJ2
      simp only [List.drop_zero] at hq d5
      obtain ⟨C3, e3, f1, f2, f3⟩ := hmap3 C2 ((fs.zip Ts).foldl (fun s a => s + a.1 / mc.totalMass) 1)
        (d1.trans c1) (d2.trans c2)
      refine ⟨C3, J2, ?_, f1, f2, rfl, rfl, ?_, fun _ _ _ => rfl, fun _ => rfl, ?_, by simp⟩
      · unfold Tinyfk.comRow
        simp only [hal, if_true, Bool.false_eq_true, if_false]
        exact hcom.bind ((Query.lift hset).bind ((Query.pure _ _).bind
          (hq.bind ((Query.lift e3).bind ((Query.pure _ _).bind (Query.pure _ _))))))
      · intro r c hc
        rw [f3, if_neg (by simp [hc]), d5, if_neg (by simp [hc]), c3, if_neg (by simp [hc])]
      · refine ⟨v, Ts, hcom, hTq, ?_⟩
        intro r hr
        have hTn : Ts ≠ [] := by intro hn; rw [hn] at hTl; simp at hTl; simp [hTl] at hal
        unfold actionMean
        rw [if_neg (zip_ne_nil (by simpa using hTn) (by simp; omega)), hsum, hpos, f3, if_pos ⟨rfl, hr⟩, d5,
          if_pos ⟨rfl, hr⟩, c3, if_pos ⟨rfl, hr⟩]
    · have hal0 : al = [] := List.length_eq_zero_iff.mp (by omega)
      subst hal0
      cases hTs
      refine ⟨C1, J, ?_, c1, c2, rfl, rfl, ?_, fun _ _ _ => rfl, fun _ => rfl, ?_, by simp⟩
      · unfold Tinyfk.comRow
        simp only [List.length_nil, gt_iff_lt, Nat.lt_irrefl, if_false, Bool.false_eq_true]
        exact hcom.bind ((Query.lift hset).bind ((Query.pure _ _).bind (Query.pure _ _)))
      · intro r c hc; rw [c3, if_neg (by simp [hc])]
      · refine ⟨v, [], hcom, .nil, ?_⟩
        intro r hr
        rw [c3, if_pos ⟨rfl, hr⟩]; simp [actionMean]
  | true =>
    obtain ⟨ys, hys⟩ := hinv.exists_comJacs (ids := ids) (by rw [h.abs.joints]; exact hi) wb mc.base
    have hcj := Query.getComJacobian hys (fun _ => h.root_pose)
    have hBr : (comJacVal (ids.length + if wb then 6 else 0) ys).rows = 3 := rfl
    have hBc : (comJacVal (ids.length + if wb then 6 else 0) ys).cols = ids.length + if wb then 6 else 0 := rfl
    generalize comJacVal (ids.length + if wb then 6 else 0) ys = B at hcj hBr hBc
    clear hys ys
    have hsetJ := Mat.setBlock_ok J (3 * i) 0 B (by omega) (by omega)
    generalize hJ1 : (⟨J.rows, J.cols, fun a b =>
      if 3 * i ≤ a ∧ a < 3 * i + B.rows ∧ 0 ≤ b ∧ b < 0 + B.cols then B.f (a - 3 * i) (b - 0) else J.f a b⟩ : Mat K)
      = J1 at hsetJ
    have j1 : J1.rows = J.rows := by rw [← hJ1]
    have j2 : J1.cols = J.cols := by rw [← hJ1]
    have j3 : ∀ r c, J1.f r c = if 3 * i ≤ r ∧ r < 3 * i + 3 ∧ c < ids.length + (if wb then 6 else 0) then
        B.f (r - 3 * i) c else J.f r c := by
      rw [← hJ1]; intro r c; simp [hBr, hBc]
    by_cases hal : al.length > 0
    · have hBs : ∃ Bs, List.Forall₂ (fun l B => Query mc (Tinyfk.getJacobian l ids .ignore wb) B ∧ B.rows = 3 ∧
          B.cols = ids.length + if wb then 6 else 0) al Bs :=
        forall₂_exists al fun l hl => by
          obtain ⟨B, q1, q2, q3⟩ := h.jacQuery (hne rfl (by rintro rfl; simp at hal)) (ha l hl) hi .ignore wb
          exact ⟨B, q1, q2, by rw [q3, wrapBase_dof]⟩
      obtain ⟨Bs, hBs⟩ := hBs
      have hBl := hBs.length_eq
      obtain ⟨C2, J2, hq, d1, d2, d3, d4, d5, d6⟩ := Query.actionLoop (wj := true) (i := i)
        (nDof := ids.length + if wb then 6 else 0) (ids := ids) (wb := wb) (fs := fs) hTs Bs (fun _ => hBs) 0 1 C1 J1
        (by omega) (by omega) (by omega) (by omega) (by omega)
      simp only [List.drop_zero] at hq d5 d6
      obtain ⟨C3, e3, f1, f2, f3⟩ := hmap3 C2 ((fs.zip Ts).foldl (fun s a => s + a.1 / mc.totalMass) 1)
        (d1.trans c1) (d2.trans c2)
      have eJ := Mat.mapBlock_ok J2 (3 * i) 0 3 (ids.length + if wb then 6 else 0)
        (· / ((fs.zip Ts).foldl (fun s a => s + a.1 / mc.totalMass) 1)) (by omega) (by omega)
      generalize hJ3 : (⟨J2.rows, J2.cols, fun a b => if 3 * i ≤ a ∧ a < 3 * i + 3 ∧ 0 ≤ b ∧
        b < 0 + (ids.length + if wb then 6 else 0) then
        J2.f a b / ((fs.zip Ts).foldl (fun s a => s + a.1 / mc.totalMass) 1) else J2.f a b⟩ : Mat K) = J3 at eJ
      have k1 : J3.rows = J2.rows := by rw [← hJ3]
      have k2 : J3.cols = J2.cols := by rw [← hJ3]
      have k3 : ∀ r c, J3.f r c = if 3 * i ≤ r ∧ r < 3 * i + 3 ∧ 0 ≤ c ∧
        c < 0 + (ids.length + if wb then 6 else 0) then
        J2.f r c / ((fs.zip Ts).foldl (fun s a => s + a.1 / mc.totalMass) 1) else J2.f r c := by
        rw [← hJ3]; intros; rfl
      refine ⟨C3, J3, ?_, f1, f2, k1.trans (d3.trans j1), k2.trans (d4.trans j2), ?_, ?_, by simp, ?_, ?_⟩
      · unfold Tinyfk.comRow
        simp only [hal, if_true]
        exact hcom.bind ((Query.lift hset).bind (hcj.bind ((Query.lift hsetJ).bind
          (hq.bind ((Query.lift e3).bind ((Query.lift eJ).bind (Query.pure _ _)))))))
      · intro r c hc
        rw [f3, if_neg (by simp [hc]), d5, if_neg (by simp [hc]), c3, if_neg (by simp [hc])]
      · intro r c hr
        rw [k3, if_neg (by omega), d6, if_neg (by omega), j3, if_neg (by omega)]
      · refine ⟨v, Ts, hcom, hTq, ?_⟩
        intro r hr
        have hTn : Ts ≠ [] := by intro hn; rw [hn] at hTl; simp at hTl; simp [hTl] at hal
        unfold actionMean
        rw [if_neg (zip_ne_nil (by simpa using hTn) (by simp; omega)), hsum, hpos, f3, if_pos ⟨rfl, hr⟩, d5,
          if_pos ⟨rfl, hr⟩, c3, if_pos ⟨rfl, hr⟩]
      · intro _
        refine ⟨B, Bs, hcj, hBr, hBc, hBs.imp fun _ _ h => h.1, ?_⟩
        intro r hr c hc
        have hBn : Bs ≠ [] := by intro hn; rw [hn] at hBl; simp at hBl; simp [hBl] at hal
        have s1 : (fs.zip (Bs.map fun B => B.f r c)).foldl (fun s a => s + a.1 / mc.totalMass) 1 =
            (fs.zip Ts).foldl (fun s a => s + a.1 / mc.totalMass) 1 := by
          have hlen : Bs.length = Ts.length := by omega
          clear d6 d5 hq hJ3 k3 eJ e3 f3 hBs hTs hTq hsum hpos hBn hBl hTl hfs
          generalize (1 : K) = x
          induction fs generalizing Bs Ts x with
          | nil => simp
          | cons f fs ih =>
            cases Bs with
            | nil => cases Ts with
              | nil => simp
              | cons => simp at hlen
            | cons b Bs => cases Ts with
              | nil => simp at hlen
              | cons t Ts =>
                simp only [List.map_cons, List.zip_cons_cons, List.foldl_cons]
                exact ih _ _ (by simpa using hlen) _
        have s2 := foldl_zip_map fs Bs (fun B : Mat K => B.f r c) (fun y f t => y + f / mc.totalMass * t) (B.f r c)
        unfold actionMean
        rw [if_neg (zip_ne_nil (by simpa using hBn) (by simp; omega)), s1, s2]
        rw [k3, if_pos (by omega), d6, if_pos (by simp; omega), j3, if_pos (by omega)]
        simp
    · have hal0 : al = [] := List.length_eq_zero_iff.mp (by omega)
      subst hal0
      cases hTs
      refine ⟨C1, J1, ?_, c1, c2, j1, j2, ?_, ?_, by simp, ?_, ?_⟩
      · unfold Tinyfk.comRow
        simp only [List.length_nil, gt_iff_lt, Nat.lt_irrefl, if_false, if_true]
        exact hcom.bind ((Query.lift hset).bind (hcj.bind ((Query.lift hsetJ).bind (Query.pure _ _))))
      · intro r c hc; rw [c3, if_neg (by simp [hc])]
      · intro r c hc; rw [j3, if_neg (by omega)]
      · refine ⟨v, [], hcom, .nil, ?_⟩
        intro r hr
        rw [c3, if_pos ⟨rfl, hr⟩]; simp [actionMean]
      · intro _
        refine ⟨B, [], hcj, hBr, hBc, .nil, ?_⟩
        intro r hr c hc
        rw [j3, if_pos (by omega)]; simp [actionMean]

theorem ComBlock.mono {mk : KinModel K} {ids al : List Nat} {fs : List K} {wb wj : Bool} {i : Nat} {C J C' J' : Mat K}
    (h : ComBlock mk ids al fs wb wj i C J) (hC : ∀ r, C'.f r i = C.f r i)
    (hJ : ∀ r < 3, ∀ c, J'.f (3 * i + r) c = J.f (3 * i + r) c) : ComBlock mk ids al fs wb wj i C' J' := by
  refine ⟨?_, fun hw => ?_⟩
  · obtain ⟨v, Ts, h1, h2, h3⟩ := h.com
    exact ⟨v, Ts, h1, h2, fun r hr => (hC r).trans (h3 r hr)⟩
  · obtain ⟨B, Bs, h1, h2, h3, h4, h5⟩ := h.jac hw
    exact ⟨B, Bs, h1, h2, h3, h4, fun r hr c hc => (hJ r hr c).trans (h5 r hr c hc)⟩

theorem wrapBase_six (wb : Bool) : (wrapBase wb).dof = if wb then 6 else 0 := by cases wb <;> rfl

/-- Applying a configuration in `solve_com_fk`: only setting the base drops the cache. -/
theorem At.comConfig (h : At ls js m0 cs mc m) {ids : List Nat} {q : List K} {wb : Bool}
    (hi : ∀ i ∈ ids, i < m0.joints.length) (hq : q.length = ids.length + (wrapBase wb).dof)
    (hc : wb = true ∨ Fresh m) :
    ∃ ma m1 mc1, setJointAnglesNC ids q m = .ok () ma ∧
      (if wb then Tinyfk.setBaseFromTail q ma else .ok () ma) = .ok () m1 ∧
      At ls js m0 (cs ++ configCalls ids (wrapBase wb) q) mc1 m1 ∧ Fresh m1 := by
  obtain ⟨m1, mc1, e1, h1, hca, hb1⟩ := h.setNC hi (q := q) (by omega)
  cases wb with
  | false =>
    refine ⟨m1, m1, mc1, e1, rfl, by simpa [configCalls, wrapBase, basePart] using h1, ?_⟩
    · have hfr : Fresh m := by simpa using hc
      intro l; rw [hca]; exact hfr l
  | true =>
    obtain ⟨m2, mc2, p, e2, e3, h2, hfr⟩ := h1.setBaseFromTail (n := ids.length) (q := q) hq
    refine ⟨m1, m2, mc2, e1, e3, ?_, hfr⟩
    · simpa [configCalls, wrapBase, e2, List.append_assoc] using h2

/-- The loop over configurations, if each configuration finds an empty cache. -/
theorem At.comFkLoop {ids al : List Nat} {fs : List K} {wb wj : Bool}
    (hi : ∀ i ∈ ids, i < m0.joints.length) (n : Nat) (qs : List (List K))
    {cs : List (Call K)} {mc m : KinModel K} (h : At ls js m0 cs mc m) (hf : Shallow ls js m0 cs)
    (hc : wb = true ∨ (Fresh m ∧ qs.length ≤ 1))
    (ha : ∀ l ∈ al, l < (linksAfter (names0 m0) cs).length) (hfs : al.length ≤ fs.length)
    (hne : wj = true → al ≠ [] → (∃ r ∈ ls, r.inertial.isSome) ∨ weldsAfter (names0 m0) cs ≠ [])
    (hq : ∀ q ∈ qs, q.length = ids.length + (wrapBase wb).dof)
    (i : Nat) (hin : i + qs.length = n) (C J : Mat K) (hCr : C.rows = 3) (hCc : C.cols = n)
    (hJr : J.rows = 3 * n) (hJc : J.cols = ids.length + if wb then 6 else 0) :
    ∃ C' J' m' mc', Tinyfk.comFkLoop ids al fs wb wj (ids.length + if wb then 6 else 0) qs i C J m = .ok (C', J') m' ∧
      At ls js m0 (cs ++ batchCalls ids (wrapBase wb) qs) mc' m' ∧
      C'.rows = C.rows ∧ C'.cols = C.cols ∧ J'.rows = J.rows ∧ J'.cols = J.cols ∧
      (∀ r c, c < i → C'.f r c = C.f r c) ∧ (∀ r c, r < 3 * i → J'.f r c = J.f r c) ∧
      (wj = false → J' = J) ∧
      ∀ k < qs.length, ∃ mk, Reach ls js m0 (cs ++ batchCalls ids (wrapBase wb) (qs.take (k + 1))) mk ∧
        ComBlock mk ids al fs wb wj (i + k) C' J' := by
  induction qs generalizing cs mc m i C J with
  | nil =>
    refine ⟨C, J, m, mc, rfl, by simpa [batchCalls] using h, rfl, rfl, rfl, rfl, fun _ _ _ => rfl,
      fun _ _ _ => rfl, fun _ => rfl, ?_⟩
    intro k hk; simp at hk
  | cons q qs ih =>
    simp only [List.length_cons] at hin hc
    obtain ⟨ma, m1, mc1, e0, e1, h1, hfr⟩ := h.comConfig hi (hq q (by simp)) (hc.imp id fun x => x.1)
    have hset := configCalls_isSet ids (wrapBase wb) q
    have hf1 := hf.sets hset
    have hr1 := h1.ready hf1 hfr
    have hne1 : wj = true → al ≠ [] → (∃ r ∈ ls, r.inertial.isSome) ∨
        weldsAfter (names0 m0) (cs ++ configCalls ids (wrapBase wb) q) ≠ [] := by
      rw [welds_sets _ hset]; exact hne
    have ha1 : ∀ l ∈ al, l < (linksAfter (names0 m0) (cs ++ configCalls ids (wrapBase wb) q)).length := by
      rw [links_sets _ hset]; exact ha
    obtain ⟨C1, J1, qCJ, a1, a2, a3, a4, a5, a6, a7, a8⟩ := Reach.comRow (wb := wb) (wj := wj) h1.reach hi
      (by intro l hl; rw [← h1.links, h1.nlinks]; exact ha1 l hl) hfs hne1 i n (by omega) C J hCr hCc hJr hJc
    obtain ⟨m2, e2, h2, hr2⟩ := h1.query hr1 qCJ
    have hrest : ∃ C' J' m' mc', Tinyfk.comFkLoop ids al fs wb wj (ids.length + if wb then 6 else 0) qs (i + 1) C1 J1
          m2 = .ok (C', J') m' ∧
        At ls js m0 (cs ++ configCalls ids (wrapBase wb) q ++ batchCalls ids (wrapBase wb) qs) mc' m' ∧
        C'.rows = C1.rows ∧ C'.cols = C1.cols ∧ J'.rows = J1.rows ∧ J'.cols = J1.cols ∧
        (∀ r c, c < i + 1 → C'.f r c = C1.f r c) ∧ (∀ r c, r < 3 * (i + 1) → J'.f r c = J1.f r c) ∧
        (wj = false → J' = J1) ∧
        ∀ k < qs.length, ∃ mk, Reach ls js m0 (cs ++ configCalls ids (wrapBase wb) q ++
            batchCalls ids (wrapBase wb) (qs.take (k + 1))) mk ∧
          ComBlock mk ids al fs wb wj (i + 1 + k) C' J' := by
      cases wb with
      | true =>
        exact ih h2 hf1 (Or.inl rfl) ha1 hne1 (fun x hx => hq x (by simp [hx])) (i + 1) (by omega) C1 J1
          (a1.trans hCr) (a2.trans hCc) (a3.trans hJr) (a4.trans hJc)
      | false =>
        have hqs : qs = [] := by
          rcases hc with hc | hc
          · cases hc
          · exact List.length_eq_zero_iff.mp (by omega)
        subst hqs
        refine ⟨C1, J1, m2, _, rfl, by simpa [batchCalls] using h2, rfl, rfl, rfl, rfl, fun _ _ _ => rfl,
          fun _ _ _ => rfl, fun _ => rfl, ?_⟩
        intro k hk; simp at hk
    clear ih
    obtain ⟨C2, J2, m4, mc4, e4, h4, b1, b2, b3, b4, b5, b6, b7, b8⟩ := hrest
    have hlift : ComBlock mc1 ids al fs wb wj i C2 J2 :=
      a8.mono (fun r => b5 r i (by omega)) fun r hr c => b6 _ c (by omega)
    refine ⟨C2, J2, m4, mc4, ?_, ?_, b1.trans a1, b2.trans a2, b3.trans a3, b4.trans a4, ?_, ?_, ?_, ?_⟩
    · simp only [Tinyfk.comFkLoop]
      cases wb with
      | true =>
        simp only [if_true] at e1 e2 e4 ⊢
        simp only [Prog.bind_apply, e0, e1, e2, e4]
      | false =>
        simp only [Bool.false_eq_true, if_false, Res.ok.injEq, true_and] at e1 e2 e4 ⊢
        subst e1
        simp only [Prog.bind_apply, e0, e2, e4]
    · simpa [batchCalls, List.append_assoc] using h4
    · intro r c hcl
      rw [b5 r c (by omega), a5 r c (by omega)]
    · intro r c hcl
      rw [b6 r c (by omega), a6 r c hcl]
    · intro hw; rw [b7 hw, a7 hw]
    · intro k hk
      cases k with
      | zero =>
        refine ⟨mc1, ?_, by simpa using hlift⟩
        simpa [batchCalls] using h1.reach
      | succ k =>
        simp only [List.length_cons] at hk
        obtain ⟨mk, hmk, hB⟩ := b8 k (by omega)
        refine ⟨mk, ?_, ?_⟩
        · simpa [batchCalls, List.append_assoc] using hmk
        · rw [show i + (k + 1) = i + 1 + k by omega]; exact hB

theorem At.solveComFk {ids al : List Nat} {fs : List K} {wb wj : Bool} {qs : List (List K)}
    (h : At ls js m0 cs mc m) (hf : Shallow ls js m0 cs)
    (hi : ∀ i ∈ ids, i < m0.joints.length) (hc : wb = true ∨ (Fresh m ∧ qs.length ≤ 1))
    (ha : ∀ l ∈ al, l < m.links.length) (hfs : al.length ≤ fs.length)
    (hne : wj = true → al ≠ [] → (∃ r ∈ ls, r.inertial.isSome) ∨ weldsAfter (names0 m0) cs ≠ [])
    (hq : ∀ q ∈ qs, q.length = ids.length + (wrapBase wb).dof) :
    ∃ C J m' mc', solveComForwardKinematics qs ids al fs wb wj m = .ok (C, J) m' ∧
      At ls js m0 (cs ++ batchCalls ids (wrapBase wb) qs) mc' m' ∧
      C.rows = qs.length ∧ C.cols = 3 ∧
      J.rows = 3 * qs.length ∧ J.cols = ids.length + (if wb then 6 else 0) ∧
      (wj = false → ∀ r c, J.f r c = 0) ∧
      ∀ (k : Nat) q mk, qs[k]? = some q →
        Reach ls js m0 (cs ++ configCalls ids (wrapBase wb) q) mk →
        (∃ v mk' Ts, getCom mk = .ok v mk' ∧
          List.Forall₂ (fun l T => ∃ m', getLinkPose l mk = .ok T m') al Ts ∧
          ∀ r < 3, C.f k r =
            actionMean mk.totalMass (fs.zip (Ts.map fun T => T.position.coord r)) (v.coord r)) ∧
        (wj = true → ∃ B mk' Bs, getComJacobian ids wb mk = .ok B mk' ∧ B.rows = 3 ∧ B.cols = J.cols ∧
          List.Forall₂ (fun l B => ∃ m', getJacobian l ids .ignore wb mk = .ok B m') al Bs ∧
          ∀ r < 3, ∀ c < J.cols, J.f (3 * k + r) c =
            actionMean mk.totalMass (fs.zip (Bs.map fun B => B.f r c)) (B.f r c)) := by
  have ha' : ∀ l ∈ al, l < (linksAfter (names0 m0) cs).length := by
    intro l hl; rw [← h.nlinks]; exact ha l hl
  obtain ⟨C, J, m', mc', e, hat, d1, d2, d3, d4, _, _, d5, d6⟩ := h.comFkLoop (al := al) (fs := fs) (wb := wb)
    (wj := wj) hi qs.length qs hf hc ha' hfs hne hq 0 (by simp)
    (Mat.zero 3 qs.length)
    (Mat.zero (3 * qs.length) (ids.length + if wb then 6 else 0)) rfl rfl rfl rfl
  have d4' : J.cols = ids.length + (if wb then 6 else 0) := d4
  refine ⟨C.transpose, J, m', mc', ?_, hat, d2, d1, d3, d4', ?_, ?_⟩
  · unfold solveComForwardKinematics
    simp only [Prog.bind_apply, Prog.pure_apply, e]
  · intro hw r c; rw [d5 hw]; rfl
  · intro k q mk hk hmk
    obtain ⟨hlt, hqk⟩ := List.getElem?_eq_some_iff.mp hk
    have hmem : q ∈ qs := List.mem_of_getElem? hk
    obtain ⟨mb, hb, hB⟩ := d6 k hlt
    rw [batchCalls_take hk] at hb
    have hs1 : ∀ c ∈ batchCalls ids (wrapBase wb) (qs.take k) ++ configCalls ids (wrapBase wb) q, c.IsSet := by
      intro c hc
      rcases List.mem_append.mp hc with hc | hc
      · exact batchCalls_isSet _ _ _ c hc
      · exact configCalls_isSet _ _ _ c hc
    have hs2 := configCalls_isSet ids (wrapBase wb) q
    have hlen := hq q hmem
    have hsame : SameRobot mb mk := h.reach.sameRobot hb hmk hs1 hs2
      (fun i => angleAfter_override i 0 ids (wrapBase wb) (qs.take k) q (by omega) cs)
      (baseAfter_override Pose.identity ids (wrapBase wb) (qs.take k) q hlen cs)
    have hrk : Ready mk := hmk.ready (hf.sets hs2)
    have hmass : mk.totalMass = mb.totalMass := by
      obtain ⟨⟨st, c, hc⟩, _⟩ := hsame; rw [hc]
    rw [Nat.zero_add] at hB
    refine ⟨?_, fun hw => ?_⟩
    · obtain ⟨v, Ts, q1, q2, q3⟩ := hB.com
      obtain ⟨mk', g1, _⟩ := q1 mk hsame hrk
      refine ⟨v, mk', Ts, g1, q2.imp fun l T hq => ?_, ?_⟩
      · obtain ⟨m2, g2, _⟩ := hq mk hsame hrk; exact ⟨m2, g2⟩
      · rw [hmass]; exact q3
    · obtain ⟨B, Bs, q1, q2, q3, q4, q5⟩ := hB.jac hw
      obtain ⟨mk', g1, _⟩ := q1 mk hsame hrk
      refine ⟨B, mk', Bs, g1, q2, q3.trans d4'.symm, q4.imp fun l B hq => ?_, ?_⟩
      · obtain ⟨m2, g2, _⟩ := hq mk hsame hrk; exact ⟨m2, g2⟩
      · rw [hmass, d4']; exact q5

theorem comArg_of {qs : QArg K} (h : ∀ q, qs ≠ .nd1 q) : ∃ a, comArg qs = .ok a ∧ a.rows = qs.rows := by
  cases qs with
  | nd1 q => exact absurd rfl (h q)
  | nd2 a => exact ⟨_, rfl, rfl⟩
  | list1 q => exact ⟨_, rfl, rfl⟩
  | list2 a _ => exact ⟨_, rfl, rfl⟩

/-- the Python call -/
theorem At.pySolveComFk {s : PyModel K} {qs : QArg K} {ids : List Nat} {act : Option (List Nat × List K)}
    {bt : BaseType} {wj : Bool} (h : At ls js m0 cs mc s.robot) (hf : Shallow ls js m0 cs)
    (ha : ComArgs m0 s qs ids (act.getD ([], [])).1 (act.getD ([], [])).2 bt)
    (hc : bt ≠ .fixed ∨ (Fresh s.robot ∧ qs.rows.length = 1))
    (hne : wj = true → act ≠ none → (∃ r ∈ ls, r.inertial.isSome) ∨ weldsAfter (names0 m0) cs ≠ []) :
    ∃ C J s' mc', pySolveComFk qs ids act bt wj s = .ok (C, J) s' ∧
      At ls js m0 (cs ++ batchCalls ids bt qs.rows) mc' s'.robot ∧
      ComResult ls js m0 cs qs.rows ids (act.getD ([], [])).1 (act.getD ([], [])).2 bt wj C J := by
  obtain ⟨a, e1, e2⟩ := comArg_of ha.notFlat
  have hcols : a.cols = ids.length + bt.dof := by
    cases hr : qs.rows with
    | nil => exact absurd hr ha.nonempty
    | cons q0 rs =>
      have h1 := a.wf q0 (by rw [e2, hr]; simp)
      rw [← h1]; exact ha.shape q0 (by rw [hr]; simp)
  have hne' : wj = true → (act.getD ([], [])).1 ≠ [] →
      (∃ r ∈ ls, r.inertial.isSome) ∨ weldsAfter (names0 m0) cs ≠ [] := by
    intro hw hn
    refine hne hw ?_
    rintro rfl; exact hn rfl
  have hforces : (act.getD ([], [])).1.length ≤ (act.getD ([], [])).2.length := ha.forces.ge
  cases bt with
  | fixed =>
    obtain ⟨C, J, m', mc', e, hat, d1, d2, d3, d4, d5, d6⟩ := h.solveComFk (wb := false) (wj := wj) (qs := qs.rows)
      hf ha.joints (.inr ⟨(hc.resolve_left (by simp)).1, by have := (hc.resolve_left (by simp)).2; omega⟩)
      ha.links hforces hne' (by simpa [wrapBase] using ha.shape)
    refine ⟨C, J, { s with robot := m' }, mc', ?_, hat, d1, d2, d3, by simpa using d4, ?_, ?_, ?_⟩
    · simp only [Tinyfk.pySolveComFk, Prog.bind_apply, Prog.lift, Prog.read, e1, prepareRows, pyAssert, hcols,
        BaseType.dof, Nat.add_zero, beq_self_eq_true, if_true, e2]
      simp only [onRobot, bne_self_eq_false, Prog.pure_apply]
      rw [e]
    · exact fun k q mk h1 h2 => (d6 k q mk h1 h2).1
    · exact fun hw k q mk h1 h2 => (d6 k q mk h1 h2).2 hw
    · exact fun hw r _ c _ => d5 hw r c
  | floating =>
    obtain ⟨C, J, m', mc', e, hat, d1, d2, d3, d4, d5, d6⟩ := h.solveComFk (wb := true) (wj := wj) (qs := qs.rows)
      hf ha.joints (.inl rfl) ha.links hforces hne' (by simpa [wrapBase] using ha.shape)
    refine ⟨C, J, { s with robot := m' }, mc', ?_, hat, d1, d2, d3, by simpa using d4, ?_, ?_, ?_⟩
    · simp only [Tinyfk.pySolveComFk, Prog.bind_apply, Prog.lift, Prog.read, e1, prepareRows, pyAssert, hcols,
        BaseType.dof, beq_self_eq_true, if_true, e2]
      simp only [onRobot, show ((BaseType.floating != .fixed) = true) from rfl, Prog.pure_apply]
      rw [e]
    · exact fun k q mk h1 h2 => (d6 k q mk h1 h2).1
    · exact fun hw k q mk h1 h2 => (d6 k q mk h1 h2).2 hw
    · exact fun hw r _ c _ => d5 hw r c
  | planer =>
    obtain ⟨rows', g1, g2, g3⟩ := modifyInput_spec (n := ids.length) ha.shape
    obtain ⟨g4, g5⟩ := modifyInput_calls ha.shape g1
    obtain ⟨C, J, m', mc', e, hat, d1, d2, d3, d4, d5, d6⟩ := h.solveComFk (wb := true) (wj := wj) (qs := rows')
      hf ha.joints (.inl rfl) ha.links hforces hne' (by simpa [wrapBase, BaseType.dof] using g4)
    have hw : wrapBase true = .floating := rfl
    rw [hw] at hat d6
    rw [g5] at hat
    refine ⟨C, J, { s with robot := m' }, mc', ?_, hat, d1.trans g2, d2, by rw [d3, g2], by simpa using d4, ?_, ?_, ?_⟩
    · simp only [Tinyfk.pySolveComFk, Prog.bind_apply, Prog.lift, Prog.read, e1, prepareRows, pyAssert, hcols,
        BaseType.dof, beq_self_eq_true, if_true, e2, Prog.pure_apply, g1]
      simp only [onRobot, show ((BaseType.planer != .fixed) = true) from rfl]
      rw [e]
    · intro k q mk h1 h2
      obtain ⟨q', r1, r2⟩ := g3 k q h1
      have := (modifyRow_calls (ha.shape q (List.mem_of_getElem? h1)) r2).2
      exact (d6 k q' mk r1 (by rw [this]; exact h2)).1
    · intro hw k q mk h1 h2
      obtain ⟨q', r1, r2⟩ := g3 k q h1
      have := (modifyRow_calls (ha.shape q (List.mem_of_getElem? h1)) r2).2
      exact (d6 k q' mk r1 (by rw [this]; exact h2)).2 hw
    · exact fun hw r _ c _ => d5 hw r c

end Tinyfk
