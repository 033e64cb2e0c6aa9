import Verif.Proofs.Dist
import Verif.Props.PySolve

/-!
# Properties: distances between links

C07.
-/

set_option linter.unusedSectionVars false

namespace Tinyfk

open Scalar

section
variable {K : Type} [Scalar K]
  {ls : List (RawLink K)} {js : List (RawJoint K)} {m0 : KinModel K} {cs : List (Call K)} {mc m : KinModel K}
  {h : List (PyCall K)} {s : PyModel K} {qs : List (List K)} {ps : List (Nat × Nat)} {ids : List Nat}
  {bt : BaseType} {wj uc : Bool} {c : SizedCache (Pose K)}

/-- the call as used below: right result on any cache -/
theorem PyReach.sqdists (hr : PyReach ls js m0 h cs s) (hf : Shallow ls js m0 cs)
    (hc : c.Fits s.robot.links.length) (ha : DistArgs m0 s qs ps ids bt) (huc : uc = false ∨ bt ≠ .fixed)
    (hne : wj = true → (∃ r ∈ ls, r.inertial.isSome) ∨ weldsAfter (names0 m0) cs ≠ []) :
    ∃ V J s', pySqdists qs ps ids bt wj uc (s.withCache c) = .ok (V, J) s' ∧
      DistResult ls js m0 cs qs ps ids bt wj V J := by
  obtain ⟨mc, hat⟩ := hr.at
  obtain ⟨V, J, s', mc', e, _, hres, _⟩ := (hat.withCache hc).pySqdists (wj := wj) (uc := uc) (qs := qs) (ps := ps)
    (ids := ids) (bt := bt) hf ⟨ha.nonempty, ha.shape, ha.joints, ha.links⟩ (by
      by_cases hb : bt = .fixed
      · exact .inr ⟨hb, .inr (.inl (huc.resolve_right (by simp [hb])))⟩
      · exact .inl hb) hne
  exact ⟨V, J, s', e, hres⟩

/-- **C07.** `compute_inter_link_sqdists` with `use_cache=False`, or with a base, on a robot with any past
of Python calls and with any contents of the cache: the call returns, and entry `k * n_pair + j` is the
squared distance between the positions of the two links of pair `j` in the described robot, with the
listed joints (and the base) where configuration `k` puts them and everything else as the past left
it. -/
theorem C07_sqdists (hr : PyReach ls js m0 h cs s) (hf : Shallow ls js m0 cs)
    (hc : c.Fits s.robot.links.length) (ha : DistArgs m0 s qs ps ids bt) (huc : uc = false ∨ bt ≠ .fixed)
    (hne : wj = true → (∃ r ∈ ls, r.inertial.isSome) ∨ weldsAfter (names0 m0) cs ≠ []) :
    ∃ V J s', pySqdists qs ps ids bt wj uc (s.withCache c) = .ok (V, J) s' ∧
      V.rows = qs.length * ps.length ∧ V.cols = 1 ∧
      ∀ (k j l1 l2 : Nat) (q : List K) (n1 n2 : String) (θ : String → K),
        qs[k]? = some q → ps[j]? = some (l1, l2) → getLinkIds [n1] s.robot = .ok [l1] s.robot →
        getLinkIds [n2] s.robot = .ok [l2] s.robot →
        AnglesAfter m0 (cs ++ configCalls ids bt q) θ →
        ∃ T1 T2,
          (∀ T', WorldPose ls js (AllWelds ls m0 cs) θ
            (baseAfter Pose.identity (cs ++ configCalls ids bt q)) n1 T' ↔ T' = T1) ∧
          (∀ T', WorldPose ls js (AllWelds ls m0 cs) θ
            (baseAfter Pose.identity (cs ++ configCalls ids bt q)) n2 T' ↔ T' = T2) ∧
          V.f (k * ps.length + j) 0 = sqDist T1.position T2.position := by
  obtain ⟨mc, hat⟩ := hr.at
  obtain ⟨V, J, s', e, hres⟩ := hr.sqdists (wj := wj) hf hc ha huc hne
  refine ⟨V, J, s', e, hres.vRows, hres.vCols, ?_⟩
  intro k j l1 l2 q n1 n2 θ hk hj h1 h2 hθ
  obtain ⟨mk, hmk⟩ := hat.reach.config ha.joints (ha.shape q (List.mem_of_getElem? hk))
  obtain ⟨T1, mk1, T2, mk2, e1, e2, e3⟩ := hres.dist k j l1 l2 q mk hk hj hmk
  have hs := configCalls_isSet ids bt q
  obtain ⟨T1', hu1, hc1⟩ := C01_link_pose hmk hθ (hat.getLinkIds_config h1 hmk hs)
  obtain ⟨T2', hu2, hc2⟩ := C01_link_pose hmk hθ (hat.getLinkIds_config h2 hmk hs)
  rw [allWelds_sets hs] at hu1 hu2
  refine ⟨T1', T2', hu1, hu2, ?_⟩
  rcases hc1 with ⟨m', f1⟩ | ⟨⟨u, f1⟩, _⟩
  · rcases hc2 with ⟨m'', f2⟩ | ⟨⟨u, f2⟩, _⟩
    · rw [e1] at f1; cases f1
      rw [e2] at f2; cases f2
      exact e3
    · rw [e2] at f2; cases f2
  · rw [e1] at f1; cases f1

end

section
variable {ls : List (RawLink ℝ)} {js : List (RawJoint ℝ)} {m0 : KinModel ℝ} {cs : List (Call ℝ)}
  {h : List (PyCall ℝ)} {s : PyModel ℝ} {qs : List (List ℝ)} {ps : List (Nat × Nat)} {ids : List Nat}
  {bt : BaseType} {wj uc : Bool} {c : SizedCache (Pose ℝ)}

theorem sqDist_nonneg (a b : Vec3 ℝ) : 0 ≤ sqDist a b := by
  unfold sqDist
  nlinarith [mul_self_nonneg (a.x - b.x), mul_self_nonneg (a.y - b.y), mul_self_nonneg (a.z - b.z)]

theorem sqDist_self (a : Vec3 ℝ) : sqDist a a = 0 := by
  unfold sqDist; ring

theorem sqDist_comm (a b : Vec3 ℝ) : sqDist a b = sqDist b a := by
  unfold sqDist; ring

/-- **C07, over the reals.** No entry is negative; the entry of a pair of a link with itself is 0;
exchanging the two links of every pair does not change the result. -/
theorem C07_metric (hr : PyReach ls js m0 h cs s) (hf : Shallow ls js m0 cs)
    (hc : c.Fits s.robot.links.length) (ha : DistArgs m0 s qs ps ids bt) (huc : uc = false ∨ bt ≠ .fixed)
    (hne : wj = true → (∃ r ∈ ls, r.inertial.isSome) ∨ weldsAfter (names0 m0) cs ≠ []) :
    ∃ V J s', pySqdists qs ps ids bt wj uc (s.withCache c) = .ok (V, J) s' ∧
      (∀ r < V.rows, 0 ≤ V.f r 0) ∧
      (∀ (k j l : Nat), k < qs.length → ps[j]? = some (l, l) → V.f (k * ps.length + j) 0 = 0) ∧
      ∃ V' J' s'', pySqdists qs (ps.map Prod.swap) ids bt wj uc (s.withCache c) = .ok (V', J') s'' ∧
        V.Same V' := by
  obtain ⟨mc, hat⟩ := hr.at
  obtain ⟨V, J, s', e, hres⟩ := hr.sqdists (wj := wj) hf hc ha huc hne
  have ha' : DistArgs m0 s qs (ps.map Prod.swap) ids bt := by
    refine ⟨by simpa using ha.nonempty, ha.shape, ha.joints, ?_⟩
    intro p hp
    simp only [List.mem_map] at hp
    obtain ⟨p, hp, rfl⟩ := hp
    exact (ha.links p hp).symm
  obtain ⟨V', J', s'', e', hres'⟩ := hr.sqdists (wj := wj) hf hc ha' huc hne
  have key : ∀ k j, k < qs.length → j < ps.length → ∃ q l1 l2 mk, qs[k]? = some q ∧ ps[j]? = some (l1, l2) ∧
      Reach ls js m0 (cs ++ configCalls ids bt q) mk := by
    intro k j hk hj
    obtain ⟨mk, hmk⟩ := hat.reach.config (q := qs[k]) (bt := bt) ha.joints (ha.shape _ (by simp))
    exact ⟨_, ps[j].1, ps[j].2, mk, List.getElem?_eq_getElem hk, List.getElem?_eq_getElem hj, hmk⟩
  refine ⟨V, J, s', e, ?_, ?_, V', J', s'', e', ?_, ?_, ?_⟩
  · intro r hr
    rw [hres.vRows] at hr
    obtain ⟨k, j, hk, hj, rfl⟩ := div_split hr
    obtain ⟨q, l1, l2, mk, a1, a2, a3⟩ := key k j hk hj
    obtain ⟨T1, _, T2, _, _, _, e3⟩ := hres.dist k j l1 l2 q mk a1 a2 a3
    rw [e3]; exact sqDist_nonneg _ _
  · intro k j l hk hj
    obtain ⟨q, l1, l2, mk, a1, a2, a3⟩ := key k j hk (List.getElem?_eq_some_iff.mp hj).1
    obtain ⟨T1, _, T2, _, f1, f2, e3⟩ := hres.dist k j l l q mk a1 hj a3
    rw [f1] at f2; cases f2
    rw [e3]; exact sqDist_self _
  · rw [hres.vRows, hres'.vRows]; simp
  · rw [hres.vCols, hres'.vCols]
  · intro r hr c hc
    rw [hres.vRows] at hr
    rw [hres.vCols] at hc
    obtain rfl : c = 0 := by omega
    obtain ⟨k, j, hk, hj, rfl⟩ := div_split hr
    obtain ⟨q, l1, l2, mk, a1, a2, a3⟩ := key k j hk hj
    obtain ⟨T1, _, T2, _, f1, f2, e3⟩ := hres.dist k j l1 l2 q mk a1 a2 a3
    obtain ⟨T1', _, T2', _, g1, g2, e3'⟩ := hres'.dist k j l2 l1 q mk a1 (by rw [List.getElem?_map, a2]; rfl) a3
    rw [f1] at g2; cases g2
    rw [f2] at g1; cases g1
    rw [List.length_map] at e3'
    rw [e3, e3']; exact sqDist_comm _ _

end

namespace Example

/-! ### The hypotheses are met -/

/-- two planar configurations, the pairs (tip, arm) and (hand, hand) -/
theorem distArgs {s : PyModel ℝ} (hs : s.robot.links.length = 6) :
    DistArgs m0 s [[1, 2, 3, 4, 5], [0, 0, 1, 1, 2]] [(3, 0), (2, 2)] [0, 1] .planer :=
  ⟨by simp, by simp [BaseType.dof], by rw [joints_length]; simp, by rw [hs]; simp⟩

example := C07_sqdists (wj := true) (uc := true) s1_reach s1_shallow bad_fits (distArgs s1_links) (.inr (by simp))
  (fun _ => .inl inertial)
example := C07_metric (wj := true) (uc := false) s1_reach s1_shallow bad_fits (distArgs s1_links) (.inl rfl)
  (fun _ => .inl inertial)
-- also with a fixed base
example := C07_sqdists (qs := [[1, 2]]) (ps := [(3, 0)]) (ids := [1, 0]) (bt := .fixed) (wj := false) (uc := false)
  s1_reach s1_shallow bad_fits ⟨by simp, by simp [BaseType.dof], by rw [joints_length]; simp, by rw [s1_links]; simp⟩
  (.inl rfl) (by simp)

end Example
end Tinyfk
