import Verif.Props.Repeated
import Verif.Props.Cache

/-!
# C86: the Jacobian of `solve_com_fk` is the derivative of its result
-/

namespace Tinyfk

open Scalar

section
variable {ls : List (RawLink ℝ)} {js : List (RawJoint ℝ)} {m0 mc mk : KinModel ℝ} {cs : List (Call ℝ)}
  {h : List (PyCall ℝ)} {s : PyModel ℝ} {ids : List Nat} {bt : BaseType}

theorem foldl_div_deriv {M θ : ℝ} {fs : List ℝ} {xs : List (ℝ → ℝ)} {ds : List ℝ}
    (h : List.Forall₂ (fun f d => HasDerivAt f d θ) xs ds) {y : ℝ → ℝ} {y' : ℝ} (hy : HasDerivAt y y' θ) :
    HasDerivAt (fun v => (fs.zip (xs.map fun f => f v)).foldl (fun y a => y + a.1 / M * a.2) (y v))
      ((fs.zip ds).foldl (fun y a => y + a.1 / M * a.2) y') θ := by
  induction h generalizing fs y y' with
  | nil => simpa using hy
  | cons h1 _ ih =>
    cases fs with
    | nil => simpa using hy
    | cons f fs => exact ih (hy.add (h1.const_mul (f / M)))

theorem foldl_weights {M : ℝ} {fs xs ys : List ℝ} (h : xs.length = ys.length) (z : ℝ) :
    (fs.zip xs).foldl (fun s a => s + a.1 / M) z = (fs.zip ys).foldl (fun s a => s + a.1 / M) z := by
  induction fs generalizing xs ys z with
  | nil => rfl
  | cons f fs ih =>
    match xs, ys, h with
    | [], [], _ => rfl
    | x :: xs, y :: ys, h =>
      simp only [List.zip_cons_cons, List.foldl_cons]
      exact ih (by simpa using h) _

theorem actionMean_deriv {M θ : ℝ} {fs : List ℝ} {xs : List (ℝ → ℝ)} {ds : List ℝ}
    (h : List.Forall₂ (fun f d => HasDerivAt f d θ) xs ds) {y : ℝ → ℝ} {y' : ℝ} (hy : HasDerivAt y y' θ) :
    HasDerivAt (fun v => actionMean M (fs.zip (xs.map fun f => f v)) (y v)) (actionMean M (fs.zip ds) y') θ := by
  have hlen : ∀ v, (xs.map fun f => f v).length = ds.length := fun v => by simpa using h.length_eq
  by_cases he : fs.zip ds = []
  · have he' : ∀ v, fs.zip (xs.map fun f => f v) = [] := by
      intro v
      have := congrArg List.length he
      rw [← List.length_eq_zero_iff]
      rw [List.length_zip, hlen, ← List.length_zip, he]
      rfl
    simpa [actionMean, he, he'] using hy
  · have he' : ∀ v, fs.zip (xs.map fun f => f v) ≠ [] := by
      intro v hv
      apply he
      rw [← List.length_eq_zero_iff, List.length_zip, ← hlen v, ← List.length_zip, hv]
      rfl
    simp only [actionMean, he, he', if_false]
    simp only [fun v => foldl_weights (M := M) (fs := fs) (hlen v) 1]
    exact (foldl_div_deriv h hy).div_const _

/-- the centre of mass along a change of one entry of a configuration -/
theorem Reach.vary_com (hc : Reach ls js m0 cs mc) (hf : Shallow ls js m0 cs) {q : List ℝ} {c i : Nat} {x v : ℝ}
    (hn : LastListing ids c) (hq : ids.length ≤ q.length) (hi : ids[c]? = some i) (hx : q[c]? = some x)
    (hil : i < m0.joints.length) (h1 : Reach ls js m0 (cs ++ configCalls ids bt q) mk) {mkv m' : KinModel ℝ}
    (h2 : Reach ls js m0 (cs ++ configCalls ids bt (q.set c v)) mkv) {g : ℝ → Vec3 ℝ} (hg : ComCurve mk i g)
    {w : Vec3 ℝ} (e : getCom mkv = .ok w m') : w = g v ∧ mkv.totalMass = mk.totalMass := by
  obtain ⟨hang, hs⟩ := hc.vary hn hq hi hx hil h1 h2
  have hlen : i < mk.angles.length := (List.getElem?_eq_some_iff.mp hang).1
  obtain ⟨m1, m2, e1, e2⟩ := hg v
  rw [turned_set hlen v] at e1
  cases e1
  have hinv := h1.abs.inv.turned i v
  obtain ⟨xs, hxs⟩ := hinv.exists_comPts
  have hready := hinv.ready (FitsStack.congr (m := mk) rfl rfl (h1.fits (hf.sets (configCalls_isSet ids bt _))))
  obtain ⟨_, e3, _⟩ := (Query.getCom hxs).run hready
  rw [e2] at e3
  have e3 := (Res.ok.inj e3).1
  have hpts : List.Forall₂ (IsComPt mkv) mkv.comDummy xs := by
    have hsame := hs
    obtain ⟨⟨st, ca, rfl⟩, _⟩ := hs
    refine hxs.imp fun d y ⟨lk, g1, g2, g3, g4⟩ => ⟨lk, g1, g2, g3, (IsPose.of_same hsame).mpr g4⟩
  obtain ⟨_, e4, _⟩ := (Query.getCom hpts).run (h2.ready (hf.sets (configCalls_isSet ids bt _)))
  rw [e] at e4
  refine ⟨(Res.ok.inj e4).1.trans e3.symm, ?_⟩
  obtain ⟨⟨st, ca, rfl⟩, _⟩ := hs
  rfl

theorem forall₂_between {α β γ : Type} {R : α → β → Prop} {P : α → γ → Prop} {Q : γ → β → Prop} {as : List α} {bs : List β}
    (h : List.Forall₂ R as bs) (hf : ∀ a ∈ as, ∀ b, R a b → ∃ c, P a c ∧ Q c b) :
    ∃ cs, List.Forall₂ P as cs ∧ List.Forall₂ Q cs bs := by
  induction h with
  | nil => exact ⟨[], .nil, .nil⟩
  | cons h1 _ ih =>
    obtain ⟨c, p, q⟩ := hf _ (by simp) _ h1
    obtain ⟨cs, ps, qs⟩ := ih fun a ha => hf a (by simp [ha])
    exact ⟨c :: cs, .cons p ps, .cons q qs⟩

/-- **C86.** The Jacobian returned by `solve_com_fk` is the derivative of the centres of mass it returns, action
forces included: for a joint column `c` and coordinate `r` of configuration `k`, let `D v` be the number returned in
that place when entry `c` of configuration `k` is replaced by `v`. Then the derivative of `D` at the given
configuration is the entry of `J`. The joint is not listed again further on. (With a fixed base, a single
configuration right after `clear_cache`, see C05.) -/
theorem C86_solve_com_fk_jacobian {qs : QArg ℝ} {act : Option (List Nat × List ℝ)} {s' : PyModel ℝ}
    (hr : PyReach ls js m0 h cs s) (hf : Shallow ls js m0 cs) (hu : UnitDesc js)
    (ha : ComArgs m0 s qs ids (act.getD ([], [])).1 (act.getD ([], [])).2 bt)
    (hc : (bt ≠ .fixed ∧ s' = s) ∨ (pyClearCache s = .ok () s' ∧ qs.rows.length = 1))
    (hne : act ≠ none → (∃ r ∈ ls, r.inertial.isSome) ∨ weldsAfter (names0 m0) cs ≠ []) :
    ∃ C J s'', pySolveComFk qs ids act bt true s' = .ok (C, J) s'' ∧
      ∀ (k c r : Nat) (q : List ℝ) (x : ℝ), qs.rows[k]? = some q → c < ids.length → r < 3 → q[c]? = some x →
        LastListing ids c →
        ∃ D : ℝ → ℝ,
          (∀ v (qs' : QArg ℝ), (∀ q, qs' ≠ .nd1 q) → qs'.rows = qs.rows.set k (q.set c v) →
            ∃ C' J' s3, pySolveComFk qs' ids act bt true s' = .ok (C', J') s3 ∧ C'.f k r = D v) ∧
          HasDerivAt D (J.f (3 * k + r) c) x := by
  obtain ⟨mc, hat⟩ := hr.at
  have key : At ls js m0 cs mc s'.robot ∧ (bt ≠ .fixed ∨ (Fresh s'.robot ∧ qs.rows.length = 1)) ∧
      s'.robot.links = s.robot.links := by
    rcases hc with ⟨h1, rfl⟩ | ⟨h1, h2⟩
    · exact ⟨hat, .inl h1, rfl⟩
    · obtain ⟨m1, e1, a1, a2, _⟩ := hat.clear
      simp only [pyClearCache, onRobot, e1] at h1
      cases h1
      refine ⟨a1, .inr ⟨a2, h2⟩, ?_⟩
      show m1.links = _
      rw [a1.links, hat.links]
  obtain ⟨hat', hc', hl⟩ := key
  obtain ⟨C, J, s'', mc', e, _, hres⟩ := hat'.pySolveComFk (wj := true) hf
    ⟨ha.notFlat, ha.nonempty, ha.shape, ha.joints, by rw [hl]; exact ha.links, ha.forces⟩ hc' (fun _ => hne)
  refine ⟨C, J, s'', e, ?_⟩
  intro k c r q x hk hcl hrl hx hn
  have hql := ha.shape q (List.mem_of_getElem? hk)
  obtain ⟨mk, hmk⟩ := hat.reach.config ha.joints hql
  have hset := configCalls_isSet ids bt q
  have hci : ids[c]? = some ids[c] := by simp [hcl]
  have hil := ha.joints ids[c] (by simp)
  have hids : ∀ i ∈ ids, i < mk.joints.length := by rw [hmk.abs.joints]; exact ha.joints
  have hlinks : mk.links = s.robot.links := by
    obtain ⟨θ, p, c1, e1⟩ := hmk.sets_eq hat.reach hset
    rw [e1]
    exact hat.links.symm
  have hang := (hat.reach.vary (v := x) hn (by omega) hci hx hil hmk (mkv := mk) (by rw [set_self hx]; exact hmk)).1
  have huc := hr.unitCalls.append (configCalls_unit ids bt q)
  obtain ⟨B, mk', Bs, eB, _, _, hBs, hJ⟩ := hres.jac rfl k q mk hk hmk
  obtain ⟨B', mk'', eB', _, hcom⟩ := C31_com_jacobian hmk (hf.sets hset) hu huc hids (bt != .fixed)
  rw [eB] at eB'
  cases eB'
  obtain ⟨θ, g, hθ, hg, gx, gy, gz⟩ := hcom c _ hci
  have hθx : θ = x := by
    have := getJointAngles_one hang
    rw [hθ] at this
    have := (Res.ok.inj this).1
    simpa using this
  subst hθx
  obtain ⟨Ts, hTs, hTd⟩ := forall₂_between (P := fun l (T : ℝ → Pose ℝ) => ∀ v, IsPose (turned mk ids[c] v) l (T v))
    (Q := fun (T : ℝ → Pose ℝ) B => Vec3.HasDeriv (fun v => (T v).position) ⟨B.f 0 c, B.f 1 c, B.f 2 c⟩ θ) hBs (by
      rintro l hl B ⟨m', eB⟩
      have hact : act ≠ none := by rintro rfl; simp at hl
      obtain ⟨E, J1, mk2, hE, eJ, hcol⟩ := hmk.jacobian_moves (hf.sets hset) hu huc
        (by rw [welds_sets _ hset]; exact hne hact) (l := l) (by rw [hlinks]; exact ha.links l hl)
        (ids := ids) hids .ignore (bt != .fixed)
      rw [eB] at eJ
      cases eJ
      obtain ⟨θ', d, a, T, hθ', hT, hJ⟩ := hcol c _ hci
      rw [hang] at hθ'
      cases hθ'
      refine ⟨T, hT.pose, ?_⟩
      rw [hJ.x, hJ.y, hJ.z]
      exact hT.pos)
  refine ⟨fun v => actionMean mk.totalMass ((act.getD ([], [])).2.zip ((Ts.map fun T v => (T v).position.coord r).map fun f => f v))
    ((g v).coord r), ?_, ?_⟩
  · intro v qs' hflat hrows
    have hl' : (q.set c v).length = ids.length + bt.dof := by rw [List.length_set]; exact hql
    obtain ⟨C', J', s3, _, e', _, hres'⟩ := hat'.pySolveComFk (wj := true) (qs := qs') hf
      ⟨hflat, by rw [hrows]; simpa using ha.nonempty, by
        rw [hrows]
        intro q1 hq1
        rcases List.mem_or_eq_of_mem_set hq1 with h1 | h1
        · exact ha.shape q1 h1
        · rw [h1]; exact hl', ha.joints, by rw [hl]; exact ha.links, ha.forces⟩
      (by rw [hrows, List.length_set]; exact hc') (fun _ => hne)
    refine ⟨C', J', s3, e', ?_⟩
    obtain ⟨mkv, hmkv⟩ := hat.reach.config ha.joints hl'
    obtain ⟨w, mk2, Ts', ew, hTs', hC⟩ := hres'.com k (q.set c v) mkv (by
      rw [hrows, List.getElem?_set_self (List.getElem?_eq_some_iff.mp hk).1]) hmkv
    obtain ⟨rfl, hmass⟩ := hat.reach.vary_com hf hn (by omega) hci hx hil hmk hmkv hg ew
    have hTT : Ts' = Ts.map fun T => T v := by
      have : List.Forall₂ (fun T T' => T' = T v) Ts Ts' :=
        forall₂_comp (R := fun T l => ∀ v, IsPose (turned mk ids[c] v) l (T v)) (fun T l T' h1 ⟨m', h2⟩ =>
          hat.reach.vary_pose hf hn (by omega) hci hx hil hmk hmkv h1 h2) hTs.flip hTs'
      clear hTs hTd hTs' hC
      induction this with
      | nil => rfl
      | cons h1 _ ih => simp only [List.map_cons, ← h1, ih]
    rw [hC r hrl, hmass, hTT]
    simp only [List.map_map, Function.comp_def]
  · rw [hJ r hrl c (by rw [hres.jCols]; omega)]
    refine actionMean_deriv ?_ ?_
    · rw [List.forall₂_map_left_iff, List.forall₂_map_right_iff]
      refine hTd.imp fun T B hd => ?_
      match r, hrl with
      | 0, _ => exact hd.1
      | 1, _ => exact hd.2.1
      | 2, _ => exact hd.2.2
    · match r, hrl with
      | 0, _ => exact gx
      | 1, _ => exact gy
      | 2, _ => exact gz

end
namespace Example

/-! ### The hypotheses are met -/

example := C86_solve_com_fk_jacobian (act := some ([3], [2])) s1_reach s1_shallow unitDesc (comArgs_planar s1_links)
  (.inl ⟨by simp, rfl⟩) (fun _ => .inl inertial)
example (sc : PyModel ℝ) (hc : pyClearCache s0 = .ok () sc) := C86_solve_com_fk_jacobian (act := none) s0_reach s0_shallow
  unitDesc (comArgs_a s0 1) (.inr ⟨hc, by simp [qa, QArg.rows]⟩) (by simp)

end Example
end Tinyfk
