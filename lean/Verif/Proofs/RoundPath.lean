import Verif.Proofs.RoundCol
import Verif.Proofs.Describes

/-!
# A joint on the path to a link, in rounded and in exact arithmetic
-/

namespace Tinyfk

open Scalar

section
variable {F : Rounding} {ε μ A : ℝ} {ls' : List (RawLink (Fl F))} {js' : List (RawJoint (Fl F))} {welds' : Weld (Fl F) → Prop}
  {ls : List (RawLink ℝ)} {js : List (RawJoint ℝ)} {welds : Weld ℝ → Prop} {θ : String → ℝ} {base : Pose ℝ} {m : KinModel (Fl F)}

/-- The pose `T` of the exact link `n` does not depend on the angle of joint `s`. -/
def StaysAt (ls : List (RawLink ℝ)) (js : List (RawJoint ℝ)) (welds : Weld ℝ → Prop) (θ : String → ℝ) (base : Pose ℝ) (s n : String) (T : Pose ℝ) : Prop :=
  ∀ v, WorldPose ls js welds (Function.update θ s v) base n T

/-- Link `l` of `m` is carried by the joint at `jp`, named `s`: the pose `C'` of the child link of the joint in the model and `C` in
the exact robot, and the pose of the exact link as a function of the angle of the joint. -/
structure Carried (ε μ A : ℝ) (js' : List (RawJoint (Fl F))) (ls : List (RawLink ℝ)) (js : List (RawJoint ℝ)) (welds : Weld ℝ → Prop) (θ : String → ℝ)
    (base : Pose ℝ) (m : KinModel (Fl F)) (jp : Nat) (s n : String) (d : Nat) (L : ℝ) (T : Pose ℝ)
    (r' : RawJoint (Fl F)) (r : RawJoint ℝ) (j : Joint (Fl F)) (c : Nat) (C' : Pose (Fl F)) (dc : Nat) (Lc : ℝ) (C B E0 S : Pose ℝ) : Prop where
  mem' : r' ∈ js'
  mem : r ∈ js
  near : JointNear ε μ r' r
  name : r.name = s
  heap : m.jheap[jp]? = some j
  raw : IsRaw r' j
  child : ∃ ck, m.links[c]? = some ck ∧ ck.parentJoint = some jp ∧ NearAt ε μ A ls js welds θ base ck.name C' dc Lc C
  pose' : IsPose m c C'
  depth : dc ≤ d
  length : Lc ≤ L
  parent : WorldPose ls js welds θ base r.parentLinkName B
  edge : RawEdge r (θ s) E0
  pose : C = Pose.transform B E0
  rest : T = Pose.transform C S
  moved : ∀ v E, RawEdge r v E → WorldPose ls js welds (Function.update θ s v) base n (Pose.transform (Pose.transform B E) S)

theorem RawEdge.update {r : RawJoint ℝ} {E : Pose ℝ} (h : RawEdge r (θ r.name) E) {s : String} (hs : r.type = .fixed ∨ r.name ≠ s) (v : ℝ) :
    RawEdge r (Function.update θ s v r.name) E := by
  rcases hs with hs | hs
  · cases h with
    | fixed ht => exact .fixed ht
    | rot ht => rw [hs] at ht; rcases ht with h | h <;> cases h
    | slide ht => rw [hs] at ht; cases ht
  · rw [Function.update_of_ne hs]; exact h

/-- Rounded and exact pose of a link, together with how the exact one depends on a joint. -/
theorem Describes.pose_near (hd : Describes ls' js' welds' m) (g : Graph m) (hθm : AnglesAre (K := Fl F) m θ)
    (hR : RobotNear ε μ ls' js' welds' ls js welds) (hP : Proper js welds) (hue : F.u ≤ ε) (hA : 1 ≤ A) (hθ : ∀ j ∈ js, |θ j.name| ≤ A)
    (hb : PoseNear ε (ε * (base.position.len + μ)) m.base base) (hb1 : 1 / 2 ≤ base.rotation.len) (hb2 : base.rotation.len ≤ 2)
    {D : Nat} {R : ℝ} (hsm : Small F ε μ A D R) {i jp : Nat} {s : String} (hjp : m.joints[i]? = some jp) (hs : m.jointIds.find s = some i)
    {l : Nat} {lk : Link (Fl F)} {T' : Pose (Fl F)} (hl : m.links[l]? = some lk) (hp : IsPose m l T')
    (hD : ∀ d L, PathLength ls js welds θ base lk.name d L → d ≤ D ∧ L ≤ R) :
    ∃ d L T, NearAt ε μ A ls js welds θ base lk.name T' d L T ∧
      ((¬ OnPath m jp l ∧ StaysAt ls js welds θ base s lk.name T) ∨
        (OnPath m jp l ∧ ∃ r' r j c C' dc Lc C B E0 S, Carried ε μ A js' ls js welds θ base m jp s lk.name d L T r' r j c C' dc Lc C B E0 S)) := by
  induction hp generalizing lk with
  | @root l lk0 h1 h2 =>
    rw [h1] at hl; cases hl
    rcases hd.links _ _ h1 with ⟨_, ⟨r', hr', he⟩, hno⟩ | ⟨p, _, _, _, hp, _⟩
    · obtain ⟨rl, hrl, hn⟩ := hR.links r' hr'
      have hr : ∀ j ∈ js, j.childLinkName ≠ rl.name := by
        intro j hj heq
        obtain ⟨j', hj', hc⟩ := hR.children j hj
        exact hno j' hj' (by rw [hc, heq, ← hn, he])
      rw [← he, hn]
      refine ⟨0, base.position.len, base, .root hrl hr hue hA hb hb1 hb2 hsm, .inl ⟨?_, fun v => .root hrl hr⟩⟩
      intro h
      cases h with
      | here e1 e2 e3 => rw [h1] at e1; cases e1; rw [h2] at e2; cases e2
      | up e1 e2 e3 => rw [h1] at e1; cases e1; rw [h2] at e2; cases e2
    · rw [h2] at hp; cases hp
  | @child l p jp' lk0 j E' B' h1 h2 h3 h4 h5 h6 ih =>
    rw [h1] at hl; cases hl
    rcases hd.links _ _ h1 with ⟨hn, _⟩ | ⟨p, pk, jp', j, a1, a2, a3, a4, a5⟩
    · rw [h2] at hn; cases hn
    rw [h2] at a1; cases a1
    rw [h3] at a3; cases a3
    rw [h4] at a4; cases a4
    have hoff : jp' ≠ jp → ¬ OnPath m jp p → ¬ OnPath m jp l := by
      intro hne hp h
      cases h with
      | here e1 e2 e3 => rw [h1] at e1; cases e1; rw [h3] at e3; cases e3; exact hne rfl
      | up e1 e2 e3 => rw [h1] at e1; cases e1; rw [h2] at e2; cases e2; exact hp e3
    rcases a5 with ⟨r', hr', hraw, e1, e2⟩ | ⟨hj, hw⟩
    · obtain ⟨r, hr, hrn⟩ := hR.joints r' hr'
      have hE' := (hraw.edge g hθm h1 h2 h3 h4 _).mp h5
      rw [hrn.name] at hE'
      have ep : pk.name = r.parentLinkName := by rw [← e1, hrn.parent]
      have ec : lk0.name = r.childLinkName := by rw [← e2, hrn.child]
      rw [ec] at hD
      obtain ⟨d, L, B, hB, hcase⟩ := ih a2 (fun d L hdl => by
        obtain ⟨g1, g2⟩ := hD (d + 1) (L + r.reach (θ r.name)) (.joint hr (ep ▸ hdl))
        have := r.reach_nonneg (θ r.name)
        exact ⟨by omega, by linarith⟩)
      rw [ep] at hB hcase
      obtain ⟨g1, g2⟩ := hD _ _ (.joint hr hB.path)
      obtain ⟨E, hE, hT⟩ := hB.joint hP hue hA (hθ r hr) hsm hr hrn g1 g2 hE'
      have hr0 := r.reach_nonneg (θ r.name)
      refine ⟨d + 1, L + r.reach (θ r.name), Pose.transform B E, ec ▸ hT, ?_⟩
      rw [ec]
      by_cases hjj : jp' = jp
      · subst hjj
        have hnp : ¬ OnPath m jp' p := fun h => g.parent_not_below h1 h2 ((g.onPath_iff h1 h3 h2 p).mp h)
        rcases hcase with ⟨_, hst⟩ | ⟨hon, _⟩
        · have hname : r.name = s := by
            obtain ⟨jp2, j2, f1, f2, f3⟩ := (g.jointNames s i).mp hs
            rw [hjp] at f1; cases f1
            rw [h4] at f2; cases f2
            obtain ⟨i0, c0, rfl⟩ := hraw
            rw [← hrn.name]; exact f3
          refine .inr ⟨.here h1 h2 h3, r', r, j, l, Pose.transform (K := Fl F) B' E', d + 1, L + r.reach (θ r.name),
            Pose.transform B E, B, E, Pose.identity, ?_⟩
          exact {
            mem' := hr', mem := hr, near := hrn, name := hname, heap := h4, raw := hraw
            child := ⟨lk0, h1, h3, ec ▸ hT⟩
            pose' := .child h1 h2 h3 h4 h5 h6
            depth := le_rfl, length := le_rfl, parent := hB.world, edge := hname ▸ hE, pose := rfl
            rest := (Pose.transform_identity _).symm
            moved := fun v E1 hE1 => by
              rw [Pose.transform_identity]
              refine .joint hr (hst v) ?_
              rw [hname, Function.update_self]
              exact hE1 }
        · exact absurd hon hnp
      · have hup : r.type = .fixed ∨ r.name ≠ s := by
          obtain ⟨jp2, j2, f1, f2, f3⟩ := g.pjoint h1 h2
          rw [h3] at f1; cases f1
          rw [h4] at f2; cases f2
          obtain ⟨i0, c0, rfl⟩ := hraw
          rcases f3 with f3 | ⟨_, k, _, f5⟩
          · exact .inl (hrn.type ▸ f3)
          · refine .inr fun hn => hjj ?_
            have := (g.jointNames s k).mpr ⟨jp', _, f5, h4, hrn.name.trans hn⟩
            rw [hs] at this; cases this
            rw [hjp] at f5; cases f5
            rfl
        rcases hcase with ⟨hno, hst⟩ | ⟨hon, q', q, jj, c, C', dc, Lc, C, B0, E0, S, hc⟩
        · exact .inl ⟨hoff hjj hno, fun v => .joint hr (hst v) (hE.update hup v)⟩
        · refine .inr ⟨.up h1 h2 hon, q', q, jj, c, C', dc, Lc, C, B0, E0, Pose.transform S E, ?_⟩
          exact { hc with
            depth := hc.depth.trans (Nat.le_succ _)
            length := hc.length.trans (by linarith)
            rest := by rw [← Pose.transform_assoc, ← hc.rest]
            moved := fun v E1 hE1 => by
              rw [← Pose.transform_assoc]
              exact .joint hr (hc.moved v E1 hE1) (hE.update hup v) }
    · have hE' := (newFixedJoint_edge hj _).mp h5
      obtain ⟨w, hw2, hwn⟩ := hR.welds _ hw
      have ep : pk.name = w.carrier := hwn.carrier
      have ec : lk0.name = w.name := hwn.name
      rw [ec] at hD
      have hr0 : 0 ≤ w.offset.position.len := Real.sqrt_nonneg _
      obtain ⟨d, L, B, hB, hcase⟩ := ih a2 (fun d L hdl => by
        obtain ⟨g1, g2⟩ := hD (d + 1) (L + w.offset.position.len) (.weld hw2 (ep ▸ hdl))
        exact ⟨by omega, by linarith⟩)
      rw [ep] at hB hcase
      obtain ⟨g1, g2⟩ := hD _ _ (.weld hw2 hB.path)
      have hT := hB.weld hP hue hA hsm hw2 hwn g1 g2
      rw [hE']
      refine ⟨d + 1, L + w.offset.position.len, Pose.transform B w.offset, ec ▸ hT, ?_⟩
      rw [ec]
      have hjj : jp' ≠ jp := by
        rintro rfl
        obtain ⟨j2, _, _, _, f1, _, f3, _⟩ := g.joint hjp
        rw [h4] at f1; cases f1
        rw [hj] at f3
        rcases f3 with h | h | h <;> cases h
      rcases hcase with ⟨hno, hst⟩ | ⟨hon, q', q, jj, c, C', dc, Lc, C, B0, E0, S, hc⟩
      · exact .inl ⟨hoff hjj hno, fun v => .weld hw2 (hst v)⟩
      · refine .inr ⟨.up h1 h2 hon, q', q, jj, c, C', dc, Lc, C, B0, E0, Pose.transform S w.offset, ?_⟩
        exact { hc with
          depth := hc.depth.trans (Nat.le_succ _)
          length := hc.length.trans (by linarith)
          rest := by rw [← Pose.transform_assoc, ← hc.rest]
          moved := fun v E1 hE1 => by
            rw [← Pose.transform_assoc]
            exact .weld hw2 (hc.moved v E1 hE1) }

/-! ### The exact derivative -/

theorem turn_deriv {G S C E : Pose ℝ} {k : Vec3 ℝ} {t : ℝ} (hG : G.rotation.norm2 = 1) (hk : k.IsUnit)
    (hC : C = Pose.transform G ⟨Vec3.zero, Rot.axisQ k t⟩) (hE : E = Pose.transform C S) :
    Vec3.HasDeriv (fun v => (Pose.transform (Pose.transform G ⟨Vec3.zero, Rot.axisQ k v⟩) S).position)
      (Vec3.cross (C.rotation.rotate k) (Vec3.sub E.position C.position)) t ∧
    Rot.HasDeriv (fun v => (Pose.transform (Pose.transform G ⟨Vec3.zero, Rot.axisQ k v⟩) S).rotation)
      (Rot.spin (C.rotation.rotate k) E.rotation) t := by
  have hax : C.rotation.rotate k = G.rotation.rotate k := by
    rw [hC]
    simp only [Pose.transform]
    rw [Rot.rotate_mul, Rot.axisQ_fixes hk]
  rw [hax]
  have hq : Rot.HasDeriv (fun v => Rot.mul G.rotation (Rot.axisQ k v))
      (Rot.spin (G.rotation.rotate k) (Rot.mul G.rotation (Rot.axisQ k t))) t := by
    rw [← Rot.mul_spin hG]
    exact (Rot.axisQ_deriv hk t).mul_left _
  have hqu : ∀ v, (Rot.mul G.rotation (Rot.axisQ k v)).norm2 = 1 := fun v => by
    rw [Rot.norm2_mul, hG, Rot.axisQ_unit hk, one_mul]
  constructor
  · have hsub : Vec3.sub E.position C.position = (Rot.mul G.rotation (Rot.axisQ k t)).rotate S.position := by
      rw [hE, hC]
      simp only [Pose.transform, Vec3.add, Vec3.sub]
      ext <;> simp
    rw [hsub]
    exact (hq.rotate hqu S.position).add_const (Vec3.add (G.rotation.rotate Vec3.zero) G.position)
  · rw [hE, hC]
    have := hq.mul_right S.rotation
    rw [Rot.spin_mul] at this
    exact this

theorem slide_deriv {G S C : Pose ℝ} {k : Vec3 ℝ} {t : ℝ} (hC : C = Pose.transform G ⟨⟨k.x * t, k.y * t, k.z * t⟩, Rot.one⟩) :
    Vec3.HasDeriv (fun v => (Pose.transform (Pose.transform G ⟨⟨k.x * v, k.y * v, k.z * v⟩, Rot.one⟩) S).position) (C.rotation.rotate k) t ∧
    Rot.HasDeriv (fun v => (Pose.transform (Pose.transform G ⟨⟨k.x * v, k.y * v, k.z * v⟩, Rot.one⟩) S).rotation) ⟨0, 0, 0, 0⟩ t := by
  have hrot : C.rotation.rotate k = G.rotation.rotate k := by
    rw [hC]; simp [Pose.transform]
  rw [hrot]
  have hsm : ∀ v, G.rotation.rotate ⟨k.x * v, k.y * v, k.z * v⟩ =
      ⟨v * (G.rotation.rotate k).x, v * (G.rotation.rotate k).y, v * (G.rotation.rotate k).z⟩ := by
    intro v
    have := Rot.rotate_smul G.rotation k v
    rw [mul_comm k.x, mul_comm k.y, mul_comm k.z]
    exact this
  constructor
  · simp only [Pose.transform, Rot.mul_one, hsm, Vec3.add]
    refine ⟨?_, ?_, ?_⟩
    · exact ((((hasDerivAt_id t).mul_const (G.rotation.rotate k).x).add_const G.position.x).const_add
        (G.rotation.rotate S.position).x).congr_deriv (one_mul _)
    · exact ((((hasDerivAt_id t).mul_const (G.rotation.rotate k).y).add_const G.position.y).const_add
        (G.rotation.rotate S.position).y).congr_deriv (one_mul _)
    · exact ((((hasDerivAt_id t).mul_const (G.rotation.rotate k).z).add_const G.position.z).const_add
        (G.rotation.rotate S.position).z).congr_deriv (one_mul _)
  · exact Rot.hasDeriv_const (Rot.mul (Rot.mul G.rotation Rot.one) S.rotation) _

end

end Tinyfk
