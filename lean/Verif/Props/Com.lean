import Verif.Proofs.ComFk
import Verif.Props.State

/-!
# Properties: centre of mass

C05, C30, C32, C38.
-/

set_option linter.unusedSectionVars false

namespace Tinyfk

open Scalar

section
variable {K : Type} [Scalar K]
  {ls : List (RawLink K)} {js : List (RawJoint K)} {m0 : KinModel K} {cs : List (Call K)} {mc m : KinModel K}

theorem sorted_unique {a b : List (RawLink K)} (hp : a.Perm b) (ha : (a.map RawLink.name).Pairwise (· < ·))
    (hb : (b.map RawLink.name).Pairwise (· < ·)) : a = b := by
  refine List.Perm.eq_of_pairwise (le := fun a b => a.name < b.name) ?_ (List.pairwise_map.mp ha)
    (List.pairwise_map.mp hb) hp
  intro a b _ _ h1 h2
  exact absurd (String.lt_trans h1 h2) (String.lt_irrefl _)

theorem withInertial_filter (l : List (RawLink K)) :
    List.Forall₂ (fun (r : RawLink K) p => p.1 = r ∧ r.inertial = some p.2)
      (l.filter fun r => r.inertial.isSome) (withInertial l) := by
  induction l with
  | nil => exact .nil
  | cons r l ih =>
    rw [withInertial_cons]
    cases h : r.inertial with
    | none => simpa [List.filter_cons, h] using ih
    | some i =>
      rw [List.filter_cons_of_pos (by simp [h])]
      exact .cons ⟨rfl, h⟩ ih

theorem forall₂_comp {α β γ : Type} {R : α → β → Prop} {S : β → γ → Prop} {Q : α → γ → Prop}
    (h : ∀ a b c, R a b → S b c → Q a c) {as : List α} {bs : List β} {cs : List γ}
    (h1 : List.Forall₂ R as bs) (h2 : List.Forall₂ S bs cs) : List.Forall₂ Q as cs := by
  induction h1 generalizing cs with
  | nil => cases h2; exact .nil
  | cons hr _ ih => cases h2 with | cons hs ht => exact .cons (h _ _ _ hr hs) (ih ht)

theorem forall₂_fun {α β : Type} {R : α → β → Prop} (h : ∀ a b c, R a b → R a c → b = c)
    {as : List α} {bs cs : List β} (h1 : List.Forall₂ R as bs) (h2 : List.Forall₂ R as cs) : bs = cs := by
  induction h1 generalizing cs with
  | nil => cases h2; rfl
  | cons hr _ ih => cases h2 with | cons hs ht => rw [h _ _ _ hr hs, ih ht]

/-- a link of the description has a unique pose -/
theorem Reach.link_pose (h : Reach ls js m0 cs m) {θ : String → K} (hθ : AnglesAfter m0 cs θ) {r : RawLink K}
    (hr : r ∈ ls) : ∃ T, ∀ T', WorldPose ls js (AllWelds ls m0 cs) θ (baseAfter Pose.identity cs) r.name T' ↔ T' = T := by
  obtain ⟨l, lk, h1, h2⟩ := h.abs.desc.all r hr
  obtain ⟨T, hT⟩ := h.abs.inv.exists_pose (List.getElem?_eq_some_iff.mp h1).1
  refine ⟨T, fun T' => ?_⟩
  have := h.abs.worldPose_iff h.tree hθ.find h1 T'
  rw [h2] at this
  show WorldPose ls js _ θ _ r.name T' ↔ _
  constructor
  · intro hw; exact ((this.mpr hw).unique hT)
  · rintro rfl; exact this.mp hT

/-- the bodies are defined and unique -/
theorem Reach.bodies (h : Reach ls js m0 cs m) {θ : String → K} (hθ : AnglesAfter m0 cs θ) :
    ∃ bs, (∀ bs', Bodies ls js (AllWelds ls m0 cs) θ (baseAfter Pose.identity cs) bs' ↔ bs' = bs) ∧
      List.Forall₂ (IsComPt m) m.comDummy
        (bs.map fun x => (x.1.reset, Pose.transform x.2 ⟨x.1.origin.position, Rot.one⟩)) := by
  obtain ⟨sorted, hp, hs, _, hcom, _⟩ := h.constructed.order
  have hbs : ∃ bs : List (Inertial K × Pose K), List.Forall₂ (fun r x => r.inertial = some x.1 ∧
      WorldPose ls js (AllWelds ls m0 cs) θ (baseAfter Pose.identity cs) r.name x.2)
      (sorted.filter fun r => r.inertial.isSome) bs := by
    refine forall₂_exists _ ?_
    intro r hr
    rw [List.mem_filter] at hr
    obtain ⟨T, hT⟩ := h.link_pose hθ (hp.mem_iff.mp hr.1)
    obtain ⟨i, hi⟩ := Option.isSome_iff_exists.mp hr.2
    exact ⟨(i, T), hi, (hT T).mpr rfl⟩
  obtain ⟨bs, hbs⟩ := hbs
  refine ⟨bs, fun bs' => ⟨?_, ?_⟩, ?_⟩
  · rintro ⟨sorted', hp', hs', hbs'⟩
    have e : sorted' = sorted := sorted_unique (hp'.trans hp.symm) hs' hs
    subst e
    have hmem : ∀ r ∈ sorted'.filter (fun r => r.inertial.isSome), r ∈ ls := by
      intro r hr; exact hp.mem_iff.mp (List.mem_filter.mp hr).1
    clear hcom hs hs' hp hp'
    generalize sorted'.filter (fun r => r.inertial.isSome) = l at hmem hbs hbs'
    induction hbs generalizing bs' with
    | nil => cases hbs'; rfl
    | @cons r x l bs h1 _ ih =>
      cases hbs' with
      | @cons _ y _ bs' h2 h3 =>
        rw [ih _ (fun r hr => hmem r (by simp [hr])) h3]
        obtain ⟨T, hT⟩ := h.link_pose hθ (hmem r (by simp))
        have e1 : y.1 = x.1 := by have := h2.1.symm.trans h1.1; exact Option.some.inj this
        have e2 : y.2 = x.2 := ((hT _).mp h2.2).trans ((hT _).mp h1.2).symm
        rw [Prod.ext e1 e2]
  · rintro rfl; exact ⟨sorted, hp, hs, hbs⟩
  · rw [h.abs.coms]
    rw [List.forall₂_map_right_iff]
    refine forall₂_comp ?_ hcom (forall₂_comp (R := fun (p : RawLink K × Inertial K) (r : RawLink K) =>
        (p.1 = r ∧ r.inertial = some p.2) ∧ r ∈ ls)
      (Q := fun (p : RawLink K × Inertial K) (x : Inertial K × Pose K) => p.1 ∈ ls ∧ p.1.inertial = some p.2 ∧ p.2 = x.1 ∧
        WorldPose ls js (AllWelds ls m0 cs) θ (baseAfter Pose.identity cs) p.1.name x.2) ?_ ?_ hbs)
    · rintro d ⟨r, i⟩ ⟨i', T⟩ ⟨lk, h1, h2, h3⟩ ⟨h4, h5, h6, h7⟩
      simp only at h2 h3 h4 h5 h6 h7
      subst h6
      obtain ⟨lk', g1, g2, g3, _⟩ := h.abs.old d lk h1
      refine ⟨lk', g1, h.abs.inv.graph.ids g1, g3.trans h3, ?_⟩
      refine (h.abs.worldPose_iff h.tree hθ.find g1 _).mpr ?_
      rw [g2, h2]
      exact WorldPose.weld (w := ⟨r.name ++ "_com", r.name, ⟨i.origin.position, Rot.one⟩⟩)
        (Or.inl (.mk h4 h5)) h7
    · rintro ⟨r, i⟩ r' x ⟨⟨rfl, h2⟩, h3⟩ ⟨h4, h5⟩
      simp only at h2
      rw [h2] at h4
      exact ⟨h3, h2, by simpa using h4, h5⟩
    · have := (withInertial_filter sorted).flip
      rw [List.forall₂_iff_get] at this ⊢
      refine ⟨this.1, fun i h1 h2 => ⟨this.2 i h1 h2, ?_⟩⟩
      have := List.getElem_mem (l := sorted.filter fun r => r.inertial.isSome) h2
      exact hp.mem_iff.mp (List.mem_filter.mp this).1

theorem comVal_bodies (bs : List (Inertial K × Pose K)) :
    comVal (bs.map fun x => (x.1.reset, Pose.transform x.2 ⟨x.1.origin.position, Rot.one⟩)) = comOf bs := by
  have : ∀ (v : Vec3 K) (s : K), (bs.map fun x => (x.1.reset, Pose.transform x.2 ⟨x.1.origin.position, Rot.one⟩)).foldl
      comStep (v, s) = (⟨bs.foldl (fun s x => s + x.1.mass * (bodyCentre x).x) v.x,
        bs.foldl (fun s x => s + x.1.mass * (bodyCentre x).y) v.y,
        bs.foldl (fun s x => s + x.1.mass * (bodyCentre x).z) v.z⟩, bs.foldl (fun s x => s + x.1.mass) s) := by
    induction bs with
    | nil => intro v s; rfl
    | cons x bs ih =>
      intro v s
      simp only [List.map_cons, List.foldl_cons, ih, comStep]
      rfl
  unfold comVal comOf
  rw [this]
  rfl

/-- **C30.** After any history, the bodies of the described robot are defined and unique, and
`get_com` returns the mass-weighted mean of the world positions of their centres. -/
theorem C30_com (h : Reach ls js m0 cs m) (hf : Shallow ls js m0 cs) {θ : String → K} (hθ : AnglesAfter m0 cs θ) :
    ∃ bs, (∀ bs', Bodies ls js (AllWelds ls m0 cs) θ (baseAfter Pose.identity cs) bs' ↔ bs' = bs) ∧
      ∃ m', getCom m = .ok (comOf bs) m' := by
  obtain ⟨bs, hb, hc⟩ := h.bodies hθ
  refine ⟨bs, hb, ?_⟩
  rw [← comVal_bodies]
  obtain ⟨m', e, _⟩ := (Query.getCom hc).run (h.ready hf)
  exact ⟨m', e⟩

end
end Tinyfk
