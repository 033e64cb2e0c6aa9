import Verif.Spec.PyImport
import Verif.Props.XmlText

/-!
# C92: the files that `import tinyfk` downloads
-/

set_option linter.unusedSectionVars false
set_option maxRecDepth 8000

namespace Tinyfk

section
variable {data : DataFile → List Char} {w w0 w1 : ImportState} {tr tr' : List (Nat × ImportEvent)} {i j : Nat}

/-- what the process that made the directory has done so far -/
inductive Made (data : DataFile → List Char) : ImportAt → CacheDir → Prop
  | none : Made data (.openFile .pr2) ⟨none, none⟩
  | pr2 {p r : List Char} : p ++ r = data .pr2 → Made data (.write .pr2 r) ⟨some p, none⟩
  | mid : Made data (.openFile .fetch) ⟨some (data .pr2), none⟩
  | fetch {p r : List Char} : p ++ r = data .fetch → Made data (.write .fetch r) ⟨some (data .pr2), some p⟩
  | all : Made data .returned ⟨some (data .pr2), some (data .fetch)⟩
  | raised {a : ImportAt} {d : CacheDir} : a.Busy → Made data a d → Made data .raised d
  | dead {a : ImportAt} {d : CacheDir} : a.Busy → Made data a d → Made data .dead d

/-- a process that has not made the directory -/
def ImportAt.Other : ImportAt → Prop
  | .openFile _ => False
  | .write _ _ => False
  | _ => True

def ImportInv (data : DataFile → List Char) (tr : List (Nat × ImportEvent)) (w : ImportState) : Prop :=
  match w.disk with
  | none => (∀ i, (i, ImportEvent.mkdir) ∉ tr) ∧ ∀ i, (w.procs i).Other ∧ w.procs i ≠ .returned
  | some d => ∃ c, (∀ i, (i, ImportEvent.mkdir) ∈ tr ↔ i = c) ∧ Made data (w.procs c) d ∧ ∀ i, i ≠ c → (w.procs i).Other

theorem ImportState.goto_same (w : ImportState) (i : Nat) (a : ImportAt) : (w.goto i a).procs i = a := if_pos rfl
theorem ImportState.goto_ne (w : ImportState) {i j : Nat} (a : ImportAt) (h : j ≠ i) : (w.goto i a).procs j = w.procs j := if_neg h

theorem Made.not_begin {d : CacheDir} : ¬Made data .begin d := nofun
theorem Made.not_mkdir {d : CacheDir} : ¬Made data .mkdir d := nofun

/-- a step of a process that has not made the directory and does not make it -/
theorem ImportInv.other (h : ImportInv data tr w) {i : Nat} {a : ImportAt} {e : ImportEvent} (he : e ≠ .mkdir)
    (hi : ∀ d, ¬Made data (w.procs i) d) (ha : a.Other) (hr : w.disk = none → a ≠ .returned) :
    ImportInv data (tr ++ [(i, e)]) (w.goto i a) := by
  have hmem : ∀ j, (j, ImportEvent.mkdir) ∈ tr ++ [(i, e)] ↔ (j, ImportEvent.mkdir) ∈ tr := by
    intro j
    simp only [List.mem_append, List.mem_singleton, Prod.mk.injEq, or_iff_left_iff_imp]
    rintro ⟨_, h⟩; exact absurd h.symm he
  unfold ImportInv at h ⊢
  show match w.disk with
    | none => _
    | some d => _
  cases hd : w.disk with
  | none =>
    rw [hd] at h
    refine ⟨fun j hj => h.1 j ((hmem j).mp hj), fun j => ?_⟩
    by_cases hj : j = i
    · subst hj; rw [ImportState.goto_same]; exact ⟨ha, hr hd⟩
    · rw [ImportState.goto_ne _ _ hj]; exact h.2 j
  | some d =>
    rw [hd] at h
    obtain ⟨c, h1, h2, h3⟩ := h
    have hc : c ≠ i := by rintro rfl; exact hi _ h2
    refine ⟨c, fun j => (hmem j).trans (h1 j), by rwa [ImportState.goto_ne _ _ hc], fun j hj => ?_⟩
    by_cases hji : j = i
    · subst hji; rw [ImportState.goto_same]; exact ha
    · rw [ImportState.goto_ne _ _ hji]; exact h3 j hj

/-- a step of the process that made the directory -/
theorem ImportInv.maker (h : ImportInv data tr w) {i : Nat} {a : ImportAt} {e : ImportEvent} (he : e ≠ .mkdir) {d d' : CacheDir}
    (hd : w.disk = some d) (hi : ¬(w.procs i).Other ∨ ∃ d, Made data (w.procs i) d ∧ (w.procs i).Busy)
    (ha : Made data (w.procs i) d → Made data a d') :
    ImportInv data (tr ++ [(i, e)]) ({ w with disk := some d' }.goto i a) := by
  have hmem : ∀ j, (j, ImportEvent.mkdir) ∈ tr ++ [(i, e)] ↔ (j, ImportEvent.mkdir) ∈ tr := by
    intro j
    simp only [List.mem_append, List.mem_singleton, Prod.mk.injEq, or_iff_left_iff_imp]
    rintro ⟨_, h⟩; exact absurd h.symm he
  unfold ImportInv at h
  rw [hd] at h
  obtain ⟨c, h1, h2, h3⟩ := h
  have hc : i = c := by
    by_cases hc : i = c
    · exact hc
    · have ho := h3 i hc
      rcases hi with hi | ⟨d, hm, hb⟩
      · exact absurd ho hi
      · cases hp : w.procs i with
        | mkdir => rw [hp] at hm; exact absurd hm Made.not_mkdir
        | openFile f => rw [hp] at ho; exact ho.elim
        | write f r => rw [hp] at ho; exact ho.elim
        | begin => rw [hp] at hb; exact hb.elim
        | returned => rw [hp] at hb; exact hb.elim
        | raised => rw [hp] at hb; exact hb.elim
        | dead => rw [hp] at hb; exact hb.elim
  subst hc
  refine ⟨i, fun j => (hmem j).trans (h1 j), ?_, fun j hj => ?_⟩
  · rw [ImportState.goto_same]; exact ha h2
  · rw [ImportState.goto_ne _ _ hj]; exact h3 j hj

theorem ImportState.Exec.inv (h : ImportState.Exec data .fresh tr w) : ImportInv data tr w := by
  generalize hw0 : ImportState.fresh = w0 at h
  induction h with
  | nil => subst hw0; exact ⟨by simp, fun i => ⟨trivial, nofun⟩⟩
  | @snoc w1 w2 tr e h hs ih =>
    cases hs with
    | @skip i d hp hd =>
      refine ih.other (by simp) (by rw [hp]; exact fun _ => Made.not_begin) trivial (by rw [hd]; nofun)
    | @miss i hp hd => exact ih.other (by simp) (by rw [hp]; exact fun _ => Made.not_begin) trivial nofun
    | @mkdir i hp hd =>
      unfold ImportInv at ih
      rw [hd] at ih
      refine ⟨i, fun j => ?_, ?_, fun j hj => ?_⟩
      · simp only [List.mem_append, List.mem_singleton, Prod.mk.injEq, and_true]
        exact ⟨fun h => h.elim (fun h => absurd h (ih.1 j)) id, .inr⟩
      · rw [ImportState.goto_same]; exact .none
      · rw [ImportState.goto_ne _ _ hj]; exact (ih.2 j).1
    | @«exists» i d hp hd => exact ih.other (by simp) (by rw [hp]; exact fun _ => Made.not_mkdir) trivial (by rw [hd]; nofun)
    | @create i d f hp hd =>
      refine ih.maker (by simp) hd (.inl (by rw [hp]; exact id)) ?_
      rw [hp]
      intro hm
      cases hm with
      | none => exact .pr2 rfl
      | mid => exact .fetch rfl
    | @block i d f b r c hp hb hd hg =>
      refine ih.maker (by simp) hd (.inl (by rw [hp]; exact id)) ?_
      rw [hp]
      intro hm
      cases hm with
      | pr2 hpr =>
        cases hg
        exact .pr2 (by rw [← hpr, List.append_assoc])
      | fetch hpr =>
        cases hg
        exact .fetch (by rw [← hpr, List.append_assoc])
    | @next i f hp =>
      cases hd : w1.disk with
      | none =>
        unfold ImportInv at ih
        rw [hd] at ih
        have := (ih.2 i).1
        rw [hp] at this
        exact this.elim
      | some d =>
        cases f with
        | pr2 =>
          have := ih.maker (e := .next) (d' := d) (a := .openFile .fetch) (by simp) hd (.inl (by rw [hp]; exact id)) (by
            rw [hp]
            intro hm
            cases hm with
            | pr2 hpr => rw [List.append_nil] at hpr; subst hpr; exact .mid)
          rwa [← hd] at this
        | fetch =>
          have := ih.maker (e := .next) (d' := d) (a := .returned) (by simp) hd (.inl (by rw [hp]; exact id)) (by
            rw [hp]
            intro hm
            cases hm with
            | fetch hpr => rw [List.append_nil] at hpr; subst hpr; exact .all)
          rwa [← hd] at this
    | @fail i hb =>
      by_cases hmk : w1.procs i = .mkdir
      · exact ih.other (by simp) (by rw [hmk]; exact fun _ => Made.not_mkdir) trivial nofun
      · have hno : ¬(w1.procs i).Other := by
          cases hp : w1.procs i <;> simp_all [ImportAt.Other, ImportAt.Busy]
        cases hd : w1.disk with
        | none =>
          unfold ImportInv at ih
          rw [hd] at ih
          exact absurd (ih.2 i).1 hno
        | some d =>
          have := ih.maker (e := .fail) (d' := d) (a := .raised) (by simp) hd (.inl hno) (.raised hb)
          rwa [← hd] at this
    | @stop i hb =>
      by_cases hmk : w1.procs i = .mkdir ∨ w1.procs i = .begin
      · refine ih.other (by simp) ?_ trivial nofun
        rcases hmk with hmk | hmk <;> rw [hmk]
        · exact fun _ => Made.not_mkdir
        · exact fun _ => Made.not_begin
      · have hb' : (w1.procs i).Busy := hb.resolve_right fun h => hmk (.inr h)
        have hno : ¬(w1.procs i).Other := by
          cases hp : w1.procs i <;> simp_all [ImportAt.Other, ImportAt.Busy]
        cases hd : w1.disk with
        | none =>
          unfold ImportInv at ih
          rw [hd] at ih
          exact absurd (ih.2 i).1 hno
        | some d =>
          have := ih.maker (e := .stop) (d' := d) (a := .dead) (by simp) hd (.inl hno) (.dead hb')
          rwa [← hd] at this

theorem ImportState.Exec.trans {tr' : List (Nat × ImportEvent)} (h : ImportState.Exec data w0 tr w) (h' : ImportState.Exec data w tr' w1) :
    ImportState.Exec data w0 (tr ++ tr') w1 := by
  induction h' with
  | nil => rwa [List.append_nil]
  | snoc _ hs ih => rw [← List.append_assoc]; exact .snoc ih hs

/-- **C92, what holds.** Any number of processes import the package, none of them earlier than the first; each may be stopped, or
fail, anywhere. When the import of the process that made the directory has returned, both files are complete, then and ever
after. -/
theorem C92_maker_partial (h : ImportState.Exec data .fresh tr w) (hc : (i, ImportEvent.mkdir) ∈ tr) (hr : w.procs i = .returned) :
    Complete data w.disk ∧ ∀ tr' w', ImportState.Exec data w tr' w' → Complete data w'.disk := by
  have key : ∀ {tr : List (Nat × ImportEvent)} {w : ImportState}, ImportState.Exec data .fresh tr w → (i, ImportEvent.mkdir) ∈ tr →
      w.procs i = .returned → Complete data w.disk := by
    intro tr w h hc hr
    have hi := h.inv
    unfold ImportInv at hi
    cases hd : w.disk with
    | none => rw [hd] at hi; exact absurd hc (hi.1 i)
    | some d =>
      rw [hd] at hi
      obtain ⟨c, h1, h2, _⟩ := hi
      cases (h1 i).mp hc
      rw [hr] at h2
      cases h2
      rfl
  refine ⟨key h hc hr, fun tr' w' h' => key (h.trans h') (by simp [hc]) ?_⟩
  induction h' with
  | nil => exact hr
  | @snoc w1 w2 tr e _ hs ih =>
    have hne : ∀ {j : Nat} {a : ImportAt} {d : Option CacheDir}, w1.procs j ≠ .returned →
        (({ w1 with disk := d } : ImportState).goto j a).procs i = .returned := by
      intro j a d hj
      rw [ImportState.goto_ne]
      · exact ih
      · rintro rfl; exact hj ih
    cases hs with
    | skip hp _ => exact hne (d := w1.disk) (by rw [hp]; nofun)
    | miss hp _ => exact hne (d := w1.disk) (by rw [hp]; nofun)
    | mkdir hp _ => exact hne (by rw [hp]; nofun)
    | «exists» hp _ => exact hne (d := w1.disk) (by rw [hp]; nofun)
    | create hp _ => exact hne (by rw [hp]; nofun)
    | block hp _ _ _ => exact hne (by rw [hp]; nofun)
    | next hp => exact hne (d := w1.disk) (by rw [hp]; nofun)
    | fail hb => exact hne (d := w1.disk) (by intro h; rw [h] at hb; exact hb)
    | stop hb =>
      refine hne (d := w1.disk) ?_
      intro h; rw [h] at hb
      rcases hb with hb | hb
      · exact hb
      · cases hb

/-- **C92, at most one process downloads.** -/
theorem C92_one_maker (h : ImportState.Exec data .fresh tr w) (hi : (i, ImportEvent.mkdir) ∈ tr) (hj : (j, ImportEvent.mkdir) ∈ tr) :
    i = j := by
  have hv := h.inv
  unfold ImportInv at hv
  cases hd : w.disk with
  | none => rw [hd] at hv; exact absurd hi (hv.1 i)
  | some d =>
    rw [hd] at hv
    obtain ⟨c, h1, _⟩ := hv
    rw [(h1 i).mp hi, (h1 j).mp hj]

theorem Made.contents {a : ImportAt} {d : CacheDir} (h : Made data a d) :
    (∀ c, d.pr2 = some c → c <+: data .pr2) ∧ (∀ c, d.fetch = some c → c <+: data .fetch ∧ d.pr2 = some (data .pr2)) := by
  induction h with
  | none => exact ⟨nofun, nofun⟩
  | pr2 hp => exact ⟨by rintro c ⟨⟩; exact ⟨_, hp⟩, nofun⟩
  | mid => exact ⟨by rintro c ⟨⟩; exact List.prefix_rfl, nofun⟩
  | fetch hp => exact ⟨by rintro c ⟨⟩; exact List.prefix_rfl, by rintro c ⟨⟩; exact ⟨⟨_, hp⟩, rfl⟩⟩
  | all => exact ⟨by rintro c ⟨⟩; exact List.prefix_rfl, by rintro c ⟨⟩; exact ⟨List.prefix_rfl, rfl⟩⟩
  | raised _ _ ih => exact ih
  | dead _ _ ih => exact ih

/-- **C92, what can be in the files.** At every moment, each file that exists has the first bytes of what the server sends; the
second file exists only when the first is complete. -/
theorem C92_contents (h : ImportState.Exec data .fresh tr w) {d : CacheDir} (hd : w.disk = some d) :
    (∀ c, d.pr2 = some c → c <+: data .pr2) ∧ (∀ c, d.fetch = some c → c <+: data .fetch ∧ d.pr2 = some (data .pr2)) := by
  have hv := h.inv
  unfold ImportInv at hv
  rw [hd] at hv
  obtain ⟨c, _, h2, _⟩ := hv
  exact h2.contents

/-- **C92, an interrupted download is never repaired.** When the process that made the directory has been stopped or has raised,
nothing that any process does changes the files; and every later import returns at once, or is stopped, but never raises. -/
theorem C92_interrupted (h : ImportState.Exec data .fresh tr w) (hc : (i, ImportEvent.mkdir) ∈ tr)
    (hi : w.procs i = .dead ∨ w.procs i = .raised) (h' : ImportState.Exec data w tr' w1) :
    w1.disk = w.disk ∧ ∀ j e w2, w1.procs j = .begin → ImportState.Step data w1 (j, e) w2 →
      w2.procs j = .returned ∨ w2.procs j = .dead := by
  have hd : ∃ d, w.disk = some d := by
    have hv := h.inv
    unfold ImportInv at hv
    cases hd : w.disk with
    | none => rw [hd] at hv; exact absurd hc (hv.1 i)
    | some d => exact ⟨d, rfl⟩
  obtain ⟨d, hd⟩ := hd
  have main : w1.disk = w.disk ∧ (w1.procs i = .dead ∨ w1.procs i = .raised) := by
    induction h' with
    | nil => exact ⟨rfl, hi⟩
    | @snoc w1 w2 tr2 e h2 hs ih =>
      obtain ⟨ih1, ih2⟩ := ih
      rw [hd] at ih1
      have hv := (h.trans h2).inv
      unfold ImportInv at hv
      rw [ih1] at hv
      obtain ⟨c, h1, hm, ho⟩ := hv
      cases (h1 i).mp (by simp [hc])
      have hne : ∀ {j : Nat} {a : ImportAt}, w1.procs j ≠ .dead → w1.procs j ≠ .raised →
          ((w1.goto j a).procs i = .dead ∨ (w1.goto j a).procs i = .raised) := by
        intro j a hj1 hj2
        rw [ImportState.goto_ne]
        · exact ih2
        · rintro rfl; exact ih2.elim hj1 hj2
      have hoth : ∀ j, (w1.procs j).Other := by
        intro j
        by_cases hj : j = i
        · subst hj; rcases ih2 with h | h <;> rw [h] <;> trivial
        · exact ho j hj
      rw [hd]
      cases hs with
      | skip hp _ => exact ⟨ih1, hne (by rw [hp]; nofun) (by rw [hp]; nofun)⟩
      | miss hp hn => rw [ih1] at hn; cases hn
      | mkdir hp hn => rw [ih1] at hn; cases hn
      | «exists» hp _ => exact ⟨ih1, hne (by rw [hp]; nofun) (by rw [hp]; nofun)⟩
      | @create j d f hp _ => have := hoth j; rw [hp] at this; exact this.elim
      | @block j d f b r c hp _ _ _ => have := hoth j; rw [hp] at this; exact this.elim
      | @next j f hp => have := hoth j; rw [hp] at this; exact this.elim
      | fail hb => exact ⟨ih1, hne (by intro h; rw [h] at hb; exact hb) (by intro h; rw [h] at hb; exact hb)⟩
      | stop hb =>
        refine ⟨ih1, hne ?_ ?_⟩ <;> (intro h; rw [h] at hb; rcases hb with hb | hb; exact hb; cases hb)
  refine ⟨main.1, fun j e w2 hb hs => ?_⟩
  have hd1 := main.1.trans hd
  cases hs with
  | skip hp _ => exact .inl (ImportState.goto_same _ _ _)
  | miss hp hn => rw [hd1] at hn; cases hn
  | mkdir hp hn => rw [hb] at hp; cases hp
  | «exists» hp _ => rw [hb] at hp; cases hp
  | create hp _ => rw [hb] at hp; cases hp
  | block hp _ _ _ => rw [hb] at hp; cases hp
  | next hp => rw [hb] at hp; cases hp
  | fail hx => rw [hb] at hx; exact hx.elim
  | stop _ => exact .inr (ImportState.goto_same _ _ _)

/-- **C92 is false: any cut.** The first process is stopped after any number of bytes of the first file; the import of a second
process then returns, and the file stays as it is. -/
theorem C92_cut {p r : List Char} (hp : p ++ r = data .pr2) :
    ∃ tr w, ImportState.Exec data .fresh tr w ∧ (0, ImportEvent.mkdir) ∈ tr ∧ w.procs 0 = .dead ∧ w.procs 1 = .returned ∧
      w.disk = some ⟨some p, none⟩ := by
  have x1 := ImportState.Exec.snoc (data := data) .nil (.miss (w := .fresh) (i := 0) rfl rfl)
  have x2 := x1.snoc (.mkdir (i := 0) rfl rfl)
  have x3 := x2.snoc (.create (i := 0) (f := .pr2) rfl rfl)
  by_cases hpe : p = []
  · subst hpe
    have x4 := x3.snoc (.stop (i := 0) (.inl trivial))
    have x5 := x4.snoc (.skip (i := 1) rfl rfl)
    exact ⟨_, _, x5, by simp, rfl, rfl, rfl⟩
  · have x4 := x3.snoc (.block (i := 0) (f := .pr2) (b := p) (r := r) (c := []) (by rw [hp]; rfl) hpe rfl rfl)
    have x5 := x4.snoc (.stop (i := 0) (.inl trivial))
    have x6 := x5.snoc (.skip (i := 1) rfl rfl)
    exact ⟨_, _, x6, by simp, rfl, rfl, rfl⟩

/-- **C92 is false: a race.** Nothing is stopped and nothing fails: an import returns while another process is still downloading,
and there are no files yet. -/
theorem C92_race : ∃ tr w, ImportState.Exec data .fresh tr w ∧ (∀ e ∈ tr, e.2 ≠ .stop ∧ e.2 ≠ .fail) ∧ w.procs 1 = .returned ∧
    w.disk = some ⟨none, none⟩ := by
  have x1 := ImportState.Exec.snoc (data := data) .nil (.miss (w := .fresh) (i := 0) rfl rfl)
  have x2 := x1.snoc (.mkdir (i := 0) rfl rfl)
  have x3 := x2.snoc (.skip (i := 1) rfl rfl)
  exact ⟨_, _, x3, by simp, rfl, rfl⟩

/-- **C92 is false: an import that raises.** Nothing is stopped and nothing fails, but of two processes that import the package for
the first time one raises `FileExistsError`. -/
theorem C92_exists : ∃ tr w, ImportState.Exec data .fresh tr w ∧ (∀ e ∈ tr, e.2 ≠ .stop ∧ e.2 ≠ .fail) ∧ w.procs 1 = .raised := by
  have x1 := ImportState.Exec.snoc (data := data) .nil (.miss (w := .fresh) (i := 0) rfl rfl)
  have x2 := x1.snoc (.miss (i := 1) rfl rfl)
  have x3 := x2.snoc (.mkdir (i := 0) rfl rfl)
  have x4 := x3.snoc (.exists (i := 1) rfl rfl)
  exact ⟨_, _, x4, by simp, rfl⟩

/-- **C92, what the user then sees.** A document without NUL and in ASCII is on the server. When the file on the disk was cut off
before the end of the root element, constructing a model from the path makes no model: when the file is missing or empty it raises,
and otherwise the null pointer that the parser returned is followed. -/
theorem C92_load {K : Type} [Scalar K] (num : String → Option K) {f : DataFile} {u : Bool} {p x m : List Char} {e : Elem}
    (hdoc : data f = p ++ x ++ m) (hp : Prolog u p) (hx : ElemText u x e) (hz : '\x00' ∉ data f) (ha : ∀ c ∈ data f, utf8Len c ≤ 1)
    (h : ImportState.Exec data .fresh tr w) {path : String} :
    let made := pyNew (parseText num) (fun _ => readData w.disk f) (some path) none
    (w.disk.bind (·.get f) = none → ∃ e, made = .exn (.osError e)) ∧
    (w.disk.bind (·.get f) = some [] → ∃ e, made = .exn (.runtimeError e)) ∧
    (∀ c, w.disk.bind (·.get f) = some c → c ≠ [] → c.length < (p ++ x).length → ∃ b, made = .ub (.nullDeref b)) := by
  intro made
  have hmade : made = Outcome.bind (readData w.disk f) (pyInit (parseText num)) := rfl
  cases hd : w.disk with
  | none => exact ⟨fun _ => ⟨_, by rw [hmade, hd]; rfl⟩, nofun, nofun⟩
  | some d =>
    cases hg : d.get f with
    | none =>
      refine ⟨fun _ => ⟨"FileNotFoundError", by rw [hmade, hd, readData]; simp only [hg]; rfl⟩, ?_, ?_⟩
      · intro h; simp [hg] at h
      · intro c h; simp [hg] at h
    | some c =>
      have hr : made = pyInit (parseText num) (String.ofList c) := by rw [hmade, hd, readData]; simp only [hg]; rfl
      have hpre : c <+: data f := by
        have := C92_contents h hd
        cases f with
        | pr2 => exact this.1 c hg
        | fetch => exact (this.2 c hg).1
      refine ⟨?_, ?_, ?_⟩
      · intro h; simp [hg] at h
      · intro h
        simp [hg] at h
        subst h
        exact ⟨_, by rw [hr]; rfl⟩
      · intro c' h hne hlen
        simp [hg] at h
        subst h
        have hcut : c <+: p ++ x := List.prefix_of_prefix_length_le hpre (by rw [hdoc]; exact List.prefix_append _ _) hlen.le
        have hrej := C73_truncated_bytes num hp hx (t := c) (fun hm => hz (hpre.subset hm))
          (fun a cs hs => by have := ha a (hpre.subset (hs.subset (by simp))); omega) hcut (by rintro rfl; omega)
        have hpt : parseText num (String.ofList c) = none := by unfold parseText; rw [hrej]; rfl
        have hne' : String.ofList c ≠ "" := by
          intro h
          have := congrArg String.toList h
          rw [String.toList_ofList] at this
          exact hne this
        refine ⟨"robot_urdf_interface", ?_⟩
        rw [hr]
        simp only [pyInit, constructXml, if_neg hne', hpt, construct]
        rfl

end

/-- **C93.** For everything that reading a file can do: with a text the model is that of the text; with the path of a file, that of
the text in the file, so that both ways give the same model; a file that cannot be read raises what reading raises; and with both
arguments, with neither and with an empty text nothing is read and an exception is raised. -/
theorem C93_arguments {K : Type} [Scalar K] (parse : String → Option (ModelInterface K)) (read : String → Outcome String) :
    (∀ t, t ≠ "" → pyNew parse read none (some t) = pyInit parse t) ∧
    (∀ p t, read p = .ok t → pyNew parse read (some p) none = pyInit parse t) ∧
    (∀ p e, read p = .exn e → pyNew parse read (some p) none = .exn e) ∧
    (∀ p t, ∃ m, pyNew parse read (some p) (some t) = .exn (.assertionError m)) ∧
    (∃ m, pyNew parse read none none = .exn (.assertionError m)) ∧
    (∃ m, pyNew parse read none (some "") = .exn (.typeError m)) := by
  refine ⟨fun t ht => ?_, fun p t h => ?_, fun p e h => ?_, fun p t => ⟨_, rfl⟩, ⟨_, rfl⟩, ⟨_, rfl⟩⟩
  · simp [pyNew, Option.filter, ht]
  · simp only [pyNew, Option.filter, h]; rfl
  · simp only [pyNew, Option.filter, h]; rfl

/-- **C93, a file and its text.** A model made from a file has the same state, and is pickled as the same bytes, as one made from
the text of the file, whenever one of them can be made. -/
theorem C93_same {K : Type} [Scalar K] (parse : String → Option (ModelInterface K)) (read : String → Outcome String) {p t : String}
    (h : read p = .ok t) (m : PyModel K) :
    pyNew parse read (some p) none = .ok m ↔ pyNew parse read none (some t) = .ok m := by
  obtain ⟨h1, h2, _⟩ := C93_arguments parse read
  rw [h2 p t h]
  by_cases ht : t = ""
  · subst ht; exact ⟨nofun, nofun⟩
  · rw [h1 t ht]

namespace Example

/-- what the server sends: the two-link robot of `DocExample`, written as text, for both files -/
def serverData : DataFile → List Char := fun _ => render (DocExample.robotElem DocExample.inertialElem)

/-- the claim of C92 fails -/
theorem C92_false : ¬ ∀ (tr : List (Nat × ImportEvent)) (w : ImportState) (i : Nat),
    ImportState.Exec serverData .fresh tr w → w.procs i = .returned → Complete serverData w.disk := by
  intro hall
  obtain ⟨tr, w, h, _, hr, hd⟩ := C92_race (data := serverData)
  have := hall tr w 1 h hr
  rw [hd] at this
  simp [Complete] at this

/-- one process that downloads both files in two blocks each, and another that imports the package while it does -/
theorem download : ∃ tr w, ImportState.Exec serverData .fresh tr w ∧ (0, ImportEvent.mkdir) ∈ tr ∧ w.procs 0 = .returned := by
  have x1 := ImportState.Exec.snoc (data := serverData) .nil (.miss (w := .fresh) (i := 0) rfl rfl)
  have x2 := x1.snoc (.mkdir (i := 0) rfl rfl)
  have x3 := x2.snoc (.create (i := 0) (f := .pr2) rfl rfl)
  have x4 := x3.snoc (.block (i := 0) (f := .pr2) (b := (serverData .pr2).take 50) (r := (serverData .pr2).drop 50) (c := [])
    (by rw [List.take_append_drop]; rfl) (by decide) rfl rfl)
  have x5 := x4.snoc (.skip (i := 1) rfl rfl)
  have x6 := x5.snoc (.block (i := 0) (f := .pr2) (b := (serverData .pr2).drop 50) (r := []) (c := (serverData .pr2).take 50)
    (by rw [List.append_nil]; rfl) (by decide) rfl rfl)
  have x7 := x6.snoc (.next (i := 0) (f := .pr2) rfl)
  have x8 := x7.snoc (.create (i := 0) (f := .fetch) rfl rfl)
  have x9 := x8.snoc (.block (i := 0) (f := .fetch) (b := serverData .fetch) (r := []) (c := [])
    (by rw [List.append_nil]; rfl) (by decide) rfl rfl)
  have x10 := x9.snoc (.next (i := 0) (f := .fetch) rfl)
  exact ⟨_, _, x10, by simp, rfl⟩

/-- then the files are complete -/
example : ∃ tr w, ImportState.Exec serverData .fresh tr w ∧ Complete serverData w.disk := by
  obtain ⟨tr, w, h, hm, hr⟩ := download
  exact ⟨tr, w, h, (C92_maker_partial h hm hr).1⟩

/-- a download cut off after 100 bytes: the next import returns, and constructing the model follows a null pointer -/
example {K : Type} [Scalar K] (num : String → Option K) : ∃ tr w, ImportState.Exec serverData .fresh tr w ∧ w.procs 1 = .returned ∧
    ∃ b, pyNew (parseText num) (fun _ => readData w.disk .pr2) (some "~/.tinyfk/pr2.urdf") none = .ub (.nullDeref b) := by
  obtain ⟨tr, w, h, hm, hd, hr, hw⟩ := C92_cut (data := serverData) (p := (serverData .pr2).take 100) (r := (serverData .pr2).drop 100)
    (List.take_append_drop _ _)
  refine ⟨tr, w, h, hr, ?_⟩
  refine (C92_load num (f := .pr2) (u := false) (p := []) (x := render (DocExample.robotElem DocExample.inertialElem)) (m := []) (data := serverData)
    (by simp [serverData]) prolog_nil (render_text _ XmlExample.robot_writable) (by decide) (by decide) h).2.2
    ((serverData .pr2).take 100) (by rw [hw]; rfl) (by decide) (by decide)

/-- after a complete download the model of the file is the model of the text that the server sent -/
example {K : Type} [Scalar K] (num : String → Option K) : ∃ tr w, ImportState.Exec serverData .fresh tr w ∧
    ∀ m, pyNew (parseText num) (fun _ => readData w.disk .fetch) (some "~/.tinyfk/fetch.urdf") none = .ok m ↔
      pyNew (parseText num) (fun _ => readData w.disk .fetch) none (some (String.ofList (serverData .fetch))) = .ok m := by
  obtain ⟨tr, w, h, hm, hr⟩ := download
  exact ⟨tr, w, h, C93_same _ _ (by rw [(C92_maker_partial h hm hr).1]; rfl)⟩

end Example

end Tinyfk
