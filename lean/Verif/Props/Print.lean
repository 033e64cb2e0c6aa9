import Verif.Proofs.Print
import Verif.Props.ExportShapes

/-!
# C100: a robot description that is written is read again as the same
-/

set_option linter.unusedSimpArgs false

namespace Tinyfk

/-! ### the text of a tree -/

/-- the attribute as written, with its quotes -/
theorem attrText_eq {a : String × String} (h1 : XName a.1.toList) : ∃ q, (q = '"' ∨ q = '\'') ∧
    attrText a = a.1.toList ++ ([] ++ '=' :: ([] ++ q :: (encodeString a.2.toList ++ [q]))) := by
  unfold attrText
  split
  · exact ⟨'\'', .inr rfl, by rw [h1.encode]; simp⟩
  · exact ⟨'"', .inl rfl, by rw [h1.encode]; simp⟩

theorem attrFile_eq {a : String × String} (h1 : XName a.1.toList) (h2 : Clean a.2) : attrFile a = attrText a := by
  have e1 : cut (encodeString a.1.toList) = encodeString a.1.toList := by rw [h1.encode]; exact cut_id h1.nul
  have e2 : cut (encodeString a.2.toList) = encodeString a.2.toList := cut_id (h2.value (u := false) (q := '"') (.inl rfl)).nul
  unfold attrFile attrText
  rw [e1, e2]

theorem visited_eq {as : List (String × String)} (h : ∀ a ∈ as, XName a.1.toList) : visited as = as := by
  cases as with
  | nil => rfl
  | cons a as =>
    have : ∀ l : List (String × String), (∀ b ∈ l, XName b.1.toList) → l.takeWhile (fun b => !(b.1.isEmpty && b.2.isEmpty)) = l := by
      intro l hl
      induction l with
      | nil => rfl
      | cons b l ih =>
        have hb : b.1.isEmpty = false := by
          obtain ⟨c, cs, e, _⟩ := (hl b List.mem_cons_self).bytes
          rw [String.isEmpty_eq_false_iff]
          intro hb
          rw [hb] at e
          simp at e
        rw [List.takeWhile_cons_of_pos (by simp [hb]), ih fun x hx => hl x (List.mem_cons_of_mem _ hx)]
    rw [visited, this as fun b hb => h b (List.mem_cons_of_mem _ hb)]

/-- the attributes as written -/
theorem attrs_text {u : Bool} {as : List (String × String)}
    (h : ∀ a ∈ as, XName a.1.toList ∧ ∀ q, q = '"' ∨ q = '\'' → ValueText u q (encodeString a.2.toList) a.2.toList) :
    AttrsText u ((as.map fun a => ' ' :: attrText a).flatten) as := by
  induction as with
  | nil => exact .nil
  | cons a as ih =>
    obtain ⟨h1, h2⟩ := h a List.mem_cons_self
    obtain ⟨q, hq, e⟩ := attrText_eq h1
    have := AttrsText.cons (s1 := [' ']) (s2 := []) (s3 := []) (by simp [XSpace]) (by simp) h1 (by simp [XSpace]) (by simp [XSpace]) hq
      (h2 q hq) (ih fun x hx => h x (List.mem_cons_of_mem _ hx))
    rw [List.map_cons, List.flatten_cons, e]
    simpa using this

theorem xspace_indent {ind : List Char} (h : XSpace ind) (d : Nat) : XSpace (List.replicate d ind).flatten := by
  intro c hc
  obtain ⟨l, hl, hc⟩ := List.mem_flatten.mp hc
  rw [(List.mem_replicate.mp hl).2] at hc
  exact h c hc

theorem content_space {u : Bool} {s t : List Char} {es : List Elem} (hs : XSpace s) (h : ContentText u t es) : ContentText u (s ++ t) es := by
  induction s with
  | nil => exact h
  | cons c s ih =>
    have ih := ih fun d hd => hs d (List.mem_cons_of_mem _ hd)
    have hc : Plain c ∧ utf8 [c] = [c] := by rcases hs c List.mem_cons_self with rfl | rfl | rfl | rfl | rfl | rfl <;>
      exact ⟨by unfold Plain; decide, utf8_ascii (by decide)⟩
    have := ContentText.char (u := u) hc.1 ih
    rwa [hc.2] at this

mutual

/-- an element as a `TiXmlPrinter` writes it: white space, the element, white space -/
theorem visitElem_text {ind brk : List Char} (hi : XSpace ind) (hb : XSpace brk) : ∀ (d : Nat) (e : Elem), Printable e →
    ∃ s x, visitElem ind brk d e = s ++ (x ++ brk) ∧ XSpace s ∧ ElemText false x e
  | d, .mk n as kids => by
    intro h
    rw [Printable] at h
    obtain ⟨hn, hnd, ha, hk⟩ := h
    have hat := attrs_text (u := false) (as := as) fun a h => ⟨(ha a h).1, fun q hq => (ha a h).2.value hq⟩
    have hv : visited as = as := visited_eq fun a h => (ha a h).1
    have hc : cut n.toList = n.toList := cut_id hn.nul
    refine ⟨(List.replicate d ind).flatten, ?_⟩
    cases kids with
    | nil =>
      refine ⟨_, ?_, xspace_indent hi d, by simpa using ElemText.empty (s := [' ']) hn hat hnd (by simp [XSpace])⟩
      rw [visitElem, hv, hc]
      simp
    | cons k ks =>
      have hks := visitAll_text hi hb (d + 1) (k :: ks) (by rw [AllPrintable] at hk ⊢; exact hk) _ _ (xspace_indent hi d) .nil
      refine ⟨_, ?_, xspace_indent hi d, by
        simpa using ElemText.full (s := []) (s' := []) hn hat hnd (by simp [XSpace]) (content_space hb hks) (by simp [XSpace])⟩
      rw [visitElem, hv, hc]
      simp

theorem visitAll_text {ind brk : List Char} (hi : XSpace ind) (hb : XSpace brk) : ∀ (d : Nat) (es : List Elem), AllPrintable es →
    ∀ s t, XSpace s → ContentText false t [] → ContentText false (visitAll ind brk d es ++ (s ++ t)) es
  | d, [] => by
    intro _ s t hs ht
    rw [visitAll, List.nil_append]
    exact content_space hs ht
  | d, e :: es => by
    intro h s t hs ht
    rw [AllPrintable] at h
    obtain ⟨s1, x, e1, h1, h2⟩ := visitElem_text hi hb d e h.1
    have h3 := visitAll_text hi hb d es h.2 s t hs ht
    rw [visitAll, e1]
    have := content_space h1 (ContentText.elem h2 (content_space hb h3))
    simpa using this

end

mutual

/-- printing to a file and with a `TiXmlPrinter` -/
theorem printElem_eq : ∀ (d : Nat) (e : Elem), Printable e → printElem d e ++ ['\n'] = visitElem "    ".toList ['\n'] d e
  | d, .mk n as kids => by
    intro h
    rw [Printable] at h
    obtain ⟨hn, hnd, ha, hk⟩ := h
    have he : ((visited as).map fun a => ' ' :: attrFile a) = ((visited as).map fun a => ' ' :: attrText a) := by
      rw [visited_eq fun a h => (ha a h).1]
      refine List.map_congr_left fun a h => ?_
      rw [attrFile_eq (ha a h).1 (ha a h).2]
    cases kids with
    | nil =>
      rw [printElem, visitElem, he]
      simp
    | cons k ks =>
      rw [printElem, visitElem, he]
      have := printKids_eq (d + 1) (k :: ks) hk
      simp only [List.append_assoc, List.cons_append, List.nil_append] at this ⊢
      have key : ∀ r, printKids (d + 1) (k :: ks) ++ '\n' :: r = '\n' :: (visitAll "    ".toList ['\n'] (d + 1) (k :: ks) ++ r) := by
        intro r
        have := congrArg (· ++ r) this
        simpa using this
      rw [key]

theorem printKids_eq : ∀ (d : Nat) (es : List Elem), AllPrintable es →
    printKids d es ++ ['\n'] = '\n' :: visitAll "    ".toList ['\n'] d es
  | d, [] => by
    intro _
    rw [printKids, visitAll]
    rfl
  | d, e :: es => by
    intro h
    rw [AllPrintable] at h
    rw [printKids, visitAll, ← printElem_eq d e h.1, List.append_assoc, printKids_eq d es h.2]
    simp

end

theorem misc_space {s : List Char} (h : XSpace s) : MiscText s := by
  induction s with
  | nil => exact .nil
  | cons c s ih =>
    exact .space (fun d hd => h d (by rw [List.mem_singleton.mp hd]; exact List.mem_cons_self)) (ih fun d hd => h d (List.mem_cons_of_mem _ hd))

theorem prolog_space {s : List Char} (h : XSpace s) : Prolog false s := ⟨[], [], s, false, rfl, .inl rfl, .inl ⟨rfl, rfl⟩, misc_space h, by simp⟩

theorem XSpace.append {s t : List Char} (hs : XSpace s) (ht : XSpace t) : XSpace (s ++ t) := fun c hc => (List.mem_append.mp hc).elim (hs c) (ht c)

theorem XSpace.nul {s : List Char} (h : XSpace s) : '\x00' ∉ s := by
  intro hm
  have := h _ hm
  revert this
  decide

theorem AttrsText.nul {u : Bool} {t : List Char} {as : List (String × String)} (h : AttrsText u t as) : '\x00' ∉ t := by
  induction h with
  | nil => simp
  | cons h1 _ h2 h3 h4 hq h5 _ ih =>
    have q0 : ∀ q : Char, q = '"' ∨ q = '\'' → ('\x00' : Char) ≠ q := by rintro q (rfl | rfl) <;> decide
    simp [h1.nul, h2.nul, h3.nul, h4.nul, h5.nul, ih, q0 _ hq]

/-- what a `TiXmlPrinter` writes is a document with the tree it was given; white space may follow -/
theorem printer_doc {ind brk s : List Char} (hi : XSpace ind) (hb : XSpace brk) (hs : XSpace s) {e : Elem} (h : Printable e) :
    DocText (printerDoc ind brk [e] ++ s) e := by
  obtain ⟨s1, x, e1, h1, h2⟩ := visitElem_text hi hb 0 e h
  refine ⟨false, s1, x, brk ++ s, ?_, prolog_space h1, h2, misc_space (hb.append hs)⟩
  rw [printerDoc, visitAll, visitAll, e1]
  simp

mutual

theorem visitElem_nul {ind brk : List Char} (hi : XSpace ind) (hb : XSpace brk) : ∀ (d : Nat) (e : Elem), Printable e → '\x00' ∉ visitElem ind brk d e
  | d, .mk n as kids => by
    intro h
    rw [Printable] at h
    obtain ⟨hn, hnd, ha, hk⟩ := h
    have hat := (attrs_text (u := false) (as := as) fun a h => ⟨(ha a h).1, fun q hq => (ha a h).2.value hq⟩).nul
    have hv : visited as = as := visited_eq fun a h => (ha a h).1
    have hc : cut n.toList = n.toList := cut_id hn.nul
    have h1 := (xspace_indent hi d).nul
    have h2 := hb.nul
    have h3 := hn.nul
    cases kids with
    | nil =>
      rw [visitElem, hv, hc]
      simp only [List.mem_append, List.mem_cons, not_or]
      exact ⟨⟨⟨h1, by decide, h3⟩, hat⟩, by decide, h2⟩
    | cons k ks =>
      have hks := visitAll_nul hi hb (d + 1) (k :: ks) hk
      rw [visitElem, hv, hc]
      simp only [List.mem_append, List.mem_cons, not_or]
      exact ⟨⟨⟨h1, by decide, h3⟩, hat⟩, ⟨⟨⟨⟨by decide, h2⟩, hks⟩, h1⟩, by decide, by decide, h3⟩, by decide, h2⟩

theorem visitAll_nul {ind brk : List Char} (hi : XSpace ind) (hb : XSpace brk) : ∀ (d : Nat) (es : List Elem), AllPrintable es → '\x00' ∉ visitAll ind brk d es
  | d, [] => by
    intro _
    rw [visitAll]
    simp
  | d, e :: es => by
    intro h
    rw [AllPrintable] at h
    rw [visitAll, List.mem_append, not_or]
    exact ⟨visitElem_nul hi hb d e h.1, visitAll_nul hi hb d es h.2⟩

end

/-! ### C100 -/

/-- **C100, printing to a file and with a `TiXmlPrinter`** gives the same text. -/
theorem C100_same_text {es : List Elem} (h : AllPrintable es) : printDoc es = printerDoc "    ".toList ['\n'] es := by
  unfold printerDoc
  induction es with
  | nil => rw [printDoc, visitAll]
  | cons e es ih =>
    rw [AllPrintable] at h
    rw [printDoc, visitAll, ← ih h.2, ← printElem_eq 0 e h.1]
    simp

/-- **C100, with a `TiXmlPrinter`.** Whatever white space is chosen for indentation and line breaks (none for stream
printing), the text of an element tree is read as that tree, also when white space follows. -/
theorem C100_printer_partial {ind brk s : List Char} (hi : XSpace ind) (hb : XSpace brk) (hs : XSpace s) {e : Elem} (h : Printable e) :
    parseXml (printerDoc ind brk [e] ++ s) = pure (some [e]) := by
  refine C72_wellformed (printer_doc hi hb hs h) ?_
  rw [List.mem_append, not_or]
  exact ⟨visitAll_nul hi hb 0 [e] ⟨h, trivial⟩, hs.nul⟩

/-- **C100, for files.** What is saved to a file and loaded again, directly or line by line, is the same tree. -/
theorem C100_file_partial {e : Elem} (h : Printable e) :
    parseXml (printDoc [e]) = pure (some [e]) ∧ parseXml (loadUrdf (some (printDoc [e]))) = pure (some [e]) := by
  have hi : XSpace "    ".toList := by simp [XSpace]
  have hb : XSpace ['\n'] := by simp [XSpace]
  rw [C51_load_urdf.2, C100_same_text (es := [e]) ⟨h, trivial⟩]
  exact ⟨by simpa using C100_printer_partial hi hb (s := []) (by simp [XSpace]) h, C100_printer_partial hi hb hb h⟩

/-! ### exported robots -/

section

variable {K : Type} [Scalar K] {num : String → Option K} {fmt : K → String} {rd : K → K}

theorem attr_value {P : String → Prop} {e : Elem} (h : Values P e) {k s : String} (hs : e.attr k = some s) : P s := by
  cases e with
  | mk n as kids =>
    rw [Values] at h
    unfold Elem.attr at hs
    obtain ⟨a, ha, rfl⟩ := Option.map_eq_some_iff.mp hs
    exact h.1 a (List.mem_of_find?_eq_some ha)

theorem allValues_iff {P : String → Prop} {es : List Elem} : AllValues P es ↔ ∀ e ∈ es, Values P e := by
  induction es with
  | nil => simp [AllValues]
  | cons e es ih => rw [AllValues, ih]; simp

theorem children_values {P : String → Prop} {e : Elem} (h : Values P e) : ∀ c ∈ e.children, Values P c := by
  cases e with
  | mk n as kids =>
    rw [Values] at h
    exact allValues_iff.mp h.2

theorem firstChild_values {P : String → Prop} {e c : Elem} (h : Values P e) {k : String} (hc : e.firstChild k = some c) : Values P c :=
  children_values h c (List.mem_of_find?_eq_some hc)

theorem named_values {P : String → Prop} {e : Elem} (h : Values P e) {k : String} : ∀ c ∈ e.childrenNamed k, Values P c :=
  fun c hc => children_values h c (List.mem_filter.mp hc).1

theorem getD_value {P : String → Prop} (h0 : P "") {o : Option String} (h : ∀ s, o = some s → P s) : P (o.getD "") := by
  cases o with
  | none => exact h0
  | some s => exact h s rfl

theorem parseMaterial_strings {P : String → Prop} (h0 : P "") {e : Elem} (h : Values P e) : MaterialStrings P (parseMaterial num e).1 := by
  unfold parseMaterial
  split
  · exact ⟨h0, h0⟩
  · rename_i n hn
    refine ⟨attr_value h hn, getD_value h0 fun s hs => ?_⟩
    obtain ⟨c, hc, hs⟩ := Option.bind_eq_some_iff.mp hs
    exact attr_value (firstChild_values h hc) hs

theorem parseGeometry_strings {P : String → Prop} {g : Option Elem} (h : ∀ e, g = some e → Values P e) {x : Geometry K}
    (hx : parseGeometry num g = some x) : GeometryStrings P x := by
  cases g with
  | none => cases hx
  | some e =>
    have h := h e rfl
    unfold parseGeometry at hx
    simp only at hx
    split at hx
    · cases hx
    · rename_i sh l hl
      have hsh : Values P sh := children_values h sh (by rw [hl]; exact List.mem_cons_self)
      split at hx
      · obtain ⟨_, _, rfl⟩ := Option.map_eq_some_iff.mp hx; trivial
      split at hx
      · obtain ⟨_, _, rfl⟩ := Option.map_eq_some_iff.mp hx; trivial
      split at hx
      · obtain ⟨_, _, hx⟩ := Option.bind_eq_some_iff.mp hx
        obtain ⟨_, _, hx⟩ := Option.bind_eq_some_iff.mp hx
        cases hx; trivial
      split at hx
      · obtain ⟨f, hf, hx⟩ := Option.bind_eq_some_iff.mp hx
        split at hx
        · cases hx; exact attr_value hsh hf
        · obtain ⟨_, _, rfl⟩ := Option.map_eq_some_iff.mp hx; exact attr_value hsh hf
      · cases hx

theorem parseVisual_strings {P : String → Prop} (h0 : P "") {e : Elem} (h : Values P e) {v : Visual K} (hv : parseVisual num e = some v) :
    GeometryStrings P v.geometry ∧ ∀ m, v.material = some m → MaterialStrings P m := by
  unfold parseVisual at hv
  obtain ⟨o, _, hv⟩ := Option.bind_eq_some_iff.mp hv
  obtain ⟨g, hg, hv⟩ := Option.bind_eq_some_iff.mp hv
  have hg := parseGeometry_strings (fun c hc => firstChild_values h hc) hg
  simp only at hv
  split at hv
  · cases hv; exact ⟨hg, by simp⟩
  · rename_i c hc
    obtain ⟨n, hn, hv⟩ := Option.bind_eq_some_iff.mp hv
    have hm := parseMaterial_strings (num := num) h0 (firstChild_values h hc)
    split at hv
    · rename_i m hm'
      cases hv
      rw [hm'] at hm
      exact ⟨hg, fun m' e => by cases e; exact hm⟩
    · cases hv; exact ⟨hg, by simp⟩

theorem parseCollision_strings {P : String → Prop} {e : Elem} (h : Values P e) {c : Collision K} (hc : parseCollision num e = some c) :
    GeometryStrings P c.geometry := by
  unfold parseCollision at hc
  obtain ⟨o, _, hc⟩ := Option.bind_eq_some_iff.mp hc
  obtain ⟨g, hg, hc⟩ := Option.bind_eq_some_iff.mp hc
  cases hc
  exact parseGeometry_strings (fun c hc => firstChild_values h hc) hg

theorem parseWhile_mem {α : Type} {p : Elem → Option α} {es : List Elem} {a : α} (h : a ∈ (parseWhile p es).1) : ∃ e ∈ es, p e = some a := by
  induction es with
  | nil => simp [parseWhile] at h
  | cons e es ih =>
    rw [parseWhile] at h
    split at h
    · simp at h
    · rename_i b hb
      rcases List.mem_cons.mp h with rfl | h
      · exact ⟨e, List.mem_cons_self, hb⟩
      · obtain ⟨x, hx, hp⟩ := ih h
        exact ⟨x, List.mem_cons_of_mem _ hx, hp⟩

theorem parseLink_strings {P : String → Prop} (h0 : P "") {e : Elem} (h : Values P e) : LinkStrings P (parseLink num e).1 := by
  have hv : ∀ v ∈ (parseWhile (parseVisual num) (e.childrenNamed "visual")).1,
      GeometryStrings P v.geometry ∧ ∀ m, v.material = some m → MaterialStrings P m := by
    intro v hv
    obtain ⟨c, hc, hp⟩ := parseWhile_mem hv
    exact parseVisual_strings h0 (named_values h c hc) hp
  have hc : ∀ c ∈ (parseWhile (parseCollision num) (e.childrenNamed "collision")).1, GeometryStrings P c.geometry := by
    intro v hv
    obtain ⟨c, hc, hp⟩ := parseWhile_mem hv
    exact parseCollision_strings (named_values h c hc) hp
  unfold parseLink
  split
  · exact ⟨h0, by simp, by simp⟩
  · rename_i n hn
    have hn := attr_value h hn
    simp only
    repeat' split
    all_goals first | exact ⟨hn, hv, hc⟩ | exact ⟨hn, hv, by simp⟩ | exact ⟨hn, by simp, by simp⟩

theorem linkRef_value {P : String → Prop} (h0 : P "") {e : Elem} (h : Values P e) (tag : String) : P (linkRef e tag) := by
  unfold linkRef
  split
  · exact h0
  · rename_i c hc
    exact getD_value h0 fun s hs => attr_value (firstChild_values h hc) hs

theorem parseJoint_strings {P : String → Prop} (h0 : P "") {e : Elem} (h : Values P e) {j : XJoint K} (hj : parseJoint num e = some j) :
    JointStrings P j := by
  unfold parseJoint at hj
  obtain ⟨n, hn, hj⟩ := Option.bind_eq_some_iff.mp hj
  iterate 7 obtain ⟨_, _, hj⟩ := Option.bind_eq_some_iff.mp hj
  obtain ⟨mi, hmi, hj⟩ := Option.bind_eq_some_iff.mp hj
  obtain ⟨_, _, hj⟩ := Option.bind_eq_some_iff.mp hj
  cases hj
  refine ⟨attr_value h hn, linkRef_value h0 h _, linkRef_value h0 h _, ?_⟩
  rintro x rfl
  unfold optChild at hmi
  split at hmi
  · cases hmi
  · rename_i c hc
    obtain ⟨y, hy, e⟩ := Option.map_eq_some_iff.mp hmi
    cases e
    unfold parseJointMimic at hy
    obtain ⟨s, hs, hy⟩ := Option.bind_eq_some_iff.mp hy
    obtain ⟨_, _, hy⟩ := Option.bind_eq_some_iff.mp hy
    obtain ⟨_, _, hy⟩ := Option.bind_eq_some_iff.mp hy
    cases hy
    exact attr_value (firstChild_values h hc) hs

omit [Scalar K] in
theorem assignMaterial_strings {P : String → Prop} {v : Visual K} (hg : GeometryStrings P v.geometry)
    (hv : ∀ m, v.material = some m → MaterialStrings P m) {ms : List (Material K)} (hms : ∀ m ∈ ms, MaterialStrings P m) :
    (GeometryStrings P (assignMaterial v ms).1.geometry ∧ ∀ m, (assignMaterial v ms).1.material = some m → MaterialStrings P m) ∧
    ∀ m ∈ (assignMaterial v ms).2, MaterialStrings P m := by
  unfold assignMaterial
  split
  · exact ⟨⟨hg, hv⟩, hms⟩
  · split
    · rename_i m hm
      exact ⟨⟨hg, fun x e => by cases e; exact hms m (List.mem_of_find?_eq_some hm)⟩, hms⟩
    · split
      · rename_i m hm
        refine ⟨⟨hg, hv⟩, fun x hx => ?_⟩
        rcases List.mem_cons.mp ((insertSorted_perm _ _ _).mem_iff.mp hx) with rfl | hx
        · exact hv _ hm
        · exact hms x hx
      · exact ⟨⟨hg, hv⟩, hms⟩

omit [Scalar K] in
theorem assignMaterials_strings {P : String → Prop} {vs : List (Visual K)}
    (hv : ∀ v ∈ vs, GeometryStrings P v.geometry ∧ ∀ m, v.material = some m → MaterialStrings P m) {ms : List (Material K)}
    (hms : ∀ m ∈ ms, MaterialStrings P m) :
    (∀ v ∈ (assignMaterials vs ms).1, GeometryStrings P v.geometry ∧ ∀ m, v.material = some m → MaterialStrings P m) ∧
    ∀ m ∈ (assignMaterials vs ms).2, MaterialStrings P m := by
  induction vs generalizing ms with
  | nil => exact ⟨by simp [assignMaterials], hms⟩
  | cons v vs ih =>
    obtain ⟨h1, h2⟩ := hv v List.mem_cons_self
    obtain ⟨a1, a2⟩ := assignMaterial_strings h1 h2 hms
    obtain ⟨b1, b2⟩ := ih (fun x hx => hv x (List.mem_cons_of_mem _ hx)) a2
    rw [assignMaterials]
    refine ⟨fun x hx => ?_, b2⟩
    rcases List.mem_cons.mp hx with rfl | hx
    · exact a1
    · exact b1 x hx

omit [Scalar K] in
theorem assignLinks_strings {P : String → Prop} {ls : List (XLink K)} (hl : ∀ l ∈ ls, LinkStrings P l) {ms : List (Material K)}
    (hms : ∀ m ∈ ms, MaterialStrings P m) :
    (∀ l ∈ (assignLinks ls ms).1, LinkStrings P l) ∧ ∀ m ∈ (assignLinks ls ms).2, MaterialStrings P m := by
  induction ls generalizing ms with
  | nil => exact ⟨by simp [assignLinks], hms⟩
  | cons l ls ih =>
    have h := hl l List.mem_cons_self
    obtain ⟨a1, a2⟩ := assignMaterials_strings h.visuals hms
    obtain ⟨b1, b2⟩ := ih (fun x hx => hl x (List.mem_cons_of_mem _ hx)) a2
    rw [assignLinks]
    refine ⟨fun x hx => ?_, b2⟩
    rcases List.mem_cons.mp hx with rfl | hx
    · exact ⟨h.name, a1, h.collisions⟩
    · exact b1 x hx

theorem forall₂_mem {α β : Type} {R : α → β → Prop} {l : List α} {r : List β} (h : List.Forall₂ R l r) : ∀ b ∈ r, ∃ a ∈ l, R a b := by
  induction h with
  | nil => simp
  | cons h _ ih =>
    intro b hb
    rcases List.mem_cons.mp hb with rfl | hb
    · exact ⟨_, List.mem_cons_self, h⟩
    · obtain ⟨a, ha, hR⟩ := ih b hb
      exact ⟨a, List.mem_cons_of_mem _ ha, hR⟩

/-- Every text of a robot that was read is the value of an attribute of the document, or empty. -/
theorem parseURDF_strings {P : String → Prop} (h0 : P "") {doc : List Elem} (hd : ∀ e ∈ doc, Values P e) {r : Robot K} {m : ModelInterface K}
    (hp : parseURDF num doc = some (r, m)) : RobotStrings P r := by
  obtain ⟨robot, hr, -⟩ := parseURDF_iff.mp ⟨r, hp⟩
  have hR : Values P robot := hd _ (List.mem_of_find?_eq_some hr)
  obtain ⟨mats, js, h1, h2, h3, h4, h5, h6⟩ := parseURDF_parts hp hr
  obtain ⟨m1, -⟩ := insertAll_eq_some _ _ _ List.Pairwise.nil h2
  obtain ⟨l1, -⟩ := insertAll_eq_some _ _ _ List.Pairwise.nil h3
  obtain ⟨j1, -⟩ := insertAll_eq_some _ _ _ List.Pairwise.nil h6
  rw [List.nil_append] at m1 l1 j1
  obtain ⟨a1, a2⟩ := assignLinks_strings (P := P) (ls := (robot.childrenNamed "link").map (fun e => (parseLink num e).1)) (ms := mats) (by
      intro l hl
      obtain ⟨e, he, rfl⟩ := List.mem_map.mp hl
      exact parseLink_strings h0 (named_values hR e he)) (by
      intro x hx
      obtain ⟨e, he, rfl⟩ := List.mem_map.mp (m1.mem_iff.mp hx)
      exact parseMaterial_strings h0 (named_values hR e he))
  refine ⟨attr_value hR h1, by rw [h4]; exact a2, fun l hl => a1 l (l1.mem_iff.mp hl), fun j hj => ?_⟩
  obtain ⟨e, he, hpj⟩ := forall₂_mem (mapM_forall₂.mp h5) j (j1.mem_iff.mp hj)
  exact parseJoint_strings h0 (named_values hR e he) hpj

/-- a name, as a program -/
def nameOk (s : String) : Bool :=
  match s.toList with
  | c :: cs => (c.isAlpha || c == '_') && cs.all fun d => d.isAlphanum || d == '_' || d == '-' || d == '.' || d == ':'
  | [] => false

theorem xname_lit {s : String} (h : nameOk s = true) : XName s.toList := by
  unfold nameOk at h
  split at h
  · rename_i c cs e
    simp only [Bool.and_eq_true, Bool.or_eq_true, beq_iff_eq, List.all_eq_true] at h
    rw [e]
    refine .of_ascii h.1 fun d hd => ?_
    have := h.2 d hd
    tauto
  · cases h

/-- a text of letters, digits and other ASCII characters, but no '&' and no NUL -/
theorem clean_ascii {s : String} (h : ∀ c ∈ s.toList, c.toNat < 128 ∧ c ≠ '&' ∧ c ≠ '\x00') : Clean s := by
  refine ⟨s.toList, ?_, fun hm => (h _ hm).2.2 rfl, fun hi => (h '&' (hi.subset (by simp))).2.1 rfl⟩
  generalize s.toList = l at h
  induction l with
  | nil => rfl
  | cons c l ih => rw [utf8_cons, ← ih fun d hd => h d (List.mem_cons_of_mem _ hd), utf8_ascii (h c List.mem_cons_self).1]; rfl

theorem numChar_ascii {c : Char} (h : c.isAlphanum = true ∨ c = '+' ∨ c = '-' ∨ c = '.') : c.toNat < 128 ∧ c ≠ '&' ∧ c ≠ '\x00' := by
  rcases h with h | rfl | rfl | rfl
  · obtain ⟨h1, h3, _⟩ := nameChar_ne (.inl h)
    exact ⟨by have := alnum_range h; omega, h3, by rintro rfl; revert h1; decide⟩
  all_goals decide

section
omit [Scalar K]

theorem NumberText.ascii (h : NumberText fmt) (x : K) : ∀ c ∈ (fmt x).toList, c.toNat < 128 ∧ c ≠ '&' ∧ c ≠ '\x00' :=
  fun c hc => numChar_ascii (h x c hc)

theorem NumberText.clean (h : NumberText fmt) (x : K) : Clean (fmt x) := clean_ascii (h.ascii x)

theorem NumberText.vec (h : NumberText fmt) (v : Vec3 K) : Clean (vecStr fmt v) := by
  refine clean_ascii fun c hc => ?_
  simp only [vecStr, String.toList_append, List.mem_append] at hc
  have sp : c ∈ (" " : String).toList → c.toNat < 128 ∧ c ≠ '&' ∧ c ≠ '\x00' := by
    intro h
    rw [show c = ' ' by simpa using h]
    decide
  rcases hc with (((hc | hc) | hc) | hc) | hc <;> first | exact sp hc | exact h.ascii _ c hc

theorem NumberText.color (h : NumberText fmt) (v : K × K × K × K) : Clean (colorStr fmt v) := by
  refine clean_ascii fun c hc => ?_
  simp only [colorStr, String.toList_append, List.mem_append] at hc
  have sp : c ∈ (" " : String).toList → c.toNat < 128 ∧ c ≠ '&' ∧ c ≠ '\x00' := by
    intro h
    rw [show c = ' ' by simpa using h]
    decide
  rcases hc with (((((hc | hc) | hc) | hc) | hc) | hc) | hc <;> first | exact sp hc | exact h.ascii _ c hc

end

theorem allPrintable_iff {es : List Elem} : AllPrintable es ↔ ∀ e ∈ es, Printable e := by
  induction es with
  | nil => simp [AllPrintable]
  | cons e es ih => rw [AllPrintable, ih]; simp

/-- an element is printable -/
theorem printable_mk {n : String} {as : List (String × String)} {kids : List Elem} (ks : List String) (hks : as.map Prod.fst = ks)
    (hn : (nameOk n && ks.all nameOk) = true ∧ ks.Nodup) (ha : ∀ v ∈ as.map Prod.snd, Clean v) (hk : ∀ k ∈ kids, Printable k) :
    Printable (.mk n as kids) := by
  rw [Printable]
  subst hks
  simp only [Bool.and_eq_true, List.all_eq_true] at hn
  exact ⟨xname_lit hn.1.1, hn.2, fun a h => ⟨xname_lit (hn.1.2 _ (List.mem_map_of_mem h)), ha _ (List.mem_map_of_mem h)⟩, allPrintable_iff.mpr hk⟩

theorem exportPose_printable (h : NumberText fmt) (p : Pose K) : Printable (exportPose fmt p) :=
  printable_mk ["xyz", "rpy"] rfl (by decide) (by simp [h.vec]) (by simp)

omit [Scalar K] in
theorem exportMaterial_printable (h : NumberText fmt) {m : Material K} (hm : MaterialStrings Clean m) : Printable (exportMaterial fmt m) := by
  refine printable_mk ["name"] rfl (by decide) (by simp [hm.name]) ?_
  simp only [List.mem_cons, List.not_mem_nil, or_false]
  rintro k (rfl | rfl)
  · split
    · exact printable_mk [] rfl (by decide) (by simp) (by simp)
    · exact printable_mk ["filename"] rfl (by decide) (by simp [hm.texture]) (by simp)
  · exact printable_mk ["rgba"] rfl (by decide) (by simp [h.color]) (by simp)

omit [Scalar K] in
theorem exportGeometry_printable (h : NumberText fmt) {g : Geometry K} (hg : GeometryStrings Clean g) : Printable (exportGeometry fmt g) := by
  refine printable_mk [] rfl (by decide) (by simp) ?_
  intro k hk
  rw [List.mem_singleton] at hk
  subst hk
  cases g with
  | sphere r => exact printable_mk ["radius"] rfl (by decide) (by simp [h.clean]) (by simp)
  | box d => exact printable_mk ["size"] rfl (by decide) (by simp [h.vec]) (by simp)
  | cylinder l r => exact printable_mk ["radius", "length"] rfl (by decide) (by simp [h.clean]) (by simp)
  | mesh f s =>
    have hf : Clean f := hg
    by_cases e : f = ""
    · exact printable_mk ["scale"] (by simp [e]) (by decide) (by simp [e, h.vec]) (by simp)
    · exact printable_mk ["filename", "scale"] (by simp [e]) (by decide) (by simp [e, h.vec, hf]) (by simp)

theorem exportInertial_printable (h : NumberText fmt) (i : Inertial K) : Printable (exportInertial fmt i) := by
  refine printable_mk [] rfl (by decide) (by simp) ?_
  simp only [List.mem_cons, List.not_mem_nil, or_false]
  rintro k (rfl | rfl | rfl)
  · exact printable_mk ["value"] rfl (by decide) (by simp [h.clean]) (by simp)
  · exact exportPose_printable h _
  · exact printable_mk ["ixx", "ixy", "ixz", "iyy", "iyz", "izz"] rfl (by decide) (by simp [h.clean]) (by simp)

theorem exportLink_printable (h : NumberText fmt) {l : XLink K} (hl : LinkStrings Clean l) : Printable (exportLink fmt l) := by
  refine printable_mk ["name"] rfl (by decide) (by simp [hl.name]) ?_
  intro k hk
  simp only [List.mem_append, List.mem_map, Option.mem_toList, Option.mem_def, Option.map_eq_some_iff] at hk
  rcases hk with (⟨i, _, rfl⟩ | ⟨v, hv, rfl⟩) | ⟨c, hc, rfl⟩
  · exact exportInertial_printable h i
  · refine printable_mk [] rfl (by decide) (by simp) ?_
    intro k hk
    simp only [List.mem_append, List.mem_cons, List.not_mem_nil, or_false, Option.mem_toList, Option.mem_def, Option.map_eq_some_iff] at hk
    rcases hk with (rfl | rfl) | ⟨m, hm, rfl⟩
    · exact exportPose_printable h _
    · exact exportGeometry_printable h (hl.visuals v hv).1
    · exact exportMaterial_printable h ((hl.visuals v hv).2 m hm)
  · refine printable_mk [] rfl (by decide) (by simp) ?_
    simp only [List.mem_cons, List.not_mem_nil, or_false]
    rintro k (rfl | rfl)
    · exact exportPose_printable h _
    · exact exportGeometry_printable h (hl.collisions c hc)

theorem exportJoint_printable (h : NumberText fmt) {j : XJoint K} (hj : JointStrings Clean j) : Printable (exportJoint fmt j) := by
  have hk : ∀ k ∈ (exportJoint fmt j).children, Printable k := by
    intro k hk
    simp only [exportJoint, Elem.children, List.mem_append, List.mem_cons, List.not_mem_nil, or_false, Option.mem_toList, Option.mem_def,
      Option.map_eq_some_iff] at hk
    rcases hk with ((((((hk | hk | hk | hk) | ⟨x, hx, rfl⟩) | ⟨x, hx, rfl⟩) | ⟨x, hx, rfl⟩) | hk)) | hk
    · split at hk
      · rw [List.mem_singleton.mp hk]; exact exportPose_printable h _
      · cases hk
    · subst hk; exact printable_mk ["xyz"] rfl (by decide) (by simp [h.vec]) (by simp)
    · subst hk; exact printable_mk ["link"] rfl (by decide) (by simp [hj.parent]) (by simp)
    · subst hk; exact printable_mk ["link"] rfl (by decide) (by simp [hj.child]) (by simp)
    · exact printable_mk ["damping", "friction"] rfl (by decide) (by simp [h.clean]) (by simp)
    · exact printable_mk ["effort", "velocity", "lower", "upper"] rfl (by decide) (by simp [h.clean]) (by simp)
    · exact printable_mk ["k_position", "k_velocity", "soft_lower_limit", "soft_upper_limit"] rfl (by decide) (by simp [h.clean]) (by simp)
    · cases hc : j.calibration with
      | none => rw [hc] at hk; simp at hk
      | some c =>
        rw [hc] at hk
        obtain ⟨ri, fa⟩ := c
        simp only [Option.map_some, Option.getD_some, exportCalibration] at hk
        split at hk
        · rw [List.mem_singleton.mp hk]
          cases ri <;> cases fa
          · exact printable_mk [] rfl (by decide) (by simp) (by simp)
          · exact printable_mk ["falling"] rfl (by decide) (by simp [h.clean]) (by simp)
          · exact printable_mk ["rising"] rfl (by decide) (by simp [h.clean]) (by simp)
          · exact printable_mk ["falling", "rising"] rfl (by decide) (by simp [h.clean]) (by simp)
        · cases hk
    · cases hm : j.mimic with
      | none => rw [hm] at hk; simp at hk
      | some m =>
        rw [hm] at hk
        simp only [Option.map_some, Option.getD_some, exportMimic] at hk
        split at hk
        · cases hk
        · rw [List.mem_singleton.mp hk]
          exact printable_mk ["offset", "multiplier", "joint"] rfl (by decide) (by simp [h.clean, hj.mimic m hm]) (by simp)
  unfold exportJoint at hk ⊢
  cases ht : typeStr j.type with
  | none => exact printable_mk ["name"] rfl (by decide) (by simp [hj.name]) hk
  | some t =>
    refine printable_mk ["name", "type"] rfl (by decide) ?_ (by rw [ht] at hk; exact hk)
    have : Clean t := by
      refine clean_ascii ?_
      cases hty : j.type <;> rw [hty] at ht <;> simp only [typeStr, Option.some.injEq, reduceCtorEq] at ht <;> subst ht <;> decide
    simp [hj.name, this]

theorem exportURDF_printable (h : NumberText fmt) {r : Robot K} (hr : RobotStrings Clean r) : ∃ e, exportURDF fmt r = [e] ∧ Printable e := by
  refine ⟨_, rfl, printable_mk ["name"] rfl (by decide) (by simp [hr.name]) ?_⟩
  intro k hk
  simp only [List.mem_append, List.mem_map] at hk
  rcases hk with (⟨m, hm, rfl⟩ | ⟨l, hl, rfl⟩) | ⟨j, hj, rfl⟩
  · exact exportMaterial_printable h (hr.materials m hm)
  · exact exportLink_printable h (hr.links l hl)
  · exact exportJoint_printable h (hr.joints j hj)

/-- **C100, for exported robots.** The robot is exported, saved to a file, and the file is loaded with `load_urdf` (or its text
passed on directly): what is read is what `parseURDF` makes of the exported elements. -/
theorem C100_export_partial (h : NumberText fmt) {r : Robot K} (hr : RobotStrings Clean r) :
    parseURDFText num (String.ofList (printDoc (exportURDF fmt r))) = pure ((parseURDF num (exportURDF fmt r)).map (·.2)) ∧
    parseURDFText num (String.ofList (loadUrdf (some (printDoc (exportURDF fmt r))))) = pure ((parseURDF num (exportURDF fmt r)).map (·.2)) := by
  obtain ⟨e, he, hp⟩ := exportURDF_printable h hr
  obtain ⟨h1, h2⟩ := C100_file_partial hp
  rw [he]
  unfold parseURDFText
  rw [String.toList_ofList, String.toList_ofList, h1, h2]
  exact ⟨rfl, rfl⟩

/-- **C100, from document to document.** A document that is accepted and whose attribute values are clean: the file with the
exported robot is accepted, and its model has the same links and joints, with rounded numbers and without joint origins. -/
theorem C100_resave_partial (h : Prints num fmt rd) (hn : NumberText fmt) {doc : List Elem} (hd : ∀ e ∈ doc, Values Clean e) {r : Robot K}
    {m : ModelInterface K} (hp : parseURDF num doc = some (r, m)) :
    ∃ ls js m', buildModel ls js = some m ∧ buildModel (ls.map (rdLink rd)) (js.map (rdJoint rd)) = some m' ∧
      parseURDFText num (String.ofList (loadUrdf (some (printDoc (exportURDF fmt r))))) = pure (some m') := by
  have h0 : Clean "" := ⟨[], rfl, by simp, by simp⟩
  obtain ⟨ls, js, r', m', h1, h2, h3⟩ := C56_export_partial h hp
  refine ⟨ls, js, m', h1, h3, ?_⟩
  rw [(C100_export_partial hn (parseURDF_strings h0 hd hp)).2, h2]
  rfl

end

/-! ### values with "&#x" -/

theorem copyRef_eq {ds s : List Char} (hd : ';' ∉ ds) (hne : ds ≠ []) : copyRef (ds ++ ';' :: s) = (ds, ';' :: s) := by
  induction ds with
  | nil => exact absurd rfl hne
  | cons c ds ih =>
    cases ds with
    | nil => simp [copyRef]
    | cons d ds =>
      have h1 : d ≠ ';' := fun e => hd (by simp [e])
      have := ih (fun h => hd (List.mem_cons_of_mem _ h)) (by simp)
      rw [List.cons_append, List.cons_append, copyRef, if_neg h1, ← List.cons_append, this]

/-- "&#x" and what follows it up to the next ';' are written as they are -/
theorem encodeString_ref {p ds s : List Char} (hp : ¬ ['&', '#', 'x'] <:+: p) (hd : ';' ∉ ds) (hs : ¬ ['&', '#', 'x'] <:+: s) :
    encodeString (p ++ ('&' :: '#' :: 'x' :: (ds ++ ';' :: s))) =
      p.flatMap encodeChar ++ ('&' :: '#' :: 'x' :: (ds ++ ';' :: s.flatMap encodeChar)) := by
  induction p with
  | nil =>
    have e : copyRef ('&' :: '#' :: 'x' :: (ds ++ ';' :: s)) = ('&' :: '#' :: 'x' :: ds, ';' :: s) :=
      copyRef_eq (ds := '&' :: '#' :: 'x' :: ds) (by simp [hd]) (by simp)
    have e2 : encodeString (';' :: s) = ';' :: s.flatMap encodeChar := by
      rw [encodeString_flatMap]
      · rfl
      · rintro ⟨a, b, h⟩
        cases a with
        | nil => cases h
        | cons x a =>
          simp only [List.cons_append, List.cons.injEq] at h
          exact hs ⟨a, b, h.2⟩
    rw [List.nil_append, encodeString.eq_def]
    simp only [List.take_succ_cons, List.take_zero, and_self, if_true, e, e2]
    simp
  | cons c p ih =>
    have hn : ¬ (c = '&' ∧ (p ++ ('&' :: '#' :: 'x' :: (ds ++ ';' :: s))).take 2 = ['#', 'x']) := by
      rintro ⟨rfl, h⟩
      match p, h with
      | [], h => simp at h
      | [a], h => simp at h
      | a :: b :: p, h =>
        simp only [List.cons_append, List.take_succ_cons, List.take_zero, List.cons.injEq, and_true] at h
        obtain ⟨rfl, rfl⟩ := h
        exact hp ⟨[], p, rfl⟩
    rw [List.cons_append, encodeString.eq_def]
    simp only [if_neg hn]
    rw [ih fun hi => hp (hi.trans (List.suffix_cons c p).isInfix)]
    simp

/-- an element with one attribute, as it is written -/
theorem print_one {n k v : String} (hn : XName n.toList) (hk : XName k.toList) (h0 : '\x00' ∉ encodeString v.toList) :
    ∃ q, (q = '"' ∨ q = '\'') ∧ printDoc [.mk n [(k, v)] []] = '<' :: (n.toList ++ ([' '] ++ (k.toList ++ ([] ++ '=' :: ([] ++ q ::
      (encodeString v.toList ++ q :: [' ', '/', '>', '\n'])))))) := by
  have e1 : cut (encodeString k.toList) = k.toList := by rw [hk.encode]; exact cut_id hk.nul
  rw [printDoc, printDoc, printElem, cut_id hn.nul, visited, List.takeWhile_nil]
  simp only [List.map_cons, List.map_nil, List.flatten_cons, List.flatten_nil, attrFile, e1, cut_id h0]
  split
  · exact ⟨'\'', .inr rfl, by simp⟩
  · exact ⟨'"', .inl rfl, by simp⟩

/-- **C100 is false: a character reference in a value is read as that character.** A value with a text such as `&#x41;` in it
is written as it is, and read back with `A` in its place. -/
theorem C100_reference {n k : String} (hn : XName n.toList) (hk : XName k.toList) {p ds s : List Char} {c : Char}
    (hp : Clean (String.ofList p)) (hs : Clean (String.ofList s)) (hne : ds ≠ []) (hd : ∀ d ∈ ds, digitVal d < 16)
    (hc : numeral 16 ds = c.toNat) (hc0 : c ≠ '\x00') (hc1 : c.toNat < 128) :
    parseXml (printDoc [.mk n [(k, String.ofList (p ++ '&' :: '#' :: 'x' :: (ds ++ ';' :: s)))] []]) =
      pure (some [.mk n [(k, String.ofList (p ++ c :: s))] []]) := by
  obtain ⟨wp, ep, hp0, hpi⟩ := hp
  obtain ⟨ws, es, hs0, hsi⟩ := hs
  rw [String.toList_ofList] at ep es hpi hsi
  have hd' : ';' ∉ ds := fun h => by have := hd _ h; revert this; decide
  have hv : ∀ q, q = '"' ∨ q = '\'' → ValueText false q (encodeString (p ++ '&' :: '#' :: 'x' :: (ds ++ ';' :: s))) (p ++ c :: s) := by
    intro q hq
    rw [encodeString_ref hpi hd' hsi]
    have h1 : ValueText false q (s.flatMap encodeChar) s := by
      rw [es]
      simpa using encodeChars_value (u := false) hq hs0 .nil
    have h2 := ValueText.entity (u := false) (q := q) (EntityText.hex hne hd hc hc0) (.inr hc1) h1
    rw [utf8_ascii hc1] at h2
    have h3 := encodeChars_value (u := false) hq hp0 h2
    rw [← ep] at h3
    simpa using h3
  obtain ⟨q, hq, e⟩ := print_one (v := String.ofList (p ++ '&' :: '#' :: 'x' :: (ds ++ ';' :: s))) hn hk
    (by rw [String.toList_ofList]; exact (hv _ (.inl rfl)).nul)
  rw [String.toList_ofList] at e
  have ha := AttrsText.cons (u := false) (s1 := [' ']) (s2 := []) (s3 := []) (by simp [XSpace]) (by simp) hk (by simp [XSpace]) (by simp [XSpace]) hq
    (hv q hq) .nil
  have hel := ElemText.empty (s := [' ']) hn ha (by simp) (by simp [XSpace])
  rw [String.ofList_toList, String.ofList_toList] at hel
  have hdoc : DocText (printDoc [.mk n [(k, String.ofList (p ++ '&' :: '#' :: 'x' :: (ds ++ ';' :: s)))] []])
      (.mk n [(k, String.ofList (p ++ c :: s))] []) := by
    refine ⟨false, [], _, ['\n'], ?_, prolog_nil, hel, misc_space (by simp [XSpace])⟩
    rw [e]
    simp
  refine C72_wellformed hdoc ?_
  rw [e]
  have q0 : ('\x00' : Char) ≠ q := by rcases hq with rfl | rfl <;> decide
  simp [hn.nul, hk.nul, (hv q hq).nul, q0]

theorem readText_fail {u : Bool} {enc : Enc} (hu : u = true → enc = .utf8) {q : Char} (hq : q = '"' ∨ q = '\'') {t v l : List Char}
    (h : ValueText u q t v) (hl : readText enc q l = pure none) : readText enc q (t ++ l) = pure none := by
  have hq' : q.toNat < 128 := by rcases hq with rfl | rfl <;> decide
  induction h with
  | nil => exact hl
  | char hp hc _ ih =>
    rw [List.append_assoc, readText_char hq' hp hc ih]
    rfl
  | entity he hu' _ ih =>
    rw [List.append_assoc, readText_entity hq he (hu'.imp hu id) ih]
    rfl

theorem refValue_bad {base : Nat} {digit : Char → Option Nat} {l : List Char} (h : ∃ d ∈ l, digit d = none) : ∀ m n, refValue base digit m n l = none := by
  induction l with
  | nil => obtain ⟨d, hd, _⟩ := h; cases hd
  | cons c l ih =>
    intro m n
    obtain ⟨d, hd, h⟩ := h
    rw [refValue]
    split
    · rfl
    · rename_i x hx
      rcases List.mem_cons.mp hd with rfl | hd
      · rw [h] at hx; cases hx
      · exact ih ⟨d, hd, h⟩ _ _

/-- **C100 is false: such a value can make the file unreadable.** When what stands between "&#x" and the next ';' is not
a number, the file that was written is rejected. -/
theorem C100_unreadable {n k : String} (hn : XName n.toList) (hk : XName k.toList) {p ds s : List Char}
    (hp : Clean (String.ofList p)) (hs : Clean (String.ofList s)) (hd : ';' ∉ ds ∧ 'x' ∉ ds ∧ '\x00' ∉ ds)
    (hbad : ∃ d ∈ ds, hexDigit d = none) :
    parseXml (printDoc [.mk n [(k, String.ofList (p ++ '&' :: '#' :: 'x' :: (ds ++ ';' :: s)))] []]) = pure none := by
  obtain ⟨wp, ep, hp0, hpi⟩ := hp
  obtain ⟨ws, es, hs0, hsi⟩ := hs
  rw [String.toList_ofList] at ep es hpi hsi
  have hvp : ∀ q, q = '"' ∨ q = '\'' → ValueText false q (p.flatMap encodeChar) p := by
    intro q hq
    rw [ep]
    simpa using encodeChars_value (u := false) hq hp0 .nil
  have hvs : '\x00' ∉ s.flatMap encodeChar := by
    rw [es]
    simpa using (encodeChars_value (u := false) (q := '"') (.inl rfl) hs0 .nil).nul
  have hz : '\x00' ∉ encodeString (p ++ '&' :: '#' :: 'x' :: (ds ++ ';' :: s)) := by
    rw [encodeString_ref hpi hd.1 hsi]
    simp [(hvp _ (.inl rfl)).nul, hvs, hd.2.2]
  obtain ⟨q, hq, e⟩ := print_one (v := String.ofList (p ++ '&' :: '#' :: 'x' :: (ds ++ ';' :: s))) hn hk (by rw [String.toList_ofList]; exact hz)
  rw [String.toList_ofList, encodeString_ref hpi hd.1 hsi] at e
  have hget : ∀ enc r, getEntity enc ('#' :: 'x' :: (ds ++ ';' :: r)) = none := by
    intro enc r
    have e1 : (ds ++ ';' :: r).dropWhile (· ≠ ';') = ';' :: r ∧ (ds ++ ';' :: r).takeWhile (· ≠ ';') = ds := by
      have := hd.1
      clear hbad hd hz e
      induction ds with
      | nil => simp
      | cons c ds ih =>
        have hc : c ≠ ';' := fun e => this (by simp [e])
        have ih := ih fun h => this (List.mem_cons_of_mem _ h)
        simp only [List.cons_append]
        rw [List.dropWhile_cons_of_pos (by simpa using hc), List.takeWhile_cons_of_pos (by simpa using hc), ih.1, ih.2]
        exact ⟨rfl, rfl⟩
    have e2 : ds.reverse.takeWhile (· ≠ 'x') = ds.reverse := by
      have hx : 'x' ∉ ds.reverse := by simpa using hd.2.1
      generalize ds.reverse = l at hx
      induction l with
      | nil => rfl
      | cons c l ih =>
        have hc : c ≠ 'x' := fun e => hx (by simp [e])
        rw [List.takeWhile_cons_of_pos (by simpa using hc), ih fun h => hx (List.mem_cons_of_mem _ h)]
    have hb : ∃ d ∈ ds.reverse, hexDigit d = none := by simpa using hbad
    unfold getEntity
    simp only [numericRef, e1.1, e1.2, e2, refValue_bad hb]
    simp
  have hrd : ∀ enc r, readText enc q (p.flatMap encodeChar ++ '&' :: '#' :: 'x' :: (ds ++ ';' :: r)) = pure none := by
    intro enc r
    refine readText_fail (u := false) (by simp) hq (hvp q hq) ?_
    have : ('&' : Char) ≠ q := by rcases hq with rfl | rfl <;> decide
    have hl : charLen enc '&' = 1 := by cases enc <;> decide
    rw [readText.eq_def]
    simp only [if_neg this, getChar, hl, if_true, hget, pure_bind]
  obtain ⟨r, hr⟩ : ∃ r, (p.flatMap encodeChar ++ '&' :: '#' :: 'x' :: (ds ++ ';' :: s.flatMap encodeChar)) ++ q :: [' ', '/', '>', '\n'] =
      p.flatMap encodeChar ++ '&' :: '#' :: 'x' :: (ds ++ ';' :: r) := ⟨s.flatMap encodeChar ++ q :: [' ', '/', '>', '\n'], by simp⟩
  rw [hr] at e
  have hq1 : isXmlSpace q = false ∧ q ≠ Char.ofNat 0xef := by rcases hq with rfl | rfl <;> decide
  have hattr : ∀ enc v, readText enc q v = pure none → parseAttr enc (k.toList ++ '=' :: q :: v) = pure none := by
    intro enc v hv
    unfold parseAttr
    rw [skipWhite_stop (hk.stop ('=' :: q :: v)), readName_of (r := '=' :: q :: v) hk ⟨'=', _, rfl, by decide⟩]
    simp only []
    rw [skipWhite_stop (eq_stop _)]
    simp only []
    rw [skipWhite_stop ⟨q, v, rfl, hq1⟩]
    have hqb : (decide (q = '\'') || decide (q = '"')) = true := by rcases hq with rfl | rfl <;> decide
    simp only [hqb, if_true, hv]
    rfl
  have hattrs : ∀ enc v, readText enc q v = pure none → parseAttrs enc [] (' ' :: (k.toList ++ '=' :: q :: v)) = pure none := by
    intro enc v hv
    have e1 := skipWhite_spaces (enc := enc) (s := [' ']) (by simp [XSpace]) (hk.stop ('=' :: q :: v))
    rw [List.cons_append, List.nil_append] at e1
    rw [parseAttrs.eq_def, e1]
    obtain ⟨c, cs, ek, hc, _⟩ := hk.bytes
    have hr := hc.range
    have hk' := hattr enc v hv
    rw [ek, List.cons_append] at hk' ⊢
    have n1 : c ≠ '/' := toNat_ne (by simp; omega)
    have n2 : c ≠ '>' := toNat_ne (by simp; omega)
    simp only [if_neg n1, if_neg n2, hk', pure_bind]
  have helem : ∀ enc v, readText enc q v = pure none → parseElem enc ('<' :: (n.toList ++ (' ' :: (k.toList ++ '=' :: q :: v)))) = pure none := by
    intro enc v hv
    rw [parseElem.eq_def, readTagName_of (n := n.toList) hn ⟨' ', _, rfl, by decide⟩]
    simp only [hattrs enc v hv, pure_bind]
  have hz' : '\x00' ∉ printDoc [.mk n [(k, String.ofList (p ++ '&' :: '#' :: 'x' :: (ds ++ ';' :: s)))] []] := by
    have q0 : ('\x00' : Char) ≠ q := by rcases hq with rfl | rfl <;> decide
    rw [e, ← hr]
    simp [hn.nul, hk.nul, (hvp _ (.inl rfl)).nul, hvs, hd.2.2, q0]
  rw [e] at hz' ⊢
  have hel := fun enc => helem enc _ (hrd enc r)
  obtain ⟨c, cs, en, hc, hcs⟩ := hn.bytes
  simp only [List.nil_append, List.cons_append] at hz' hel ⊢
  rw [en, List.cons_append] at hz' ⊢
  simp only [en, List.cons_append] at hel
  obtain ⟨enc, -, hx⟩ := parseXml_prolog (u := false) (p := []) prolog_nil (by rw [List.nil_append]; exact hz')
  rw [List.nil_append] at hx
  rw [hx, docLoop.eq_def, skipWhite_stop (lt_stop _)]
  simp only [(identify_elem hc _).1, hel, pure_bind, ne_eq, not_true, if_false]

namespace PrintExample

/-- quotes, markup characters, a line end and a letter beyond ASCII -/
def tricky : Elem :=
  .mk "robot" [("name", String.ofList ('a' :: '"' :: '\'' :: '<' :: '&' :: '\n' :: (utf8 ['é'] ++ ['z'])))]
    [.mk "link" [("name", "l1")] [], .mk "link" [("name", "l2")] [.mk "visual" [] []]]

theorem tricky_printable : Printable tricky := by
  have h1 : Clean "l1" := clean_ascii (by decide)
  have h2 : Clean "l2" := clean_ascii (by decide)
  have h3 : Clean (String.ofList ('a' :: '"' :: '\'' :: '<' :: '&' :: '\n' :: (utf8 ['é'] ++ ['z']))) :=
    ⟨['a', '"', '\'', '<', '&', '\n', 'é', 'z'], by decide +kernel, by decide, by decide +kernel⟩
  refine printable_mk ["name"] rfl (by decide) (by simp only [List.map_cons, List.map_nil, List.mem_singleton]; rintro v rfl; exact h3) ?_
  simp only [List.mem_cons, List.not_mem_nil, or_false]
  rintro k (rfl | rfl)
  · exact printable_mk ["name"] rfl (by decide) (by simp [h1]) (by simp)
  · refine printable_mk ["name"] rfl (by decide) (by simp [h2]) ?_
    simp only [List.mem_cons, List.not_mem_nil, or_false]
    rintro k rfl
    exact printable_mk [] rfl (by decide) (by simp) (by simp)

example : parseXml (printDoc [tricky]) = pure (some [tricky]) := (C100_file_partial tricky_printable).1

/-- stream printing: no white space -/
example : parseXml (printerDoc [] [] [tricky]) = pure (some [tricky]) := by
  simpa using C100_printer_partial (ind := []) (brk := []) (s := []) (by simp [XSpace]) (by simp [XSpace]) (by simp [XSpace]) tricky_printable

example : printDoc [.mk "robot" [("name", "\"")] [.mk "link" [("name", "a\nb")] []]] =
    "<robot name='&quot;'>\n    <link name=\"a&#x0A;b\" />\n</robot>\n".toList := by decide +kernel

example : AllPrintable [tricky, tricky] := ⟨tricky_printable, tricky_printable, trivial⟩

theorem clean_lit {l : List Char} (h : ∀ c ∈ l, c.toNat < 128 ∧ c ≠ '&' ∧ c ≠ '\x00') : Clean (String.ofList l) :=
  clean_ascii (by rw [String.toList_ofList]; exact h)

/-- **C100 is false.** A robot that is called `a&#x41;b` is called `aAb` after it was saved and loaded. -/
theorem C100_false : parseXml (printDoc [.mk "robot" [("name", "a&#x41;b")] []]) = pure (some [.mk "robot" [("name", "aAb")] []]) := by
  have := C100_reference (n := "robot") (k := "name") (xname_lit (by decide)) (xname_lit (by decide)) (p := ['a']) (ds := ['4', '1']) (s := ['b'])
    (c := 'A') (clean_lit (by decide)) (clean_lit (by decide)) (by simp) (by decide) (by decide) (by decide) (by decide)
  exact this

/-- A robot that is called `a&#xz;b` can be saved, but not loaded. -/
theorem C100_lost : parseXml (printDoc [.mk "robot" [("name", "a&#xz;b")] []]) = pure none := by
  have := C100_unreadable (n := "robot") (k := "name") (xname_lit (by decide)) (xname_lit (by decide)) (p := ['a']) (ds := ['z']) (s := ['b'])
    (clean_lit (by decide)) (clean_lit (by decide)) (by decide) (by decide)
  exact this

open DocExample in
/-- the robot of `DocExample`, exported, saved and loaded -/
example : ∃ (r : Robot ℝ) (m m' : ModelInterface ℝ), parseURDF DocExample.num [robotElem inertialElem] = some (r, m) ∧
    parseURDFText DocExample.num (String.ofList (loadUrdf (some (printDoc (exportURDF DocExample.fmt r))))) = pure (some m') := by
  obtain ⟨r, m, h⟩ := accepted (K := ℝ) inertialElem
  have hn : NumberText DocExample.fmt := by
    intro x c hc
    unfold DocExample.fmt at hc
    split at hc
    · rw [show c = '1' by simpa using hc]; exact .inl (by decide)
    · rw [show c = '0' by simpa using hc]; exact .inl (by decide)
  have ok : ∀ s : String, (∀ c ∈ s.toList, c.toNat < 128 ∧ c ≠ '&' ∧ c ≠ '\x00') → Clean s := fun s => clean_ascii
  have hd : ∀ e ∈ [robotElem inertialElem], Values Clean e := by
    simp only [List.mem_singleton, forall_eq, robotElem, baseElem, inertialElem, jointElem, armElem, Values, AllValues, List.mem_cons,
      List.not_mem_nil, or_false, forall_eq_or_imp, and_true, false_imp_iff, implies_true, true_and]
    repeat' apply And.intro
    all_goals (refine ok _ ?_; decide)
  obtain ⟨ls, js, m', -, -, h'⟩ := C100_resave_partial prints hn hd h
  exact ⟨r, m, m', h, h'⟩

end PrintExample

end Tinyfk
