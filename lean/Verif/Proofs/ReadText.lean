import Verif.Spec.XmlDoc
import Verif.Proofs.XmlDoc
import Mathlib.Tactic.Tauto

/-!
# A reader for plain XML documents

A checker, not a model of the code: when `readDoc` returns an element, the text is a document with that element
(`readDoc_sound`). It is evaluated by the kernel on the files in `data/`. It works on lists of characters.
-/

namespace Tinyfk

/-- an element whose strings are lists of characters -/
inductive LElem where
  | mk (name : List Char) (attrs : List (List Char × List Char)) (children : List LElem)

namespace LElem

/-- strings of an attribute -/
def strs (a : List Char × List Char) : String × String := (String.ofList a.1, String.ofList a.2)

mutual
/-- the element -/
def elem : LElem → Elem
  | mk n as ks => .mk (String.ofList n) (as.map strs) (elems ks)
/-- the elements -/
def elems : List LElem → List Elem
  | [] => []
  | e :: es => elem e :: elems es
end

theorem elems_eq (es : List LElem) : elems es = es.map elem := by
  induction es with
  | nil => rfl
  | cons e es ih => simp [elems, ih]

/-- the name -/
def name : LElem → List Char
  | mk n _ _ => n

/-- the attributes -/
def attrs : LElem → List (List Char × List Char)
  | mk _ a _ => a

/-- the child elements -/
def children : LElem → List LElem
  | mk _ _ c => c

/-- the value of an attribute -/
def attr (e : LElem) (k : List Char) : Option (List Char) := (e.attrs.find? fun a => a.1 == k).map (·.2)

/-- the first child with a name -/
def firstChild (e : LElem) (n : List Char) : Option LElem := e.children.find? fun c => c.name == n

/-- the children with a name -/
def childrenNamed (e : LElem) (n : List Char) : List LElem := e.children.filter fun c => c.name == n

theorem ofList_beq (a b : List Char) : (String.ofList a == String.ofList b) = (a == b) := by
  by_cases h : a = b
  · rw [h]; simp
  · have : String.ofList a ≠ String.ofList b := fun h' => h (String.ofList_injective h')
    rw [beq_eq_false_iff_ne.mpr h, beq_eq_false_iff_ne.mpr this]

theorem elem_name (e : LElem) : e.elem.name = String.ofList e.name := by cases e; rfl

theorem elem_attr (e : LElem) (k : List Char) : e.elem.attr (String.ofList k) = (e.attr k).map String.ofList := by
  obtain ⟨n, as, ks⟩ := e
  simp only [Elem.attr, elem, Elem.attrs, attr, attrs, List.find?_map, Option.map_map]
  have : ((fun a : String × String => a.1 == String.ofList k) ∘ strs) = fun a => a.1 == k := by
    funext a; simp [strs, ofList_beq]
  rw [this]
  rfl

theorem beq_name (n : List Char) : ((fun c : Elem => c.name == String.ofList n) ∘ elem) = fun c => c.name == n := by
  funext c
  simp only [Function.comp_apply, elem_name, ofList_beq]

theorem elem_firstChild (e : LElem) (n : List Char) : e.elem.firstChild (String.ofList n) = (e.firstChild n).map elem := by
  obtain ⟨n', as, ks⟩ := e
  simp only [Elem.firstChild, elem, Elem.children, firstChild, children, elems_eq, List.find?_map, beq_name]

theorem elem_childrenNamed (e : LElem) (n : List Char) :
    e.elem.childrenNamed (String.ofList n) = (e.childrenNamed n).map elem := by
  obtain ⟨n', as, ks⟩ := e
  simp only [Elem.childrenNamed, elem, Elem.children, childrenNamed, children, elems_eq, List.filter_map, beq_name]

end LElem

namespace Chk

/-- white space -/
def spc (c : Char) : Bool := c == ' ' || c == '\n' || c == '\t' || c == '\r'

/-- the first character of a name -/
def nameHead (c : Char) : Bool := c.isAlpha || c == '_'

/-- the other characters of a name -/
def nameTail (c : Char) : Bool := c.isAlphanum || c == '_' || c == '-' || c == '.' || c == ':'

/-- a character that stands for itself, in ASCII -/
def plainAscii (c : Char) : Bool := c != '<' && c != '&' && c != '\x00' && decide (c.toNat < 128)

/-- the text after a prefix -/
def strip : List Char → List Char → Option (List Char)
  | [], t => some t
  | _ :: _, [] => none
  | p :: ps, c :: t => if c = p then strip ps t else none

theorem strip_eq {p t r : List Char} (h : strip p t = some r) : t = p ++ r := by
  induction p generalizing t with
  | nil => simpa [strip] using h
  | cons a p ih =>
    cases t with
    | nil => simp [strip] at h
    | cons c t =>
      simp only [strip] at h
      split at h
      · next hc => rw [hc, ih h]; rfl
      · cases h

/-- a name and the rest -/
def readName (t : List Char) : Option (List Char × List Char) :=
  match t with
  | [] => none
  | c :: cs => if nameHead c then some (c :: cs.takeWhile nameTail, cs.dropWhile nameTail) else none

theorem mem_takeWhile {p : Char → Bool} {l : List Char} {c : Char} (h : c ∈ l.takeWhile p) : p c = true := by
  induction l with
  | nil => simp at h
  | cons a l ih =>
    simp only [List.takeWhile_cons] at h
    split at h
    · next ha => exact (List.mem_cons.mp h).elim (fun e => e ▸ ha) ih
    · simp at h

theorem readName_sound {t n r : List Char} (h : readName t = some (n, r)) : t = n ++ r ∧ XName n := by
  cases t with
  | nil => simp [readName] at h
  | cons c cs =>
    simp only [readName] at h
    split at h
    · next hc =>
      cases h
      refine ⟨by simp [List.takeWhile_append_dropWhile], .of_ascii ?_ ?_⟩
      · simpa [nameHead] using hc
      · intro d hd
        have := mem_takeWhile hd
        simpa [nameTail, or_assoc] using this
    · cases h

theorem spc_sound (t : List Char) : XSpace (t.takeWhile spc) := by
  intro c hc
  have := mem_takeWhile hc
  simp only [spc, Bool.or_eq_true, beq_iff_eq] at this
  tauto

/-- a value in quotes -/
def readValue (t : List Char) : Option (Char × List Char × List Char) :=
  match t with
  | [] => none
  | q :: r =>
    if q == '"' || q == '\'' then
      match strip [q] (r.dropWhile fun c => plainAscii c && c != q) with
      | none => none
      | some z => some (q, r.takeWhile fun c => plainAscii c && c != q, z)
    else none

theorem valueText_plain {u : Bool} {q : Char} {l : List Char} (h : ∀ c ∈ l, plainAscii c = true ∧ c ≠ q) : ValueText u q l l := by
  induction l with
  | nil => exact .nil
  | cons c l ih =>
    obtain ⟨hc, hq⟩ := h c (by simp)
    simp only [plainAscii, Bool.and_eq_true, bne_iff_ne, decide_eq_true_eq] at hc
    have := ValueText.char (u := u) (q := q) (c := c) ⟨hc.1.1.2, hc.1.1.1, hc.1.2⟩ hq (ih fun d hd => h d (by simp [hd]))
    rw [utf8_ascii hc.2] at this
    exact this

theorem readValue_sound {u : Bool} {t v z : List Char} {q : Char} (h : readValue t = some (q, v, z)) :
    t = q :: (v ++ q :: z) ∧ (q = '"' ∨ q = '\'') ∧ ValueText u q v v := by
  cases t with
  | nil => simp [readValue] at h
  | cons q' r =>
    simp only [readValue] at h
    split at h
    · next hq =>
      split at h
      · cases h
      · next z' hz =>
        cases h
        have := strip_eq hz
        refine ⟨?_, by simpa using hq, valueText_plain fun c hc => ?_⟩
        · conv => lhs; rw [← List.takeWhile_append_dropWhile (p := fun c => plainAscii c && c != q) (l := r), this]
          rfl
        · have := mem_takeWhile hc
          simpa using this
    · cases h

/-- attributes -/
def readAttrs : Nat → List Char → Option (List (List Char × List Char) × List Char)
  | 0, _ => none
  | n + 1, t =>
    match readName (t.dropWhile spc) with
    | none => some ([], t)
    | some (k, r) =>
      if t.takeWhile spc = [] then none else
      match strip ['='] (r.dropWhile spc) with
      | none => none
      | some r =>
        match readValue (r.dropWhile spc) with
        | none => none
        | some (_, v, r) =>
          match readAttrs n r with
          | none => none
          | some (as, z) => some ((k, v) :: as, z)

theorem readAttrs_sound {u : Bool} {n : Nat} {t z : List Char} {as : List (List Char × List Char)}
    (h : readAttrs n t = some (as, z)) : ∃ a, t = a ++ z ∧ AttrsText u a (as.map LElem.strs) := by
  induction n generalizing t as with
  | zero => simp [readAttrs] at h
  | succ n ih =>
    simp only [readAttrs] at h
    split at h
    · cases h; exact ⟨[], rfl, .nil⟩
    · next k r hk =>
      split at h
      · cases h
      next hs =>
      split at h
      · cases h
      next r2 hr2 =>
      split at h
      · cases h
      next q v r3 hv =>
      split at h
      · cases h
      next as' z' ha =>
      cases h
      obtain ⟨a, rfl, hat⟩ := ih ha
      obtain ⟨e1, hn⟩ := readName_sound hk
      obtain ⟨e3, hq, hvt⟩ := readValue_sound (u := u) hv
      have e2 := strip_eq hr2
      refine ⟨_, ?_, .cons (spc_sound t) hs hn (spc_sound r) (spc_sound r2) hq hvt hat⟩
      conv => lhs; rw [← List.takeWhile_append_dropWhile (p := spc) (l := t), e1,
        ← List.takeWhile_append_dropWhile (p := spc) (l := r), e2,
        ← List.takeWhile_append_dropWhile (p := spc) (l := r2), e3]
      simp

/-- the rest after a comment, from the beginning of its body -/
def readComment : List Char → Option (List Char)
  | [] => none
  | c :: t =>
    match strip ['-', '-'] (c :: t) with
    | some r => strip ['>'] r
    | none => readComment t

theorem readComment_sound {t z : List Char} (h : readComment t = some z) :
    ∃ b, t = b ++ ('-' :: '-' :: '>' :: z) ∧ ¬ ['-', '-'] <:+: b ++ ['-'] := by
  induction t with
  | nil => simp [readComment] at h
  | cons c t ih =>
    simp only [readComment] at h
    split at h
    · next r hr =>
      refine ⟨[], ?_, ?_⟩
      · rw [strip_eq hr, strip_eq h]; rfl
      · intro hi
        have := hi.length_le
        simp at this
    · next hs =>
      obtain ⟨b, rfl, hb⟩ := ih h
      refine ⟨c :: b, rfl, ?_⟩
      intro hi
      rw [List.cons_append, List.infix_cons_iff] at hi
      rcases hi with hi | hi
      · cases b with
        | nil =>
          simp only [List.nil_append] at hi hs
          obtain ⟨w, hw⟩ := hi
          simp only [List.cons_append, List.nil_append, List.cons.injEq] at hw
          obtain ⟨rfl, _⟩ := hw
          simp [strip] at hs
        | cons d b =>
          obtain ⟨w, hw⟩ := hi
          simp only [List.cons_append, List.nil_append, List.cons.injEq] at hw
          obtain ⟨rfl, rfl, _⟩ := hw
          simp [strip] at hs
      · exact hb hi

/-- an element, given a reader for its content -/
def readElem (content : List Char → Option (List LElem × List Char)) (n : Nat) (t : List Char) : Option (LElem × List Char) :=
  match strip ['<'] t with
  | none => none
  | some r =>
    match readName r with
    | none => none
    | some (nm, r) =>
      match readAttrs n r with
      | none => none
      | some (as, r) =>
        if ¬ (as.map Prod.fst).Nodup then none else
        match strip ['/', '>'] (r.dropWhile spc) with
        | some z => some (.mk nm as [], z)
        | none =>
          match strip ['>'] (r.dropWhile spc) with
          | none => none
          | some r =>
            match content r with
            | none => none
            | some (ks, r) =>
              match strip ('<' :: '/' :: nm) r with
              | none => none
              | some r =>
                match strip ['>'] (r.dropWhile spc) with
                | none => none
                | some z => some (.mk nm as ks, z)

theorem strs_nodup {as : List (List Char × List Char)} (h : (as.map Prod.fst).Nodup) :
    ((as.map LElem.strs).map Prod.fst).Nodup := by
  have : (as.map LElem.strs).map Prod.fst = (as.map Prod.fst).map String.ofList := by simp [LElem.strs]
  rw [this]
  induction as with
  | nil => simp
  | cons a as ih =>
    simp only [List.map_cons, List.nodup_cons] at h ⊢
    refine ⟨?_, ?_⟩
    · intro hm
      obtain ⟨b, hb, e⟩ := List.mem_map.mp hm
      exact h.1 (String.ofList_injective e ▸ hb)
    · exact ih h.2 (by simp [LElem.strs])

theorem readElem_sound {u : Bool} {content : List Char → Option (List LElem × List Char)} {n : Nat} {t z : List Char} {e : LElem}
    (hc : ∀ t ks z, content t = some (ks, z) → ∃ x, t = x ++ z ∧ ContentText u x (LElem.elems ks))
    (h : readElem content n t = some (e, z)) : ∃ x, t = x ++ z ∧ ElemText u x e.elem := by
  unfold readElem at h
  split at h
  · cases h
  next r hr =>
  split at h
  · cases h
  next nm r2 hnm =>
  split at h
  · cases h
  next as r3 has =>
  split at h
  · cases h
  next hnd =>
  have e1 := strip_eq hr
  obtain ⟨e2, hn⟩ := readName_sound hnm
  obtain ⟨a, e3, hat⟩ := readAttrs_sound (u := u) has
  have hnd' := strs_nodup (not_not.mp hnd)
  have e4 := (List.takeWhile_append_dropWhile (p := spc) (l := r3)).symm
  split at h
  · next z' hz =>
    cases h
    refine ⟨_, ?_, .empty hn hat hnd' (spc_sound r3)⟩
    rw [e1, e2, e3]
    conv => lhs; rw [e4, strip_eq hz]
    simp
  · split at h
    · cases h
    next r4 hr4 =>
    split at h
    · cases h
    next ks r5 hks =>
    split at h
    · cases h
    next r6 hr6 =>
    split at h
    · cases h
    next z' hz =>
    cases h
    obtain ⟨x, e5, hx⟩ := hc _ _ _ hks
    refine ⟨_, ?_, .full hn hat hnd' (spc_sound r3) hx (spc_sound r6)⟩
    rw [e1, e2, e3]
    conv => lhs; rw [e4, strip_eq hr4, e5, strip_eq hr6, ← List.takeWhile_append_dropWhile (p := spc) (l := r6), strip_eq hz]
    simp

/-- the content of an element, up to its end tag -/
def readContent : Nat → List Char → Option (List LElem × List Char)
  | 0, _ => none
  | n + 1, t =>
    let r := t.dropWhile plainAscii
    match strip ['<', '/'] r with
    | some _ => some ([], r)
    | none =>
      match strip ['<', '!', '-', '-'] r with
      | some r =>
        match readComment r with
        | none => none
        | some r => readContent n r
      | none =>
        match readElem (fun t => readContent n t) n r with
        | none => none
        | some (e, r) =>
          match readContent n r with
          | none => none
          | some (es, z) => some (e :: es, z)

theorem contentText_plain {u : Bool} {l x : List Char} {es : List Elem} (h : ∀ c ∈ l, plainAscii c = true)
    (hx : ContentText u x es) : ContentText u (l ++ x) es := by
  induction l with
  | nil => exact hx
  | cons c l ih =>
    have hc := h c (by simp)
    simp only [plainAscii, Bool.and_eq_true, bne_iff_ne, decide_eq_true_eq] at hc
    have := ContentText.char (u := u) (c := c) ⟨hc.1.1.2, hc.1.1.1, hc.1.2⟩ (ih fun d hd => h d (by simp [hd]))
    rw [utf8_ascii hc.2] at this
    exact this

theorem readContent_sound {u : Bool} {n : Nat} {t z : List Char} {es : List LElem} (h : readContent n t = some (es, z)) :
    ∃ x, t = x ++ z ∧ ContentText u x (LElem.elems es) := by
  induction n generalizing t z es with
  | zero => simp [readContent] at h
  | succ n ih =>
    have e0 := (List.takeWhile_append_dropWhile (p := plainAscii) (l := t)).symm
    have hp : ∀ c ∈ t.takeWhile plainAscii, plainAscii c = true := fun c hc => mem_takeWhile hc
    simp only [readContent] at h
    split at h
    · cases h
      exact ⟨_, e0, by simpa [LElem.elems] using contentText_plain hp (ContentText.nil (u := u))⟩
    · split at h
      · next r hr =>
        split at h
        · cases h
        next r2 hr2 =>
        obtain ⟨x, rfl, hx⟩ := ih h
        obtain ⟨b, e2, hb⟩ := readComment_sound hr2
        refine ⟨_, ?_, contentText_plain hp (.note (.inl ⟨b, rfl, hb⟩) hx)⟩
        conv => lhs; rw [e0, strip_eq hr, e2]
        simp
      · split at h
        · cases h
        next e r hr =>
        split at h
        · cases h
        next es' z' hz =>
        cases h
        obtain ⟨a, e1, ha⟩ := readElem_sound (u := u) (fun t ks z h => ih h) hr
        obtain ⟨x, rfl, hx⟩ := ih hz
        refine ⟨_, ?_, contentText_plain hp (.elem ha hx)⟩
        conv => lhs; rw [e0, e1]
        simp

/-- white space and comments -/
def readMisc : Nat → List Char → List Char
  | 0, t => t
  | n + 1, t =>
    match strip ['<', '!', '-', '-'] (t.dropWhile spc) with
    | none => t.dropWhile spc
    | some r =>
      match readComment r with
      | none => t.dropWhile spc
      | some r => readMisc n r

theorem misc_space {l x : List Char} (h : XSpace l) (hx : MiscText x) : MiscText (l ++ x) := by
  induction l with
  | nil => exact hx
  | cons c l ih =>
    exact .space (fun d hd => h d (by simp at hd; simp [hd])) (ih fun d hd => h d (by simp [hd]))

theorem readMisc_sound {n : Nat} {t z : List Char} (h : readMisc n t = z) : ∃ x, t = x ++ z ∧ MiscText x := by
  induction n generalizing t with
  | zero => exact ⟨[], by simpa [readMisc] using h, .nil⟩
  | succ n ih =>
    have e0 := (List.takeWhile_append_dropWhile (p := spc) (l := t)).symm
    have hs := misc_space (spc_sound t) .nil
    rw [List.append_nil] at hs
    simp only [readMisc] at h
    split at h
    · exact ⟨_, by rw [← h]; exact e0, hs⟩
    · next r hr =>
      split at h
      · exact ⟨_, by rw [← h]; exact e0, hs⟩
      next r2 hr2 =>
      obtain ⟨x, rfl, hx⟩ := ih h
      obtain ⟨b, e2, hb⟩ := readComment_sound hr2
      refine ⟨_, ?_, misc_space (spc_sound t) (.note (.inl ⟨b, rfl, hb⟩) hx)⟩
      conv => lhs; rw [e0, strip_eq hr, e2]
      simp

/-- the XML declaration -/
def readDecl (n : Nat) (t : List Char) : Option (List Char) :=
  match strip ['<', '?', 'x', 'm', 'l'] t with
  | none => some t
  | some r =>
    match readAttrs n r with
    | none => none
    | some (as, r) =>
      if as.all fun a => a.1 == ['v', 'e', 'r', 's', 'i', 'o', 'n'] then strip ['?', '>'] (r.dropWhile spc) else none

theorem readDecl_sound {n : Nat} {t z : List Char} (h : readDecl n t = some z) :
    ∃ d u', t = d ++ z ∧ (d = [] ∧ u' = false ∨ DeclText u' d) := by
  unfold readDecl at h
  split at h
  · cases h; exact ⟨[], false, rfl, .inl ⟨rfl, rfl⟩⟩
  next r hr =>
  split at h
  · cases h
  next as r2 has =>
  split at h
  case isFalse => cases h
  next hall =>
  obtain ⟨a, e2, hat⟩ := readAttrs_sound (u := false) has
  refine ⟨_, false, ?_, .inr ⟨a, _, _, rfl, hat, spc_sound r2, ?_, by simp⟩⟩
  · rw [strip_eq hr, e2]
    conv => lhs; rw [← List.takeWhile_append_dropWhile (p := spc) (l := r2), strip_eq h]
    simp
  · intro kv hkv
    obtain ⟨b, hb, rfl⟩ := List.mem_map.mp hkv
    have := List.all_eq_true.mp hall b hb
    left
    simp only [LElem.strs, beq_iff_eq.mp this]

/-- a document -/
def readDoc (n : Nat) (t : List Char) : Option LElem :=
  match readDecl n t with
  | none => none
  | some r =>
    match readElem (fun t => readContent n t) n (readMisc n r) with
    | none => none
    | some (e, r) => if readMisc n r = [] then some e else none

/-- what the checker returns is what the text says -/
theorem readDoc_sound {n : Nat} {t : List Char} {e : LElem} (h : readDoc n t = some e) : DocText t e.elem := by
  unfold readDoc at h
  split at h
  · cases h
  next r hr =>
  split at h
  · cases h
  next e' r2 hr2 =>
  split at h
  case isFalse => cases h
  next hm2 =>
  cases h
  obtain ⟨d, u', e1, hd⟩ := readDecl_sound hr
  obtain ⟨m, e2, hm⟩ := readMisc_sound (n := n) (t := r) rfl
  obtain ⟨x, e3, hx⟩ := readElem_sound (u := false) (fun t ks z h => readContent_sound h) hr2
  obtain ⟨m2, e4, hm2⟩ := readMisc_sound hm2
  refine ⟨false, d ++ m, x, m2, ?_, ⟨[], d, m, u', rfl, .inl rfl, hd, hm, by simp⟩, hx, hm2⟩
  rw [e1, e2, e3, e4]
  simp

end Chk

end Tinyfk
