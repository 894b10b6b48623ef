import Verif.Xml.DeclLemmas

/-!
# Documents: what reading gives

`Doc` (DocSpec.lean) relates the bytes of a document with the tokens it consists of.
-/

namespace Tm.Xml

open Tm.Uni (utf8 encode)

/-- The tokens that were delivered are those of a document: their kinds, texts and lines. -/
def Delivers (toks : List Token) (ts : List Tok) : Prop :=
  toks.map (fun k => (k.kind, k.contents.text, k.loc.line)) = ts.map (fun k => (k.1, k.2.1, BitVec.ofNat 32 k.2.2))

instance (toks : List Token) (ts : List Tok) : Decidable (Delivers toks ts) := by unfold Delivers; infer_instance

/-! ## C138: documents are read as what they are -/

theorem reads_doc {doc : List Byte} {ts : List Tok} {n : Nat} (h : Doc False n doc ts) {r : Reader} (hs : St r .none 0 n doc) (hr : r.rootFound = false) :
    ∃ fuel toks r', readAll fuel r = .ok (toks, r') ∧ Delivers toks ts ∧ r'.ctx = .eof := by
  obtain ⟨r', h1, h2⟩ := doc_steps h hs hr
  obtain ⟨toks, r'', h3, h4, h5⟩ := h1.readAll h2
  exact ⟨_, toks, r'', h3, h4, h5⟩

/-- **C138** Calling `tmxml_next_token` until it returns false delivers exactly the tokens of a document, in order, with the references in
values and texts replaced and with the right lines, and then the end. Missing: texts that do not fit into the buffer of the reader
(C136), comments with "&", processing instructions that begin with "xml", tags without contents that have attributes (all of these are
what `Doc True` has in addition, see `C138_not_empty`, `C138_not_compact`, `C138_not_comment` and `C138_not_instructions`), and flags that
trim texts. -/
theorem C138_reads_partial {doc : List Byte} {ts : List Tok} (h : Doc False 0 doc ts) (flags : Flags) (h1 : flags.left = false)
    (h2 : flags.right = false) (h3 : flags.reduce = false) (h4 : flags.newlines = false) :
    ∃ fuel toks r, readAll fuel (makeReader doc flags) = .ok (toks, r) ∧ Delivers toks ts ∧ r.ctx = .eof :=
  reads_doc h ⟨rfl, rfl, ⟨h1, h2, h3, h4⟩, Nat.le_refl _, rfl, rfl⟩ rfl

theorem name_a : Name (ascii "a") := .mk 0x61 [] (by decide) (by decide)
theorem name_x : Name (ascii "x") := .mk 0x78 [] (by decide) (by decide)
theorem space_nil : Space [] := by intro b hb; cases hb
theorem space_one : Space (ascii " ") := by unfold Space; decide
theorem denotes_one : Denotes (ascii "1") [0x31] :=
  .char 0x31 [] [] (by decide) (by decide) (by decide) (by decide) .nil
theorem one_attr (all : Prop) (n : Nat) : Attrs all n (ascii " x='1'") [(.attrName, ascii "x", n), (.attrValue, ascii "1", n)] :=
  .cons n (ascii " ") (ascii "x") [] [] 0x27 (ascii "1") [0x31] [] [] space_one (by decide) name_x space_nil space_nil (Or.inr rfl) denotes_one
    (by decide) (Or.inr (Or.inl (by decide))) (.nil _)

/-- An element with an attribute, text, a reference, a newline and a child, behind whitespace. -/
theorem sample_doc : Doc False 0 (ascii " <a x='1'>b&lt;\n<x/></a>")
    [(.tagOpen, ascii "a", 0), (.attrName, ascii "x", 0), (.attrValue, ascii "1", 0), (.contents, ascii "b<\n", 0), (.tagOpen, ascii "x", 1),
     (.tagClose, ascii "x", 1), (.tagClose, ascii "a", 1), (.eof, [], 1)] := by
  have d : Denotes (ascii "b&lt;\n") [0x62, 0x3C, 0x0A] :=
    .char 0x62 (ascii "&lt;\n") _ (by decide) (by decide) (by decide) (by decide)
      (.entity (ascii "lt;") 0x3C (ascii "\n") _ (by decide) (.char 0x0A [] [] (by decide) (by decide) (by decide) (by decide) .nil))
  have e : Xml False .body 1 (ascii "<x/>") [(.tagOpen, ascii "x", 1), (.tagClose, ascii "x", 1)] :=
    .element 1 (ascii "<x/>") _ [] [] (.empty 1 (ascii "x") [] [] [] name_x (.nil _) space_nil (Or.inr ⟨rfl, rfl⟩)) (.nil _)
  have b : Xml False .body 0 (ascii "b&lt;\n<x/>") [(.contents, ascii "b<\n", 0), (.tagOpen, ascii "x", 1), (.tagClose, ascii "x", 1)] :=
    .text 0 (ascii "b&lt;\n") _ (ascii "<x/>") _ d (by decide) (Or.inr (Or.inl (by decide))) (Or.inr (by decide)) e
  exact .mk (ascii " ") [] (ascii "<a x='1'>b&lt;\n<x/></a>") _ [] [] (.space _ _ space_one)
    (.tags 0 (ascii "a") (ascii " x='1'") _ [] (ascii "b&lt;\n<x/>") _ [] name_a (one_attr _ _) space_nil space_nil b) (.space _ _ space_nil)

/-- The hypotheses of `C138_reads_partial` are met. -/
example : ∃ ts, Doc False 0 (ascii " <a x='1'>b&lt;\n<x/></a>") ts ∧ ({} : Flags).left = false ∧ ({} : Flags).right = false ∧
    ({} : Flags).reduce = false ∧ ({} : Flags).newlines = false := ⟨_, sample_doc, rfl, rfl, rfl, rfl⟩

theorem read_witness {P : List Token → Reader → Prop} [∀ t r, Decidable (P t r)] (fuel : Nat) (r : Reader)
    (h : (match readAll fuel r with | .ok (t, r) => decide (P t r) | .error _ => false) = true) :
    ∃ fuel toks r', readAll fuel r = .ok (toks, r') ∧ P toks r' := by
  match hr : readAll fuel r, h with
  | .ok (t, r'), h => exact ⟨fuel, t, r', hr, of_decide_eq_true h⟩

theorem prolog_witness {P : Bool → Prolog → Reader → Prop} [∀ b p r, Decidable (P b p r)] (r : Reader)
    (h : (match readProlog r with | .ok (b, p, r) => decide (P b p r) | .error _ => false) = true) :
    ∃ b p r', readProlog r = .ok (b, p, r') ∧ P b p r' := by
  match hr : readProlog r, h with
  | .ok (b, p, r'), h => exact ⟨b, p, r', rfl, of_decide_eq_true h⟩

/-- **C138** is false of tags without contents that have attributes: line 1158 takes the value of the attribute for the name of the tag, so
that the closing token of `<a x='1' />` has the name "1". -/
theorem C138_not_empty : ∃ doc ts, Doc True 0 doc ts ∧
    ∃ fuel toks r, readAll fuel (makeReader doc {}) = .ok (toks, r) ∧ toks.map Token.kind = ts.map (·.1) ∧ ¬ Delivers toks ts :=
  ⟨ascii "<a x='1' />", _, .mk [] [] _ _ [] [] (.space _ _ space_nil)
    (.empty 0 (ascii "a") (ascii " x='1'") _ (ascii " ") name_a (one_attr True _) space_one (Or.inl trivial)) (.space _ _ space_nil),
    read_witness 6 _ (by decide +kernel)⟩

/-- **C138** is false of tags without contents whose "/" follows a value at once: line 1149 does not allow it there, so that
`<a x='1'/>` is an error. -/
theorem C138_not_compact : ∃ doc ts, Doc True 0 doc ts ∧
    ∃ fuel toks r, readAll fuel (makeReader doc {}) = .ok (toks, r) ∧ r.ctx = .error :=
  ⟨ascii "<a x='1'/>", _, .mk [] [] _ _ [] [] (.space _ _ space_nil)
    (.empty 0 (ascii "a") (ascii " x='1'") _ [] name_a (one_attr True _) space_nil (Or.inl trivial)) (.space _ _ space_nil),
    read_witness 6 _ (by decide +kernel)⟩

theorem no_infix {pat s : List Byte} (h : (List.range (s.length + 1)).all (fun i => !pat.isPrefixOf (s.drop i)) = true) : ∀ p q, s ≠ p ++ pat ++ q := by
  intro p q e
  have := List.all_eq_true.mp h p.length (by rw [List.mem_range, e]; simp only [List.length_append]; omega)
  rw [e, List.append_assoc, List.drop_left, show pat.isPrefixOf (pat ++ q) = true from prefix_iff.mpr (List.prefix_append _ _)] at this
  cases this

theorem plain_a (n : Nat) : Xml True .element n (ascii "<a/>") [(.tagOpen, ascii "a", n), (.tagClose, ascii "a", n)] :=
  .empty n (ascii "a") [] [] [] name_a (.nil _) space_nil (Or.inl trivial)

/-- **C138** is false of comments with "&": line 1174 unescapes them like character data, in which it must be part of a reference.
`<!--&--><a/>` is an error. -/
theorem C138_not_comment : ∃ doc ts, Doc True 0 doc ts ∧
    ∃ fuel toks r, readAll fuel (makeReader doc {}) = .ok (toks, r) ∧ r.ctx = .error :=
  ⟨ascii "<!--&--><a/>", _, .mk (ascii "<!--&-->") _ _ _ [] [] (.item 0 [] (ascii "<!--&-->") _ [] [] space_nil
      (.comment [0x26] (by unfold XmlText; decide) (no_infix (by decide)) (Or.inl trivial)) (.space _ _ space_nil))
    (plain_a _) (.space _ _ space_nil), read_witness 6 _ (by decide +kernel)⟩

/-- **C138** is false of processing instructions that begin with "xml": lines 735-738 reject them all, not only the reserved target "xml".
`<?xml-stylesheet?><a/>` is an error. -/
theorem C138_not_instructions : ∃ doc ts, Doc True 0 doc ts ∧
    ∃ fuel toks r, readAll fuel (makeReader doc {}) = .ok (toks, r) ∧ r.ctx = .error :=
  ⟨ascii "<?xml-stylesheet?><a/>", _, .mk (ascii "<?xml-stylesheet?>") _ _ _ [] [] (.item 0 [] (ascii "<?xml-stylesheet?>") _ [] [] space_nil
      (.instructions [0x78, 0x6D, 0x6C, 0x2D, 0x73, 0x74, 0x79, 0x6C, 0x65, 0x73, 0x68, 0x65, 0x65, 0x74] []
        (.mk 0x78 [0x6D, 0x6C, 0x2D, 0x73, 0x74, 0x79, 0x6C, 0x65, 0x73, 0x68, 0x65, 0x65, 0x74] (by decide) (by decide))
        (by rintro ⟨_, h⟩; revert h; decide) (by unfold XmlText; decide) (Or.inl rfl) (no_infix (by decide)) (Or.inl trivial)) (.space _ _ space_nil))
    (plain_a _) (.space _ _ space_nil), read_witness 6 _ (by decide +kernel)⟩

/-! ## C139: the XML declaration -/

/-- **C139** `tmxml_read_prolog` reads the version, the encoding and the value of `standalone` of an XML declaration, and the tokens of the
document behind it can then be read. Missing: declarations with `standalone="no"`, see `C139_not_standalone`; that other declarations
are rejected, see `C139_not_rejected`; and what is missing of C138. -/
theorem C139_declaration_partial {version encoding standalone d doc : List Byte} {ts : List Tok}
    (hd : Declaration version encoding standalone d) (hs : standalone ≠ ascii "no") (h : Doc False (newlines d) doc ts) (flags : Flags)
    (h1 : flags.left = false) (h2 : flags.right = false) (h3 : flags.reduce = false) (h4 : flags.newlines = false) :
    ∃ p r, readProlog (makeReader (d ++ doc) flags) = .ok (true, p, r) ∧ p.present = true ∧ p.version = version ∧ p.encoding = encoding ∧
      p.standaloneSpecified = !standalone.isEmpty ∧ p.standalone = true ∧ p.skippedDoctype = false ∧
      ∃ fuel toks r', readAll fuel r = .ok (toks, r') ∧ Delivers toks ts ∧ r'.ctx = .eof := by
  obtain ⟨t1, t2, e1, e2, p2⟩ := declaration_read (t := (makeReader (d ++ doc) flags).tz) (n := 0) (y := doc) hd ⟨rfl, rfl⟩ hs
  rw [Nat.zero_add] at p2
  have hpre : ([0x3C, 0x3F] : List Byte).isPrefixOf (makeReader (d ++ doc) flags).tz.rest = true := by
    cases hd with
    | mk v e s w h1 h2 h3 h4 h5 =>
      show ([0x3C, 0x3F] : List Byte).isPrefixOf (ascii "<?xml" ++ v ++ e ++ s ++ w ++ ascii "?>" ++ doc) = true
      rw [show ascii "<?xml" = [0x3C, 0x3F] ++ [0x78, 0x6D, 0x6C] by decide, prefix_iff]
      simp only [List.append_assoc]
      exact List.prefix_append _ _
  have hscan : doctypeScan t2 (t2.rest.length + 1) t2 = .ok (true, some (t2, false)) := by
    cases h with
    | mk m ms e es m' ms' g1 g2 g3 =>
      have hc : ∃ c y, e ++ m' = 0x3C :: c :: y ∧ c ≠ 0x21 := by
        have e0 : ascii "<" = [0x3C] := by decide
        cases g2 with
        | tags n name a as w s ts w' h1 h2 h3 h4 h5 =>
          obtain ⟨c, q, hc, hc1, hc2, hc3, hc4, hc5, hc6⟩ := h1.cons
          exact ⟨c, q ++ a ++ w ++ ascii ">" ++ s ++ ascii "</" ++ (c :: q) ++ w' ++ ascii ">" ++ m', by
            rw [hc, e0]; simp only [List.append_assoc, List.cons_append, List.nil_append], hc4⟩
        | empty n name a as w h1 h2 h3 h4 =>
          obtain ⟨c, q, hc, hc1, hc2, hc3, hc4, hc5, hc6⟩ := h1.cons
          exact ⟨c, q ++ a ++ w ++ ascii "/>" ++ m', by
            rw [hc, e0]; simp only [List.append_assoc, List.cons_append, List.nil_append], hc4⟩
      obtain ⟨c, y, hy, hc⟩ := hc
      rw [List.append_assoc, hy] at p2
      exact scan_none g1 t2 t2 _ c y p2 hc (by rw [p2.rest, List.length_append]; omega)
  refine ⟨Prolog.mk version encoding (!standalone.isEmpty) true true false, { makeReader (d ++ doc) flags with tz := t2 }, ?_, rfl, rfl, rfl, rfl, rfl, rfl, ?_⟩
  · unfold readProlog
    dsimp only
    rw [if_pos hpre, e1]
    simp only [ok_bind]
    rw [e2]
    simp only [ok_bind]
    rw [hscan]
    rfl
  · exact reads_doc h ⟨rfl, rfl, ⟨h1, h2, h3, h4⟩, Nat.le_refl _, p2.rest, p2.line⟩ rfl

theorem setting_version : Setting (ascii "version") (ascii "1.0") (ascii " version='1.0'") :=
  .mk (ascii " ") [] [] 0x27 space_one (by decide) space_nil space_nil (Or.inr rfl) (by decide) (by decide) (by decide)

/-- The hypotheses of `C139_declaration_partial` are met. -/
example : ∃ ts, Declaration (ascii "1.0") (ascii "UTF-8") (ascii "yes") (ascii "<?xml version='1.0' encoding='UTF-8' standalone='yes' ?>") ∧
    ascii "yes" ≠ ascii "no" ∧
    Doc False (newlines (ascii "<?xml version='1.0' encoding='UTF-8' standalone='yes' ?>")) (ascii " <a x='1'>b&lt;\n<x/></a>") ts :=
  ⟨_, .mk (ascii " version='1.0'") (ascii " encoding='UTF-8'") (ascii " standalone='yes'") (ascii " ") setting_version
    (Or.inr (.mk (ascii " ") [] [] 0x27 space_one (by decide) space_nil space_nil (Or.inr rfl) (by decide) (by decide) (by decide)))
    (Or.inr (.mk (ascii " ") [] [] 0x27 space_one (by decide) space_nil space_nil (Or.inr rfl) (by decide) (by decide) (by decide)))
    (Or.inr (Or.inl rfl)) space_one, by decide, sample_doc⟩

/-- **C139** is false of `standalone="no"`: line 1273 compares three bytes with "no", so that the byte behind the value, its quote, must be
null. The declaration is rejected. -/
theorem C139_not_standalone : ∃ d doc ts, Declaration (ascii "1.0") [] (ascii "no") d ∧ Doc True (newlines d) doc ts ∧
    ∃ p r, readProlog (makeReader (d ++ doc) {}) = .ok (false, p, r) := by
  refine ⟨ascii "<?xml version='1.0' standalone='no'?>", ascii "<a/>", _,
    .mk (ascii " version='1.0'") [] (ascii " standalone='no'") [] setting_version (Or.inl ⟨rfl, rfl⟩)
      (Or.inr (.mk (ascii " ") [] [] 0x27 space_one (by decide) space_nil space_nil (Or.inr rfl) (by decide) (by decide) (by decide)))
      (Or.inr (Or.inr rfl)) space_nil,
    .mk [] [] _ _ [] [] (.space _ _ space_nil) (plain_a _) (.space _ _ space_nil), ?_⟩
  obtain ⟨b, p, r, h, hb⟩ := prolog_witness (P := fun b _ _ => b = false)
    (makeReader (ascii "<?xml version='1.0' standalone='no'?>" ++ ascii "<a/>") {}) (by decide +kernel)
  exact ⟨p, r, by rw [h, hb]⟩

/-- A declaration ends with a quote, whitespace and "?>". -/
def declEnd (d : List Byte) : Bool :=
  d.reverse.take 2 = [0x3E, 0x3F] &&
    let b := ((d.reverse.drop 2).dropWhile isSpace).headD 0
    (b = 0x22 || b = 0x27)

theorem Setting.last {name value s : List Byte} (h : Setting name value s) : ∃ p q, (q = 0x22 ∨ q = 0x27) ∧ s = p ++ [q] := by
  cases h with
  | mk w w1 w2 quote h1 h2 h3 h4 h5 h6 h7 h8 => exact ⟨_, quote, h5, rfl⟩

theorem Declaration.last {version encoding standalone d : List Byte} (h : Declaration version encoding standalone d) : declEnd d = true := by
  have key : ∃ p q w, (q = 0x22 ∨ q = 0x27) ∧ Space w ∧ d = p ++ [q] ++ w ++ ascii "?>" := by
    cases h with
    | mk v e s w h1 h2 h3 h4 h5 =>
      rcases h3 with ⟨rfl, -⟩ | h3
      · rcases h2 with ⟨rfl, -⟩ | h2
        · obtain ⟨p, q, hq, rfl⟩ := h1.last
          exact ⟨ascii "<?xml" ++ p, q, w, hq, h5, by simp only [List.append_assoc, List.append_nil]⟩
        · obtain ⟨p, q, hq, rfl⟩ := h2.last
          exact ⟨ascii "<?xml" ++ v ++ p, q, w, hq, h5, by simp only [List.append_assoc, List.append_nil]⟩
      · obtain ⟨p, q, hq, rfl⟩ := h3.last
        exact ⟨ascii "<?xml" ++ v ++ e ++ p, q, w, hq, h5, by simp only [List.append_assoc]⟩
  obtain ⟨p, q, w, hq, hw, rfl⟩ := key
  have e : (p ++ [q] ++ w ++ ascii "?>").reverse = 0x3E :: 0x3F :: (w.reverse ++ q :: p.reverse) := by
    rw [show ascii "?>" = [0x3F, 0x3E] by decide]
    simp
  have hw' : Space w.reverse := fun b hb => hw b (List.mem_reverse.mp hb)
  obtain ⟨-, e2⟩ := take_append (p := isSpace) (a := w.reverse) (b := q) (s := p.reverse) hw'.bytes (by rcases hq with rfl | rfl <;> decide)
  unfold declEnd
  rw [e]
  have e3 : (((0x3E : Byte) :: 0x3F :: (w.reverse ++ q :: p.reverse)).drop 2).dropWhile isSpace = q :: p.reverse := e2
  rw [e3]
  rcases hq with rfl | rfl <;> rfl

/-- **C139** is false of ill-formed declarations: what is not a name is taken for the end of the declaration (lines 1241 and 1281), so that
`<?xml version='1.0' 1abc?>` is accepted. -/
theorem C139_not_rejected : (∃ p r, readProlog (makeReader (ascii "<?xml version='1.0' 1abc?><a/>") {}) = .ok (true, p, r) ∧ p.present = true) ∧
    ¬ ∃ version encoding standalone d doc, Declaration version encoding standalone d ∧ ascii "<?xml version='1.0' 1abc?><a/>" = d ++ doc := by
  constructor
  · obtain ⟨b, p, r, h, hb, hp⟩ := prolog_witness (P := fun b p _ => b = true ∧ p.present = true)
      (makeReader (ascii "<?xml version='1.0' 1abc?><a/>") {}) (by decide +kernel)
    exact ⟨p, r, by rw [h, hb], hp⟩
  · rintro ⟨version, encoding, standalone, d, doc, hd, he⟩
    have h1 := hd.last
    have h2 : ∀ k : Fin 31, declEnd ((ascii "<?xml version='1.0' 1abc?><a/>").take k) = false := by decide
    have h3 : d.length < 31 := by
      have := congrArg List.length he
      rw [List.length_append, show (ascii "<?xml version='1.0' 1abc?><a/>").length = 30 by decide] at this
      omega
    have h4 := h2 ⟨d.length, h3⟩
    rw [he, List.take_left, h1] at h4
    cases h4

/-! ## C140: document types -/

/-- **C140** `tmxml_read_prolog` skips a document type, with comments in front of it, whose angle brackets are balanced, and the
tokens of the document behind it can then be read. Missing: document types with angle brackets in literals or comments, see `C140_not_literal`,
and what is missing of C138. -/
theorem C140_doctype_partial {m x doc : List Byte} {ts : List Tok} (hm : Comments m) (hx : Balanced x)
    (h : Doc False (newlines (m ++ ascii "<!DOCTYPE" ++ x ++ ascii ">")) doc ts) (flags : Flags)
    (h1 : flags.left = false) (h2 : flags.right = false) (h3 : flags.reduce = false) (h4 : flags.newlines = false) :
    ∃ p r, readProlog (makeReader (m ++ ascii "<!DOCTYPE" ++ x ++ ascii ">" ++ doc) flags) = .ok (true, p, r) ∧ p.present = false ∧
      p.skippedDoctype = true ∧ ∃ fuel toks r', readAll fuel r = .ok (toks, r') ∧ Delivers toks ts ∧ r'.ctx = .eof := by
  have hform : m ++ ascii "<!DOCTYPE" ++ x ++ ascii ">" ++ doc = m ++ (ascii "<!DOCTYPE" ++ (x ++ 0x3E :: doc)) := by
    rw [show ascii ">" = [0x3E] by decide]; simp only [List.append_assoc, List.cons_append, List.nil_append]
  rw [hform]
  generalize hR : makeReader (m ++ (ascii "<!DOCTYPE" ++ (x ++ 0x3E :: doc))) flags = R
  have hrest : R.tz.rest = m ++ (ascii "<!DOCTYPE" ++ (x ++ 0x3E :: doc)) := by rw [← hR]; rfl
  obtain ⟨t, e1, p1⟩ := scan_doctype hm R.tz R.tz (R.tz.rest.length + 1) 0 x doc hx ⟨hrest, by rw [← hR]; rfl⟩
    (by rw [hrest, List.length_append]; omega)
  refine ⟨{ skippedDoctype := true }, { R with tz := t }, ?_, rfl, rfl, ?_⟩
  · unfold readProlog
    dsimp only
    rw [if_neg, e1]
    · rfl
    · rw [hrest]
      have hc : ∃ b c q, m ++ (ascii "<!DOCTYPE" ++ (x ++ 0x3E :: doc)) = b :: c :: q ∧ (b = 0x3C → c = 0x21) := by
        have head : ∀ (w : List Byte) (q : List Byte), Space w →
            ∃ b c z, w ++ 0x3C :: 0x21 :: q = b :: c :: z ∧ (b = 0x3C → c = 0x21) := by
          intro w q hw
          match w, hw with
          | [], _ => exact ⟨_, _, _, rfl, fun _ => rfl⟩
          | b :: [], hw =>
            refine ⟨b, 0x3C, _, rfl, ?_⟩
            rintro rfl
            exact absurd (hw _ (List.mem_cons_self ..)) (by decide)
          | b :: c :: w, hw =>
            refine ⟨b, c, _, rfl, ?_⟩
            rintro rfl
            exact absurd (hw _ (List.mem_cons_self ..)) (by decide)
        cases hm with
        | space w hw =>
          exact head m _ hw
        | comment w t s hw h1 h2 h3 =>
          have : w ++ ascii "<!--" ++ encode utf8 t ++ ascii "-->" ++ s ++ (ascii "<!DOCTYPE" ++ (x ++ 0x3E :: doc)) =
              w ++ 0x3C :: 0x21 :: ([0x2D, 0x2D] ++ encode utf8 t ++ ascii "-->" ++ s ++ (ascii "<!DOCTYPE" ++ (x ++ 0x3E :: doc))) := by
            rw [show ascii "<!--" = 0x3C :: 0x21 :: [0x2D, 0x2D] by decide]
            simp only [List.append_assoc, List.cons_append]
          rw [this]
          exact head w _ hw
      obtain ⟨b, c, q, hq, hbc⟩ := hc
      rw [hq, prefix_iff]
      rintro ⟨z, hz⟩
      simp only [List.cons_append, List.nil_append, List.cons.injEq] at hz
      have := hbc hz.1.symm
      rw [← hz.2.1] at this
      revert this; decide
  · refine reads_doc h ⟨?_, ?_, ?_, ?_, p1.rest, ?_⟩ ?_
    · rw [← hR]; rfl
    · rw [← hR]; rfl
    · rw [← hR]; exact ⟨h1, h2, h3, h4⟩
    · rw [← hR]; exact Nat.le_refl _
    · rw [p1.line]
      simp only [newlines_append, show newlines (ascii "<!DOCTYPE") = 0 by decide, show newlines (ascii ">") = 0 by decide]
      congr 1
      omega
    · rw [← hR]; rfl

/-- The hypotheses of `C140_doctype_partial` are met. -/
example : ∃ ts, Comments (ascii " <!--b-->") ∧ Balanced (ascii " a [<!ELEMENT a ANY>]") ∧
    Doc False (newlines (ascii " <!--b-->" ++ ascii "<!DOCTYPE" ++ ascii " a [<!ELEMENT a ANY>]" ++ ascii ">")) (ascii " <a x='1'>b&lt;\n<x/></a>") ts := by
  have lit : ∀ x : List Byte, (∀ b ∈ x, b ≠ 0x3C ∧ b ≠ 0x3E ∧ b ≠ 0) → ∀ s, Balanced s → Balanced (x ++ s) := by
    intro x
    induction x with
    | nil => exact fun _ s hs => hs
    | cons b x ih =>
      intro h s hs
      have hb := h b (List.mem_cons_self ..)
      exact .char b _ hb.1 hb.2.1 hb.2.2 (ih (fun c hc => h c (List.mem_cons_of_mem _ hc)) s hs)
  exact ⟨_, .comment (ascii " ") [0x62] [] space_one (by unfold XmlText; decide) (no_infix (by decide)) (.space _ space_nil),
    lit (ascii " a [") (by decide) (ascii "<!ELEMENT a ANY>]") (.nested (ascii "!ELEMENT a ANY") (ascii "]") (lit (ascii "!ELEMENT a ANY") (by decide) [] .nil)
      (lit (ascii "]") (by decide) [] .nil)), sample_doc⟩

/-- **C140** is false of document types with an angle bracket in a literal: lines 1314-1335 count it. The document type of
`<!DOCTYPE a [<!ENTITY b "<">]><a/>` is well-formed, but the loop reads to the end of the document, and nothing can be read behind it. -/
theorem C140_not_literal :
    ∃ p r, readProlog (makeReader (ascii "<!DOCTYPE a [<!ENTITY b '<'>]><a/>") {}) = .ok (true, p, r) ∧ p.skippedDoctype = true ∧
      r.tz.rest ≠ ascii "<a/>" := by
  obtain ⟨b, p, r, h, hb, hp, hr⟩ := prolog_witness (P := fun b p r => b = true ∧ p.skippedDoctype = true ∧ r.tz.rest ≠ ascii "<a/>")
    (makeReader (ascii "<!DOCTYPE a [<!ENTITY b '<'>]><a/>") {}) (by decide +kernel)
  exact ⟨p, r, by rw [h, hb], hp, hr⟩

/-! ## C141: copies -/

/-- **C141** `tmxml_copy_string` returns a buffer that begins with the bytes of the string, unless there is no memory. Missing: that it is
terminated, see `C141_not_terminated`. -/
theorem C141_copy_partial (alloc : Nat → Bool) (s : List Byte) (b : List Byte) (h : copyString alloc s = some b) : s <+: b := by
  unfold copyString at h
  split at h
  · split at h
    · cases h; exact List.prefix_refl _
    · cases h
  · rename_i h0
    rw [List.length_eq_zero_iff.mp (show s.length = 0 by omega)]
    exact List.nil_prefix

example : copyString (fun _ => true) (ascii "ab") = some (ascii "ab") := by decide

/-- **C141** is false of every string that is not empty: lines 1650-1654 allocate no byte for the terminator and write none, so that the buffer
that is returned has no byte behind the string. -/
theorem C141_not_terminated (s : List Byte) (hs : s ≠ []) (alloc : Nat → Bool) : copyString alloc s ≠ some (s ++ [0]) := by
  unfold copyString
  rw [if_pos (List.length_pos_iff.mpr hs)]
  split
  · intro h
    have := congrArg List.length (Option.some.inj h)
    simp at this
  · intro h; cases h

end Tm.Xml
