import Verif.Json.ExRead
import Verif.Json.ExSame
import Verif.Json.Props

/-! # Properties of extended documents -/

namespace Tm.Json

open Tm Tm.Json.Spec

variable {P Q : List Byte → Prop} {R : Shown}

/-- A document whose first token begins a value. -/
theorem documentEx_eq (f : FlagsEx) {al : Alloc} {s : List Byte} {tok : Tok} {r : Reader} (hv : IsValueTok tok)
    (e : nextTokenEx f .null (makeReader s) = .ok (tok, r)) :
    makeDocumentEx f al s = (do
      let z ← itemEx f (r.rest.length + 1) al (tok, r)
      let r ← (if z.reader.err = .ok then validUntilEofEx f z.reader else .ok z.reader)
      assert (r.rest = [] || r.err ≠ .ok)
      if r.err ≠ .ok then .ok ⟨.scalar .null ⟨true, [], 0⟩, r.err, r.line, r.column⟩
      else .ok ⟨z.val, z.err, 0, 0⟩) := by
  unfold makeDocumentEx readRootTypeEx
  rw [rootLoopEx, e, ok_bind]
  rcases hv with rfl | rfl | rfl
  · dsimp only
    rw [ok_bind]
    dsimp only
    rw [readContainerEx_eq]
    rfl
  · dsimp only
    rw [ok_bind]
    dsimp only
    rw [readContainerEx_eq]
    rfl
  · dsimp only
    rw [ok_bind]
    dsimp only
    unfold itemEx
    dsimp only
    rw [if_neg (by simp), if_pos rfl]

/-- The first value of a text. -/
theorem root_okEx (f : FlagsEx) (hcond : Cond P Q R) {j : Json} {a v b : List Byte} (hv : Value P Q j v) (ha : Ws a) (hb : Ws b)
    (hlast : b ≠ [] ∨ PlainLast v ∨ ∀ t w, w.null = false → R.num w t) {al : Alloc} (hm : al.size + 32 * v.length ≤ al.capacity + 32) :
    ∃ tok r z, nextTokenEx f .null (makeReader (a ++ (v ++ b))) = .ok (tok, r) ∧ IsValueTok tok ∧
      itemEx f (r.rest.length + 1) al (tok, r) = .ok z ∧ DoneEx R j v.length al b z := by
  have hsc : (∀ isObj w, v ≠ opening isObj :: w) → ∃ tok r z, nextTokenEx f .null (makeReader (a ++ (v ++ b))) = .ok (tok, r) ∧
      IsValueTok tok ∧ itemEx f (r.rest.length + 1) al (tok, r) = .ok z ∧ DoneEx R j v.length al b z := by
    intro hno
    obtain ⟨y, z, e1, _, e2, h2⟩ := read_okEx f hcond hv .null (makeReader (a ++ (v ++ b))) .eof a b (a ++ (v ++ b)).length al (Sep.ws ha)
      trivial (fun _ => rfl) rfl (Or.inl hb) hlast rfl (Nat.le_refl _) hm
    obtain ⟨y', e', _, h'⟩ := tok_valueEx f (ctx := .null) (q := makeReader (a ++ (v ++ b))) (l := .eof) hv (Sep.ws ha) trivial rfl
      (Or.inl hb) (fun _ => rfl) rfl
    have hy : y' = y := by rw [e1] at e'; injection e' with e'; exact e'.symm
    subst hy
    rcases h' with ⟨h1, _, _⟩ | ⟨isObj, w, h1, _⟩
    · obtain ⟨tok, r⟩ := y'
      dsimp only at h1
      subst h1
      exact ⟨.value, r, z, e1, Or.inr (Or.inr rfl), e2, h2⟩
    · exact absurd h1 (hno _ _)
  by_cases hno : ∀ isObj w, v ≠ opening isObj :: w
  · exact hsc hno
  · have hno : ∃ isObj w, v = opening isObj :: w := by
      by_contra h
      apply hno
      intro o w e
      exact h ⟨o, w, e⟩
    obtain ⟨isObj, w, rfl⟩ := hno
    obtain ⟨r', e, g1, g2, g3⟩ := tok_start (ctx := .null) (r := makeReader (a ++ (opening isObj :: w ++ b))) (a := a) (t := w ++ b) isObj
      rfl ha trivial (fun _ => rfl)
    obtain ⟨r2, e2, ah⟩ := nextTokenEx_of f e rfl (by cases isObj <;> simp) (by cases isObj <;> simp)
    have := ah.same (by cases isObj <;> simp)
    subst this
    obtain ⟨z, ez, hz⟩ := inner_okEx f hcond _ isObj j w hv (Nat.lt_succ_self _) (r2.rest.length + 1) al r2 b g1 g2 g3 (Nat.lt_succ_self _) hm
    refine ⟨_, r2, z, e2, ?_, ez, hz⟩
    cases isObj
    · exact Or.inr (Or.inl rfl)
    · exact Or.inl rfl

/-- White space up to the end. -/
theorem eof_okEx (f : FlagsEx) {r : Reader} (hr : Ws r.rest) (hl : r.last ≠ .eof) (he : r.err = .ok) :
    ∃ r', validUntilEofEx f r = .ok r' ∧ r'.rest = [] ∧ r'.err = .ok := by
  unfold validUntilEofEx
  by_cases h0 : r.rest = []
  · rw [if_pos (by simp [h0])]
    exact ⟨r, rfl, h0, he⟩
  · rw [if_neg (by simp [h0, hl]), eofLoopEx]
    obtain ⟨r', e, h1, h2⟩ := tok_eof hr
    obtain ⟨r2, e2, ah⟩ := nextTokenEx_of f e he (by simp) (by simp)
    have := ah.same (by simp)
    subst this
    rw [e2, ok_bind]
    exact ⟨r2, rfl, h1, h2.trans he⟩

/-- Texts of the grammar are accepted. -/
theorem documentEx_ok (f : FlagsEx) (hcond : Cond P Q R) {j : Json} {s : List Byte} (ht : Text P Q j s) (hlast : PlainLast s ∨ ∀ t w, w.null = false → R.num w t) {al : Alloc}
    (hm : al.size + 32 * s.length ≤ al.capacity + 32) :
    ∃ doc, makeDocumentEx f al s = .ok doc ∧ doc.err = .ok ∧ MeansBy R doc.root j := by
  obtain ⟨a, v, b, ha, hv, hb, rfl⟩ := ht
  obtain ⟨tok, r, z, e, hvt, ez, hz⟩ := root_okEx f hcond hv ha hb (al := al) (by
    by_cases h : b = []
    · right
      rcases hlast with hlast | hlast
      · left
        intro p c hp
        exact hlast (a ++ p) c (by rw [hp, h]; simp)
      · exact Or.inr hlast
    · exact Or.inl h) (by simp at hm; omega)
  rw [documentEx_eq f hvt e, ez, ok_bind, if_pos hz.rerr]
  obtain ⟨r', e', h1, h2⟩ := eof_okEx f (r := z.reader) (hz.rest.ws hb) (ends_not_eof hz.last) hz.rerr
  rw [e', ok_bind, show assert (decide (r'.rest = []) || decide (r'.err ≠ .ok)) = .ok () by rw [h1]; rfl, ok_bind, if_neg (by simp [h2])]
  exact ⟨_, rfl, hz.err, hz.val⟩

/-! ### C245: reading extended documents ends -/

/-- C245: reading a document with extensions ends, for every text, every set of flags and memory of every size. -/
theorem C245_ends (f : FlagsEx) (al : Alloc) (s : List Byte) : makeDocumentEx f al s ≠ .error .diverge := (makeDocumentEx_good f al s).1

/-- C245: the same for `jsonAllocateDocumentEx`. -/
theorem C245_allocated_ends (f : FlagsEx) (p : Int) (s : List Byte) : allocateDocumentEx f p s ≠ .error .diverge := C245_ends f _ s

/-- Every flag. -/
def allFlags : FlagsEx := ⟨⟨true, true, true, true, true, true, true⟩, true, true, true, true, true, true, true, true, true⟩

example : ∃ doc, allocateDocumentEx allFlags 4096 (ascii "{ a = [0x1F, 'x' 'y', NaN, r\"(z)\",], /* c */ b: +.5 } # end") = .ok doc ∧ doc.err = .ok := ⟨_, rfl, rfl⟩

/-! ### C246: flags leave JSON as it is -/

/-- C246: with every set of flags a JSON text is accepted, and the document has the structure of the text; names are shown as they are
written, strings can be read. The memory that `jsonAllocateDocumentEx` asks for always suffices. -/
theorem C246_structure (f : FlagsEx) (p : Int) (j : Json) (s : List Byte) (ht : Text Any Any j s) :
    ∃ doc, allocateDocumentEx f p s = .ok doc ∧ doc.err = .ok ∧
      MeansBy ⟨fun v _ => Readable v, fun v name => ∃ raw, Body raw name ∧ Shows v raw, fun v _ => v.null = false⟩ doc.root j :=
  documentEx_ok f (R := ⟨fun v _ => Readable v, fun v name => ∃ raw, Body raw name ∧ Shows v raw, fun v _ => v.null = false⟩) (al := ⟨p, 0, s.length * 32⟩)
    ⟨fun _ _ _ _ h _ => h, fun raw _ _ _ hb h => ⟨raw, hb, h⟩, fun _ _ h => h.1⟩ ht (Or.inr fun _ _ h => h) (by dsimp only; omega)

example : Text Any Any sampleJson sampleText := sample_text trivial trivial trivial

/-- C246: at most 32 bytes of memory are needed for each byte of the text. -/
theorem C246_memory (f : FlagsEx) (al : Alloc) (j : Json) (s : List Byte) (ht : Text Any Any j s) (hm : al.size + 32 * s.length ≤ al.capacity + 32) :
    ∃ doc, makeDocumentEx f al s = .ok doc ∧ doc.err = .ok ∧ SameShape doc.root j :=
  documentEx_ok f (R := ⟨fun v _ => Readable v, fun v _ => Readable v, fun v _ => v.null = false⟩)
    ⟨fun _ _ _ _ h _ => h, fun raw _ _ _ _ h => ⟨h.1, raw, h.2⟩, fun _ _ h => h.1⟩ ht (Or.inr fun _ _ h => h) hm

example : (⟨4096, 0, 1000⟩ : Alloc).size + 32 * sampleText.length ≤ (⟨4096, 0, 1000⟩ : Alloc).capacity + 32 := by decide

/-! ### C247: what the document holds -/

/-- C247, partial: missing are the contents of texts that end in a digit, of strings that end in an escape of two characters, and of names
with escapes, as for the reader without extensions (C67). For all others the document holds exactly what the text means, with every set of flags. -/
theorem C247_content_partial (f : FlagsEx) (p : Int) (j : Json) (s : List Byte) (ht : Text PlainEnd NoEscape j s) (hl : PlainLast s) :
    ∃ doc, allocateDocumentEx f p s = .ok doc ∧ doc.err = .ok ∧ Means doc.root j :=
  documentEx_ok f (al := ⟨p, 0, s.length * 32⟩)
    ⟨fun _ _ _ hp _ h => h hp, fun _ _ _ hq hb h => noEscape_text hq hb ▸ h, fun _ _ h => h⟩ ht (Or.inl hl) (by dsimp only; omega)

example : Text PlainEnd NoEscape sampleJson sampleText ∧ PlainLast sampleText := by
  refine ⟨sample_text sample_plainEnd (by decide) (by decide), ?_⟩
  intro p c h
  have h1 : sampleText.dropLast ++ [chr '}'] = sampleText := rfl
  obtain ⟨_, rfl⟩ := last_inj (h1.trans h)
  decide

/-- C247 fails: with no flag or all of them, `["\n"]` is read as an array with the letter `n`. -/
theorem C247_not_strings : Text Any Any (.arr [.str [0x0A]]) (ascii "[\"\\n\"]") ∧ ∀ f ∈ [({} : FlagsEx), allFlags],
    ∃ doc, allocateDocumentEx f 4096 (ascii "[\"\\n\"]") = .ok doc ∧ doc.err = .ok ∧ ¬ Means doc.root (.arr [.str [0x0A]]) := by
  refine ⟨C67_not_strings.1, ?_⟩
  intro f hf
  have e : allocateDocumentEx f 4096 (ascii "[\"\\n\"]") = .ok ⟨.array [.scalar .string ⟨false, [0x6E], 1⟩], .ok, 0, 0⟩ := by
    simp only [List.mem_cons, List.not_mem_nil, or_false] at hf
    rcases hf with rfl | rfl <;> rfl
  refine ⟨_, e, rfl, ?_⟩
  intro h
  cases h with
  | arr h =>
    cases h with
    | cons h _ =>
      generalize VType.string = t at h
      cases h with
      | str h => exact absurd h.2 (by decide)

/-- C247 fails: with no flag or all of them, a text of two digits is read as an empty number. -/
theorem C247_not_numbers : Text Any Any (.num (ascii "12")) (ascii "12") ∧ ∀ f ∈ [({} : FlagsEx), allFlags],
    ∃ doc t v, allocateDocumentEx f 4096 (ascii "12") = .ok doc ∧ doc.err = .ok ∧ doc.root = .scalar t v ∧ v.size = 0 := by
  refine ⟨C67_not_numbers.1, ?_⟩
  intro f hf
  simp only [List.mem_cons, List.not_mem_nil, or_false] at hf
  rcases hf with rfl | rfl <;> exact ⟨_, _, _, rfl, rfl, rfl, rfl⟩

/-! ### C248: what is accepted without extensions -/

/-- C248, partial: missing are texts with a token behind the root. What is accepted without extensions is JSON, and the document is the one of
`jsonMakeDocument`; or `jsonMakeDocument` refuses it because of a token that it does not expect. -/
theorem C248_json_partial (al : Alloc) (s : List Byte) (doc : Document) (h : makeDocumentEx { toFlags := strict } al s = .ok doc)
    (he : doc.err = .ok) : (IsJson s ∧ makeDocument strict al s = .ok doc) ∨ ∃ d, makeDocument strict al s = .ok d ∧ d.err = .unexpectedToken := by
  rcases makeDocumentEx_same strict al s doc h he with h | h
  · exact Or.inl ⟨document_json h he, h⟩
  · exact Or.inr h

/-- C248, partial: the same for every set of the flags that both readers know. -/
theorem C248_same_partial (f : Flags) (al : Alloc) (s : List Byte) (doc : Document) (h : makeDocumentEx { toFlags := f } al s = .ok doc)
    (he : doc.err = .ok) : makeDocument f al s = .ok doc ∨ ∃ d, makeDocument f al s = .ok d ∧ d.err = .unexpectedToken :=
  makeDocumentEx_same f al s doc h he

example : ∃ doc, allocateDocumentEx { toFlags := strict } 4096 sampleText = .ok doc ∧ doc.err = .ok := ⟨_, rfl, rfl⟩

/-- C248 fails: two strings, and a string behind an array, are accepted as one document without any extension. They are not JSON. -/
theorem C248_not_json : ∀ s ∈ [ascii "\"a\" \"b\"", ascii "[1]\"x\"", ascii "\"a\" ["],
    (∃ doc, allocateDocumentEx { toFlags := strict } 4096 s = .ok doc ∧ doc.err = .ok) ∧ ¬ IsJson s := by
  intro s hs
  have hn : ∀ s, (∃ d, allocateDocument strict 4096 s = .ok d ∧ d.err ≠ .ok) → ¬ IsJson s := by
    rintro s ⟨d, e, he⟩ hj
    obtain ⟨d', e', he'⟩ := (C65_accepted_iff_json 4096 s).2 hj
    rw [e] at e'
    injection e' with e'
    subst e'
    exact he he'
  simp only [List.mem_cons, List.not_mem_nil, or_false] at hs
  rcases hs with rfl | rfl | rfl <;> exact ⟨⟨_, rfl, rfl⟩, hn _ ⟨_, rfl, by decide⟩⟩

/-! ### C249: the memory of extended documents -/

/-- C249, partial: missing are the extensions, texts that end within the exponent of a number, and texts with several tokens behind the root, for
which an assertion fails. Without extensions nothing is read or written outside of the memory for all others. -/
theorem C249_plain_partial (al : Alloc) (s : List Byte) (h : ¬ CutNumber s) :
    (∃ doc, makeDocumentEx { toFlags := strict } al s = .ok doc) ∨ makeDocumentEx { toFlags := strict } al s = .error .assertion := by
  cases e : makeDocumentEx { toFlags := strict } al s with
  | ok doc => exact Or.inl ⟨doc, rfl⟩
  | error x =>
    by_cases hx : x = .assertion
    · subst hx
      exact Or.inr rfl
    · obtain ⟨d, hd⟩ := C68_safe_partial al s h
      rw [makeDocumentEx_fault strict al s x e hx] at hd
      cases hd

/-- C249, partial: with extensions, texts that are JSON are read without a fault, in memory of the size that is asked for. -/
theorem C249_json_partial (f : FlagsEx) (p : Int) (s : List Byte) (h : IsJson s) : ∃ doc, allocateDocumentEx f p s = .ok doc := by
  obtain ⟨j, ht⟩ := h
  obtain ⟨doc, e, _⟩ := C246_structure f p j s ht
  exact ⟨doc, e⟩

example : IsJson sampleText := ⟨sampleJson, sample_text trivial trivial trivial⟩

/-- C249 fails: a bracket in a block comment or in a raw string is counted, and more elements are written than were allocated. -/
theorem C249_not_inside : allocateDocumentEx { blockComments := true } 4096 (ascii "[[/*]]*/],1]") = .error .oob ∧
    allocateDocumentEx { pythonRaw := true } 4096 (ascii "[[r']]'],1]") = .error .oob ∧
    allocateDocumentEx { cppRaw := true } 4096 (ascii "[[R\"(\")]]\")\"],1]") = .error .oob := ⟨rfl, rfl, rfl⟩

/-- C249 fails: for three strings an assertion fails, without any extension. -/
theorem C249_not_asserted : allocateDocumentEx { toFlags := strict } 4096 (ascii "\"a\" \"b\" \"c\"") = .error .assertion := rfl

end Tm.Json
