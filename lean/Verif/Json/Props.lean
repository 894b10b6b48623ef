import Verif.Json.BadLemmas
import Verif.Json.PoolLemmas

/-!
# Properties of JSON documents

`jsonAllocateDocument` and `jsonMakeDocument` with the flags `strict`, compared with the grammar of RFC 8259 in `Verif.Json.Spec`; and
termination, memory and strings with any flags.
-/

namespace Tm.Json

open Tm Spec

/-! ### Texts for examples -/

/-- `{"a": [1, "x\ny"], "b" : true }` -/
def sampleText : List Byte := ascii "{\"a\": [1, \"x\\ny\"], \"b\" : true }"

/-- What it means. -/
def sampleJson : Json :=
  .obj [(ascii "a", .arr [.num (ascii "1"), .str [0x78, 0x0A, 0x79]]), (ascii "b", .bool true)]

theorem sample_text {P Q : List Byte → Prop} (hp : P (ascii "x\\ny")) (ha : Q (ascii "a")) (hb : Q (ascii "b")) :
    Text P Q sampleJson sampleText := by
  have plain : ∀ b : Byte, 0x20 ≤ b.toNat → b ≠ chr '"' → b ≠ chr '\\' → Body [b] [b] := fun b h1 h2 h3 => .plain h1 h2 h3 .nil
  have one : Value P Q (.num (ascii "1")) (ascii "1") :=
    Value.num (m := []) (i := ascii "1") (f := []) (e := []) ⟨Or.inl rfl, Or.inr ⟨⟨by decide, by decide⟩, by decide⟩, Or.inl rfl, Or.inl rfl⟩
  have str : Value P Q (.str [0x78, 0x0A, 0x79]) (quoted (ascii "x\\ny")) :=
    Value.str (Body.plain (b := 0x78) (by decide) (by decide) (by decide) (Body.short (e := chr 'n') (b := 0x0A) (by decide)
      (plain 0x79 (by decide) (by decide) (by decide)))) hp
  have arr : Value P Q (.arr [.num (ascii "1"), .str [0x78, 0x0A, 0x79]]) (ascii "[1, \"x\\ny\"]") :=
    Value.arr (a := []) (b := []) (by decide) one (MoreValues.cons (a := []) (b := ascii " ") (by decide) (by decide) str .nil) (by decide)
  refine ⟨[], sampleText, [], by decide, ?_, by decide, by simp⟩
  exact Value.obj (a := []) (b := ascii " ") (by decide)
    (Member.mk (raw := ascii "a") (name := ascii "a") (a := []) (b := ascii " ") (plain _ (by decide) (by decide) (by decide)) ha (by decide) (by decide) arr)
    (MoreMembers.cons (a := []) (b := ascii " ") (by decide) (by decide)
      (Member.mk (raw := ascii "b") (name := ascii "b") (a := ascii " ") (b := ascii " ") (plain _ (by decide) (by decide) (by decide)) hb (by decide) (by decide)
        (.bool true)) .nil) (by decide)

theorem sample_plainEnd : PlainEnd (ascii "x\\ny") := by
  rintro ⟨p, t, e, _, h⟩
  have h2 : (([0x78, 0x5C] : List Byte) ++ [0x6E]) ++ [0x79] = (p ++ [chr '\\']) ++ [e] := by rw [List.append_assoc p]; exact h
  obtain ⟨h3, _⟩ := last_inj h2
  obtain ⟨_, h4⟩ := last_inj h3
  exact absurd h4 (by decide)

/-! ### C65 -/

/-- C65: `jsonAllocateDocument` without extensions reports success exactly for the texts of the grammar. -/
theorem C65_accepted_iff_json (p : Int) (s : List Byte) :
    (∃ doc, allocateDocument strict p s = .ok doc ∧ doc.err = .ok) ↔ IsJson s := by
  constructor
  · rintro ⟨doc, e, he⟩
    exact document_json e he
  · rintro ⟨j, ht⟩
    obtain ⟨doc, e, he, _⟩ := document_ok (R := ⟨fun _ _ => True, fun _ _ => True, fun _ _ => True⟩) (al := ⟨p, 0, s.length * 32⟩)
      ⟨fun _ _ _ _ _ _ => trivial, fun _ _ _ _ _ _ => trivial, fun _ _ _ => trivial⟩ ht (Or.inr fun _ _ _ => trivial) (by dsimp only; omega)
    exact ⟨doc, e, he⟩

example : IsJson sampleText := ⟨_, sample_text trivial trivial trivial⟩
example : ∃ doc, allocateDocument strict 4096 (ascii "[1,]") = .ok doc ∧ doc.err ≠ .ok := ⟨_, rfl, by decide⟩

/-- C65: the same for `jsonMakeDocument` in memory of any size: what is accepted is a text of the grammar. -/
theorem C65_accepted_in_any_memory (al : Alloc) (s : List Byte) (doc : Document) (e : makeDocument strict al s = .ok doc)
    (he : doc.err = .ok) : IsJson s := document_json e he

example : ∃ doc, makeDocument strict ⟨4096, 0, 100⟩ (ascii "[1,2]") = .ok doc ∧ doc.err = .ok := ⟨_, rfl, rfl⟩

/-! ### C66 -/

/-- C66: the document has the structure of the text, names are shown as they are written in the text, and the memory that
`jsonAllocateDocument` asks for always suffices. Strings can be read. -/
theorem C66_structure (p : Int) (j : Json) (s : List Byte) (ht : Text Any Any j s) :
    ∃ doc, allocateDocument strict p s = .ok doc ∧ doc.err = .ok ∧
      MeansBy ⟨fun v _ => Readable v, fun v name => ∃ raw, Body raw name ∧ Shows v raw, fun v _ => v.null = false⟩ doc.root j :=
  document_ok (R := ⟨fun v _ => Readable v, fun v name => ∃ raw, Body raw name ∧ Shows v raw, fun v _ => v.null = false⟩) (al := ⟨p, 0, s.length * 32⟩)
    ⟨fun _ _ _ _ h _ => h, fun raw _ _ _ hb h => ⟨raw, hb, h⟩, fun _ _ h => h.1⟩ ht (Or.inr fun _ _ h => h) (by dsimp only; omega)

example : Text Any Any sampleJson sampleText := sample_text trivial trivial trivial

/-- C66: `jsonMakeDocument` needs at most 32 bytes of memory for each byte of the text. -/
theorem C66_memory (al : Alloc) (j : Json) (s : List Byte) (ht : Text Any Any j s) (hm : al.size + 32 * s.length ≤ al.capacity + 32) :
    ∃ doc, makeDocument strict al s = .ok doc ∧ doc.err = .ok ∧ SameShape doc.root j :=
  document_ok (R := ⟨fun v _ => Readable v, fun v _ => Readable v, fun v _ => v.null = false⟩)
    ⟨fun _ _ _ _ h _ => h, fun raw _ _ _ _ h => ⟨h.1, raw, h.2⟩, fun _ _ h => h.1⟩ ht (Or.inr fun _ _ h => h) hm

example : (⟨4096, 0, 1000⟩ : Alloc).size + 32 * sampleText.length ≤ (⟨4096, 0, 1000⟩ : Alloc).capacity + 32 := by decide

/-! ### C67 -/

/-- C67, partial: missing are texts that end in a digit, strings that end in an escape of two characters, and names with escapes. For all
others, the document holds exactly what the text means: numbers as they are written, with their type, and the characters of strings and names. -/
theorem C67_content_partial (p : Int) (j : Json) (s : List Byte) (ht : Text PlainEnd NoEscape j s) (hl : PlainLast s) :
    ∃ doc, allocateDocument strict p s = .ok doc ∧ doc.err = .ok ∧ Means doc.root j :=
  document_ok (al := ⟨p, 0, s.length * 32⟩)
    ⟨fun _ _ _ hp _ h => h hp, fun _ _ _ hq hb h => noEscape_text hq hb ▸ h, fun _ _ h => h⟩ ht (Or.inl hl) (by dsimp only; omega)

example : Text PlainEnd NoEscape sampleJson sampleText := sample_text sample_plainEnd (by decide) (by decide)
example : PlainLast sampleText := by
  intro p c h
  have : (ascii "{\"a\": [1, \"x\\ny\"], \"b\" : true ") ++ [chr '}'] = p ++ [c] := h
  obtain ⟨_, rfl⟩ := last_inj this
  decide

/-- C67, partial: numbers are as they are written in every text that does not end in a digit, whatever its strings are. -/
theorem C67_numbers_partial (p : Int) (j : Json) (s : List Byte) (ht : Text Any Any j s) (hl : PlainLast s) :
    ∃ doc, allocateDocument strict p s = .ok doc ∧ doc.err = .ok ∧
      MeansBy ⟨fun v _ => Readable v, fun v _ => Readable v, Shows⟩ doc.root j :=
  document_ok (R := ⟨fun v _ => Readable v, fun v _ => Readable v, Shows⟩) (al := ⟨p, 0, s.length * 32⟩)
    ⟨fun _ _ _ _ h _ => h, fun raw _ _ _ _ h => ⟨h.1, raw, h.2⟩, fun _ _ h => h⟩ ht (Or.inl hl) (by dsimp only; omega)

/-- C67, partial: strings are unescaped in every text whose strings do not end in an escape of two characters, whatever its names are. -/
theorem C67_strings_partial (p : Int) (j : Json) (s : List Byte) (ht : Text PlainEnd Any j s) :
    ∃ doc, allocateDocument strict p s = .ok doc ∧ doc.err = .ok ∧
      MeansBy ⟨Shows, fun v _ => Readable v, fun v _ => v.null = false⟩ doc.root j :=
  document_ok (R := ⟨Shows, fun v _ => Readable v, fun v _ => v.null = false⟩) (al := ⟨p, 0, s.length * 32⟩)
    ⟨fun _ _ _ hp _ h => h hp, fun raw _ _ _ _ h => ⟨h.1, raw, h.2⟩, fun _ _ h => h.1⟩ ht (Or.inr fun _ _ h => h) (by dsimp only; omega)

/-- C67 fails: the text `["\n"]` is an array with a newline; the document holds the letter `n`. -/
theorem C67_not_strings : Text Any Any (.arr [.str [0x0A]]) (ascii "[\"\\n\"]") ∧
    ∃ doc, allocateDocument strict 4096 (ascii "[\"\\n\"]") = .ok doc ∧ doc.err = .ok ∧ ¬ Means doc.root (.arr [.str [0x0A]]) := by
  refine ⟨⟨[], _, [], by decide, Value.arr (a := []) (b := []) (by decide) (Value.str (raw := ascii "\\n") (Body.short (e := chr 'n') (b := 0x0A)
    (by decide) .nil) trivial) .nil (by decide), by decide, rfl⟩,
    ⟨⟨.array [.scalar .string ⟨false, [0x6E], 1⟩], .ok, 0, 0⟩, rfl, rfl, ?_⟩⟩
  intro h
  cases h with
  | arr h =>
    cases h with
    | cons h _ =>
      generalize VType.string = t at h
      cases h with
      | str h => exact absurd h.2 (by decide)

/-- C67 fails: the text `12` is the number 12; the document has an empty number. -/
theorem C67_not_numbers : Text Any Any (.num (ascii "12")) (ascii "12") ∧
    ∃ doc, allocateDocument strict 4096 (ascii "12") = .ok doc ∧ doc.err = .ok ∧ ¬ Means doc.root (.num (ascii "12")) := by
  refine ⟨⟨[], _, [], by decide, Value.num (m := []) (i := ascii "12") (f := []) (e := []) ⟨Or.inl rfl, Or.inr ⟨⟨by decide, by decide⟩, by decide⟩,
    Or.inl rfl, Or.inl rfl⟩, by decide, rfl⟩, ⟨⟨.scalar .uint ⟨false, ascii "12", 0⟩, .ok, 0, 0⟩, rfl, rfl, ?_⟩⟩
  intro h
  generalize hj : Json.num (ascii "12") = j at h
  generalize VType.uint = t at h
  cases h with
  | null | bool | str => cases hj
  | num _ h =>
    injection hj with hj
    rw [← hj] at h
    exact absurd h.2 (by decide)

/-- C67 fails: the name in `{"\t":0}` is a tab; the document has a name of two characters. -/
theorem C67_not_names : Text Any Any (.obj [([0x09], .num (ascii "0"))]) (ascii "{\"\\t\":0}") ∧
    ∃ doc, allocateDocument strict 4096 (ascii "{\"\\t\":0}") = .ok doc ∧ doc.err = .ok ∧
      ¬ Means doc.root (.obj [([0x09], .num (ascii "0"))]) := by
  refine ⟨⟨[], _, [], by decide, Value.obj (a := []) (b := []) (by decide) (Member.mk (raw := ascii "\\t") (a := []) (b := [])
    (Body.short (e := chr 't') (b := 0x09) (by decide) .nil) trivial (by decide) (by decide) (Value.num (m := []) (i := ascii "0") (f := []) (e := [])
      ⟨Or.inl rfl, Or.inl rfl, Or.inl rfl, Or.inl rfl⟩)) .nil (by decide), by decide, rfl⟩,
    ⟨⟨.object [(⟨false, ascii "\\t\":0}", 2⟩, .scalar .uint ⟨false, ascii "0}", 1⟩)], .ok, 0, 0⟩, rfl, rfl, ?_⟩⟩
  intro h
  cases h with
  | obj h _ =>
    cases h with
    | cons h _ => exact absurd h.2 (by decide)

/-! ### C68 -/

/-- C68, partial: missing are texts that end within the exponent of a number. For all others, in memory of any size, the program neither reads nor
writes outside of its memory, no assertion fails, and it ends. -/
theorem C68_safe_partial (al : Alloc) (s : List Byte) (h : ¬ CutNumber s) : ∃ doc, makeDocument strict al s = .ok doc := by
  obtain ⟨doc, e, _⟩ := document_sound (al := al) (s := s) (by
    rintro ⟨p, d, t, hd, ⟨e, he, ht⟩, rfl⟩
    refine h ⟨p, d, e, t.drop 1, hd, he, ?_, ?_⟩
    · rcases ht with rfl | rfl | rfl
      · exact Or.inl rfl
      · exact Or.inr (Or.inl rfl)
      · exact Or.inr (Or.inr rfl)
    · rcases ht with rfl | rfl | rfl <;> rfl)
  exact ⟨doc, e⟩

example : ¬ CutNumber (ascii "[1, {") := by
  rintro ⟨p, d, e, sign, _, he, hs, h⟩
  have h1 : ascii "[1, " ++ [chr '{'] = ascii "[1, {" := rfl
  rw [← h1] at h
  rcases hs with rfl | rfl | rfl
  · have h2 : ascii "[1, " ++ [chr '{'] = (p ++ [d]) ++ [e] := by rw [h]; simp
    obtain ⟨_, rfl⟩ := last_inj h2
    rcases he with he | he <;> exact absurd he (by decide)
  · have h2 : ascii "[1, " ++ [chr '{'] = (p ++ [d, e]) ++ [chr '+'] := by rw [h]; simp
    exact absurd (last_inj h2).2 (by decide)
  · have h2 : ascii "[1, " ++ [chr '{'] = (p ++ [d, e]) ++ [chr '-'] := by rw [h]; simp
    exact absurd (last_inj h2).2 (by decide)

/-- C68 fails: for the text `1e` the program reads behind the end of the text, at every address of the memory. -/
theorem C68_not_safe (p : Int) : allocateDocument strict p (ascii "1e") = .error .oob := rfl

/-- C68 fails with comments: a bracket in a comment is counted, and more elements are written than were allocated. -/
theorem C68_not_safe_comments : allocateDocument { strict with comments := true } 4096 (ascii "[{//}]\n},1]") = .error .oob := by
  rfl

/-- C68 fails with strings in single quotation marks: a bracket in such a string is counted, and more elements are written than were allocated. -/
theorem C68_not_safe_single_quotes : allocateDocument { strict with singleQuoted := true } 4096 (ascii "[{'a':'}]'},1]") = .error .oob := by
  rfl

/-- C68 fails with comments: elements are reported that were never written. -/
theorem C68_not_written : ∃ doc, allocateDocument { strict with comments := true } 4096 (ascii "[{//},1,2]\n}]") = .ok doc ∧ doc.err = .ok ∧
    doc.root = .array [.object [], .junk, .junk] := ⟨_, rfl, rfl, rfl⟩

/-- C68 fails with comments: the size of a number at the end of the text is that of the comment before it, and reading it leaves the text. -/
theorem C68_not_readable : ∃ doc v, allocateDocument { strict with comments := true } 4096 (ascii "//aaaaaaaaaa\n12") = .ok doc ∧ doc.err = .ok ∧
    doc.root = .scalar .uint v ∧ v.text = .error .oob := ⟨_, _, rfl, rfl, rfl, rfl⟩

/-! ### C69 -/

/-- C69: reading a document ends, for every text, memory and set of flags. -/
theorem C69_document_ends (f : Flags) (al : Alloc) (s : List Byte) : makeDocument f al s ≠ .error .diverge := (makeDocument_good f al s).1

/-- C69: every token takes at least one byte of the text, so that reading tokens ends. The end of the text is not reported inside of brackets. -/
theorem C69_tokens_end (f : Flags) (ctx : Ctx) (r r' : Reader) (tok : Tok) (h : nextToken f ctx r = .ok (tok, r')) :
    tok = .error ∨ (tok = .eof ∧ ctx = .null) ∨ r'.rest.length < r.rest.length := by
  rcases ((nextToken_good f ctx r).2 _ h).2 with h | h | h
  · exact Or.inl h
  · exact Or.inr (Or.inl h)
  · exact Or.inr (Or.inr h.1)

/-- C69: the same for skipping a value: it ends, for every text and set of flags. -/
theorem C69_skipping_ends (f : Flags) (ctx : Ctx) (r : Reader) : skipCurrent f ctx r ≠ .error .diverge := (skipCurrent_good f ctx r).1

example : ∃ r' tok, nextToken { strict with comments := true } .null (makeReader (ascii "// x\n[1]")) = .ok (tok, r') ∧ tok = .comment :=
  ⟨_, _, rfl, rfl⟩

/-! ### C70 -/

/-- C70, partial: missing are strings that end in an escape of two characters, and buffers shorter than the escaped string. Otherwise the buffer
holds the characters that the string stands for. -/
theorem C70_unescape_partial (raw text : List Byte) (hb : Body raw text) (hp : PlainEnd raw) (size : Nat) (hs : raw.length ≤ size) :
    copyUnescaped raw size = .ok text := by
  obtain ⟨res, e, _, h⟩ := copyUnescaped_ok hb hs
  rw [e, h hp]

example : Body (ascii "x\\ny") [0x78, 0x0A, 0x79] :=
  Body.plain (b := 0x78) (by decide) (by decide) (by decide) (Body.short (e := chr 'n') (b := 0x0A) (by decide) (.plain (by decide) (by decide) (by decide) .nil))
example : PlainEnd (ascii "x\\ny") := sample_plainEnd

/-- C70, partial: any bytes are copied without writing outside of a buffer that is as large as the string. Missing are smaller buffers. -/
theorem C70_inside_the_buffer_partial (str : List Byte) (size : Nat) (hs : str.length ≤ size) :
    ∃ res, copyUnescaped str size = .ok res ∧ res.length ≤ str.length := copyUnescaped_safe hs

/-- C70 fails: the last escape of a string is not replaced. -/
theorem C70_not_last_escape : Body (ascii "ab\\n") [0x61, 0x62, 0x0A] ∧ copyUnescaped (ascii "ab\\n") 100 = .ok (ascii "abn") :=
  ⟨Body.plain (b := 0x61) (by decide) (by decide) (by decide) (Body.plain (b := 0x62) (by decide) (by decide) (by decide)
    (Body.short (e := chr 'n') (b := 0x0A) (by decide) .nil)), rfl⟩

/-- C70 fails: with a buffer of one byte, this string of escapes is written behind the buffer. -/
theorem C70_not_inside_the_buffer : copyUnescaped (ascii "\\n\\n\\n") 1 = .error .oob := rfl

/-! ### C71 -/

/-- C71: the blocks that `jsonAllocate` and `jsonAllocateUnescapedString` hand out, in any order, lie inside of the memory of the pool, have the
alignment asked for, and do not overlap. -/
theorem C71_blocks (p : Int) (capacity : Nat) (ops : List PoolOp) (h : ∀ op ∈ ops, op.Allowed) :
    ∃ (bs : List Block) (a : Alloc), poolRun ⟨p, 0, capacity⟩ ops = .ok (bs, a) ∧
      (∀ b ∈ bs, (b.alignment : Int) ∣ b.addr ∧ p ≤ b.addr ∧ b.addr + b.size ≤ p + capacity) ∧
      bs.Pairwise (fun (b c : Block) => b.addr + b.size ≤ c.addr ∨ c.addr + c.size ≤ b.addr) := by
  obtain ⟨bs, a, e, h1, h2⟩ := pool_run ops ⟨p, 0, capacity⟩ p h (Int.le_refl _)
  exact ⟨bs, a, e, fun b hb => by have := h1 b hb; exact ⟨this.1, by simpa using this.2.1, this.2.2⟩, h2⟩

example : ∀ op ∈ [PoolOp.block 24 8, .string ⟨false, ascii "x\\ny", 4⟩, .block 8 8], op.Allowed := by
  simp only [List.forall_mem_cons]
  exact ⟨Nat.succ_pos _, ⟨_, rfl⟩, Nat.succ_pos _, by simp⟩

/-! ### C72 -/

/-- C72, partial: missing are strings with escapes. A string without escapes takes exactly its bytes from the pool. -/
theorem C72_given_back_partial (a : Alloc) (v : View) (text : List Byte) (ht : v.text = .ok text) (hn : NoEscape text) (hb : Body text text)
    (hm : a.size + text.length ≤ a.capacity) :
    ∃ w, allocateString a v = .ok (w, { a with size := a.size + text.length }) ∧ Shows w text := by
  have hp : PlainEnd text := by
    rintro ⟨p, t, e, _, h⟩
    exact hn (chr '\\') (by rw [h]; simp) rfl
  obtain ⟨res, e, _, h⟩ := copyUnescaped_ok hb (Nat.le_refl text.length)
  have hres := h hp
  subst hres
  unfold allocateString
  rw [ht, ok_bind]
  unfold allocate
  have h0 : (((1 : Nat) : Int) - (a.ptr + a.size) % ((1 : Nat) : Int)) % ((1 : Nat) : Int) = 0 := by omega
  dsimp only
  rw [h0, Int.toNat_zero, if_neg (by omega)]
  dsimp only
  rw [e, ok_bind]
  refine ⟨⟨false, res, res.length⟩, ?_, rfl, ?_⟩
  · simp
  · rw [View.text, if_pos (Nat.le_refl _), List.take_length]

example : Body (ascii "xy") (ascii "xy") := .plain (by decide) (by decide) (by decide) (.plain (by decide) (by decide) (by decide) .nil)

/-- C72 fails: a string of three characters that is written with four should leave five of eight bytes; only three are left. -/
theorem C72_not_given_back : ∃ w a, allocateString ⟨4096, 0, 8⟩ ⟨false, ascii "x\\ny", 4⟩ = .ok (w, a) ∧ w.size = 3 ∧ allocate a 4 1 = none ∧
    allocate a 3 1 = some (4100, ⟨4095, 8, 8⟩) := ⟨_, _, rfl, rfl, rfl, rfl⟩

/-! ### C73 -/

/-- C73, partial: missing is that too little memory is reported, which is false, see below. With 32 bytes for each byte of the text the result is complete;
with less, what is accepted is at least a text of the grammar. -/
theorem C73_memory_partial (al : Alloc) (s : List Byte) (doc : Document) (e : makeDocument strict al s = .ok doc) (he : doc.err = .ok) :
    ∃ j, Text Any Any j s ∧ (al.size + 32 * s.length ≤ al.capacity + 32 → SameShape doc.root j) := by
  obtain ⟨j, hj⟩ := document_json e he
  refine ⟨j, hj, fun hm => ?_⟩
  obtain ⟨doc', e', _, h⟩ := C66_memory al j s hj hm
  rw [e] at e'
  injection e' with e'
  exact e' ▸ h

example : ∃ doc, makeDocument strict ⟨4096, 0, 100⟩ (ascii "[1,2]") = .ok doc ∧ doc.err = .ok := ⟨_, rfl, rfl⟩

/-- C73 fails: without memory for the characters of a string, the string is null and success is reported. -/
theorem C73_not_reported : ∃ doc v, makeDocument strict ⟨4096, 0, 32⟩ (ascii "[\"a\"]") = .ok doc ∧ doc.err = .ok ∧
    doc.root = .array [.scalar .string v] ∧ v.null = true := ⟨_, _, rfl, rfl, rfl, rfl⟩

/-- C73 fails: without memory for the elements of an array, an unexpected token is reported. -/
theorem C73_not_out_of_memory : ∃ doc, makeDocument strict ⟨4096, 0, 31⟩ (ascii "[1]") = .ok doc ∧ doc.err = .unexpectedToken := ⟨_, rfl, rfl⟩

end Tm.Json
