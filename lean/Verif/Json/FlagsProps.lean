import Verif.Json.ExDocProps

/-! # The plain document reader with every set of its flags -/

namespace Tm.Json

open Tm Tm.Json.Spec

variable {P Q : List Byte → Prop} {R : Shown}

/-- A token that the extended tokenizer reads without extensions is the one of the plain tokenizer. -/
theorem nextToken_ofEx (f : Flags) {ctx : Ctx} {q r : Reader} {tok : Tok} (e : nextTokenEx { toFlags := f } ctx q = .ok (tok, r)) (h : tok ≠ .error) :
    nextToken f ctx q = .ok (tok, r) := by
  rcases nextTokenEx_sim f ctx q with e1 | e1 | ⟨x, e1, h1, _⟩
  · rw [← e1]; exact e
  · rw [e] at e1; cases e1
  · rw [e] at e1
    injection e1 with e1
    subst e1
    exact absurd h1 h

/-- White space up to the end. -/
theorem eof_okFlags (f : Flags) {r : Reader} (hr : Ws r.rest) (hl : r.last ≠ .eof) (he : r.err = .ok) :
    ∃ r', validUntilEof f r = .ok r' ∧ r'.rest = [] ∧ r'.err = .ok := by
  unfold validUntilEof
  by_cases h0 : r.rest = []
  · rw [if_pos (by simp [h0])]
    exact ⟨r, rfl, h0, he⟩
  · rw [if_neg (by simp [h0, hl]), eofLoop]
    obtain ⟨r', e, h1, h2⟩ := tok_eof hr
    obtain ⟨r2, e2, ah⟩ := nextTokenEx_of { toFlags := f } e he (by simp) (by simp)
    have := ah.same (by simp)
    subst this
    rw [nextToken_ofEx f e2 (by simp), ok_bind]
    exact ⟨r2, rfl, h1, h2.trans he⟩

/-- Texts of the grammar are accepted. -/
theorem document_okFlags (f : Flags) (hcond : Cond P Q R) {j : Json} {s : List Byte} (ht : Text P Q j s) (hlast : PlainLast s ∨ ∀ t w, w.null = false → R.num w t)
    {al : Alloc} (hm : al.size + 32 * s.length ≤ al.capacity + 32) :
    ∃ doc, makeDocument f al s = .ok doc ∧ doc.err = .ok ∧ MeansBy R doc.root j := by
  obtain ⟨a, v, b, ha, hv, hb, rfl⟩ := ht
  obtain ⟨tok, r, z, e, hvt, ez, hz⟩ := root_okEx { toFlags := f } hcond hv ha hb (al := al) (by
    by_cases h : b = []
    · right
      rcases hlast with hlast | hlast
      · left
        intro p c hp
        exact hlast (a ++ p) c (by rw [hp, h]; simp)
      · exact Or.inr hlast
    · exact Or.inl h) (by simp at hm; omega)
  have e1 := nextToken_ofEx f e (by rcases hvt with rfl | rfl | rfl <;> simp)
  have cont : ∀ isObj, readContainerEx { toFlags := f } isObj al r = .ok z → readContainer f isObj al r = .ok z := by
    intro isObj h
    rcases readContainerEx_sim f isObj al r with k | k | ⟨z', k, hz'⟩
    · rw [← k]; exact h
    · rw [h] at k; cases k
    · rw [h] at k
      injection k with k
      subst k
      exact absurd hz.rerr hz'
  obtain ⟨r', e', h1, h2⟩ := eof_okFlags f (r := z.reader) (hz.rest.ws hb) (ends_not_eof hz.last) hz.rerr
  have last : (do
      let r ← (if z.reader.err = .ok then validUntilEof f z.reader else .ok z.reader)
      assert (r.rest = [] || r.err ≠ .ok)
      if r.err ≠ .ok then .ok ⟨.scalar .null ⟨true, [], 0⟩, r.err, r.line, r.column⟩
      else .ok ⟨z.val, z.err, 0, 0⟩ : C Document) = .ok ⟨z.val, z.err, 0, 0⟩ := by
    rw [if_pos hz.rerr, e', ok_bind, show assert (decide (r'.rest = []) || decide (r'.err ≠ .ok)) = .ok () by rw [h1]; rfl, ok_bind, if_neg (by simp [h2])]
  refine ⟨⟨z.val, z.err, 0, 0⟩, ?_, hz.err, hz.val⟩
  unfold makeDocument readRootType
  rw [rootLoop, e1, ok_bind]
  rcases hvt with rfl | rfl | rfl
  · dsimp only
    rw [ok_bind]
    dsimp only
    rw [cont true (by rw [readContainerEx_eq]; exact ez), ok_bind]
    exact last
  · dsimp only
    rw [ok_bind]
    dsimp only
    rw [cont false (by rw [readContainerEx_eq]; exact ez), ok_bind]
    exact last
  · dsimp only
    rw [ok_bind]
    dsimp only
    unfold itemEx at ez
    dsimp only at ez
    rw [if_neg (by simp), if_pos rfl, readScalarEx_plain (nextLoop_kind _ e1)] at ez
    rw [ez, ok_bind]
    exact last

/-! ### C263: the flags of the plain reader leave JSON as it is -/

/-- C263: with every set of flags `jsonAllocateDocument` accepts a JSON text, and the document has the structure of the text; names are shown as they are
written, strings can be read. The memory that is asked for always suffices. -/
theorem C263_structure (f : Flags) (p : Int) (j : Json) (s : List Byte) (ht : Text Any Any j s) :
    ∃ doc, allocateDocument f p s = .ok doc ∧ doc.err = .ok ∧
      MeansBy ⟨fun v _ => Readable v, fun v name => ∃ raw, Body raw name ∧ Shows v raw, fun v _ => v.null = false⟩ doc.root j :=
  document_okFlags f (R := ⟨fun v _ => Readable v, fun v name => ∃ raw, Body raw name ∧ Shows v raw, fun v _ => v.null = false⟩) (al := ⟨p, 0, s.length * 32⟩)
    ⟨fun _ _ _ _ h _ => h, fun raw _ _ _ hb h => ⟨raw, hb, h⟩, fun _ _ h => h.1⟩ ht (Or.inr fun _ _ h => h) (by dsimp only; omega)

/-- Every flag of the plain reader. -/
def allPlain : Flags := ⟨true, true, true, true, true, true, true⟩

example : Text Any Any sampleJson sampleText ∧ ∃ doc, allocateDocument allPlain 4096 sampleText = .ok doc ∧ doc.err = .ok :=
  ⟨sample_text trivial trivial trivial, _, rfl, rfl⟩

/-- C263: at most 32 bytes of memory are needed for each byte of the text. -/
theorem C263_memory (f : Flags) (al : Alloc) (j : Json) (s : List Byte) (ht : Text Any Any j s) (hm : al.size + 32 * s.length ≤ al.capacity + 32) :
    ∃ doc, makeDocument f al s = .ok doc ∧ doc.err = .ok ∧ SameShape doc.root j :=
  document_okFlags f (R := ⟨fun v _ => Readable v, fun v _ => Readable v, fun v _ => v.null = false⟩)
    ⟨fun _ _ _ _ h _ => h, fun raw _ _ _ _ h => ⟨h.1, raw, h.2⟩, fun _ _ h => h.1⟩ ht (Or.inr fun _ _ h => h) hm

example : (⟨4096, 0, 1000⟩ : Alloc).size + 32 * sampleText.length ≤ (⟨4096, 0, 1000⟩ : Alloc).capacity + 32 := by decide

/-! ### C264: what the document holds -/

/-- C264, partial: missing are the contents of texts that end in a digit, of strings that end in an escape of two characters, and of names
with escapes, as without flags (C67). For all others the document holds exactly what the text means, with every set of flags. -/
theorem C264_content_partial (f : Flags) (p : Int) (j : Json) (s : List Byte) (ht : Text PlainEnd NoEscape j s) (hl : PlainLast s) :
    ∃ doc, allocateDocument f p s = .ok doc ∧ doc.err = .ok ∧ Means doc.root j :=
  document_okFlags f (al := ⟨p, 0, s.length * 32⟩)
    ⟨fun _ _ _ hp _ h => h hp, fun _ _ _ hq hb h => noEscape_text hq hb ▸ h, fun _ _ h => h⟩ ht (Or.inl hl) (by dsimp only; omega)

example : Text PlainEnd NoEscape sampleJson sampleText ∧ PlainLast sampleText := by
  refine ⟨sample_text sample_plainEnd (by decide) (by decide), ?_⟩
  intro p c h
  have h1 : sampleText.dropLast ++ [chr '}'] = sampleText := rfl
  obtain ⟨_, rfl⟩ := last_inj (h1.trans h)
  decide

/-- C264 fails: with every flag `["\n"]` is read as an array with the letter `n`. -/
theorem C264_not_strings : Text Any Any (.arr [.str [0x0A]]) (ascii "[\"\\n\"]") ∧
    ∃ doc, allocateDocument allPlain 4096 (ascii "[\"\\n\"]") = .ok doc ∧ doc.err = .ok ∧ ¬ Means doc.root (.arr [.str [0x0A]]) := by
  refine ⟨C67_not_strings.1, ?_⟩
  have e : allocateDocument allPlain 4096 (ascii "[\"\\n\"]") = .ok ⟨.array [.scalar .string ⟨false, [0x6E], 1⟩], .ok, 0, 0⟩ := rfl
  refine ⟨_, e, rfl, ?_⟩
  intro h
  cases h with
  | arr h =>
    cases h with
    | cons h _ =>
      generalize VType.string = t at h
      cases h with
      | str h => exact absurd h.2 (by decide)

end Tm.Json
