import Verif.Uni.More

/-!
# Properties of the code point functions of `tm_unicode.h` (C32–C42, C57)

`utf8 c` and `utf16 c` (`Verif.Uni.Spec`) are the standard encodings of a scalar value, `encode utf8 cs` is the encoding of a text.
`splice buf p t` is `buf` with the cells from `p` on replaced by `t`.
-/

namespace Tm.Uni

open Tm.Num Tm.Str

/-! ## C32 UTF-8 encoding of one code point -/

/-- `tmu_utf8_encode` writes the standard encoding, and nothing else, when there is room, and returns its length. -/
theorem C32_encode (c : Nat) (hc : Scalar c) (buf : List Byte) (p len : Nat) (hp : p + len ≤ buf.length) (hl : (utf8 c).length ≤ len) :
    utf8Encode c buf p len = .ok ((utf8 c).length, splice buf p (utf8 c)) := by
  rw [utf8Encode_spec c hc buf p len hp, if_pos hl]

/-- Without enough room it writes nothing and returns the length. -/
theorem C32_encode_short (c : Nat) (hc : Scalar c) (buf : List Byte) (p len : Nat) (hp : p + len ≤ buf.length) (hl : len < (utf8 c).length) :
    utf8Encode c buf p len = .ok ((utf8 c).length, buf) := by
  rw [utf8Encode_spec c hc buf p len hp, if_neg (by omega)]

/-- `tmu_utf8_extract` of an encoding followed by anything returns the code point and consumes exactly the encoding. -/
theorem C32_extract (c : Nat) (hc : Scalar c) (t : List Byte) : utf8Extract (utf8 c ++ t) = .ok (some (c, t)) := utf8Extract_utf8 c hc t

/-- Extracting what was encoded. -/
theorem C32_round_trip (c : Nat) (hc : Scalar c) (buf : List Byte) (hl : (utf8 c).length ≤ buf.length) :
    ∃ n buf', utf8Encode c buf 0 buf.length = .ok (n, buf') ∧ 1 ≤ n ∧ n ≤ 4 ∧ buf'.length = buf.length ∧
      utf8Extract buf' = .ok (some (c, buf.drop n)) := by
  refine ⟨_, _, C32_encode c hc buf 0 buf.length (by omega) hl, utf8_pos c, utf8_le4 c, splice_length _ _ _ (by omega), ?_⟩
  rw [splice, List.take_zero, List.nil_append, Nat.zero_add]
  exact C32_extract c hc _

example : utf8Encode 0x20AC [1, 2, 3, 4] 0 4 = .ok (3, [0xE2, 0x82, 0xAC, 4]) := by decide
example : utf8Encode 0x20AC [1, 2, 3, 4] 0 2 = .ok (3, [1, 2, 3, 4]) := by decide
example : Scalar 0x20AC ∧ (utf8 0x20AC).length ≤ 4 ∧ utf8Extract [0xE2, 0x82, 0xAC, 4] = .ok (some (0x20AC, [4])) := by decide

/-! ## C33 UTF-16 encoding of one code point -/

/-- `tmu_utf16_encode` writes the standard encoding when there is room. -/
theorem C33_encode (c : Nat) (hc : Scalar c) (buf : List Unit16) (p len : Nat) (hp : p + len ≤ buf.length) (hl : (utf16 c).length ≤ len) :
    utf16Encode c buf p len = .ok ((utf16 c).length, splice buf p (utf16 c)) := by
  rw [utf16Encode_spec c hc buf p len hp, if_pos hl]

/-- Without enough room it writes nothing and returns the length. -/
theorem C33_encode_short (c : Nat) (hc : Scalar c) (buf : List Unit16) (p len : Nat) (hp : p + len ≤ buf.length) (hl : len < (utf16 c).length) :
    utf16Encode c buf p len = .ok ((utf16 c).length, buf) := by
  rw [utf16Encode_spec c hc buf p len hp, if_neg (by omega)]

/-- `tmu_utf16_extract` succeeds exactly on encodings of scalar values, which it consumes; in particular it rejects lone surrogates. It never
reads past the end. -/
theorem C33_extract (s : List Unit16) :
    (∀ c t, utf16Extract s = .ok (some (c, t)) ↔ Scalar c ∧ s = utf16 c ++ t) ∧
    (utf16Extract s = .ok none ↔ ¬ ∃ c t, Scalar c ∧ s = utf16 c ++ t) := by
  rcases utf16Extract_cases s with h | ⟨c, t, h, hc, rfl⟩
  · rw [h]
    have key : ∀ c t, Scalar c → s ≠ utf16 c ++ t := by
      rintro c t hc rfl
      rw [utf16Extract_utf16 c hc] at h; cases h
    refine ⟨fun c t => Iff.intro (fun h => by cases h) (fun h => absurd h.2 (key c t h.1)), ?_⟩
    simp only [true_iff]
    rintro ⟨c, t, hc, he⟩
    exact key c t hc he
  · rw [h]
    refine ⟨fun d u => Iff.intro (fun h => ?_) (fun h => ?_), Iff.intro (fun h => by cases h) (fun h => absurd ⟨c, t, hc, rfl⟩ h)⟩
    · injection h with h; injection h with h; injection h with h1 h2; subst h1 h2; exact ⟨hc, rfl⟩
    · obtain ⟨rfl, rfl⟩ := form16.uniq hc h.1 h.2; rfl

/-- Extracting what was encoded. -/
theorem C33_round_trip (c : Nat) (hc : Scalar c) (buf : List Unit16) (hl : (utf16 c).length ≤ buf.length) :
    ∃ n buf', utf16Encode c buf 0 buf.length = .ok (n, buf') ∧ buf'.length = buf.length ∧ utf16Extract buf' = .ok (some (c, buf.drop n)) := by
  refine ⟨_, _, C33_encode c hc buf 0 buf.length (by omega) hl, splice_length _ _ _ (by omega), ?_⟩
  rw [splice, List.take_zero, List.nil_append, Nat.zero_add]
  exact utf16Extract_utf16 c hc _

example : utf16Encode 0x1F600 [1, 2, 3] 0 3 = .ok (2, [0xD83D, 0xDE00, 3]) := by decide
example : utf16Extract [0xD83D, 0xDE00, 3] = .ok (some (0x1F600, [3])) ∧ utf16Extract [0xD83D, 3] = .ok none ∧
    utf16Extract [0xDE00, 3] = .ok none ∧ utf16Extract [0xD83D] = .ok none := by decide

/-! ## C34 Extraction and well-formedness -/

/-- `tmu_utf8_extract` never reads past the end and yields scalar values only; it succeeds on every well-formed character, so that a failure
means that no well-formed character starts there; and what it accepts in addition are overlong forms and sequences with a wrong
continuation byte.
What is missing for the full claim: that it rejects these (see `C34_not_overlong` and `C34_not_continuation`). -/
theorem C34_extract_partial (s : List Byte) :
    (utf8Extract s = .ok none ∧ ¬ ∃ c t, Scalar c ∧ s = utf8 c ++ t) ∨
    ∃ c p t, utf8Extract s = .ok (some (c, t)) ∧ Scalar c ∧ s = p ++ t ∧ 1 ≤ p.length ∧ p.length ≤ 4 ∧
      (p = utf8 c ∨ (utf8 c).length < p.length ∨ ∃ b ∈ p.tail, ¬ Continuation b) := by
  rcases utf8Extract_cases s with h | h
  · left
    refine ⟨h, ?_⟩
    rintro ⟨c, t, hc, rfl⟩
    rw [utf8Extract_utf8 c hc] at h; cases h
  · exact Or.inr h

/-- The overlong two byte form of U+0000 is accepted. -/
theorem C34_not_overlong : utf8Extract [0xC0, 0x80] = .ok (some (0, [])) ∧ ¬ WellFormed utf8 [0xC0, 0x80] := by
  refine ⟨by decide, ?_⟩
  rintro ⟨cs, hcs, he⟩
  cases cs with
  | nil => cases he
  | cons c cs =>
    rw [encode_cons] at he
    have h := utf8Extract_utf8 c (scalars_cons.1 hcs).1 (encode utf8 cs)
    rw [← he, show utf8Extract [0xC0, 0x80] = .ok (some (0, [])) by decide] at h
    injection h with h; injection h with h; injection h with h1 h2
    rw [← h2, ← h1] at he
    exact absurd he (by decide)

/-- A lead byte followed by two arbitrary bytes is accepted. -/
theorem C34_not_continuation : utf8Extract [0xE2, 0x41, 0x42] = .ok (some (0x2042, [])) ∧ utf8 0x2042 ≠ [0xE2, 0x41, 0x42] := by decide

example : utf8Extract [0xE2, 0x82] = .ok none ∧ utf8Extract [0xFF, 0x41] = .ok none ∧ utf8Extract [] = .ok none := by decide

/-! ## C35 Valid range -/

/-- `tmu_utf8_valid_range` returns the length of the longest well-formed prefix and never reads past the end. -/
theorem C35_utf8 (s : List Byte) : ∃ n, utf8ValidRange s = .ok n ∧ LongestWellFormed utf8 s n := utf8ValidRange_spec s

/-- `tmu_utf16_valid_range` likewise. -/
theorem C35_utf16 (s : List Unit16) : ∃ n, utf16ValidRange s = .ok n ∧ LongestWellFormed utf16 s n := utf16ValidRange_spec s

/-- In particular a string is well-formed exactly when its valid range is all of it. -/
theorem C35_utf8_iff (s : List Byte) : utf8ValidRange s = .ok s.length ↔ WellFormed utf8 s := by
  obtain ⟨n, h1, h2⟩ := utf8ValidRange_spec s
  rw [h1]
  constructor
  · intro h; injection h with h; subst h; simpa using h2.2.1
  · intro h; rw [lwf_unique h2 (lwf_self h)]

/-- The same for UTF-16. -/
theorem C35_utf16_iff (s : List Unit16) : utf16ValidRange s = .ok s.length ↔ WellFormed utf16 s := by
  obtain ⟨n, h1, h2⟩ := utf16ValidRange_spec s
  rw [h1]
  constructor
  · intro h; injection h with h; subst h; simpa using h2.2.1
  · intro h; rw [lwf_unique h2 (lwf_self h)]

example : utf8ValidRange [0x41, 0xE2, 0x82, 0xAC, 0xC0, 0x80] = .ok 4 ∧ utf8ValidRange [0xED, 0xA0, 0x80] = .ok 0 ∧
    utf8ValidRange [0xF4, 0x90, 0x80, 0x80] = .ok 0 ∧ utf16ValidRange [0x41, 0xD83D, 0xDE00, 0xDE00] = .ok 3 := by decide

/-! ## C36 Truncated copy -/

/-- `tmu_utf8_copy_truncated` of a well-formed string copies the longest well-formed prefix that fits, leaves the rest of the buffer as it is,
and returns its length. -/
theorem C36_copy_truncated (str out : List Byte) (h : WellFormed utf8 str) :
    ∃ n, copyTruncated str out = .ok (n, splice out 0 (str.take n)) ∧ n ≤ out.length ∧ n ≤ str.length ∧ WellFormed utf8 (str.take n) ∧
      ∀ m ≤ out.length, m ≤ str.length → WellFormed utf8 (str.take m) → m ≤ n := by
  obtain ⟨cs, hcs, he⟩ := h
  obtain ⟨n, h1, h2, h3, h4⟩ := copyTruncated_eq str out cs hcs he
  rw [List.length_take] at h2
  refine ⟨n, h1, by omega, by omega, by rwa [List.take_take, Nat.min_eq_left (by omega)] at h3, ?_⟩
  intro m hm hm' hw
  exact h4 m (by rw [List.length_take]; omega) (by rwa [List.take_take, Nat.min_eq_left hm])

example : copyTruncated [0x41, 0xE2, 0x82, 0xAC, 0x42] [0, 0, 0] = .ok (1, [0x41, 0, 0]) ∧
    copyTruncated [0x41, 0xE2, 0x82, 0xAC, 0x42] [0, 0, 0, 0] = .ok (4, [0x41, 0xE2, 0x82, 0xAC]) := by decide
example : WellFormed utf8 [0x41, 0xE2, 0x82, 0xAC, 0x42] := ⟨[0x41, 0x20AC, 0x42], by unfold Scalars; decide, by decide⟩

/-! ## C37 Transcoding well-formed text -/

/-- The modes in which the transcoders are defined: a replacement must not be empty. -/
def ModeOk {β : Type} (v : Validate) (rep : List β) : Prop := v = .replace → rep ≠ []

theorem modeOk_assert {β : Type} {v : Validate} {rep : List β} (h : ModeOk v rep) : assert (v ≠ .replace || rep.length > 0) = .ok () := by
  apply assert_ok
  by_cases hv : v = .replace
  · have := h hv
    have : 0 < rep.length := List.length_pos_iff.2 this
    simp [hv, this]
  · simp [hv]

theorem utf8_zero : utf8 0 = [0] := rfl

theorem utf16_zero : utf16 0 = [0] := rfl

theorem utf8FromUtf16Ex_reads {s : List Unit16} {cs : List Nat} {inv skip : Bool} (hr : Reads utf16Extract skip s cs inv) (v : Validate)
    (hv : skip = true → v = .skip) (rep : List Byte) (hm : ModeOk v rep) (nul : Bool) (out : List Byte) (fuel : Nat) (hf : s.length ≤ fuel) :
    ((encode utf8 cs ++ terminator utf8 nul).length ≤ out.length →
      utf8FromUtf16Ex fuel s v rep nul out = .ok (⟨(encode utf8 cs).length, .ok, inv⟩, splice out 0 (encode utf8 cs ++ terminator utf8 nul))) ∧
    (out.length < (encode utf8 cs ++ terminator utf8 nul).length →
      ∃ out', utf8FromUtf16Ex fuel s v rep nul out = .ok (⟨(encode utf8 cs ++ terminator utf8 nul).length, .erange, inv⟩, out') ∧
        out'.length = out.length) := by
  obtain ⟨st, h1, h2⟩ := transLoop_reads enc8 form8 v rep hv hr fuel [] false _ hf (after_start out)
  rw [List.nil_append, Bool.false_or] at h2
  have h3 := transEnd_spec enc8 form8 nul h2
  have e : utf8FromUtf16Ex fuel s v rep nul out = transEnd utf8Encode nul st := by
    rw [utf8FromUtf16Ex, modeOk_assert hm, ok_bind, h1, ok_bind]
  rw [e]; exact h3

theorem utf16FromUtf8Ex_reads {s : List Byte} {cs : List Nat} {inv skip : Bool} (hr : Reads utf8Extract skip s cs inv) (v : Validate)
    (hv : skip = true → v = .skip) (rep : List Unit16) (hm : ModeOk v rep) (nul : Bool) (out : List Unit16) (fuel : Nat) (hf : s.length ≤ fuel) :
    ((encode utf16 cs ++ terminator utf16 nul).length ≤ out.length →
      utf16FromUtf8Ex fuel s v rep nul out = .ok (⟨(encode utf16 cs).length, .ok, inv⟩, splice out 0 (encode utf16 cs ++ terminator utf16 nul))) ∧
    (out.length < (encode utf16 cs ++ terminator utf16 nul).length →
      ∃ out', utf16FromUtf8Ex fuel s v rep nul out = .ok (⟨(encode utf16 cs ++ terminator utf16 nul).length, .erange, inv⟩, out') ∧
        out'.length = out.length) := by
  obtain ⟨st, h1, h2⟩ := transLoop_reads enc16 form16 v rep hv hr fuel [] false _ hf (after_start out)
  rw [List.nil_append, Bool.false_or] at h2
  have h3 := transEnd_spec enc16 form16 nul h2
  have e : utf16FromUtf8Ex fuel s v rep nul out = transEnd utf16Encode nul st := by
    rw [utf16FromUtf8Ex, modeOk_assert hm, ok_bind, h1, ok_bind]
  rw [e]; exact h3

/-- Transcoding well-formed UTF-16 yields the UTF-8 encoding of the same text, in every validation mode, with a terminator if asked for. -/
theorem C37_utf8_from_utf16 (cs : List Nat) (hcs : Scalars cs) (v : Validate) (rep : List Byte) (hm : ModeOk v rep) (nul : Bool) (out : List Byte)
    (fuel : Nat) (hf : (encode utf16 cs).length ≤ fuel) (hl : (encode utf8 cs).length + (if nul then 1 else 0) ≤ out.length) :
    utf8FromUtf16Ex fuel (encode utf16 cs) v rep nul out =
      .ok (⟨(encode utf8 cs).length, .ok, false⟩, splice out 0 (encode utf8 cs ++ if nul then [0] else [])) := by
  have := (utf8FromUtf16Ex_reads (reads_encode ext16 form16 false cs hcs) v (by simp) rep hm nul out fuel hf).1
  cases nul <;> simp only [terminator] at this <;> exact this (by simpa [utf8_zero, utf16_zero] using hl)

/-- Transcoding well-formed UTF-8 yields the UTF-16 encoding of the same text. -/
theorem C37_utf16_from_utf8 (cs : List Nat) (hcs : Scalars cs) (v : Validate) (rep : List Unit16) (hm : ModeOk v rep) (nul : Bool) (out : List Unit16)
    (fuel : Nat) (hf : (encode utf8 cs).length ≤ fuel) (hl : (encode utf16 cs).length + (if nul then 1 else 0) ≤ out.length) :
    utf16FromUtf8Ex fuel (encode utf8 cs) v rep nul out =
      .ok (⟨(encode utf16 cs).length, .ok, false⟩, splice out 0 (encode utf16 cs ++ if nul then [0] else [])) := by
  have := (utf16FromUtf8Ex_reads (reads_encode ext8 form8 false cs hcs) v (by simp) rep hm nul out fuel hf).1
  cases nul <;> simp only [terminator] at this <;> exact this (by simpa [utf8_zero, utf16_zero] using hl)

/-- Converting UTF-8 to UTF-16 and back yields the original. -/
theorem C37_round_trip (s : List Byte) (h : WellFormed utf8 s) (out : List Unit16) (out' : List Byte) (h1 : s.length ≤ out.length)
    (h2 : s.length ≤ out'.length) :
    ∃ r o r' o', utf16FromUtf8 s out = .ok (r, o) ∧ r.ec = .ok ∧ utf8FromUtf16 (o.take r.size) out' = .ok (r', o') ∧ r'.ec = .ok ∧
      o'.take r'.size = s := by
  obtain ⟨cs, hcs, rfl⟩ := h
  have hlen : (encode utf16 cs).length ≤ (encode utf8 cs).length := by
    clear h1 h2 hcs
    induction cs with
    | nil => simp [encode]
    | cons c cs ih =>
      rw [encode_cons, encode_cons, List.length_append, List.length_append]
      have : (utf16 c).length ≤ (utf8 c).length := by
        by_cases h1 : c < 0x10000
        · rw [utf16_1 h1]; exact utf8_pos c
        · rw [utf16_2 (by omega), utf8_4 (by omega)]; simp
      omega
  have e1 := C37_utf16_from_utf8 cs hcs .error [] (fun h => by cases h) false out _ (Nat.le_refl _) (by simp; omega)
  have e3 : (splice out 0 (encode utf16 cs ++ [])).take (encode utf16 cs).length = encode utf16 cs := by simp [splice]
  have e2 := C37_utf8_from_utf16 cs hcs .error [] (fun h => by cases h) false out' _ (Nat.le_refl _) (by simp; omega)
  refine ⟨⟨(encode utf16 cs).length, .ok, false⟩, _, ⟨(encode utf8 cs).length, .ok, false⟩, splice out' 0 (encode utf8 cs ++ []), e1, rfl, ?_, rfl, ?_⟩
  · show utf8FromUtf16 ((splice out 0 (encode utf16 cs ++ [])).take (encode utf16 cs).length) out' = _
    rw [e3]; exact e2
  · simp [splice]

/-- And the other way round. -/
theorem C37_round_trip16 (s : List Unit16) (h : WellFormed utf16 s) (out : List Byte) (out' : List Unit16) (h1 : 3 * s.length ≤ out.length)
    (h2 : s.length ≤ out'.length) :
    ∃ r o r' o', utf8FromUtf16 s out = .ok (r, o) ∧ r.ec = .ok ∧ utf16FromUtf8 (o.take r.size) out' = .ok (r', o') ∧ r'.ec = .ok ∧
      o'.take r'.size = s := by
  obtain ⟨cs, hcs, rfl⟩ := h
  have hlen : (encode utf8 cs).length ≤ 3 * (encode utf16 cs).length := by
    clear h1 h2 hcs
    induction cs with
    | nil => simp [encode]
    | cons c cs ih =>
      rw [encode_cons, encode_cons, List.length_append, List.length_append]
      have : (utf8 c).length ≤ 3 * (utf16 c).length := by
        by_cases h1 : c < 0x10000
        · rw [utf16_1 h1, utf8]; split <;> [simp; (split <;> simp)]
        · rw [utf16_2 (by omega), utf8_4 (by omega)]; simp
      omega
  have e1 := C37_utf8_from_utf16 cs hcs .error [] (fun h => by cases h) false out _ (Nat.le_refl _) (by simp; omega)
  have e3 : (splice out 0 (encode utf8 cs ++ [])).take (encode utf8 cs).length = encode utf8 cs := by simp [splice]
  have e2 := C37_utf16_from_utf8 cs hcs .error [] (fun h => by cases h) false out' _ (Nat.le_refl _) (by simp; omega)
  refine ⟨⟨(encode utf8 cs).length, .ok, false⟩, _, ⟨(encode utf16 cs).length, .ok, false⟩, splice out' 0 (encode utf16 cs ++ []), e1, rfl, ?_, rfl, ?_⟩
  · show utf16FromUtf8 ((splice out 0 (encode utf8 cs ++ [])).take (encode utf8 cs).length) out' = _
    rw [e3]; exact e2
  · simp [splice]

theorem stuck_iff (s : List Unit16) : Stuck utf16Extract s → ¬ WellFormed utf16 s := by
  intro h
  induction h with
  | @here s hs h1 =>
    rintro ⟨cs, hcs, rfl⟩
    cases cs with
    | nil => exact hs rfl
    | cons c cs => rw [encode_cons, utf16Extract_utf16 c (scalars_cons.1 hcs).1] at h1; cases h1
  | @char s t c h1 _ hc _ ih =>
    rintro ⟨cs, hcs, rfl⟩
    cases cs with
    | nil => rw [encode_nil] at h1; cases h1
    | cons d cs =>
      rw [encode_cons, utf16Extract_utf16 d (scalars_cons.1 hcs).1] at h1
      injection h1 with h1; injection h1 with h1; injection h1 with h1 h2
      exact ih ⟨cs, (scalars_cons.1 hcs).2, h2.symm⟩

theorem reads_exact {s : List Unit16} {cs : List Nat} {inv : Bool} (h : Reads utf16Extract false s cs inv) : s = encode utf16 cs := by
  induction h with
  | nil => rfl
  | @char s t c cs inv h1 _ hc' _ ih =>
    rcases utf16Extract_cases s with h2 | ⟨d, u, h2, _, rfl⟩
    · rw [h2] at h1; cases h1
    · rw [h2] at h1
      injection h1 with h1; injection h1 with h1; injection h1 with h1 h2
      subst h1 h2
      rw [encode_cons, ← ih]
  | drop hs => cases hs

theorem stuck_of_ill (s : List Unit16) (h : ¬ WellFormed utf16 s) : Stuck utf16Extract s := by
  rcases reads_or_stuck ext16 s.length s (Nat.le_refl _) with ⟨cs, h1⟩ | h1
  · exact absurd ⟨cs, h1.scalars, reads_exact h1⟩ h
  · exact h1

/-- Ill-formed UTF-16 is reported: `tmu_utf8_from_utf16` returns `TM_EINVAL`, whatever the size of the buffer. -/
theorem C37_ill_formed_utf16 (s : List Unit16) (h : ¬ WellFormed utf16 s) (out : List Byte) :
    ∃ n out', utf8FromUtf16 s out = .ok (⟨n, .einval, true⟩, out') ∧ out'.length = out.length := by
  obtain ⟨st, h1, h2, h3, h4⟩ := transLoop_stuck enc8 form8 [] (stuck_of_ill s h) s.length [] false _ (Nat.le_refl _) (after_start out)
  refine ⟨st.res.size, st.buf, ?_, h4⟩
  rw [utf8FromUtf16, utf8FromUtf16Ex, modeOk_assert (by intro h; cases h), ok_bind, h1, ok_bind, transEnd, if_neg (by simp), ← h2, ← h3]

/-- Ill-formed UTF-8 need not be reported: an overlong form is transcoded silently. -/
theorem C37_not_ill_formed_utf8 : ¬ WellFormed utf8 [0xC0, 0x80] ∧ utf16FromUtf8 [0xC0, 0x80] [7] = .ok (⟨1, .ok, false⟩, [0]) :=
  ⟨C34_not_overlong.2, by decide⟩

example : utf8FromUtf16 [0x41, 0xD83D, 0xDE00] [0, 0, 0, 0, 0, 9] = .ok (⟨5, .ok, false⟩, [0x41, 0xF0, 0x9F, 0x98, 0x80, 9]) := by decide
example : utf16FromUtf8Ex 5 [0x41, 0xF0, 0x9F, 0x98, 0x80] .skip [] true [9, 9, 9, 9, 9] = .ok (⟨3, .ok, false⟩, [0x41, 0xD83D, 0xDE00, 0, 9]) := by
  decide

/-! ## C38 Required size -/

/-- For every input and mode (in the mode `replace` for well-formed input, see C39): either `tmu_utf8_from_utf16_ex` returns `TM_EINVAL` for every buffer; or there is a
text such that with a buffer in which it fits (with the terminator) it is written and its length returned, and with any smaller buffer
`TM_ERANGE` and exactly the number of bytes a sufficient buffer needs are returned. Nothing is written outside of the buffer. -/
theorem C38_utf8_from_utf16 (s : List Unit16) (v : Validate) (hv : v = .replace → WellFormed utf16 s) (rep : List Byte) (hm : ModeOk v rep) (nul : Bool) (fuel : Nat) (hf : s.length ≤ fuel) :
    (v = .error ∧ ∀ out, ∃ n out', utf8FromUtf16Ex fuel s v rep nul out = .ok (⟨n, .einval, true⟩, out') ∧ out'.length = out.length) ∨
    ∃ text inv, WellFormed utf8 text ∧ ∀ out : List Byte,
      (text.length + (if nul then 1 else 0) ≤ out.length →
        utf8FromUtf16Ex fuel s v rep nul out = .ok (⟨text.length, .ok, inv⟩, splice out 0 (text ++ if nul then [0] else []))) ∧
      (out.length < text.length + (if nul then 1 else 0) →
        ∃ out', utf8FromUtf16Ex fuel s v rep nul out = .ok (⟨text.length + (if nul then 1 else 0), .erange, inv⟩, out') ∧ out'.length = out.length) := by
  have key : ∀ {skip : Bool} {cs : List Nat} {inv : Bool}, Reads utf16Extract skip s cs inv → (skip = true → v = .skip) →
      ∃ text inv, WellFormed utf8 text ∧ ∀ out : List Byte,
      (text.length + (if nul then 1 else 0) ≤ out.length →
        utf8FromUtf16Ex fuel s v rep nul out = .ok (⟨text.length, .ok, inv⟩, splice out 0 (text ++ if nul then [0] else []))) ∧
      (out.length < text.length + (if nul then 1 else 0) →
        ∃ out', utf8FromUtf16Ex fuel s v rep nul out = .ok (⟨text.length + (if nul then 1 else 0), .erange, inv⟩, out') ∧ out'.length = out.length) := by
    intro skip cs inv hr hs
    refine ⟨encode utf8 cs, inv, ⟨cs, hr.scalars, rfl⟩, fun out => ?_⟩
    have := utf8FromUtf16Ex_reads hr v hs rep hm nul out fuel hf
    cases nul <;> simpa [terminator, utf8] using this
  cases v with
  | replace =>
    obtain ⟨cs, hcs, rfl⟩ := hv rfl
    exact Or.inr (key (reads_encode ext16 form16 false cs hcs) (by simp))
  | skip =>
    obtain ⟨cs, inv, hr⟩ := reads_skip ext16 s.length s (Nat.le_refl _)
    exact Or.inr (key hr (fun _ => rfl))
  | error =>
    rcases reads_or_stuck ext16 s.length s (Nat.le_refl _) with ⟨cs, hr⟩ | hr
    · exact Or.inr (key hr (fun h => by cases h))
    · left
      refine ⟨rfl, fun out => ?_⟩
      obtain ⟨st, h1, h2, h3, h4⟩ := transLoop_stuck enc8 form8 rep hr fuel [] false _ hf (after_start out)
      refine ⟨st.res.size, st.buf, ?_, h4⟩
      rw [utf8FromUtf16Ex, modeOk_assert hm, ok_bind, h1, ok_bind, transEnd, if_neg (by simp [h2]), ← h2, ← h3]

/-- In the mode `error` it is the ill-formed strings that are refused. -/
theorem C38_ill_formed_utf16 (s : List Unit16) (h : ¬ WellFormed utf16 s) (rep : List Byte) (nul : Bool) (out : List Byte) (fuel : Nat) (hf : s.length ≤ fuel) :
    ∃ n out', utf8FromUtf16Ex fuel s .error rep nul out = .ok (⟨n, .einval, true⟩, out') ∧ out'.length = out.length := by
  obtain ⟨st, h1, h2, h3, h4⟩ := transLoop_stuck enc8 form8 rep (stuck_of_ill s h) fuel [] false _ hf (after_start out)
  refine ⟨st.res.size, st.buf, ?_, h4⟩
  rw [utf8FromUtf16Ex, modeOk_assert (by intro h; cases h), ok_bind, h1, ok_bind, transEnd, if_neg (by simp [h2]), ← h2, ← h3]

/-- The same for `tmu_utf16_from_utf8_ex`. -/
theorem C38_utf16_from_utf8 (s : List Byte) (v : Validate) (hv : v = .replace → WellFormed utf8 s) (rep : List Unit16) (hm : ModeOk v rep) (nul : Bool) (fuel : Nat) (hf : s.length ≤ fuel) :
    (v = .error ∧ ∀ out, ∃ n out', utf16FromUtf8Ex fuel s v rep nul out = .ok (⟨n, .einval, true⟩, out') ∧ out'.length = out.length) ∨
    ∃ text inv, WellFormed utf16 text ∧ ∀ out : List Unit16,
      (text.length + (if nul then 1 else 0) ≤ out.length →
        utf16FromUtf8Ex fuel s v rep nul out = .ok (⟨text.length, .ok, inv⟩, splice out 0 (text ++ if nul then [0] else []))) ∧
      (out.length < text.length + (if nul then 1 else 0) →
        ∃ out', utf16FromUtf8Ex fuel s v rep nul out = .ok (⟨text.length + (if nul then 1 else 0), .erange, inv⟩, out') ∧ out'.length = out.length) := by
  have key : ∀ {skip : Bool} {cs : List Nat} {inv : Bool}, Reads utf8Extract skip s cs inv → (skip = true → v = .skip) →
      ∃ text inv, WellFormed utf16 text ∧ ∀ out : List Unit16,
      (text.length + (if nul then 1 else 0) ≤ out.length →
        utf16FromUtf8Ex fuel s v rep nul out = .ok (⟨text.length, .ok, inv⟩, splice out 0 (text ++ if nul then [0] else []))) ∧
      (out.length < text.length + (if nul then 1 else 0) →
        ∃ out', utf16FromUtf8Ex fuel s v rep nul out = .ok (⟨text.length + (if nul then 1 else 0), .erange, inv⟩, out') ∧ out'.length = out.length) := by
    intro skip cs inv hr hs
    refine ⟨encode utf16 cs, inv, ⟨cs, hr.scalars, rfl⟩, fun out => ?_⟩
    have := utf16FromUtf8Ex_reads hr v hs rep hm nul out fuel hf
    cases nul <;> simpa [terminator, utf16] using this
  cases v with
  | replace =>
    obtain ⟨cs, hcs, rfl⟩ := hv rfl
    exact Or.inr (key (reads_encode ext8 form8 false cs hcs) (by simp))
  | skip =>
    obtain ⟨cs, inv, hr⟩ := reads_skip ext8 s.length s (Nat.le_refl _)
    exact Or.inr (key hr (fun _ => rfl))
  | error =>
    rcases reads_or_stuck ext8 s.length s (Nat.le_refl _) with ⟨cs, hr⟩ | hr
    · exact Or.inr (key hr (fun h => by cases h))
    · left
      refine ⟨rfl, fun out => ?_⟩
      obtain ⟨st, h1, h2, h3, h4⟩ := transLoop_stuck enc16 form16 rep hr fuel [] false _ hf (after_start out)
      refine ⟨st.res.size, st.buf, ?_, h4⟩
      rw [utf16FromUtf8Ex, modeOk_assert hm, ok_bind, h1, ok_bind, transEnd, if_neg (by simp [h2]), ← h2, ← h3]

theorem append_fits {α : Type} {encode' : Nat → List α → Nat → Nat → C (Nat × List α)} {enc : Nat → List α} (he : EncSpec encode' enc)
    {c : Nat} (hc : Scalar c) (s : OutStream α) (hs : s.size ≤ s.data.length) :
    append encode' c s =
      if s.data.length < s.size + (enc c).length then .ok (false, ⟨s.data, s.data.length, s.necessary + (enc c).length, false⟩)
      else .ok (s.ok, ⟨splice s.data s.size (enc c), s.size + (enc c).length, s.necessary + (enc c).length, s.ok⟩) := by
  rw [append, assert_ok (b := decide (s.size ≤ s.data.length)) (by simpa using hs), ok_bind]
  dsimp only
  rw [he c hc _ _ _ (by omega), ok_bind]
  dsimp only
  by_cases h : s.data.length < s.size + (enc c).length
  · rw [if_pos (by omega), if_pos h, if_neg (by omega)]
  · rw [if_neg (by omega), if_neg h, if_pos (by omega)]

theorem appendAll_full {α : Type} {encode' : Nat → List α → Nat → Nat → C (Nat × List α)} {enc : Nat → List α} (he : EncSpec encode' enc) (hf : Form enc)
    (cs : List Nat) (hcs : Scalars cs) : ∀ (data : List α) (n : Nat),
      appendAll encode' cs ⟨data, data.length, n, false⟩ = .ok ⟨data, data.length, n + (encode enc cs).length, false⟩ := by
  induction cs with
  | nil => intro data n; simp [appendAll, encode_nil]
  | cons c cs ih =>
    intro data n
    obtain ⟨hc, hcs'⟩ := scalars_cons.1 hcs
    rw [appendAll, append_fits he hc _ (Nat.le_refl _)]
    have := hf.pos c
    dsimp only
    rw [if_pos (by omega), ok_bind]
    dsimp only
    rw [ih hcs', encode_cons, List.length_append, Nat.add_assoc]

theorem appendAll_spec {α : Type} {encode' : Nat → List α → Nat → Nat → C (Nat × List α)} {enc : Nat → List α} (he : EncSpec encode' enc) (hf : Form enc)
    (cs : List Nat) (hcs : Scalars cs) : ∀ (data : List α) (size n : Nat), size ≤ data.length →
      (size + (encode enc cs).length ≤ data.length →
        appendAll encode' cs ⟨data, size, n, true⟩ =
          .ok ⟨splice data size (encode enc cs), size + (encode enc cs).length, n + (encode enc cs).length, true⟩) ∧
      (data.length < size + (encode enc cs).length →
        ∃ data', appendAll encode' cs ⟨data, size, n, true⟩ = .ok ⟨data', data.length, n + (encode enc cs).length, false⟩ ∧
          data'.length = data.length ∧ data'.take size = data.take size) := by
  induction cs with
  | nil =>
    intro data size n hs
    rw [encode_nil]
    refine ⟨fun _ => by simp [appendAll, splice_nil], fun h => by simp at h; omega⟩
  | cons c cs ih =>
    intro data size n hs
    obtain ⟨hc, hcs'⟩ := scalars_cons.1 hcs
    rw [appendAll, append_fits he hc _ hs, encode_cons, List.length_append]
    dsimp only
    by_cases h : data.length < size + (enc c).length
    · rw [if_pos h, ok_bind]
      dsimp only
      refine ⟨fun h' => by omega, fun _ => ⟨data, ?_, rfl, rfl⟩⟩
      rw [appendAll_full he hf cs hcs', Nat.add_assoc]
    · rw [if_neg h, ok_bind]
      dsimp only
      have hl : (splice data size (enc c)).length = data.length := splice_length _ _ _ (by omega)
      have := ih hcs' (splice data size (enc c)) (size + (enc c).length) (n + (enc c).length) (by omega)
      rw [hl] at this
      obtain ⟨h1, h2⟩ := this
      constructor
      · intro h'
        rw [h1 (by omega), splice_splice _ _ _ _ (by omega), Nat.add_assoc, Nat.add_assoc]
      · intro h'
        obtain ⟨d, h3, h4, h5⟩ := h2 (by omega)
        refine ⟨d, by rw [h3, Nat.add_assoc], by rw [h4], ?_⟩
        have h6 := congrArg (List.take size) h5
        rw [List.take_take, List.take_take, Nat.min_eq_left (by omega)] at h6
        rw [h6]
        rw [splice, List.append_assoc, List.take_append_of_le_length (by rw [List.length_take]; omega), List.take_take, Nat.min_self]

/-- Appending a text to an output stream with `tmu_utf8_append`: `necessary` grows by exactly its length; if it fits it is written and the stream
stays good, otherwise the stream reports an error from then on and nothing before the old end is changed. -/
theorem C38_utf8_append (cs : List Nat) (hcs : Scalars cs) (data : List Byte) (size n : Nat) (hs : size ≤ data.length) :
    (size + (encode utf8 cs).length ≤ data.length →
      appendAll utf8Encode cs ⟨data, size, n, true⟩ =
        .ok ⟨splice data size (encode utf8 cs), size + (encode utf8 cs).length, n + (encode utf8 cs).length, true⟩) ∧
    (data.length < size + (encode utf8 cs).length →
      ∃ data', appendAll utf8Encode cs ⟨data, size, n, true⟩ = .ok ⟨data', data.length, n + (encode utf8 cs).length, false⟩ ∧
        data'.length = data.length ∧ data'.take size = data.take size) := appendAll_spec enc8 form8 cs hcs data size n hs

/-- The same for `tmu_utf16_append`. -/
theorem C38_utf16_append (cs : List Nat) (hcs : Scalars cs) (data : List Unit16) (size n : Nat) (hs : size ≤ data.length) :
    (size + (encode utf16 cs).length ≤ data.length →
      appendAll utf16Encode cs ⟨data, size, n, true⟩ =
        .ok ⟨splice data size (encode utf16 cs), size + (encode utf16 cs).length, n + (encode utf16 cs).length, true⟩) ∧
    (data.length < size + (encode utf16 cs).length →
      ∃ data', appendAll utf16Encode cs ⟨data, size, n, true⟩ = .ok ⟨data', data.length, n + (encode utf16 cs).length, false⟩ ∧
        data'.length = data.length ∧ data'.take size = data.take size) := appendAll_spec enc16 form16 cs hcs data size n hs

example : utf8FromUtf16Ex 3 [0x41, 0xD83D, 0xDE00] .error [] true [0, 0, 0] = .ok (⟨6, .erange, false⟩, [0x41, 0, 0]) := by decide
example : utf16FromUtf8Ex 2 [0x41, 0xFF] .error [] true [] = .ok (⟨1, .einval, true⟩, []) := by decide
example : appendAll utf8Encode [0x41, 0x20AC] ⟨[0, 0, 0, 0, 0], 1, 1, true⟩ = .ok ⟨[0, 0x41, 0xE2, 0x82, 0xAC], 5, 5, true⟩ := by decide

/-! ## C39 Termination -/

/-- In the modes `error` and `skip`, and in the mode `replace` as long as nothing needs to be replaced, the number of rounds is at most the length of the
input. (The outcomes are described by C37 and C38.)
What is missing for the full claim: the mode `replace` on other inputs, see `C39_not_terminating_utf16` and `C39_not_terminating_utf8`. -/
theorem C39_terminates_partial (s : List Unit16) (v : Validate) (rep : List Byte) (hm : ModeOk v rep) (hv : v = .replace → WellFormed utf16 s) (nul : Bool)
    (out : List Byte) (fuel : Nat) (hf : s.length ≤ fuel) : ∃ r, utf8FromUtf16Ex fuel s v rep nul out = .ok r := by
  rcases C38_utf8_from_utf16 s v hv rep hm nul fuel hf with ⟨_, h⟩ | ⟨text, inv, _, h⟩
  · obtain ⟨n, o, h1, _⟩ := h out; exact ⟨_, h1⟩
  · rcases Nat.lt_or_ge out.length (text.length + (if nul then 1 else 0)) with h1 | h1
    · obtain ⟨o, h2, _⟩ := (h out).2 h1; exact ⟨_, h2⟩
    · exact ⟨_, (h out).1 h1⟩

/-- The same for `tmu_utf16_from_utf8_ex`. -/
theorem C39_terminates_utf8_partial (s : List Byte) (v : Validate) (rep : List Unit16) (hm : ModeOk v rep) (hv : v = .replace → WellFormed utf8 s) (nul : Bool)
    (out : List Unit16) (fuel : Nat) (hf : s.length ≤ fuel) : ∃ r, utf16FromUtf8Ex fuel s v rep nul out = .ok r := by
  rcases C38_utf16_from_utf8 s v hv rep hm nul fuel hf with ⟨_, h⟩ | ⟨text, inv, _, h⟩
  · obtain ⟨n, o, h1, _⟩ := h out; exact ⟨_, h1⟩
  · rcases Nat.lt_or_ge out.length (text.length + (if nul then 1 else 0)) with h1 | h1
    · obtain ⟨o, h2, _⟩ := (h out).2 h1; exact ⟨_, h2⟩
    · exact ⟨_, (h out).1 h1⟩

/-- On every ill-formed UTF-16 string the mode `replace` does not terminate, whatever the buffer: no number of rounds is enough. -/
theorem C39_not_terminating_utf16 (s : List Unit16) (h : ¬ WellFormed utf16 s) (rep : List Byte) (hrep : rep ≠ []) (nul : Bool) (out : List Byte) :
    ∀ fuel, utf8FromUtf16Ex fuel s .replace rep nul out = .error .diverge := by
  intro fuel
  rw [utf8FromUtf16Ex, modeOk_assert (fun _ => hrep), ok_bind,
    transLoop_replace enc8 form8 rep (List.length_pos_iff.2 hrep) (stuck_of_ill s h) fuel [] false _ (after_start out)]
  rfl

/-- Neither does it on UTF-8 that ends in the middle of a character or contains a byte 0xFF after a well-formed text. -/
theorem C39_not_terminating_utf8 (cs : List Nat) (hcs : Scalars cs) (t : List Byte) (rep : List Unit16) (hrep : rep ≠ []) (nul : Bool) (out : List Unit16) :
    ∀ fuel, utf16FromUtf8Ex fuel (encode utf8 cs ++ 0xFF :: t) .replace rep nul out = .error .diverge := by
  intro fuel
  have hst : Stuck utf8Extract (encode utf8 cs ++ 0xFF :: t) := by
    clear hrep
    induction cs with
    | nil =>
      refine .here (by simp) ?_
      rw [encode_nil, List.nil_append, utf8Extract]
      rcases utf8Raw_cases (0xFF :: t) with h | ⟨a, t, h, h1⟩ | ⟨a, b, t, h, h1⟩ | ⟨a, b, d, t, h, h1⟩ | ⟨a, b, d, e, t, h, h1⟩
      · rw [h]; rfl
      all_goals
        injection h with h _
        rw [← h, show (0xFF : Byte).toNat = 255 from rfl] at h1
        omega
    | cons c cs ih =>
      obtain ⟨hc, hcs'⟩ := scalars_cons.1 hcs
      rw [encode_cons, List.append_assoc]
      exact .char (utf8Extract_utf8 c hc _) (by have := utf8_pos c; simp; omega) hc (ih hcs')
  rw [utf16FromUtf8Ex, modeOk_assert (fun _ => hrep), ok_bind,
    transLoop_replace enc16 form16 rep (List.length_pos_iff.2 hrep) hst fuel [] false _ (after_start out)]
  rfl

example : utf8FromUtf16Ex 9 [0x41, 0xDE00] .replace [0x3F] false [0, 0] = .error .diverge := by decide

/-! ## C40 Skipping invalid elements in place -/

/-- `tmu_utf8_skip_invalid` terminates, never writes, and keeps the longest well-formed prefix; in particular the result is well-formed, and a
well-formed string is kept as a whole.
What is missing for the full claim: that later well-formed parts are kept as well, see `C40_not_utf8`. -/
theorem C40_utf8_partial (s : List Byte) : ∃ n, utf8SkipInvalid s = .ok (n, s) ∧ LongestWellFormed utf8 s n :=
  skipLoop_spec form8 utf8ValidRange_spec s

/-- The same for `tmu_utf16_skip_invalid`. -/
theorem C40_utf16_partial (s : List Unit16) : ∃ n, utf16SkipInvalid s = .ok (n, s) ∧ LongestWellFormed utf16 s n :=
  skipLoop_spec form16 utf16ValidRange_spec s

/-- Everything behind the first invalid byte is lost: the whole text of an arbitrary well-formed string that follows a byte 0xFF. -/
theorem C40_not_utf8 (cs : List Nat) : utf8SkipInvalid (0xFF :: encode utf8 cs) = .ok (0, 0xFF :: encode utf8 cs) := by
  obtain ⟨n, h1, h2⟩ := C40_utf8_partial (0xFF :: encode utf8 cs)
  have : n = 0 := by
    refine lwf_of_not_starts ?_ h2
    rintro ⟨c, t, hc, he⟩
    rcases starts8_cases hc he with h | ⟨b, u, _, h⟩ | ⟨b, d, u, _, h⟩ | ⟨b, d, e, u, _, h⟩ <;>
      rw [show (0xFF : Byte).toNat = 255 from rfl] at h <;> omega
  rw [h1, this]

/-- The same for UTF-16 and a lone trailing surrogate. -/
theorem C40_not_utf16 (cs : List Nat) : utf16SkipInvalid (0xDC00 :: encode utf16 cs) = .ok (0, 0xDC00 :: encode utf16 cs) := by
  obtain ⟨n, h1, h2⟩ := C40_utf16_partial (0xDC00 :: encode utf16 cs)
  have : n = 0 := by
    refine lwf_of_not_starts ?_ h2
    rintro ⟨c, t, hc, he⟩
    rcases starts16_cases hc he with h | ⟨b, u, _, h⟩ <;>
      rw [show (0xDC00 : Unit16).toNat = 0xDC00 from rfl] at h <;> omega
  rw [h1, this]

example : utf8SkipInvalid [0x41, 0xFF, 0x42] = .ok (1, [0x41, 0xFF, 0x42]) ∧ utf8SkipInvalid [0x41, 0x42] = .ok (2, [0x41, 0x42]) := by decide

/-! ## C41 Comparison -/

/-- `tmu_utf8_compare` of two well-formed strings has the sign of the comparison of their code points. (`same` says that both start at the same
address; then one is a prefix of the other.) -/
theorem C41_compare (cs ds : List Nat) (hcs : Scalars cs) (hds : Scalars ds) (same : Bool)
    (hsame : same = true → encode utf8 cs <+: encode utf8 ds ∨ encode utf8 ds <+: encode utf8 cs) :
    ∃ d, utf8Compare same (encode utf8 cs) (encode utf8 ds) = .ok d ∧ (d < 0 ↔ cs < ds) ∧ (d = 0 ↔ cs = ds) ∧ (0 < d ↔ ds < cs) := by
  have key : ∀ d, Orders d cs ds → (d < 0 ↔ cs < ds) ∧ (d = 0 ↔ cs = ds) ∧ (0 < d ↔ ds < cs) := by
    rintro d (⟨h1, h2⟩ | ⟨h1, rfl⟩ | ⟨h1, h2⟩)
    · refine ⟨⟨fun _ => h2, fun _ => h1⟩, ⟨fun h => by omega, ?_⟩, ⟨fun h => by omega, fun h => absurd h2 (List.lt_asymm h)⟩⟩
      rintro rfl; exact absurd h2 (List.lt_irrefl _)
    · refine ⟨⟨fun h => by omega, fun h => absurd h (List.lt_irrefl _)⟩, ⟨fun _ => rfl, fun _ => h1⟩,
        ⟨fun h => by omega, fun h => absurd h (List.lt_irrefl _)⟩⟩
    · refine ⟨⟨fun h => by omega, fun h => absurd h2 (List.lt_asymm h)⟩, ⟨fun h => by omega, ?_⟩, ⟨fun _ => h2, fun _ => h1⟩⟩
      rintro rfl; exact absurd h2 (List.lt_irrefl _)
  obtain ⟨m, hm, ho⟩ := compare_order cs ds hcs hds
  rw [utf8Compare]
  by_cases h0 : (encode utf8 cs).length = 0 ∨ (encode utf8 ds).length = 0
  · rw [if_pos h0]
    refine ⟨_, rfl, key _ ?_⟩
    have hm0 : m = 0 := by
      rw [show min (encode utf8 cs).length (encode utf8 ds).length = 0 by omega, memcmp] at hm
      injection hm with hm; exact hm.symm
    subst hm0
    rw [if_neg (by simp), compareLen] at ho
    have e : (if (encode utf8 cs).length > (encode utf8 ds).length then (1 : Int) else if (encode utf8 cs).length < (encode utf8 ds).length then -1 else 0)
        = (if (encode utf8 ds).length = 0 then 1 else 0) - (if (encode utf8 cs).length = 0 then 1 else 0) := by
      generalize (encode utf8 cs).length = x at h0 ⊢
      generalize (encode utf8 ds).length = y at h0 ⊢
      rcases Nat.eq_zero_or_pos x with h1 | h1 <;> rcases Nat.eq_zero_or_pos y with h2 | h2
      · subst h1 h2; rfl
      · subst h1; rw [if_neg (by omega), if_pos h2, if_neg (by omega), if_pos rfl]; rfl
      · subst h2; rw [if_pos h1, if_pos rfl, if_neg (by omega)]; rfl
      · omega
    rwa [e] at ho
  rw [if_neg h0]
  by_cases hs : same = true
  · rw [if_pos hs]
    refine ⟨_, rfl, key _ ?_⟩
    have hm0 : m = 0 := by
      have : memcmp (encode utf8 cs) (encode utf8 ds) (min (encode utf8 cs).length (encode utf8 ds).length) = .ok 0 := by
        refine memcmp_self _ _ _ ?_ (by omega) (by omega)
        rcases hsame hs with ⟨u, h⟩ | ⟨u, h⟩
        · rw [← h]; simp
        · rw [← h]; simp
      rw [this] at hm; injection hm with hm; exact hm.symm
    subst hm0
    rwa [if_neg (by simp)] at ho
  · rw [if_neg hs]
    dsimp only
    have e : (if (encode utf8 cs).length < (encode utf8 ds).length then (encode utf8 cs).length else (encode utf8 ds).length)
        = min (encode utf8 cs).length (encode utf8 ds).length := by split <;> omega
    rw [e, hm, ok_bind]
    by_cases hm0 : m ≠ 0
    · rw [if_pos hm0]; rw [if_pos hm0] at ho; exact ⟨_, rfl, key _ ho⟩
    · rw [if_neg hm0]; rw [if_neg hm0] at ho; exact ⟨_, rfl, key _ ho⟩

/-- `tmu_utf8_equals` is equality. -/
theorem C41_equals (a b : List Byte) (same : Bool) (hsame : same = true → a <+: b ∨ b <+: a) :
    utf8Equals same a b = .ok (decide (a = b)) := by
  rw [utf8Equals]
  by_cases hl : a.length ≠ b.length
  · rw [if_pos hl]; simp; intro h; exact hl (by rw [h])
  · have hl : a.length = b.length := by omega
    rw [if_neg (by omega)]
    by_cases hs : same = true
    · rw [if_pos hs]
      have : a = b := by
        rcases hsame hs with h | h
        · exact h.eq_of_length hl
        · exact (h.eq_of_length hl.symm).symm
      simp [this]
    · rw [if_neg hs]
      obtain ⟨m, h1, h2⟩ := memcmp_zero a.length a b rfl hl
      rw [h1, ok_bind]
      by_cases h : a = b
      · rw [h2.2 h]; simp [h]
      · have : m ≠ 0 := fun hm => h (h2.1 hm)
        simp [h, this]

/-- On well-formed strings it is equality of the texts. -/
theorem C41_equals_text (cs ds : List Nat) (hcs : Scalars cs) (hds : Scalars ds) :
    utf8Equals false (encode utf8 cs) (encode utf8 ds) = .ok (decide (cs = ds)) := by
  rw [C41_equals _ _ _ (by simp)]
  have : encode utf8 cs = encode utf8 ds ↔ cs = ds := by
    constructor
    · intro h
      induction cs generalizing ds with
      | nil =>
        cases ds with
        | nil => rfl
        | cons d ds =>
          have := congrArg List.length h
          have := utf8_pos d
          rw [encode_nil, encode_cons, List.length_append, List.length_nil] at *
          omega
      | cons c cs ih =>
        cases ds with
        | nil =>
          have := congrArg List.length h
          have := utf8_pos c
          rw [encode_nil, encode_cons, List.length_append, List.length_nil] at *
          omega
        | cons d ds =>
          rw [encode_cons, encode_cons] at h
          obtain ⟨hc, hcs'⟩ := scalars_cons.1 hcs
          obtain ⟨hd, hds'⟩ := scalars_cons.1 hds
          obtain ⟨h1, h2⟩ := form8.uniq hc hd h
          rw [h1, ih ds hcs' hds' h2]
    · rintro rfl; rfl
  simp only [this]

example : utf8Compare false (encode utf8 [0x41, 0xFFFD]) (encode utf8 [0x41, 0x1F600]) = .ok (-1) ∧ [0x41, 0xFFFD] < [0x41, 0x1F600] := by decide

/-! ## C42 Counting -/

/-- `tmu_utf8_count_codepoints` of a well-formed string is the number of its code points. -/
theorem C42_count (cs : List Nat) (hcs : Scalars cs) : countCodepoints (encode utf8 cs) = .ok cs.length := by
  rw [countCodepoints, countLoop_spec cs hcs _ _ (by omega), Nat.zero_add]

/-- On any other input it terminates without reading past the end, and the result is at most the number of bytes. -/
theorem C42_count_any (s : List Byte) : ∃ n, countCodepoints s = .ok n ∧ n ≤ s.length := by
  obtain ⟨m, h1, h2⟩ := countLoop_total (s.length + 1) s 0 (by omega)
  exact ⟨m, h1, by omega⟩

example : countCodepoints [0x41, 0xE2, 0x82, 0xAC] = .ok 2 := by decide

/-! ## C57 Skipping while transcoding UTF-16 -/

/-- The text that is left when exactly the elements at which no character starts are dropped, and whether there were any. -/
inductive Cleaned {α : Type} (enc : Nat → List α) : List α → List Nat → Bool → Prop where
  | nil : Cleaned enc [] [] false
  | char {c : Nat} {t : List α} {cs : List Nat} {b : Bool} : Scalar c → Cleaned enc t cs b → Cleaned enc (enc c ++ t) (c :: cs) b
  | bad {a : α} {t : List α} {cs : List Nat} {b : Bool} : (¬ ∃ c u, Scalar c ∧ a :: t = enc c ++ u) → Cleaned enc t cs b →
      Cleaned enc (a :: t) cs true

/-- `tmu_utf8_from_utf16_ex` in the mode `skip` keeps every character and drops exactly the units at which no character starts. -/
theorem C57_skip_utf16 (s : List Unit16) (rep : List Byte) (nul : Bool) (out : List Byte) (fuel : Nat) (hf : s.length ≤ fuel) :
    ∃ cs inv, Cleaned utf16 s cs inv ∧
      ((encode utf8 cs).length + (if nul then 1 else 0) ≤ out.length →
        utf8FromUtf16Ex fuel s .skip rep nul out =
          .ok (⟨(encode utf8 cs).length, .ok, inv⟩, splice out 0 (encode utf8 cs ++ if nul then [0] else []))) := by
  obtain ⟨cs, inv, hr⟩ := reads_skip ext16 s.length s (Nat.le_refl _)
  refine ⟨cs, inv, ?_, ?_⟩
  · clear hf
    induction hr with
    | nil => exact .nil
    | @char s t c cs inv h1 _ hc _ ih =>
      obtain ⟨_, rfl⟩ := ((C33_extract s).1 c t).1 h1
      exact .char hc ih
    | @drop a s cs inv _ h1 _ ih =>
      exact .bad ((C33_extract (a :: s)).2.1 h1) ih
  · intro hl
    have := (utf8FromUtf16Ex_reads hr .skip (fun _ => rfl) rep (fun h => by cases h) nul out fuel hf).1
    cases nul <;> simp only [terminator] at this <;> exact this (by simpa [utf8_zero, utf16_zero] using hl)

example : utf8FromUtf16Ex 4 [0x41, 0xD83D, 0x42, 0xDE00] .skip [] false [0, 0, 0] = .ok (⟨2, .ok, true⟩, [0x41, 0x42, 0]) := by decide

end Tm.Uni
