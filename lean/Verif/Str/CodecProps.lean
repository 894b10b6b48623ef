import Verif.Str.DecodeLemmas
import Verif.Str.UrlLemmas

/-!
# Properties C51-C55: base64, URL coding and reversal

The buffer after a complete write of `text` at its start is `text ++ out.drop text.length`: the text, then the cells that
were there before.
-/

namespace Tm.Str

open Tm.Num

theorem splice_zero {α : Type} (out t : List α) : splice out 0 t = t ++ out.drop t.length := by simp [splice]

/-! ## C51: base64 round-trips -/

/-- C51: with a buffer that has at least one cell more than the text, `tmsu_base64_encode` writes the RFC 4648 text and
returns its length. -/
theorem C51_encode (bytes out : List Byte) (h : (base64Text bytes).length < out.length) :
    base64Encode bytes out = .ok ((base64Text bytes).length, base64Text bytes ++ out.drop (base64Text bytes).length) := by
  have := b64Enc_full table64 true bytes out 0 (by simpa [base64Text] using h)
  rw [base64Encode, b64EncodeChars_eq, this, splice_zero, Nat.zero_add]; rfl

example : base64Encode [77, 97, 110, 77] (List.replicate 9 0) = .ok (8, [84, 87, 70, 117, 84, 81, 61, 61, 0]) := by
  have := C51_encode [77, 97, 110, 77] (List.replicate 9 0) (by decide)
  rw [this]; decide

/-- C51: the same for `tmsu_base64url_encode`. -/
theorem C51_encode_url (bytes out : List Byte) (h : (base64urlText bytes).length < out.length) :
    base64urlEncode bytes out = .ok ((base64urlText bytes).length, base64urlText bytes ++ out.drop (base64urlText bytes).length) := by
  have := b64Enc_full tableUrl false bytes out 0 (by simpa [base64urlText] using h)
  rw [base64urlEncode, b64EncodeChars_eq, this, splice_zero, Nat.zero_add]; rfl

example : base64urlEncode [251, 255] (List.replicate 4 0) = .ok (3, [45, 95, 56, 0]) := by
  have := C51_encode_url [251, 255] (List.replicate 4 0) (by decide)
  rw [this]; decide

theorem rfc_pad_mod (α : Nat → Byte) : ∀ bytes, (rfc4648 α true bytes).length % 4 = 0
  | [] => rfl
  | [x] => by rw [rfc_one]; simp [tailText]
  | [x, y] => by rw [rfc_two]; simp [tailText]
  | x :: y :: z :: rest => by
    rw [rfc_three, List.length_append, sextets_length]
    have := rfc_pad_mod α rest
    omega

theorem rfc_two_le (α : Nat → Byte) (pad : Bool) : ∀ {bytes : List Byte}, bytes ≠ [] → 2 ≤ (rfc4648 α pad bytes).length
  | [x], _ => by rw [rfc_one]; simp [tailText]
  | [x, y], _ => by rw [rfc_two]; simp [tailText]
  | x :: y :: z :: rest, _ => by rw [rfc_three, List.length_append, sextets_length]; omega

/-- C51: decoding the base64 text of a byte string gives the byte string back, when the buffer has at least one cell more. -/
theorem C51_decode (bytes out : List Byte) (h : bytes.length < out.length) :
    base64Decode (base64Text bytes) out = .ok (bytes.length, bytes ++ out.drop bytes.length) := by
  by_cases hb : bytes = []
  · subst hb; rfl
  · have h2 := rfc_two_le (b64Alphabet 43 47) true hb
    have hm := rfc_pad_mod (b64Alphabet 43 47) bytes
    have := dec_enc table64 true bytes out 0 hb (by omega)
    rw [base64Decode, if_neg (by rw [base64Text]; omega), if_neg (by rw [base64Text, hm]; simp), b64DecodeChars,
      assert_ok (by rw [base64Text, hm]; rfl), ok_bind, base64Text, this, splice_zero, Nat.zero_add]

example : base64Decode [84, 87, 70, 117, 84, 81, 61, 61] (List.replicate 5 0) = .ok (4, [77, 97, 110, 77, 0]) := by
  have := C51_decode [77, 97, 110, 77] (List.replicate 5 0) (by decide)
  rwa [show base64Text [77, 97, 110, 77] = [84, 87, 70, 117, 84, 81, 61, 61] by decide] at this

/-- C51: the same for `tmsu_base64url_decode`. -/
theorem C51_decode_url (bytes out : List Byte) (h : bytes.length < out.length) :
    base64urlDecode (base64urlText bytes) out = .ok (bytes.length, bytes ++ out.drop bytes.length) := by
  by_cases hb : bytes = []
  · subst hb; rfl
  · have h2 := rfc_two_le (b64Alphabet 45 95) false hb
    have := dec_enc tableUrl false bytes out 0 hb (by omega)
    rw [base64urlDecode, if_neg (by rw [base64urlText]; omega), b64DecodeChars,
      assert_ok (by simp), ok_bind, base64urlText, this, splice_zero, Nat.zero_add]

example : base64urlDecode [45, 95, 56] (List.replicate 3 0) = .ok (2, [251, 255, 0]) := by
  have := C51_decode_url [251, 255] (List.replicate 3 0) (by decide)
  rwa [show base64urlText [251, 255] = [45, 95, 56] by decide] at this

/-- C51, stated on the two functions alone: what `tmsu_base64_encode` leaves in a large enough buffer decodes to the input. -/
theorem C51_round_trip (bytes out out2 : List Byte) (h : (base64Text bytes).length < out.length) (h2 : bytes.length < out2.length) :
    ∃ n text, base64Encode bytes out = .ok (n, text) ∧
      base64Decode (text.take n) out2 = .ok (bytes.length, bytes ++ out2.drop bytes.length) := by
  refine ⟨_, _, C51_encode bytes out h, ?_⟩
  rw [List.take_left]
  exact C51_decode bytes out2 h2

theorem C51_round_trip_url (bytes out out2 : List Byte) (h : (base64urlText bytes).length < out.length) (h2 : bytes.length < out2.length) :
    ∃ n text, base64urlEncode bytes out = .ok (n, text) ∧
      base64urlDecode (text.take n) out2 = .ok (bytes.length, bytes ++ out2.drop bytes.length) := by
  refine ⟨_, _, C51_encode_url bytes out h, ?_⟩
  rw [List.take_left]
  exact C51_decode_url bytes out2 h2

example : ∃ bytes out out2 : List Byte, bytes.length = 5 ∧ (base64Text bytes).length < out.length ∧
    (base64urlText bytes).length < out.length ∧ bytes.length < out2.length :=
  ⟨[1, 2, 3, 4, 5], List.replicate 9 0, List.replicate 6 0, rfl, by decide, by decide, by decide⟩

/-! ## C52: size protocol of base64 -/

/-- C52: `tmsu_base64_encode` never writes outside of its buffer, and it returns the length of the text unless the input
has a last group of one or two bytes that does not fit; then it returns two less. -/
theorem C52_encode_size (bytes out : List Byte) :
    ∃ o, o.length = out.length ∧ base64Encode bytes out =
      .ok (if bytes.length % 3 = 0 ∨ 4 * (bytes.length / 3) + 2 < out.length then (base64Text bytes).length
        else (base64Text bytes).length - 2, o) := by
  obtain ⟨o, ho, he⟩ := b64Enc_len table64 true bytes out 0
  simp only [Nat.zero_add] at he
  exact ⟨o, ho, by rw [base64Encode, b64EncodeChars_eq, he]; rfl⟩

theorem C52_encode_url_size (bytes out : List Byte) :
    ∃ o, o.length = out.length ∧ base64urlEncode bytes out =
      .ok (if bytes.length % 3 = 0 ∨ 4 * (bytes.length / 3) + 2 < out.length then (base64urlText bytes).length
        else (base64urlText bytes).length - 2, o) := by
  obtain ⟨o, ho, he⟩ := b64Enc_len tableUrl false bytes out 0
  simp only [Nat.zero_add] at he
  exact ⟨o, ho, by rw [base64urlEncode, b64EncodeChars_eq, he]; rfl⟩

example : base64Encode [1, 2, 3, 4, 5, 6] [] = .ok (8, []) := by decide

/-- The full C52 for encoding: the returned size is sufficient when it exceeds the buffer, and the text is complete
otherwise. It is false, see below. -/
def C52_encode_protocol (encode : List Byte → List Byte → C (Nat × List Byte)) (text : List Byte → List Byte) : Prop :=
  ∀ bytes out n o, encode bytes out = .ok (n, o) →
    (n ≤ out.length → text bytes <+: o) ∧ (out.length < n → (text bytes).length ≤ n)

/-- C52, the part that holds: a returned size that is *smaller* than the buffer means that the text is complete (if the
buffer has at least three cells more than the returned size, or the input is a multiple of three bytes), and a second
call with a buffer of three cells more than the returned size is complete. Missing: a buffer of exactly the returned size. -/
theorem C52_encode_partial (bytes out : List Byte) :
    ∃ n o, base64Encode bytes out = .ok (n, o) ∧ o.length = out.length ∧
      (bytes.length % 3 = 0 → n = (base64Text bytes).length ∧ (n < out.length → o = base64Text bytes ++ out.drop n)) ∧
      (n + 2 < out.length → o = base64Text bytes ++ out.drop (base64Text bytes).length) ∧
      (∀ out2 : List Byte, n + 3 ≤ out2.length →
        base64Encode bytes out2 = .ok ((base64Text bytes).length, base64Text bytes ++ out2.drop (base64Text bytes).length)) := by
  obtain ⟨o, ho, he⟩ := C52_encode_size bytes out
  refine ⟨_, _, he, ho, ?_, ?_, ?_⟩
  · intro h3
    rw [if_pos (.inl h3)] at he ⊢
    refine ⟨rfl, fun hlt => ?_⟩
    have h := C51_encode bytes out hlt
    rw [he] at h
    exact congrArg Prod.snd (Except.ok.inj h)
  · intro hlt
    have hlt : (base64Text bytes).length < out.length := by
      by_cases hc : bytes.length % 3 = 0 ∨ 4 * (bytes.length / 3) + 2 < out.length
      · rw [if_pos hc] at hlt; omega
      · rw [if_neg hc] at hlt; omega
    have h := C51_encode bytes out hlt
    rw [he] at h
    exact congrArg Prod.snd (Except.ok.inj h)
  · intro out2 hlt
    apply C51_encode
    by_cases hc : bytes.length % 3 = 0 ∨ 4 * (bytes.length / 3) + 2 < out.length
    · rw [if_pos hc] at hlt; omega
    · rw [if_neg hc] at hlt; omega

example : ∃ n o, base64Encode [1, 2] (List.replicate 7 9) = .ok (n, o) ∧ n + 2 < 7 ∧ o = base64Text [1, 2] ++ [9, 9, 9] :=
  ⟨4, _, by decide, by decide, rfl⟩

/-- C52 fails for a buffer of exactly the returned size: nothing of the last group is written, but the call reports
success. -/
theorem C52_not_encode_exact : ∀ a b c : Byte, ∀ out : List Byte, out.length = 4 →
    base64Encode [a, b, c] out = .ok (4, out) ∧ (base64Text [a, b, c]).length = 4 := by
  intro a b c out h
  refine ⟨?_, rfl⟩
  rw [base64Encode, b64EncodeChars_eq, b64Enc_step_skip _ _ _ _ _ _ _ (by omega)]
  rfl

/-- C52 fails for the size reported to a caller without a buffer: for one byte it is 2, and a buffer of two cells is then
reported as sufficient although nothing is written correctly. -/
theorem C52_not_encode_size : base64Encode [0] [] = .ok (2, []) ∧ base64Encode [0] [7, 7] = .ok (2, [61, 7]) ∧
    base64Text [0] = [65, 65, 61, 61] := by decide

theorem C52_not_encode_protocol : ¬ C52_encode_protocol base64Encode base64Text := by
  intro h
  have := (h [0] [7, 7] 2 [61, 7] (by decide)).1 (by decide)
  exact absurd this (by decide)

theorem C52_not_encode_url_protocol : ¬ C52_encode_protocol base64urlEncode base64urlText := by
  intro h
  have := (h [0, 0, 0] [7, 7, 7, 7] 4 [7, 7, 7, 7] (by decide)).1 (by decide)
  exact absurd this (by decide)

/-- C52 for decoding: every text is either malformed, and then `tmsu_base64_decode` returns 0 for every buffer, or stands
for some bytes; then their number is returned for every buffer, and they are complete if there is at least one cell more.
Nothing is written outside of the buffer. A malformed text has the wrong length or a character outside of the alphabet; a
well-formed one consists of the alphabet and `=`. Missing: the buffer of exactly the returned size. -/
theorem C52_decode_partial (text : List Byte) :
    ((text = [] ∨ text.length % 4 ≠ 0 ∨ ∃ c ∈ text, ¬ InAlphabet (b64Alphabet 43 47) c) ∧
      ∀ out, ∃ o, o.length = out.length ∧ base64Decode text out = .ok (0, o)) ∨
    (text.length % 4 = 0 ∧ (∀ c ∈ text, InAlphabet (b64Alphabet 43 47) c ∨ c = 61) ∧ ∃ D, D ≠ [] ∧ ∀ out,
      (∃ o, o.length = out.length ∧ base64Decode text out = .ok (D.length, o)) ∧
      (D.length < out.length → base64Decode text out = .ok (D.length, D ++ out.drop D.length))) := by
  by_cases h0 : text = []
  · exact .inl ⟨.inl h0, fun out => ⟨out, rfl, by rw [base64Decode, if_pos (by rw [h0]; rfl)]⟩⟩
  have hl : ¬ text.length = 0 := by simpa using h0
  by_cases h4 : text.length % 4 = 0
  · have hrun : ∀ out, base64Decode text out = b64DecLoop base64Chars true text out 0 := by
      intro out
      rw [base64Decode, if_neg hl, if_neg (by omega), b64DecodeChars, assert_ok (by rw [h4]; rfl), ok_bind]
    rcases dec_any table64 true text h0 (fun _ => h4) with ⟨hf, hb⟩ | ⟨D, hne, hD, hb⟩
    · exact .inl ⟨.inr (.inr hb), fun out => by rw [hrun]; exact hf out 0⟩
    · refine .inr ⟨h4, fun c hc => ?_, D, hne, fun out => ?_⟩
      · rcases hb c hc with h | h
        · exact .inl h
        · exact .inr h.2
      · obtain ⟨⟨o, ho, he⟩, hfull⟩ := hD out 0
        rw [Nat.zero_add] at he hfull
        rw [splice_zero] at hfull
        rw [hrun]
        exact ⟨⟨o, ho, he⟩, hfull⟩
  · exact .inl ⟨.inr (.inl h4), fun out => ⟨out, rfl, by rw [base64Decode, if_neg hl, if_pos h4]⟩⟩

theorem C52_decode_url_partial (text : List Byte) :
    ((text.length < 2 ∨ ∃ c ∈ text, ¬ InAlphabet (b64Alphabet 45 95) c) ∧
      ∀ out, ∃ o, o.length = out.length ∧ base64urlDecode text out = .ok (0, o)) ∨
    (2 ≤ text.length ∧ (∀ c ∈ text, InAlphabet (b64Alphabet 45 95) c) ∧ ∃ D, D ≠ [] ∧ ∀ out,
      (∃ o, o.length = out.length ∧ base64urlDecode text out = .ok (D.length, o)) ∧
      (D.length < out.length → base64urlDecode text out = .ok (D.length, D ++ out.drop D.length))) := by
  by_cases h2 : text.length < 2
  · exact .inl ⟨.inl h2, fun out => ⟨out, rfl, by rw [base64urlDecode, if_pos h2]⟩⟩
  have h0 : text ≠ [] := by rintro rfl; simp at h2
  have hrun : ∀ out, base64urlDecode text out = b64DecLoop base64urlChars false text out 0 := by
    intro out
    rw [base64urlDecode, if_neg h2, b64DecodeChars, assert_ok (by simp), ok_bind]
  rcases dec_any tableUrl false text h0 (by simp) with ⟨hf, hb⟩ | ⟨D, hne, hD, hb⟩
  · exact .inl ⟨.inr hb, fun out => by rw [hrun]; exact hf out 0⟩
  · refine .inr ⟨by omega, fun c hc => ?_, D, hne, fun out => ?_⟩
    · rcases hb c hc with h | h
      · exact h
      · exact absurd h.1 (by simp)
    · obtain ⟨⟨o, ho, he⟩, hfull⟩ := hD out 0
      rw [Nat.zero_add] at he hfull
      rw [splice_zero] at hfull
      rw [hrun]
      exact ⟨⟨o, ho, he⟩, hfull⟩

example : base64Decode [84, 87, 70, 42] [0, 0, 0, 0] = .ok (0, [0, 0, 0, 0]) := by decide
example : base64Decode [84, 87, 70, 117] [0, 0, 0, 0] = .ok (3, [77, 97, 110, 0]) := by decide
example : base64urlDecode [84, 61] [0, 0, 0, 0] = .ok (0, [0, 0, 0, 0]) := by decide
example : base64urlDecode [84, 87, 70] [0, 0, 0, 0] = .ok (2, [77, 97, 0, 0]) := by decide

/-- C52 fails for decoding into a buffer of exactly the right size: success is reported, but the last byte is missing. -/
theorem C52_not_decode_exact : base64Decode (base64Text [77, 97, 110]) [0, 0, 0] = .ok (3, [77, 97, 0]) := by decide

/-- Two texts that RFC 4648 does not allow are accepted: a character after `=`, and a last group of a single character. -/
theorem C52_not_decode_strict : base64Decode [65, 65, 61, 65] [7, 7] = .ok (1, [0, 7]) ∧
    base64urlDecode [65, 65, 65, 65, 65] [7, 7, 7, 7, 7] = .ok (4, [0, 0, 0, 0, 7]) := by decide

/-! ## C53, C54: URL coding -/

/-- C53, C54: `tmsu_url_encode` returns the length of the percent encoding for every buffer, and writes as much of it as
fits; nothing outside of the buffer is written. -/
theorem C54_url_encode (bytes out : List Byte) : ∃ o, o.length = out.length ∧
    urlEncode bytes out = .ok ((percentText bytes).length, o) ∧
    ((percentText bytes).length ≤ out.length → o = percentText bytes ++ out.drop (percentText bytes).length) ∧
    (out.length ≤ (percentText bytes).length → o = (percentText bytes).take out.length) := by
  refine ⟨_, spliceT_length out 0 (percentText bytes), by rw [urlEncode, urlEncLoop_spec, Nat.zero_add], ?_, ?_⟩
  · intro h
    rw [spliceT_fit _ _ _ (by omega), splice_zero]
  · intro h
    rw [spliceT, splice_zero, Nat.sub_zero, List.length_take, Nat.min_eq_left h, List.drop_length, List.append_nil]

example : urlEncode [97, 32, 98] [0, 0, 0, 0, 0] = .ok (5, [97, 37, 50, 48, 98]) := by decide
example : urlEncode [97, 32, 98] [0, 0, 0] = .ok (5, [97, 37, 50]) := by decide

/-- C53: the encoding consists of unreserved characters and of `%` followed by two hexadecimal digits, and decodes to the
bytes. -/
theorem C53_url_text (bytes : List Byte) : PercentDecodes (percentText bytes) bytes := percentDecodes_self bytes

example : percentText [97, 32, 255] = [97, 37, 50, 48, 37, 70, 70] := by decide

/-- C53: decoding the encoding gives the bytes back. -/
theorem C53_url_round_trip (bytes out out2 : List Byte) (h : (percentText bytes).length ≤ out.length)
    (h2 : bytes.length ≤ out2.length) :
    ∃ n text, urlEncode bytes out = .ok (n, text) ∧ n ≤ out.length ∧
      urlDecode (text.take n) out2 = .ok (bytes.length, bytes ++ out2.drop bytes.length) := by
  obtain ⟨o, _, he, hf, _⟩ := C54_url_encode bytes out
  refine ⟨_, _, he, h, ?_⟩
  rw [hf h, List.take_left, urlDecode, urlDecLoop_good (percentDecodes_self bytes), Nat.zero_add,
    spliceT_fit _ _ _ (by omega), splice_zero]

example : ∃ bytes out out2 : List Byte, bytes.length = 3 ∧ (percentText bytes).length ≤ out.length ∧ bytes.length ≤ out2.length :=
  ⟨[97, 32, 255], List.replicate 7 0, List.replicate 3 0, rfl, by decide, by decide⟩

/-- C54: a well-formed text decodes to the bytes that it stands for, truncated to the buffer, and their number is returned. -/
theorem C54_url_decode {text bytes : List Byte} (h : PercentDecodes text bytes) (out : List Byte) : ∃ o, o.length = out.length ∧
    urlDecode text out = .ok (bytes.length, o) ∧
    (bytes.length ≤ out.length → o = bytes ++ out.drop bytes.length) ∧
    (out.length ≤ bytes.length → o = bytes.take out.length) := by
  refine ⟨_, spliceT_length out 0 bytes, by rw [urlDecode, urlDecLoop_good h, Nat.zero_add], ?_, ?_⟩
  · intro h
    rw [spliceT_fit _ _ _ (by omega), splice_zero]
  · intro h
    rw [spliceT, splice_zero, Nat.sub_zero, List.length_take, Nat.min_eq_left h, List.drop_length, List.append_nil]

example : PercentDecodes [97, 37, 50, 48, 37, 102, 70] [97, 32, 255] :=
  .plain (by decide) (.escape (x := 2) (y := 0) (.inl (by decide)) (.inl (by decide))
    (.escape (x := 15) (y := 15) (.inr (by decide)) (.inr (by decide)) .nil))

/-- C54: a malformed text decodes to 0, whatever the buffer. -/
theorem C54_url_decode_malformed {text : List Byte} (h : ¬ ∃ bytes, PercentDecodes text bytes) (out : List Byte) :
    ∃ o, o.length = out.length ∧ urlDecode text out = .ok (0, o) :=
  urlDecLoop_bad text.length text (Nat.le_refl _) h out 0

example : ¬ ∃ bytes, PercentDecodes [97, 37, 50] bytes := by
  rintro ⟨b, h⟩
  cases h with
  | plain _ h => cases h with
    | plain hc _ => exact absurd hc (by decide)

/-! ## C55: reversal -/

/-- C55: `tmsu_strnrev` reverses the first characters in place and leaves the rest alone. -/
theorem C55_strnrev (s rest : List Byte) : strnrev (s ++ rest) s.length = .ok (s.reverse ++ rest) := strnrev_spec s rest

example : strnrev [1, 2, 3, 4, 9] 4 = .ok [4, 3, 2, 1, 9] := C55_strnrev [1, 2, 3, 4] [9]

/-- C55: applied twice it is the identity. -/
theorem C55_strnrev_twice (str : List Byte) (count : Nat) (h : count ≤ str.length) :
    (strnrev str count >>= fun s => strnrev s count) = .ok str := by
  have e : str = str.take count ++ str.drop count := (List.take_append_drop ..).symm
  have hl : (str.take count).length = count := by simp [h]
  have h1 := strnrev_spec (str.take count) (str.drop count)
  rw [hl, ← e] at h1
  rw [h1, ok_bind]
  have h2 := strnrev_spec (str.take count).reverse (str.drop count)
  rwa [List.length_reverse, hl, List.reverse_reverse, ← e] at h2

/-- C55: `tmsu_strrev` reverses a NUL-terminated string. -/
theorem C55_strrev {mem s : List Byte} (h : ZStr mem 0 s) : strrev mem = .ok (s.reverse ++ mem.drop s.length) := by
  obtain ⟨⟨tail, ht⟩, hz⟩ := h
  rw [strrev, strlen_eq ⟨⟨tail, ht⟩, hz⟩, ok_bind]
  rw [List.drop_zero] at ht
  rw [ht, strnrev_spec, List.drop_left]

example : ZStr [1, 2, 3, 0, 5] 0 [1, 2, 3] := ⟨⟨[5], rfl⟩, by decide⟩

/-- C44: `tmsu_memrchr` returns the last position of the value, or nothing. -/
theorem C44_memrchr {mem : List Byte} {a b : Nat} (h : Range mem a b) (c : Byte) :
    ∃ r, memrchr mem a c (b - a) = .ok r ∧ IsLast (ByteAt mem (· = c)) a b none r := memrchr_spec h c

example : memrchr [1, 2, 1, 3] 0 1 4 = .ok (some 2) := by decide

end Tm.Str
