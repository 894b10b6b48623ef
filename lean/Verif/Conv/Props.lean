import Verif.Conv.Bool
/-!
# Properties of the number, hex and boolean conversions (C10-C17)

Texts are lists of bytes. A nul-terminated string `s` in memory is `s ++ 0 :: tail` (`0 ∉ s`, `tail` arbitrary memory behind
it); a counted string is `s ++ tail` with length `s.length`. A fault (out of bounds access, failed assertion, signed
overflow) is a result different from `.ok`, so each equation below also says that no fault happens.
`w` is the width of the integer type: 32 or 64 (`7 ≤ w` or `32 ≤ w` is all the proofs need).
-/
namespace Tm.Conv
open Tm.Num

/-! ## C10 scanning -/

/-- Every text starts with exactly one (possibly empty) maximal digit sequence, so `unsignedResult` is determined. -/
theorem C10_numeral_exists_unique (base : Nat) (hb : base ≤ 36) (s : List Byte) :
    ∃ ds, StartsWithNumeral base s ds ∧ ∀ es, StartsWithNumeral base s es → es = ds := by
  obtain ⟨ds, h⟩ := startsWithNumeral_exists base s
  exact ⟨ds, h, fun es he => startsWithNumeral_unique hb he h⟩

/-- C10, unsigned: `scan_u32`/`scan_u64` and the `_n` forms. -/
theorem C10_scan_unsigned {w : Nat} (hw : 7 ≤ w) {base : Nat} (hb : 2 ≤ base) (hb' : base ≤ 36) (s tail : List Byte)
    (ds : List Nat) (h : StartsWithNumeral base s ds) (out : Option (BitVec w)) :
    scanUN w (some (s ++ tail)) s.length out base = .ok (unsignedResult w base ds out) ∧
    ((0 : Byte) ∉ s → scanU w (some (s ++ 0 :: tail)) out base = .ok (unsignedResult w base ds out)) :=
  ⟨scanUN_spec hw hb hb' s tail ds h out, fun hz => scanU_spec hw hb hb' s tail hz ds h out⟩

-- "42x" in base 10 starts with the digits 4, 2; "fF" in base 16 with 15, 15
example : StartsWithNumeral 10 [52, 50, 120] [4, 2] :=
  ⟨[52, 50], [120], rfl, .cons (by unfold IsDigit; decide) (.cons (by unfold IsDigit; decide) .nil), by
    intro c hc d hd
    simp at hc; subst hc
    unfold IsDigit upperCode lowerCode at hd
    have : (120#8).toNat = 120 := rfl
    rw [this] at hd; split at hd <;> omega⟩
example : scanUN 32 (some [52, 50, 120]) 3 (some 7) 10 = .ok (⟨2, .ok⟩, some 42) := by decide +kernel
example : scanUN 32 (some [52, 50, 57, 52, 57, 54, 55, 50, 57, 54]) 10 (some 7) 10 = .ok (⟨10, .erange⟩, some 7) := by
  decide +kernel

/-- Scanning a null pointer: nothing is stored. -/
theorem C10_scan_null {w : Nat} {base : Nat} (hb : 2 ≤ base) (hb' : base ≤ 36) (out : Option (BitVec w)) (sem : Signed) :
    scanU w none out base = .ok (⟨0, .einval⟩, out) ∧ scanUN w none 0 out base = .ok (⟨0, .einval⟩, out) ∧
    scanI w sem none out base = .ok (⟨0, .einval⟩, out) ∧ scanIN w sem none 0 out base = .ok (⟨0, .einval⟩, out) := by
  have := baseOk_nat hb hb'
  refine ⟨?_, ?_, ?_, ?_⟩
  · rw [scanU, assert, if_pos this]; rfl
  · rw [scanUN, assert, if_pos this]; rfl
  · rw [scanI, assert, if_pos this]; rfl
  · rw [scanIN, assert, if_pos this]; rfl

/-- C10, signed, when the compiler defines signed overflow to wrap around: `scan_i32`/`scan_i64` and the `_n` forms. -/
theorem C10_scan_signed_wrapping {w : Nat} (hw : 7 ≤ w) {base : Nat} (hb : 2 ≤ base) (hb' : base ≤ 36) (s tail : List Byte)
    (neg : Bool) (ds : List Nat) (h : StartsWithSigned base s neg ds) (out : Option (BitVec w)) :
    scanIN w .wrap (some (s ++ tail)) s.length out base = .ok (signedResult w base neg ds out) ∧
    ((0 : Byte) ∉ s → scanI w .wrap (some (s ++ 0 :: tail)) out base = .ok (signedResult w base neg ds out)) :=
  ⟨scanIN_spec hw hb hb' s tail neg ds h out _ (.inl rfl), fun hz => scanI_spec hw hb hb' s tail hz neg ds h out _ (.inl rfl)⟩

/-- C10, signed, under the language rules. Missing: the text of the least value of the type (see
`C10_least_value_overflows`). -/
theorem C10_scan_signed_partial {w : Nat} (hw : 7 ≤ w) {base : Nat} (hb : 2 ≤ base) (hb' : base ≤ 36) (s tail : List Byte)
    (neg : Bool) (ds : List Nat) (h : StartsWithSigned base s neg ds) (out : Option (BitVec w))
    (hmin : signedValue base neg ds ≠ -2 ^ (w - 1)) :
    scanIN w .strict (some (s ++ tail)) s.length out base = .ok (signedResult w base neg ds out) ∧
    ((0 : Byte) ∉ s → scanI w .strict (some (s ++ 0 :: tail)) out base = .ok (signedResult w base neg ds out)) :=
  ⟨scanIN_spec hw hb hb' s tail neg ds h out _ (.inr (.inl hmin)),
    fun hz => scanI_spec hw hb hb' s tail hz neg ds h out _ (.inr (.inl hmin))⟩

/-- Every text has a sign and a maximal digit sequence. -/
theorem C10_signed_exists (base : Nat) (s : List Byte) : ∃ neg ds, StartsWithSigned base s neg ds :=
  startsWithSigned_exists base s

example : scanIN 32 .strict (some [45, 52, 50]) 3 (some 7) 10 = .ok (⟨3, .ok⟩, some (-42)) := by decide +kernel
example : scanI 32 .strict (some [45, 45, 50, 0]) (some 7) 10 = .ok (⟨0, .einval⟩, some 7) := by decide +kernel

/-- The defect: scanning any spelling of the least value of the type negates it in the signed type, which the language
leaves undefined. -/
theorem C10_least_value_overflows {w : Nat} (hw : 7 ≤ w) {base : Nat} (hb : 2 ≤ base) (hb' : base ≤ 36) (s tail : List Byte)
    (neg : Bool) (ds : List Nat) (h : StartsWithSigned base s neg ds) (o : BitVec w)
    (hmin : signedValue base neg ds = -2 ^ (w - 1)) :
    scanIN w .strict (some (s ++ tail)) s.length (some o) base = .error .overflow ∧
    ((0 : Byte) ∉ s → scanI w .strict (some (s ++ 0 :: tail)) (some o) base = .error .overflow) :=
  ⟨scanIN_min hw hb hb' s tail neg ds h o hmin, fun hz => scanI_min hw hb hb' s tail hz neg ds h o hmin⟩

-- "-2147483648"
example : scanIN 32 .strict (some [45, 50, 49, 52, 55, 52, 56, 51, 54, 52, 56]) 11 (some 7) 10 = .error .overflow := by
  decide +kernel

/-! ## C11 the two forms agree -/

/-- C11: the nul-terminated and the counted scanners give the same result (also in the faulting case). -/
theorem C11_forms_agree {w : Nat} (hw : 7 ≤ w) {base : Nat} (hb : 2 ≤ base) (hb' : base ≤ 36) (s tail tail' : List Byte)
    (hz : (0 : Byte) ∉ s) (out : Option (BitVec w)) (sem : Signed) :
    scanU w (some (s ++ 0 :: tail)) out base = scanUN w (some (s ++ tail')) s.length out base ∧
    scanI w sem (some (s ++ 0 :: tail)) out base = scanIN w sem (some (s ++ tail')) s.length out base := by
  constructor
  · obtain ⟨ds, h⟩ := startsWithNumeral_exists base s
    rw [scanU_spec hw hb hb' s tail hz ds h, scanUN_spec hw hb hb' s tail' ds h]
  · obtain ⟨neg, ds, h⟩ := startsWithSigned_exists base s
    by_cases hc : sem = .wrap ∨ (signedValue base neg ds ≠ -2 ^ (w - 1)) ∨ out = none
    · rw [scanI_spec hw hb hb' s tail hz neg ds h out sem hc, scanIN_spec hw hb hb' s tail' neg ds h out sem hc]
    · simp only [not_or, ne_eq, not_not] at hc
      obtain ⟨h1, h2, h3⟩ := hc
      have hs : sem = .strict := by cases sem <;> simp_all
      cases out with
      | none => exact absurd rfl h3
      | some o => rw [hs, scanI_min hw hb hb' s tail hz neg ds h o h2, scanIN_min hw hb hb' s tail' neg ds h o h2]

example : (0 : Byte) ∉ ([45, 49, 50] : List Byte) := by decide

/-! ## C12, C13 printing -/

/-- There is exactly one canonical numeral for every number, and `text` is how it is written. -/
theorem C12_canonical_exists_unique {base : Nat} (hb : 2 ≤ base) (n : Nat) (lower : Bool) :
    ∃ ds, Canonical base n ds ∧ (∀ es, Canonical base n es → es = ds) ∧ text base lower n = ds.map (digitChar lower) :=
  ⟨numeral base n, numeral_canonical base n hb, fun _ he => canonical_unique hb he, rfl⟩

/-- C12/C13, unsigned: the canonical numeral if it fits, otherwise nothing is written and an overflow is reported. `buf` is
the object `dest` points into, with room for `maxlen` chars at index `dest`. -/
theorem C12_print_unsigned {base : Nat} (hb : 2 ≤ base) (hb' : base ≤ 36) (lower : Bool) (buf : List Byte)
    (dest maxlen : Nat) (hroom : dest + maxlen ≤ buf.length) (ds : List Nat) :
    (∀ v : BitVec 32, Canonical base v.toNat ds →
      printU32 buf dest maxlen v base lower = .ok (printResult buf dest maxlen (ds.map (digitChar lower)))) ∧
    (∀ v : BitVec 64, Canonical base v.toNat ds →
      printU64 buf dest maxlen v base lower = .ok (printResult buf dest maxlen (ds.map (digitChar lower)))) := by
  constructor
  · intro v h
    rw [canonical_unique hb h]
    exact printU_spec (by decide) _ printDec32_spec lower base hb hb' buf dest maxlen v hroom
  · intro v h
    rw [canonical_unique hb h]
    exact printU_spec (by decide) _ printDec64_spec lower base hb hb' buf dest maxlen v hroom

example : Canonical 10 905 [9, 0, 5] := by unfold Canonical; decide
example : printU32 [0, 0, 0, 0, 0] 1 4 905 10 true = .ok (⟨3, .ok⟩, [0, 57, 48, 53, 0]) := by decide +kernel

/-- C12/C13: the base specific unsigned printers. -/
theorem C12_print_unsigned_dec_hex (lower : Bool) (buf : List Byte) (dest maxlen : Nat)
    (hroom : dest + maxlen ≤ buf.length) (v : BitVec 32) (u : BitVec 64) :
    printDec32 buf dest maxlen v = .ok (printResult buf dest maxlen (text 10 false v.toNat)) ∧
    printDec64 buf dest maxlen u = .ok (printResult buf dest maxlen (text 10 false u.toNat)) ∧
    printHex buf dest maxlen v lower = .ok (printResult buf dest maxlen (text 16 lower v.toNat)) ∧
    printHex buf dest maxlen u lower = .ok (printResult buf dest maxlen (text 16 lower u.toNat)) :=
  ⟨printDec32_spec buf dest maxlen v hroom, printDec64_spec buf dest maxlen u hroom,
    printHex_spec (by decide) lower buf dest maxlen v hroom, printHex_spec (by decide) lower buf dest maxlen u hroom⟩

example : printHex [1, 1, 1] 0 3 (0xAB : BitVec 32) true = .ok (⟨2, .ok⟩, [97, 98, 1]) := by decide +kernel

/-- The result of the signed printers: all of the text, or an overflow; in the latter case at most the minus sign has been
written. -/
def signedPrintResult (base : Nat) (lower : Bool) (buf : List Byte) (dest maxlen : Nat) (i : Int) : ConvResult × List Byte :=
  if (signedText base lower i).length ≤ maxlen
  then (⟨(signedText base lower i).length, .ok⟩, splice buf dest (signedText base lower i))
  else (⟨maxlen, .eoverflow⟩, if i < 0 ∧ 0 < maxlen then splice buf dest [45] else buf)

/-- C12/C13, signed: every value of the type including the least one. -/
theorem C12_print_signed {base : Nat} (hb : 2 ≤ base) (hb' : base ≤ 36) (lower : Bool) (buf : List Byte)
    (dest maxlen : Nat) (hroom : dest + maxlen ≤ buf.length) (v : BitVec 32) (u : BitVec 64) :
    printI32 buf dest maxlen v base lower = .ok (signedPrintResult base lower buf dest maxlen v.toInt) ∧
    printI64 buf dest maxlen u base lower = .ok (signedPrintResult base lower buf dest maxlen u.toInt) := by
  constructor
  · rw [printI32, assert, if_pos (baseOk_nat hb hb'), ok_bind]
    exact printSigned_spec (by decide) base lower _
      (fun b d m v h => printU_spec (by decide) _ printDec32_spec lower base hb hb' b d m v h) buf dest maxlen v hroom
  · rw [printI64, assert, if_pos (baseOk_nat hb hb'), ok_bind]
    exact printSigned_spec (by decide) base lower _
      (fun b d m v h => printU_spec (by decide) _ printDec64_spec lower base hb hb' b d m v h) buf dest maxlen u hroom

/-- C12/C13: the base specific signed printers. -/
theorem C12_print_signed_dec_hex (lower : Bool) (buf : List Byte) (dest maxlen : Nat)
    (hroom : dest + maxlen ≤ buf.length) (v : BitVec 32) (u : BitVec 64) :
    printDecI32 buf dest maxlen v = .ok (signedPrintResult 10 false buf dest maxlen v.toInt) ∧
    printDecI64 buf dest maxlen u = .ok (signedPrintResult 10 false buf dest maxlen u.toInt) ∧
    printHexI buf dest maxlen v lower = .ok (signedPrintResult 16 lower buf dest maxlen v.toInt) ∧
    printHexI buf dest maxlen u lower = .ok (signedPrintResult 16 lower buf dest maxlen u.toInt) :=
  ⟨printSigned_spec (by decide) 10 false _ printDec32_spec buf dest maxlen v hroom,
    printSigned_spec (by decide) 10 false _ printDec64_spec buf dest maxlen u hroom,
    printSigned_spec (by decide) 16 lower _ (fun b d m v h => printHex_spec (by decide) lower b d m v h) buf dest maxlen v hroom,
    printSigned_spec (by decide) 16 lower _ (fun b d m v h => printHex_spec (by decide) lower b d m v h) buf dest maxlen u hroom⟩

example : printI32 [0, 0, 0, 0, 0] 1 4 (-12) 10 true = .ok (⟨3, .ok⟩, [0, 45, 49, 50, 0]) := by decide +kernel
example : printDecI32 [0, 0, 0, 0, 0] 1 2 (-12) = .ok (⟨2, .eoverflow⟩, [0, 45, 0, 0, 0]) := by decide +kernel

/-- C13: whatever the value and `maxlen` (also 0), the printers change nothing outside `dest[0..maxlen)`, return a size of at
most `maxlen`, and report an overflow exactly when the text does not fit; on overflow the unsigned ones write nothing. -/
theorem C13_print_bounds {base : Nat} (hb : 2 ≤ base) (hb' : base ≤ 36) (lower : Bool) (buf : List Byte)
    (dest maxlen : Nat) (hroom : dest + maxlen ≤ buf.length) (v : BitVec 32) (u : BitVec 64) :
    (∃ r b, printU32 buf dest maxlen v base lower = .ok (r, b) ∧ SameOutside buf b dest maxlen ∧ r.size ≤ maxlen ∧
      (r.ec = .eoverflow ↔ maxlen < (text base lower v.toNat).length) ∧ (r.ec = .eoverflow → b = buf)) ∧
    (∃ r b, printU64 buf dest maxlen u base lower = .ok (r, b) ∧ SameOutside buf b dest maxlen ∧ r.size ≤ maxlen ∧
      (r.ec = .eoverflow ↔ maxlen < (text base lower u.toNat).length) ∧ (r.ec = .eoverflow → b = buf)) ∧
    (∃ r b, printI32 buf dest maxlen v base lower = .ok (r, b) ∧ SameOutside buf b dest maxlen ∧ r.size ≤ maxlen ∧
      (r.ec = .eoverflow ↔ maxlen < (signedText base lower v.toInt).length)) ∧
    (∃ r b, printI64 buf dest maxlen u base lower = .ok (r, b) ∧ SameOutside buf b dest maxlen ∧ r.size ≤ maxlen ∧
      (r.ec = .eoverflow ↔ maxlen < (signedText base lower u.toInt).length)) := by
  have hu : ∀ t : List Byte, ∃ r b, (printResult buf dest maxlen t) = (r, b) ∧ SameOutside buf b dest maxlen ∧
      r.size ≤ maxlen ∧ (r.ec = .eoverflow ↔ maxlen < t.length) ∧ (r.ec = .eoverflow → b = buf) := by
    intro t
    rw [printResult]
    split
    · rename_i h
      exact ⟨_, _, rfl, splice_same _ _ _ _ h hroom, h, by simp; omega, by simp⟩
    · rename_i h
      exact ⟨_, _, rfl, .refl _ _ _, Nat.le_refl _, by simp; omega, by simp⟩
  have hi : ∀ i : Int, ∃ r b, (signedPrintResult base lower buf dest maxlen i) = (r, b) ∧ SameOutside buf b dest maxlen ∧
      r.size ≤ maxlen ∧ (r.ec = .eoverflow ↔ maxlen < (signedText base lower i).length) := by
    intro i
    rw [signedPrintResult]
    split
    · rename_i h
      exact ⟨_, _, rfl, splice_same _ _ _ _ h hroom, h, by simp; omega⟩
    · rename_i h
      refine ⟨_, _, rfl, ?_, Nat.le_refl _, by simp; omega⟩
      split
      · rename_i h2
        exact splice_same _ _ _ _ (by simp; omega) hroom
      · exact .refl _ _ _
  have h2 := C12_print_signed hb hb' lower buf dest maxlen hroom v u
  refine ⟨?_, ?_, ?_, ?_⟩
  · obtain ⟨r, b, h, h'⟩ := hu (text base lower v.toNat)
    exact ⟨r, b, by rw [← h]; exact printU_spec (by decide) _ printDec32_spec lower base hb hb' buf dest maxlen v hroom, h'⟩
  · obtain ⟨r, b, h, h'⟩ := hu (text base lower u.toNat)
    exact ⟨r, b, by rw [← h]; exact printU_spec (by decide) _ printDec64_spec lower base hb hb' buf dest maxlen u hroom, h'⟩
  · obtain ⟨r, b, h, h'⟩ := hi v.toInt
    exact ⟨r, b, by rw [h2.1, h], h'⟩
  · obtain ⟨r, b, h, h'⟩ := hi u.toInt
    exact ⟨r, b, by rw [h2.2, h], h'⟩

-- no room at all
example : printU32 [0, 0] 2 0 0 10 true = .ok (⟨0, .eoverflow⟩, [0, 0]) := by decide +kernel

/-! ## C14 print, then scan -/

theorem text_startsWith {base : Nat} (hb : 2 ≤ base) (hb' : base ≤ 36) (lower : Bool) (n : Nat) :
    StartsWithNumeral base (text base lower n) (numeral base n) := by
  refine ⟨text base lower n, [], by simp, ?_, by simp⟩
  rw [text, List.forall₂_map_left_iff, List.forall₂_same]
  intro d hd
  have := (numeral_canonical base n hb).2.1 d hd
  exact digitChar_isDigit hb' this lower

theorem splice_at (buf t : List Byte) (dest : Nat) (h : dest ≤ buf.length) :
    (splice buf dest t).drop dest = t ++ buf.drop (dest + t.length) := by
  rw [splice, List.append_assoc, List.drop_append_of_le_length (by simp; omega), List.drop_of_length_le (by simp)]
  simp

/-- C14, unsigned: scanning the `size` chars which the printer wrote gives the value back and consumes all of them. -/
theorem C14_print_scan_unsigned {base : Nat} (hb : 2 ≤ base) (hb' : base ≤ 36) (lower : Bool) (buf : List Byte)
    (dest maxlen : Nat) (hroom : dest + maxlen ≤ buf.length) :
    (∀ (v o : BitVec 32) (r : ConvResult) (b : List Byte), printU32 buf dest maxlen v base lower = .ok (r, b) → r.ec = .ok →
      scanUN 32 (some (b.drop dest)) r.size (some o) base = .ok (⟨r.size, .ok⟩, some v)) ∧
    (∀ (v o : BitVec 64) (r : ConvResult) (b : List Byte), printU64 buf dest maxlen v base lower = .ok (r, b) → r.ec = .ok →
      scanUN 64 (some (b.drop dest)) r.size (some o) base = .ok (⟨r.size, .ok⟩, some v)) := by
  have key : ∀ (w : Nat) (hw : 7 ≤ w) (v o : BitVec w) (r : ConvResult) (b : List Byte),
      printResult buf dest maxlen (text base lower v.toNat) = (r, b) → r.ec = .ok →
      scanUN w (some (b.drop dest)) r.size (some o) base = .ok (⟨r.size, .ok⟩, some v) := by
    intro w hw v o r b h1 h2
    rw [printResult] at h1
    split at h1
    · obtain ⟨rfl, rfl⟩ := Prod.mk.inj h1
      simp only
      rw [splice_at _ _ _ (by omega), scanUN_spec hw hb hb' _ _ _ (text_startsWith hb hb' lower v.toNat)]
      rw [unsignedResult, if_neg (numeral_canonical base _ hb).2.2.1, numVal_numeral _ _ hb, if_pos v.isLt, text_length]
      simp
    · obtain ⟨rfl, rfl⟩ := Prod.mk.inj h1
      simp at h2
  constructor
  · intro v o r b h1
    refine key 32 (by decide) v o r b ?_
    rw [printU32, printU_spec (by decide) _ printDec32_spec lower base hb hb' buf dest maxlen v hroom] at h1
    simpa using h1
  · intro v o r b h1
    refine key 64 (by decide) v o r b ?_
    rw [printU64, printU_spec (by decide) _ printDec64_spec lower base hb hb' buf dest maxlen v hroom] at h1
    simpa using h1

theorem text_head_ne_minus {base : Nat} (hb : 2 ≤ base) (hb' : base ≤ 36) (lower : Bool) (n : Nat) :
    (text base lower n).head? ≠ some 45 := by
  have h1 := (numeral_canonical base n hb).2
  rw [text]
  generalize numeral base n = ds at h1
  cases ds with
  | nil => simp
  | cons d ds =>
    intro h
    simp only [List.map_cons, List.head?_cons, Option.some.injEq] at h
    have h3 := digitChar_isDigit hb' (h1.1 d (by simp)) lower
    rw [h] at h3
    unfold IsDigit upperCode lowerCode at h3
    have : (45 : Byte).toNat = 45 := rfl
    rw [this] at h3; split at h3 <;> omega

theorem signedText_startsWith {base : Nat} (hb : 2 ≤ base) (hb' : base ≤ 36) (lower : Bool) (i : Int) :
    StartsWithSigned base (signedText base lower i) (decide (i < 0)) (numeral base i.natAbs) ∧
    signedValue base (decide (i < 0)) (numeral base i.natAbs) = i := by
  rw [signedText, StartsWithSigned, signedValue, numVal_numeral _ _ hb]
  by_cases h : i < 0
  · simp only [h, decide_true, if_true]
    exact ⟨⟨_, rfl, text_startsWith hb hb' lower _⟩, by omega⟩
  · simp only [h, decide_false, if_false, Bool.false_eq_true]
    exact ⟨⟨text_head_ne_minus hb hb' lower _, text_startsWith hb hb' lower _⟩, by omega⟩

theorem print_scan_signed_key {base : Nat} (hb : 2 ≤ base) (hb' : base ≤ 36) (lower : Bool) (buf : List Byte)
    (dest maxlen : Nat) (hroom : dest + maxlen ≤ buf.length) (sem : Signed) (w : Nat) (hw : 7 ≤ w) (v o : BitVec w)
    (hs : sem = .wrap ∨ v ≠ BitVec.intMin w) (r : ConvResult) (b : List Byte)
    (h1 : signedPrintResult base lower buf dest maxlen v.toInt = (r, b)) (h2 : r.ec = .ok) :
    scanIN w sem (some (b.drop dest)) r.size (some o) base = .ok (⟨r.size, .ok⟩, some v) := by
  rw [signedPrintResult] at h1
  split at h1
  · obtain ⟨rfl, rfl⟩ := Prod.mk.inj h1
    simp only
    have h3 := signedText_startsWith hb hb' lower v.toInt
    have hlo := BitVec.le_toInt v
    have hhi := BitVec.toInt_lt (x := v)
    rw [splice_at _ _ _ (by omega), scanIN_spec hw hb hb' _ _ _ _ h3.1 _ sem, signedResult, h3.2]
    · rw [if_neg (numeral_canonical base _ hb).2.2.1, if_pos ⟨hlo, hhi⟩]
      simp only [Option.map_some, BitVec.ofInt_toInt]
      congr 2
      by_cases hn : v.toInt < 0
      · simp only [signedText, hn, decide_true, if_true, List.length_cons, text_length]; rw [Nat.add_comm]
      · simp only [signedText, hn, decide_false, if_false, text_length]; simp
    · rcases hs with hs | hs
      · exact .inl hs
      · right; left
        rw [h3.2]
        intro h; apply hs; apply BitVec.eq_of_toInt_eq
        rw [h, BitVec.toInt_intMin_of_pos (by omega)]
  · obtain ⟨rfl, rfl⟩ := Prod.mk.inj h1
    simp at h2

/-- C14, signed, when the compiler defines signed overflow to wrap around: every value round-trips. -/
theorem C14_print_scan_signed_wrapping {base : Nat} (hb : 2 ≤ base) (hb' : base ≤ 36) (lower : Bool) (buf : List Byte)
    (dest maxlen : Nat) (hroom : dest + maxlen ≤ buf.length) :
    (∀ (v o : BitVec 32) (r : ConvResult) (b : List Byte), printI32 buf dest maxlen v base lower = .ok (r, b) → r.ec = .ok →
      scanIN 32 .wrap (some (b.drop dest)) r.size (some o) base = .ok (⟨r.size, .ok⟩, some v)) ∧
    (∀ (v o : BitVec 64) (r : ConvResult) (b : List Byte), printI64 buf dest maxlen v base lower = .ok (r, b) → r.ec = .ok →
      scanIN 64 .wrap (some (b.drop dest)) r.size (some o) base = .ok (⟨r.size, .ok⟩, some v)) := by
  constructor
  · intro v o r b h1
    rw [(C12_print_signed hb hb' lower buf dest maxlen hroom v 0).1] at h1
    exact print_scan_signed_key hb hb' lower buf dest maxlen hroom _ 32 (by decide) v o (.inl rfl) r b (by simpa using h1)
  · intro v o r b h1
    rw [(C12_print_signed hb hb' lower buf dest maxlen hroom 0 v).2] at h1
    exact print_scan_signed_key hb hb' lower buf dest maxlen hroom _ 64 (by decide) v o (.inl rfl) r b (by simpa using h1)

/-- C14, signed, under the language rules. Missing: the least value of the type, whose text cannot be scanned without
signed overflow (`C10_least_value_overflows`). -/
theorem C14_print_scan_signed_partial {base : Nat} (hb : 2 ≤ base) (hb' : base ≤ 36) (lower : Bool) (buf : List Byte)
    (dest maxlen : Nat) (hroom : dest + maxlen ≤ buf.length) :
    (∀ (v o : BitVec 32) (r : ConvResult) (b : List Byte), v.toInt ≠ -2 ^ 31 →
      printI32 buf dest maxlen v base lower = .ok (r, b) → r.ec = .ok →
      scanIN 32 .strict (some (b.drop dest)) r.size (some o) base = .ok (⟨r.size, .ok⟩, some v)) ∧
    (∀ (v o : BitVec 64) (r : ConvResult) (b : List Byte), v.toInt ≠ -2 ^ 63 →
      printI64 buf dest maxlen v base lower = .ok (r, b) → r.ec = .ok →
      scanIN 64 .strict (some (b.drop dest)) r.size (some o) base = .ok (⟨r.size, .ok⟩, some v)) := by
  constructor
  · intro v o r b hv h1
    rw [(C12_print_signed hb hb' lower buf dest maxlen hroom v 0).1] at h1
    exact print_scan_signed_key hb hb' lower buf dest maxlen hroom _ 32 (by decide) v o
      (.inr (by rintro rfl; exact hv (by decide))) r b (by simpa using h1)
  · intro v o r b hv h1
    rw [(C12_print_signed hb hb' lower buf dest maxlen hroom 0 v).2] at h1
    exact print_scan_signed_key hb hb' lower buf dest maxlen hroom _ 64 (by decide) v o
      (.inr (by rintro rfl; exact hv (by decide))) r b (by simpa using h1)

example : (printI32 [0, 0, 0, 0] 0 4 (-12) 10 true).map (fun r => r.1.ec) = .ok .ok := by decide +kernel

/-! ## C15 printing with a caller-supplied width -/

/-- C15: with assertions, any width other than the digit count stops the program before anything is written. -/
theorem C15_wrong_width_asserts (buf : List Byte) (dest maxlen width : Nat) (lower : Bool) :
    (∀ (v : BitVec 32), width ≠ (text 10 false v.toNat).length →
      printDecW (digitsCountDec32 v) buf dest maxlen width v = .error .assertion) ∧
    (∀ (w : Nat) (_ : 7 ≤ w) (v : BitVec w), width ≠ (text 16 lower v.toNat).length →
      printHexW buf dest maxlen width v lower = .error .assertion) := by
  constructor
  · intro v h
    rw [digitsCountDec32_spec, printDecW]
    by_cases h0 : width > 0
    · rw [assert, if_pos (by simpa using h0), ok_bind, assert, if_neg (by rw [text_length] at h; simpa using h)]; rfl
    · rw [assert, if_neg (by simpa using h0)]; rfl
  · intro w hw v h
    rw [printHexW]
    by_cases h0 : width > 0
    · rw [assert, if_pos (by simpa using h0), ok_bind, digitsCountHex_spec w v v.isLt, ok_bind, assert,
        if_neg (by rw [text_length] at h; simpa using h)]; rfl
    · rw [assert, if_neg (by simpa using h0)]; rfl

/-- C15, decimal with `TMC_CHECKED_WIDTH` and assertions compiled out: exact for every width. -/
theorem C15_checked_decimal {w : Nat} (hw : 7 ≤ w) (buf : List Byte) (dest maxlen width : Nat) (v : BitVec w)
    (hroom : dest + maxlen ≤ buf.length) :
    (width = (text 10 false v.toNat).length →
      printDecWC buf dest maxlen width v = .ok (printResult buf dest maxlen (text 10 false v.toNat))) ∧
    (width ≠ (text 10 false v.toNat).length → ∃ buf', printDecWC buf dest maxlen width v = .ok (⟨maxlen, .eoverflow⟩, buf') ∧
      SameOutside buf buf' dest maxlen) := printDecWC_spec hw buf dest maxlen width v hroom

example : printDecWC [0, 0, 0, 0] 0 4 2 (905 : BitVec 32) = .ok (⟨4, .eoverflow⟩, [48, 53, 0, 0]) := by decide +kernel

/-- C15, hexadecimal and any base with `TMC_CHECKED_WIDTH` and assertions compiled out. Missing: width 0 for the value 0 in
the hexadecimal printer (`C15_checked_hex_zero_width`), and that a width larger than the digit count is rejected
(`C15_checked_too_wide`). -/
theorem C15_checked_partial {w : Nat} (hw : 32 ≤ w) (lower : Bool) (buf : List Byte) (dest maxlen width : Nat) (v : BitVec w)
    (hroom : dest + maxlen ≤ buf.length) :
    ((width ≠ 0 ∨ v.toNat ≠ 0) → ∃ r buf', printHexWC buf dest maxlen width v lower = .ok (r, buf') ∧
      SameOutside buf buf' dest maxlen ∧ r.size ≤ maxlen ∧
      (width < (text 16 lower v.toNat).length → r = ⟨maxlen, .eoverflow⟩)) ∧
    (∀ base : Nat, 2 ≤ base → base ≤ 36 → ∃ r buf', printUWC buf dest maxlen width v base lower = .ok (r, buf') ∧
      SameOutside buf buf' dest maxlen ∧ r.size ≤ maxlen ∧
      (width < (text base lower v.toNat).length → r = ⟨maxlen, .eoverflow⟩)) :=
  ⟨printHexWC_safe (by omega) lower buf dest maxlen width v hroom,
    fun base hb hb' => printUWC_safe hw lower base hb hb' buf dest maxlen width v hroom⟩

example : printUWC [0, 0, 0, 0] 0 4 2 (13 : BitVec 32) 2 true = .ok (⟨4, .eoverflow⟩, [48, 49, 0, 0]) := by decide +kernel

/-- The defect: the checked hexadecimal printer given no room and width 0 for the value 0 writes a char out of bounds. -/
theorem C15_checked_hex_zero_width (buf : List Byte) (lower : Bool) :
    printHexWC buf buf.length 0 0 (0 : BitVec 32) lower = .error .oob := by
  rw [printHexWC, if_neg (by omega), if_pos rfl, wr, if_neg (by omega)]; rfl

/-- The defect: too large a width is accepted and cells of the reported text are never written (here the first two of
"??ab" and the first three of "???1"). -/
theorem C15_checked_too_wide (a b c d : Byte) :
    printHexWC [a, b, c, d] 0 4 4 (0xab : BitVec 32) true = .ok (⟨4, .ok⟩, [a, b, 97, 98]) ∧
    printUWC [a, b, c, d] 0 4 4 (1 : BitVec 32) 3 true = .ok (⟨4, .ok⟩, [a, b, c, 49]) := ⟨rfl, rfl⟩

/-! ## C16 hex dump -/

/-- C16: two digits per byte in order if they fit, otherwise nothing is written. The only assumption is that twice the number
of bytes does not wrap in `size_t`, which holds for every object in memory. -/
theorem C16_hex_bytes (lower : Bool) (buf : List Byte) (dest maxlen : Nat) (bytes : List Byte)
    (hsz : 2 * bytes.length < 2 ^ 64) (hroom : dest + maxlen ≤ buf.length) :
    printHexBytes buf dest maxlen bytes lower = .ok (printResult buf dest maxlen (hexText lower bytes)) :=
  printHexBytes_spec lower buf dest maxlen bytes hsz hroom

/-- C16: the text determines the bytes. -/
theorem C16_hex_bytes_injective (lower : Bool) (a b : List Byte) (h : hexText lower a = hexText lower b) : a = b :=
  hexText_inj lower a b h

example : printHexBytes [0, 0, 0, 0, 0] 1 4 [0xA5, 7] true = .ok (⟨4, .ok⟩, [0, 97, 53, 48, 55]) := by decide +kernel
example : printHexBytes [0, 0, 0, 0, 0] 1 3 [0xA5, 7] true = .ok (⟨3, .eoverflow⟩, [0, 0, 0, 0, 0]) := by decide +kernel

/-! ## C17 booleans -/

/-- The words, in small letters. -/
def wordTrue : List Byte := [116, 114, 117, 101]
/-- The word "false". -/
def wordFalse : List Byte := [102, 97, 108, 115, 101]

theorem spells_head {cs word : List Byte} {l : Byte} (h : Spells cs (l :: word)) : ∃ c cs', cs = c :: cs' ∧ SameLetter c l := by
  cases h with
  | cons h1 h2 => exact ⟨_, _, rfl, h1⟩

/-- The exact behaviour of `scan_bool` on a string that does not start with '0' or '1'. -/
theorem scanBool_words (s tail : List Byte) (hz : (0 : Byte) ∉ s) (h1 : s.head? ≠ some 49) (h0 : s.head? ≠ some 48)
    (out : Option Bool) :
    ((∃ cs c rest, s = cs ++ c :: rest ∧ Spells cs wordTrue.dropLast) →
      scanBool (some (s ++ 0 :: tail)) out = .ok (⟨4, .ok⟩, out.map fun _ => true)) ∧
    ((∃ cs c rest, s = cs ++ c :: rest ∧ Spells cs wordFalse.dropLast) →
      scanBool (some (s ++ 0 :: tail)) out = .ok (⟨5, .ok⟩, out.map fun _ => false)) ∧
    ((¬ ∃ cs c rest, s = cs ++ c :: rest ∧ Spells cs wordTrue.dropLast) →
      (¬ ∃ cs c rest, s = cs ++ c :: rest ∧ Spells cs wordFalse.dropLast) →
      scanBool (some (s ++ 0 :: tail)) out = .ok (⟨0, .einval⟩, out)) := by
  obtain ⟨t, ht1, ht2⟩ := strnicmp_word wordTrue (by decide) (by decide) (by decide) s tail hz
  obtain ⟨f, hf1, hf2⟩ := strnicmp_word wordFalse (by decide) (by decide) (by decide) s tail hz
  have hb : scanBool (some (s ++ 0 :: tail)) out =
      if t = 0 then .ok (⟨4, .ok⟩, out.map fun _ => true)
      else if f = 0 then .ok (⟨5, .ok⟩, out.map fun _ => false) else .ok (⟨0, .einval⟩, out) := by
    rw [scanBool, scanBoolBody]
    have hr : ∃ c, rd (s ++ 0 :: tail) 0 = .ok c ∧ c ≠ 49 ∧ c ≠ 48 := by
      cases s with
      | nil => exact ⟨0, rfl, by decide, by decide⟩
      | cons c s => exact ⟨c, rfl, by simpa using h1, by simpa using h0⟩
    obtain ⟨c, hc, hc1, hc0⟩ := hr
    rw [hc, ok_bind, if_neg hc1, if_neg hc0]
    have e1 : strnicmp (s ++ 0 :: tail) litTrue 4 = .ok t := ht1
    have e2 : strnicmp (s ++ 0 :: tail) litFalse 5 = .ok f := hf1
    rw [e1, ok_bind]
    split
    · rfl
    · rw [e2, ok_bind]
  rw [hb, ← ht2, ← hf2]
  refine ⟨fun h => if_pos h, fun h => ?_, fun h h' => by rw [if_neg h, if_neg h']⟩
  rw [if_neg, if_pos h]
  intro h3
  obtain ⟨cs, c, rest, h4, h5⟩ := ht2.1 h3
  obtain ⟨cs', c', rest', h4', h5'⟩ := hf2.1 h
  obtain ⟨x, xs, rfl, hx⟩ := spells_head h5
  obtain ⟨y, ys, rfl, hy⟩ := spells_head h5'
  rw [h4, List.cons_append, List.cons_append, List.cons.injEq] at h4'
  rw [← h4'.1] at hy
  have e1 : (116 : Byte).toNat = 116 := rfl
  have e2 : (102 : Byte).toNat = 102 := rfl
  simp only [SameLetter, e1, e2] at hx hy
  omega

/-- C17 for `scan_bool`: the documented literals are accepted; a string with another first letter, or differing from both words
in one of their first three resp. four letters, or ending there, is rejected. Missing: rejecting a string that differs from
the word exactly in its last letter (`C17_scan_bool_wrong_last_letter` shows it is accepted). -/
theorem C17_scan_bool_partial (s tail : List Byte) (hz : (0 : Byte) ∉ s) (out : Option Bool) :
    (s.head? = some 49 → scanBool (some (s ++ 0 :: tail)) out = .ok (⟨1, .ok⟩, out.map fun _ => true)) ∧
    (s.head? = some 48 → scanBool (some (s ++ 0 :: tail)) out = .ok (⟨1, .ok⟩, out.map fun _ => false)) ∧
    ((∃ cs rest, s = cs ++ rest ∧ Spells cs wordTrue) →
      scanBool (some (s ++ 0 :: tail)) out = .ok (⟨4, .ok⟩, out.map fun _ => true)) ∧
    ((∃ cs rest, s = cs ++ rest ∧ Spells cs wordFalse) →
      scanBool (some (s ++ 0 :: tail)) out = .ok (⟨5, .ok⟩, out.map fun _ => false)) ∧
    (s.head? ≠ some 49 → s.head? ≠ some 48 →
      (¬ ∃ cs c rest, s = cs ++ c :: rest ∧ Spells cs wordTrue.dropLast) →
      (¬ ∃ cs c rest, s = cs ++ c :: rest ∧ Spells cs wordFalse.dropLast) →
      scanBool (some (s ++ 0 :: tail)) out = .ok (⟨0, .einval⟩, out)) := by
  have hlast : ∀ (word init : List Byte) (l : Byte), word = init ++ [l] →
      (∃ cs rest, s = cs ++ rest ∧ Spells cs word) → ∃ cs c rest, s = cs ++ c :: rest ∧ Spells cs init := by
    rintro word init l rfl ⟨cs, rest, h1, h2⟩
    obtain ⟨cs1, cs2, h3, h4, rfl⟩ : ∃ a b, List.Forall₂ SameLetter a init ∧ List.Forall₂ SameLetter b [l] ∧ cs = a ++ b :=
      ⟨_, _, List.forall₂_take_append _ _ _ h2, List.forall₂_drop_append _ _ _ h2, (List.take_append_drop _ _).symm⟩
    cases h4 with
    | cons h5 h6 => cases h6; exact ⟨cs1, _, rest, by simpa using h1, h3⟩
  have hhead : ∀ (l : Byte) (word : List Byte), 97 ≤ l.toNat → (∃ cs rest, s = cs ++ rest ∧ Spells cs (l :: word)) →
      s.head? ≠ some 49 ∧ s.head? ≠ some 48 := by
    rintro l word hl ⟨cs, rest, h1, h2⟩
    obtain ⟨x, xs, rfl, hx⟩ := spells_head h2
    rw [h1]
    simp only [List.cons_append, List.head?_cons, ne_eq, Option.some.injEq]
    constructor
    · rintro rfl
      have : (49 : Byte).toNat = 49 := rfl
      rw [SameLetter] at hx; omega
    · rintro rfl
      have : (48 : Byte).toNat = 48 := rfl
      rw [SameLetter] at hx; omega
  refine ⟨fun h => ?_, fun h => ?_, fun h => ?_, fun h => ?_, fun h1 h0 ht hf => ?_⟩
  · cases s with
    | nil => cases h
    | cons c s => simp at h; subst h; rfl
  · cases s with
    | nil => cases h
    | cons c s => simp at h; subst h; rfl
  · have := hhead 116 _ (by decide) h
    exact (scanBool_words s tail hz this.1 this.2 out).1 (hlast _ _ _ rfl h)
  · have := hhead 102 _ (by decide) h
    exact (scanBool_words s tail hz this.1 this.2 out).2.1 (hlast _ _ _ rfl h)
  · exact (scanBool_words s tail hz h1 h0 out).2.2 ht hf

-- "TrUe!"
example : Spells [84, 114, 85, 101] wordTrue :=
  .cons (by unfold SameLetter; decide) (.cons (by unfold SameLetter; decide)
    (.cons (by unfold SameLetter; decide) (.cons (by unfold SameLetter; decide) .nil)))
example : scanBool (some [84, 114, 85, 101, 33, 0]) (some false) = .ok (⟨4, .ok⟩, some true) := by decide +kernel
example : scanBool (some [121, 101, 115, 0]) (some false) = .ok (⟨0, .einval⟩, some false) := by decide +kernel

/-- The defect: the last letter of the word is not checked. "trux" scans as true, "falsx" as false, whatever `x` is. -/
theorem C17_scan_bool_wrong_last_letter (x : Byte) (hx : x ≠ 0) (rest tail : List Byte) (hz : (0 : Byte) ∉ rest)
    (out : Option Bool) :
    scanBool (some ([116, 114, 117, x] ++ rest ++ 0 :: tail)) out = .ok (⟨4, .ok⟩, out.map fun _ => true) ∧
    scanBool (some ([102, 97, 108, 115, x] ++ rest ++ 0 :: tail)) out = .ok (⟨5, .ok⟩, out.map fun _ => false) := by
  have refl : ∀ l : Byte, SameLetter l l := fun l => .inl rfl
  constructor
  · refine (scanBool_words ([116, 114, 117, x] ++ rest) tail ?_ (by simp) (by simp) out).1
      ⟨[116, 114, 117], x, rest, by simp, .cons (refl _) (.cons (refl _) (.cons (refl _) .nil))⟩
    simp only [List.cons_append, List.nil_append, List.mem_cons, not_or]
    exact ⟨by decide, by decide, by decide, Ne.symm hx, hz⟩
  · refine (scanBool_words ([102, 97, 108, 115, x] ++ rest) tail ?_ (by simp) (by simp) out).2.1
      ⟨[102, 97, 108, 115], x, rest, by simp, .cons (refl _) (.cons (refl _) (.cons (refl _) (.cons (refl _) .nil)))⟩
    simp only [List.cons_append, List.nil_append, List.mem_cons, not_or]
    exact ⟨by decide, by decide, by decide, by decide, Ne.symm hx, hz⟩

/-- C17 for `scan_bool_n`: '1' and '0' for every length; the words when the length is exactly that of the word and one more
char can be read behind them. Missing: every other text (see the two theorems below). -/
theorem C17_scan_bool_n_partial (out : Option Bool) (tail : List Byte) :
    (∀ s, s.head? = some 49 → scanBoolN (some (s ++ tail)) s.length out = .ok (⟨1, .ok⟩, out.map fun _ => true)) ∧
    (∀ s, s.head? = some 48 → scanBoolN (some (s ++ tail)) s.length out = .ok (⟨1, .ok⟩, out.map fun _ => false)) ∧
    (∀ s x, Spells s wordTrue → scanBoolN (some (s ++ x :: tail)) s.length out = .ok (⟨4, .ok⟩, out.map fun _ => true)) ∧
    (∀ s x, Spells s wordFalse → scanBoolN (some (s ++ x :: tail)) s.length out = .ok (⟨5, .ok⟩, out.map fun _ => false)) ∧
    scanBoolN none 0 out = .ok (⟨0, .einval⟩, out) := by
  refine ⟨?_, ?_, ?_, ?_, rfl⟩
  · intro s h
    cases s with
    | nil => cases h
    | cons c s => simp at h; subst h; rfl
  · intro s h
    cases s with
    | nil => cases h
    | cons c s => simp at h; subst h; rfl
  · intro s x h
    have hl : s.length = 4 := h.length_eq
    have h3 := strnicmp_spelled wordTrue (by decide) (by decide) s h x tail
    obtain ⟨c, cs, rfl, hc⟩ := spells_head h
    have e : (116 : Byte).toNat = 116 := rfl
    rw [SameLetter, e] at hc
    have e1 : (49 : Byte).toNat = 49 := rfl
    have e0 : (48 : Byte).toNat = 48 := rfl
    rw [scanBoolN, hl]
    simp only [Option.isSome_some, Bool.true_or, assert, if_true, ok_bind, Option.getD_some]
    rw [if_neg (by decide), scanBoolBody, List.cons_append, rd, List.getElem?_cons_zero]
    simp only [ok_bind]
    rw [if_neg (by rintro rfl; omega), if_neg (by rintro rfl; omega)]
    rw [show strnicmp (c :: (cs ++ x :: tail)) litTrue (BitVec.ofNat 64 4) = .ok 0 from h3, ok_bind, if_pos rfl]
  · intro s x h
    have hl : s.length = 5 := h.length_eq
    have h3 := strnicmp_spelled wordFalse (by decide) (by decide) s h x tail
    obtain ⟨c, cs, rfl, hc⟩ := spells_head h
    have e : (102 : Byte).toNat = 102 := rfl
    rw [SameLetter, e] at hc
    have e1 : (49 : Byte).toNat = 49 := rfl
    have e0 : (48 : Byte).toNat = 48 := rfl
    have e2 : (0 : Byte).toNat = 0 := rfl
    have e3 : (116 : Byte).toNat = 116 := rfl
    have hne : toupper c ≠ toupper 116 := by
      rw [ne_eq, toupper_letter _ _ (by decide) (by decide), SameLetter, e3]; omega
    have h4 : ∃ r, strnicmp (c :: (cs ++ x :: tail)) litTrue (BitVec.ofNat 64 5) = .ok r ∧ r ≠ 0 := by
      obtain ⟨r, h5, h6⟩ := strnicmpEnd_ne c 116 (cs ++ x :: tail) [114, 117, 101, 0] (BitVec.ofNat 64 4) (by decide) hne
      refine ⟨r, ?_, h6⟩
      rw [strnicmp.eq_def]
      simp only [litTrue]
      rw [if_neg (by rintro rfl; omega), if_neg (by decide), if_neg (by decide), if_pos hne]
      exact h5
    obtain ⟨r, h5, h6⟩ := h4
    rw [scanBoolN, hl]
    simp only [Option.isSome_some, Bool.true_or, assert, if_true, ok_bind, Option.getD_some]
    rw [if_neg (by decide), scanBoolBody, List.cons_append, rd, List.getElem?_cons_zero]
    simp only [ok_bind]
    rw [if_neg (by rintro rfl; omega), if_neg (by rintro rfl; omega), h5, ok_bind, if_neg h6]
    rw [show strnicmp (c :: (cs ++ x :: tail)) litFalse (BitVec.ofNat 64 5) = .ok 0 from h3, ok_bind, if_pos rfl]

example : scanBoolN (some [70, 65, 76, 83, 69, 33]) 5 (some true) = .ok (⟨5, .ok⟩, some false) := by decide +kernel

/-- The defect: on a buffer that holds exactly "true" the counted form reads the byte behind the buffer. -/
theorem C17_scan_bool_n_reads_past_end (out : Option Bool) : scanBoolN (some wordTrue) 4 out = .error .oob := by
  cases out <;> rfl

/-- The defect: the counted form accepts texts that are no literal, and returns a size larger than the text: the one char "x".
For the two chars "tr" the answer depends on the memory behind the text. -/
theorem C17_scan_bool_n_accepts_garbage (tail : List Byte) (out : Option Bool) :
    scanBoolN (some (120 :: tail)) 1 out = .ok (⟨4, .ok⟩, out.map fun _ => true) ∧
    scanBoolN (some ([116, 114] ++ 117 :: tail)) 2 out = .ok (⟨4, .ok⟩, out.map fun _ => true) ∧
    scanBoolN (some ([116, 114] ++ 120 :: tail)) 2 out = .ok (⟨0, .einval⟩, out) := ⟨rfl, rfl, rfl⟩

/-- `print_bool` prints as much of the word (or digit) as fits. -/
theorem C17_print_bool (buf : List Byte) (dest maxlen : Nat) (hm : 0 < maxlen) (hroom : dest + maxlen ≤ buf.length)
    (value : Bool) :
    printBool buf dest maxlen value false = .ok (printStringResult buf dest maxlen (if value then wordTrue else wordFalse)) ∧
    printBool buf dest maxlen value true = .ok (printStringResult buf dest maxlen (if value then [49] else [48])) := by
  constructor
  · cases value
    · exact printString_spec buf dest maxlen wordFalse (by decide) hm hroom
    · exact printString_spec buf dest maxlen wordTrue (by decide) hm hroom
  · cases value
    · exact printString_spec buf dest maxlen [48] (by decide) hm hroom
    · exact printString_spec buf dest maxlen [49] (by decide) hm hroom

example : printBool [0, 0, 0] 0 3 true false = .ok (⟨3, .eoverflow⟩, [116, 114, 117]) := by decide +kernel

end Tm.Conv
