import Verif.U128.TextLemmas
import Verif.Conv.Props
/-!
# Properties of the text conversions of 128-bit integers (C07)
-/
namespace Tm.U128
open Tm.Conv Tm.Num

/-- C07, printing: the canonical numeral of the value (`C12_canonical_exists_unique` says what `text` is), or nothing and an
overflow when it does not fit. -/
theorem C07_print {base : Nat} (hb : 2 ≤ base) (hb' : base ≤ 36) (lower : Bool) (buf : List Byte)
    (dest maxlen : Nat) (hroom : dest + maxlen ≤ buf.length) (v : U128) :
    printU128 buf dest maxlen v base lower =
      if (text base lower v.toNat).length ≤ maxlen
      then .ok (⟨(text base lower v.toNat).length, .ok⟩, splice buf dest (text base lower v.toNat))
      else .ok (⟨maxlen, .eoverflow⟩, buf) := by
  rw [printU128_spec lower base hb hb' buf dest maxlen v hroom, printResult]
  split <;> rfl

/-- C07, the number of digits is that of the canonical numeral. -/
theorem C07_digits_count {base : Nat} (hb : 2 ≤ base) (hb' : base ≤ 36) (v : U128) (ds : List Nat)
    (h : Canonical base v.toNat ds) : digitsCount v base = .ok ds.length := by
  rw [canonical_unique hb h, digitsCount_spec v base hb hb']

example : printU128 [7, 7, 7, 7] 1 3 (ofNat 255) 16 true = .ok (⟨2, .ok⟩, [7, 102, 102, 7]) := by decide +kernel
example : printU128 (List.replicate 40 7) 0 40 max 10 true = .ok (⟨39, .ok⟩,
    [51,52,48,50,56,50,51,54,54,57,50,48,57,51,56,52,54,51,52,54,51,51,55,52,54,48,55,52,51,49,55,54,56,50,49,49,52,53,53,7]) := by
  decide +kernel

/-- C07, scanning, both forms: the longest digit sequence is read and its value stored if it is below 2^128. -/
theorem C07_scan {base : Nat} (hb : 2 ≤ base) (hb' : base ≤ 36) (s tail : List Byte)
    (ds : List Nat) (h : StartsWithNumeral base s ds) (out : Option U128) :
    scanU128N (some (s ++ tail)) s.length out base = .ok (u128Result base ds out) ∧
    ((0 : Byte) ∉ s → scanU128 (some (s ++ 0 :: tail)) out base = .ok (u128Result base ds out)) :=
  ⟨scanU128N_spec hb hb' s tail ds h out, fun hz => scanU128_spec hb hb' s tail hz ds h out⟩

example : scanU128N (some [52, 50, 120]) 3 (some zero) 10 = .ok (⟨2, .ok⟩, some (ofNat 42)) := by decide +kernel
-- 2^128 is out of range, 2^128 - 1 is not
example : scanU128 (some ([51,52,48,50,56,50,51,54,54,57,50,48,57,51,56,52,54,51,52,54,51,51,55,52,54,48,55,52,51,49,55,54,56,
    50,49,49,52,53,54,0])) (some one) 10 = .ok (⟨39, .erange⟩, some one) := by decide +kernel
example : scanU128 (some ([51,52,48,50,56,50,51,54,54,57,50,48,57,51,56,52,54,51,52,54,51,51,55,52,54,48,55,52,51,49,55,54,56,
    50,49,49,52,53,53,0])) (some one) 10 = .ok (⟨39, .ok⟩, some max) := by decide +kernel

/-- C07, scanning without text: nothing is stored. -/
theorem C07_scan_null {base : Nat} (hb : 2 ≤ base) (hb' : base ≤ 36) (out : Option U128) (s : Option (List Byte)) :
    scanU128 none out base = .ok (⟨0, .einval⟩, out) ∧ scanU128N s 0 out base = .ok (⟨0, .einval⟩, out) := by
  constructor
  · rw [scanU128, assert, if_pos (baseOk_nat hb hb')]; rfl
  · rw [scanU128N, assert, if_pos (baseOk_nat hb hb')]; rfl

/-- C07: scanning the `size` chars which the printer wrote gives the value back and consumes all of them. -/
theorem C07_print_scan {base : Nat} (hb : 2 ≤ base) (hb' : base ≤ 36) (lower : Bool) (buf : List Byte)
    (dest maxlen : Nat) (hroom : dest + maxlen ≤ buf.length) (v o : U128) (r : ConvResult) (b : List Byte)
    (h : printU128 buf dest maxlen v base lower = .ok (r, b)) (hok : r.ec = .ok) :
    scanU128N (some (b.drop dest)) r.size (some o) base = .ok (⟨r.size, .ok⟩, some v) ∧
    fromStringN (some (b.drop dest)) r.size base = .ok v := by
  rw [printU128_spec lower base hb hb' buf dest maxlen v hroom, printResult] at h
  split at h
  · obtain ⟨rfl, rfl⟩ := Prod.mk.inj (Except.ok.inj h)
    have hv : ofNat v.toNat = v := by
      apply toNat_inj; rw [toNat_ofNat, Nat.mod_eq_of_lt (toNat_lt v)]
    have key : ∀ o, scanU128N (some ((splice buf dest (text base lower v.toNat)).drop dest)) (text base lower v.toNat).length
        (some o) base = .ok (⟨(text base lower v.toNat).length, .ok⟩, some v) := by
      intro o
      rw [splice_at _ _ _ (by omega), scanU128N_spec hb hb' _ _ _ (text_startsWith hb hb' lower v.toNat)]
      rw [u128Result, if_neg (numeral_canonical base _ hb).2.2.1, numVal_numeral _ _ hb, if_pos (toNat_lt v), text_length, hv]
      rfl
    refine ⟨key o, ?_⟩
    simp only
    rw [fromStringN, key]; rfl
  · obtain ⟨rfl, rfl⟩ := Prod.mk.inj (Except.ok.inj h)
    simp at hok

example : fromStringN (some [70, 102]) 2 16 = .ok (ofNat 255) := by decide +kernel

/-- C07, caller-supplied width: with assertions any width but the digit count stops the program; without them the printer
stays inside the `maxlen` chars and reports an overflow for a width which is too small. -/
theorem C07_print_width {base : Nat} (hb : 2 ≤ base) (hb' : base ≤ 36) (lower : Bool) (buf : List Byte)
    (dest maxlen width : Nat) (v : U128) (hroom : dest + maxlen ≤ buf.length) :
    (width ≠ (text base lower v.toNat).length → printU128W buf dest maxlen width v base lower = .error .assertion) ∧
    (∃ r buf', printU128Body false buf dest maxlen width v base lower = .ok (r, buf') ∧ SameOutside buf buf' dest maxlen ∧
      r.size ≤ maxlen ∧ (width < (text base lower v.toNat).length → r = ⟨maxlen, .eoverflow⟩)) ∧
    (width = (text base lower v.toNat).length → printU128W buf dest maxlen width v base lower
      = printU128Body false buf dest maxlen width v base lower) := by
  have hpos := numeral_length_pos base v.toNat hb
  refine ⟨?_, printU128Body_safe lower base hb hb' buf dest maxlen width v hroom, ?_⟩
  · intro hw
    rw [text_length] at hw
    rw [printU128W, assert, if_pos (baseOk_nat hb hb'), ok_bind]
    by_cases h0 : width > 0
    · rw [assert, if_pos (by simpa using h0), ok_bind, digitsCount_spec v base hb hb', ok_bind, assert, if_neg (by simpa using hw)]
      rfl
    · rw [assert, if_neg (by simpa using h0)]; rfl
  · intro hw
    rw [text_length] at hw
    subst hw
    rw [printU128W_spec lower base hb hb' buf dest maxlen v hroom, printU128W, assert, if_pos (baseOk_nat hb hb'), ok_bind,
      assert, if_pos (by simpa using hpos), ok_bind, digitsCount_spec v base hb hb', ok_bind, assert, if_pos (by simp), ok_bind,
      printU128W_spec lower base hb hb' buf dest maxlen v hroom]

example : printU128Body false [7, 7, 7] 0 3 2 (ofNat 905) 10 true = .ok (⟨3, .eoverflow⟩, [48, 53, 7]) := by decide +kernel

/-- With assertions compiled out a width which is too large is accepted and leaves the leading cells unwritten. -/
theorem C07_print_too_wide (a b c : Byte) :
    printU128Body false [a, b, c] 0 3 3 (ofNat 7) 10 true = .ok (⟨3, .ok⟩, [a, b, 55]) := by
  rfl

end Tm.U128
