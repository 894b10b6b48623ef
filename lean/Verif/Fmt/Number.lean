import Verif.Fmt.Layout
/-! # Formatted integers and strings -/
namespace Tm.Fmt
open Tm.Num Tm.Conv Tm.Dbl

/-- The base is one that numbers can be printed in. -/
def PrintFormat.BaseOk (f : PrintFormat) (base : Nat) : Prop := f.base = base ∧ 2 ≤ base ∧ base ≤ 36

/-- What a number looks like in a format. -/
def numberText (f : PrintFormat) (base : Nat) (negative : Bool) (n : Nat) : List Byte :=
  layoutOf f negative (text base (if base = 10 then false else f.lowercase) n)

theorem countDecimal_spec {w : Nat} (hw : w = 32 ∨ w = 64) (v : BitVec w) : countDecimal v = .ok (numeral 10 v.toNat).length := by
  rcases hw with rfl | rfl
  · rw [countDecimal, if_pos rfl, digitsCountDec32_spec]; simp
  · rw [countDecimal, if_neg (by decide), digitsCountDec64_spec]; simp

theorem getPrintSizes_spec {w : Nat} (hw : w = 32 ∨ w = 64) (v : BitVec w) {f : PrintFormat} {base : Nat} (hb : f.BaseOk base) (negative : Bool) :
    getPrintSizes v f negative = .ok (sizesOf (numeral base v.toNat).length f negative) := by
  obtain ⟨h1, h2, h3⟩ := hb
  rw [getPrintSizes, countDigits, h1]
  by_cases h10 : base = 10
  · subst h10
    rw [if_pos (by decide), countDecimal_spec hw, ok_bind]
  · by_cases h16 : base = 16
    · subst h16
      rw [if_neg (by decide), if_pos (by decide), digitsCountHex_spec w v v.isLt, ok_bind]
    · rw [if_neg (by omega), if_neg (by omega), digitsCount_spec (by omega) v base h2 h3, ok_bind]

theorem formattedUnsigned_spec {w : Nat} (hw : w = 32 ∨ w = 64) (v : BitVec w) {f : PrintFormat} {base : Nat} (hb : f.BaseOk base)
    (hp : f.OnePrefix) (negative : Bool) {buf : List Byte} {dest maxlen : Nat} (hroom : dest + maxlen ≤ buf.length)
    (hfit : (numberText f base negative v.toNat).length ≤ maxlen) :
    formattedUnsigned buf dest maxlen (sizesOf (numeral base v.toNat).length f negative) f v negative
      = .ok (⟨(numberText f base negative v.toNat).length, .ok⟩, splice buf dest (numberText f base negative v.toNat)) := by
  unfold numberText at *
  set lower := (if base = 10 then false else f.lowercase) with hlower
  set ds := text base lower v.toNat with hds
  have hn : (numeral base v.toNat).length = ds.length := by rw [hds, Num.text_length]
  obtain ⟨b, d1, d2, d3, d4, -⟩ := decoration_digits hp negative ds hroom hfit
  rw [hn, formattedUnsigned]
  have hsz : (sizesOf ds.length f negative).size = (layoutOf f negative ds).length := by rw [sizesOf_eq hp]
  have hdg : (sizesOf ds.length f negative).digits = ds.length := by rw [sizesOf_eq hp]
  rw [if_neg (by omega), d1, ok_bind]
  dsimp only
  have hpad : (if f.leftJustify = true then (sizesOf ds.length f negative).decorated - (sizesOf ds.length f negative).digits
      else (sizesOf ds.length f negative).size - (sizesOf ds.length f negative).digits)
      = (if (f.leftJustify || decide (f.width ≤ 0)) = true then (sizesOf ds.length f negative).decorated - ds.length
        else (sizesOf ds.length f negative).size - ds.length) := by
    rw [hdg]
    by_cases hl : f.leftJustify = true
    · simp [hl]
    · by_cases h0 : f.width ≤ 0
      · rw [if_neg hl, if_pos (by simp [h0])]
        rw [sizesOf]
        dsimp only
        rw [if_neg (by omega)]
      · rw [if_neg hl, if_neg (by simp [h0]; simpa using hl)]
  rw [hpad]
  generalize (if (f.leftJustify || decide (f.width ≤ 0)) = true then (sizesOf ds.length f negative).decorated - ds.length
        else (sizesOf ds.length f negative).size - ds.length) = pos at d3 d4 ⊢
  obtain ⟨h1, h2, h3⟩ := hb
  have hprint : printNumber b (dest + pos) (maxlen - pos) (sizesOf ds.length f negative) f v
      = .ok (printResult b (dest + pos) (maxlen - pos) ds) := by
    rw [printNumber, hdg, h1, ← hn]
    by_cases h10 : base = 10
    · subst h10
      rw [if_pos (by decide), countDecimal_spec hw, ok_bind, printDecW_spec (by omega) _ _ _ _ (by omega)]
      simp only [hds, hlower, if_true]
    · by_cases h16 : base = 16
      · subst h16
        rw [if_neg (by decide), if_pos (by decide), printHexW_spec (by omega) _ _ _ _ _ (by omega)]
        simp only [hds, hlower]
        rfl
      · rw [if_neg (by omega), if_neg (by omega), printUW_spec (by omega) _ base h2 h3 _ _ _ _ (by omega)]
        simp only [hds, hlower, if_neg h10]
  rw [hprint, ok_bind, printResult, if_pos (show ds.length ≤ maxlen - pos by omega)]
  dsimp only
  rw [if_neg (by simp), hsz, d3]

/-! ## strings -/

theorem formattedString_spec {buf : List Byte} {dest maxlen : Nat} {f : PrintFormat} {str : List Byte} {strWidth : Nat}
    (hw : f.width.toNat ≤ str.length) (hroom : dest + maxlen ≤ buf.length) :
    formattedString buf dest maxlen f str strWidth
      = .ok (if str.length ≤ maxlen then (⟨str.length, .ok⟩, splice buf dest str) else (⟨maxlen, .eoverflow⟩, buf)) := by
  rw [formattedString]
  have hs : (if f.width > 0 then str.length + (if f.width.toNat > strWidth then f.width.toNat - f.width.toNat else 0) else str.length)
      = str.length := by split <;> (try split) <;> omega
  simp only [hs]
  by_cases h : str.length ≤ maxlen
  · rw [if_neg (by omega), if_neg (by omega), if_pos h, assert, if_pos (by simpa using h), ok_bind, memcpy_spec _ _ _ (by omega), ok_bind]
  · rw [if_pos (by omega), if_neg h]

theorem formattedBool_spec {buf : List Byte} {dest maxlen : Nat} {f : PrintFormat} {b : Bool}
    (hw : f.width.toNat ≤ (boolWord f b).length) (hroom : dest + maxlen ≤ buf.length) :
    formattedBool buf dest maxlen f b
      = .ok (if (boolWord f b).length ≤ maxlen then (⟨(boolWord f b).length, .ok⟩, splice buf dest (boolWord f b)) else (⟨maxlen, .eoverflow⟩, buf)) :=
  formattedString_spec hw hroom

end Tm.Fmt
