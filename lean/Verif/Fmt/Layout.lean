import Verif.Fmt.Spec
import Verif.Conv.PrintLemmas
import Verif.Conv.Bool
/-! # Where the pieces of a formatted number are written -/
namespace Tm.Fmt
open Tm.Num Tm.Conv Tm.Dbl

/-- Sizes of lists. -/
macro "lens" : tactic => `(tactic| first
  | omega
  | (simp only [List.length_append, List.length_replicate, List.length_cons, List.length_nil]; try omega))

/-! ## writing next to each other -/

theorem splice_after {buf s t : List Byte} {p q : Nat} (hq : q = p + s.length) (h : p + s.length + t.length ≤ buf.length) :
    splice (splice buf p s) q t = splice buf p (s ++ t) := by
  subst hq
  have hl := splice_length buf p s (by omega)
  apply List.ext_getElem?
  intro i
  rw [splice_get _ _ _ (by omega), splice_get _ _ _ (by omega), splice_get _ _ _ (by lens)]
  simp only [List.length_append]
  by_cases h1 : p ≤ i ∧ i < p + s.length
  · rw [if_neg (by omega), if_pos h1, if_pos (by omega), List.getElem?_append_left (by omega)]
  · by_cases h2 : p + s.length ≤ i ∧ i < p + s.length + t.length
    · rw [if_pos h2, if_pos (by omega), List.getElem?_append_right (by omega)]
      congr 1; omega
    · rw [if_neg h2, if_neg h1, if_neg (by omega)]

theorem splice_comm {buf s t : List Byte} {p q : Nat} (h : p + s.length ≤ q ∨ q + t.length ≤ p) (h1 : p + s.length ≤ buf.length)
    (h2 : q + t.length ≤ buf.length) : splice (splice buf p s) q t = splice (splice buf q t) p s := by
  have hl := splice_length buf p s h1
  have hl' := splice_length buf q t h2
  apply List.ext_getElem?
  intro i
  rw [splice_get _ _ _ (by omega), splice_get _ _ _ (by omega), splice_get _ _ _ (by omega), splice_get _ _ _ (by omega)]
  by_cases h3 : p ≤ i ∧ i < p + s.length
  · rw [if_neg (by omega), if_pos h3, if_pos h3]
  · rw [if_neg h3, if_neg h3]

theorem splice_three {buf A B C : List Byte} {dest p q : Nat} (hp : p = dest + A.length) (hq : q = dest + (A.length + B.length))
    (h : dest + (A.length + B.length + C.length) ≤ buf.length) :
    splice (splice (splice buf dest A) p B) q C = splice buf dest (A ++ B ++ C) := by
  have e1 : splice (splice buf dest A) p B = splice buf dest (A ++ B) := splice_after hp (by omega)
  rw [e1, splice_after (by lens) (by lens)]

theorem splice_last {buf A B C : List Byte} {dest p q : Nat} (hp : p = dest + (A.length + B.length)) (hq : q = dest + A.length)
    (h : dest + (A.length + B.length + C.length) ≤ buf.length) :
    splice (splice (splice buf p C) dest A) q B = splice buf dest (A ++ B ++ C) := by
  subst hp hq
  have e1 : splice (splice buf (dest + (A.length + B.length)) C) dest A = splice (splice buf dest A) (dest + (A.length + B.length)) C :=
    splice_comm (by omega) (by omega) (by omega)
  have e2 : splice (splice (splice buf dest A) (dest + (A.length + B.length)) C) (dest + A.length) B
      = splice (splice (splice buf dest A) (dest + A.length) B) (dest + (A.length + B.length)) C :=
    splice_comm (by omega) (by rw [splice_length _ _ _ (by omega)]; omega) (by rw [splice_length _ _ _ (by omega)]; omega)
  rw [e1, e2, splice_three rfl rfl h]

theorem splice_middle {buf A B C : List Byte} {dest p q : Nat} (hp : p = dest + A.length) (hq : q = dest + (A.length + C.length))
    (h : dest + (A.length + B.length + C.length) ≤ buf.length) :
    splice (splice (splice buf p C) dest A) q B = splice buf dest (A ++ C ++ B) := by
  subst hp hq
  have e1 : splice (splice buf (dest + A.length) C) dest A = splice (splice buf dest A) (dest + A.length) C :=
    splice_comm (by omega) (by omega) (by omega)
  rw [e1, splice_three rfl rfl (by omega)]

theorem wr_eq {buf : List Byte} {p : Nat} {c : Byte} (h : p < buf.length) : wr buf p c = .ok (splice buf p [c]) := by
  have := wr_splice buf p [] c (by lens)
  rwa [splice_nil] at this

/-! ## the decoration -/

/-- The sign that is printed. -/
def signBytes (f : PrintFormat) (negative : Bool) : List Byte := if negative then [45] else if f.sign then [43] else []

/-- The prefix that is printed. -/
def prefixBytes (f : PrintFormat) : List Byte :=
  if f.prependHex then [48, if f.lowercase then 120 else 88]
  else if f.prependBinary then [48, if f.lowercase then 98 else 66]
  else if f.prependOctal then [48] else []

/-- The prefixes exclude each other. -/
def PrintFormat.OnePrefix (f : PrintFormat) : Prop := f.prependOctal = true → f.prependHex = false ∧ f.prependBinary = false

/-- The whole number. -/
def layoutOf (f : PrintFormat) (negative : Bool) (digits : List Byte) : List Byte :=
  let body := signBytes f negative ++ prefixBytes f
  let fill := f.width.toNat - (body ++ digits).length
  if f.leftJustify then body ++ digits ++ List.replicate fill 32
  else if f.padWithSpaces then List.replicate fill 32 ++ body ++ digits
  else body ++ List.replicate fill 48 ++ digits

theorem decoratedSize_eq {f : PrintFormat} (h : f.OnePrefix) (negative : Bool) (n : Nat) :
    decoratedSize n f negative = (signBytes f negative ++ prefixBytes f).length + n := by
  unfold PrintFormat.OnePrefix at h
  rw [decoratedSize, signBytes, prefixBytes]
  cases negative <;> cases f.sign <;> cases hh : f.prependHex <;> cases hb : f.prependBinary <;> cases ho : f.prependOctal <;>
    simp_all <;> omega

theorem sizesOf_eq {f : PrintFormat} (h : f.OnePrefix) (negative : Bool) (ds : List Byte) :
    sizesOf ds.length f negative = ⟨ds.length, (signBytes f negative ++ prefixBytes f).length + ds.length, (layoutOf f negative ds).length⟩ := by
  rw [sizesOf]
  simp only [decoratedSize_eq h, layoutOf, PrintSizes.mk.injEq, true_and]
  have hl : ∀ a b c : List Byte, ∀ n, (if f.leftJustify = true then a ++ b ++ c ++ List.replicate n 32
      else if f.padWithSpaces = true then List.replicate n 32 ++ (a ++ b) ++ c else a ++ b ++ List.replicate n 48 ++ c).length
      = a.length + b.length + c.length + n := by
    intro a b c n
    split
    · simp; omega
    · split <;> simp <;> omega
  rw [hl]
  simp only [List.length_append]
  split <;> omega

theorem printSign_spec {buf : List Byte} {pos remaining : Nat} {f : PrintFormat} {negative : Bool}
    (h : pos + (signBytes f negative).length ≤ buf.length) (hr : (signBytes f negative).length ≤ remaining) :
    printSign buf pos remaining f negative = .ok (splice buf pos (signBytes f negative), pos + (signBytes f negative).length) := by
  rw [printSign]
  unfold signBytes at *
  cases negative <;> cases hs : f.sign <;> simp [hs] at h hr ⊢
  · rw [splice_nil]
  all_goals rw [assert, if_pos (by simp; try omega), ok_bind, wr_eq (by omega), ok_bind]

theorem printPrefix_spec {buf : List Byte} {pos : Nat} {f : PrintFormat} (h : pos + (prefixBytes f).length ≤ buf.length) :
    printPrefix buf pos f = .ok (splice buf pos (prefixBytes f)) := by
  rw [printPrefix]
  unfold prefixBytes at *
  have two : ∀ c : Byte, pos + 2 ≤ buf.length → (do let b ← wr buf pos 48; wr b (pos + 1) c) = .ok (splice buf pos [48, c]) := by
    intro c hc
    rw [wr_eq (by omega), ok_bind, wr_eq (by rw [splice_length] <;> lens), splice_after (by lens) (by lens)]
    rfl
  cases hh : f.prependHex <;> cases hb : f.prependBinary <;> cases ho : f.prependOctal <;> simp [hh, hb, ho] at h ⊢ <;>
    first
      | (rw [splice_nil]; done)
      | exact two _ h
      | exact wr_eq (by omega)

/-- What is written before the digits: everything, if the digits are put in their place. -/
theorem decoration_digits {buf : List Byte} {dest maxlen : Nat} {f : PrintFormat} (hp : f.OnePrefix) (negative : Bool) (ds : List Byte)
    (hroom : dest + maxlen ≤ buf.length) (hfit : (layoutOf f negative ds).length ≤ maxlen) :
    ∃ b, printDecoration buf dest maxlen (sizesOf ds.length f negative) f negative = .ok b ∧ b.length = buf.length ∧
      splice b (dest + (if f.leftJustify || decide (f.width ≤ 0) then (sizesOf ds.length f negative).decorated - ds.length
        else (sizesOf ds.length f negative).size - ds.length)) ds = splice buf dest (layoutOf f negative ds) ∧
      (if f.leftJustify || decide (f.width ≤ 0) then (sizesOf ds.length f negative).decorated - ds.length
        else (sizesOf ds.length f negative).size - ds.length) + ds.length ≤ maxlen ∧
      (∀ i, dest + (if f.leftJustify || decide (f.width ≤ 0) then (sizesOf ds.length f negative).decorated - ds.length
        else (sizesOf ds.length f negative).size - ds.length) ≤ i → i < dest + (if f.leftJustify || decide (f.width ≤ 0) then
        (sizesOf ds.length f negative).decorated - ds.length else (sizesOf ds.length f negative).size - ds.length) + ds.length → b[i]? = buf[i]?) := by
  rw [sizesOf_eq hp]
  set S := signBytes f negative with hS
  set P := prefixBytes f with hP
  have hlen : (layoutOf f negative ds).length = S.length + P.length + ds.length + (f.width.toNat - (S.length + P.length + ds.length)) := by
    have := congrArg PrintSizes.size (sizesOf_eq hp negative ds)
    simp only [sizesOf, decoratedSize_eq hp] at this
    rw [← this, ← hS, ← hP]
    simp only [List.length_append]
    split <;> omega
  rw [hlen] at hfit ⊢
  simp only [List.length_append]
  set fill := f.width.toNat - (S.length + P.length + ds.length) with hfill
  have hlay : layoutOf f negative ds = if f.leftJustify then S ++ P ++ ds ++ List.replicate fill 32
      else if f.padWithSpaces then List.replicate fill 32 ++ (S ++ P) ++ ds else S ++ P ++ List.replicate fill 48 ++ ds := by
    rw [layoutOf]
    simp only [← hS, ← hP, List.length_append, ← hfill]
  have tail : ∀ (b : List Byte) (pos rem : Nat), pos + (S.length + P.length) ≤ b.length → S.length ≤ rem →
      (do let r ← printSign b pos rem f negative; printPrefix r.1 r.2 f) = .ok (splice b pos (S ++ P)) := by
    intro b pos rem h1 h2
    rw [printSign_spec (by rw [← hS]; omega) (by rw [← hS]; omega), ok_bind]
    dsimp only
    rw [printPrefix_spec (by rw [splice_length _ _ _ (by rw [← hS]; omega), ← hS, ← hP]; omega)]
    rw [← hS, ← hP, splice_after rfl (by omega)]
  rw [printDecoration]
  simp only []
  rw [assert, if_pos (by simpa using hfit), ok_bind, printPadding]
  simp only []
  by_cases hw : f.width > 0 ∧ S.length + P.length + ds.length + fill ≤ f.width.toNat
  · rw [if_pos hw]
    have hwf : f.width.toNat = S.length + P.length + ds.length + fill := by omega
    have hw0 : ¬ f.width ≤ 0 := by omega
    by_cases hl : f.leftJustify = true
    · simp only [hl, Bool.not_true, Bool.false_eq_true, if_false, Bool.true_or, if_true, ← hwf] at hlay ⊢
      rw [assert, if_pos (by simp; try omega), ok_bind, memcpy_spec _ _ _ (by lens), ok_bind, ok_bind]
      dsimp only
      rw [tail _ _ _ (by rw [splice_length _ _ _ (by lens)]; lens) (by omega)]
      refine ⟨_, rfl, ?_, ?_, by omega, fun i hi1 hi2 => ?_⟩
      · rw [splice_length _ _ _ (by rw [splice_length _ _ _ (by lens)]; lens), splice_length _ _ _ (by lens)]
      · rw [show f.width.toNat - (S.length + P.length + ds.length) = fill by omega, splice_last (by lens) (by lens) (by lens), hlay]
      · rw [splice_get _ _ _ (by rw [splice_length _ _ _ (by lens)]; lens), if_neg (by lens), splice_get _ _ _ (by lens), if_neg (by lens)]
    · simp only [Bool.not_eq_true] at hl
      simp only [hl, Bool.not_false, if_true, Bool.false_eq_true, if_false, Bool.false_or, hw0, decide_false] at hlay ⊢
      rw [if_neg (by omega), assert, if_pos (by simp; try omega)]
      simp only [pure_eq_ok, ok_bind, show f.width.toNat - (S.length + P.length + ds.length) = fill by omega]
      by_cases hs : f.padWithSpaces = true
      · simp only [hs, if_true] at hlay ⊢
        rw [memcpy_spec _ _ _ (by lens), ok_bind, ok_bind]
        dsimp only
        rw [tail _ _ _ (by rw [splice_length _ _ _ (by lens)]; lens) (by omega)]
        refine ⟨_, rfl, ?_, ?_, by omega, fun i hi1 hi2 => ?_⟩
        · rw [splice_length _ _ _ (by rw [splice_length _ _ _ (by lens)]; lens), splice_length _ _ _ (by lens)]
        · rw [splice_three (by lens) (by lens) (by lens), hlay]
        · rw [splice_get _ _ _ (by rw [splice_length _ _ _ (by lens)]; lens), if_neg (by lens), splice_get _ _ _ (by lens), if_neg (by lens)]
      · simp only [Bool.not_eq_true] at hs
        simp only [hs, Bool.false_eq_true, if_false] at hlay ⊢
        rw [assert, if_pos (by simp; try omega), ok_bind, memcpy_spec _ _ _ (by lens), ok_bind, ok_bind]
        dsimp only
        rw [tail _ _ _ (by rw [splice_length _ _ _ (by lens)]; lens) (by omega)]
        refine ⟨_, rfl, ?_, ?_, by omega, fun i hi1 hi2 => ?_⟩
        · rw [splice_length _ _ _ (by rw [splice_length _ _ _ (by lens)]; lens), splice_length _ _ _ (by lens)]
        · rw [splice_middle (by lens) (by lens) (by lens), hlay]
        · rw [splice_get _ _ _ (by rw [splice_length _ _ _ (by lens)]; lens), if_neg (by lens), splice_get _ _ _ (by lens), if_neg (by lens)]
  · rw [if_neg hw]
    have h0 : fill = 0 := by omega
    rw [assert, if_pos (by simp; try omega), ok_bind, ok_bind]
    dsimp only
    rw [tail _ _ _ (by omega) (by omega)]
    have e : (if (f.leftJustify || decide (f.width ≤ 0)) = true then S.length + P.length + ds.length - ds.length
        else S.length + P.length + ds.length + fill - ds.length) = S.length + P.length := by split <;> omega
    rw [e]
    refine ⟨_, rfl, ?_, ?_, by omega, fun i hi1 hi2 => ?_⟩
    · rw [splice_length _ _ _ (by lens)]
    · rw [splice_after (by lens) (by lens), hlay, h0]
      split
      · simp
      · split <;> simp
    · rw [splice_get _ _ _ (by lens), if_neg (by lens)]

end Tm.Fmt
