import Verif.Conv.PrintLemmas
import Verif.Conv.ScanLemmas
namespace Tm.Conv
open Tm.Num

/-- What printing a signed number must do when it does not fit: report overflow; only the sign may have been written. -/
def signedOverflow (buf : List Byte) (dest maxlen : Nat) (i : Int) : ConvResult × List Byte :=
  (⟨maxlen, .eoverflow⟩, if i < 0 ∧ 0 < maxlen then splice buf dest [45] else buf)

theorem toInt_neg_iff {w : Nat} (hw : 0 < w) (v : BitVec w) : v.toInt < 0 ↔ 2 ^ (w - 1) ≤ v.toNat := by
  have hp2 : 2 ^ w = 2 * 2 ^ (w - 1) := by rw [← Nat.pow_succ']; congr 1; omega
  have := v.isLt
  rw [BitVec.toInt_eq_toNat_cond]
  split <;> omega

theorem natAbs_toInt {w : Nat} (hw : 0 < w) (v : BitVec w) :
    v.toInt.natAbs = if v.toInt < 0 then 2 ^ w - v.toNat else v.toNat := by
  have hp2 : 2 ^ w = 2 * 2 ^ (w - 1) := by rw [← Nat.pow_succ']; congr 1; omega
  have := v.isLt
  rw [BitVec.toInt_eq_toNat_cond]
  split <;> split <;> omega

theorem splice_splice_snoc (buf : List Byte) (p : Nat) (c : Byte) (t : List Byte) (h : p + 1 + t.length ≤ buf.length) :
    splice (splice buf p [c]) (p + 1) t = splice buf p (c :: t) := by
  have hl1 : (splice buf p [c]).length = buf.length := splice_length _ _ _ (by simp; omega)
  apply List.ext_getElem?
  intro i
  rw [splice_get _ _ _ (by omega), splice_get _ _ _ (by simp; omega), splice_get _ _ _ (by simp; omega)]
  simp only [List.length_cons, List.length_nil]
  by_cases h1 : p + 1 ≤ i ∧ i < p + 1 + t.length
  · rw [if_pos h1, if_pos (by omega), show i - p = (i - (p + 1)) + 1 by omega, List.getElem?_cons_succ]
  · rw [if_neg h1]
    by_cases h2 : i = p
    · subst h2; simp
    · rw [if_neg (by omega), if_neg (by omega)]

theorem printSigned_spec {w : Nat} (hw : 0 < w) (base : Nat) (lower : Bool)
    (rest : List Byte → Nat → Nat → BitVec w → C (ConvResult × List Byte))
    (hrest : ∀ buf dest maxlen v, dest + maxlen ≤ buf.length →
      rest buf dest maxlen v = .ok (printResult buf dest maxlen (text base lower v.toNat)))
    (buf : List Byte) (dest maxlen : Nat) (v : BitVec w) (hroom : dest + maxlen ≤ buf.length) :
    printSigned rest buf dest maxlen v = .ok (
      if (signedText base lower v.toInt).length ≤ maxlen
      then (⟨(signedText base lower v.toInt).length, .ok⟩, splice buf dest (signedText base lower v.toInt))
      else signedOverflow buf dest maxlen v.toInt) := by
  have hp2 : 2 ^ w = 2 * 2 ^ (w - 1) := by rw [← Nat.pow_succ']; congr 1; omega
  have hmin : (BitVec.intMin w).toNat = 2 ^ (w - 1) := by
    rw [BitVec.toNat_intMin]; apply Nat.mod_eq_of_lt
    have : 0 < 2 ^ (w - 1) := Nat.pow_pos (by decide)
    omega
  have hv := v.isLt
  rw [printSigned, signedText, signedOverflow]
  by_cases hneg : v.toInt < 0
  · rw [if_pos hneg, if_pos hneg]
    have hge := (toInt_neg_iff hw v).1 hneg
    simp only [hneg, true_and, List.length_cons]
    by_cases hm : maxlen = 0
    · subst hm
      simp
    · rw [if_neg hm]
      have hw1 := wr_splice buf dest [] 45 (by simp; omega)
      rw [splice_nil] at hw1
      rw [hw1, ok_bind]
      have hmag : magnitude v = .ok (-v) := by
        rw [magnitude]
        split
        · rename_i h; exact negS_strict v h
        · rename_i h; simp at h; rw [h, BitVec.neg_intMin]
      have hnv : (-v).toNat = v.toInt.natAbs := by
        have h0 : 0 < 2 ^ (w - 1) := Nat.pow_pos (by decide)
        rw [natAbs_toInt hw, if_pos hneg, BitVec.toNat_neg, Nat.mod_eq_of_lt (by omega)]
      rw [hmag, ok_bind, hrest _ _ _ _ (by rw [splice_length _ _ _ (by simp; omega)]; omega), ok_bind, hnv, printResult]
      by_cases hf : (text base lower v.toInt.natAbs).length ≤ maxlen - 1
      · have hf' : (text base lower v.toInt.natAbs).length + 1 ≤ maxlen := by omega
        rw [if_pos hf, if_pos hf']
        simp only [combine, if_true]
        rw [splice_splice_snoc _ _ _ _ (by omega)]
        congr 3; omega
      · have hf' : ¬ (text base lower v.toInt.natAbs).length + 1 ≤ maxlen := by omega
        rw [if_neg hf, if_neg hf']
        have hm' : 0 < maxlen := by omega
        simp only [combine, if_true, hm']
        congr 3; omega
  · rw [if_neg hneg, if_neg hneg]
    have habs : v.toInt.natAbs = v.toNat := by rw [natAbs_toInt hw, if_neg hneg]
    rw [hrest _ _ _ _ hroom, ok_bind, habs, printResult]
    simp only [hneg, false_and, if_false]
    split <;> simp [combine]

/-! ### hex dump -/

theorem nibble (b : Byte) : ((b >>> 4) &&& 0x0F).toNat = b.toNat / 16 ∧ (b &&& 0x0F).toNat = b.toNat % 16 := by
  have h := b.isLt
  refine ⟨?_, ?_⟩
  · rw [toNat_and15 (by decide), BitVec.toNat_ushiftRight, Nat.shiftRight_eq_div_pow]; omega
  · exact toNat_and15 (by decide) b

theorem splice_two (buf : List Byte) (p : Nat) (t : List Byte) (a b : Byte) (h : p + t.length + 2 ≤ buf.length) :
    (do let x ← wr (splice buf p t) (p + t.length + 1) b; wr x (p + t.length) a) = .ok (splice buf p (t ++ [a, b])) := by
  have hl := splice_length buf p t (by omega)
  rw [wr, if_pos (by omega), ok_bind, wr, if_pos (by simp; omega)]
  congr 1
  apply List.ext_getElem?
  intro i
  rw [List.getElem?_set, List.getElem?_set, splice_get _ _ _ (by omega), splice_get _ _ _ (by simp; omega)]
  simp only [List.length_set, hl, List.length_append, List.length_cons, List.length_nil]
  by_cases h1 : p + t.length = i
  · subst h1
    rw [if_pos rfl, if_pos (by omega), if_pos (by omega), List.getElem?_append_right (by omega)]
    simp
  · rw [if_neg h1]
    by_cases h2 : p + t.length + 1 = i
    · subst h2
      rw [if_pos rfl, if_pos (by omega), if_pos (by omega), List.getElem?_append_right (by omega)]
      rw [show p + t.length + 1 - p - t.length = 1 by omega]; rfl
    · rw [if_neg h2]
      by_cases h3 : p ≤ i ∧ i < p + t.length
      · rw [if_pos h3, if_pos (by omega), List.getElem?_append_left (by omega)]
      · rw [if_neg h3, if_neg (by omega)]

theorem hexText_length (lower : Bool) (bytes : List Byte) : (hexText lower bytes).length = 2 * bytes.length := by
  induction bytes with
  | nil => rfl
  | cons b bs ih => simp only [hexText, List.flatMap_cons, List.length_append] at *; rw [ih]; simp; omega

theorem hexBytesLoop_spec (lower : Bool) (buf : List Byte) (dest : Nat) (bytes : List Byte) (t : List Byte)
    (h : dest + t.length + 2 * bytes.length ≤ buf.length) :
    hexBytesLoop (table lower) bytes (dest + t.length) (splice buf dest t) = .ok (splice buf dest (t ++ hexText lower bytes)) := by
  induction bytes generalizing t with
  | nil => simp [hexBytesLoop, hexText]
  | cons b bs ih =>
    have hb := b.isLt
    simp only [List.length_cons] at h
    have h2 := splice_two buf dest t (digitChar lower (b.toNat / 16)) (digitChar lower (b.toNat % 16)) (by omega)
    rw [hexBytesLoop, (nibble b).1, (nibble b).2, rd_table _ _ (by omega), rd_table _ _ (by omega), ok_bind]
    cases hx : wr (splice buf dest t) (dest + t.length + 1) (digitChar lower (b.toNat % 16)) with
    | error e => rw [hx] at h2; cases h2
    | ok x =>
      rw [hx, ok_bind] at h2
      rw [ok_bind, ok_bind, h2, ok_bind]
      have := ih (t ++ [digitChar lower (b.toNat / 16), digitChar lower (b.toNat % 16)]) (by simp; omega)
      rw [show dest + t.length + 2 = dest + (t ++ [digitChar lower (b.toNat / 16), digitChar lower (b.toNat % 16)]).length by simp; omega,
        this]
      simp [hexText]

theorem printHexBytes_spec (lower : Bool) (buf : List Byte) (dest maxlen : Nat) (bytes : List Byte)
    (hsz : 2 * bytes.length < 2 ^ 64) (hroom : dest + maxlen ≤ buf.length) :
    printHexBytes buf dest maxlen bytes lower = .ok (printResult buf dest maxlen (hexText lower bytes)) := by
  have hn : (BitVec.ofNat 64 bytes.length * 2).toNat = 2 * bytes.length := by
    have h2 : BitVec.toNat (2 : BitVec 64) = 2 := rfl
    rw [BitVec.toNat_mul, BitVec.toNat_ofNat, h2]; omega
  rw [printHexBytes, hn, printResult, hexText_length]
  split
  · rename_i h
    have : ¬ 2 * bytes.length ≤ maxlen := by omega
    rw [if_neg this]
  · rename_i h
    have h' : 2 * bytes.length ≤ maxlen := by omega
    rw [if_pos h']
    have := hexBytesLoop_spec lower buf dest bytes [] (by simp; omega)
    rw [splice_nil] at this
    simp only [List.length_nil, Nat.add_zero, List.nil_append] at this
    rw [this, ok_bind]

theorem digitChar_inj {lower : Bool} {a b : Nat} (ha : a < 36) (hb : b < 36) (h : digitChar lower a = digitChar lower b) : a = b :=
  isDigit_unique (base := 36) (by omega) (digitChar_isDigit (by omega) ha lower) (h ▸ digitChar_isDigit (by omega) hb lower)

theorem hexText_inj (lower : Bool) (a b : List Byte) (h : hexText lower a = hexText lower b) : a = b := by
  induction a generalizing b with
  | nil =>
    cases b with
    | nil => rfl
    | cons y ys => have := congrArg List.length h; simp [hexText_length] at this
  | cons x xs ih =>
    cases b with
    | nil => have := congrArg List.length h; simp [hexText_length] at this
    | cons y ys =>
      have hx := x.isLt; have hy := y.isLt
      simp only [hexText, List.flatMap_cons, List.cons_append, List.nil_append, List.cons.injEq] at h
      have h1 := digitChar_inj (by omega) (by omega) h.1
      have h2 := digitChar_inj (by omega) (by omega) h.2.1
      rw [ih ys h.2.2, show x = y from BitVec.eq_of_toNat_eq (by omega)]

end Tm.Conv
