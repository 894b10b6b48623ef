import Verif.Dbl.PrintMag
import Verif.Conv.PrintLemmas
import Verif.Conv.Checked
import Verif.Dbl.PrintSpec
/-! Writing to the output of `print_double`. -/
namespace Tm.Dbl
open Tm.Conv Tm.Num

/-- The output when a text has been written. -/
def st (buf : List Byte) (dest maxlen : Nat) (t : List Byte) : Out := ⟨splice buf dest t, dest + t.length, maxlen - t.length⟩

theorem splice_append {α : Type} (buf : List α) (p : Nat) (t s : List α) (h : p + t.length + s.length ≤ buf.length) :
    splice (splice buf p t) (p + t.length) s = splice buf p (t ++ s) := by
  have h1 : (List.take p buf).length = p := by rw [List.length_take]; omega
  unfold splice
  have e1 : List.take (p + t.length) (List.take p buf ++ t ++ List.drop (p + t.length) buf) = List.take p buf ++ t := by
    rw [List.take_append_of_le_length (by simp; omega), List.take_of_length_le (by simp)]
  have e2 : List.drop (p + t.length + s.length) (List.take p buf ++ t ++ List.drop (p + t.length) buf)
      = List.drop (p + (t ++ s).length) buf := by
    rw [List.drop_append, List.drop_eq_nil_of_le (by simp; omega), List.nil_append, List.drop_drop]
    congr 1
    simp
    omega
  rw [e1, e2]
  simp

theorem memcpy_st (buf : List Byte) (dest : Nat) (s t : List Byte) (h : dest + t.length + s.length ≤ buf.length) :
    memcpy (splice buf dest t) (dest + t.length) s = .ok (splice buf dest (t ++ s)) := by
  induction s generalizing t with
  | nil => simp [memcpy]
  | cons c cs ih =>
    simp only [List.length_cons] at h
    rw [memcpy, wr_splice_snoc buf dest t c (by omega), ok_bind]
    have := ih (t ++ [c]) (by simp; omega)
    rw [List.length_append, List.length_singleton, ← Nat.add_assoc] at this
    rw [this]
    simp

theorem put_st {buf : List Byte} {dest maxlen : Nat} {t : List Byte} (c : Byte) (hroom : dest + maxlen ≤ buf.length)
    (h : t.length < maxlen) : put (st buf dest maxlen t) c = .ok (st buf dest maxlen (t ++ [c])) := by
  rw [put, st, if_neg (by simp; omega)]
  simp only
  rw [wr_splice_snoc buf dest t c (by omega), ok_bind, st]
  simp [Nat.add_assoc, Nat.sub_sub]

theorem st_same {buf : List Byte} {dest maxlen : Nat} {t : List Byte} (hroom : dest + maxlen ≤ buf.length) (h : t.length ≤ maxlen) :
    SameOutside buf (st buf dest maxlen t).buf dest maxlen := splice_same buf t dest maxlen h hroom

/-- A number with zeroes in front of it. -/
def padded (width n : Nat) : List Byte := List.replicate (width - (text 10 false n).length) 48 ++ text 10 false n

theorem padded_length (width n : Nat) : (padded width n).length = max width (text 10 false n).length := by
  rw [padded, List.length_append, List.length_replicate]; omega

theorem zeroPadded_fit {buf : List Byte} {dest maxlen : Nat} {t : List Byte} {width n : Nat} (hroom : dest + maxlen ≤ buf.length)
    (hn : n < 2 ^ 64) (h : (t ++ padded width n).length ≤ maxlen) :
    zeroPadded (st buf dest maxlen t) width (BitVec.ofNat 64 n)
      = .ok (⟨(padded width n).length, .ok⟩, (st buf dest maxlen (t ++ padded width n)).buf) := by
  have hv : (BitVec.ofNat 64 n).toNat = n := by rw [BitVec.toNat_ofNat, Nat.mod_eq_of_lt hn]
  have hlen : (text 10 false n).length = (numeral 10 n).length := text_length 10 false n
  rw [List.length_append, padded_length] at h
  rw [zeroPadded, digitsCountDec64_spec, ok_bind, hv]
  have hp : (if (numeral 10 n).length < width then width - (numeral 10 n).length else 0) = width - (numeral 10 n).length := by
    split <;> omega
  rw [if_neg (by simp [st]; omega)]
  simp only [hp]
  rw [st]
  simp only
  rw [memcpy_st _ _ _ _ (by rw [List.length_replicate]; omega), ok_bind]
  have hs := printDecW_spec (w := 64) (by decide) (splice buf dest (t ++ List.replicate (width - (numeral 10 n).length) 48))
    (dest + t.length + (width - (numeral 10 n).length)) (maxlen - t.length - (width - (numeral 10 n).length)) (BitVec.ofNat 64 n)
    (by rw [splice_length _ _ _ (by simp; omega)]; omega)
  rw [hv] at hs
  rw [hs, ok_bind, printResult, if_pos (by omega)]
  simp only [combine, st, padded_length]
  rw [show dest + t.length + (width - (numeral 10 n).length)
      = dest + (t ++ List.replicate (width - (numeral 10 n).length) (48 : Byte)).length by simp; omega,
    splice_append _ _ _ _ (by simp; omega), List.append_assoc, padded, hlen]
  congr 3
  omega

theorem zeroPadded_full {buf : List Byte} {dest maxlen : Nat} {t : List Byte} {width n : Nat} (hroom : dest + maxlen ≤ buf.length)
    (hn : n < 2 ^ 64) (ht : t.length ≤ maxlen) (h : maxlen < (t ++ padded width n).length) :
    ∃ b, zeroPadded (st buf dest maxlen t) width (BitVec.ofNat 64 n) = .ok (⟨maxlen - t.length, .eoverflow⟩, b) ∧
      SameOutside buf b dest maxlen := by
  have hv : (BitVec.ofNat 64 n).toNat = n := by rw [BitVec.toNat_ofNat, Nat.mod_eq_of_lt hn]
  have hlen : (text 10 false n).length = (numeral 10 n).length := text_length 10 false n
  rw [List.length_append, padded_length] at h
  rw [zeroPadded, digitsCountDec64_spec, ok_bind, hv]
  by_cases hw : width > maxlen - t.length
  · rw [if_pos (by simpa [st] using hw)]
    exact ⟨_, rfl, st_same hroom ht⟩
  · have hp : (if (numeral 10 n).length < width then width - (numeral 10 n).length else 0) = width - (numeral 10 n).length := by
      split <;> omega
    rw [if_neg (by simpa [st] using hw)]
    simp only [hp]
    rw [st]
    simp only
    rw [memcpy_st _ _ _ _ (by rw [List.length_replicate]; omega), ok_bind]
    have hs := printDecW_spec (w := 64) (by decide) (splice buf dest (t ++ List.replicate (width - (numeral 10 n).length) 48))
      (dest + t.length + (width - (numeral 10 n).length)) (maxlen - t.length - (width - (numeral 10 n).length)) (BitVec.ofNat 64 n)
      (by rw [splice_length _ _ _ (by simp; omega)]; omega)
    rw [hv] at hs
    rw [hs, ok_bind, printResult, if_neg (by omega)]
    refine ⟨_, ?_, splice_same buf (t ++ List.replicate (width - (numeral 10 n).length) 48) dest maxlen (by simp; omega) hroom⟩
    simp only [combine]
    congr 3
    omega

end Tm.Dbl
