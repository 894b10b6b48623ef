import Verif.Dbl.PrintFinite
import Verif.Conv.Bool
/-! The sign and the words in `print_double`. -/
namespace Tm.Dbl
open Tm.Conv Tm.Num

variable {buf : List Byte} {dest maxlen : Nat}

/-- The sign of a number. -/
def signOf (flags : BitVec 32) (value : Double) : List Byte :=
  if flags.getLsbD 7 && value.1 || (value.1 && decide (value.2 ≠ .fin 0) && decide (value.2 ≠ .nan)) then [45] else []

theorem st_nil : st buf dest maxlen [] = ⟨buf, dest, maxlen⟩ := by simp [st, splice_nil]

theorem printDouble_sign {value : Double} {flags : BitVec 32} {precision : Int} {rest : List Byte} (hroom : dest + maxlen ≤ buf.length)
    (hrest : rest ≠ [])
    (h : ∀ t : List Byte, t.length < maxlen → Printed buf dest maxlen (t ++ rest) (printUnsigned maxlen (st buf dest maxlen t) value.2 flags precision)) :
    Printed buf dest maxlen (signOf flags value ++ rest) (printDouble buf dest maxlen value flags precision) := by
  have hlen : 0 < rest.length := List.length_pos_iff.mpr hrest
  rw [printDouble]
  by_cases h0 : maxlen = 0
  · subst h0
    rw [if_pos rfl]
    exact printed_full (by rw [List.length_append]; omega) rfl (.refl _ _ _)
  rw [if_neg h0, signOf]
  by_cases hm : (flags.getLsbD 7 && value.1 || (value.1 && decide (value.2 ≠ .fin 0) && decide (value.2 ≠ .nan))) = true
  · simp only [hm, if_true]
    rw [← st_nil, put_st 45 hroom (by simp; omega), ok_bind]
    by_cases h1 : maxlen = 1
    · subst h1
      rw [if_pos ⟨trivial, by simp [st]⟩, done_st (by simp)]
      refine printed_full (by simp; omega) rfl (splice_same buf _ dest 1 (by simp) hroom)
    · rw [if_neg (by simp [st]; omega)]
      exact h ([] ++ [45]) (by simp; omega)
  · simp only [hm, Bool.false_eq_true, if_false]
    rw [pure_eq_ok, ok_bind, if_neg (by simp), ← st_nil]
    exact h [] (by simp; omega)

theorem printWord_eq {t word : List Byte} (hroom : dest + maxlen ≤ buf.length) (ht : t.length < maxlen) (hw : word ≠ []) :
    Printed buf dest maxlen (t ++ word) (printWord maxlen (st buf dest maxlen t) word) := by
  have hlen : 0 < word.length := List.length_pos_iff.mpr hw
  rw [printWord, Printed]
  simp only [st]
  have hl : (splice buf dest t).length = buf.length := splice_length _ _ _ (by omega)
  rw [printString_spec _ _ _ _ hw (by omega) (by rw [hl]; omega), ok_bind, printStringResult,
    splice_append _ _ _ _ (by rw [List.length_take]; omega)]
  rw [List.length_append]
  by_cases hfit : t.length + word.length ≤ maxlen
  · rw [if_pos hfit, if_pos (by omega), List.take_of_length_le (by omega)]
    simp only [combine]
    congr 3
    omega
  · rw [if_neg hfit, if_neg (by omega)]
    refine ⟨_, ?_, splice_same buf (t ++ List.take (maxlen - t.length) word) dest maxlen (by simp; omega) hroom⟩
    simp only [combine]
    congr 3
    omega

end Tm.Dbl
