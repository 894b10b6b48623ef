import Verif.Conv.Checked
import Batteries.Data.List.Basic
namespace Tm.Conv
open Tm.Num

theorem toupper_letter (c l : Byte) (h1 : 97 ≤ l.toNat) (h2 : l.toNat ≤ 122) :
    toupper c = toupper l ↔ SameLetter c l := by
  have h3 : l.toNat < 256 := l.isLt
  have h4 : c.toNat < 256 := c.isLt
  have hl : islower l = true := by simp [islower]; omega
  have hc : islower c = true ↔ 97 ≤ c.toNat ∧ c.toNat ≤ 122 := by simp [islower]
  rw [toupper, toupper, SameLetter, if_pos hl]
  split
  · rename_i h; have := hc.1 h; omega
  · rename_i h; have h5 : ¬ (97 ≤ c.toNat ∧ c.toNat ≤ 122) := fun h' => h (hc.2 h'); omega

theorem toupper_zero_ne (l : Byte) (h1 : 97 ≤ l.toNat) (h2 : l.toNat ≤ 122) : toupper 0 ≠ toupper l := by
  rw [ne_eq, toupper_letter _ _ h1 h2, SameLetter]
  have : BitVec.toNat (0 : Byte) = 0 := rfl
  omega

theorem strnicmpEnd_ne (x y : Byte) (a b : List Byte) (n : BitVec 64) (hn : n ≠ 0) (h : toupper x ≠ toupper y) :
    ∃ r, strnicmpEnd (x :: a) (y :: b) n = .ok r ∧ r ≠ 0 := by
  refine ⟨toupper x - toupper y, ?_, by omega⟩
  rw [strnicmpEnd, if_neg hn]; simp [rd]

theorem strnicmpEnd_zero (a b : List Byte) : strnicmpEnd a b 0 = .ok 0 := by
  rw [strnicmpEnd, if_pos rfl]

theorem ofNat_succ_sub (n : Nat) : (BitVec.ofNat 64 (n + 1)) - 1 = BitVec.ofNat 64 n := by
  apply BitVec.eq_of_toNat_eq
  have h1 : BitVec.toNat (1 : BitVec 64) = 1 := rfl
  rw [BitVec.toNat_sub, BitVec.toNat_ofNat, BitVec.toNat_ofNat, h1]; omega

theorem ofNat_succ_ne (n : Nat) (h : n + 1 < 2 ^ 64) : BitVec.ofNat 64 (n + 1) ≠ 0 := by
  intro he
  have := congrArg BitVec.toNat he
  have h0 : BitVec.toNat (0 : BitVec 64) = 0 := rfl
  rw [BitVec.toNat_ofNat, h0, Nat.mod_eq_of_lt h] at this; omega

theorem strnicmp_len0 (a b : List Byte) (ha : a ≠ []) : strnicmp a (0 :: b) 0 = .ok 0 := by
  cases a with
  | nil => exact absurd rfl ha
  | cons x a =>
    rw [strnicmp]
    split
    · exact strnicmpEnd_zero _ _
    · simp only [if_true]; exact strnicmpEnd_zero _ _

/-- What `tm_strnicmp(s, word, strlen(word))` decides: all letters but the last agree, and there is one more char. -/
theorem strnicmp_word (word : List Byte) (hw : ∀ l ∈ word, 97 ≤ l.toNat ∧ l.toNat ≤ 122) (hne : word ≠ [])
    (hlen : word.length < 2 ^ 64) (s tail : List Byte) (hz : (0 : Byte) ∉ s) :
    ∃ r, strnicmp (s ++ 0 :: tail) (word ++ [0]) (BitVec.ofNat 64 word.length) = .ok r ∧
      (r = 0 ↔ ∃ cs c rest, s = cs ++ c :: rest ∧ Spells cs word.dropLast) := by
  induction word generalizing s with
  | nil => exact absurd rfl hne
  | cons y word ih =>
    have hy := hw y (by simp)
    have hy0 : y ≠ 0 := by rintro rfl; have : BitVec.toNat (0 : Byte) = 0 := rfl; omega
    have hl : word.length + 1 < 2 ^ 64 := by simpa using hlen
    cases s with
    | nil =>
      obtain ⟨r, h1, h2⟩ := strnicmpEnd_ne 0 y tail (word ++ [0]) _ (ofNat_succ_ne word.length hl)
        (toupper_zero_ne y hy.1 hy.2)
      refine ⟨r, ?_, by simp [h2]⟩
      rw [List.nil_append, strnicmp.eq_def]; simp only [if_true]; rw [List.length_cons, List.cons_append, h1]
    | cons x s =>
      have hx0 : x ≠ 0 := by rintro rfl; simp at hz
      have hzs : (0 : Byte) ∉ s := by exact fun h => hz (List.mem_cons_of_mem _ h)
      have hstep : strnicmp (x :: s ++ 0 :: tail) (y :: word ++ [0]) (BitVec.ofNat 64 (y :: word).length) =
          if toupper x ≠ toupper y then strnicmpEnd (x :: s ++ 0 :: tail) (y :: word ++ [0]) (BitVec.ofNat 64 word.length)
          else strnicmp (s ++ 0 :: tail) (word ++ [0]) (BitVec.ofNat 64 word.length) := by
        rw [List.cons_append, strnicmp.eq_def]
        simp only [List.cons_append, List.length_cons]
        rw [if_neg hx0, if_neg hy0, if_neg (ofNat_succ_ne _ hl), ofNat_succ_sub]
      rw [hstep]
      cases word with
      | nil =>
        refine ⟨0, ?_, by simp [Spells]⟩
        split
        · exact strnicmpEnd_zero _ _
        · exact strnicmp_len0 _ _ (by simp)
      | cons y2 word =>
        split
        · rename_i hne'
          obtain ⟨r, h1, h2⟩ := strnicmpEnd_ne x y (s ++ 0 :: tail) (y2 :: word ++ [0]) _
            (ofNat_succ_ne word.length (by simp at hl; omega)) hne'
          refine ⟨r, h1, ?_⟩
          constructor
          · intro h; exact absurd h h2
          · rintro ⟨cs, c, rest, h3, h4⟩
            exfalso
            rw [List.dropLast_cons_of_ne_nil (by simp)] at h4
            cases h4 with
            | cons h5 h6 =>
              rw [List.cons_append, List.cons.injEq] at h3
              rw [h3.1] at hne'
              exact hne' ((toupper_letter _ _ hy.1 hy.2).2 h5)
        · rename_i heq
          simp only [ne_eq, Decidable.not_not] at heq
          obtain ⟨r, h1, h2⟩ := ih (fun l hl => hw l (by simp at hl ⊢; tauto)) (by simp) (by simp at hl ⊢; omega) s hzs
          refine ⟨r, h1, h2.trans ?_⟩
          rw [List.dropLast_cons_of_ne_nil (x := y) (by simp)]
          constructor
          · rintro ⟨cs, c, rest, h3, h4⟩
            exact ⟨x :: cs, c, rest, by simp [h3], .cons ((toupper_letter _ _ hy.1 hy.2).1 heq) h4⟩
          · rintro ⟨cs, c, rest, h3, h4⟩
            cases h4 with
            | cons h5 h6 =>
              rw [List.cons_append, List.cons.injEq] at h3
              exact ⟨_, c, rest, h3.2, h6⟩

/-- Comparing the full length of a word that is spelled out, followed by one more readable char, gives 0. -/
theorem strnicmp_spelled (word : List Byte) (hw : ∀ l ∈ word, 97 ≤ l.toNat ∧ l.toNat ≤ 122)
    (hlen : word.length < 2 ^ 64) (cs : List Byte) (h : Spells cs word) (x : Byte) (tail : List Byte) :
    strnicmp (cs ++ x :: tail) (word ++ [0]) (BitVec.ofNat 64 word.length) = .ok 0 := by
  induction h with
  | nil => exact strnicmp_len0 _ _ (by simp)
  | @cons c y cs word h1 h2 ih =>
    have hy := hw y (by simp)
    have hy0 : y ≠ 0 := by rintro rfl; have : BitVec.toNat (0 : Byte) = 0 := rfl; omega
    have hc0 : c ≠ 0 := by
      rintro rfl
      exact toupper_zero_ne y hy.1 hy.2 ((toupper_letter _ _ hy.1 hy.2).2 h1)
    have hl : word.length + 1 < 2 ^ 64 := by simpa using hlen
    rw [List.cons_append, strnicmp.eq_def]
    simp only [List.cons_append, List.length_cons]
    rw [if_neg hc0, if_neg hy0, if_neg (ofNat_succ_ne _ hl), ofNat_succ_sub,
      if_neg (not_not.2 ((toupper_letter _ _ hy.1 hy.2).2 h1))]
    exact ih (fun l hl => hw l (by simp [hl])) (by omega)

theorem memcpy_spec (buf : List Byte) (dest : Nat) (t : List Byte) (h : dest + t.length ≤ buf.length) :
    memcpy buf dest t = .ok (splice buf dest t) := by
  induction t generalizing buf dest with
  | nil => rw [memcpy, splice_nil]
  | cons c t ih =>
    simp only [List.length_cons] at h
    rw [memcpy, wr, if_pos (by omega), ok_bind, ih _ _ (by simp; omega)]
    congr 1
    apply List.ext_getElem?
    intro i
    rw [splice_get _ _ _ (by simp; omega), splice_get _ _ _ (by simp; omega)]
    simp only [List.length_cons]
    by_cases h1 : i < dest
    · rw [if_neg (by omega), if_neg (by omega), List.getElem?_set, if_neg (by omega)]
    · by_cases h2 : i = dest
      · subst h2
        rw [if_neg (by omega), if_pos (by omega), List.getElem?_set, if_pos rfl, if_pos (by omega)]
        simp
      · by_cases h3 : i < dest + 1 + t.length
        · rw [if_pos (by omega), if_pos (by omega)]
          have : i - dest = (i - (dest + 1)) + 1 := by omega
          rw [this, List.getElem?_cons_succ]
        · rw [if_neg (by omega), if_neg (by omega), List.getElem?_set, if_neg (by omega)]

theorem printString_spec (buf : List Byte) (dest maxlen : Nat) (t : List Byte) (ht : t ≠ []) (hm : 0 < maxlen)
    (hroom : dest + maxlen ≤ buf.length) :
    printString buf dest maxlen t = .ok (printStringResult buf dest maxlen t) := by
  have hl := List.length_pos_iff.2 ht
  rw [printString, printStringResult]
  by_cases h : maxlen < t.length
  · simp only [if_pos h]
    rw [assert, if_pos (by simpa using hm), ok_bind, memcpy_spec _ _ _ (by simp; omega), ok_bind, if_neg (by omega)]
  · simp only [if_neg h]
    rw [assert, if_pos (by simpa using hl), ok_bind, memcpy_spec _ _ _ (by simp; omega), ok_bind, if_pos (by omega),
      List.take_of_length_le (by omega), List.take_of_length_le (by omega)]

end Tm.Conv
