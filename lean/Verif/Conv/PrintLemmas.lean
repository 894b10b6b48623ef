import Verif.Conv.Spec
import Verif.Num.Lemmas
import Mathlib.Tactic.IntervalCases
namespace Tm.Conv
open Tm.Num

theorem numeral_len_eq {base n k : Nat} (hb : 2 ≤ base) (hk : 0 < k) (h1 : n < base ^ k) (h2 : k = 1 ∨ base ^ (k - 1) ≤ n) :
    (numeral base n).length = k := by
  have h3 := (numeral_length_le_iff base n k hb hk).2 h1
  rcases h2 with rfl | h2
  · have := numeral_length_pos base n hb; omega
  · by_cases hk1 : k = 1
    · subst hk1; have := numeral_length_pos base n hb; omega
    · have := (numeral_length_le_iff base n (k - 1) hb (by omega))
      omega

theorem numeral_len_div {base n : Nat} (hb : 2 ≤ base) (k : Nat) (h : base ^ k ≤ n) :
    (numeral base n).length = (numeral base (n / base ^ k)).length + k := by
  induction k generalizing n with
  | zero => simp
  | succ k ih =>
    rw [Nat.pow_succ] at h
    have h1 : base ≤ n := by
      have : 1 * base ≤ base ^ k * base := Nat.mul_le_mul_right _ (Nat.pow_pos (by omega))
      omega
    rw [numeral_ge hb h1, List.length_append, List.length_singleton,
      ih ((Nat.le_div_iff_mul_le (by omega)).2 h), Nat.div_div_eq_div_mul, Nat.pow_succ, Nat.mul_comm base]
    omega

theorem digitsCountDec32_spec (v : BitVec 32) : digitsCountDec32 v = (numeral 10 v.toNat).length := by
  have hv := v.isLt
  rw [digitsCountDec32]
  simp only [BitVec.lt_def, BitVec.le_def, ge_iff_le, BitVec.toNat_ofNat, BitVec.ofNat_eq_ofNat]
  symm
  repeat' split
  all_goals first
    | (apply numeral_len_eq (by decide) (by decide) <;> omega)
    | skip
  all_goals
    rename_i h
    first
      | (by_cases hh : 100000 ≤ v.toNat <;> simp only [hh, decide_true, decide_false, Bool.toNat_true, Bool.toNat_false] <;> apply numeral_len_eq (by decide) (by decide) <;> omega)
      | (by_cases hh : 10000000 ≤ v.toNat <;> simp only [hh, decide_true, decide_false, Bool.toNat_true, Bool.toNat_false] <;> apply numeral_len_eq (by decide) (by decide) <;> omega)
      | (by_cases hh : 1000000000 ≤ v.toNat <;> simp only [hh, decide_true, decide_false, Bool.toNat_true, Bool.toNat_false] <;> apply numeral_len_eq (by decide) (by decide) <;> omega)

theorem digitsCountDec64_small (fuel : Nat) (v : BitVec 64) (hv : v.toNat < 10 ^ 12) :
    digitsCountDec64 (fuel + 1) v = .ok (numeral 10 v.toNat).length := by
  rw [digitsCountDec64]
  simp only [BitVec.lt_def, BitVec.le_def, ge_iff_le, BitVec.toNat_ofNat, BitVec.ofNat_eq_ofNat]
  simp only [Nat.reducePow, Nat.reduceMod] at *
  rw [if_pos hv]
  repeat' split
  all_goals congr 1; symm
  all_goals first
    | (apply numeral_len_eq (by decide) (by decide) <;> omega)
    | skip
  all_goals
    rename_i h
    first
      | (by_cases hh : 100000 ≤ v.toNat <;> simp only [hh, decide_true, decide_false, Bool.toNat_true, Bool.toNat_false] <;> apply numeral_len_eq (by decide) (by decide) <;> omega)
      | (by_cases hh : 10000000 ≤ v.toNat <;> simp only [hh, decide_true, decide_false, Bool.toNat_true, Bool.toNat_false] <;> apply numeral_len_eq (by decide) (by decide) <;> omega)
      | (by_cases hh : 1000000000 ≤ v.toNat <;> simp only [hh, decide_true, decide_false, Bool.toNat_true, Bool.toNat_false] <;> apply numeral_len_eq (by decide) (by decide) <;> omega)
      | (by_cases hh : 100000000000 ≤ v.toNat <;> simp only [hh, decide_true, decide_false, Bool.toNat_true, Bool.toNat_false] <;> apply numeral_len_eq (by decide) (by decide) <;> omega)

theorem digitsCountDec64_spec (v : BitVec 64) : digitsCountDec64 3 v = .ok (numeral 10 v.toNat).length := by
  by_cases h : v.toNat < 10 ^ 12
  · exact digitsCountDec64_small 2 v h
  · have hv := v.isLt
    have hq : (v / 1000000000000).toNat = v.toNat / 10 ^ 12 := by rw [BitVec.toNat_udiv]; rfl
    have h2 := digitsCountDec64_small 1 (v / 1000000000000) (by rw [hq]; omega)
    rw [hq] at h2
    rw [digitsCountDec64, h2, ok_bind, numeral_len_div (n := v.toNat) (by decide) 12 (by omega)]
    simp only [BitVec.lt_def, BitVec.toNat_ofNat, BitVec.ofNat_eq_ofNat, Nat.reducePow, Nat.reduceMod] at h ⊢
    rw [if_neg (by omega), if_neg (by omega), if_neg (by omega), if_neg (by omega), Nat.add_comm]

theorem digitsCountHex_spec {w : Nat} (fuel : Nat) (v : BitVec w) (h : v.toNat < 2 ^ fuel) :
    digitsCountHex (fuel + 1) v = .ok (numeral 16 v.toNat).length := by
  induction fuel generalizing v with
  | zero =>
    have h0 : v.toNat = 0 := by simpa using h
    have : v >>> 4 = 0 := by apply BitVec.eq_of_toNat_eq; simp [h0]
    simp only [digitsCountHex, this, ne_eq, not_true_eq_false, if_false, h0]
    rw [numeral_lt (by decide)]; rfl
  | succ fuel ih =>
    have hs : (v >>> 4).toNat = v.toNat / 16 := by rw [BitVec.toNat_ushiftRight, Nat.shiftRight_eq_div_pow]
    rw [digitsCountHex]
    split
    · rename_i hne
      have hne' : v.toNat / 16 ≠ 0 := by
        intro h0; apply hne; apply BitVec.eq_of_toNat_eq; rw [hs, h0]; simp
      rw [ih _ (by rw [hs]; rw [Nat.pow_succ] at h; omega), ok_bind, hs, numeral_ge (n := v.toNat) (by decide) (by omega)]
      simp
    · rename_i he
      have : v.toNat / 16 = 0 := by
        rw [← hs]; simp at he; rw [he]; rfl
      rw [numeral_lt (by omega)]; rfl

theorem digitsCountLoop_spec {w : Nat} (p1 p2 p3 p4 : BitVec w) (base : Nat) (hb : 2 ≤ base)
    (h1 : p1.toNat = base) (h2 : p2.toNat = base ^ 2) (h3 : p3.toNat = base ^ 3) (h4 : p4.toNat = base ^ 4)
    (fuel : Nat) (v : BitVec w) (h : v.toNat < 2 ^ fuel) (r : Nat) :
    digitsCountLoop p1 p2 p3 p4 (fuel + 1) v r = .ok (r + (numeral base v.toNat).length - 1) := by
  have hb12 : base < base ^ 2 := by rw [Nat.pow_two]; exact lt_mul_of_one_lt_left (by omega) (by omega)
  have hb23 : base ^ 2 ≤ base ^ 3 := Nat.pow_le_pow_right (by omega) (by omega)
  have hb34 : base ^ 3 ≤ base ^ 4 := Nat.pow_le_pow_right (by omega) (by omega)
  have hb4 : 2 ≤ base ^ 4 := by omega
  induction fuel generalizing v r with
  | zero =>
    have h0 : v.toNat = 0 := by simpa using h
    rw [digitsCountLoop]
    simp only [BitVec.lt_def, ge_iff_le, BitVec.le_def, h1, h2, h3, h4, h0]
    rw [if_pos (by omega), numeral_lt (by omega)]
    have a1 : ¬ base ≤ 0 := by omega
    have a2 : ¬ base ^ 2 ≤ 0 := by omega
    have a3 : ¬ base ^ 3 ≤ 0 := by omega
    simp [a1, a2, a3]
  | succ fuel ih =>
    rw [digitsCountLoop]
    simp only [BitVec.lt_def, ge_iff_le, BitVec.le_def, h1, h2, h3, h4]
    split
    · rename_i hlt
      congr 1
      by_cases a1 : base ≤ v.toNat
      · by_cases a2 : base ^ 2 ≤ v.toNat
        · by_cases a3 : base ^ 3 ≤ v.toNat
          · rw [numeral_len_eq (k := 4) hb (by decide) (by omega) (Or.inr (by simpa using a3))]
            simp only [a1, a2, a3, decide_true, Bool.toNat_true]; omega
          · rw [numeral_len_eq (k := 3) hb (by decide) (by omega) (Or.inr (by simpa using a2))]
            simp only [a1, a2, a3, decide_true, decide_false, Bool.toNat_true, Bool.toNat_false]; omega
        · have a3 : ¬ base ^ 3 ≤ v.toNat := by omega
          rw [numeral_len_eq (k := 2) hb (by decide) (by omega) (Or.inr (by simpa using a1))]
          simp only [a1, a2, a3, decide_true, decide_false, Bool.toNat_true, Bool.toNat_false]; omega
      · have a3 : ¬ base ^ 3 ≤ v.toNat := by omega
        have a2 : ¬ base ^ 2 ≤ v.toNat := by omega
        rw [numeral_len_eq (k := 1) hb (by decide) (by rw [Nat.pow_one]; omega) (Or.inl rfl)]
        simp only [a1, a2, a3, decide_false, Bool.toNat_false]; omega
    · rename_i hge
      have hq : (v / p4).toNat = v.toNat / base ^ 4 := by rw [BitVec.toNat_udiv, h4]
      have hlt : v.toNat / base ^ 4 ≤ v.toNat / 2 := Nat.div_le_div_left hb4 (by decide)
      rw [Nat.pow_succ] at h
      have h5 : (v / p4).toNat < 2 ^ fuel := by rw [hq]; omega
      have h6 := numeral_length_pos base (v.toNat / base ^ 4) hb
      rw [ih _ h5, hq, numeral_len_div (n := v.toNat) hb 4 (by omega)]
      congr 1; omega

theorem digitsCount_spec {w : Nat} (hw : 32 ≤ w) (v : BitVec w) (base : Nat) (hb : 2 ≤ base) (hb' : base ≤ 36) :
    digitsCount v base = .ok (numeral base v.toNat).length := by
  have hok : baseOk (base : Int) = true := by simp [baseOk]; omega
  rw [digitsCount, assert, if_pos hok, ok_bind]
  have hp : 2 ^ 32 ≤ 2 ^ w := Nat.pow_le_pow_right (by decide) hw
  have h1 : (BitVec.ofInt 32 (base : Int)).toNat = base := by
    rw [BitVec.ofInt_natCast, BitVec.toNat_ofNat, Nat.mod_eq_of_lt (by omega)]
  have e2 : base ^ 2 ≤ 36 ^ 2 := Nat.pow_le_pow_left hb' 2
  have e3 : base ^ 3 ≤ 36 ^ 3 := Nat.pow_le_pow_left hb' 3
  have e4 : base ^ 4 ≤ 36 ^ 4 := Nat.pow_le_pow_left hb' 4
  have h2 : (BitVec.ofInt 32 (base : Int) * BitVec.ofInt 32 (base : Int)).toNat = base ^ 2 := by
    rw [BitVec.toNat_mul, h1, ← Nat.pow_two, Nat.mod_eq_of_lt (by omega)]
  have h3 : (BitVec.ofInt 32 (base : Int) * BitVec.ofInt 32 (base : Int) * BitVec.ofInt 32 (base : Int)).toNat = base ^ 3 := by
    rw [BitVec.toNat_mul, h2, h1, ← Nat.pow_succ, Nat.mod_eq_of_lt (by simp only [Nat.succ_eq_add_one, Nat.reduceAdd]; omega)]
  have h4 : (BitVec.ofInt 32 (base : Int) * BitVec.ofInt 32 (base : Int) * BitVec.ofInt 32 (base : Int)
      * BitVec.ofInt 32 (base : Int)).toNat = base ^ 4 := by
    rw [BitVec.toNat_mul, h3, h1, ← Nat.pow_succ, Nat.mod_eq_of_lt (by simp only [Nat.succ_eq_add_one, Nat.reduceAdd]; omega)]
  have hsw : ∀ x : BitVec 32, (x.setWidth w).toNat = x.toNat := by
    intro x; rw [BitVec.toNat_setWidth, Nat.mod_eq_of_lt]; have := x.isLt; omega
  simp only
  rw [digitsCountLoop_spec _ _ _ _ base hb (by rw [hsw, h1]) (by rw [hsw, h2]) (by rw [hsw, h3]) (by rw [hsw, h4]) w v v.isLt]
  congr 1; omega

/-! ### digit tables -/

theorem rd_table (lower : Bool) (d : Nat) (h : d < 36) : rd (table lower) d = .ok (digitChar lower d) := by
  cases lower <;> interval_cases d <;> rfl

theorem rd_double (k : Nat) (h : k < 100) :
    rd doubleDigits (2 * k) = .ok (digitChar false (k / 10)) ∧ rd doubleDigits (2 * k + 1) = .ok (digitChar false (k % 10)) := by
  interval_cases k <;> exact ⟨rfl, rfl⟩

theorem digitChar_dec {d : Nat} (h : d < 10) (lower : Bool) : digitChar lower d = digitChar false d := by
  cases lower <;> simp [digitChar, upperCode, lowerCode, h]

theorem text_dec (lower : Bool) (n : Nat) : text 10 lower n = text 10 false n := by
  simp only [text]
  apply List.map_congr_left
  intro d hd
  exact digitChar_dec ((numeral_canonical 10 n (by decide)).2.1 d hd) lower

/-! ### the digit loops -/

theorem text_ge {base n : Nat} (hb : 2 ≤ base) (h : base ≤ n) (lower : Bool) :
    text base lower n = text base lower (n / base) ++ [digitChar lower (n % base)] := by
  simp [text, numeral_ge hb h]

theorem text_lt {base n : Nat} (h : n < base) (lower : Bool) : text base lower n = [digitChar lower n] := by
  simp [text, numeral_lt h]

theorem text_pos (base n : Nat) (hb : 2 ≤ base) (lower : Bool) : 0 < (text base lower n).length := by
  rw [text_length]; exact numeral_length_pos base n hb

theorem toNat_setWidth32 {w : Nat} (x : BitVec w) (h : x.toNat < 100) : (x.setWidth 32 : BitVec 32).toNat = x.toNat := by
  rw [BitVec.toNat_setWidth, Nat.mod_eq_of_lt (by omega)]

theorem doubleIdx {w : Nat} (x : BitVec w) (h : x.toNat < 100) :
    ((x.setWidth 32) * 2 : BitVec 32).toNat = 2 * x.toNat ∧ ((x.setWidth 32) * 2 + 1 : BitVec 32).toNat = 2 * x.toNat + 1 := by
  have h2 : BitVec.toNat (2 : BitVec 32) = 2 := rfl
  have h1 : BitVec.toNat (1 : BitVec 32) = 1 := rfl
  have := toNat_setWidth32 x h
  constructor
  · rw [BitVec.toNat_mul, h2, this]; omega
  · rw [BitVec.toNat_add, BitVec.toNat_mul, h2, h1, this]; omega

theorem idx_lt {w : Nat} (x : BitVec w) (h : x.toNat < 100) : decide (((x.setWidth 32) * 2 : BitVec 32) < 200) = true := by
  have h200 : BitVec.toNat (200 : BitVec 32) = 200 := rfl
  rw [decide_eq_true_eq, BitVec.lt_def, (doubleIdx x h).1, h200]; omega

theorem toNat_lit100 {w : Nat} (hw : 7 ≤ w) : BitVec.toNat (100 : BitVec w) = 100 := by
  have hp : 128 ≤ 2 ^ w := Nat.pow_le_pow_right (show 0 < 2 by decide) hw
  show BitVec.toNat (BitVec.ofNat w 100) = 100
  rw [BitVec.toNat_ofNat, Nat.mod_eq_of_lt (by omega)]

theorem toNat_lit10 {w : Nat} (hw : 7 ≤ w) : BitVec.toNat (10 : BitVec w) = 10 := by
  have hp : 128 ≤ 2 ^ w := Nat.pow_le_pow_right (show 0 < 2 by decide) hw
  show BitVec.toNat (BitVec.ofNat w 10) = 10
  rw [BitVec.toNat_ofNat, Nat.mod_eq_of_lt (by omega)]

theorem toNat_lit16 {w : Nat} (hw : 7 ≤ w) : BitVec.toNat (0x10 : BitVec w) = 16 := by
  have hp : 128 ≤ 2 ^ w := Nat.pow_le_pow_right (show 0 < 2 by decide) hw
  show BitVec.toNat (BitVec.ofNat w 16) = 16
  rw [BitVec.toNat_ofNat, Nat.mod_eq_of_lt (by omega)]

theorem toNat_and15 {w : Nat} (hw : 7 ≤ w) (x : BitVec w) : (x &&& 0x0F).toNat = x.toNat % 16 := by
  have hp : 128 ≤ 2 ^ w := Nat.pow_le_pow_right (show 0 < 2 by decide) hw
  have h15 : BitVec.toNat (0x0F : BitVec w) = 2 ^ 4 - 1 := by
    show BitVec.toNat (BitVec.ofNat w 15) = 15
    rw [BitVec.toNat_ofNat, Nat.mod_eq_of_lt (by omega)]
  rw [BitVec.toNat_and, h15, Nat.and_two_pow_sub_one_eq_mod]

/-- Two digits at once. -/
theorem text_two {base n : Nat} (hb : 2 ≤ base) (h : base ≤ n / base) (lower : Bool) :
    text base lower n = text base lower (n / base / base) ++ [digitChar lower (n / base % base), digitChar lower (n % base)] := by
  have h1 : base ≤ n := Nat.le_trans h (Nat.div_le_self _ _)
  rw [text_ge hb h1, text_ge hb h, List.append_assoc]; rfl

theorem printDecLoop_spec {w : Nat} (hw : 7 ≤ w) (buf : List Byte) (dest : Nat) (fuel : Nat) (v : BitVec w)
    (hf : v.toNat < 2 ^ fuel) (t : List Byte) (hroom : dest + (text 10 false v.toNat).length + t.length ≤ buf.length) :
    ∃ (v' : BitVec w) (t' : List Byte),
      printDecLoop (fuel + 1) v ((dest : Int) + (text 10 false v.toNat).length - 1)
        (splice buf (dest + (text 10 false v.toNat).length) t)
        = .ok (v', (dest : Int) + (text 10 false v'.toNat).length - 1, splice buf (dest + (text 10 false v'.toNat).length) t') ∧
      v'.toNat < 100 ∧ dest + (text 10 false v'.toNat).length + t'.length ≤ buf.length ∧
      text 10 false v'.toNat ++ t' = text 10 false v.toNat ++ t := by
  have h100 := toNat_lit100 hw
  induction fuel generalizing v t with
  | zero =>
    have h0 : v.toNat = 0 := by simpa using hf
    refine ⟨v, t, ?_, by omega, hroom, rfl⟩
    rw [printDecLoop, if_neg]
    rw [ge_iff_le, BitVec.le_def, h100]; omega
  | succ fuel ih =>
    rw [printDecLoop]
    by_cases hge : v.toNat < 100
    · refine ⟨v, t, ?_, hge, hroom, rfl⟩
      rw [if_neg]
      rw [ge_iff_le, BitVec.le_def, h100]; omega
    · rw [if_pos (by rw [ge_iff_le, BitVec.le_def, h100]; omega)]
      have hm : (v % 100).toNat = v.toNat % 100 := by rw [BitVec.toNat_umod, h100]
      have hm' : (v % 100).toNat < 100 := by omega
      have hq : (v / 100).toNat = v.toNat / 10 / 10 := by rw [BitVec.toNat_udiv, h100]; omega
      have e := text_two (base := 10) (n := v.toNat) (by decide) (by omega) false
      have el : (text 10 false v.toNat).length = (text 10 false (v.toNat / 10 / 10)).length + 2 := by rw [e]; simp
      have hd := rd_double (v % 100).toNat hm'
      generalize hL : (text 10 false (v.toNat / 10 / 10)).length = L at *
      rw [el] at hroom ⊢
      simp only
      rw [assert, if_pos (idx_lt _ hm'), ok_bind, (doubleIdx _ hm').2, (doubleIdx _ hm').1, hd.1, hd.2, ok_bind,
        wrI_splice buf (dest + L + 1) t _ (by omega) (by omega) (by omega), ok_bind, ok_bind,
        wrI_splice buf (dest + L) _ _ (by omega) (by omega) (by simp; omega), ok_bind]
      obtain ⟨v', t', h1, h2, h3, h4⟩ := ih (v / 100) (by rw [hq]; rw [Nat.pow_succ] at hf; omega)
        (digitChar false ((v % 100).toNat / 10) :: digitChar false ((v % 100).toNat % 10) :: t)
        (by rw [hq, hL]; simp; omega)
      rw [hq, hL] at h1
      refine ⟨v', t', ?_, h2, h3, ?_⟩
      · rw [← h1]; congr 1; omega
      · rw [h4, hq, e, hm]
        rw [show v.toNat % 100 / 10 = v.toNat / 10 % 10 by omega, show v.toNat % 100 % 10 = v.toNat % 10 by omega]
        simp

theorem digit_byte {w : Nat} (v : BitVec w) (h : v.toNat < 10) :
    ((48 + v.setWidth 32 : BitVec 32).setWidth 8 : BitVec 8) = digitChar false v.toNat := by
  apply BitVec.eq_of_toNat_eq
  have h48 : BitVec.toNat (48 : BitVec 32) = 48 := rfl
  rw [BitVec.toNat_setWidth, BitVec.toNat_add, toNat_setWidth32 v (by omega), h48]
  simp only [digitChar, upperCode, h, if_true, Bool.false_eq_true, if_false, BitVec.toNat_ofNat]
  omega

theorem printDecW_spec {w : Nat} (hw : 7 ≤ w) (buf : List Byte) (dest maxlen : Nat) (v : BitVec w)
    (hroom : dest + maxlen ≤ buf.length) :
    printDecW (numeral 10 v.toNat).length buf dest maxlen (numeral 10 v.toNat).length v
      = .ok (printResult buf dest maxlen (text 10 false v.toNat)) := by
  have hpos := text_pos 10 v.toNat (by decide) false
  rw [← text_length 10 false]
  rw [printDecW, assert, if_pos (by simpa using hpos), ok_bind, assert, if_pos (by simp), ok_bind, printResult]
  split
  · rw [if_neg (by omega)]
  · rename_i hfit
    have hfit' : (text 10 false v.toNat).length ≤ maxlen := by omega
    rw [if_pos hfit']
    obtain ⟨v', t', h1, h2, h3, h4⟩ := printDecLoop_spec hw buf dest w v v.isLt [] (by simp; omega)
    rw [splice_nil] at h1
    rw [h1, ok_bind]
    simp only [List.append_nil] at h4
    have h10 : (v' < 10) ↔ v'.toNat < 10 := by rw [BitVec.lt_def, toNat_lit10 hw]
    have h100 : (v' < 100) ↔ v'.toNat < 100 := by rw [BitVec.lt_def, toNat_lit100 hw]
    simp only
    split
    · rename_i hlt
      rw [h10] at hlt
      rw [text_lt hlt] at h3 h4 ⊢
      simp only [List.length_singleton] at h3 ⊢
      rw [wrI_splice buf dest _ _ (by omega) (by omega) (by omega), ok_bind, digit_byte v' hlt, ← h4]
      rfl
    · rename_i hge
      rw [h10] at hge
      have e := text_ge (base := 10) (n := v'.toNat) (by decide) (by omega) false
      rw [text_lt (base := 10) (n := v'.toNat / 10) (by omega)] at e
      simp only [List.singleton_append] at e
      have hd := rd_double v'.toNat h2
      rw [e] at h3 h4 ⊢
      simp only [List.length_cons, List.length_nil] at h3 ⊢
      rw [assert, if_pos (decide_eq_true (h100.2 h2)), ok_bind, assert, if_pos (idx_lt _ h2), ok_bind,
        (doubleIdx _ h2).2, (doubleIdx _ h2).1, hd.1, hd.2, ok_bind,
        wrI_splice buf (dest + 1) _ _ (by omega) (by omega) (by omega), ok_bind, ok_bind,
        wrI_splice buf dest _ _ (by omega) (by omega) (by simp; omega), ok_bind, ← h4]
      rfl

theorem printDec32_spec (buf : List Byte) (dest maxlen : Nat) (v : BitVec 32) (hroom : dest + maxlen ≤ buf.length) :
    printDec32 buf dest maxlen v = .ok (printResult buf dest maxlen (text 10 false v.toNat)) := by
  rw [printDec32, digitsCountDec32_spec, printDecW_spec (by decide) _ _ _ _ hroom]

theorem printDec64_spec (buf : List Byte) (dest maxlen : Nat) (v : BitVec 64) (hroom : dest + maxlen ≤ buf.length) :
    printDec64 buf dest maxlen v = .ok (printResult buf dest maxlen (text 10 false v.toNat)) := by
  rw [printDec64, digitsCountDec64_spec, ok_bind, printDecW_spec (by decide) _ _ _ _ hroom]

/-- The hex loop; `hexRest n` is the part of the text still to be printed when the remaining value is `n`. -/
def hexRest (lower : Bool) (n : Nat) : List Byte := if n = 0 then [] else text 16 lower n

theorem printHexLoop_spec {w : Nat} (hw : 7 ≤ w) (lower : Bool) (buf : List Byte) (dest : Nat) (fuel : Nat) (v : BitVec w)
    (hf : v.toNat < 2 ^ fuel) (t : List Byte) (hroom : dest + (hexRest lower v.toNat).length + t.length ≤ buf.length) :
    ∃ (v' : BitVec w) (t' : List Byte),
      printHexLoop (table lower) (fuel + 1) v ((dest : Int) + (hexRest lower v.toNat).length - 1)
        (splice buf (dest + (hexRest lower v.toNat).length) t)
        = .ok (v', (dest : Int) + (hexRest lower v'.toNat).length - 1, splice buf (dest + (hexRest lower v'.toNat).length) t') ∧
      v'.toNat < 16 ∧ dest + (hexRest lower v'.toNat).length + t'.length ≤ buf.length ∧
      hexRest lower v'.toNat ++ t' = hexRest lower v.toNat ++ t := by
  have h16 := toNat_lit16 hw
  induction fuel generalizing v t with
  | zero =>
    have h0 : v.toNat = 0 := by simpa using hf
    refine ⟨v, t, ?_, by omega, hroom, rfl⟩
    rw [printHexLoop, if_neg]
    rw [ge_iff_le, BitVec.le_def, h16]; omega
  | succ fuel ih =>
    rw [printHexLoop]
    by_cases hge : v.toNat < 16
    · refine ⟨v, t, ?_, hge, hroom, rfl⟩
      rw [if_neg]
      rw [ge_iff_le, BitVec.le_def, h16]; omega
    · rw [if_pos (by rw [ge_iff_le, BitVec.le_def, h16]; omega)]
      have hs4 : (v >>> 4).toNat = v.toNat / 16 := by rw [BitVec.toNat_ushiftRight, Nat.shiftRight_eq_div_pow]
      have hs8 : (v >>> 8).toNat = v.toNat / 16 / 16 := by
        rw [BitVec.toNat_ushiftRight, Nat.shiftRight_eq_div_pow]; omega
      have e : hexRest lower v.toNat = hexRest lower (v.toNat / 16 / 16)
          ++ [digitChar lower (v.toNat / 16 % 16), digitChar lower (v.toNat % 16)] := by
        rw [hexRest, if_neg (by omega), hexRest]
        split
        · rw [text_ge (by decide) (by omega), text_lt (n := v.toNat / 16) (by omega),
            Nat.mod_eq_of_lt (a := v.toNat / 16) (by omega)]; rfl
        · rw [text_two (by decide) (by omega)]
      have el : (hexRest lower v.toNat).length = (hexRest lower (v.toNat / 16 / 16)).length + 2 := by rw [e]; simp
      generalize hL : (hexRest lower (v.toNat / 16 / 16)).length = L at *
      rw [el] at hroom ⊢
      rw [toNat_and15 hw, toNat_and15 hw, hs4, rd_table _ _ (by omega), ok_bind,
        wrI_splice buf (dest + L + 1) t _ (by omega) (by omega) (by omega), ok_bind, rd_table _ _ (by omega), ok_bind,
        wrI_splice buf (dest + L) _ _ (by omega) (by omega) (by simp; omega), ok_bind]
      obtain ⟨v', t', h1, h2, h3, h4⟩ := ih (v >>> 8) (by rw [hs8]; rw [Nat.pow_succ] at hf; omega)
        (digitChar lower (v.toNat / 16 % 16) :: digitChar lower (v.toNat % 16) :: t)
        (by rw [hs8, hL]; simp; omega)
      rw [hs8, hL] at h1
      refine ⟨v', t', ?_, h2, h3, ?_⟩
      · rw [← h1]; congr 1; omega
      · rw [h4, hs8, e]; simp

theorem printHexW_spec {w : Nat} (hw : 7 ≤ w) (lower : Bool) (buf : List Byte) (dest maxlen : Nat) (v : BitVec w)
    (hroom : dest + maxlen ≤ buf.length) :
    printHexW buf dest maxlen (numeral 16 v.toNat).length v lower = .ok (printResult buf dest maxlen (text 16 lower v.toNat)) := by
  have hpos := text_pos 16 v.toNat (by decide) lower
  rw [← text_length 16 lower]
  rw [printHexW, assert, if_pos (by simpa using hpos), ok_bind, digitsCountHex_spec w v v.isLt, ok_bind, assert,
    if_pos (by simp [text_length]), ok_bind, printResult]
  split
  · rw [if_neg (by omega)]
  · rename_i hfit
    have hfit' : (text 16 lower v.toNat).length ≤ maxlen := by omega
    rw [if_pos hfit']
    split
    · rename_i h0
      have h0' : v.toNat = 0 := by rw [h0]; simp
      clear hfit'
      rw [h0', text_lt (by decide)] at hfit ⊢
      simp only [List.length_singleton] at hfit
      rw [assert, if_pos (by simp), ok_bind]
      have := wr_splice buf dest [] 48 (by simp; omega)
      rw [splice_nil] at this
      rw [this, ok_bind]
      have : digitChar lower 0 = 48 := by cases lower <;> rfl
      rw [this]; rfl
    · rename_i h0
      have h0' : v.toNat ≠ 0 := by intro h; apply h0; apply BitVec.eq_of_toNat_eq; rw [h]; simp
      have hx : hexRest lower v.toNat = text 16 lower v.toNat := by rw [hexRest, if_neg h0']
      obtain ⟨v', t', h1, h2, h3, h4⟩ := printHexLoop_spec hw lower buf dest w v v.isLt [] (by rw [hx]; simp; omega)
      rw [splice_nil, hx] at h1
      rw [hx] at h4
      simp only [List.append_nil] at h4
      simp only
      rw [h1, ok_bind]
      split
      · rename_i hne
        have hne' : v'.toNat ≠ 0 := by intro h; apply hne; apply BitVec.eq_of_toNat_eq; rw [h]; simp
        have hx' : hexRest lower v'.toNat = [digitChar lower v'.toNat] := by rw [hexRest, if_neg hne', text_lt h2]
        rw [hx'] at h3 h4 ⊢
        simp only [List.length_singleton] at h3 ⊢
        rw [toNat_and15 hw, Nat.mod_eq_of_lt h2, rd_table _ _ (by omega), ok_bind,
          wrI_splice buf dest _ _ (by omega) (by omega) (by omega), ok_bind, ← h4]
        rfl
      · rename_i he
        have he' : v'.toNat = 0 := by simp at he; rw [he]; simp
        have hx' : hexRest lower v'.toNat = [] := by rw [hexRest, if_pos he']
        rw [hx'] at h3 h4 ⊢
        rw [← h4]; rfl

theorem printHex_spec {w : Nat} (hw : 7 ≤ w) (lower : Bool) (buf : List Byte) (dest maxlen : Nat) (v : BitVec w)
    (hroom : dest + maxlen ≤ buf.length) :
    printHex buf dest maxlen v lower = .ok (printResult buf dest maxlen (text 16 lower v.toNat)) := by
  rw [printHex, digitsCountHex_spec w v v.isLt, ok_bind, printHexW_spec hw _ _ _ _ _ hroom]

theorem printLoop_spec {w : Nat} (lower : Bool) (base : Nat) (hb : 2 ≤ base) (hb' : base ≤ 36) (ub : BitVec w)
    (hub : ub.toNat = base) (buf : List Byte) (dest : Nat) (fuel : Nat) (v : BitVec w)
    (hf : v.toNat < 2 ^ fuel) (t : List Byte) (hroom : dest + (text base lower v.toNat).length + t.length ≤ buf.length) :
    printLoop (table lower) ub (fuel + 1) v ((dest : Int) + (text base lower v.toNat).length - 1)
      (splice buf (dest + (text base lower v.toNat).length) t) = .ok (splice buf dest (text base lower v.toNat ++ t)) := by
  induction fuel generalizing v t with
  | zero =>
    have h0 : v.toNat = 0 := by simpa using hf
    have hq : v / ub = 0 := by apply BitVec.eq_of_toNat_eq; rw [BitVec.toNat_udiv, h0]; simp
    have hm : (v % ub).toNat = 0 := by rw [BitVec.toNat_umod, h0, Nat.zero_mod]
    rw [h0, text_lt (by omega)] at hroom ⊢
    simp only [List.length_singleton] at hroom ⊢
    rw [printLoop, hm, assert, if_pos (by decide), ok_bind, rd_table _ _ (by decide), ok_bind,
      wrI_splice buf dest t _ (by omega) (by omega) (by omega), ok_bind, hq]
    simp
  | succ fuel ih =>
    have hq : (v / ub).toNat = v.toNat / base := by rw [BitVec.toNat_udiv, hub]
    have hm : (v % ub).toNat = v.toNat % base := by rw [BitVec.toNat_umod, hub]
    have hml : v.toNat % base < base := Nat.mod_lt _ (by omega)
    have htl : tableLower.length = 36 := rfl
    by_cases hlt : v.toNat < base
    · have hq0 : v / ub = 0 := by
        apply BitVec.eq_of_toNat_eq; rw [hq, Nat.div_eq_of_lt hlt]; simp
      rw [text_lt hlt] at hroom ⊢
      simp only [List.length_singleton] at hroom ⊢
      rw [printLoop, hm, assert, if_pos (by rw [htl]; simp; omega), ok_bind, rd_table _ _ (by omega), ok_bind,
        wrI_splice buf dest t _ (by omega) (by omega) (by omega), ok_bind, hq0, Nat.mod_eq_of_lt hlt]
      simp
    · have e := text_ge hb (Nat.le_of_not_lt hlt) lower
      have el : (text base lower v.toNat).length = (text base lower (v.toNat / base)).length + 1 := by rw [e]; simp
      have hqp : 0 < v.toNat / base := Nat.div_pos (by omega) (by omega)
      have hq0 : v / ub ≠ 0 := by
        intro h; rw [h] at hq; simp at hq; omega
      have hle : v.toNat / base ≤ v.toNat / 2 := Nat.div_le_div_left hb (by decide)
      have hlen : dest + (text base lower (v.toNat / base)).length + 1 + t.length ≤ buf.length := by omega
      rw [printLoop, hm, assert, if_pos (by rw [htl]; simp; omega), ok_bind, rd_table _ _ (by omega), ok_bind, el]
      rw [show dest + ((text base lower (v.toNat / base)).length + 1) = dest + (text base lower (v.toNat / base)).length + 1 by omega]
      rw [wrI_splice buf (dest + (text base lower (v.toNat / base)).length) t _ (by omega) (by omega) hlen, ok_bind]
      simp only
      rw [if_pos hq0]
      have hf' : (v / ub).toNat < 2 ^ fuel := by rw [hq]; rw [Nat.pow_succ] at hf; omega
      have := ih (v / ub) hf' (digitChar lower (v.toNat % base) :: t) (by rw [hq]; simp; omega)
      rw [hq] at this
      rw [e, List.append_assoc, List.singleton_append, ← this]
      congr 1; omega

theorem printUW_spec {w : Nat} (hw : 32 ≤ w) (lower : Bool) (base : Nat) (hb : 2 ≤ base) (hb' : base ≤ 36)
    (buf : List Byte) (dest maxlen : Nat) (v : BitVec w) (hroom : dest + maxlen ≤ buf.length) :
    printUW buf dest maxlen (numeral base v.toNat).length v base lower
      = .ok (printResult buf dest maxlen (text base lower v.toNat)) := by
  have hpos := text_pos base v.toNat hb lower
  have hok : baseOk (base : Int) = true := by simp [baseOk]; omega
  have hp : 2 ^ 32 ≤ 2 ^ w := Nat.pow_le_pow_right (by decide) hw
  have hub : (BitVec.ofInt w (base : Int)).toNat = base := by
    rw [BitVec.ofInt_natCast, BitVec.toNat_ofNat, Nat.mod_eq_of_lt (by omega)]
  rw [← text_length base lower]
  rw [printUW, assert, if_pos hok, ok_bind, assert, if_pos (by simpa using hpos), ok_bind,
    digitsCount_spec hw v base hb hb', ok_bind, assert, if_pos (by simp [text_length]), ok_bind, printResult]
  split
  · rw [if_neg (by omega)]
  · rename_i hfit
    have hfit' : (text base lower v.toNat).length ≤ maxlen := by omega
    rw [if_pos hfit']
    split
    · rename_i h0
      have h0' : v.toNat = 0 := by rw [h0]; simp
      clear hfit'
      rw [h0', text_lt (by omega)] at hfit ⊢
      simp only [List.length_singleton] at hfit ⊢
      rw [assert, if_pos (by simp), ok_bind]
      have := wrI_splice buf dest (q := dest + 1) (i := (dest : Int) + (1 : Nat) - 1) [] 48 rfl (by omega) (by simp; omega)
      rw [splice_nil] at this
      rw [this, ok_bind]
      have : digitChar lower 0 = 48 := by cases lower <;> rfl
      rw [this]
    · have := printLoop_spec lower base hb hb' _ hub buf dest w v v.isLt [] (by simp; omega)
      rw [splice_nil, List.append_nil] at this
      rw [this, ok_bind]

theorem printU_spec {w : Nat} (hw : 32 ≤ w) (dec : List Byte → Nat → Nat → BitVec w → C (ConvResult × List Byte))
    (hdec : ∀ buf dest maxlen v, dest + maxlen ≤ buf.length →
      dec buf dest maxlen v = .ok (printResult buf dest maxlen (text 10 false v.toNat)))
    (lower : Bool) (base : Nat) (hb : 2 ≤ base) (hb' : base ≤ 36)
    (buf : List Byte) (dest maxlen : Nat) (v : BitVec w) (hroom : dest + maxlen ≤ buf.length) :
    printU dec buf dest maxlen v base lower = .ok (printResult buf dest maxlen (text base lower v.toNat)) := by
  have hok : baseOk (base : Int) = true := by simp [baseOk]; omega
  rw [printU, assert, if_pos hok, ok_bind]
  split
  · rename_i h
    have : base = 10 := by omega
    rw [hdec _ _ _ _ hroom, this, text_dec lower]
  · split
    · rename_i h
      have : base = 16 := by omega
      rw [printHex_spec (by omega) _ _ _ _ _ hroom, this]
    · rw [digitsCount_spec hw v base hb hb', ok_bind, printUW_spec hw lower base hb hb' _ _ _ _ hroom]

end Tm.Conv
