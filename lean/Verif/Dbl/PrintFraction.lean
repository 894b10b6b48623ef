import Verif.Dbl.PrintParts
/-! The fraction in `print_double`. -/
namespace Tm.Dbl
open Tm.Conv Tm.Num

variable {buf : List Byte} {dest maxlen : Nat}

theorem dot_fit {t : List Byte} (hroom : dest + maxlen ≤ buf.length) (h : t.length + 2 ≤ maxlen) :
    dot maxlen (st buf dest maxlen t) = .ok (.inr (st buf dest maxlen (t ++ [46]))) := by
  rw [dot, if_neg (by simp [st]; omega), put_st 46 hroom (by omega), ok_bind, if_neg (by simp [st]; omega)]

theorem dot_full {t : List Byte} (hroom : dest + maxlen ≤ buf.length) (ht : t.length ≤ maxlen) (h : maxlen < t.length + 2) :
    ∃ b, dot maxlen (st buf dest maxlen t) = .ok (.inl (⟨maxlen, .eoverflow⟩, b)) ∧ SameOutside buf b dest maxlen := by
  by_cases he : t.length = maxlen
  · refine ⟨(st buf dest maxlen t).buf, ?_, st_same hroom ht⟩
    rw [dot, if_pos (by simp [st]; omega), done_st ht, he]
    rfl
  · refine ⟨(st buf dest maxlen (t ++ [46])).buf, ?_, st_same hroom (by simp; omega)⟩
    rw [dot, if_neg (by simp [st]; omega), put_st 46 hroom (by omega), ok_bind, if_pos (by simp [st]; omega), done_st (by simp; omega)]
    simp [st]
    omega

theorem zeroes_lt {d w : Nat} (h0 : 0 < d) (h : d ≤ 10 ^ w) (hd : d % 10 = 0) : 0 < w := by
  rcases Nat.eq_zero_or_pos w with rfl | h'
  · simp at h; omega
  · exact h'

theorem trim_eq (fuel : Nat) {d w : Nat} (h0 : 0 < d) (h : d ≤ 10 ^ w) (hw : w < fuel) (hd : d < 2 ^ 64) :
    ∃ d' w', trim fuel (BitVec.ofNat 64 d) w = .ok (BitVec.ofNat 64 d', w') ∧ w' ≤ w ∧ d = d' * 10 ^ (w - w') ∧ d' % 10 ≠ 0 ∧ 0 < d' := by
  induction fuel generalizing d w with
  | zero => omega
  | succ fuel ih =>
    have h10 : (10 : BitVec 64) = BitVec.ofNat 64 10 := rfl
    have hmod : (BitVec.ofNat 64 d % 10 = 0) ↔ d % 10 = 0 := by
      rw [h10]
      constructor
      · intro h
        have := congrArg BitVec.toNat h
        rw [BitVec.toNat_umod, BitVec.toNat_ofNat, BitVec.toNat_ofNat, Nat.mod_eq_of_lt hd] at this
        exact this
      · intro h
        apply BitVec.eq_of_toNat_eq
        rw [BitVec.toNat_umod, BitVec.toNat_ofNat, BitVec.toNat_ofNat, Nat.mod_eq_of_lt hd]
        exact h
    have hdiv : BitVec.ofNat 64 d / 10 = BitVec.ofNat 64 (d / 10) := by
      apply BitVec.eq_of_toNat_eq
      rw [h10]
      simp [BitVec.toNat_udiv]
      omega
    rw [trim]
    by_cases hz : d % 10 = 0
    · rw [if_pos (hmod.mpr hz)]
      have hw0 := zeroes_lt h0 h hz
      rw [if_neg (by omega), hdiv]
      have hle : d / 10 ≤ 10 ^ (w - 1) := by
        have : 10 ^ w = 10 ^ (w - 1) * 10 := by rw [← Nat.pow_succ]; congr 1; omega
        omega
      obtain ⟨d', w', e1, e2, e3, e4, e5⟩ := ih (by omega) hle (by omega) (by omega)
      refine ⟨d', w', e1, by omega, ?_, e4, e5⟩
      have : d = d / 10 * 10 := by omega
      rw [this, e3, Nat.mul_assoc, ← Nat.pow_succ]
      congr 2
      omega
    · rw [if_neg (by rw [hmod]; exact hz)]
      exact ⟨d, w, rfl, le_refl _, by simp, hz, h0⟩

/-- A number behind the dot. -/
theorem fraction_number {t : List Byte} {w d : Nat} (hroom : dest + maxlen ≤ buf.length) (h2 : t.length + 2 ≤ maxlen) (hd : d < 2 ^ 64) :
    Printed buf dest maxlen (t ++ 46 :: padded w d) (do
      let r ← zeroPadded (st buf dest maxlen (t ++ [46])) w (BitVec.ofNat 64 d)
      let o ← advance (st buf dest maxlen (t ++ [46])) r
      .ok (done maxlen o r.1.ec)) := by
  unfold Printed
  have e : t ++ 46 :: padded w d = (t ++ [46]) ++ padded w d := by simp
  split
  · rename_i hfit
    rw [e] at hfit
    rw [zeroPadded_fit hroom hd hfit, ok_bind, advance_st hfit rfl, ok_bind, done_st hfit, e]
  · rename_i hfull
    rw [e] at hfull
    obtain ⟨b, hb, hs⟩ := zeroPadded_full (t := t ++ [46]) (width := w) hroom hd (by simp; omega) (by omega)
    rw [hb, ok_bind, advance_full (by simp; omega), ok_bind]
    exact ⟨b, by simp [done], hs⟩

theorem printed_full {t s : List Byte} {b : List Byte} {r : C (ConvResult × List Byte)} (h : maxlen < (t ++ s).length)
    (hr : r = .ok (⟨maxlen, .eoverflow⟩, b)) (hs : SameOutside buf b dest maxlen) : Printed buf dest maxlen (t ++ s) r := by
  rw [Printed, if_neg (by omega)]
  exact ⟨b, hr, hs⟩

theorem padded_two {t : List Byte} {w d : Nat} : t.length + 2 ≤ (t ++ 46 :: padded w d).length := by
  have hpos := text_pos 10 d (by decide) false
  simp [padded_length]; omega

/-- The text of the fraction. -/
def fractionOf (precision d : Nat) (trailing keepShort : Bool) : List Byte :=
  if precision = 0 then []
  else if d ≠ 0 then
    if keepShort then
      match trim 65 (BitVec.ofNat 64 d) precision with
      | .ok (_, 0) => [46, 48]
      | .ok (d', w) => 46 :: padded w d'.toNat
      | .error _ => []
    else 46 :: padded precision d
  else if trailing then 46 :: (if keepShort then [48] else List.replicate precision 48)
  else []

theorem fractionPart_eq {t : List Byte} {f : F} {ten : ℚ} {p d : Nat} {trailing keepShort : Bool} (hroom : dest + maxlen ≤ buf.length)
    (ht : t.length ≤ maxlen) (hp : p ≤ 14) (hks : keepShort = false → trailing = true)
    (hten : printPowersOfTen[p]? = some (.fin ten)) (hd : d ≤ 10 ^ p)
    (hdig : toU64 ((f.mulS (.fin ten)).addS (.fin (1 / 2))) = .ok (BitVec.ofNat 64 d)) :
    Printed buf dest maxlen (t ++ fractionOf p d trailing keepShort) (fractionPart maxlen (st buf dest maxlen t) f p trailing keepShort) := by
  have hd64 : d < 2 ^ 64 := by
    have : 10 ^ p ≤ 10 ^ 14 := Nat.pow_le_pow_right (by norm_num) hp
    have : (10 : ℕ) ^ 14 < 2 ^ 64 := by norm_num
    omega
  rw [fractionPart, fractionOf]
  by_cases hp0 : p = 0
  · rw [if_pos hp0, if_pos hp0, List.append_nil, done_st ht, Printed, if_pos ht]
  rw [if_neg hp0, if_neg hp0, hten]
  simp only [Option.elim, ok_bind]
  rw [hdig, ok_bind]
  have hne : (BitVec.ofNat 64 d ≠ 0) ↔ d ≠ 0 := by
    constructor
    · rintro h rfl; exact h rfl
    · intro h hc
      have := congrArg BitVec.toNat hc
      simp at this
      omega
  by_cases hd0 : d ≠ 0
  · rw [if_pos (hne.mpr hd0), if_pos hd0]
    by_cases h2 : t.length + 2 ≤ maxlen
    · rw [dot_fit hroom h2, ok_bind]
      cases hk : keepShort
      · have := hks hk
        subst this
        simp only [Bool.not_true, Bool.or_false, Bool.false_eq_true, if_false]
        rw [pure_eq_ok, ok_bind, if_neg hp0]
        exact fraction_number hroom h2 hd64
      · simp only [Bool.or_true, if_true]
        obtain ⟨d', w', e1, e2, e3, e4, e5⟩ := trim_eq 65 (by omega) hd (by omega) hd64
        have hd' : d' < 2 ^ 64 := by
          have : d' ≤ d' * 10 ^ (p - w') := Nat.le_mul_of_pos_right d' (by positivity)
          omega
        rw [e1, ok_bind]
        rcases Nat.eq_zero_or_pos w' with rfl | hw
        · simp only [if_true]
          rw [Printed, put_st 48 hroom (by simp; omega), ok_bind, if_pos (by simp; omega), done_st (by simp; omega)]
          simp
        · obtain ⟨w'', rfl⟩ : ∃ w'', w' = w'' + 1 := ⟨w' - 1, by omega⟩
          simp only [BitVec.toNat_ofNat, Nat.mod_eq_of_lt hd']
          rw [if_neg (by omega)]
          exact fraction_number hroom h2 hd'
    · obtain ⟨b, hb, hs⟩ := dot_full (t := t) hroom ht (by omega)
      rw [hb, ok_bind]
      refine printed_full ?_ rfl hs
      cases hk : keepShort
      · simp only [Bool.false_eq_true, if_false]
        have := padded_two (t := t) (w := p) (d := d)
        omega
      · simp only [if_true]
        obtain ⟨d', w', e1, e2, e3, e4, e5⟩ := trim_eq 65 (by omega) hd (by omega) hd64
        rw [e1]
        rcases Nat.eq_zero_or_pos w' with rfl | hw
        · simp; omega
        · obtain ⟨w'', rfl⟩ : ∃ w'', w' = w'' + 1 := ⟨w' - 1, by omega⟩
          simp only
          have := padded_two (t := t) (w := w'' + 1) (d := (BitVec.ofNat 64 d').toNat)
          omega
  · rw [if_neg (show ¬ (BitVec.ofNat 64 d ≠ 0) from fun h => hd0 (hne.mp h)), if_neg hd0]
    cases htr : trailing
    · simp only [Bool.false_eq_true, if_false, List.append_nil]
      rw [done_st ht, Printed, if_pos ht]
    · simp only [if_true]
      unfold Printed
      by_cases h2 : t.length + 2 ≤ maxlen
      · rw [dot_fit hroom h2, ok_bind]
        cases hk : keepShort
        · simp only [Bool.false_eq_true, if_false]
          by_cases hfit : t.length + 1 + p ≤ maxlen
          · rw [if_pos (by simp; omega)]
            have c1 : ¬ ((st buf dest maxlen (t ++ [46])).maxlen < p) := by simp [st]; omega
            rw [if_neg c1, if_neg c1]
            have := memcpy_st buf dest (List.replicate p 48) (t ++ [46]) (by simp; omega)
            simp only [st]
            rw [this, ok_bind]
            simp [done]
            omega
          · rw [if_neg (by simp; omega)]
            have c1 : ((st buf dest maxlen (t ++ [46])).maxlen < p) := by simp [st]; omega
            rw [if_pos c1, if_pos c1]
            have := memcpy_st buf dest (List.replicate (maxlen - (t ++ [46]).length) 48) (t ++ [46]) (by simp; omega)
            simp only [st]
            rw [this, ok_bind]
            refine ⟨_, ?_, splice_same buf (t ++ [46] ++ List.replicate (maxlen - (t ++ [46]).length) 48) dest maxlen ?_ hroom⟩
            · simp [done]
            · simp; omega
        · simp only [if_true]
          rw [put_st 48 hroom (by simp; omega), ok_bind, if_pos (by simp; omega), done_st (by simp; omega)]
          simp
      · obtain ⟨b, hb, hs⟩ := dot_full (t := t) hroom ht (by omega)
        rw [hb, ok_bind, if_neg (by simp; cases keepShort <;> simp <;> omega)]
        exact ⟨b, rfl, hs⟩

/-- The digits of a fraction. -/
theorem fraction_digits {f : ℚ} {p : Nat} (h0 : 0 ≤ f) (h1 : f < 1) (hp : p ≤ 14) :
    printPowersOfTen[p]? = some (.fin (10 ^ p)) ∧
    ∃ d : ℕ, toU64 (((F.fin f).mulS (.fin (10 ^ p))).addS (.fin (1 / 2))) = .ok (BitVec.ofNat 64 d) ∧ d ≤ 10 ^ p ∧
      |(d : ℚ) - f * 10 ^ p| ≤ 33 / 64 ∧ (f = 0 → d = 0) := by
  constructor
  · rw [printPowersOfTen, List.getElem?_map, List.getElem?_range (by omega)]
    simp only [Option.map_some]
    rw [rnd_ten (by omega)]
  have hten : (10 : ℚ) ^ p ≤ 10 ^ 14 := pow_le_pow_right₀ (by norm_num) hp
  have hpos : (0 : ℚ) < 10 ^ p := by positivity
  have hx0 : 0 ≤ f * 10 ^ p := by positivity
  have hx1 : f * 10 ^ p < 10 ^ p := by nlinarith
  have h47 : (10 : ℚ) ^ 14 < 2 ^ (47 : ℤ) := by norm_num
  obtain ⟨x, x1, x2, x3, x4⟩ := rnd_small hx0 (le_trans (le_trans hx1.le hten) (ten_le (by norm_num)))
  have hx := rnd_abs (k := 47) (by norm_num) hx0 (by linarith) x1
  have hxle := x4 _ (ten_rep (by omega)) hx1.le
  have hxn := rep_nonneg x2
  have hy0 : 0 ≤ x + 1 / 2 := by linarith
  obtain ⟨y, y1, y2, y3, y4⟩ := rnd_small hy0 (le_trans (show x + 1 / 2 ≤ (10 : ℚ) ^ 15 by
    have : (10 : ℚ) ^ 14 + 1 / 2 ≤ 10 ^ 15 := by norm_num
    linarith) (ten_le (by norm_num)))
  have hy := rnd_abs (k := 47) (by norm_num) hy0 (by
    have : (10 : ℚ) ^ 14 + 1 / 2 < 2 ^ (47 : ℤ) := by norm_num
    linarith) y1
  have hyn := rep_nonneg y2
  have hy2 := y4 ((10 ^ p : ℚ) + 1 / 2) (by
    have h : 10 ^ p * 2 + 1 < 2 ^ 53 := by
      have : 10 ^ p ≤ 10 ^ 14 := Nat.pow_le_pow_right (by norm_num) hp
      have : (10 ^ 14 * 2 + 1 : ℕ) < 2 ^ 53 := by norm_num
      omega
    refine ⟨10 ^ p * 2 + 1, -1, h, by norm_num, ?_⟩
    push_cast
    norm_num
    ring) (by linarith)
  have hm : (F.fin f).mulS (.fin (10 ^ p)) = .fin x := by rw [F.mulS, rndS_nonneg hx0, x1]
  have ha : (F.fin x).addS (.fin (1 / 2)) = .fin y := by rw [F.addS, rndS_nonneg hy0, y1]
  rw [hm, ha]
  have hfl : 0 ≤ y.floor := Int.floor_nonneg.mpr hyn
  obtain ⟨f1, f2⟩ := floor_bounds y
  have hc : ((y.floor.toNat : ℕ) : ℚ) = (y.floor : ℚ) := by
    have : ((y.floor.toNat : ℤ)) = y.floor := Int.toNat_of_nonneg hfl
    exact_mod_cast congrArg (Int.cast : ℤ → ℚ) this
  have hdle : y.floor.toNat ≤ 10 ^ p := by
    have : ((y.floor.toNat : ℕ) : ℚ) < ((10 ^ p + 1 : ℕ) : ℚ) := by
      rw [hc]; push_cast; linarith
    have : y.floor.toNat < 10 ^ p + 1 := by exact_mod_cast this
    omega
  refine ⟨y.floor.toNat, ?_, hdle, ?_, ?_⟩
  · apply toU64_eq
    · rw [hc]; exact f1
    · rw [hc]; exact f2
    · have : 10 ^ p ≤ 10 ^ 14 := Nat.pow_le_pow_right (by norm_num) hp
      have : (10 : ℕ) ^ 14 < 2 ^ 64 := by norm_num
      omega
  · rw [hc]
    norm_num at hx hy
    rw [abs_le] at hx hy ⊢
    constructor <;> linarith
  · rintro rfl
    rw [zero_mul, rnd_zero] at x1
    cases x1
    rw [zero_add, rnd_rep ⟨1, -1, by norm_num, by norm_num, by norm_num⟩ (by
      refine le_trans ?_ (ten_le (k := 0) (by norm_num))
      norm_num)] at y1
    cases y1
    decide +kernel

end Tm.Dbl
