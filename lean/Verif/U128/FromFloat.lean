import Verif.U128.FloatLemmas
import Mathlib.Tactic.Linarith
import Mathlib.Algebra.Order.Field.Power
import Mathlib.Algebra.Order.Floor.Semifield
namespace Tm.U128

theorem setBit_or (v : U128) (i : Nat) (hi : i < 128) (h : v.toNat < 2 ^ i) (n : BitVec 64) (hn : n.toNat = i) :
    ∃ r, setBit v n = .ok r ∧ r.toNat = 2 ^ i + v.toNat := by
  obtain ⟨r, h1, h2⟩ := setBit_spec v n (by omega)
  refine ⟨r, h1, ?_⟩
  have := Nat.two_pow_add_eq_or_of_lt h 1
  rw [Nat.mul_one] at this
  rw [this]
  apply Nat.eq_of_testBit_eq
  intro j
  rw [h2 j, Nat.testBit_or, Nat.testBit_two_pow, hn, Bool.or_comm]
  congr 1
  rw [decide_eq_decide]; exact eq_comm

theorem ieee_unsigned {p w bits : Nat} (h : bits < 2 ^ (p + w)) :
    ieee p w bits = if bits / 2 ^ p = 0 then ((bits % 2 ^ p : ℕ) : ℚ) * 2 ^ ((1 : ℤ) - (2 ^ (w - 1) - 1) - p)
      else ((2 ^ p + bits % 2 ^ p : ℕ) : ℚ) * 2 ^ (((bits / 2 ^ p : ℕ) : ℤ) - (2 ^ (w - 1) - 1) - p) := by
  have h1 : bits / 2 ^ p < 2 ^ w := by
    rw [Nat.div_lt_iff_lt_mul (by positivity), ← Nat.pow_add, Nat.add_comm]; exact h
  simp only [ieee]
  rw [Nat.div_eq_of_lt h, if_pos rfl, one_mul, Nat.mod_eq_of_lt h1]

/-- The sign bit negates. -/
theorem ieee_sign {p w bits : Nat} (h : bits < 2 ^ (p + w)) : ieee p w (2 ^ (p + w) + bits) = - ieee p w bits := by
  have e1 : (2 ^ (p + w) + bits) % 2 ^ p = bits % 2 ^ p := by rw [Nat.pow_add, Nat.mul_add_mod]
  have e2 : (2 ^ (p + w) + bits) / 2 ^ p % 2 ^ w = bits / 2 ^ p % 2 ^ w := by
    rw [Nat.pow_add, Nat.mul_add_div (by positivity), Nat.add_mod_left]
  have e3 : (2 ^ (p + w) + bits) / 2 ^ (p + w) = 1 := by
    rw [Nat.add_div_left _ (by positivity), Nat.div_eq_of_lt h]
  simp only [ieee, e1, e2, e3, Nat.div_eq_of_lt h]
  rw [if_neg (by decide), if_pos trivial]; ring

theorem floor_scaled (a k : Nat) : ⌊(a : ℚ) * 2 ^ (-(k : ℤ))⌋₊ = a / 2 ^ k := by
  rw [zpow_neg, zpow_natCast, ← div_eq_mul_inv]
  have := Nat.floor_div_eq_div (K := ℚ) a (2 ^ k)
  push_cast at this
  exact this

theorem floor_nat (a k : Nat) : ⌊(a : ℚ) * 2 ^ (k : ℤ)⌋₊ = a * 2 ^ k := by
  rw [zpow_natCast]
  have : ((a * 2 ^ k : ℕ) : ℚ) = (a : ℚ) * 2 ^ k := by push_cast; rfl
  rw [← this, Nat.floor_natCast]

theorem zpow_small (a k : Nat) (h : a < 2 ^ k) (z : ℤ) (hz : z ≤ -(k : ℤ)) : (a : ℚ) * 2 ^ z < 1 := by
  have h1 : (2 : ℚ) ^ z ≤ 2 ^ (-(k : ℤ)) := zpow_le_zpow_right₀ (by norm_num) hz
  have h2 : (a : ℚ) < 2 ^ k := by exact_mod_cast h
  have h3 : (0 : ℚ) < 2 ^ z := by positivity
  calc (a : ℚ) * 2 ^ z < 2 ^ k * 2 ^ z := by exact mul_lt_mul_of_pos_right h2 h3
    _ ≤ 2 ^ k * 2 ^ (-(k : ℤ)) := mul_le_mul_of_nonneg_left h1 (by positivity)
    _ = 1 := by rw [zpow_neg, zpow_natCast]; field_simp

/-- A number below 1. -/
theorem ieee_below_one {p w bits : Nat} (hw : 2 ≤ w) (h : bits < 2 ^ (p + w)) (he : bits / 2 ^ p < 2 ^ (w - 1) - 1) :
    0 ≤ ieee p w bits ∧ ieee p w bits < 1 := by
  rw [ieee_unsigned h]
  have hF := Nat.mod_lt bits (show 0 < 2 ^ p by positivity)
  have hb : (1 : ℕ) ≤ 2 ^ (w - 1) := Nat.one_le_two_pow
  have hb2 : 2 ≤ 2 ^ (w - 1) := by
    have := Nat.pow_le_pow_right (show 0 < 2 by decide) (show 1 ≤ w - 1 by omega); omega
  have hz : (2 : ℤ) ^ (w - 1) = ((2 ^ (w - 1) : ℕ) : ℤ) := by push_cast; rfl
  split
  · refine ⟨by positivity, zpow_small _ p hF _ ?_⟩
    rw [hz]; omega
  · refine ⟨by positivity, zpow_small _ (p + 1) (by rw [Nat.pow_succ]; omega) _ ?_⟩
    rw [hz]
    generalize bits / 2 ^ p = e at *
    generalize 2 ^ (w - 1) = B at *
    omega

/-- A number from 1 on, and the part of it before the point. -/
theorem ieee_floor {p w bits : Nat} (h : bits < 2 ^ (p + w)) (he : 2 ^ (w - 1) - 1 ≤ bits / 2 ^ p) (hw : 2 ≤ w) :
    1 ≤ ieee p w bits ∧
    ⌊ieee p w bits⌋₊ = if bits / 2 ^ p < 2 ^ (w - 1) - 1 + p
      then (2 ^ p + bits % 2 ^ p) / 2 ^ (2 ^ (w - 1) - 1 + p - bits / 2 ^ p)
      else (2 ^ p + bits % 2 ^ p) * 2 ^ (bits / 2 ^ p - (2 ^ (w - 1) - 1 + p)) := by
  have hb2 : 2 ≤ 2 ^ (w - 1) := by
    have := Nat.pow_le_pow_right (show 0 < 2 by decide) (show 1 ≤ w - 1 by omega); omega
  have hz : (2 : ℤ) ^ (w - 1) = ((2 ^ (w - 1) : ℕ) : ℤ) := by push_cast; rfl
  rw [ieee_unsigned h, if_neg (by omega)]
  constructor
  · have h1 : ((2 ^ p : ℕ) : ℚ) ≤ ((2 ^ p + bits % 2 ^ p : ℕ) : ℚ) := by exact_mod_cast Nat.le_add_right _ _
    have h2 : (2 : ℚ) ^ (-(p : ℤ)) ≤ 2 ^ (((bits / 2 ^ p : ℕ) : ℤ) - (2 ^ (w - 1) - 1) - p) :=
      zpow_le_zpow_right₀ (by norm_num) (by rw [hz]; omega)
    calc (1 : ℚ) = ((2 ^ p : ℕ) : ℚ) * 2 ^ (-(p : ℤ)) := by rw [zpow_neg, zpow_natCast]; push_cast; field_simp
      _ ≤ _ := mul_le_mul h1 h2 (by positivity) (by positivity)
  · split
    · rename_i hlt
      rw [show (((bits / 2 ^ p : ℕ) : ℤ) - (2 ^ (w - 1) - 1) - p) = -((2 ^ (w - 1) - 1 + p - bits / 2 ^ p : ℕ) : ℤ) by
        rw [hz]; omega]
      exact floor_scaled _ _
    · rename_i hge
      rw [show (((bits / 2 ^ p : ℕ) : ℤ) - (2 ^ (w - 1) - 1) - p) = ((bits / 2 ^ p - (2 ^ (w - 1) - 1 + p) : ℕ) : ℤ) by
        rw [hz]; omega]
      exact floor_nat _ _

theorem ofInt_sub_toNat {z : Int} {n : Nat} (h : z = n) (hn : n < 2 ^ 64) : (BitVec.ofInt 64 z).toNat = n := by
  rw [h, BitVec.ofInt_natCast, BitVec.toNat_ofNat, Nat.mod_eq_of_lt hn]

theorem ieee_ge_pow {p w bits k : Nat} (h : bits < 2 ^ (p + w)) (hw : 2 ≤ w) (he : 2 ^ (w - 1) - 1 + k ≤ bits / 2 ^ p) :
    (2 : ℚ) ^ k ≤ ieee p w bits := by
  have hb2 : 2 ≤ 2 ^ (w - 1) := by
    have := Nat.pow_le_pow_right (show 0 < 2 by decide) (show 1 ≤ w - 1 by omega); omega
  have hz : (2 : ℤ) ^ (w - 1) = ((2 ^ (w - 1) : ℕ) : ℤ) := by push_cast; rfl
  rw [ieee_unsigned h, if_neg (by omega)]
  have h1 : ((2 ^ p : ℕ) : ℚ) ≤ ((2 ^ p + bits % 2 ^ p : ℕ) : ℚ) := by exact_mod_cast Nat.le_add_right _ _
  have h2 : (2 : ℚ) ^ ((k : ℤ) - (p : ℤ)) ≤ 2 ^ (((bits / 2 ^ p : ℕ) : ℤ) - (2 ^ (w - 1) - 1) - p) :=
    zpow_le_zpow_right₀ (by norm_num) (by rw [hz]; omega)
  calc (2 : ℚ) ^ k = ((2 ^ p : ℕ) : ℚ) * 2 ^ ((k : ℤ) - (p : ℤ)) := by
        rw [zpow_sub₀ (by norm_num), zpow_natCast, zpow_natCast]; push_cast; field_simp
    _ ≤ _ := mul_le_mul h1 h2 (by positivity) (by positivity)

theorem fromDouble_field (bits : BitVec 64) : ((bits >>> 52) &&& 0x7FF).toNat = bits.toNat / 2 ^ 52 % 2 ^ 11 := by
  have : (0x7FF : BitVec 64).toNat = 2 ^ 11 - 1 := rfl
  rw [BitVec.toNat_and, this, Nat.and_two_pow_sub_one_eq_mod, BitVec.toNat_ushiftRight, Nat.shiftRight_eq_div_pow]

theorem fromDouble_frac (bits : BitVec 64) : (bits &&& 0xFFFFFFFFFFFFF).toNat = bits.toNat % 2 ^ 52 := by
  have : (0xFFFFFFFFFFFFF : BitVec 64).toNat = 2 ^ 52 - 1 := rfl
  rw [BitVec.toNat_and, this, Nat.and_two_pow_sub_one_eq_mod]

theorem fromDouble_zero (bits : BitVec 64) (h : bits.toNat / 2 ^ 52 % 2 ^ 11 < 1023) : fromDouble bits = .ok zero := by
  simp only [fromDouble]
  rw [fromDouble_field, if_pos (by omega)]

theorem fromDouble_spec (bits : BitVec 64) (hs : bits.toNat < 2 ^ 63) (hv : doubleValue bits < 2 ^ 128) :
    ∃ r, fromDouble bits = .ok r ∧ r.toNat = ⌊doubleValue bits⌋₊ := by
  rw [doubleValue] at *
  have hE : bits.toNat / 2 ^ 52 % 2 ^ 11 = bits.toNat / 2 ^ 52 := Nat.mod_eq_of_lt (by omega)
  by_cases h1 : bits.toNat / 2 ^ 52 < 1023
  · refine ⟨zero, fromDouble_zero bits (by omega), ?_⟩
    have := ieee_below_one (p := 52) (w := 11) (by decide) (by simpa using hs) (by simpa using h1)
    rw [Nat.floor_eq_zero.2 this.2]; rfl
  · have hlt : bits.toNat / 2 ^ 52 < 1023 + 128 := by
      by_contra hc
      have := ieee_ge_pow (p := 52) (w := 11) (k := 128) (bits := bits.toNat) (by simpa using hs) (by decide)
        (by simp only [Nat.reduceSub, Nat.reducePow] at *; omega)
      linarith
    have hfl := (ieee_floor (p := 52) (w := 11) (bits := bits.toNat) (by simpa using hs)
      (by simp only [Nat.reduceSub, Nat.reducePow] at *; omega) (by decide)).2
    rw [hfl]
    have hF := Nat.mod_lt bits.toNat (show 0 < 2 ^ 52 by decide)
    obtain ⟨r0, e0, v0⟩ := setBit_or (makeLow (bits &&& 0xFFFFFFFFFFFFF)) 52 (by decide)
      (by rw [toNat_makeLow, fromDouble_frac]; exact hF) 52 rfl
    rw [toNat_makeLow, fromDouble_frac] at v0
    have hsg : ¬ (bits >>> 63 ≠ 0) := by
      rw [not_not, ← BitVec.toNat_inj, BitVec.toNat_ushiftRight, Nat.shiftRight_eq_div_pow, Nat.div_eq_of_lt hs]; rfl
    simp only [fromDouble]
    rw [fromDouble_field, hE, if_neg (by omega), e0, ok_bind]
    by_cases h2 : bits.toNat / 2 ^ 52 < 1075
    · rw [if_pos (by omega), if_pos (by simp only [Nat.reduceSub, Nat.reducePow, Nat.reduceAdd] at *; omega)]
      have ha := ofInt_sub_toNat (z := -(((bits.toNat / 2 ^ 52 : ℕ) : ℤ) - 1023 - 52)) (n := 1075 - bits.toNat / 2 ^ 52)
        (by omega) (by omega)
      obtain ⟨r1, e1, v1⟩ := shrU64_spec r0 _ (by rw [ha]; omega)
      rw [e1, ok_bind, if_neg hsg]
      refine ⟨r1, rfl, ?_⟩
      rw [v1, ha, v0]; rfl
    · rw [if_neg (by omega), if_neg (by simp only [Nat.reduceSub, Nat.reducePow, Nat.reduceAdd] at *; omega)]
      have ha := ofInt_sub_toNat (z := ((bits.toNat / 2 ^ 52 : ℕ) : ℤ) - 1023 - 52) (n := bits.toNat / 2 ^ 52 - 1075)
        (by omega) (by omega)
      obtain ⟨r1, e1, v1⟩ := shlU64_spec r0 _ (by rw [ha]; omega)
      rw [e1, ok_bind, if_neg hsg]
      refine ⟨r1, rfl, ?_⟩
      rw [v1, ha, v0, Nat.mod_eq_of_lt]
      · rfl
      · calc (2 ^ 52 + bits.toNat % 2 ^ 52) * 2 ^ (bits.toNat / 2 ^ 52 - 1075)
            < 2 ^ 53 * 2 ^ (bits.toNat / 2 ^ 52 - 1075) := Nat.mul_lt_mul_of_pos_right (by omega) (by positivity)
          _ ≤ 2 ^ 53 * 2 ^ 75 := Nat.mul_le_mul_left _ (Nat.pow_le_pow_right (by decide) (by omega))
          _ = 2 ^ 128 := by decide

/-! ### float -/

theorem fromFloat_field (bits : BitVec 32) : ((bits >>> 23) &&& 0x7FF).toNat = bits.toNat / 2 ^ 23 := by
  have : (0x7FF : BitVec 32).toNat = 2 ^ 11 - 1 := rfl
  have := bits.isLt
  rw [BitVec.toNat_and, ‹(0x7FF : BitVec 32).toNat = 2 ^ 11 - 1›, Nat.and_two_pow_sub_one_eq_mod, BitVec.toNat_ushiftRight,
    Nat.shiftRight_eq_div_pow, Nat.mod_eq_of_lt (by omega)]

theorem fromFloat_frac (bits : BitVec 32) : ((bits &&& 0x7FFFFF).setWidth 64).toNat = bits.toNat % 2 ^ 23 := by
  have : (0x7FFFFF : BitVec 32).toNat = 2 ^ 23 - 1 := rfl
  rw [BitVec.toNat_setWidth, BitVec.toNat_and, this, Nat.and_two_pow_sub_one_eq_mod, Nat.mod_eq_of_lt (by omega)]

theorem fromFloat_spec (bits : BitVec 32) (hs : bits.toNat < 2 ^ 31) (hf : FloatFinite bits) :
    ∃ r, fromFloat bits = .ok r ∧ r.toNat = ⌊floatValue bits⌋₊ := by
  rw [FloatFinite, Nat.mod_eq_of_lt (by omega)] at hf
  rw [floatValue] at *
  by_cases h1 : bits.toNat / 2 ^ 23 < 127
  · have := ieee_below_one (p := 23) (w := 8) (by decide) (by simpa using hs) (by simpa using h1)
    rw [Nat.floor_eq_zero.2 this.2]
    refine ⟨zero, ?_, rfl⟩
    simp only [fromFloat]
    rw [fromFloat_field, if_pos (by omega)]
  · have hfl := (ieee_floor (p := 23) (w := 8) (bits := bits.toNat) (by simpa using hs)
      (by simp only [Nat.reduceSub, Nat.reducePow] at *; omega) (by decide)).2
    rw [hfl]
    have hF := Nat.mod_lt bits.toNat (show 0 < 2 ^ 23 by decide)
    obtain ⟨r0, e0, v0⟩ := setBit_or (makeLow ((bits &&& 0x7FFFFF).setWidth 64)) 23 (by decide)
      (by rw [toNat_makeLow, fromFloat_frac]; exact hF) 23 rfl
    rw [toNat_makeLow, fromFloat_frac] at v0
    have hsg : ¬ (bits >>> 31 ≠ 0) := by
      rw [not_not, ← BitVec.toNat_inj, BitVec.toNat_ushiftRight, Nat.shiftRight_eq_div_pow, Nat.div_eq_of_lt hs]; rfl
    simp only [fromFloat]
    rw [fromFloat_field, if_neg (by omega), e0, ok_bind]
    by_cases h2 : bits.toNat / 2 ^ 23 < 150
    · rw [if_pos (by omega), if_pos (by simp only [Nat.reduceSub, Nat.reducePow, Nat.reduceAdd] at *; omega)]
      have ha := ofInt_sub_toNat (z := -(((bits.toNat / 2 ^ 23 : ℕ) : ℤ) - 127 - 23)) (n := 150 - bits.toNat / 2 ^ 23)
        (by omega) (by omega)
      obtain ⟨r1, e1, v1⟩ := shrU64_spec r0 _ (by rw [ha]; omega)
      rw [e1, ok_bind, if_neg hsg]
      refine ⟨r1, rfl, ?_⟩
      rw [v1, ha, v0]; rfl
    · rw [if_neg (by omega), if_neg (by simp only [Nat.reduceSub, Nat.reducePow, Nat.reduceAdd] at *; omega)]
      have ha := ofInt_sub_toNat (z := ((bits.toNat / 2 ^ 23 : ℕ) : ℤ) - 127 - 23) (n := bits.toNat / 2 ^ 23 - 150)
        (by omega) (by omega)
      obtain ⟨r1, e1, v1⟩ := shlU64_spec r0 _ (by rw [ha]; omega)
      rw [e1, ok_bind, if_neg hsg]
      refine ⟨r1, rfl, ?_⟩
      rw [v1, ha, v0, Nat.mod_eq_of_lt]
      · rfl
      · calc (2 ^ 23 + bits.toNat % 2 ^ 23) * 2 ^ (bits.toNat / 2 ^ 23 - 150)
            < 2 ^ 24 * 2 ^ (bits.toNat / 2 ^ 23 - 150) := Nat.mul_lt_mul_of_pos_right (by omega) (by positivity)
          _ ≤ 2 ^ 24 * 2 ^ 104 := Nat.mul_le_mul_left _ (Nat.pow_le_pow_right (by decide) (by omega))
          _ = 2 ^ 128 := by decide

theorem fromFloat_negative (bits : BitVec 32) (hs : 2 ^ 31 ≤ bits.toNat) (he : 22 ≤ bits.toNat / 2 ^ 23 % 2 ^ 8) :
    fromFloat bits = .error .assertion := by
  have hb := bits.isLt
  have hE : 278 ≤ bits.toNat / 2 ^ 23 := by omega
  have hF := Nat.mod_lt bits.toNat (show 0 < 2 ^ 23 by decide)
  obtain ⟨r0, e0, v0⟩ := setBit_or (makeLow ((bits &&& 0x7FFFFF).setWidth 64)) 23 (by decide)
    (by rw [toNat_makeLow, fromFloat_frac]; exact hF) 23 rfl
  simp only [fromFloat]
  rw [fromFloat_field, if_neg (by omega), e0, ok_bind, if_neg (by omega)]
  have ha := ofInt_sub_toNat (z := ((bits.toNat / 2 ^ 23 : ℕ) : ℤ) - 127 - 23) (n := bits.toNat / 2 ^ 23 - 150)
    (by omega) (by omega)
  have : shlU64 r0 (BitVec.ofInt 64 (((bits.toNat / 2 ^ 23 : ℕ) : ℤ) - 127 - 23)) = .error .assertion := by
    rw [shlU64, assert, if_neg]
    · rfl
    · rw [decide_eq_true_eq, BitVec.lt_def, ha]
      have : (128 : BitVec 64).toNat = 128 := rfl
      omega
  rw [this]; rfl

end Tm.U128
