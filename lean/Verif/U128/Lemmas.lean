import Verif.U128.Spec
import Mathlib.Tactic.Ring
import Mathlib.Tactic.IntervalCases
namespace Tm.U128

theorem toNat_lt (v : U128) : v.toNat < 2 ^ 128 := by
  have := v.low.isLt; have := v.high.isLt; unfold U128.toNat; omega

theorem toNat_inj {a b : U128} (h : a.toNat = b.toNat) : a = b := by
  have h1 := a.low.isLt; have h2 := b.low.isLt
  unfold U128.toNat at h
  cases a; cases b
  simp only [U128.mk.injEq] at *
  constructor <;> apply BitVec.eq_of_toNat_eq <;> omega

theorem toNat_ofNat (n : Nat) : (ofNat n).toNat = n % 2 ^ 128 := by
  simp only [U128.toNat, ofNat, BitVec.toNat_ofNat]; omega

theorem toNat_b2u {w : Nat} (hw : 0 < w) (c : Bool) : (b2u c : BitVec w).toNat = c.toNat := by
  cases c
  · simp [b2u]
  · simp [b2u]; omega

theorem toNat_add (a b : U128) : (add a b).toNat = (a.toNat + b.toNat) % 2 ^ 128 := by
  have h1 := a.low.isLt; have h2 := b.low.isLt; have h3 := a.high.isLt; have h4 := b.high.isLt
  simp only [add, internalAdd64, U128.toNat, BitVec.toNat_add, BitVec.lt_def]
  by_cases h : a.low.toNat + b.low.toNat < 2 ^ 64
  · have : ¬ ((a.low.toNat + b.low.toNat) % 2 ^ 64 < a.low.toNat) := by omega
    simp only [this, b2u, decide_false]; simp; omega
  · have : ((a.low.toNat + b.low.toNat) % 2 ^ 64 < a.low.toNat) := by omega
    simp only [this, b2u, decide_true]; simp; omega

theorem toNat_sub (a b : U128) : (sub a b).toNat = (a.toNat + (2 ^ 128 - b.toNat)) % 2 ^ 128 := by
  have h1 := a.low.isLt; have h2 := b.low.isLt; have h3 := a.high.isLt; have h4 := b.high.isLt
  simp only [sub, internalSub64, U128.toNat, BitVec.toNat_sub, gt_iff_lt, BitVec.lt_def]
  by_cases h : b.low.toNat ≤ a.low.toNat
  · have : ¬ (a.low.toNat < (2 ^ 64 - b.low.toNat + a.low.toNat) % 2 ^ 64) := by omega
    simp only [this, b2u, decide_false]; simp; omega
  · have : (a.low.toNat < (2 ^ 64 - b.low.toNat + a.low.toNat) % 2 ^ 64) := by omega
    simp only [this, b2u, decide_true]; simp; omega

theorem addU64_eq (a : U128) (b : BitVec 64) : addU64 a b = add a (makeLow b) := by
  simp [addU64, add, makeLow]
theorem subU64_eq (a : U128) (b : BitVec 64) : subU64 a b = sub a (makeLow b) := by
  simp [subU64, sub, makeLow]
theorem inc_eq (a : U128) : inc a = addU64 a 1 := rfl
theorem dec_eq (a : U128) : dec a = subU64 a 1 := rfl
theorem toNat_makeLow (b : BitVec 64) : (makeLow b).toNat = b.toNat := by simp [makeLow, U128.toNat]

theorem and_mask32 (x : Nat) : x &&& 4294967295 = x % 2 ^ 32 := by
  have := Nat.and_two_pow_sub_one_eq_mod x 32
  simpa using this

theorem dm_mod (x0 x1 : Nat) (h : x0 < 2 ^ 32) : (x1 * 2^32 + x0) % 2^32 = x0 := by omega
theorem dm_div (x0 x1 : Nat) (h : x0 < 2 ^ 32) : (x1 * 2^32 + x0) / 2^32 = x1 := by omega

theorem or_shift32 (u v : Nat) (hu : u < 2 ^ 32) :
    (u ||| ((v * 4294967296) % 18446744073709551616)) = u + ((v * 4294967296) % 18446744073709551616) := by
  have : (v * 4294967296) % 18446744073709551616 = (v % 2^32) <<< 32 := by rw [Nat.shiftLeft_eq]; omega
  rw [this, Nat.or_comm, ← Nat.shiftLeft_add_eq_or_of_lt hu, Nat.add_comm]

theorem toNat_internalMul64 (a b : BitVec 64) :
    (internalMul64 a b).toNat = a.toNat * b.toNat := by
  have ha := a.isLt; have hb := b.isLt
  generalize hx : a.toNat = x at *
  generalize hy : b.toNat = y at *
  obtain ⟨x0, x1, hx0, hx1, rfl⟩ : ∃ x0 x1, x0 < 2^32 ∧ x1 < 2^32 ∧ x = x1 * 2^32 + x0 :=
    ⟨x % 2^32, x / 2^32, by omega, by omega, by omega⟩
  obtain ⟨y0, y1, hy0, hy1, rfl⟩ : ∃ y0 y1, y0 < 2^32 ∧ y1 < 2^32 ∧ y = y1 * 2^32 + y0 :=
    ⟨y % 2^32, y / 2^32, by omega, by omega, by omega⟩
  have e1 := dm_mod x0 x1 hx0
  have e2 := dm_div x0 x1 hx0
  have e3 := dm_mod y0 y1 hy0
  have e4 := dm_div y0 y1 hy0
  have m0 : x0 * y0 ≤ 4294967295 * 4294967295 := Nat.mul_le_mul (Nat.le_of_lt_succ hx0) (Nat.le_of_lt_succ hy0)
  have m1 : x0 * y1 ≤ 4294967295 * 4294967295 := Nat.mul_le_mul (Nat.le_of_lt_succ hx0) (Nat.le_of_lt_succ hy1)
  have m2 : x1 * y0 ≤ 4294967295 * 4294967295 := Nat.mul_le_mul (Nat.le_of_lt_succ hx1) (Nat.le_of_lt_succ hy0)
  have m3 : x1 * y1 ≤ 4294967295 * 4294967295 := Nat.mul_le_mul (Nat.le_of_lt_succ hx1) (Nat.le_of_lt_succ hy1)
  have key : (x1 * 2^32 + x0) * (y1 * 2^32 + y0) = x1 * y1 * 2^64 + (x1 * y0 + x0 * y1) * 2^32 + x0 * y0 := by ring
  rw [key]
  have hm : BitVec.toNat (4294967295 : BitVec 64) = 4294967295 := rfl
  simp only [internalMul64, U128.toNat, BitVec.toNat_or, BitVec.toNat_and, BitVec.toNat_add, BitVec.toNat_mul,
    BitVec.toNat_ushiftRight, BitVec.toNat_shiftLeft, hx, hy, hm, Nat.shiftRight_eq_div_pow,
    Nat.reducePow, and_mask32, Nat.shiftLeft_eq]
  simp only [Nat.reducePow] at e1 e2 e3 e4 m0 m1 m2 m3 ⊢
  rw [e1, e2, e3, e4]
  generalize x0 * y0 = p at *
  generalize x0 * y1 = q at *
  generalize x1 * y0 = r at *
  generalize x1 * y1 = s at *
  rw [or_shift32 _ _ (by omega)]
  omega

theorem mul_mod_lemma (a0 a1 b0 b1 : Nat) :
    ((a0 + 2^64 * a1) * (b0 + 2^64 * b1)) % 2^128 = (a0 * b0 + 2^64 * (a0 * b1 + a1 * b0)) % 2^128 := by
  have : (a0 + 2^64 * a1) * (b0 + 2^64 * b1) = (a0 * b0 + 2^64 * (a0 * b1 + a1 * b0)) + 2^128 * (a1 * b1) := by ring
  rw [this, Nat.add_mul_mod_self_left]

theorem toNat_mul (a b : U128) : (mul a b).toNat = (a.toNat * b.toNat) % 2 ^ 128 := by
  have h := toNat_internalMul64 a.low b.low
  have hl := (internalMul64 a.low b.low).low.isLt
  rw [U128.toNat.eq_1 a, U128.toNat.eq_1 b, mul_mod_lemma, ← h]
  simp only [mul, U128.toNat, BitVec.toNat_add, BitVec.toNat_mul]
  generalize a.low.toNat * b.high.toNat = p
  generalize a.high.toNat * b.low.toNat = q
  omega

theorem mulU64_eq (a : U128) (b : BitVec 64) : mulU64 a b = mul a (makeLow b) := by
  simp [mulU64, mul, makeLow]

end Tm.U128
