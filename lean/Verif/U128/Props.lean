import Verif.U128.Popcount
import Verif.U128.Div
/-!
# Properties C01-C06: 128-bit integer arithmetic

`U128.toNat v = v.low + 2^64 * v.high` (Verif/U128/Spec.lean) is the number a value stands for.
-/
namespace Tm.U128

/-! ## C01 -/

/-- C01: addition, in all its forms, is addition modulo 2^128. -/
theorem C01_add (a b : U128) (c : BitVec 64) :
    (add a b).toNat = (a.toNat + b.toNat) % 2 ^ 128 ∧
    (addU64 a c).toNat = (a.toNat + c.toNat) % 2 ^ 128 ∧
    (inc a).toNat = (a.toNat + 1) % 2 ^ 128 := by
  refine ⟨toNat_add a b, ?_, ?_⟩
  · rw [addU64_eq, toNat_add, toNat_makeLow]
  · rw [inc_eq, addU64_eq, toNat_add, toNat_makeLow]; rfl

/-- C01: subtraction is subtraction modulo 2^128 (computed in `Int`, reduced to `[0, 2^128)`). -/
theorem C01_sub (a b : U128) (c : BitVec 64) :
    ((sub a b).toNat : Int) = ((a.toNat : Int) - b.toNat) % 2 ^ 128 ∧
    ((subU64 a c).toNat : Int) = ((a.toNat : Int) - c.toNat) % 2 ^ 128 ∧
    ((dec a).toNat : Int) = ((a.toNat : Int) - 1) % 2 ^ 128 := by
  have ha := toNat_lt a; have hb := toNat_lt b; have hc := c.isLt
  refine ⟨?_, ?_, ?_⟩
  · rw [toNat_sub]; omega
  · rw [subU64_eq, toNat_sub, toNat_makeLow]; omega
  · rw [dec_eq, subU64_eq, toNat_sub, toNat_makeLow]
    have : (1 : BitVec 64).toNat = 1 := rfl
    omega

-- a carry and a borrow across the halves
example : (add ⟨0xFFFFFFFFFFFFFFFF, 5⟩ ⟨1, 7⟩) = ⟨0, 13⟩ := by decide
example : (dec ⟨0, 1⟩) = ⟨0xFFFFFFFFFFFFFFFF, 0⟩ := by decide
example : (inc max) = zero := by decide

/-! ## C02 -/

/-- C02: multiplication is multiplication modulo 2^128; the 64x64 product is exact. -/
theorem C02_mul (a b : U128) (c d : BitVec 64) :
    (mul a b).toNat = (a.toNat * b.toNat) % 2 ^ 128 ∧
    (mulU64 a c).toNat = (a.toNat * c.toNat) % 2 ^ 128 ∧
    (internalMul64 c d).toNat = c.toNat * d.toNat := by
  refine ⟨toNat_mul a b, ?_, toNat_internalMul64 c d⟩
  rw [mulU64_eq, toNat_mul, toNat_makeLow]

example : internalMul64 0xFFFFFFFFFFFFFFFF 0xFFFFFFFFFFFFFFFF = ⟨1, 0xFFFFFFFFFFFFFFFE⟩ := by decide

/-! ## C03 -/

/-- C03: division by a non-zero divisor never faults and yields quotient and remainder. -/
theorem C03_divmod (a b : U128) (h : b.toNat ≠ 0) :
    ∃ q r, divmod a b = .ok (q, r) ∧ q.toNat = a.toNat / b.toNat ∧ r.toNat = a.toNat % b.toNat ∧
      div a b = .ok q ∧ mod a b = .ok r := by
  obtain ⟨q, r, h1, h2, h3⟩ := divmod_spec a b h
  exact ⟨q, r, h1, h2, h3, by simp [div, h1], by simp [mod, h1]⟩

/-- C03, 64-bit divisor. -/
theorem C03_divmod_u64 (a : U128) (b : BitVec 64) (h : b.toNat ≠ 0) :
    ∃ q r, divmodU64 a b = .ok (q, r) ∧ q.toNat = a.toNat / b.toNat ∧ r.toNat = a.toNat % b.toNat :=
  divmodU64_spec a b h

/-- C03: a zero divisor fails the assertion; it is never given a result. -/
theorem C03_zero_divisor (a : U128) :
    divmod a zero = .error .assertion ∧ divmodU64 a 0 = .error .assertion ∧
    div a zero = .error .assertion ∧ mod a zero = .error .assertion := by
  refine ⟨rfl, rfl, rfl, rfl⟩

-- the dividend needs the full width and the divisor exceeds 2^127
example : (⟨3, 0xFFFFFFFFFFFFFFFF⟩ : U128).toNat ≠ 0 ∧ (⟨1, 0x8000000000000001⟩ : U128).toNat > 2 ^ 127 := by decide

/-! ## C04 -/

/-- C04: shifts by less than 128 are multiplication / floor division by a power of two; larger shifts are refused. -/
theorem C04_shifts (v : U128) (n : BitVec 64) :
    (n.toNat < 128 →
      (∃ r, shlU64 v n = .ok r ∧ r.toNat = (v.toNat * 2 ^ n.toNat) % 2 ^ 128) ∧
      (∃ r, shrU64 v n = .ok r ∧ r.toNat = v.toNat / 2 ^ n.toNat)) ∧
    (128 ≤ n.toNat → shlU64 v n = .error .assertion ∧ shrU64 v n = .error .assertion) := by
  refine ⟨fun h => ⟨shlU64_spec v n h, shrU64_spec v n h⟩, fun h => ?_⟩
  have : ¬ n < 128 := by rw [lt128]; omega
  constructor
  · rw [shlU64, assert, if_neg (by simpa using this)]; rfl
  · rw [shrU64, assert, if_neg (by simpa using this)]; rfl

/-- C04: the forms taking a 128-bit shift amount agree with the number it represents. -/
theorem C04_shifts128 (v n : U128) :
    (n.toNat < 128 →
      (∃ r, shl128 v n = .ok r ∧ r.toNat = (v.toNat * 2 ^ n.toNat) % 2 ^ 128) ∧
      (∃ r, shr128 v n = .ok r ∧ r.toNat = v.toNat / 2 ^ n.toNat)) ∧
    (128 ≤ n.toNat → shl128 v n = .error .assertion ∧ shr128 v n = .error .assertion) := by
  have key : (decide (n.high = 0) && decide (n.low < 128)) = true ↔ n.toNat < 128 := by
    simp only [Bool.and_eq_true, decide_eq_true_eq, eq0, lt128, U128.toNat]; omega
  constructor
  · intro h
    have hlow : n.low.toNat = n.toNat := by
      have := key.2 h
      simp only [Bool.and_eq_true, decide_eq_true_eq, eq0] at this
      rw [U128.toNat, this.1]; omega
    have h' : n.low.toNat < 128 := by omega
    rw [shl128, shr128, assert, if_pos (key.2 h), ok_bind, ok_bind, ← hlow]
    exact ⟨shlU64_spec v n.low h', shrU64_spec v n.low h'⟩
  · intro h
    rw [shl128, shr128, assert, if_neg (fun e => by have := key.1 e; omega)]
    exact ⟨rfl, rfl⟩

/-- C04: the bitwise operations act bit by bit on all 128 bits. -/
theorem C04_bitwise (a b : U128) (i : Nat) :
    (and a b).toNat.testBit i = (a.toNat.testBit i && b.toNat.testBit i) ∧
    (or a b).toNat.testBit i = (a.toNat.testBit i || b.toNat.testBit i) ∧
    (xor a b).toNat.testBit i = (a.toNat.testBit i ^^ b.toNat.testBit i) ∧
    (not a).toNat = 2 ^ 128 - 1 - a.toNat := by
  refine ⟨?_, ?_, ?_, ?_⟩
  · simp only [testBit_toNat, and]; split <;> simp
  · simp only [testBit_toNat, or]; split <;> simp
  · simp only [testBit_toNat, xor]; split <;> simp
  · have h1 := a.low.isLt; have h2 := a.high.isLt
    simp only [not, U128.toNat, BitVec.toNat_not]; omega

/-- C04: setting, testing and making a single bit. -/
theorem C04_single_bit (v : U128) (n : BitVec 64) (h : n.toNat < 128) :
    isBitSet v n = .ok (v.toNat.testBit n.toNat) ∧
    (∃ r, setBit v n = .ok r ∧ ∀ i, r.toNat.testBit i = (v.toNat.testBit i || decide (i = n.toNat))) ∧
    (∃ r, makeBitmask n = .ok r ∧ r.toNat = 2 ^ n.toNat) :=
  ⟨isBitSet_spec v n h, setBit_spec v n h, makeBitmask_spec n h⟩

example : shlU64 ⟨0x8000000000000001, 0⟩ 65 = .ok ⟨0, 2⟩ := by decide
example : shrU64 ⟨0, 3⟩ 1 = .ok ⟨0x8000000000000000, 1⟩ := by decide
example : setBit ⟨0, 0⟩ 127 = .ok ⟨0, 0x8000000000000000⟩ := by decide

/-! ## C05 -/

/-- C05: all comparisons are those of the represented numbers. -/
theorem C05_compare (a b : U128) :
    (lt a b = true ↔ a.toNat < b.toNat) ∧ (lte a b = true ↔ a.toNat ≤ b.toNat) ∧
    (gt a b = true ↔ a.toNat > b.toNat) ∧ (gte a b = true ↔ a.toNat ≥ b.toNat) ∧
    (eq a b = true ↔ a.toNat = b.toNat) ∧ (isZero a = true ↔ a.toNat = 0) ∧ (isNotZero a = true ↔ a.toNat ≠ 0) ∧
    cmp a b = (if a.toNat < b.toNat then -1 else if a.toNat = b.toNat then 0 else 1) := by
  refine ⟨by simp [lt_spec], by simp [lte_spec], by simp [gt_spec], by simp [gte_spec], ?_, by simp [isZero_spec],
    by simp [isNotZero_spec], ?_⟩
  · rw [eq_spec]; simp only [decide_eq_true_eq]
    exact ⟨fun h => by rw [h], toNat_inj⟩
  · have h1 := a.low.isLt; have h2 := b.low.isLt
    simp only [cmp, BitVec.lt_def, gt_iff_lt, U128.toNat]
    repeat' split
    all_goals first | rfl | omega

/-- C05: values are determined by the number they represent. -/
theorem C05_injective (a b : U128) : a.toNat = b.toNat ↔ a = b := ⟨toNat_inj, fun h => by rw [h]⟩

example : lt ⟨0xFFFFFFFFFFFFFFFF, 0⟩ ⟨0, 1⟩ = true ∧ cmp ⟨0, 1⟩ ⟨0xFFFFFFFFFFFFFFFF, 0⟩ = 1 := by decide

/-! ## C06 -/

/-- C06: find-last-set returns the index of the highest set bit (32, 64 and 128 bit, De Bruijn fallback). -/
theorem C06_fls (a : BitVec 32) (b : BitVec 64) (c : U128) :
    (a.toNat ≠ 0 → ∃ k, flsU32 a = .ok k ∧ IsHighestBit a.toNat k) ∧
    (b.toNat ≠ 0 → ∃ k, flsU64 b = .ok k ∧ IsHighestBit b.toNat k) ∧
    (c.toNat ≠ 0 → ∃ k, fls c = .ok k ∧ IsHighestBit c.toNat k) := by
  refine ⟨fun h => ?_, fun h => ?_, fun h => ?_⟩ <;> obtain ⟨k, hk⟩ := exists_highest _ h
  · exact ⟨k, flsU32_spec a k hk, hk⟩
  · exact ⟨k, flsU64_spec b k hk, hk⟩
  · exact ⟨k, fls_spec c k hk, hk⟩

/-- C06: find-first-set returns the index of the lowest set bit. -/
theorem C06_ffs (a : BitVec 32) (b : BitVec 64) (c : U128) :
    (a.toNat ≠ 0 → ∃ k, ffsU32 a = .ok k ∧ IsLowestBit a.toNat k) ∧
    (b.toNat ≠ 0 → ∃ k, ffsU64 b = .ok k ∧ IsLowestBit b.toNat k) ∧
    (c.toNat ≠ 0 → ∃ k, ffs c = .ok k ∧ IsLowestBit c.toNat k) := by
  refine ⟨fun h => ?_, fun h => ?_, fun h => ?_⟩ <;> obtain ⟨k, hk⟩ := exists_lowest _ h
  · exact ⟨k, ffsU32_spec a k hk, hk⟩
  · exact ⟨k, ffsU64_spec b k hk, hk⟩
  · exact ⟨k, ffs_spec c k hk, hk⟩

/-- C06: the unchecked scans refuse zero, the `_s` forms return -1 for zero and the index otherwise. -/
theorem C06_zero :
    flsU32 0 = .error .assertion ∧ ffsU32 0 = .error .assertion ∧
    flsU64 0 = .error .assertion ∧ ffsU64 0 = .error .assertion ∧
    fls zero = .error .assertion ∧ ffs zero = .error .assertion ∧
    flsS zero = .ok (-1) ∧ ffsS zero = .ok (-1) ∧ flsU32S 0 = .ok (-1) ∧ ffsU32S 0 = .ok (-1) ∧
    flsU64S 0 = .ok (-1) ∧ ffsU64S 0 = .ok (-1) := by
  refine ⟨rfl, rfl, rfl, rfl, rfl, rfl, rfl, rfl, rfl, rfl, rfl, rfl⟩

theorem C06_safe_forms (a : BitVec 32) (b : BitVec 64) (c : U128) :
    (a.toNat ≠ 0 → (∃ k : Nat, flsU32S a = .ok k ∧ IsHighestBit a.toNat k) ∧ (∃ k : Nat, ffsU32S a = .ok k ∧ IsLowestBit a.toNat k)) ∧
    (b.toNat ≠ 0 → (∃ k : Nat, flsU64S b = .ok k ∧ IsHighestBit b.toNat k) ∧ (∃ k : Nat, ffsU64S b = .ok k ∧ IsLowestBit b.toNat k)) ∧
    (c.toNat ≠ 0 → (∃ k : Nat, flsS c = .ok k ∧ IsHighestBit c.toNat k) ∧ (∃ k : Nat, ffsS c = .ok k ∧ IsLowestBit c.toNat k)) := by
  refine ⟨fun h => ?_, fun h => ?_, fun h => ?_⟩
  · have hz : a ≠ 0 := by rintro rfl; exact h rfl
    obtain ⟨k, h1, h2⟩ := (C06_fls a 0 zero).1 h
    obtain ⟨j, h3, h4⟩ := (C06_ffs a 0 zero).1 h
    exact ⟨⟨k, by rw [flsU32S, if_neg hz, h1]; rfl, h2⟩, ⟨j, by rw [ffsU32S, if_neg hz, h3]; rfl, h4⟩⟩
  · have hz : b ≠ 0 := by rintro rfl; exact h rfl
    obtain ⟨k, h1, h2⟩ := (C06_fls 0 b zero).2.1 h
    obtain ⟨j, h3, h4⟩ := (C06_ffs 0 b zero).2.1 h
    exact ⟨⟨k, by rw [flsU64S, if_neg hz, h1]; rfl, h2⟩, ⟨j, by rw [ffsU64S, if_neg hz, h3]; rfl, h4⟩⟩
  · have hz : isZero c = false := by rw [isZero_spec]; simpa using h
    obtain ⟨k, h1, h2⟩ := (C06_fls 0 0 c).2.2 h
    obtain ⟨j, h3, h4⟩ := (C06_ffs 0 0 c).2.2 h
    exact ⟨⟨k, by simp [flsS, hz, h1], h2⟩, ⟨j, by simp [ffsS, hz, h3], h4⟩⟩

/-- C06: population count. -/
theorem C06_popcount (a : BitVec 32) (b : BitVec 64) (c : U128) :
    popcountU32 a = bitCount 32 a.toNat ∧ popcountU64 b = bitCount 64 b.toNat ∧ popcount c = bitCount 128 c.toNat :=
  ⟨popcountU32_spec a, popcountU64_spec b, popcount_spec c⟩

example : IsHighestBit 40 5 ∧ IsLowestBit 40 3 ∧ bitCount 128 40 = 2 := by
  refine ⟨⟨by decide, by decide⟩, ⟨by decide, by decide⟩, by decide +kernel⟩

/-! ## byte decomposition -/

/-- One byte of a 64-bit word. -/
private def byte64 (x : BitVec 64) (s : Nat) : Nat := ((x >>> s) &&& 0xFF).setWidth 8 |>.toNat

private theorem byteSum (x : BitVec 64) :
    byte64 x 0 + 2 ^ 8 * byte64 x 8 + 2 ^ 16 * byte64 x 16 + 2 ^ 24 * byte64 x 24 + 2 ^ 32 * byte64 x 32
      + 2 ^ 40 * byte64 x 40 + 2 ^ 48 * byte64 x 48 + 2 ^ 56 * byte64 x 56 = x.toNat := by
  have hm : BitVec.toNat (0xFF : BitVec 64) = 255 := rfl
  have key : ∀ s, byte64 x s = x.toNat / 2 ^ s % 256 := by
    intro s
    have := Nat.and_two_pow_sub_one_eq_mod (x.toNat / 2 ^ s) 8
    simp only [byte64, BitVec.toNat_setWidth, BitVec.toNat_and, BitVec.toNat_ushiftRight, hm,
      Nat.shiftRight_eq_div_pow]
    simp only [Nat.reducePow, Nat.reduceSub] at this ⊢
    rw [this]; omega
  have hx := x.isLt
  simp only [key]
  omega

/-- `tmi_to_bytes` lists the 16 bytes of the value, least significant first. -/
theorem C04_to_bytes (v : U128) : (toBytes v).length = 16 ∧ fromLeBytes (toBytes v) = v.toNat := by
  refine ⟨rfl, ?_⟩
  rw [U128.toNat, ← byteSum v.low, ← byteSum v.high]
  simp only [toBytes, fromLeBytes, byte64]
  ring

example : toBytes ⟨0x0102, 0x0A⟩ = [2, 1, 0, 0, 0, 0, 0, 0, 10, 0, 0, 0, 0, 0, 0, 0] := by decide

end Tm.U128
