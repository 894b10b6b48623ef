import Verif.U128.Bits
/-! Bit scans and population count. -/
namespace Tm.U128

/-! ### find last set -/

/-- `w` has bit `i` set iff `v` has a bit set in `[i, i+n)`. -/
def Cov (v w : BitVec 32) (n : Nat) : Prop :=
  ∀ i, w.getLsbD i = true ↔ ∃ j, i ≤ j ∧ j < i + n ∧ v.getLsbD j = true

theorem Cov.step {v w : BitVec 32} {n : Nat} (h : Cov v w n) : Cov v (w ||| (w >>> n)) (n + n) := by
  intro i
  simp only [BitVec.getLsbD_or, BitVec.getLsbD_ushiftRight, Bool.or_eq_true, h i, h (n + i)]
  constructor
  · rintro (⟨j, h1, h2, h3⟩ | ⟨j, h1, h2, h3⟩)
    · exact ⟨j, h1, by omega, h3⟩
    · exact ⟨j, by omega, by omega, h3⟩
  · rintro ⟨j, h1, h2, h3⟩
    by_cases c : j < i + n
    · exact .inl ⟨j, h1, c, h3⟩
    · exact .inr ⟨j, by omega, by omega, h3⟩

theorem smear_cov (v : BitVec 32) : Cov v (smear v) 32 := by
  have h1 : Cov v v 1 := by
    intro i; constructor
    · intro h; exact ⟨i, by omega, by omega, h⟩
    · rintro ⟨j, a, b, c⟩
      have : j = i := by omega
      exact this ▸ c
  have h2 := h1.step; have h4 := h2.step; have h8 := h4.step; have h16 := h8.step
  exact h16.step

theorem exists_highest (n : Nat) (h : n ≠ 0) : ∃ k, IsHighestBit n k :=
  ⟨n.log2, Nat.log2_self_le h, Nat.lt_log2_self⟩

theorem IsHighestBit.testBit {n k : Nat} (h : IsHighestBit n k) :
    n.testBit k = true ∧ ∀ j, k < j → n.testBit j = false := by
  constructor
  · have e : n = 2 ^ k * 1 + (n - 2 ^ k) := by have := h.1; omega
    have hl : n - 2 ^ k < 2 ^ k := by have h2 := h.2; rw [Nat.pow_succ] at h2; omega
    rw [e, Nat.testBit_two_pow_mul_add _ hl]; simp
  · intro j hj
    exact Nat.testBit_lt_two_pow (Nat.lt_of_lt_of_le h.2 (Nat.pow_le_pow_right (by omega) hj))

theorem smear_eq (v : BitVec 32) (k : Nat) (h : IsHighestBit v.toNat k) :
    smear v = (BitVec.allOnes 32) >>> (31 - k) := by
  have hk : k < 32 := by
    have h1 := h.1; have h2 := v.isLt
    exact (Nat.pow_lt_pow_iff_right (by omega)).1 (Nat.lt_of_le_of_lt h1 h2)
  obtain ⟨hb, hz⟩ := h.testBit
  apply BitVec.eq_of_getLsbD_eq
  intro i hi
  rw [Bool.eq_iff_iff, smear_cov v i, BitVec.getLsbD_ushiftRight, BitVec.getLsbD_allOnes]
  constructor
  · rintro ⟨j, h1, h2, h3⟩
    have : ¬ k < j := fun c => by have := hz j c; rw [BitVec.getLsbD] at h3; simp [this] at h3
    simp; omega
  · intro h'
    simp at h'
    exact ⟨k, by omega, by omega, hb⟩

/-- The whole De Bruijn table, one row per highest bit. -/
theorem flsTable_ok (k : Nat) (hk : k < 32) :
    rd flsTable ((BitVec.allOnes 32 >>> (31 - k) * 0x07C4ACDD) >>> 27).toNat = .ok k := by
  interval_cases k <;> rfl

theorem flsU32_spec (v : BitVec 32) (k : Nat) (h : IsHighestBit v.toNat k) : flsU32 v = .ok k := by
  have hk : k < 32 := by
    have h1 := h.1; have h2 := v.isLt
    exact (Nat.pow_lt_pow_iff_right (by omega)).1 (Nat.lt_of_le_of_lt h1 h2)
  have hv : v ≠ 0 := by
    intro e; have := h.1; rw [e] at this; simp at this
  rw [flsU32, assert, if_pos (by simpa using hv), ok_bind, smear_eq v k h]
  exact flsTable_ok k hk

theorem IsHighestBit.unique {n i j : Nat} (hi : IsHighestBit n i) (hj : IsHighestBit n j) : i = j := by
  obtain ⟨a, b⟩ := hi; obtain ⟨c, d⟩ := hj
  have h1 := (Nat.pow_lt_pow_iff_right (a := 2) (by omega)).1 (Nat.lt_of_le_of_lt a d)
  have h2 := (Nat.pow_lt_pow_iff_right (a := 2) (by omega)).1 (Nat.lt_of_le_of_lt c b)
  omega

theorem IsHighestBit.shift {h l k m : Nat} (hl : l < 2 ^ m) (hh : IsHighestBit h k) :
    IsHighestBit (l + 2 ^ m * h) (k + m) := by
  obtain ⟨a, b⟩ := hh
  refine ⟨?_, ?_⟩
  · rw [Nat.pow_add, Nat.mul_comm]
    exact Nat.le_trans (Nat.mul_le_mul_left _ a) (by omega)
  · have : 2 ^ (k + m + 1) = 2 ^ m * 2 ^ (k + 1) := by rw [← Nat.pow_add]; congr 1; omega
    rw [this]
    have h1 : 2 ^ m * (h + 1) ≤ 2 ^ m * 2 ^ (k + 1) := Nat.mul_le_mul_left _ b
    rw [Nat.mul_add] at h1; omega

theorem toNat_hi32 (v : BitVec 64) : ((v >>> 32).setWidth 32 : BitVec 32).toNat = v.toNat / 2 ^ 32 := by
  have := v.isLt
  simp [Nat.shiftRight_eq_div_pow]; omega
theorem toNat_lo32 (v : BitVec 64) : (v.setWidth 32 : BitVec 32).toNat = v.toNat % 2 ^ 32 := by simp
theorem toNat_lo32' (v : BitVec 64) : ((v &&& 0xFFFFFFFF).setWidth 32 : BitVec 32).toNat = v.toNat % 2 ^ 32 := by
  have hm : BitVec.toNat (4294967295 : BitVec 64) = 4294967295 := rfl
  simp only [BitVec.toNat_setWidth, BitVec.toNat_and, hm, and_mask32]; omega

theorem ne0_32 (v : BitVec 32) : v ≠ 0 ↔ v.toNat ≠ 0 := by rw [ne_eq, ← BitVec.toNat_inj]; simp
theorem ne0_64 (v : BitVec 64) : v ≠ 0 ↔ v.toNat ≠ 0 := by rw [ne_eq, ← BitVec.toNat_inj]; simp

theorem flsU64_spec (v : BitVec 64) (k : Nat) (h : IsHighestBit v.toNat k) : flsU64 v = .ok k := by
  unfold flsU64
  simp only [ne0_32, toNat_hi32]
  by_cases c : v.toNat / 2 ^ 32 = 0
  · simp only [c, ne_eq, not_true_eq_false, if_false]
    apply flsU32_spec
    rw [toNat_lo32]
    have : v.toNat % 2 ^ 32 = v.toNat := by omega
    rw [this]; exact h
  · simp only [c, ne_eq, not_false_eq_true, if_true]
    obtain ⟨k', hk'⟩ := exists_highest _ c
    rw [flsU32_spec _ k' (by rw [toNat_hi32]; exact hk')]
    have hs := hk'.shift (l := v.toNat % 2 ^ 32) (m := 32) (by omega)
    have e : v.toNat % 2 ^ 32 + 2 ^ 32 * (v.toNat / 2 ^ 32) = v.toNat := by omega
    rw [e] at hs
    rw [h.unique hs]; rfl

theorem fls_spec (v : U128) (k : Nat) (h : IsHighestBit v.toNat k) : fls v = .ok k := by
  unfold fls
  simp only [ne0_64]
  by_cases c : v.high.toNat = 0
  · simp only [c, ne_eq, not_true_eq_false, if_false]
    apply flsU64_spec
    simpa [U128.toNat, c] using h
  · simp only [c, ne_eq, not_false_eq_true, if_true]
    obtain ⟨k', hk'⟩ := exists_highest _ c
    rw [flsU64_spec _ k' hk']
    have hs := hk'.shift v.low.isLt
    rw [h.unique hs]; rfl

/-! ### find first set -/

theorem exists_lowest (n : Nat) (h : n ≠ 0) : ∃ k, IsLowestBit n k := by
  obtain ⟨i, hi⟩ : ∃ i, n.testBit i = true := by
    obtain ⟨k, hk⟩ := exists_highest n h
    exact ⟨k, hk.testBit.1⟩
  induction i using Nat.strongRecOn with
  | _ i ih =>
    by_cases c : ∃ j, j < i ∧ n.testBit j = true
    · obtain ⟨j, h1, h2⟩ := c; exact ih j h1 h2
    · refine ⟨i, hi, fun j hj => ?_⟩
      cases hb : n.testBit j
      · rfl
      · exact absurd ⟨j, hj, hb⟩ c

theorem IsLowestBit.unique {n i j : Nat} (hi : IsLowestBit n i) (hj : IsLowestBit n j) : i = j := by
  rcases Nat.lt_trichotomy i j with h | h | h
  · have := hj.2 i h; rw [hi.1] at this; cases this
  · exact h
  · have := hi.2 j h; rw [hj.1] at this; cases this

theorem IsLowestBit.form {n k : Nat} (h : IsLowestBit n k) : ∃ m, n = 2 ^ k * (2 * m + 1) := by
  have h0 : n % 2 ^ k = 0 := by
    apply Nat.eq_of_testBit_eq; intro i
    rw [Nat.testBit_mod_two_pow]
    by_cases c : i < k
    · simp [h.2 i c]
    · simp [c]
  have h1 : (n / 2 ^ k) % 2 = 1 := by
    have := h.1
    rw [Nat.testBit_eq_decide_div_mod_eq] at this
    simpa using this
  refine ⟨n / 2 ^ k / 2, ?_⟩
  have e : 2 * (n / 2 ^ k / 2) + 1 = n / 2 ^ k := by omega
  rw [e]
  have := Nat.div_add_mod n (2 ^ k); omega

theorem isolate (v : BitVec 32) (k : Nat) (hk : k < 32) (h : IsLowestBit v.toNat k) :
    v &&& (~~~(v - 1)) = (1#32) <<< k := by
  obtain ⟨m, hm⟩ := h.form
  have hlt := v.isLt
  have hpos : 0 < 2 ^ k := Nat.two_pow_pos k
  have hsub : (v - 1).toNat = 2 ^ k * (2 * m) + (2 ^ k - 1) := by
    rw [BitVec.toNat_sub]
    have h1 : (1 : BitVec 32).toNat = 1 := rfl
    have : 2 ^ k * (2 * m + 1) = 2 ^ k * (2 * m) + 2 ^ k := by rw [Nat.mul_add]; simp
    omega
  apply BitVec.eq_of_getLsbD_eq
  intro i hi
  have hv : v.getLsbD i = (2 ^ k * (2 * m + 1) + 0).testBit i := by rw [BitVec.getLsbD, hm]; rfl
  have hw : (v - 1).getLsbD i = (2 ^ k * (2 * m) + (2 ^ k - 1)).testBit i := by rw [BitVec.getLsbD, hsub]
  rw [BitVec.getLsbD_and, BitVec.getLsbD_not, BitVec.getLsbD_shiftLeft, BitVec.getLsbD_one, hv, hw,
    Nat.testBit_two_pow_mul_add _ hpos, Nat.testBit_two_pow_mul_add _ (by omega)]
  by_cases c : i < k
  · simp [c]
  · rcases Nat.lt_or_ge k i with d | d
    · obtain ⟨j, rfl⟩ : ∃ j, i = k + (j + 1) := ⟨i - k - 1, by omega⟩
      have e : k + (j + 1) - k = j + 1 := by omega
      simp only [e, Nat.testBit_add_one, show ¬ (k + (j+1) < k) by omega, if_false]
      have : (2 * m + 1) / 2 = 2 * m / 2 := by omega
      rw [this]
      cases (2 * m / 2).testBit j <;> simp
    · have : i = k := by omega
      subst this
      simp [hi]

theorem ffsTable_ok (k : Nat) (hk : k < 32) :
    rd ffsTable (((1#32) <<< k * 0x077CB531) >>> 27).toNat = .ok k := by
  interval_cases k <;> rfl

theorem ffsU32_spec (v : BitVec 32) (k : Nat) (h : IsLowestBit v.toNat k) : ffsU32 v = .ok k := by
  have hk : k < 32 := by
    by_cases c : k < 32
    · exact c
    · have := h.1
      rw [Nat.testBit_lt_two_pow (Nat.lt_of_lt_of_le v.isLt (Nat.pow_le_pow_right (by omega) (by omega)))] at this
      cases this
  have hv : v ≠ 0 := by
    intro e; have := h.1; rw [e] at this; simp at this
  rw [ffsU32, assert, if_pos (by simpa using hv), ok_bind, isolate v k hk h]
  exact ffsTable_ok k hk

theorem IsLowestBit.low {h l k m : Nat} (hl : l < 2 ^ m) (hh : IsLowestBit l k) :
    IsLowestBit (l + 2 ^ m * h) k := by
  have hk : k < m := by
    by_cases c : k < m
    · exact c
    · have := hh.1
      rw [Nat.testBit_lt_two_pow (Nat.lt_of_lt_of_le hl (Nat.pow_le_pow_right (by omega) (by omega)))] at this
      cases this
  refine ⟨?_, fun j hj => ?_⟩ <;> rw [Nat.add_comm, Nat.testBit_two_pow_mul_add _ hl]
  · simp [hk, hh.1]
  · simp [show j < m by omega, hh.2 j hj]

theorem IsLowestBit.high {h k m : Nat} (hh : IsLowestBit h k) : IsLowestBit (2 ^ m * h) (k + m) := by
  refine ⟨?_, fun j hj => ?_⟩ <;> rw [Nat.testBit_two_pow_mul]
  · simp [hh.1]
  · by_cases c : m ≤ j
    · simp [hh.2 (j - m) (by omega)]
    · simp [c]

theorem ffsU64_spec (v : BitVec 64) (k : Nat) (h : IsLowestBit v.toNat k) : ffsU64 v = .ok k := by
  unfold ffsU64
  simp only [ne0_32, toNat_lo32']
  have e : v.toNat % 2 ^ 32 + 2 ^ 32 * (v.toNat / 2 ^ 32) = v.toNat := by omega
  by_cases c : v.toNat % 2 ^ 32 = 0
  · simp only [c, ne_eq, not_true_eq_false, if_false]
    have e2 : 2 ^ 32 * (v.toNat / 2 ^ 32) = v.toNat := by omega
    have hne : v.toNat / 2 ^ 32 ≠ 0 := by
      intro z; have : v.toNat = 0 := by omega
      have := h.1; simp_all
    obtain ⟨k', hk'⟩ := exists_lowest _ hne
    rw [ffsU32_spec _ k' (by rw [toNat_hi32]; exact hk')]
    have hs := hk'.high (m := 32)
    rw [e2] at hs
    rw [h.unique hs]; rfl
  · simp only [c, ne_eq, not_false_eq_true, if_true]
    obtain ⟨k', hk'⟩ := exists_lowest _ c
    rw [ffsU32_spec _ k' (by rw [toNat_lo32']; exact hk')]
    have hs := hk'.low (m := 32) (h := v.toNat / 2 ^ 32) (by omega)
    rw [e] at hs
    rw [h.unique hs]

theorem ffs_spec (v : U128) (k : Nat) (h : IsLowestBit v.toNat k) : ffs v = .ok k := by
  unfold ffs
  simp only [ne0_64]
  by_cases c : v.low.toNat = 0
  · simp only [c, ne_eq, not_true_eq_false, if_false]
    have e2 : 2 ^ 64 * v.high.toNat = v.toNat := by simp [U128.toNat, c]
    have hne : v.high.toNat ≠ 0 := by
      intro z; have : v.toNat = 0 := by omega
      have := h.1; simp_all
    obtain ⟨k', hk'⟩ := exists_lowest _ hne
    rw [ffsU64_spec _ k' hk']
    have hs := hk'.high (m := 64)
    rw [e2] at hs
    rw [h.unique hs]; rfl
  · simp only [c, ne_eq, not_false_eq_true, if_true]
    obtain ⟨k', hk'⟩ := exists_lowest _ c
    rw [ffsU64_spec _ k' hk']
    have hs := hk'.low (h := v.high.toNat) v.low.isLt
    rw [h.unique hs]

end Tm.U128
