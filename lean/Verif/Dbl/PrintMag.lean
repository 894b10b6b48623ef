import Verif.Dbl.PrintArith
/-! The arithmetic steps of `print_double`. -/
namespace Tm.Dbl
open Tm.Conv

theorem tenTo_exact : ∀ k < 15, tenTo powersOfTen k (.fin 1) = .ok (.fin (10 ^ k)) := by decide +kernel

theorem ten_rep {k : ℕ} (h : k ≤ 16) : Representable ((10 : ℚ) ^ k) := by
  rcases Nat.lt_or_ge k 16 with h' | h'
  · have := rep_nat (n := 10 ^ k) (le_trans (Nat.pow_le_pow_right (by norm_num) (show k ≤ 15 by omega)) (by norm_num))
    push_cast at this; exact this
  · have := rep_even (n := 10 ^ 16) (by norm_num) (by norm_num)
    rw [show k = 16 by omega]; push_cast at this; exact this

theorem ten_le {k : ℕ} (h : k ≤ 100) : (10 : ℚ) ^ k ≤ 2 ^ 1000 := by
  calc (10 : ℚ) ^ k ≤ 10 ^ 100 := pow_le_pow_right₀ (by norm_num) h
    _ ≤ (2 ^ 10) ^ 100 := by apply pow_le_pow_left₀ (by norm_num) (by norm_num)
    _ = 2 ^ 1000 := by rw [← pow_mul]

theorem rnd_ten {k : ℕ} (h : k ≤ 16) : rnd ((10 : ℚ) ^ k) = .fin (10 ^ k) := rnd_rep (ten_rep h) (ten_le (by omega))

theorem pow10_div {q : ℚ} {k : ℕ} (h : 0 ≤ q) (hk : k ≤ 14) : pow10S (.fin q) (-(k : ℤ)) = .ok (rnd (q / 10 ^ k)) := by
  rw [pow10S]
  rw [if_neg (by linarith), pow10, assert, if_pos (by simp; omega), ok_bind, show (-(k : ℤ)).natAbs = k by omega,
    tenTo_exact k (by omega), ok_bind]
  rcases Nat.eq_zero_or_pos k with rfl | h0
  · simp [F.mul]
  · rw [if_pos (by omega), F.div, if_neg (by positivity)]

theorem pow10_mul {q : ℚ} {k : ℕ} (h : 0 ≤ q) (hk : k ≤ 14) : pow10S (.fin q) (k : ℤ) = .ok (rnd (q * 10 ^ k)) := by
  rw [pow10S]
  rw [if_neg (by linarith), pow10, assert, if_pos (by simp; omega), ok_bind, show ((k : ℤ)).natAbs = k by omega,
    tenTo_exact k (by omega), ok_bind, if_neg (by omega), F.mul]

theorem floor_eq {q : ℚ} {n : ℕ} (h1 : (n : ℚ) ≤ q) (h2 : q < n + 1) : q.floor.toNat = n := by
  obtain ⟨f1, f2⟩ := floor_bounds q
  have a : (q.floor : ℚ) < ((n + 1 : ℤ) : ℚ) := by push_cast; linarith
  have b : ((n : ℤ) : ℚ) < ((q.floor + 1 : ℤ) : ℚ) := by push_cast; linarith
  have a' : q.floor < n + 1 := by exact_mod_cast a
  have b' : (n : ℤ) < q.floor + 1 := by exact_mod_cast b
  omega

theorem toU64_eq {q : ℚ} {n : ℕ} (h1 : (n : ℚ) ≤ q) (h2 : q < n + 1) (hn : n < 2 ^ 64) : toU64 (.fin q) = .ok (BitVec.ofNat 64 n) := by
  have hq : q < 2 ^ 64 := by
    have : ((n + 1 : ℕ) : ℚ) ≤ ((2 ^ 64 : ℕ) : ℚ) := by exact_mod_cast hn
    push_cast at this
    linarith
  have h0 : (0 : ℚ) ≤ n := by positivity
  rw [toU64, if_pos ⟨by linarith, hq⟩, floor_eq h1 h2]

theorem ofU64_eq {n : ℕ} (hn : n < 2 ^ 64) : ofU64 (BitVec.ofNat 64 n) = rnd n := by
  rw [ofU64, BitVec.toNat_ofNat, Nat.mod_eq_of_lt hn]

/-! ## The magnitude -/

/-- A number with `j + 1` digits in front of the dot. -/
def InMag (j : ℕ) (x : ℚ) : Prop := Representable x ∧ 10 ^ j ≤ x ∧ x < 10 ^ (j + 1)

theorem ge_rnd {k j : ℕ} {x : ℚ} (hx : InMag j x) (hk : k ≤ 32) (hj : j ≤ 15) : (F.fin x).ge (rnd (10 ^ k)) = decide (k ≤ j) := by
  obtain ⟨h1, h2, h3⟩ := hx
  rcases Nat.lt_or_ge j k with h | h
  · obtain ⟨r, r1, -, r2, -⟩ := rnd_small (q := 10 ^ k) (by positivity) (ten_le (by omega))
    have h4 := r2 (10 ^ (j + 1)) (ten_rep (by omega)) (pow_le_pow_right₀ (by norm_num) (by omega))
    rw [r1, F.ge]
    simp only [decide_eq_decide]
    constructor
    · intro h5; linarith
    · intro h5; omega
  · rw [rnd_ten (by omega), F.ge]
    simp only [decide_eq_decide]
    have : (10 : ℚ) ^ k ≤ 10 ^ j := pow_le_pow_right₀ (by norm_num) h
    constructor
    · intro _; exact h
    · intro _; linarith

theorem magStep_eq {k j n : ℕ} {x : ℚ} (hx : InMag j x) (hk : k ≤ 32) (hj : j ≤ 15) :
    ∃ x', magStep k (n, .fin x) = (n + (if k ≤ j then k else 0), .fin x') ∧ InMag (j - (if k ≤ j then k else 0)) x' := by
  rw [magStep]
  simp only
  rw [ge_rnd hx hk hj]
  by_cases h : k ≤ j
  · rw [if_pos (by simpa using h), if_pos h]
    obtain ⟨h1, h2, h3⟩ := hx
    have hd : (0 : ℚ) < 10 ^ k := by positivity
    rw [rnd_ten (by omega), F.div, if_neg hd.ne']
    have h4 : (10 : ℚ) ^ (j - k) ≤ x / 10 ^ k := by
      rw [le_div_iff₀ hd, ← pow_add, Nat.sub_add_cancel h]; exact h2
    have h5 : x / 10 ^ k ≤ 2 ^ 1000 := by
      refine le_trans ?_ (ten_le (k := j + 1) (by omega))
      rw [div_le_iff₀ hd]
      have : (1 : ℚ) ≤ 10 ^ k := one_le_pow₀ (by norm_num)
      have hp : (0 : ℚ) ≤ 10 ^ (j + 1) := by positivity
      have := mul_le_mul_of_nonneg_left this hp
      rw [mul_one] at this
      exact le_trans h3.le this
    have h6 : 0 ≤ x / 10 ^ k := div_nonneg (rep_nonneg h1) hd.le
    obtain ⟨r, r1, r2, r3, -⟩ := rnd_small h6 h5
    refine ⟨r, by rw [r1], r2, r3 _ (ten_rep (by omega)) h4, ?_⟩
    have hm : (10 : ℚ) ^ (j - k + 1) * 10 ^ k = 10 ^ (j + 1) := by
      rw [← pow_add, show j - k + 1 + k = j + 1 by clear h5; omega]
    clear h5
    exact div_lt h1 (ten_rep (by omega)) (by rw [hm]; exact ten_rep (by omega)) hd (by exact one_le_pow₀ (by norm_num)) (by rw [hm]; exact h3) r1
  · rw [if_neg (by simpa using h), if_neg h]
    exact ⟨x, by simp, by simpa using hx⟩

theorem magLoop_small {fuel n : ℕ} {x : ℚ} (h : x < 10) : magLoop (fuel + 1) (n, .fin x) = .ok n := by
  rw [magLoop, if_neg (by simp [F.ge]; exact h)]

theorem printMagnitude_eq {j : ℕ} {x : ℚ} (hr : Representable x) (h1 : j = 0 ∨ 10 ^ j ≤ x) (h2 : x < 10 ^ (j + 1)) (hj : j ≤ 15) :
    printMagnitude (.fin x) = .ok ((j : ℤ) + 1) := by
  rw [printMagnitude]
  rw [if_neg (not_lt.mpr (rep_nonneg hr))]
  rcases Nat.eq_zero_or_pos j with rfl | h0
  · rw [magLoop_small (by simpa using h2), ok_bind]
  · have h1' : (10 : ℚ) ^ j ≤ x := by rcases h1 with h1 | h1; omega; exact h1
    have hx : InMag j x := ⟨hr, h1', h2⟩
    have h10 : (10 : ℚ) ≤ x := le_trans (by
      calc (10 : ℚ) = 10 ^ 1 := by norm_num
        _ ≤ 10 ^ j := pow_le_pow_right₀ (by norm_num) h0) h1'
    rw [magLoop, if_pos (by simp [F.ge]; exact h10)]
    obtain ⟨x1, e1, i1⟩ := magStep_eq (n := 0) hx (k := 32) (by omega) hj
    obtain ⟨x2, e2, i2⟩ := magStep_eq (n := 0 + (if 32 ≤ j then 32 else 0)) i1 (k := 16) (by omega) (by omega)
    rw [e1, e2]
    rw [if_neg (show ¬ 32 ≤ j by omega)] at *
    rw [if_neg (show ¬ 16 ≤ j - 0 by omega)] at *
    simp only [Nat.add_zero, Nat.sub_zero] at *
    obtain ⟨x3, e3, i3⟩ := magStep_eq (n := 0) i2 (k := 8) (by omega) hj
    rw [e3]
    generalize hd3 : (if 8 ≤ j then 8 else 0) = d3 at *
    have hd3' : j - d3 ≤ 7 ∧ d3 ≤ j := by split at hd3 <;> omega
    obtain ⟨x4, e4, i4⟩ := magStep_eq (n := 0 + d3) i3 (k := 4) (by omega) (by omega)
    rw [e4]
    generalize hd4 : (if 4 ≤ j - d3 then 4 else 0) = d4 at *
    have hd4' : j - d3 - d4 ≤ 3 ∧ d4 ≤ j - d3 := by split at hd4 <;> omega
    obtain ⟨x5, e5, i5⟩ := magStep_eq (n := 0 + d3 + d4) i4 (k := 2) (by omega) (by omega)
    rw [e5]
    generalize hd5 : (if 2 ≤ j - d3 - d4 then 2 else 0) = d5 at *
    have hd5' : j - d3 - d4 - d5 ≤ 1 ∧ d5 ≤ j - d3 - d4 := by split at hd5 <;> omega
    obtain ⟨x6, e6, i6⟩ := magStep_eq (n := 0 + d3 + d4 + d5) i5 (k := 1) (by omega) (by omega)
    rw [e6]
    generalize hd6 : (if 1 ≤ j - d3 - d4 - d5 then 1 else 0) = d6 at *
    have hd6' : j - d3 - d4 - d5 - d6 = 0 ∧ d6 ≤ j - d3 - d4 - d5 := by split at hd6 <;> omega
    rw [hd6'.1] at i6
    rw [magLoop_small (by simpa using i6.2.2), ok_bind]
    congr 2
    omega

end Tm.Dbl
