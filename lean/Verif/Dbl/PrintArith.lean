import Verif.Dbl.PrintModel
import Verif.Dbl.ValueLemmas
/-! Facts about rounding that the proofs about printing need. -/
namespace Tm.Dbl

theorem rep_nonneg {q : ℚ} (h : Representable q) : 0 ≤ q := by
  obtain ⟨m, k, -, -, rfl⟩ := h
  positivity

theorem rep_zero : Representable 0 := ⟨0, 0, by norm_num, by omega, by simp⟩

theorem rep_nat {n : ℕ} (h : n ≤ 2 ^ 53) : Representable n := by
  rcases Nat.lt_or_ge n (2 ^ 53) with h | h'
  · exact ⟨n, 0, h, by omega, by simp⟩
  · exact ⟨1, 53, by norm_num, by omega, by rw [show n = 2 ^ 53 by omega]; norm_num⟩

theorem big_lt : (2 : ℚ) ^ 1000 < 2 ^ 1024 := pow_lt_pow_right₀ (by norm_num) (by norm_num)
theorem big_lt' : (2 : ℚ) ^ 1000 < 2 ^ (1023 : ℤ) := by
  rw [← zpow_natCast]; exact zpow_lt_zpow_right₀ (by norm_num) (by norm_num)
theorem rep_big : Representable ((2 : ℚ) ^ 1000) := ⟨1, 1000, by norm_num, by omega, by rw [← zpow_natCast]; norm_num⟩

theorem rnd_small {q : ℚ} (h0 : 0 ≤ q) (h : q ≤ 2 ^ 1000) :
    ∃ r, rnd q = .fin r ∧ Representable r ∧ (∀ y, Representable y → y ≤ q → y ≤ r) ∧ (∀ y, Representable y → q ≤ y → r ≤ y) := by
  rcases eq_or_lt_of_le h0 with rfl | h0
  · exact ⟨0, rnd_zero, rep_zero, fun y _ hy => hy, fun y hy _ => rep_nonneg hy⟩
  · obtain ⟨n1, n2, -⟩ := round_nearest h0
    have hle : ∀ y, Representable y → q ≤ y → round q ≤ y := by
      intro y hy hqy
      by_contra hc
      have := n2 y hy
      rw [abs_of_nonpos (by linarith), abs_of_nonpos (by linarith)] at this
      linarith
    refine ⟨round q, ?_, n1, ?_, hle⟩
    · rw [rnd_pos h0, if_pos]
      exact lt_of_le_of_lt (hle _ rep_big h) big_lt
    · intro y hy hqy
      by_contra hc
      have := n2 y hy
      rw [abs_of_nonneg (by linarith), abs_of_nonneg (by linarith)] at this
      linarith

theorem rnd_abs {q r : ℚ} {k : ℤ} (hk : -1021 ≤ k) (h0 : 0 ≤ q) (h : q < 2 ^ k) (hr : rnd q = .fin r) : |q - r| ≤ 2 ^ (k - 54) := by
  rcases eq_or_lt_of_le h0 with rfl | h0
  · rw [rnd_zero] at hr; cases hr; simp; positivity
  · rw [rnd_pos h0] at hr
    split at hr
    · cases hr
      refine le_trans round_near ?_
      have he : expo q ≤ k - 1 := by
        by_contra hc
        have h1 : (2 : ℚ) ^ k ≤ 2 ^ expo q := zpow_le_zpow_right₀ (by norm_num) (by omega)
        have := (expo_spec h0).1
        linarith
      have hp : place q ≤ k - 53 := by unfold place; omega
      have h1 : (2 : ℚ) ^ place q ≤ 2 ^ (k - 53) := zpow_le_zpow_right₀ (by norm_num) hp
      have h2 : (2 : ℚ) ^ (k - 53) = 2 ^ (k - 54) * 2 := by
        rw [show k - 53 = k - 54 + 1 by ring, zpow_add₀ (by norm_num), zpow_one]
      linarith
    · cases hr

/-- The exponent with a strict lower bound. -/
theorem expo_strict {y : ℚ} (h : 0 < y) : ∃ e : ℤ, (2 : ℚ) ^ e < y ∧ y ≤ 2 ^ (e + 1) := by
  obtain ⟨h1, h2⟩ := expo_spec h
  rcases eq_or_lt_of_le h1 with h1 | h1
  · refine ⟨expo y - 1, ?_, ?_⟩
    · refine lt_of_lt_of_eq ?_ h1
      exact zpow_lt_zpow_right₀ (by norm_num) (by omega)
    · rw [sub_add_cancel]; exact h1.ge
  · exact ⟨expo y, h1, h2.le⟩

theorem rep_multiple {y : ℚ} {e : ℤ} (hr : Representable y) (h : (2 : ℚ) ^ e ≤ y) : ∃ n : ℕ, y = n * 2 ^ (e - 52) := by
  obtain ⟨m, k, hm, -, rfl⟩ := hr
  have hk : e - 52 ≤ k := by
    by_contra hc
    have h1 : (m : ℚ) * 2 ^ k < 2 ^ e := by
      calc (m : ℚ) * 2 ^ k < 2 ^ (53 : ℤ) * 2 ^ k := by
            apply mul_lt_mul_of_pos_right _ (two_pos _)
            have : (m : ℚ) < ((2 ^ 53 : ℕ) : ℚ) := by exact_mod_cast hm
            refine lt_of_lt_of_eq this (by norm_num)
        _ = 2 ^ (53 + k) := by rw [zpow_add₀ (by norm_num)]
        _ ≤ 2 ^ e := zpow_le_zpow_right₀ (by norm_num) (by omega)
    linarith
  obtain ⟨n, hn⟩ := zpow_split hk
  exact ⟨m * 2 ^ n, by rw [hn]; push_cast; ring⟩

/-- The distance between two numbers that a `double` can have. -/
theorem rep_gap {x y : ℚ} {e : ℤ} (hx : Representable x) (hy : Representable y) (hlt : x < y) (he : (2 : ℚ) ^ e < y) :
    (2 : ℚ) ^ (e - 52) ≤ y - x := by
  obtain ⟨n, hn⟩ := rep_multiple hy he.le
  have hkey : ∀ a : ℕ, (a : ℚ) * 2 ^ (e - 52) < y → (2 : ℚ) ^ (e - 52) ≤ y - a * 2 ^ (e - 52) := by
    intro a ha
    rw [hn] at ha ⊢
    have h1 : (a : ℚ) < n := lt_of_mul_lt_mul_right ha (two_pos _).le
    have h2 : a < n := by exact_mod_cast h1
    have h3 : ((a + 1 : ℕ) : ℚ) ≤ n := by exact_mod_cast h2
    push_cast at h3
    have := mul_le_mul_of_nonneg_right h3 (two_pos (e - 52)).le
    linarith
  rcases le_or_gt ((2 : ℚ) ^ e) x with h | h
  · obtain ⟨a, ha⟩ := rep_multiple hx h
    rw [ha]; rw [ha] at hlt
    exact hkey a hlt
  · have h52 : (2 : ℚ) ^ e = ((2 ^ 52 : ℕ) : ℚ) * 2 ^ (e - 52) := by
      have := zpow_add₀ (a := (2 : ℚ)) (by norm_num) 52 (e - 52)
      rw [show 52 + (e - 52) = e by ring] at this
      rw [this]; norm_num
    have := hkey (2 ^ 52) (by rw [← h52]; exact he)
    rw [← h52] at this
    linarith

theorem rep_pred {y : ℚ} {e : ℤ} (hy : Representable y) (h1 : (2 : ℚ) ^ e < y) (h2 : y ≤ 2 ^ (e + 1)) (he : -1022 ≤ e) :
    Representable (y - 2 ^ (e - 52)) := by
  obtain ⟨n, hn⟩ := rep_multiple hy h1.le
  have hpos : 0 < n := by
    rcases Nat.eq_zero_or_pos n with rfl | h
    · rw [hn] at h1; simp at h1; have := two_pos e; linarith
    · exact h
  have hle : n ≤ 2 ^ 53 := by
    have : (n : ℚ) * 2 ^ (e - 52) ≤ ((2 ^ 53 : ℕ) : ℚ) * 2 ^ (e - 52) := by
      rw [← hn]; refine le_trans h2 (le_of_eq ?_)
      have := zpow_add₀ (a := (2 : ℚ)) (by norm_num) 53 (e - 52)
      rw [show 53 + (e - 52) = e + 1 by ring] at this
      rw [this]; norm_num
    have := le_of_mul_le_mul_right this (two_pos _)
    exact_mod_cast this
  refine ⟨n - 1, e - 52, by omega, by omega, ?_⟩
  rw [hn, Nat.cast_sub hpos]; push_cast; ring

/-- A quotient is not rounded up to a number that a `double` can have, if its product with the divisor is one as well. -/
theorem div_lt {x y d r : ℚ} (hx : Representable x) (hy : Representable y) (hyd : Representable (y * d)) (hd : 0 < d) (hy1 : 1 ≤ y)
    (hlt : x < y * d) (hr : rnd (x / d) = .fin r) : r < y := by
  rcases eq_or_lt_of_le (rep_nonneg hx) with h0 | h0
  · rw [← h0, zero_div, rnd_zero] at hr; cases hr; linarith
  obtain ⟨-, hn, -⟩ := rnd_nearest (div_pos h0 hd) hr
  by_contra hc
  push Not at hc
  obtain ⟨e, e1, e2⟩ := expo_strict (y := y) (by linarith)
  obtain ⟨f, f1, f2⟩ := expo_strict (y := y * d) (by positivity)
  have he : -1022 ≤ e := by
    by_contra hc
    have : (2 : ℚ) ^ (e + 1) ≤ 2 ^ (-1 : ℤ) := zpow_le_zpow_right₀ (by norm_num) (by omega)
    norm_num at this
    linarith
  have h1 := hn _ (rep_pred hy e1 e2 he)
  have h2 : x / d < y := by rw [div_lt_iff₀ hd]; exact hlt
  have h3 := rep_gap hx hyd hlt f1
  have h4 : y - x / d ≤ 2 ^ (e - 52) / 2 := by
    rw [abs_of_nonpos (by linarith)] at h1
    rcases le_total (x / d) (y - 2 ^ (e - 52)) with h | h
    · rw [abs_of_nonpos (by linarith)] at h1
      have := two_pos (e - 52)
      linarith
    · rw [abs_of_nonneg (by linarith)] at h1
      linarith
  have h5 : d < 2 ^ (f + 1 - e) := by
    have : 2 ^ e * d < 2 ^ e * 2 ^ (f + 1 - e) := by
      rw [← zpow_add₀ (by norm_num), show e + (f + 1 - e) = f + 1 by ring]
      exact lt_of_lt_of_le (mul_lt_mul_of_pos_right e1 hd) f2
    exact lt_of_mul_lt_mul_left this (two_pos e).le
  have h6 : y * d - x ≤ d * (2 ^ (e - 52) / 2) := by
    have := mul_le_mul_of_nonneg_left h4 hd.le
    rw [mul_sub, mul_div_cancel₀ _ hd.ne'] at this
    linarith
  have h7 : d * (2 ^ (e - 52) / 2) < 2 ^ (f - 52) := by
    have h8 : (2 : ℚ) ^ (f - 52) = 2 ^ (f + 1 - e) * (2 ^ (e - 52) / 2) := by
      rw [show f - 52 = (f + 1 - e) + (e - 52) - 1 by ring, zpow_sub₀ (by norm_num), zpow_add₀ (by norm_num), zpow_one]; ring
    rw [h8]
    exact mul_lt_mul_of_pos_right h5 (by have := two_pos (e - 52); positivity)
  linarith

/-- Whole numbers below 2^54 that are even, and all up to 2^53. -/
theorem rep_even {n : ℕ} (h : n ≤ 2 ^ 54) (h2 : n % 2 = 0) : Representable n := by
  rcases Nat.lt_or_ge n (2 ^ 54) with h | h'
  · refine ⟨n / 2, 1, by omega, by omega, ?_⟩
    have : n = n / 2 * 2 := by omega
    conv_lhs => rw [this]
    push_cast; norm_num
  · exact ⟨1, 54, by norm_num, by omega, by rw [show n = 2 ^ 54 by omega]; norm_num⟩

/-- Subtracting a whole number is exact. -/
theorem rep_sub {q : ℚ} {n : ℕ} (hq : Representable q) (h : q < 2 ^ 53) (hn : (n : ℚ) ≤ q) : Representable (q - n) := by
  obtain ⟨m, k, hm, hk, rfl⟩ := hq
  rcases le_or_gt k 0 with h0 | h0
  · obtain ⟨j, hj⟩ := zpow_split h0
    rw [zpow_zero] at hj
    have hs : (m : ℚ) * 2 ^ k - n = ((m : ℚ) - n * (2 ^ j : ℕ)) * 2 ^ k := by
      rw [sub_mul, mul_assoc, ← hj, mul_one]
    have hle : n * 2 ^ j ≤ m := by
      have : ((n * 2 ^ j : ℕ) : ℚ) * 2 ^ k ≤ m * 2 ^ k := by
        push_cast at hj ⊢
        rw [mul_assoc, ← hj, mul_one]; exact hn
      have := le_of_mul_le_mul_right this (two_pos _)
      exact_mod_cast this
    refine ⟨m - n * 2 ^ j, k, by omega, hk, ?_⟩
    rw [hs, Nat.cast_sub hle]; push_cast; rfl
  · obtain ⟨j, hj⟩ := zpow_split (j := 0) h0.le
    rw [zpow_zero, mul_one] at hj
    have e : (m : ℚ) * 2 ^ k = ((m * 2 ^ j : ℕ) : ℚ) := by rw [hj]; push_cast; rfl
    rw [e] at h hn ⊢
    have hn' : n ≤ m * 2 ^ j := by exact_mod_cast hn
    rw [← Nat.cast_sub hn']
    apply rep_nat
    have h' : ((m * 2 ^ j : ℕ) : ℚ) < ((2 ^ 53 : ℕ) : ℚ) := by push_cast at h ⊢; exact h
    have : m * 2 ^ j < 2 ^ 53 := by exact_mod_cast h'
    omega

theorem pow_two_le {k : ℕ} (h : k ≤ 1000) : (2 : ℚ) ^ k ≤ 2 ^ 1000 := pow_le_pow_right₀ (by norm_num) h

theorem rndS_nonneg {q : ℚ} (h : 0 ≤ q) : rndS q = rnd q := by rw [rndS, if_neg (by linarith)]

theorem rnd_rep {q : ℚ} (h : Representable q) (hq : q ≤ 2 ^ 1000) : rnd q = .fin q :=
  rnd_exact (rep_nonneg h) h (lt_of_le_of_lt hq big_lt)

end Tm.Dbl
