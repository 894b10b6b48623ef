import Verif.Dbl.PrintFraction
/-! A finite number in `print_double`. -/
namespace Tm.Dbl
open Tm.Conv Tm.Num

variable {buf : List Byte} {dest maxlen : Nat}

/-- Half a unit of the last decimal. -/
theorem half_unit {p : Nat} (hp : p ≤ 14) : ∃ h, pow10S (.fin (1 / 2)) (-(p : ℤ)) = .ok (.fin h) ∧ 1 / 4 / 10 ^ p ≤ h ∧ h ≤ 501 / 1000 / 10 ^ p := by
  rw [pow10_div (by norm_num) hp]
  have hpos : (0 : ℚ) < 10 ^ p := by positivity
  have hten : (10 : ℚ) ^ p ≤ 10 ^ 14 := pow_le_pow_right₀ (by norm_num) hp
  have h1 : (2 : ℚ) ^ (-1022 : ℤ) ≤ 1 / 2 / 10 ^ p := by
    refine le_trans (b := (2 : ℚ) ^ (-60 : ℤ)) (zpow_le_zpow_right₀ (by norm_num) (by norm_num)) ?_
    rw [le_div_iff₀ hpos]
    refine le_trans (mul_le_mul_of_nonneg_left hten (by positivity)) ?_
    norm_num
  have h2 : 1 / 2 / (10 : ℚ) ^ p < 2 ^ (1023 : ℤ) := by
    refine lt_of_lt_of_le (b := 1) ?_ (by
      have := zpow_le_zpow_right₀ (a := (2 : ℚ)) (by norm_num) (show (0 : ℤ) ≤ 1023 by norm_num)
      simpa using this)
    rw [div_lt_iff₀ hpos]
    have : (1 : ℚ) ≤ 10 ^ p := one_le_pow₀ (by norm_num)
    linarith
  obtain ⟨r, r1, r2⟩ := rnd_normal h1 h2
  rw [abs_le] at r2
  have h0 : (0 : ℚ) < 1 / 2 / 10 ^ p := by positivity
  clear h1 h2
  have h53 : (2 : ℚ) ^ (-53 : ℤ) ≤ 1 / 1000 := by norm_num
  have := mul_le_mul_of_nonneg_left h53 h0.le
  have e2 : (1 / 4 / 10 ^ p : ℚ) = 1 / 2 / 10 ^ p * (1 / 2) := by ring
  refine ⟨r, by rw [r1], by rw [e2]; linarith, ?_⟩
  have e : (501 / 1000 / 10 ^ p : ℚ) = 1 / 2 / 10 ^ p + 1 / 2 / 10 ^ p * (1 / 500) := by ring
  rw [e]
  linarith

/-- No carry into the integer part. -/
theorem no_rollover {p n : Nat} {q h : ℚ} (hq : Representable q) (hlt : q < 2 ^ 53) (h1 : (n : ℚ) ≤ q)
    (hp : p ≤ 14) (h0 : 1 / 4 / 10 ^ p ≤ h) (hh : h ≤ 501 / 1000 / 10 ^ p)
    (hc : q + 103 / 100 / 10 ^ p ≤ n + 1 ∨ ((q + 1) * 10 ^ p ≤ 2 ^ 46 ∧ q + 52 / 100 / 10 ^ p ≤ n + 1)) :
    toU64 ((F.fin q).addS (.fin h)) = .ok (BitVec.ofNat 64 n) := by
  have hpos : (0 : ℚ) < 10 ^ p := by positivity
  have hten : (10 : ℚ) ^ p ≤ 10 ^ 14 := pow_le_pow_right₀ (by norm_num) hp
  have h1p : (1 : ℚ) ≤ 10 ^ p := one_le_pow₀ (by norm_num)
  have hq0 := rep_nonneg hq
  have e1 : ∀ c : ℚ, c / 10 ^ p = c * (1 / 10 ^ p) := fun c => by ring
  rw [e1] at hh h0
  rw [e1 (103 / 100), e1 (52 / 100)] at hc
  have hu : (0 : ℚ) < 1 / 10 ^ p := by positivity
  have hu1 : (1 : ℚ) / 10 ^ p ≤ 1 := by rw [div_le_one hpos]; exact h1p
  have hul : (2 : ℚ) ^ (-60 : ℤ) ≤ 1 / 4 * (1 / 10 ^ p) := by
    rw [← e1, le_div_iff₀ hpos]
    refine le_trans (mul_le_mul_of_nonneg_left hten (by positivity)) ?_
    norm_num
  have hup : 1 / 10 ^ p * (10 : ℚ) ^ p = 1 := by field_simp
  generalize (1 : ℚ) / 10 ^ p = u at *
  have hx0 : 0 < q + h := by linarith
  have hbig : q + h ≤ 2 ^ 1000 := by
    refine le_trans (b := 2 ^ 54) ?_ (pow_two_le (by norm_num))
    have : (2 : ℚ) ^ 54 = 2 ^ 53 + 2 ^ 53 := by norm_num
    have : (1 : ℚ) ≤ 2 ^ 53 := by norm_num
    linarith
  obtain ⟨r, r1, r2, r3, -⟩ := rnd_small hx0.le hbig
  clear hbig
  have hqr : q ≤ r := r3 q hq (by linarith)
  have hn : n < 2 ^ 53 := by
    have : (n : ℚ) < ((2 ^ 53 : ℕ) : ℚ) := by push_cast; linarith
    exact_mod_cast this
  have hrn : r < n + 1 := by
    rcases hc with hc | ⟨hc1, hc2⟩
    · obtain ⟨-, hne, -⟩ := rnd_nearest hx0 r1
      have h2 := hne q hq
      rw [show q + h - q = h by ring, abs_of_pos (by linarith : 0 < h), abs_le] at h2
      linarith
    · have hlo : (2 : ℚ) ^ (-1022 : ℤ) ≤ q + h := by
        refine le_trans (b := (2 : ℚ) ^ (-60 : ℤ)) (zpow_le_zpow_right₀ (by norm_num) (by norm_num)) (le_trans hul (by linarith))
      have hhi : q + h < 2 ^ (1023 : ℤ) := by
        refine lt_of_lt_of_le (b := (2 : ℚ) ^ (54 : ℤ)) ?_ (zpow_le_zpow_right₀ (by norm_num) (by norm_num))
        have e : (2 : ℚ) ^ (54 : ℤ) = 2 ^ 53 + 2 ^ 53 := by norm_num
        have : (1 : ℚ) ≤ 2 ^ 53 := by norm_num
        rw [e]
        linarith
      obtain ⟨r', r1', r2'⟩ := rnd_normal hlo hhi
      rw [r1] at r1'
      cases r1'
      clear hlo hhi
      have h3 : (q + h) * 2 ^ (-53 : ℤ) ≤ u * (1 / 128) := by
        have h4 : (q + h) ≤ 2 ^ 46 * u := by
          have h5 := mul_le_mul_of_nonneg_right hc1 hu.le
          have : (q + 1) * 10 ^ p * u = (q + 1) * (u * 10 ^ p) := by ring
          rw [this, hup] at h5
          linarith
        have h6 := mul_le_mul_of_nonneg_right h4 (show (0 : ℚ) ≤ 2 ^ (-53 : ℤ) by positivity)
        have : (2 : ℚ) ^ 46 * u * 2 ^ (-53 : ℤ) = u * (1 / 128) := by norm_num; ring
        linarith
      have r3' := (abs_le.mp (le_trans r2' h3)).1
      have h5 : u * (501 / 1000) + u * (1 / 128) < u * (52 / 100) := by
        rw [← mul_add]; exact mul_lt_mul_of_pos_left (by norm_num) hu
      clear r2' h3 hul hten hlt e1 hc1 hup
      linarith
  rw [F.addS, rndS_nonneg hx0.le, r1]
  exact toU64_eq (by linarith) hrn (by omega)

/-- The options as the code has them. -/
theorem precision_eq {flags : BitVec 32} {precision : Int} :
    (if (decide (precision < 0) || flags.getLsbD 3) = true then 14 else if precision > 14 then 14 else precision.toNat)
      = decimals flags precision := by
  rw [decimals, short]
  split
  · rfl
  · split <;> omega

theorem decimals_le {flags : BitVec 32} {precision : Int} : decimals flags precision ≤ 14 := by
  rw [decimals]; split <;> omega

/-- The digits of a number. -/
theorem printDigits_eq {t : List Byte} {q : ℚ} {n p : Nat} {trailing keepShort : Bool} (hroom : dest + maxlen ≤ buf.length)
    (ht : t.length < maxlen) (hq : Representable q) (hlt : q < 2 ^ 53) (h1 : (n : ℚ) ≤ q) (h2 : q < n + 1) (hp : p ≤ 14)
    (hks : keepShort = false → trailing = true) {d : Nat}
    (d1 : toU64 (((F.fin (q - n)).mulS (.fin (10 ^ p))).addS (.fin (1 / 2))) = .ok (BitVec.ofNat 64 d))
    (hten : printPowersOfTen[p]? = some (.fin (10 ^ p))) (d2 : d ≤ 10 ^ p) :
    Printed buf dest maxlen (t ++ text 10 false n ++ fractionOf p d trailing keepShort)
        (printDigits maxlen (st buf dest maxlen t) (.fin q) p trailing keepShort) := by
  have hn : n < 2 ^ 53 := by
    have : (n : ℚ) < ((2 ^ 53 : ℕ) : ℚ) := by push_cast; linarith
    exact_mod_cast this
  obtain ⟨j, hj⟩ : ∃ j, (text 10 false n).length = j + 1 := ⟨(text 10 false n).length - 1, by
    have := text_pos 10 n (by decide) false
    omega⟩
  have hj' : (numeral 10 n).length = j + 1 := by rw [← text_length 10 false n]; exact hj
  have hj15 : j ≤ 15 := by
    have := (numeral_length_le_iff 10 n 16 (by decide) (by decide)).mpr (by omega)
    omega
  have hmag : printMagnitude (.fin q) = .ok ((j : ℤ) + 1) := by
    apply printMagnitude_eq hq
    · rcases Nat.eq_zero_or_pos j with h | h
      · exact .inl h
      · right
        have h10 : 10 ^ j ≤ n := by
          by_contra hc
          have := (numeral_length_le_iff 10 n j (by decide) h).mpr (by omega)
          omega
        have : ((10 ^ j : ℕ) : ℚ) ≤ n := by exact_mod_cast h10
        push_cast at this
        linarith
    · have h10 : n < 10 ^ (j + 1) := (numeral_length_le_iff 10 n (j + 1) (by decide) (by omega)).mp (by omega)
      have : ((n + 1 : ℕ) : ℚ) ≤ ((10 ^ (j + 1) : ℕ) : ℚ) := by exact_mod_cast h10
      push_cast at this
      linarith
    · exact hj15
  have hint := integerPart_eq (t := t) hroom ht hq hlt h1 h2 hj
  rw [printDigits, hmag, ok_bind, if_neg (show ¬ ((j : ℤ) + 1 ≥ 511) by omega)]
  dsimp only
  unfold IntPart at hint
  by_cases hfit : (t ++ text 10 false n).length ≤ maxlen
  · rw [if_pos hfit] at hint
    rw [hint, ok_bind]
    exact fractionPart_eq hroom hfit hp hks hten d2 d1
  · rw [if_neg hfit] at hint
    obtain ⟨b, hb, hs⟩ := hint
    rw [hb, ok_bind]
    exact printed_full (by rw [List.length_append]; omega) rfl hs

/-- The flags as the code has them. -/
def trailingOf (flags : BitVec 32) (precision : Int) : Bool := if short flags precision then flags.getLsbD 4 else true

theorem trailingOf_eq {flags : BitVec 32} {precision : Int} (h : short flags precision = false) : trailingOf flags precision = true := by
  rw [trailingOf, h]; rfl

/-- Finite numbers without a carry. -/
theorem printFinite_eq {q : ℚ} {n : Nat} {flags : BitVec 32} {precision : Int}
    (hq : Representable q) (hlt : q < 2 ^ 53) (h1 : (n : ℚ) ≤ q) (h2 : q < n + 1)
    (hroll : ∃ h, pow10S (.fin (1 / 2)) (-(decimals flags precision : ℤ)) = .ok (.fin h) ∧
      toU64 ((F.fin q).addS (.fin h)) = .ok (BitVec.ofNat 64 n)) :
    ∃ d : Nat, d ≤ 10 ^ decimals flags precision ∧ |(d : ℚ) - (q - n) * 10 ^ decimals flags precision| ≤ 33 / 64 ∧ (q = n → d = 0) ∧
      ∀ (buf : List Byte) (dest maxlen : Nat), dest + maxlen ≤ buf.length → ∀ t : List Byte, t.length < maxlen →
        Printed buf dest maxlen (t ++ text 10 false n ++ fractionOf (decimals flags precision) d (trailingOf flags precision) (short flags precision))
        (printFinite maxlen (st buf dest maxlen t) (.fin q) flags precision) := by
  have hn : n < 2 ^ 53 := by
    have : (n : ℚ) < ((2 ^ 53 : ℕ) : ℚ) := by push_cast; linarith
    exact_mod_cast this
  have hp := decimals_le (flags := flags) (precision := precision)
  obtain ⟨hten, d, d1, d2, d3, d4⟩ := fraction_digits (f := q - n) (by linarith) (by linarith) hp
  obtain ⟨hh, hr1, hr2⟩ := hroll
  refine ⟨d, d2, d3, fun h => d4 (by linarith), fun buf dest maxlen hroom t ht => ?_⟩
  rw [printFinite]
  simp only [precision_eq]
  rw [hr1, ok_bind, hr2, ok_bind, toU64_eq h1 h2 (by omega), ok_bind, if_neg (show ¬ (BitVec.ofNat 64 n > BitVec.ofNat 64 n) by simp)]
  exact printDigits_eq hroom ht hq hlt h1 h2 hp trailingOf_eq d1 hten d2

/-- All finite numbers below 2^52: a text for them exists. -/
theorem printFinite_any {q : ℚ} {flags : BitVec 32} {precision : Int} (hq : Representable q) (hlt : q < 2 ^ 52) :
    ∃ n d : Nat, n ≤ q + 2 ∧ d ≤ 10 ^ decimals flags precision ∧
      ∀ (buf : List Byte) (dest maxlen : Nat), dest + maxlen ≤ buf.length → ∀ t : List Byte, t.length < maxlen →
        Printed buf dest maxlen (t ++ text 10 false n ++ fractionOf (decimals flags precision) d (trailingOf flags precision) (short flags precision))
        (printFinite maxlen (st buf dest maxlen t) (.fin q) flags precision) := by
  have hp := decimals_le (flags := flags) (precision := precision)
  have hq0 := rep_nonneg hq
  obtain ⟨h, hh1, hh2, hh3⟩ := half_unit hp
  have hu : (0 : ℚ) < 1 / 4 / 10 ^ decimals flags precision := by positivity
  have hl1 : (501 / 1000 / 10 ^ decimals flags precision : ℚ) ≤ 1 := by
    rw [div_le_one (by positivity)]
    have : (1 : ℚ) ≤ 10 ^ decimals flags precision := one_le_pow₀ (by norm_num)
    linarith
  have key : ∀ x : ℚ, 0 ≤ x → x ≤ q + 1 → ∃ r, rndS x = .fin r ∧ Representable r ∧ r < 2 ^ 53 ∧ 0 ≤ r := by
    intro x x0 x1
    have hbig : x ≤ 2 ^ 1000 := by
      refine le_trans (b := 2 ^ 53) ?_ (pow_two_le (by norm_num))
      have : (2 : ℚ) ^ 53 = 2 ^ 52 + 2 ^ 52 := by norm_num
      have : (1 : ℚ) ≤ 2 ^ 52 := by norm_num
      linarith
    obtain ⟨r, r1, r2, -, r4⟩ := rnd_small x0 hbig
    clear hbig
    refine ⟨r, by rw [rndS_nonneg x0, r1], r2, ?_, rep_nonneg r2⟩
    have := r4 ((2 ^ 52 + 1 : ℕ) : ℚ) (rep_nat (by norm_num)) (by push_cast; linarith)
    push_cast at this
    have : (2 : ℚ) ^ 53 = 2 ^ 52 + 2 ^ 52 := by norm_num
    have : (1 : ℚ) < 2 ^ 52 := by norm_num
    linarith
  have toNat : ∀ r : ℚ, 0 ≤ r → r < 2 ^ 53 → ∃ m : Nat, (m : ℚ) ≤ r ∧ r < m + 1 ∧ m < 2 ^ 53 := by
    intro r r0 r1
    refine ⟨⌊r⌋₊, Nat.floor_le r0, Nat.lt_floor_add_one r, ?_⟩
    rw [Nat.floor_lt r0]
    push_cast
    exact r1
  obtain ⟨s, s1, s2, s3, s4⟩ := key (q + h) (by linarith) (by linarith)
  obtain ⟨ms, ms1, ms2, ms3⟩ := toNat s s4 s3
  obtain ⟨mq, mq1, mq2, mq3⟩ := toNat q hq0 (by
    have : (2 : ℚ) ^ 53 = 2 ^ 52 + 2 ^ 52 := by norm_num
    have : (1 : ℚ) < 2 ^ 52 := by norm_num
    linarith)
  obtain ⟨v, hv1, hv2, hv3, hv4⟩ : ∃ v : ℚ, (if BitVec.ofNat 64 ms > BitVec.ofNat 64 mq then (F.fin q).addS (.fin 1) else .fin q) = .fin v ∧
      Representable v ∧ v < 2 ^ 53 ∧ ⌊v⌋₊ ≤ q + 2 := by
    split
    · have hb : q + 1 ≤ 2 ^ 1000 := by
        refine le_trans (b := 2 ^ 53) ?_ (pow_two_le (by norm_num))
        have : (2 : ℚ) ^ 53 = 2 ^ 52 + 2 ^ 52 := by norm_num
        have : (1 : ℚ) ≤ 2 ^ 52 := by norm_num
        linarith
      obtain ⟨r, r1, r2, r3, -⟩ := key (q + 1) (by linarith) (by linarith)
      obtain ⟨r', r1', -, -, r4⟩ := rnd_small (show 0 ≤ q + 1 by linarith) hb
      clear hb
      rw [rndS_nonneg (by linarith), r1'] at r1
      obtain rfl : r' = r := by injection r1
      refine ⟨r', by rw [F.addS, rndS_nonneg (by linarith), r1'], r2, r3, ?_⟩
      have h52 : mq + 1 ≤ 2 ^ 52 := by
        have : (mq : ℚ) < ((2 ^ 52 : ℕ) : ℚ) := by push_cast; linarith
        exact_mod_cast this
      have h6 := r4 ((mq + 2 : ℕ) : ℚ) (rep_nat (by omega)) (by push_cast; linarith)
      have h7 := Nat.floor_le (rep_nonneg r2)
      push_cast at h6
      linarith
    · refine ⟨q, rfl, hq, ?_, ?_⟩
      · have : (2 : ℚ) ^ 53 = 2 ^ 52 + 2 ^ 52 := by norm_num
        have : (1 : ℚ) < 2 ^ 52 := by norm_num
        linarith
      · have := Nat.floor_le hq0
        linarith
  obtain ⟨mv, mv1, mv2, mv3⟩ := toNat v (rep_nonneg hv2) hv3
  obtain ⟨hten, d, d1, d2, -, -⟩ := fraction_digits (f := v - mv) (by linarith) (by linarith) hp
  refine ⟨mv, d, ?_, d2, fun buf dest maxlen hroom t ht => ?_⟩
  · have : ⌊v⌋₊ = mv := by
      rw [Nat.floor_eq_iff (rep_nonneg hv2)]
      exact ⟨mv1, mv2⟩
    rw [← this]
    exact hv4
  rw [printFinite]
  simp only [precision_eq]
  rw [hh1, ok_bind, F.addS, s1, toU64_eq ms1 ms2 (by omega), ok_bind, toU64_eq mq1 mq2 (by omega), ok_bind, hv1]
  exact printDigits_eq hroom ht hv2 hv3 mv1 mv2 hp trailingOf_eq d1 hten d2

end Tm.Dbl
