import Verif.Dbl.PrintNumber
import Verif.Dbl.Props

/-!
# Printing floating point numbers: the properties

C171 – C175.
-/

namespace Tm.Dbl
open Tm.Conv Tm.Num

/-! ## C171: whole numbers -/

theorem clear_whole {n p : Nat} (hp : 1 ≤ p) : (n : ℚ) + 103 / 100 / 10 ^ p ≤ n + 1 := by
  have : (10 : ℚ) ^ 1 ≤ 10 ^ p := pow_le_pow_right₀ (by norm_num) hp
  have h2 : (103 / 100 / 10 ^ p : ℚ) ≤ 1 := by
    rw [div_le_one (by positivity)]
    linarith
  linarith

theorem half_exact : pow10S (.fin (1 / 2)) (-((0 : ℕ) : ℤ)) = .ok (.fin (1 / 2)) := by decide +kernel

/-- Half of an odd number. -/
theorem rep_half {m : Nat} (h : m < 2 ^ 53) : Representable ((m : ℚ) / 2) :=
  ⟨m, -1, h, by omega, by rw [zpow_neg_one]; ring⟩

/-- Missing: odd numbers from 2^52 on without decimals (see `C171_not_odd`), and numbers from 2^53 on (see `C171_not_great`). A whole
number is printed as its digits, with a sign if it is negative, and with as many zeroes behind the dot as asked for. -/
theorem C171_whole_partial (n : Nat) (hn : n < 2 ^ 53) {flags : BitVec 32} {precision : Int} (h : decimals flags precision ≠ 0 ∨ n < 2 ^ 52)
    (negative : Bool) (buf : List Byte) (dest maxlen : Nat) (hroom : dest + maxlen ≤ buf.length) :
    Printed buf dest maxlen ((if hasMinus flags negative n then [0x2D] else []) ++ text 10 false n ++ zeroFraction flags precision)
      (printDouble buf dest maxlen (negative, .fin n) flags precision) := by
  have hq : Representable (n : ℚ) := rep_nat hn.le
  have hlt : (n : ℚ) < 2 ^ 53 := by exact_mod_cast hn
  have hroll : ∃ h, pow10S (.fin (1 / 2)) (-(decimals flags precision : ℤ)) = .ok (.fin h) ∧
      toU64 ((F.fin (n : ℚ)).addS (.fin h)) = .ok (BitVec.ofNat 64 n) := by
    by_cases h0 : decimals flags precision = 0
    · have hn' := h.resolve_left (by simpa using h0)
      rw [h0]
      refine ⟨_, half_exact, ?_⟩
      have e : (n : ℚ) + 1 / 2 = ((2 * n + 1 : ℕ) : ℚ) / 2 := by push_cast; ring
      rw [F.addS, rndS_nonneg (by positivity), e, rnd_rep (rep_half (by omega)), ← e]
      · exact toU64_eq (by linarith) (by linarith) (by omega)
      · refine le_trans ?_ (pow_two_le (k := 53) (by norm_num))
        rw [← e]
        have : (n : ℚ) + 1 ≤ 2 ^ 53 := by exact_mod_cast hn
        linarith
    · obtain ⟨h, hh1, hh2, hh3⟩ := half_unit (decimals_le (flags := flags) (precision := precision))
      exact ⟨h, hh1, no_rollover hq hlt le_rfl decimals_le hh2 hh3 (.inl (clear_whole (by omega)))⟩
  obtain ⟨d, -, -, d3, d4⟩ := printFinite_eq hq hlt le_rfl (by linarith) hroll
  have := printDouble_fin (negative := negative) hroom (d4 buf dest maxlen hroom)
  rw [d3 rfl, fractionOf_zero] at this
  exact this

/-- 2^52 + 1 without decimals: 2^52 + 2 is printed. -/
theorem C171_not_odd : printDouble (List.replicate 20 95) 0 20 (false, .fin 4503599627370497) 0 0 =
    .ok (⟨16, .ok⟩, bytes "4503599627370498____") := by decide +kernel

/-- 2^63: another number is printed, which is 32 too small. -/
theorem C171_not_great : printDouble (List.replicate 20 95) 0 20 (false, .fin 9223372036854775808) 0 (-1) =
    .ok (⟨19, .ok⟩, bytes "9223372036854775776_") := by decide +kernel

example : Printed (List.replicate 20 95) 2 18 ((if hasMinus 0 true (9007199254740991 : ℕ) then [0x2D] else []) ++ text 10 false 9007199254740991 ++ zeroFraction 0 (-1))
    (printDouble (List.replicate 20 95) 2 18 (true, .fin (9007199254740991 : ℕ)) 0 (-1)) :=
  C171_whole_partial 9007199254740991 (by norm_num) (flags := 0) (precision := -1) (.inl (by decide)) true (List.replicate 20 95) 2 18
    (by decide)

example : printDouble (List.replicate 20 95) 2 18 (true, .fin 42) 0 3 = .ok (⟨7, .ok⟩, bytes "__-42.000___________") ∧
    zeroFraction 0 3 = bytes ".000" ∧ zeroFraction 0x10 (-1) = bytes ".0" ∧ zeroFraction 0 (-1) = [] := by decide +kernel

/-! ## C172: accuracy -/

/-- Missing: numbers from 2^53 on, and numbers that are just below a whole number (see the `C172_not_` theorems). With at least one decimal, a
number is printed as decimal number that differs from it by at most 0.52 units of the last decimal; its whole part is that of the number. -/
theorem C172_accuracy_partial {q : ℚ} (hq : Representable q) (hlt : q < 2 ^ 53) {flags : BitVec 32} {precision : Int}
    (hp : decimals flags precision ≠ 0) (hc : Clear (decimals flags precision) q) (negative : Bool) :
    ∃ n : Number, n.Ok ∧ n.negative = hasMinus flags negative q ∧ Canonical 10 ⌊q⌋₊ n.whole ∧ FractionShape flags precision n.fraction ∧
      n.exponent = none ∧ |n.value - q| ≤ 52 / 100 / 10 ^ decimals flags precision ∧
      ∀ (buf : List Byte) (dest maxlen : Nat), dest + maxlen ≤ buf.length →
        Printed buf dest maxlen n.text (printDouble buf dest maxlen (negative, .fin q) flags precision) := by
  have hq0 := rep_nonneg hq
  have h1 : ((⌊q⌋₊ : ℕ) : ℚ) ≤ q := Nat.floor_le hq0
  have h2 : q < (⌊q⌋₊ : ℕ) + 1 := Nat.lt_floor_add_one q
  have hfl : ((⌊q⌋ : ℤ) : ℚ) = ((⌊q⌋₊ : ℕ) : ℚ) := by
    rw [← Int.natCast_floor_eq_floor hq0]
    simp
  rw [Clear, hfl] at hc
  generalize ⌊q⌋₊ = m at *
  obtain ⟨h, hh1, hh2, hh3⟩ := half_unit (decimals_le (flags := flags) (precision := precision))
  have hroll := no_rollover hq hlt h1 decimals_le hh2 hh3 (hc.imp (fun h => by linarith) (fun h => ⟨h.1, by linarith [h.2]⟩))
  have hpos : (0 : ℚ) < 10 ^ decimals flags precision := by positivity
  have hgap : (q - m) * 10 ^ decimals flags precision ≤ 10 ^ decimals flags precision - 52 / 100 := by
    have : 52 / 100 / 10 ^ decimals flags precision ≤ m + 1 - q := by
      rcases hc with h | h
      · refine le_trans ?_ h
        exact div_le_div_of_nonneg_right (by norm_num) hpos.le
      · exact h.2
    rw [div_le_iff₀ hpos] at this
    linarith
  obtain ⟨d, -, d2, -, d4⟩ := printFinite_eq hq hlt h1 h2 ⟨h, hh1, hroll⟩
  rw [abs_le] at d2
  have hdlt : d < 10 ^ decimals flags precision := by
    have : (d : ℚ) < ((10 ^ decimals flags precision : ℕ) : ℚ) := by push_cast; linarith
    exact_mod_cast this
  obtain ⟨fr, f1, f2, f3, -, f5⟩ := fractionOf_shape hdlt hp
  refine ⟨⟨hasMinus flags negative q, numeral 10 m, fr, none⟩, number_ok f2, rfl, numeral_canonical 10 m (by decide), f3, rfl, ?_,
    fun buf dest maxlen hroom => ?_⟩
  · rw [number_value, f5, abs_le]
    have e : (d : ℚ) / 10 ^ decimals flags precision * 10 ^ decimals flags precision = d := by field_simp
    have e2 : (52 / 100 : ℚ) / 10 ^ decimals flags precision * 10 ^ decimals flags precision = 52 / 100 := by field_simp
    constructor
    · refine le_of_mul_le_mul_right (a := (10 : ℚ) ^ decimals flags precision) ?_ hpos
      rw [sub_mul, add_mul, e, neg_mul, e2]
      linarith
    · refine le_of_mul_le_mul_right (a := (10 : ℚ) ^ decimals flags precision) ?_ hpos
      rw [sub_mul, add_mul, e, e2]
      linarith
  · rw [number_text, ← f1]
    exact printDouble_fin hroom (d4 buf dest maxlen hroom)

/-- Rounding to whole numbers. -/
theorem round_half {q : ℚ} {n : Nat} (hq : Representable q) (hlt : q < 2 ^ 50) (h1 : (n : ℚ) ≤ q) (h3 : q ≤ n + 3 / 4) :
    ∃ (m : Nat) (v : ℚ), (m = n ∨ m = n + 1) ∧ |(m : ℚ) - q| ≤ 52 / 100 ∧ ((n : ℚ) + 1 / 2 ≤ q → m = n + 1) ∧
      Representable v ∧ (m : ℚ) ≤ v ∧ v < m + 1 ∧ v < 2 ^ 53 ∧
      ∃ r : Nat, toU64 ((F.fin q).addS (.fin (1 / 2))) = .ok (BitVec.ofNat 64 r) ∧
        (if BitVec.ofNat 64 r > BitVec.ofNat 64 n then (F.fin q).addS (.fin 1) else .fin q) = .fin v := by
  have hq0 := rep_nonneg hq
  have hn : n < 2 ^ 50 := by
    have : (n : ℚ) < ((2 ^ 50 : ℕ) : ℚ) := by push_cast; linarith
    exact_mod_cast this
  have h50 : (2 : ℚ) ^ 50 + 2 ≤ 2 ^ 51 := by norm_num
  have h51 : (2 : ℚ) ^ 51 + 2 ≤ 2 ^ 53 := by norm_num
  have hbig : ∀ x : ℚ, x ≤ 2 ^ 51 → x ≤ 2 ^ 1000 := fun x hx => le_trans hx (pow_two_le (by norm_num))
  have quarter : ∀ m : Nat, m < 2 ^ 53 → Representable ((m : ℚ) / 4) := fun m hm =>
    ⟨m, -2, hm, by omega, by norm_num; ring⟩
  obtain ⟨s, s1, s2, s3, s4⟩ := rnd_small (show 0 ≤ q + 1 / 2 by linarith) (hbig _ (by linarith))
  obtain ⟨v, v1, v2, v3, v4⟩ := rnd_small (show 0 ≤ q + 1 by linarith) (hbig _ (by linarith))
  clear hbig
  have hs4 := s4 _ (quarter (4 * n + 5) (by omega)) (by push_cast; linarith)
  have hv4 := v4 _ (quarter (4 * n + 7) (by omega)) (by push_cast; linarith)
  have hv3 := v3 _ (rep_nat (n := n + 1) (by omega)) (by push_cast; linarith)
  have hs3 := s3 q hq (by linarith)
  push_cast at hs4 hv4 hv3
  by_cases hc : s < n + 1
  · have hlow : q ≤ n + 1 / 2 := by
      by_contra hx
      have := s3 _ (rep_nat (n := n + 1) (by omega)) (by push_cast; linarith)
      push_cast at this
      linarith
    have hne : q ≠ n + 1 / 2 := by
      intro hx
      have := s3 _ (rep_nat (n := n + 1) (by omega)) (by push_cast; linarith)
      push_cast at this
      linarith
    refine ⟨n, q, .inl rfl, by rw [abs_le]; constructor <;> linarith, fun hx => absurd (le_antisymm hlow hx) hne, hq, h1, by linarith, by linarith,
      n, ?_, ?_⟩
    · rw [F.addS, rndS_nonneg (by linarith), s1]
      exact toU64_eq (by linarith) hc (by omega)
    · rw [if_neg (by simp)]
  · have hx : n + 48 / 100 ≤ q := by
      by_contra hx
      rcases lt_or_ge q 1 with hq1 | hq1
      · have := rnd_abs (k := 1) (by norm_num) (by linarith) (show q + 1 / 2 < 2 ^ (1 : ℤ) by norm_num; linarith) s1
        have e : (2 : ℚ) ^ ((1 : ℤ) - 54) ≤ 1 / 100 := by norm_num
        have := (abs_le.mp (le_trans this e)).1
        linarith
      · obtain ⟨e1, e2⟩ := expo_spec (show 0 < q by linarith)
        generalize expo q = e at e1 e2
        have he0 : 0 ≤ e := by
          by_contra he
          have : (2 : ℚ) ^ (e + 1) ≤ 2 ^ (0 : ℤ) := zpow_le_zpow_right₀ (by norm_num) (by omega)
          rw [zpow_zero] at this
          linarith
        have he50 : e < 50 := by
          by_contra he
          have : (2 : ℚ) ^ (50 : ℤ) ≤ 2 ^ e := zpow_le_zpow_right₀ (by norm_num) (by omega)
          have e3 : (2 : ℚ) ^ (50 : ℤ) = 2 ^ 50 := by norm_num
          rw [e3] at this
          linarith
        obtain ⟨k, hk⟩ := rep_multiple hq e1
        obtain ⟨i, rfl⟩ := Int.eq_ofNat_of_zero_le he0
        obtain ⟨j, hj⟩ : ∃ j : ℕ, i + j = 51 := ⟨51 - i, by omega⟩
        have e4 : (2 : ℚ) ^ ((i : ℤ) - 52) * 2 ^ j = 1 / 2 := by
          rw [← zpow_natCast, ← zpow_add₀ (by norm_num), show (i : ℤ) - 52 + (j : ℤ) = -1 by omega]
          norm_num
        have hsum : q + 1 / 2 = ((k + 2 ^ j : ℕ) : ℚ) * 2 ^ ((i : ℤ) - 52) := by
          push_cast
          rw [add_mul, ← hk, mul_comm ((2 : ℚ) ^ j), e4]
        have hn2 : (n : ℚ) + 1 ≤ 2 ^ (i + 1) := by
          have a : (n : ℚ) < ((2 ^ (i + 1) : ℕ) : ℚ) := by
            push_cast
            rw [← zpow_natCast]
            push_cast
            linarith
          have b : n + 1 ≤ 2 ^ (i + 1) := by exact_mod_cast a
          exact_mod_cast b
        have hkk : k + 2 ^ j < 2 ^ 53 := by
          have a : ((k + 2 ^ j : ℕ) : ℚ) * 2 ^ ((i : ℤ) - 52) < 2 ^ 53 * 2 ^ ((i : ℤ) - 52) := by
            rw [← hsum]
            have : (2 : ℚ) ^ 53 * 2 ^ ((i : ℤ) - 52) = 2 ^ (i + 1) := by
              rw [← zpow_natCast, ← zpow_natCast, ← zpow_add₀ (by norm_num)]
              congr 1
              push_cast
              ring
            rw [this]
            linarith
          have := lt_of_mul_lt_mul_right a (by positivity)
          exact_mod_cast this
        have hrep : Representable (q + 1 / 2) := ⟨_, _, hkk, by omega, hsum⟩
        have := s4 _ hrep le_rfl
        linarith
    refine ⟨n + 1, v, .inr rfl, by push_cast; rw [abs_le]; constructor <;> linarith, fun _ => rfl, v2, by push_cast; linarith,
      by push_cast; linarith, by linarith, n + 1, ?_, ?_⟩
    · rw [F.addS, rndS_nonneg (by linarith), s1]
      exact toU64_eq (by push_cast; linarith) (by push_cast; linarith) (by omega)
    · rw [if_pos, F.addS, rndS_nonneg (by linarith), v1]
      rw [gt_iff_lt, BitVec.lt_def, BitVec.toNat_ofNat, BitVec.toNat_ofNat, Nat.mod_eq_of_lt (by omega), Nat.mod_eq_of_lt (by omega)]
      omega

/-- Missing: numbers from 2^50 on, and numbers that are more than 3/4 above the next whole number (see the `C172_not_` theorems). Without
decimals, the number is printed as the next whole number below or above, which differs by at most 0.52; a half is rounded up. -/
theorem C172_rounded_partial {q : ℚ} (hq : Representable q) (hlt : q < 2 ^ 50) {flags : BitVec 32} {precision : Int}
    (hp : decimals flags precision = 0) (hc : q ≤ ⌊q⌋₊ + 3 / 4) (negative : Bool) :
    ∃ m : Nat, (m = ⌊q⌋₊ ∨ m = ⌊q⌋₊ + 1) ∧ |(m : ℚ) - q| ≤ 52 / 100 ∧ ((⌊q⌋₊ : ℚ) + 1 / 2 ≤ q → m = ⌊q⌋₊ + 1) ∧
      ∀ (buf : List Byte) (dest maxlen : Nat), dest + maxlen ≤ buf.length →
        Printed buf dest maxlen ((if hasMinus flags negative q then [0x2D] else []) ++ text 10 false m)
          (printDouble buf dest maxlen (negative, .fin q) flags precision) := by
  have hq0 := rep_nonneg hq
  have h1 : ((⌊q⌋₊ : ℕ) : ℚ) ≤ q := Nat.floor_le hq0
  have h2 : q < (⌊q⌋₊ : ℕ) + 1 := Nat.lt_floor_add_one q
  generalize ⌊q⌋₊ = n at *
  have hn : n < 2 ^ 50 := by
    have : (n : ℚ) < ((2 ^ 50 : ℕ) : ℚ) := by push_cast; linarith
    exact_mod_cast this
  obtain ⟨m, v, m1, m2, m3, v1, v2, v3, v4, r, r1, r2⟩ := round_half hq hlt h1 hc
  refine ⟨m, m1, m2, m3, fun buf dest maxlen hroom => ?_⟩
  obtain ⟨hten, d, d1, d2, -, -⟩ := fraction_digits (f := v - m) (by linarith) (by linarith) (show 0 ≤ 14 by omega)
  have := printDouble_fin (q := q) (negative := negative) (flags := flags) (precision := precision) (n := m) (s := []) hroom (fun t ht => by
    rw [printFinite]
    simp only [precision_eq]
    rw [hp, half_exact, ok_bind, r1, ok_bind, toU64_eq h1 h2 (by omega), ok_bind, r2]
    exact printDigits_eq hroom ht v1 v4 v2 v3 (by omega) (trailingOf_eq (flags := flags) (precision := precision)) d1 hten d2)
  rw [List.append_nil] at this
  exact this

/-- The double next to 0.9999 with two decimals is printed as 1.100. -/
theorem C172_not_carry : printDouble (List.replicate 8 95) 0 8 (false, rnd (9999 / 10000)) 0 2 = .ok (⟨5, .ok⟩, bytes "1.100___") := by
  decide +kernel

/-- A number just below 2 is printed as a number just below 3. -/
theorem C172_not_just_below : printDouble (List.replicate 20 95) 0 20 (false, .fin (2 - 23 / 4503599627370496)) 0 (-1) =
    .ok (⟨16, .ok⟩, bytes "2.99999999999999____") := by decide +kernel

/-- The greatest double below 1 is printed as 2 if there are no decimals. -/
theorem C172_not_below_one : printDouble (List.replicate 4 95) 0 4 (false, .fin (1 - 1 / 9007199254740992)) 0 0 = .ok (⟨1, .ok⟩, bytes "2___") := by
  decide +kernel

/-- 3.25 is a double that has decimals and is far from the next whole number. -/
theorem sample_clear : Representable (13 / 4) ∧ Clear (decimals 0 1) (13 / 4) ∧ Clear (decimals 0 (-1)) (13 / 4) := by
  have hf : ⌊(13 / 4 : ℚ)⌋ = 3 := by norm_num
  refine ⟨⟨13, -2, by norm_num, by norm_num, by norm_num⟩, .inl ?_, .inl ?_⟩
  · rw [hf, show decimals 0 1 = 1 by decide]; norm_num
  · rw [hf, show decimals 0 (-1) = 14 by decide]; norm_num

example : ∃ n : Number, n.Ok ∧ n.negative = hasMinus 0 true (13 / 4) ∧ Canonical 10 ⌊(13 / 4 : ℚ)⌋₊ n.whole ∧ FractionShape 0 1 n.fraction ∧
      n.exponent = none ∧ |n.value - 13 / 4| ≤ 52 / 100 / 10 ^ decimals 0 1 ∧
      ∀ (buf : List Byte) (dest maxlen : Nat), dest + maxlen ≤ buf.length →
        Printed buf dest maxlen n.text (printDouble buf dest maxlen (true, .fin (13 / 4)) 0 1) :=
  C172_accuracy_partial sample_clear.1 (by norm_num) (by decide) sample_clear.2.1 true

example : printDouble (List.replicate 8 95) 0 8 (true, .fin (13 / 4)) 0 1 = .ok (⟨4, .ok⟩, bytes "-3.3____") ∧
    printDouble (List.replicate 8 95) 0 8 (true, .fin (13 / 4)) 0 (-1) = .ok (⟨5, .ok⟩, bytes "-3.25___") ∧
    printDouble (List.replicate 8 95) 0 8 (true, .fin (13 / 4)) 0 3 = .ok (⟨6, .ok⟩, bytes "-3.250__") := by decide +kernel

/-- 9.5 is rounded to 10. -/
example : ∃ m : Nat, m = 10 ∧ ∀ (buf : List Byte) (dest maxlen : Nat), dest + maxlen ≤ buf.length →
    Printed buf dest maxlen (text 10 false m) (printDouble buf dest maxlen (false, .fin (19 / 2)) 0 0) := by
  have hf : ⌊(19 / 2 : ℚ)⌋₊ = 9 := by norm_num [Nat.floor_eq_iff]
  obtain ⟨m, -, -, h, hp⟩ := C172_rounded_partial (q := 19 / 2) ⟨19, -1, by norm_num, by norm_num, by norm_num⟩ (by norm_num) (flags := 0)
    (precision := 0) (by decide) (by rw [hf]; norm_num) false
  rw [hf] at h
  exact ⟨m, h (by norm_num), hp⟩

/-! ## C173: room -/

/-- Missing: numbers from 2^52 on (see `C173_not_great`). Whatever the options and the room are, printing gives a decimal number of at most 33
chars that does not depend on the room: if there is room for it, this is what is written, and if not, an error is returned. Chars outside
of the room are never touched. -/
theorem C173_room_partial {q : ℚ} (hq : Representable q) (hlt : q < 2 ^ 52) (flags : BitVec 32) (precision : Int) (negative : Bool) :
    ∃ n : Number, n.Ok ∧ n.negative = hasMinus flags negative q ∧ n.exponent = none ∧ n.text.length ≤ 33 ∧
      ∀ (buf : List Byte) (dest maxlen : Nat), dest + maxlen ≤ buf.length →
        Printed buf dest maxlen n.text (printDouble buf dest maxlen (negative, .fin q) flags precision) := by
  obtain ⟨m, d, h1, h2, h3⟩ := printFinite_any (flags := flags) (precision := precision) hq hlt
  obtain ⟨fr, f1, f2, f3⟩ := fractionOf_any (trailing := trailingOf flags precision) (keepShort := short flags precision) decimals_le h2
  refine ⟨⟨hasMinus flags negative q, numeral 10 m, fr, none⟩, number_ok f2, rfl, rfl, ?_, fun buf dest maxlen hroom => ?_⟩
  · have hm : m < 10 ^ 16 := by
      have : (m : ℚ) < ((2 ^ 52 + 2 : ℕ) : ℚ) := by push_cast; linarith
      have : m < 2 ^ 52 + 2 := by exact_mod_cast this
      omega
    have := (numeral_length_le_iff 10 m 16 (by decide) (by decide)).mpr hm
    rw [number_text, List.length_append, List.length_append, Num.text_length]
    have h4 : (fractionText fr).length ≤ 16 := by
      cases fr with
      | none => simp [fractionText]
      | some ds => simp [fractionText, digitsText] at f3 ⊢; omega
    have h5 : (if hasMinus flags negative q = true then [(0x2D : Byte)] else []).length ≤ 1 := by split <;> simp
    omega
  · rw [number_text, ← f1]
    exact printDouble_fin hroom (h3 buf dest maxlen hroom)

/-- Every finite number from 2^64 on: the behaviour of printing it is undefined. -/
theorem C173_not_great {q : ℚ} (hq : Representable q) (h : 2 ^ 64 ≤ q) (flags : BitVec 32) (precision : Int) (buf : List Byte)
    (dest maxlen : Nat) (hm : 0 < maxlen) :
    printDouble buf dest maxlen (false, .fin q) flags precision = .error .overflow := by
  have hq0 : (0 : ℚ) ≤ q := rep_nonneg hq
  obtain ⟨hh, hh1, hh2, -⟩ := half_unit (decimals_le (flags := flags) (precision := precision))
  have hh0 : 0 < hh := lt_of_lt_of_le (by positivity) hh2
  have h64 : (0 : ℚ) < 2 ^ 64 := by norm_num
  have hover : toU64 ((F.fin q).addS (.fin hh)) = .error .overflow := by
    rw [F.addS, rndS_nonneg (by linarith)]
    cases hr : rnd (q + hh) with
    | nan => rfl
    | inf => rfl
    | fin r =>
      obtain ⟨hrep, hne, -⟩ := rnd_nearest (show 0 < q + hh by linarith) hr
      have hqr : q ≤ r := by
        have := hne q hq
        rw [show q + hh - q = hh by ring, abs_of_pos hh0, abs_le] at this
        linarith
      rw [toU64, if_neg (by intro hc; linarith [hc.2])]
  rw [printDouble, if_neg (by omega)]
  simp only [Bool.and_false, Bool.false_and, Bool.or_false, Bool.false_eq_true, if_false]
  rw [pure_eq_ok, ok_bind, if_neg (by simp), printUnsigned, printFinite]
  simp only [precision_eq]
  rw [hh1, ok_bind, hover]
  rfl

example : printDouble (List.replicate 8 95) 2 3 (false, .fin (13 / 4)) 0 3 = .ok (⟨3, .eoverflow⟩, bytes "__3.____") ∧
    printDouble (List.replicate 8 95) 2 5 (false, .fin (13 / 4)) 0 3 = .ok (⟨5, .ok⟩, bytes "__3.250_") := by decide +kernel

/-! ## C174: numbers that are not finite -/

/-- "INF" or, in lowercase, "inf", with a sign if it is negative. -/
theorem C174_infinity (negative : Bool) (flags : BitVec 32) (precision : Int) (buf : List Byte) (dest maxlen : Nat)
    (hroom : dest + maxlen ≤ buf.length) :
    Printed buf dest maxlen ((if negative then bytes "-" else []) ++ (if flags.getLsbD 6 then bytes "inf" else bytes "INF"))
      (printDouble buf dest maxlen (negative, .inf) flags precision) := by
  have hw : (if flags.getLsbD 6 then bytes "inf" else bytes "INF") ≠ [] := by split <;> decide
  have := printDouble_sign (value := (negative, .inf)) (flags := flags) (precision := precision) hroom hw (fun t ht => by
    rw [printUnsigned]
    exact printWord_eq hroom ht hw)
  rw [signOf] at this
  generalize flags.getLsbD 7 = b at this ⊢
  cases negative <;> cases b <;> simp at this ⊢ <;> exact this

/-- "NAN" or, in lowercase, "nan", with a sign if it has one and the caller asks for it. -/
theorem C174_nan (negative : Bool) (flags : BitVec 32) (precision : Int) (buf : List Byte) (dest maxlen : Nat)
    (hroom : dest + maxlen ≤ buf.length) :
    Printed buf dest maxlen ((if negative && flags.getLsbD 7 then bytes "-" else []) ++ (if flags.getLsbD 6 then bytes "nan" else bytes "NAN"))
      (printDouble buf dest maxlen (negative, .nan) flags precision) := by
  have hw : (if flags.getLsbD 6 then bytes "nan" else bytes "NAN") ≠ [] := by split <;> decide
  have := printDouble_sign (value := (negative, .nan)) (flags := flags) (precision := precision) hroom hw (fun t ht => by
    rw [printUnsigned]
    exact printWord_eq hroom ht hw)
  rw [signOf] at this
  generalize flags.getLsbD 7 = b at this ⊢
  cases negative <;> cases b <;> simp at this ⊢ <;> exact this

example : printDouble (List.replicate 4 95) 0 4 (true, .inf) 0 0 = .ok (⟨4, .ok⟩, bytes "-INF") ∧
    printDouble (List.replicate 4 95) 0 4 (true, .nan) 0x40 0 = .ok (⟨3, .ok⟩, bytes "nan_") := by decide +kernel

/-! ## C175: reading what was printed -/

/-- No digit is a zero char. -/
theorem digit_ne_zero {d : Nat} (h : d < 10) : digitChar false d ≠ 0 := by
  revert d
  decide

theorem number_nonzero {negative : Bool} {whole : List Nat} {fr : Option (List Nat)} (h : (Number.mk negative whole fr none).Ok) :
    (0 : Byte) ∉ (Number.mk negative whole fr none).text := by
  have hdig : ∀ ds : List Nat, (∀ d ∈ ds, d < 10) → (0 : Byte) ∉ digitsText ds := by
    intro ds hds hx
    obtain ⟨d, hd1, hd2⟩ := List.mem_map.mp hx
    exact digit_ne_zero (hds d hd1) hd2
  have hall := h.digits
  simp only [Number.digits, Number.fractionDigits] at hall
  simp only [Number.text, exponentText, List.append_nil, List.mem_append, not_or]
  refine ⟨⟨by cases negative <;> simp, hdig _ fun d hd => hall d (List.mem_append_left _ hd)⟩, ?_⟩
  cases fr with
  | none => simp [fractionText]
  | some ds =>
    simp only [fractionText, List.mem_cons, not_or]
    exact ⟨by decide, hdig _ fun d hd => hall d (List.mem_append_right _ hd)⟩

/-- Missing: whole numbers from 2^53 on (see `C171_not_great`). A whole number that is printed as short as possible is read as the same number:
the whole text is read, and the number that comes out is the one that was printed. (The sign of a zero is kept only if the caller asks for
it.) -/
theorem C175_whole_partial (n : Nat) (hn : n < 2 ^ 53) {flags : BitVec 32} {precision : Int} (hs : short flags precision = true)
    (ht : flags.getLsbD 4 = false) (negative : Bool) (buf : List Byte) (dest maxlen : Nat) (hroom : dest + maxlen ≤ buf.length) :
    ∃ t : List Byte, Printed buf dest maxlen t (printDouble buf dest maxlen (negative, .fin n) flags precision) ∧
      ∀ (rest : List Byte) (o : Double), scanDouble (some (t ++ 0 :: rest)) (some o) =
        .ok (⟨t.length, .ok⟩, some (hasMinus flags negative n, .fin n)) := by
  have h14 : decimals flags precision = 14 := by rw [decimals, if_pos hs]
  have h := C171_whole_partial n hn (flags := flags) (precision := precision) (.inl (by omega)) negative buf dest maxlen hroom
  have hz : zeroFraction flags precision = [] := by rw [zeroFraction, if_pos hs, ht]; rfl
  rw [hz] at h
  have e := number_text (negative := hasMinus flags negative n) (n := n) (fr := none)
  rw [fractionText] at e
  rw [← e] at h
  have hok := number_ok (negative := hasMinus flags negative n) (n := n) (fr := none) (by simp)
  refine ⟨_, h, fun rest o => ?_⟩
  have hv : numVal 10 (numeral 10 n) = n := numVal_numeral 10 n (by decide)
  have := C168_integers (number_nonzero hok) (longest_self hok) rfl rfl (by show numVal 10 (numeral 10 n) ≤ _; omega) rest o
  rw [this]
  simp only [hv]

/-- Missing: as for C172. A number that is printed with decimals is read as a number that differs by at most 0.52 units of the last decimal and 10^-14
of the printed number. -/
theorem C175_value_partial {q : ℚ} (hq : Representable q) (hlt : q < 2 ^ 53) {flags : BitVec 32} {precision : Int}
    (hp : decimals flags precision ≠ 0) (hc : Clear (decimals flags precision) q)
    (negative : Bool) (buf : List Byte) (dest maxlen : Nat) (hroom : dest + maxlen ≤ buf.length) :
    ∃ t : List Byte, Printed buf dest maxlen t (printDouble buf dest maxlen (negative, .fin q) flags precision) ∧
      ∀ (rest : List Byte) (o : Double), ∃ r, scanDouble (some (t ++ 0 :: rest)) (some o) =
        .ok (⟨t.length, .ok⟩, some (hasMinus flags negative q, .fin r)) ∧
        |r - q| ≤ 52 / 100 / 10 ^ decimals flags precision + (q + 52 / 100 / 10 ^ decimals flags precision) / 10 ^ 14 := by
  obtain ⟨n, n1, n2, n3, n4, n5, n6, n7⟩ := C172_accuracy_partial hq hlt hp hc negative
  have hq0 := rep_nonneg hq
  refine ⟨_, n7 buf dest maxlen hroom, fun rest o => ?_⟩
  have hfl : n.fractionDigits.length ≤ decimals flags precision := by
    rw [Number.fractionDigits]
    rw [FractionShape] at n4
    by_cases hk : short flags precision = true
    · rw [if_pos hk] at n4
      have h14 : decimals flags precision = 14 := by rw [decimals, if_pos hk]
      rcases n4 with h | ⟨ds, h, -, h2, -⟩
      · rw [h]; split <;> simp; omega
      · rw [h]; simp; omega
    · rw [if_neg hk, if_neg hp] at n4
      obtain ⟨ds, h, h2⟩ := n4
      rw [h]; simp; omega
  have hwhole : numVal 10 n.whole < 10 ^ 18 := by
    rw [canonical_unique (by decide) n3, numVal_numeral 10 _ (by decide), Nat.floor_lt hq0]
    refine lt_trans hlt ?_
    norm_num
  have h14 := decimals_le (flags := flags) (precision := precision)
  obtain ⟨negv, whole, fr, ex⟩ := n
  simp only at n5
  subst n5
  obtain ⟨r, r1, r2⟩ := C167_value_partial (number_nonzero n1) (longest_self n1) (.inr ⟨rfl, hwhole, by omega⟩) (by simp [Number.exponentSize])
    (.inl (by simp [Number.exponentValue])) rest o
  simp only at n2
  subst n2
  refine ⟨r, r1, ?_⟩
  generalize (Number.mk (hasMinus flags negative q) whole fr none).value = v at *
  have hvq : v ≤ q + 52 / 100 / 10 ^ decimals flags precision := by linarith [(abs_le.mp n6).2]
  have h3 := div_le_div_of_nonneg_right hvq (show (0 : ℚ) ≤ 10 ^ 14 by positivity)
  have e : r - q = (r - v) + (v - q) := by ring
  rw [e]
  refine le_trans (abs_add_le _ _) ?_
  linarith

example : ∃ t : List Byte, Printed (List.replicate 9 95) 0 9 t (printDouble (List.replicate 9 95) 0 9 (true, .fin (123456 : ℕ)) 0 (-1)) ∧
    ∀ (rest : List Byte) (o : Double), scanDouble (some (t ++ 0 :: rest)) (some o) = .ok (⟨t.length, .ok⟩, some (true, .fin (123456 : ℕ))) :=
  C175_whole_partial 123456 (by norm_num) (by decide) (by decide) true (List.replicate 9 95) 0 9 (by decide)

example : ∃ t : List Byte, Printed (List.replicate 9 95) 0 9 t (printDouble (List.replicate 9 95) 0 9 (true, .fin (13 / 4)) 0 (-1)) ∧
    ∀ (rest : List Byte) (o : Double), ∃ r, scanDouble (some (t ++ 0 :: rest)) (some o) = .ok (⟨t.length, .ok⟩, some (hasMinus 0 true (13 / 4), .fin r)) ∧
      |r - 13 / 4| ≤ 52 / 100 / 10 ^ decimals 0 (-1) + (13 / 4 + 52 / 100 / 10 ^ decimals 0 (-1)) / 10 ^ 14 :=
  C175_value_partial sample_clear.1 (by norm_num) (by decide) sample_clear.2.2 true
    (List.replicate 9 95) 0 9 (by decide)

end Tm.Dbl
