import Verif.Dbl.FloatModel
import Verif.Dbl.PrintProps

/-!
# Reading and printing `float`
-/

namespace Tm.Dbl
open Tm.Num Tm.Conv

/-! ## Specification -/

/-- A number that a `float` can have. -/
def Single (q : ℚ) : Prop := (∃ (m : ℕ) (k : ℤ), m < 2 ^ 24 ∧ -149 ≤ k ∧ q = m * 2 ^ k) ∧ q < 2 ^ 128

/-- A number that is the nearest one that a `float` can have, and in case of two the one with an even last digit. -/
def NearestSingle (q r : ℚ) : Prop :=
  Single r ∧ (∀ r', Single r' → |q - r| ≤ |q - r'|) ∧
  ∀ r', Single r' → r' ≠ r → |q - r'| = |q - r| → ∃ (m : ℕ) (k : ℤ), m % 2 = 0 ∧ m < 2 ^ 24 ∧ -149 ≤ k ∧ r = m * 2 ^ k ∧ (2 ^ 23 ≤ m ∨ k = -149)

/-! ## Rounding -/

theorem single_double {q : ℚ} (h : Single q) : Representable q := by
  obtain ⟨⟨m, k, hm, hk, rfl⟩, _⟩ := h
  exact ⟨m, k, lt_trans hm (by norm_num), by omega, rfl⟩

/-- Before the comparison with the greatest number. -/
def round32 (q : ℚ) : ℚ := (halfEven (q / 2 ^ place32 q) : ℚ) * 2 ^ place32 q

theorem rnd32_pos {q : ℚ} (h : 0 < q) : rnd32 q = if round32 q < 2 ^ 128 then .fin (round32 q) else .inf := by
  rw [rnd32, if_neg (not_le.mpr h)]; rfl

theorem scaled32_lt {q : ℚ} (h : 0 < q) : q / 2 ^ place32 q < 2 ^ 24 := by
  rw [div_lt_iff₀ (two_pos _)]
  calc q < 2 ^ (expo q + 1) := (expo_spec h).2
    _ ≤ 2 ^ (24 + place32 q) := by
      apply zpow_le_zpow_right₀ (by norm_num)
      have : expo q - 23 ≤ place32 q := le_max_left _ _
      omega
    _ = 2 ^ 24 * 2 ^ place32 q := by rw [zpow_add₀ (by norm_num)]; norm_num

theorem round32_representable {q : ℚ} (h : 0 < q) : ∃ (m : ℕ) (k : ℤ), m < 2 ^ 24 ∧ -149 ≤ k ∧ round32 q = m * 2 ^ k := by
  have hs := scaled32_lt h
  have h0 : 0 ≤ halfEven (q / 2 ^ place32 q) := halfEven_nonneg (div_nonneg h.le (two_pos _).le)
  have hle : halfEven (q / 2 ^ place32 q) ≤ 2 ^ 24 := by
    have h1 := (abs_le.mp (halfEven_near (q / 2 ^ place32 q))).1
    have : (halfEven (q / 2 ^ place32 q) : ℚ) < ((2 ^ 24 + 1 : ℤ) : ℚ) := by push_cast; linarith
    have : halfEven (q / 2 ^ place32 q) < 2 ^ 24 + 1 := by exact_mod_cast this
    omega
  unfold round32
  have hp : -149 ≤ place32 q := le_max_right _ _
  generalize place32 q = e at *
  generalize halfEven (q / 2 ^ e) = n at *
  rcases lt_or_eq_of_le hle with h1 | h1
  · refine ⟨n.toNat, e, by omega, hp, ?_⟩
    congr 1
    exact_mod_cast (Int.toNat_of_nonneg h0).symm
  · refine ⟨2 ^ 23, e + 1, by norm_num, by omega, ?_⟩
    rw [h1, zpow_add₀ (by norm_num)]
    push_cast
    ring

theorem round32_nearest {q : ℚ} (h : 0 < q) : (∀ r', Single r' → |q - round32 q| ≤ |q - r'|) ∧
    ∀ r', Single r' → r' ≠ round32 q → |q - r'| = |q - round32 q| → ∃ (m : ℕ) (k : ℤ), m % 2 = 0 ∧ m < 2 ^ 24 ∧ -149 ≤ k ∧ round32 q = m * 2 ^ k ∧
      (2 ^ 23 ≤ m ∨ k = -149) := by
  obtain ⟨e1, e2⟩ := expo_spec h
  have hscale : ∀ n : ℤ, |q - n * 2 ^ place32 q| = |q / 2 ^ place32 q - n| * 2 ^ place32 q := by
    intro n
    rw [show q - n * 2 ^ place32 q = (q / 2 ^ place32 q - n) * 2 ^ place32 q by rw [sub_mul, div_mul_cancel₀ _ (two_pos _).ne'],
      abs_mul, abs_of_pos (two_pos _)]
  have hmult : ∀ n : ℤ, |q - round32 q| ≤ |q - n * 2 ^ place32 q| := by
    intro n
    unfold round32
    rw [hscale, hscale]
    exact mul_le_mul_of_nonneg_right (halfEven_best _ n).1 (two_pos _).le
  have hcase : ∀ r', Single r' → (∃ n : ℤ, r' = n * 2 ^ place32 q) ∨ |q - round32 q| < |q - r'| := by
    rintro r' ⟨⟨m, k, hm, hk, rfl⟩, _⟩
    rcases le_or_gt (place32 q) k with hc | hc
    · obtain ⟨n, hn⟩ := zpow_split hc
      left
      refine ⟨m * (2 ^ n : ℕ), ?_⟩
      rw [hn]
      push_cast
      ring
    · right
      have hp : place32 q = expo q - 23 := by
        unfold place32 at *
        omega
      have hlt : (m : ℚ) * 2 ^ k < 2 ^ expo q := by
        calc (m : ℚ) * 2 ^ k < 2 ^ (24 : ℤ) * 2 ^ k := by
              apply mul_lt_mul_of_pos_right _ (two_pos _)
              have : (m : ℚ) < ((2 ^ 24 : ℕ) : ℚ) := by exact_mod_cast hm
              refine lt_of_lt_of_eq this (by norm_num)
          _ = 2 ^ (24 + k) := by rw [zpow_add₀ (by norm_num)]
          _ ≤ 2 ^ expo q := zpow_le_zpow_right₀ (by norm_num) (by omega)
      have h1 := hmult (2 ^ 23)
      have h2 : (((2 ^ 23 : ℤ) : ℤ) : ℚ) * 2 ^ place32 q = 2 ^ expo q := by
        rw [hp, show expo q - 23 = expo q + (-23) by ring, zpow_add₀ (by norm_num)]
        norm_num
        ring
      rw [h2] at h1
      refine lt_of_le_of_lt h1 ?_
      rw [abs_of_nonneg (by linarith), abs_of_nonneg (by linarith)]
      linarith
  refine ⟨fun r' hr' => ?_, fun r' hr' hne he => ?_⟩
  · rcases hcase r' hr' with ⟨n, rfl⟩ | hl
    · exact hmult n
    · exact hl.le
  · rcases hcase r' hr' with ⟨n, rfl⟩ | hl
    · have hev : halfEven (q / 2 ^ place32 q) % 2 = 0 := by
        refine (halfEven_best (q / 2 ^ place32 q) n).2 (fun hc => hne (by rw [hc]; rfl)) ?_
        unfold round32 at he
        rw [hscale, hscale] at he
        exact mul_right_cancel₀ (two_pos _).ne' he
      have h0 : 0 ≤ halfEven (q / 2 ^ place32 q) := halfEven_nonneg (div_nonneg h.le (two_pos _).le)
      have hs : q / 2 ^ place32 q < 2 ^ 24 := scaled32_lt h
      have hle : halfEven (q / 2 ^ place32 q) ≤ 2 ^ 24 := by
        have h1 := (abs_le.mp (halfEven_near (q / 2 ^ place32 q))).1
        have : (halfEven (q / 2 ^ place32 q) : ℚ) < ((2 ^ 24 + 1 : ℤ) : ℚ) := by push_cast; linarith
        have : halfEven (q / 2 ^ place32 q) < 2 ^ 24 + 1 := by exact_mod_cast this
        omega
      have hpl : -149 ≤ place32 q := le_max_right _ _
      rcases lt_or_eq_of_le hle with hlt | heq
      on_goal 2 =>
        refine ⟨2 ^ 23, place32 q + 1, by norm_num, by norm_num, by omega, ?_, Or.inl (le_refl _)⟩
        unfold round32
        rw [heq, zpow_add₀ (by norm_num)]
        push_cast
        ring
      refine ⟨(halfEven (q / 2 ^ place32 q)).toNat, place32 q, by omega, by omega, hpl, ?_, ?_⟩
      · unfold round32
        congr 1
        exact_mod_cast (Int.toNat_of_nonneg h0).symm
      · rcases Int.lt_or_le (expo q - 23) (-149) with hc | hc
        · right; unfold place32; omega
        · left
          have hp : place32 q = expo q - 23 := by unfold place32; omega
          have h2 : (2 : ℚ) ^ 23 ≤ q / 2 ^ place32 q := by
            rw [le_div_iff₀ (two_pos _), hp, show expo q - 23 = expo q + (-23) by ring, zpow_add₀ (by norm_num)]
            norm_num
            linarith
          have h3 := (abs_le.mp (halfEven_near (q / 2 ^ place32 q))).2
          have h4 : ((2 ^ 23 - 1 : ℤ) : ℚ) < halfEven (q / 2 ^ place32 q) := by push_cast; linarith
          have h5 : (2 ^ 23 - 1 : ℤ) < halfEven (q / 2 ^ place32 q) := by exact_mod_cast h4
          omega
    · rw [he] at hl
      exact absurd hl (lt_irrefl _)

/-- A finite result of the conversion is the nearest number. -/
theorem rnd32_nearest {q r : ℚ} (h : 0 < q) (hr : rnd32 q = .fin r) : NearestSingle q r := by
  rw [rnd32_pos h] at hr
  split at hr
  · rename_i hlt
    cases hr
    exact ⟨⟨round32_representable h, hlt⟩, round32_nearest h⟩
  · cases hr

theorem halfEven_close {x : ℚ} {n : ℤ} (h : |x - n| < 1 / 2) : halfEven x = n := by
  have h1 := abs_le.mp (halfEven_near x)
  have h2 := abs_lt.mp h
  have h3 : ((halfEven x - n : ℤ) : ℚ) < 1 := by push_cast; linarith
  have h4 : (-1 : ℚ) < ((halfEven x - n : ℤ) : ℚ) := by push_cast; linarith
  have h3 : halfEven x - n < 1 := by exact_mod_cast h3
  have h4 : -1 < halfEven x - n := by exact_mod_cast h4
  omega

/-- A number that is near a `float` is rounded to it. -/
theorem rnd32_close {f r : ℚ} (h0 : 0 < f) (hf : Single f) (h : |r - f| ≤ f * 2 ^ (-26 : ℤ)) : rnd32 r = .fin f := by
  obtain ⟨⟨m, k, hm, hk, hfe⟩, hlt⟩ := hf
  obtain ⟨e1, e2⟩ := expo_spec h0
  have h26 : (2 : ℚ) ^ (-26 : ℤ) = 1 / 67108864 := by norm_num
  have hab := abs_le.mp h
  rw [h26] at h hab
  have hr0 : 0 < r := by linarith
  obtain ⟨r1, r2⟩ := expo_spec hr0
  have hek : expo f < 24 + k := by
    by_contra hc
    have h1 : (2 : ℚ) ^ (24 + k) ≤ 2 ^ expo f := zpow_le_zpow_right₀ (by norm_num) (by omega)
    have h2 : (m : ℚ) * 2 ^ k < 2 ^ (24 + k) := by
      rw [zpow_add₀ (by norm_num)]
      apply mul_lt_mul_of_pos_right _ (two_pos _)
      have : (m : ℚ) < ((2 ^ 24 : ℕ) : ℚ) := by exact_mod_cast hm
      refine lt_of_lt_of_eq this (by norm_num)
    linarith
  -- the number is below the next power of two
  have hup : f ≤ 2 ^ (expo f + 1) - 2 ^ (expo f + 1) * (1 / 16777216) := by
    by_cases hc : expo f - 23 ≤ k
    · obtain ⟨n, hn⟩ := zpow_split hc
      have e3 : (2 : ℚ) ^ (expo f + 1) = 16777216 * 2 ^ (expo f - 23) := by
        rw [show expo f + 1 = 24 + (expo f - 23) by ring, zpow_add₀ (by norm_num)]; norm_num
      have e4 : f = ((m * 2 ^ n : ℕ) : ℚ) * 2 ^ (expo f - 23) := by
        conv_lhs => rw [hfe, hn]
        push_cast
        ring
      have hp := two_pos (expo f - 23)
      have h5 : ((m * 2 ^ n : ℕ) : ℚ) < 16777216 := by
        have : ((m * 2 ^ n : ℕ) : ℚ) * 2 ^ (expo f - 23) < 16777216 * 2 ^ (expo f - 23) := by rw [← e4, ← e3]; exact e2
        exact lt_of_mul_lt_mul_right this hp.le
      have h6 : m * 2 ^ n < 16777216 := by exact_mod_cast h5
      have h7 : ((m * 2 ^ n : ℕ) : ℚ) ≤ 16777215 := by exact_mod_cast (show m * 2 ^ n ≤ 16777215 by omega)
      have h8 := mul_le_mul_of_nonneg_right h7 hp.le
      rw [← e4] at h8
      rw [e3]
      linarith
    · exact absurd hek (by omega)
  have her : expo r ≤ expo f := by
    by_contra hc
    have h1 : (2 : ℚ) ^ (expo f + 1) ≤ 2 ^ expo r := zpow_le_zpow_right₀ (by norm_num) (by omega)
    have h2 := two_pos (expo f + 1)
    linarith [hab.2]
  have her' : expo f - 1 ≤ expo r := by
    by_contra hc
    have h1 : (2 : ℚ) ^ (expo r + 1) ≤ 2 ^ (expo f - 1) := zpow_le_zpow_right₀ (by norm_num) (by omega)
    have h2 : (2 : ℚ) ^ expo f = 2 * 2 ^ (expo f - 1) := by rw [show expo f = 1 + (expo f - 1) by ring, zpow_add₀ (by norm_num)]; norm_num
    have h3 := two_pos (expo f - 1)
    linarith [hab.1]
  have hpk : place32 r ≤ k := by unfold place32; omega
  have hpe : expo f - 24 ≤ place32 r := by unfold place32; omega
  obtain ⟨n, hn⟩ := zpow_split hpk
  have hp := two_pos (place32 r)
  have e4 : f = ((m * 2 ^ n : ℤ) : ℚ) * 2 ^ place32 r := by
    conv_lhs => rw [hfe, hn]
    push_cast
    ring
  have hclose : |r / 2 ^ place32 r - ((m * 2 ^ n : ℤ) : ℚ)| < 1 / 2 := by
    have e5 : r / 2 ^ place32 r - ((m * 2 ^ n : ℤ) : ℚ) = (r - f) / 2 ^ place32 r := by
      rw [sub_div]
      congr 1
      rw [eq_div_iff hp.ne']
      exact e4.symm
    rw [e5, abs_div, abs_of_pos hp, div_lt_iff₀ hp]
    have h1 : (2 : ℚ) ^ (expo f + 1) = 33554432 * 2 ^ (expo f - 24) := by
      rw [show expo f + 1 = 25 + (expo f - 24) by ring, zpow_add₀ (by norm_num)]; norm_num
    have h2 : (2 : ℚ) ^ (expo f - 24) ≤ 2 ^ place32 r := zpow_le_zpow_right₀ (by norm_num) hpe
    linarith
  have hr : round32 r = f := by
    unfold round32
    rw [halfEven_close hclose]
    exact e4.symm
  rw [rnd32_pos hr0, hr, if_pos hlt]

theorem rnd32_exact {f : ℚ} (h0 : 0 ≤ f) (hf : Single f) : rnd32 f = .fin f := by
  rcases eq_or_lt_of_le h0 with rfl | h
  · rw [rnd32, if_pos (le_refl _)]
  · refine rnd32_close h hf ?_
    rw [sub_self, abs_zero]
    have := two_pos (-26)
    positivity

/-! ## C260: reading what was printed -/

theorem scanFloat_ok {val : Double} {str : Option (List Byte)} {n : Nat} {sg : Bool} {f : F} (h : scanDouble str (some val) = .ok (⟨n, .ok⟩, some (sg, f)))
    (hn : n ≠ 0) (o : Float) : scanFloat val str (some o) = .ok (⟨n, .ok⟩, some (sg, narrow f)) := by
  rw [scanFloat, h]
  show Except.ok (scanFloatEnd (⟨n, .ok⟩, some (sg, f)) (some o)) = _
  unfold scanFloatEnd
  dsimp only
  rw [if_pos ⟨hn, rfl⟩]

theorem text_pos {n : Number} (h : n.Ok) : n.text.length ≠ 0 := by
  rw [text_length, frontSize, mantText_length]
  have := List.length_pos_of_ne_nil h.nonempty
  rw [Number.digits, Number.fractionDigits, List.length_append] at this
  cases hf : n.fraction with
  | none =>
    rw [hf] at this
    simp only [Option.getD_none, List.length_nil] at this
    dsimp only
    omega
  | some D => simp

/-- A number that is not whole is not near the next one. -/
theorem single_gap {q : ℚ} (h : Single q) : 1 / 16777216 ≤ ⌊q⌋ + 1 - q := by
  obtain ⟨⟨m, k, hm, hk, rfl⟩, _⟩ := h
  have hfl := Int.lt_floor_add_one ((m : ℚ) * 2 ^ k)
  have hm' : (m : ℚ) ≤ 16777215 := by exact_mod_cast (show m ≤ 16777215 by omega)
  by_cases hk0 : k ≤ -24
  · have h1 : (2 : ℚ) ^ k ≤ 2 ^ (-24 : ℤ) := zpow_le_zpow_right₀ (by norm_num) hk0
    have h2 : (2 : ℚ) ^ (-24 : ℤ) = 1 / 16777216 := by norm_num
    have h3 : (m : ℚ) * 2 ^ k ≤ 16777215 * (1 / 16777216) := by
      rw [← h2]
      exact mul_le_mul hm' h1 (two_pos k).le (by norm_num)
    have h4 : (0 : ℤ) ≤ ⌊(m : ℚ) * 2 ^ k⌋ := Int.floor_nonneg.mpr (by positivity)
    have h5 : (0 : ℚ) ≤ ⌊(m : ℚ) * 2 ^ k⌋ := by exact_mod_cast h4
    linarith
  · have hc : (-24 : ℤ) ≤ k := by omega
    obtain ⟨n, hn⟩ := zpow_split hc
    have h2 : (2 : ℚ) ^ (-24 : ℤ) = 1 / 16777216 := by norm_num
    rw [h2] at hn
    rw [hn] at hfl ⊢
    generalize ⌊(m : ℚ) * ((2 ^ n : ℕ) * (1 / 16777216))⌋ = w at *
    have h3 : ((m * 2 ^ n : ℕ) : ℚ) < ((16777216 * (w + 1) : ℤ) : ℚ) := by push_cast at hfl ⊢; linarith
    have h4 : ((m * 2 ^ n : ℕ) : ℤ) < 16777216 * (w + 1) := by exact_mod_cast h3
    have h5 : (((m * 2 ^ n : ℕ) : ℤ) : ℚ) + 1 ≤ ((16777216 * (w + 1) : ℤ) : ℚ) := by exact_mod_cast h4
    push_cast at h5 ⊢
    linarith

theorem numVal_zeroes (n : Nat) : numVal 10 (List.replicate n 0) = 0 := by
  induction n with
  | zero => rfl
  | succ n ih => rw [List.replicate_succ', Num.numVal_append, ih]; rfl

/-- The fraction of a whole number as digits. -/
theorem zeroFraction_digits (flags : BitVec 32) (precision : Int) : ∃ fr : Option (List Nat), zeroFraction flags precision = fractionText fr ∧
    (∀ x ∈ fr.getD [], x = 0) ∧ (fr.getD []).length ≤ 14 := by
  unfold zeroFraction
  have h14 := decimals_le (flags := flags) (precision := precision)
  split
  · split
    · exact ⟨some [0], by decide, by simp, by simp⟩
    · exact ⟨none, rfl, by simp, by simp⟩
  · split
    · exact ⟨none, rfl, by simp, by simp⟩
    · refine ⟨some (List.replicate (decimals flags precision) 0), ?_, ?_, by simpa using h14⟩
      · rw [fractionText, digitsText, List.map_replicate]
        rfl
      · intro x hx
        exact (List.mem_replicate.mp hx).2

/-- Missing: numbers below 2^-21 other than zero, and numbers from 2^53 on (see the `C260_not_` theorems). A `float` that is printed with 14 decimals, or with as
many as are needed, is read as the same `float`: the whole text is read, and the number that comes out is the one that was printed. (The sign of a zero is
kept only if the caller asks for it.) -/
theorem C260_same_partial {q : ℚ} (hq : Single q) (hr : q = 0 ∨ ((2 : ℚ) ^ (-21 : ℤ) ≤ q ∧ q < 2 ^ 53)) {flags : BitVec 32} {precision : Int}
    (hp : decimals flags precision = 14) (negative : Bool) (buf : List Byte) (dest maxlen : Nat) (hroom : dest + maxlen ≤ buf.length) :
    ∃ t : List Byte, Printed buf dest maxlen t (printFloat buf dest maxlen (negative, .fin q) flags precision) ∧
      ∀ (rest : List Byte) (val : Double) (o : Float), scanFloat val (some (t ++ 0 :: rest)) (some o) =
        .ok (⟨t.length, .ok⟩, some (hasMinus flags negative q, .fin q)) := by
  rcases hr with rfl | ⟨h1, h2⟩
  · have h := C171_whole_partial 0 (by norm_num) (flags := flags) (precision := precision) (.inl (by omega)) negative buf dest maxlen hroom
    obtain ⟨fr, f1, f2, f3⟩ := zeroFraction_digits flags precision
    rw [f1] at h
    have e := number_text (negative := hasMinus flags negative (0 : ℕ)) (n := 0) (fr := fr)
    rw [← e] at h
    have hok := number_ok (negative := hasMinus flags negative (0 : ℕ)) (n := 0) (fr := fr) (by intro x hx; rw [f2 x hx]; norm_num)
    rw [Nat.cast_zero] at h hok
    refine ⟨_, h, fun rest val o => ?_⟩
    have hfr : fr.getD [] = List.replicate (fr.getD []).length 0 := List.eq_replicate_of_mem f2
    have hv : (Number.mk (hasMinus flags negative 0) (numeral 10 0) fr none).value = 0 := by
      rw [Number.value, Number.fractionDigits, hfr, numVal_zeroes]
      have : numVal 10 (numeral 10 0) = 0 := numVal_numeral 10 0 (by decide)
      simp [this]
    obtain ⟨r, r1, r2⟩ := C167_value_partial (number_nonzero hok) (longest_self hok)
      (.inr ⟨rfl, by show numVal 10 (numeral 10 0) < _; rw [numVal_numeral 10 0 (by decide)]; norm_num, by rw [Number.fractionDigits]; exact le_trans f3 (by norm_num)⟩)
      (by simp [Number.exponentSize]) (.inl (by simp [Number.exponentValue])) rest val
    rw [hv] at r2
    have hr0 : r = 0 := by simpa using r2
    subst hr0
    rw [scanFloat_ok r1 (text_pos hok), narrow, rnd32, if_pos (le_refl _)]
  · have h0 : 0 < q := lt_of_lt_of_le (two_pos _) h1
    have hgap := single_gap hq
    obtain ⟨t, t1, t2⟩ := C175_value_partial (single_double hq) h2 (flags := flags) (precision := precision) (by omega)
      (.inl (by rw [hp]; refine le_trans ?_ hgap; norm_num)) negative buf dest maxlen hroom
    refine ⟨t, t1, fun rest val o => ?_⟩
    obtain ⟨r, r1, r2⟩ := t2 rest val
    rw [hp] at r2
    have hclose : |r - q| ≤ q * 2 ^ (-26 : ℤ) := by
      refine le_trans r2 ?_
      rw [show (2 : ℚ) ^ (-26 : ℤ) = 1 / 67108864 by norm_num]
      rw [show (2 : ℚ) ^ (-21 : ℤ) = 1 / 2097152 by norm_num] at h1
      norm_num
      linarith
    have ht : t.length ≠ 0 := by
      intro hc
      rw [List.length_eq_zero_iff.mp hc] at r1
      have := congrArg (fun x : C (ConvResult × Option Double) => match x with | .ok y => y.1.ec | .error _ => .einval) r1
      exact absurd this (show (Errc.einval : Errc) ≠ .ok by decide)
    rw [scanFloat_ok r1 ht, narrow, rnd32_close h0 hq hclose]

/-- 1/1073741824 and a bit more: the decimals that are printed are too few, and another number is read. -/
theorem C260_not_small : Single (8388609 / 9007199254740992) ∧ decimals 0 14 = 14 ∧
    printFloat (List.replicate 17 95) 0 16 (false, .fin (8388609 / 9007199254740992)) 0 14 = .ok (⟨16, .ok⟩, bytes "0.00000000093132_") ∧
    scanFloat (false, .nan) (some (bytes "0.00000000093132" ++ [0])) (some (false, .nan)) = .ok (⟨16, .ok⟩, some (false, .fin (8388585 / 9007199254740992))) := by
  refine ⟨⟨⟨8388609, -53, by norm_num, by norm_num, by norm_num⟩, by norm_num⟩, by decide, by decide +kernel, by decide +kernel⟩

/-- 2^60: the text has 19 digits in front of the dot, of which 18 are read. -/
theorem C260_not_great : Single 1152921504606846976 ∧ decimals 0 14 = 14 ∧
    printFloat (List.replicate 35 95) 0 34 (false, .fin 1152921504606846976) 0 14 = .ok (⟨34, .ok⟩, bytes "1152921504606846976.00000000000000_") ∧
    scanFloat (false, .nan) (some (bytes "1152921504606846976.00000000000000" ++ [0])) (some (false, .nan)) =
      .ok (⟨34, .ok⟩, some (false, .fin 115292152178671616)) := by
  refine ⟨⟨⟨1, 60, by norm_num, by norm_num, by norm_num⟩, by norm_num⟩, by decide, by decide +kernel, by decide +kernel⟩

/-- Every finite number from 2^64 on: the behaviour of printing it is undefined. -/
theorem C260_not_printed {q : ℚ} (hq : Single q) (h : 2 ^ 64 ≤ q) (flags : BitVec 32) (precision : Int) (buf : List Byte) (dest maxlen : Nat)
    (hm : 0 < maxlen) : printFloat buf dest maxlen (false, .fin q) flags precision = .error .overflow :=
  C173_not_great (single_double hq) h flags precision buf dest maxlen hm

/-- The `float` next to 0.1. -/
theorem tenth_single : Single (13421773 / 134217728) := ⟨⟨13421773, -27, by norm_num, by norm_num, by norm_num⟩, by norm_num⟩

example : ∃ t : List Byte, Printed (List.replicate 40 95) 0 40 t (printFloat (List.replicate 40 95) 0 40 (true, .fin (13421773 / 134217728)) 0 14) ∧
    ∀ (rest : List Byte) (val : Double) (o : Float), scanFloat val (some (t ++ 0 :: rest)) (some o) =
      .ok (⟨t.length, .ok⟩, some (hasMinus 0 true (13421773 / 134217728), .fin (13421773 / 134217728))) :=
  C260_same_partial tenth_single (.inr ⟨by norm_num, by norm_num⟩) (by decide) true _ 0 40 (by decide)

example : rnd32 (1 / 10) = .fin (13421773 / 134217728) ∧
    printFloat (List.replicate 18 95) 0 17 (true, rnd32 (1 / 10)) 0 14 = .ok (⟨17, .ok⟩, bytes "-0.10000000149012_") ∧
    scanFloat (false, .nan) (some (bytes "-0.10000000149012" ++ [0])) (some (false, .nan)) = .ok (⟨17, .ok⟩, some (true, rnd32 (1 / 10))) ∧
    printFloat (List.replicate 18 95) 0 17 (true, .fin 0) 0x80 14 = .ok (⟨17, .ok⟩, bytes "-0.00000000000000_") := by decide +kernel

/-! ## C261: the number that is read -/

theorem round32_near (q : ℚ) : |q - round32 q| ≤ 2 ^ place32 q / 2 := by
  have h := halfEven_near (q / 2 ^ place32 q)
  have e : q - round32 q = (q / 2 ^ place32 q - halfEven (q / 2 ^ place32 q)) * 2 ^ place32 q := by
    unfold round32
    rw [sub_mul, div_mul_cancel₀ _ (two_pos _).ne']
  rw [e, abs_mul, abs_of_pos (two_pos _)]
  have := mul_le_mul_of_nonneg_right h (two_pos (place32 q)).le
  linarith

/-- The conversion changes a number by at most half a unit of the last of 24 binary digits. -/
theorem rnd32_error {d : ℚ} (h0 : 0 ≤ d) (h : d < 2 ^ (127 : ℤ) * (3 / 2)) :
    ∃ r, rnd32 d = .fin r ∧ Single r ∧ |d - r| ≤ d * 2 ^ (-24 : ℤ) + 2 ^ (-150 : ℤ) := by
  have hp150 := two_pos (-150)
  rcases eq_or_lt_of_le h0 with rfl | h0
  · refine ⟨0, by rw [rnd32, if_pos (le_refl _)], ⟨⟨0, 0, by norm_num, by norm_num, by norm_num⟩, by norm_num⟩, ?_⟩
    rw [sub_zero, abs_zero, zero_mul, zero_add]
    exact hp150.le
  · obtain ⟨e1, e2⟩ := expo_spec h0
    have hn := round32_near d
    have hb : |d - round32 d| ≤ d * 2 ^ (-24 : ℤ) + 2 ^ (-150 : ℤ) := by
      refine le_trans hn ?_
      rcases le_total (expo d - 23) (-149) with hc | hc
      · have : place32 d = -150 + 1 := by unfold place32; omega
        rw [this, zpow_add₀ (by norm_num), zpow_one]
        have := mul_pos h0 (two_pos (-24))
        linarith
      · have : place32 d = expo d + (-24) + 1 := by unfold place32; omega
        rw [this, zpow_add₀ (by norm_num), zpow_add₀ (by norm_num), zpow_one]
        have := mul_le_mul_of_nonneg_right e1 (two_pos (-24)).le
        linarith
    have hlt : round32 d < 2 ^ 128 := by
      have h1 := (abs_le.mp hb).1
      have h2 : (2 : ℚ) ^ (-24 : ℤ) ≤ 1 / 8 := by norm_num
      have h3 := mul_le_mul_of_nonneg_left h2 h0.le
      have h4 : (2 : ℚ) ^ 128 = 2 ^ (127 : ℤ) * 2 := by norm_num
      have h5 : (2 : ℚ) ^ (-150 : ℤ) ≤ 1 / 8 := by norm_num
      have h6 : (1 : ℚ) ≤ 2 ^ (127 : ℤ) := by norm_num
      rw [h4]
      generalize (2 : ℚ) ^ (127 : ℤ) = M at *
      generalize d * (2 : ℚ) ^ (-24 : ℤ) = x at *
      generalize (2 : ℚ) ^ (-150 : ℤ) = y at *
      linarith
    exact ⟨round32 d, by rw [rnd32_pos h0, if_pos hlt], ⟨round32_representable h0, hlt⟩, hb⟩

/-- Missing: as for C167, and numbers above 2^127 (see `C261_not_range`). The number that is written is one that a `float` can have, and it differs from the one that the text stands for by
at most half a unit of the last of 24 binary digits and 2 * 10^-14 of it. -/
theorem C261_value_partial {s : List Byte} (hz : (0 : Byte) ∉ s) {n : Number} (h : Longest s n)
    (hd : n.digits.length ≤ 18 ∨ (n.exponent = none ∧ numVal 10 n.whole < 10 ^ 18 ∧ n.fractionDigits.length ≤ 18))
    (he : n.exponentSize ≤ 285) (hp : n.exponentValue ≤ 0 ∨ n.fractionDigits = [] ∨ ∃ d ∈ n.whole, d ≠ 0) (hv : n.value ≤ 2 ^ (127 : ℤ))
    (t : List Byte) (val : Double) (o : Float) :
    ∃ r, scanFloat val (some (s ++ 0 :: t)) (some o) = .ok (⟨n.text.length, .ok⟩, some (n.negative, .fin r)) ∧ Single r ∧
      |r - n.value| ≤ n.value * (2 ^ (-24 : ℤ) + 2 / 10 ^ 14) + 2 ^ (-150 : ℤ) := by
  obtain ⟨d, d1, d2⟩ := C167_value_partial hz h hd he hp t val
  have hv0 : 0 ≤ n.value := by unfold Number.value; positivity
  have hab := abs_le.mp d2
  have h14 : n.value / 10 ^ 14 ≤ n.value / 4 := div_le_div_of_nonneg_left hv0 (by norm_num) (by norm_num)
  obtain ⟨r, r1, r2, r3⟩ := rnd32_error (d := d) (by linarith) (by
    have : (0 : ℚ) < 2 ^ (127 : ℤ) := two_pos _
    generalize (2 : ℚ) ^ (127 : ℤ) = M at *
    linarith)
  refine ⟨r, ?_, r2, ?_⟩
  · rw [scanFloat_ok d1 (text_pos h.1), narrow, r1]
  · have e : r - n.value = (d - n.value) - (d - r) := by ring
    rw [e]
    refine le_trans (abs_sub _ _) ?_
    have h24 : (2 : ℚ) ^ (-24 : ℤ) = 1 / 16777216 := by norm_num
    rw [h24] at r3 ⊢
    have h5 : d ≤ n.value + n.value / 10 ^ 14 := by linarith
    have h6 : n.value / 10 ^ 14 * (1 / 16777216) ≤ n.value / 10 ^ 14 := by
      have : 0 ≤ n.value / 10 ^ 14 := by positivity
      linarith
    have h7 : d * (1 / 16777216) ≤ (n.value + n.value / 10 ^ 14) * (1 / 16777216) := mul_le_mul_of_nonneg_right h5 (by norm_num)
    have h8 : n.value * (1 / 16777216 + 2 / 10 ^ 14) = n.value * (1 / 16777216) + 2 * (n.value / 10 ^ 14) := by ring
    rw [h8]
    linarith

/-- "1e39" is no number that a `float` can have, and too great for one, but infinity is written and no error is returned. -/
theorem C261_not_range : (Number.mk false [1] none (some (0x65, none, [3, 9]))).text = bytes "1e39" ∧
    (Number.mk false [1] none (some (0x65, none, [3, 9]))).value = 10 ^ 39 ∧ ¬ (10 : ℚ) ^ 39 < 2 ^ 128 ∧
    scanFloat (false, .nan) (some (bytes "1e39" ++ [0])) (some (false, .nan)) = .ok (⟨4, .ok⟩, some (false, .inf)) := by
  refine ⟨by decide, ?_, by norm_num, by decide +kernel⟩
  norm_num [Number.value, Number.fractionDigits, Number.exponentValue, numVal]
  decide

example : ∃ r, scanFloat (false, .nan) (some (bytes "-12.5e+3" ++ [0])) (some (false, .nan)) = .ok (⟨8, .ok⟩, some (true, .fin r)) ∧ Single r ∧
    |r - sample.value| ≤ sample.value * (2 ^ (-24 : ℤ) + 2 / 10 ^ 14) + 2 ^ (-150 : ℤ) :=
  C261_value_partial (s := sample.text) (by decide) (longest_self sample_ok) (.inl (by decide)) (by decide) (Or.inr (Or.inr ⟨1, by decide, by decide⟩))
    (by norm_num [sample, Number.value, Number.fractionDigits, Number.exponentValue, numVal]; rw [if_neg (by decide)]; norm_num) [] _ _

example : scanFloat (false, .nan) (some (bytes "-12.5e+3" ++ [0])) (some (false, .nan)) = .ok (⟨8, .ok⟩, some (true, .fin 12500)) := by decide +kernel

/-! ## C262: results and memory -/

theorem exponentResult_stop {k n : Nat} {neg : Bool} {r : ConvResult × Option (BitVec 32)} {ec : Errc} (h : exponentResult k neg r = .stop n ec) : ec ≠ .ok := by
  unfold exponentResult at h
  split at h
  · rename_i hc
    cases h
    exact hc
  · split at h
    · cases h
      decide
    · cases h

theorem exponentZ_stop {mem : List Byte} {n : Nat} {ec : Errc} (h : exponentZ mem = .ok (.stop n ec)) : ec ≠ .ok := by
  unfold exponentZ at h
  cases h0 : rd mem 0 with
  | error f => rw [h0] at h; cases h
  | ok c =>
    rw [h0, ok_bind] at h
    split at h
    · cases h1 : rd mem 1 with
      | error f => rw [h1] at h; cases h
      | ok s =>
        rw [h1, ok_bind] at h
        dsimp only at h
        generalize (if s = 45 ∨ s = 43 then 2 else 1) = k at h
        cases h2 : rd mem k with
        | error f => rw [h2] at h; cases h
        | ok d =>
          rw [h2, ok_bind] at h
          split at h
          · cases h3 : scanI 32 .strict (some (mem.drop k)) (some 0) 10 with
            | error f => rw [h3] at h; cases h
            | ok r =>
              rw [h3, ok_bind] at h
              injection h with h
              exact exponentResult_stop h
          · cases h
    · cases h

/-- Two runs that differ in a variable that the caller does not look at. -/
def Alike (a b : C (ConvResult × Option Double)) : Prop :=
  a = b ∨ ∃ r v v', a = .ok (r, some v) ∧ b = .ok (r, some v') ∧ r.ec ≠ .ok

theorem scanDouble_alike (str : Option (List Byte)) (v v' : Double) : Alike (scanDouble str (some v)) (scanDouble str (some v')) := by
  cases str with
  | none => exact .inr ⟨_, v, v', rfl, rfl, by decide⟩
  | some mem =>
    unfold scanDouble
    dsimp only
    cases h0 : rd mem 0 with
    | error f => exact .inl rfl
    | ok c =>
      rw [ok_bind, ok_bind]
      generalize (if c = 45 then 1 else 0) = sign
      cases h1 : mantissaZ (mem.drop sign) 0 none with
      | error f => exact .inl rfl
      | ok m =>
        rw [ok_bind, ok_bind]
        cases lengths m.1 m.2 with
        | none => exact .inr ⟨_, v, v', rfl, rfl, by decide⟩
        | some l =>
          dsimp only
          cases h2 : exponentZ (mem.drop (sign + m.1)) with
          | error f => exact .inl rfl
          | ok x =>
            rw [ok_bind, ok_bind]
            cases x with
            | stop n ec => exact .inr ⟨_, v, v', rfl, rfl, exponentZ_stop h2⟩
            | go n en e => exact .inl rfl

theorem scanFloat_cases (val : Double) (str : Option (List Byte)) (out : Option Float) {r : ConvResult × Option Double} (h : scanDouble str (some val) = .ok r) :
    scanFloat val str out = .ok (scanFloatEnd r out) := by
  rw [scanFloat, h]
  rfl

/-- The variable that is not initialised is never used. -/
theorem C262_initialised (val val' : Double) (str : Option (List Byte)) (out : Option Float) : scanFloat val str out = scanFloat val' str out := by
  rcases scanDouble_alike str val val' with h | ⟨r, v, v', h1, h2, h3⟩
  · rw [scanFloat, scanFloat, h]
  · rw [scanFloat_cases _ _ _ h1, scanFloat_cases _ _ _ h2]
    cases out with
    | none => rfl
    | some o =>
      unfold scanFloatEnd
      dsimp only
      rw [if_neg (fun h => h3 h.2), if_neg (fun h => h3 h.2)]

/-- The result is that of reading a `double`, and the output is left as it is if that is an error. -/
theorem C262_result {val : Double} {str : Option (List Byte)} {out : Option Float} {r : ConvResult} {out' : Option Float}
    (h : scanFloat val str out = .ok (r, out')) :
    (∃ d, scanDouble str (some val) = .ok (r, d)) ∧ (r.ec ≠ .ok → out' = out) ∧ out'.isSome = out.isSome := by
  unfold scanFloat at h
  cases hd : scanDouble str (some val) with
  | error f => rw [hd] at h; cases h
  | ok x =>
    rw [hd, ok_bind] at h
    injection h with h
    unfold scanFloatEnd at h
    split at h
    · split at h
      · injection h with h1 h2
        subst h1 h2
        rename_i hc
        exact ⟨⟨x.2, rfl⟩, fun hn => absurd hc.2 hn, rfl⟩
      · injection h with h1 h2
        subst h1 h2
        exact ⟨⟨x.2, rfl⟩, fun _ => rfl, rfl⟩
    · injection h with h1 h2
      subst h1 h2
      exact ⟨⟨x.2, rfl⟩, fun _ => rfl, rfl⟩

/-- A text with a length is read as one that ends with a zero char there. -/
theorem C262_length (val : Double) (s t t' : List Byte) (out : Option Float) :
    scanFloatN val (some (s ++ t)) s.length out = scanFloat val (some (s ++ 0 :: t')) out := by
  rw [scanFloatN, scanFloat, C169_length s t t']

example : scanFloat (false, .nan) (some (bytes "1e600" ++ [0])) (some (false, .fin 7)) = .ok (⟨5, .eoverflow⟩, some (false, .fin 7)) ∧
    scanFloat (true, .inf) (some (bytes "x" ++ [0])) (some (false, .fin 7)) = .ok (⟨0, .einval⟩, some (false, .fin 7)) ∧
    scanFloatN (true, .inf) (some (bytes "2.5e3")) 3 (some (false, .fin 7)) = .ok (⟨3, .ok⟩, some (false, .fin (5 / 2))) := by decide +kernel

end Tm.Dbl
