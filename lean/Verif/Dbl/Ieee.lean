import Mathlib.Data.Rat.Floor
import Mathlib.Algebra.Order.Field.Power
import Mathlib.Tactic.Linarith
import Mathlib.Tactic.Positivity
import Mathlib.Tactic.Ring
import Mathlib.Tactic.FieldSimp

/-!
# Arithmetic of `double`

IEEE 754 binary64, rounding to nearest, ties to even, for numbers that are not negative. (This is not code of the library but what the
code relies on: `double` arithmetic without excess precision.)
-/

namespace Tm.Dbl

/-- A `double` without a sign. -/
inductive F
  | fin (q : ℚ)
  | inf
  | nan
  deriving DecidableEq, Repr

/-- The exponent of a positive number: the greatest `e` with 2^e ≤ q. -/
def expo (q : ℚ) : ℤ :=
  let e := (q.num.toNat.log2 : ℤ) - q.den.log2
  if (2 : ℚ) ^ e ≤ q then e else e - 1

/-- The nearest integer, the even one of two. -/
def halfEven (q : ℚ) : ℤ :=
  let f := q.floor
  if q - f < 1 / 2 then f
  else if 1 / 2 < q - f then f + 1
  else if f % 2 = 0 then f else f + 1

/-- The place value of the last binary digit of a `double` next to a number. -/
def place (q : ℚ) : ℤ := max (expo q - 52) (-1074)

/-- Rounding to a `double`. -/
def rnd (q : ℚ) : F :=
  if q ≤ 0 then .fin 0
  else
    let r := (halfEven (q / 2 ^ place q) : ℚ) * 2 ^ place q
    if r < 2 ^ 1024 then .fin r else .inf

/-- `a * b`. -/
def F.mul : F → F → F
  | .fin a, .fin b => rnd (a * b)
  | .inf, .fin b => if b = 0 then .nan else .inf
  | .fin a, .inf => if a = 0 then .nan else .inf
  | .inf, .inf => .inf
  | _, _ => .nan

/-- `a / b`. -/
def F.div : F → F → F
  | .fin a, .fin b => if b = 0 then (if a = 0 then .nan else .inf) else rnd (a / b)
  | .inf, .fin _ => .inf
  | .fin _, .inf => .fin 0
  | .inf, .inf => .nan
  | _, _ => .nan

/-- `a + b`. -/
def F.add : F → F → F
  | .fin a, .fin b => rnd (a + b)
  | .nan, _ => .nan
  | _, .nan => .nan
  | _, _ => .inf

/-! ## What rounding means -/

/-- A number that a `double` can have, apart from the greatest exponent. -/
def Representable (r : ℚ) : Prop := ∃ (m : ℕ) (k : ℤ), m < 2 ^ 53 ∧ -1074 ≤ k ∧ r = m * 2 ^ k

/-- A number that is the nearest one, and in case of two the one with an even last digit. -/
def Nearest (q r : ℚ) : Prop :=
  Representable r ∧ (∀ r', Representable r' → |q - r| ≤ |q - r'|) ∧
  ∀ r', Representable r' → r' ≠ r → |q - r'| = |q - r| → ∃ (m : ℕ) (k : ℤ), m % 2 = 0 ∧ m < 2 ^ 53 ∧ -1074 ≤ k ∧ r = m * 2 ^ k ∧ (2 ^ 52 ≤ m ∨ k = -1074)

/-! ## Lemmas -/

theorem log2_bounds {n : Nat} (h : n ≠ 0) : 2 ^ n.log2 ≤ n ∧ n < 2 ^ (n.log2 + 1) := ⟨Nat.log2_self_le h, Nat.lt_log2_self⟩

theorem expo_spec {q : ℚ} (h : 0 < q) : (2 : ℚ) ^ expo q ≤ q ∧ q < 2 ^ (expo q + 1) := by
  have hn : 0 < q.num := Rat.num_pos.mpr h
  obtain ⟨n1, n2⟩ := log2_bounds (n := q.num.toNat) (by omega)
  obtain ⟨d1, d2⟩ := log2_bounds (n := q.den) q.den_nz
  have hq : q = (q.num.toNat : ℚ) / q.den := by
    conv_lhs => rw [← Rat.num_div_den q]
    congr 1
    have : ((q.num.toNat : ℤ) : ℚ) = (q.num : ℚ) := by rw [Int.toNat_of_nonneg (by omega)]
    exact_mod_cast this.symm
  have hd : (0 : ℚ) < q.den := by exact_mod_cast q.den_pos
  have n1' : (2 : ℚ) ^ (q.num.toNat.log2 : ℤ) ≤ q.num.toNat := by rw [zpow_natCast]; exact_mod_cast n1
  have n2' : (q.num.toNat : ℚ) < 2 ^ ((q.num.toNat.log2 : ℤ) + 1) := by
    rw [show ((q.num.toNat.log2 : ℤ) + 1) = ((q.num.toNat.log2 + 1 : ℕ) : ℤ) by push_cast; rfl, zpow_natCast]; exact_mod_cast n2
  have d1' : (2 : ℚ) ^ (q.den.log2 : ℤ) ≤ q.den := by rw [zpow_natCast]; exact_mod_cast d1
  have d2' : (q.den : ℚ) < 2 ^ ((q.den.log2 : ℤ) + 1) := by
    rw [show ((q.den.log2 : ℤ) + 1) = ((q.den.log2 + 1 : ℕ) : ℤ) by push_cast; rfl, zpow_natCast]; exact_mod_cast d2
  have hup : q < 2 ^ ((q.num.toNat.log2 : ℤ) - q.den.log2 + 1) := by
    conv_lhs => rw [hq]
    rw [div_lt_iff₀ hd]
    calc (q.num.toNat : ℚ) < 2 ^ ((q.num.toNat.log2 : ℤ) + 1) := n2'
      _ = 2 ^ ((q.num.toNat.log2 : ℤ) - q.den.log2 + 1) * 2 ^ (q.den.log2 : ℤ) := by
        rw [← zpow_add₀ (by norm_num)]; congr 1; ring
      _ ≤ _ := by apply mul_le_mul_of_nonneg_left d1' (by positivity)
  have hlo : (2 : ℚ) ^ ((q.num.toNat.log2 : ℤ) - q.den.log2 - 1) ≤ q := by
    conv_rhs => rw [hq]
    rw [le_div_iff₀ hd]
    calc (2 : ℚ) ^ ((q.num.toNat.log2 : ℤ) - q.den.log2 - 1) * q.den
        ≤ 2 ^ ((q.num.toNat.log2 : ℤ) - q.den.log2 - 1) * 2 ^ ((q.den.log2 : ℤ) + 1) := by
          apply mul_le_mul_of_nonneg_left d2'.le (by positivity)
      _ = 2 ^ (q.num.toNat.log2 : ℤ) := by rw [← zpow_add₀ (by norm_num)]; congr 1; ring
      _ ≤ _ := n1'
  unfold expo
  simp only
  split
  · rename_i hc; exact ⟨hc, hup⟩
  · rename_i hc
    refine ⟨hlo, ?_⟩
    rw [sub_add_cancel]
    exact not_le.mp hc

theorem floor_bounds (q : ℚ) : (q.floor : ℚ) ≤ q ∧ q < q.floor + 1 :=
  ⟨Int.floor_le q, Int.lt_floor_add_one q⟩

theorem halfEven_near (q : ℚ) : |q - halfEven q| ≤ 1 / 2 := by
  obtain ⟨h1, h2⟩ := floor_bounds q
  unfold halfEven
  simp only
  rw [abs_le]
  split
  · constructor <;> linarith
  · split
    · push_cast; constructor <;> linarith
    · split
      · constructor <;> linarith
      · push_cast; constructor <;> linarith

/-- No other integer is nearer, and of two the even one is taken. -/
theorem halfEven_best (q : ℚ) (n : ℤ) : |q - halfEven q| ≤ |q - n| ∧ (n ≠ halfEven q → |q - n| = |q - halfEven q| → halfEven q % 2 = 0) := by
  obtain ⟨h1, h2⟩ := floor_bounds q
  have hn : n ≤ q.floor ∨ q.floor + 1 ≤ n := by omega
  unfold halfEven
  simp only
  generalize q.floor = f at *
  have hn' : ((n : ℚ) ≤ f) ∨ ((f : ℚ) + 1 ≤ n) := by
    rcases hn with h | h
    · left; exact_mod_cast h
    · right; exact_mod_cast h
  have habs : ∀ x : ℚ, x ≤ f → |q - x| = q - x := fun x hx => abs_of_nonneg (by linarith)
  have habs' : ∀ x : ℚ, f + 1 ≤ x → |q - x| = x - q := fun x hx => by rw [abs_of_nonpos (by linarith)]; ring
  have a1 := habs f (le_refl _)
  have a2 := habs' (f + 1) (le_refl _)
  split
  · rename_i hc
    rw [a1]
    rcases hn' with h | h
    · rw [habs _ h]
      refine ⟨by linarith, fun hne he => ?_⟩
      exact absurd (by exact_mod_cast (show (n : ℚ) = f by linarith)) hne
    · rw [habs' _ h]
      refine ⟨by linarith, fun hne he => ?_⟩
      linarith
  · split
    · rename_i hc hc'
      push_cast
      rw [a2]
      rcases hn' with h | h
      · rw [habs _ h]
        refine ⟨by linarith, fun hne he => ?_⟩
        linarith
      · rw [habs' _ h]
        refine ⟨by linarith, fun hne he => ?_⟩
        exact absurd (by exact_mod_cast (show (n : ℚ) = f + 1 by linarith)) hne
    · rename_i hc hc'
      have hh : q - f = 1 / 2 := le_antisymm (not_lt.mp hc') (not_lt.mp hc)
      split
      · rename_i he
        rw [a1]
        refine ⟨?_, fun _ _ => he⟩
        rcases hn' with h | h
        · rw [habs _ h]; linarith
        · rw [habs' _ h]; linarith
      · rename_i he
        push_cast
        rw [a2]
        refine ⟨?_, fun _ _ => by omega⟩
        rcases hn' with h | h
        · rw [habs _ h]; linarith
        · rw [habs' _ h]; linarith

theorem halfEven_int (n : ℤ) : halfEven (n : ℚ) = n := by
  have h := halfEven_near (n : ℚ)
  have : |((n - halfEven (n : ℚ) : ℤ) : ℚ)| ≤ 1 / 2 := by push_cast; exact h
  rw [← Int.cast_abs] at this
  have h2 : |n - halfEven (n : ℚ)| < 1 := by
    by_contra hc
    have : (1 : ℚ) ≤ (|n - halfEven (n : ℚ)| : ℤ) := by exact_mod_cast not_lt.mp hc
    linarith
  have := abs_lt.mp h2
  omega

theorem rnd_zero : rnd 0 = .fin 0 := by rw [rnd, if_pos (le_refl _)]

theorem two_pos (k : ℤ) : (0 : ℚ) < 2 ^ k := by positivity

theorem place_ge (q : ℚ) : -1074 ≤ place q := le_max_right _ _

theorem scaled_lt {q : ℚ} (h : 0 < q) : q / 2 ^ place q < 2 ^ 53 := by
  rw [div_lt_iff₀ (two_pos _)]
  calc q < 2 ^ (expo q + 1) := (expo_spec h).2
    _ ≤ 2 ^ (53 + place q) := by
      apply zpow_le_zpow_right₀ (by norm_num)
      have : expo q - 52 ≤ place q := le_max_left _ _
      omega
    _ = 2 ^ 53 * 2 ^ place q := by rw [zpow_add₀ (by norm_num)]; norm_num

/-- Before the comparison with the greatest number. -/
def round (q : ℚ) : ℚ := (halfEven (q / 2 ^ place q) : ℚ) * 2 ^ place q

theorem rnd_pos {q : ℚ} (h : 0 < q) : rnd q = if round q < 2 ^ 1024 then .fin (round q) else .inf := by
  rw [rnd, if_neg (not_le.mpr h)]; rfl

theorem round_near {q : ℚ} : |q - round q| ≤ 2 ^ place q / 2 := by
  have h := halfEven_near (q / 2 ^ place q)
  have e : q - round q = (q / 2 ^ place q - halfEven (q / 2 ^ place q)) * 2 ^ place q := by
    unfold round
    rw [sub_mul, div_mul_cancel₀ _ (two_pos _).ne']
  rw [e, abs_mul, abs_of_pos (two_pos _)]
  have := mul_le_mul_of_nonneg_right h (two_pos (place q)).le
  linarith

theorem halfEven_nonneg {q : ℚ} (h : 0 ≤ q) : 0 ≤ halfEven q := by
  have := abs_le.mp (halfEven_near q)
  have h2 : (-1 : ℚ) < halfEven q := by linarith
  have : (-1 : ℤ) < halfEven q := by exact_mod_cast h2
  omega

/-- Rounding a normal number changes it by at most 2^-53 of it. -/
theorem rnd_normal {q : ℚ} (h1 : (2 : ℚ) ^ (-1022 : ℤ) ≤ q) (h2 : q < 2 ^ (1023 : ℤ)) :
    ∃ r, rnd q = .fin r ∧ |q - r| ≤ q * 2 ^ (-53 : ℤ) := by
  have hq : 0 < q := lt_of_lt_of_le (two_pos _) h1
  obtain ⟨e1, e2⟩ := expo_spec hq
  have ee1 : -1022 ≤ expo q := by
    by_contra hc
    have : (2 : ℚ) ^ (expo q + 1) ≤ 2 ^ (-1022 : ℤ) := zpow_le_zpow_right₀ (by norm_num) (by omega)
    linarith
  have ee2 : expo q ≤ 1022 := by
    by_contra hc
    have : (2 : ℚ) ^ (1023 : ℤ) ≤ 2 ^ expo q := zpow_le_zpow_right₀ (by norm_num) (by omega)
    linarith
  have hp : place q = expo q - 52 := by unfold place; omega
  have hn := round_near (q := q)
  have hb : |q - round q| ≤ q * 2 ^ (-53 : ℤ) := by
    refine le_trans hn ?_
    rw [hp, show expo q - 52 = expo q + (-53) + 1 by ring, zpow_add₀ (by norm_num), zpow_add₀ (by norm_num), zpow_one]
    have := mul_le_mul_of_nonneg_right e1 (two_pos (-53)).le
    linarith
  have hlt : round q < 2 ^ 1024 := by
    have h3 := (abs_le.mp hb).1
    have h4 : (2 : ℚ) ^ (-53 : ℤ) ≤ 1 / 2 := by norm_num
    have h5 := mul_le_mul_of_nonneg_left h4 hq.le
    have h6 : (2 : ℚ) ^ 1024 = 2 ^ (1023 : ℤ) * 2 := by
      rw [show ((1023 : ℤ)) = ((1023 : ℕ) : ℤ) by norm_num, zpow_natCast, ← pow_succ]
    rw [h6]
    have h7 : (0 : ℚ) < 2 ^ (1023 : ℤ) := two_pos _
    clear h6 h1 e1 e2 h4
    generalize (2 : ℚ) ^ (1023 : ℤ) = M at *
    generalize q * (2 : ℚ) ^ (-53 : ℤ) = d at *
    linarith
  exact ⟨round q, by rw [rnd_pos hq, if_pos hlt], hb⟩

theorem zpow_split {k j : ℤ} (h : j ≤ k) : ∃ n : ℕ, (2 : ℚ) ^ k = (2 ^ n : ℕ) * 2 ^ j := by
  refine ⟨(k - j).toNat, ?_⟩
  have : (2 : ℚ) ^ k = 2 ^ (k - j) * 2 ^ j := by rw [← zpow_add₀ (by norm_num)]; congr 1; ring
  rw [this]
  congr 1
  conv_lhs => rw [show k - j = (((k - j).toNat : ℕ) : ℤ) by omega, zpow_natCast]
  push_cast
  rfl

/-- Numbers that a `double` can have are not changed. -/
theorem round_exact {q : ℚ} (h : 0 < q) (hr : Representable q) : round q = q := by
  obtain ⟨m, k, hm, hk, rfl⟩ := hr
  obtain ⟨e1, e2⟩ := expo_spec h
  have he : place ((m : ℚ) * 2 ^ k) ≤ k := by
    unfold place
    have : expo ((m : ℚ) * 2 ^ k) < 53 + k := by
      by_contra hc
      have h1 : (2 : ℚ) ^ (53 + k) ≤ 2 ^ expo ((m : ℚ) * 2 ^ k) := zpow_le_zpow_right₀ (by norm_num) (by omega)
      have h2 : (m : ℚ) * 2 ^ k < 2 ^ (53 + k) := by
        rw [zpow_add₀ (by norm_num)]
        apply mul_lt_mul_of_pos_right _ (two_pos _)
        have : (m : ℚ) < ((2 ^ 53 : ℕ) : ℚ) := by exact_mod_cast hm
        refine lt_of_lt_of_eq this (by norm_num)
      linarith
    omega
  unfold round
  generalize place ((m : ℚ) * 2 ^ k) = e at he
  obtain ⟨n, hn⟩ := zpow_split he
  have : (m : ℚ) * 2 ^ k / 2 ^ e = ((m * (2 ^ n : ℕ) : ℤ) : ℚ) := by
    rw [hn, ← mul_assoc, mul_div_cancel_right₀ _ (two_pos _).ne']
    push_cast
    rfl
  rw [this, halfEven_int, ← this, div_mul_cancel₀ _ (two_pos _).ne']

theorem rnd_exact {q : ℚ} (h : 0 ≤ q) (hr : Representable q) (hq : q < 2 ^ 1024) : rnd q = .fin q := by
  rcases eq_or_lt_of_le h with rfl | h
  · exact rnd_zero
  · rw [rnd_pos h, round_exact h hr, if_pos hq]

theorem rnd_nat {n : ℕ} (h : n ≤ 2 ^ 53) : rnd n = .fin n := by
  have hr : Representable n := by
    rcases Nat.lt_or_ge n (2 ^ 53) with h | h'
    · exact ⟨n, 0, h, by omega, by simp⟩
    · exact ⟨1, 53, by norm_num, by omega, by rw [show n = 2 ^ 53 by omega]; norm_num⟩
  apply rnd_exact (by positivity) hr
  have : (n : ℚ) ≤ ((2 ^ 53 : ℕ) : ℚ) := by exact_mod_cast h
  refine lt_of_le_of_lt this ?_
  rw [show ((2 ^ 53 : ℕ) : ℚ) = (2 : ℚ) ^ 53 by norm_num]
  exact pow_lt_pow_right₀ (by norm_num) (by norm_num)

theorem round_representable {q : ℚ} (h : 0 < q) : Representable (round q) := by
  have hs := scaled_lt h
  have h0 : 0 ≤ halfEven (q / 2 ^ place q) := halfEven_nonneg (div_nonneg h.le (two_pos _).le)
  have hle : halfEven (q / 2 ^ place q) ≤ 2 ^ 53 := by
    have h1 := (abs_le.mp (halfEven_near (q / 2 ^ place q))).1
    have : (halfEven (q / 2 ^ place q) : ℚ) < ((2 ^ 53 + 1 : ℤ) : ℚ) := by push_cast; linarith
    have : halfEven (q / 2 ^ place q) < 2 ^ 53 + 1 := by exact_mod_cast this
    omega
  unfold round
  have hp := place_ge q
  generalize place q = e at *
  generalize halfEven (q / 2 ^ e) = n at *
  rcases lt_or_eq_of_le hle with h1 | h1
  · refine ⟨n.toNat, e, by omega, hp, ?_⟩
    congr 1
    exact_mod_cast (Int.toNat_of_nonneg h0).symm
  · refine ⟨2 ^ 52, e + 1, by norm_num, by omega, ?_⟩
    rw [h1, zpow_add₀ (by norm_num)]
    push_cast
    ring

/-- Rounding takes the nearest number that a `double` can have, the one with the even last digit of two. -/
theorem round_nearest {q : ℚ} (h : 0 < q) : Nearest q (round q) := by
  obtain ⟨e1, e2⟩ := expo_spec h
  have hscale : ∀ n : ℤ, |q - n * 2 ^ place q| = |q / 2 ^ place q - n| * 2 ^ place q := by
    intro n
    rw [show q - n * 2 ^ place q = (q / 2 ^ place q - n) * 2 ^ place q by rw [sub_mul, div_mul_cancel₀ _ (two_pos _).ne'],
      abs_mul, abs_of_pos (two_pos _)]
  have hmult : ∀ n : ℤ, |q - round q| ≤ |q - n * 2 ^ place q| := by
    intro n
    unfold round
    rw [hscale, hscale]
    exact mul_le_mul_of_nonneg_right (halfEven_best _ n).1 (two_pos _).le
  -- a representable number is a multiple of the place value, or lies below the power of two under the number
  have hcase : ∀ r', Representable r' → (∃ n : ℤ, r' = n * 2 ^ place q) ∨ |q - round q| < |q - r'| := by
    rintro r' ⟨m, k, hm, hk, rfl⟩
    rcases le_or_gt (place q) k with hc | hc
    · obtain ⟨n, hn⟩ := zpow_split hc
      left
      refine ⟨m * (2 ^ n : ℕ), ?_⟩
      rw [hn]
      push_cast
      ring
    · right
      have hp : place q = expo q - 52 := by
        unfold place at *
        omega
      have hlt : (m : ℚ) * 2 ^ k < 2 ^ expo q := by
        calc (m : ℚ) * 2 ^ k < 2 ^ (53 : ℤ) * 2 ^ k := by
              apply mul_lt_mul_of_pos_right _ (two_pos _)
              have : (m : ℚ) < ((2 ^ 53 : ℕ) : ℚ) := by exact_mod_cast hm
              refine lt_of_lt_of_eq this (by norm_num)
          _ = 2 ^ (53 + k) := by rw [zpow_add₀ (by norm_num)]
          _ ≤ 2 ^ expo q := zpow_le_zpow_right₀ (by norm_num) (by omega)
      have h1 := hmult (2 ^ 52)
      have h2 : (((2 ^ 52 : ℤ) : ℤ) : ℚ) * 2 ^ place q = 2 ^ expo q := by
        rw [hp, show expo q - 52 = expo q + (-52) by ring, zpow_add₀ (by norm_num)]
        norm_num
        ring
      rw [h2] at h1
      refine lt_of_le_of_lt h1 ?_
      rw [abs_of_nonneg (by linarith), abs_of_nonneg (by linarith)]
      linarith
  refine ⟨round_representable h, fun r' hr' => ?_, fun r' hr' hne he => ?_⟩
  · rcases hcase r' hr' with ⟨n, rfl⟩ | hl
    · exact hmult n
    · exact hl.le
  · rcases hcase r' hr' with ⟨n, rfl⟩ | hl
    · have hev : halfEven (q / 2 ^ place q) % 2 = 0 := by
        refine (halfEven_best (q / 2 ^ place q) n).2 (fun hc => hne (by rw [hc]; rfl)) ?_
        unfold round at he
        rw [hscale, hscale] at he
        exact mul_right_cancel₀ (two_pos _).ne' he
      have h0 : 0 ≤ halfEven (q / 2 ^ place q) := halfEven_nonneg (div_nonneg h.le (two_pos _).le)
      have hs : q / 2 ^ place q < 2 ^ 53 := scaled_lt h
      have hle : halfEven (q / 2 ^ place q) ≤ 2 ^ 53 := by
        have h1 := (abs_le.mp (halfEven_near (q / 2 ^ place q))).1
        have : (halfEven (q / 2 ^ place q) : ℚ) < ((2 ^ 53 + 1 : ℤ) : ℚ) := by push_cast; linarith
        have : halfEven (q / 2 ^ place q) < 2 ^ 53 + 1 := by exact_mod_cast this
        omega
      have hpl : -1074 ≤ place q := le_max_right _ _
      rcases lt_or_eq_of_le hle with hlt | heq
      on_goal 2 =>
        refine ⟨2 ^ 52, place q + 1, by norm_num, by norm_num, by omega, ?_, Or.inl (le_refl _)⟩
        unfold round
        rw [heq, zpow_add₀ (by norm_num)]
        push_cast
        ring
      refine ⟨(halfEven (q / 2 ^ place q)).toNat, place q, by omega, by omega, hpl, ?_, ?_⟩
      · unfold round
        congr 1
        exact_mod_cast (Int.toNat_of_nonneg h0).symm
      · rcases Int.lt_or_le (expo q - 52) (-1074) with hc | hc
        · right; unfold place; omega
        · left
          have hp : place q = expo q - 52 := by unfold place; omega
          have h2 : (2 : ℚ) ^ 52 ≤ q / 2 ^ place q := by
            rw [le_div_iff₀ (two_pos _), hp, show expo q - 52 = expo q + (-52) by ring, zpow_add₀ (by norm_num)]
            norm_num
            linarith
          have h3 := (abs_le.mp (halfEven_near (q / 2 ^ place q))).2
          have h4 : ((2 ^ 52 - 1 : ℤ) : ℚ) < halfEven (q / 2 ^ place q) := by push_cast; linarith
          have h5 : (2 ^ 52 - 1 : ℤ) < halfEven (q / 2 ^ place q) := by exact_mod_cast h4
          omega
    · rw [he] at hl
      exact absurd hl (lt_irrefl _)

/-- Every finite result of rounding is the nearest number. -/
theorem rnd_nearest {q r : ℚ} (h : 0 < q) (hr : rnd q = .fin r) : Nearest q r := by
  rw [rnd_pos h] at hr
  split at hr
  · cases hr; exact round_nearest h
  · cases hr

end Tm.Dbl
