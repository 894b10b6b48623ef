import Verif.Json.Real
import Verif.Json.ValueProps
import Verif.Dbl.FloatProps

/-!
# Properties of floating point values of a document
-/

namespace Tm.Json

set_option exponentiation.threshold 1100

open Tm Spec

/-! ### What the numbers are -/

/-- The number that an exponent denotes: `e` or `E`, an optional sign, digits. Nothing denotes zero. -/
def power (e : List Byte) : ℤ :=
  match e.drop 1 with
  | [] => 0
  | s :: d => if s = chr '+' then decimal d else if s = chr '-' then -decimal d else decimal (s :: d)

/-- The absolute value that integer, fraction and exponent of a number denote. -/
def absValue (i f e : List Byte) : ℚ := (decimal (i ++ f.drop 1) : ℚ) * 10 ^ (power e - (f.drop 1).length)

/-! ### Lemmas -/

theorem isDigitIn_ten {c : Byte} (h : Digit c) : isDigitIn 10 c = true := by rw [isDigitIn, digitIn_ten h]; rfl

theorem takeWhile_all {p : Byte → Bool} : ∀ {a b : List Byte}, (∀ x ∈ a, p x = true) → (∀ x, b.head? = some x → p x = false) →
    (a ++ b).takeWhile p = a ∧ (a ++ b).dropWhile p = b
  | [], [], _, _ => ⟨rfl, rfl⟩
  | [], x :: b, _, h => by
    have := h x rfl
    simp [this]
  | y :: a, b, ha, hb => by
    have h1 := ha y (by simp)
    obtain ⟨i1, i2⟩ := takeWhile_all (a := a) (b := b) (fun x hx => ha x (by simp [hx])) hb
    simp [h1, i1, i2]

theorem exp_head {e : List Byte} (h : Exp e) : ∀ x, e.head? = some x → x = chr 'e' ∨ x = chr 'E' := by
  rcases h with rfl | ⟨m, s, d, hm, _, _, rfl⟩
  · simp
  · intro x hx
    simp at hx
    exact hx ▸ hm

theorem decimal_digitsIn {s : List Byte} (h : ∀ b ∈ s, Digit b) : digitsIn 10 0 s = decimal s := digitsIn_ten s 0 h

theorem exponentIn_power {e : List Byte} (h : Exp e) : exponentIn 0x65 e = power e := by
  rcases h with rfl | ⟨m, s, d, hm, hs, ⟨hd0, hd⟩, rfl⟩
  · rfl
  · have hm' : toLower m = 0x65 := by rcases hm with rfl | rfl <;> rfl
    unfold exponentIn power
    dsimp only
    rw [if_pos hm']
    show _ = match s ++ d with
      | [] => 0
      | s :: d => if s = chr '+' then (decimal d : ℤ) else if s = chr '-' then -decimal d else decimal (s :: d)
    rcases hs with rfl | rfl | rfl
    · match d, hd0 with
      | x :: d, _ =>
        have hx := hd x (by simp)
        have h1 : x ≠ 0x2B := by rintro rfl; revert hx; decide
        have h2 : x ≠ 0x2D := by rintro rfl; revert hx; decide
        show (if x = 0x2B then _ else if x = 0x2D then _ else _) = if x = chr '+' then _ else if x = chr '-' then _ else _
        rw [if_neg h1, if_neg h2, if_neg (show x ≠ chr '+' from h1), if_neg (show x ≠ chr '-' from h2), decimal_digitsIn hd]
    · show (if (0x2B : Byte) = 0x2B then _ else _) = if chr '+' = chr '+' then _ else _
      rw [if_pos rfl, if_pos rfl]
      show ((digitsIn 10 0 d : ℕ) : ℤ) = decimal d
      rw [decimal_digitsIn hd]
    · show (if (0x2D : Byte) = 0x2B then _ else if (0x2D : Byte) = 0x2D then _ else _) = if chr '-' = chr '+' then _ else if chr '-' = chr '-' then _ else _
      rw [if_neg (by decide), if_pos rfl, if_neg (by decide), if_pos rfl]
      show -((digitsIn 10 0 d : ℕ) : ℤ) = -decimal d
      rw [decimal_digitsIn hd]

theorem mantissa_number {i f e : List Byte} (hi : IntPart i) (hf : Frac f) (he : Exp e) :
    mantissaIn 10 (i ++ (f ++ e)) = some (i ++ f.drop 1, (f.drop 1).length, e) := by
  obtain ⟨hi0, hid⟩ := intPart_digits hi
  have heh : ∀ x, e.head? = some x → isDigitIn 10 x = false := fun x hx => by
    rcases exp_head he x hx with rfl | rfl <;> decide
  have hfe : ∀ x, (f ++ e).head? = some x → isDigitIn 10 x = false := by
    rcases hf with rfl | ⟨d, _, rfl⟩
    · exact heh
    · intro x hx
      simp at hx
      subst hx
      decide
  obtain ⟨t1, t2⟩ := takeWhile_all (p := isDigitIn 10) (fun x hx => isDigitIn_ten (hid x hx)) hfe
  have hfr : fractionIn 10 (f ++ e) = (f.drop 1, e) := by
    rcases hf with rfl | ⟨d, ⟨_, hd⟩, rfl⟩
    · match e, he with
      | [], _ => rfl
      | x :: e, he =>
        have hx : x ≠ 0x2E := by
          rcases exp_head he x rfl with rfl | rfl <;> decide
        rw [List.nil_append, fractionIn, if_neg hx]
        rfl
    · obtain ⟨u1, u2⟩ := takeWhile_all (p := isDigitIn 10) (fun x hx => isDigitIn_ten (hd x hx)) heh
      rw [List.cons_append, fractionIn, if_pos (show chr '.' = (0x2E : Byte) from rfl), u1, u2]
      rfl
  unfold mantissaIn
  simp only [t1, t2, hfr]
  rw [if_neg (fun hg => hi0 (List.append_eq_nil_iff.1 hg).1)]

theorem number_no_hex {i f e : List Byte} (hi : IntPart i) (hf : Frac f) (he : Exp e) : hexPrefix (i ++ (f ++ e)) = false := by
  have hx : ∀ x, (f ++ e).head? = some x → x ≠ 0x78 ∧ x ≠ 0x58 := by
    rcases hf with rfl | ⟨d, _, rfl⟩
    · intro x hx
      rcases exp_head he x hx with rfl | rfl <;> decide
    · intro x hx
      simp at hx
      subst hx
      decide
  obtain ⟨hi0, hid⟩ := intPart_digits hi
  match i, hi0 with
  | [a], _ =>
    rw [List.singleton_append]
    cases hg : f ++ e with
    | nil => rfl
    | cons x t =>
      have := hx x (by rw [hg]; rfl)
      exact (by simp [hexPrefix]; exact fun _ => this)
  | a :: b :: i, _ =>
    have hb := hid b (by simp)
    have h1 : b ≠ 0x78 := by rintro rfl; revert hb; decide
    have h2 : b ≠ 0x58 := by rintro rfl; revert hb; decide
    simp [hexPrefix]
    exact fun _ => ⟨h1, h2⟩

theorem digit_byte {x : Byte} (h : Digit x) : isSpace x = false ∧ x ≠ 0x2D ∧ x ≠ 0x2B ∧ toLower x ≠ 0x69 ∧ toLower x ≠ 0x6E := by
  revert h
  revert x
  unfold Digit
  decide +kernel

theorem begins_head {x : Byte} {t word : List Byte} {y : Byte} (h : toLower x ≠ y) : beginsIgnoreCase (x :: t) (y :: word) = false := by
  simp [beginsIgnoreCase, h]

theorem strtod_unsigned {i f e : List Byte} (hi : IntPart i) (hf : Frac f) (he : Exp e) (tiny : ℚ → Bool) (neg : Bool) :
    strtodUnsigned tiny neg (i ++ (f ++ e)) = toRange tiny neg (absValue i f e) := by
  have hm := mantissa_number hi hf he
  have hv : magnitude (i ++ (f ++ e)) = absValue i f e := by
    have hd : ∀ b ∈ i ++ f.drop 1, Digit b := by
      intro b hb
      rcases List.mem_append.1 hb with hb | hb
      · exact (intPart_digits hi).2 b hb
      · rcases hf with rfl | ⟨d, hd, rfl⟩
        · simp at hb
        · exact hd.2 b (by simpa using hb)
    unfold magnitude
    rw [if_neg (by rw [number_no_hex hi hf he]; simp), hm]
    dsimp only
    rw [decimal_digitsIn hd, exponentIn_power he, absValue]
  obtain ⟨hi0, hid⟩ := intPart_digits hi
  unfold strtodUnsigned
  match i, hi0, hid, hm, hv with
  | x :: i, _, hid, hm, hv =>
    obtain ⟨-, -, -, h1, h2⟩ := digit_byte (hid x (by simp))
    rw [List.cons_append] at *
    rw [begins_head h1, begins_head h2, if_neg (by simp), if_neg (by simp), if_pos (Or.inr (by rw [hm]; rfl)), hv]

theorem strtod_number {m i f e : List Byte} (h : Number m i f e) (tiny : ℚ → Bool) :
    strtod tiny (m ++ (i ++ (f ++ e))) = toRange tiny (decide (m ≠ [])) (absValue i f e) := by
  obtain ⟨hm, hi, hf, he⟩ := h
  have hu := strtod_unsigned hi hf he tiny
  obtain ⟨hi0, hid⟩ := intPart_digits hi
  unfold strtod
  rcases hm with rfl | rfl
  · match i, hi0, hid, hu with
    | x :: i, _, hid, hu =>
      obtain ⟨h0, h1, h2, -, -⟩ := digit_byte (hid x (by simp))
      rw [List.nil_append, List.cons_append, List.dropWhile_cons, if_neg (by simp [h0])]
      dsimp only
      rw [if_neg h1, if_neg h2]
      exact hu false
  · rw [List.singleton_append, List.dropWhile_cons, if_neg (by decide)]
    dsimp only
    rw [if_pos (show chr '-' = (0x2D : Byte) from rfl)]
    exact hu true

theorem special_number {m i f e : List Byte} (h : Number m i f e) (special : Bool) : specialValue special (m ++ (i ++ (f ++ e))) = none := by
  obtain ⟨hm, hi, hf, he⟩ := h
  obtain ⟨hi0, hid⟩ := intPart_digits hi
  have hq : ∀ (x : Byte) (t w : List Byte) (y : Byte), toLower x ≠ y → equalsIgnoreCase (x :: t) (y :: w) = false := by
    intro x t w y hxy
    simp [equalsIgnoreCase, hxy]
  unfold specialValue
  cases special with
  | false => rfl
  | true =>
    match i, hi0, hid with
    | x :: i, _, hid =>
      obtain ⟨-, h1, h2, h3, h4⟩ := digit_byte (hid x (by simp))
      rw [if_pos rfl]
      have hs : (signOf (m ++ (x :: i ++ (f ++ e)))).2 = x :: (i ++ (f ++ e)) := by
        rcases hm with rfl | rfl
        · rw [List.nil_append, List.cons_append, signOf, if_neg h2, if_neg h1]
        · rfl
      simp only [hs, hq _ _ _ _ h3, hq _ _ _ _ h4]
      rfl

theorem number_nonempty {m i f e : List Byte} (h : Number m i f e) : (m ++ (i ++ (f ++ e))).length ≠ 0 := by
  have := List.length_pos_of_ne_nil (intPart_digits h.2.1).1
  simp only [List.length_append]
  omega

theorem toDouble_number {m i f e : List Byte} (h : Number m i f e) {view : View} (hv : view.text = .ok (m ++ (i ++ (f ++ e)))) (special : Bool)
    (tiny : ℚ → Bool) (old : Dbl.Double) : toDouble special tiny view old =
      .ok (if (m ++ (i ++ (f ++ e))).length ≤ 511 then (toRange tiny (decide (m ≠ [])) (absValue i f e)).getD old else old) := by
  unfold toDouble
  rw [if_neg (by rw [view_length hv]; exact number_nonempty h), hv, ok_bind, special_number h]
  dsimp only
  rw [tmjToDouble, strtod_number h]
  by_cases hl : (m ++ (i ++ (f ++ e))).length ≤ 511
  · rw [if_pos hl, if_neg (by omega)]
  · rw [if_neg hl, if_pos (by omega)]; rfl

theorem toFloat_number {m i f e : List Byte} (h : Number m i f e) {view : View} (hv : view.text = .ok (m ++ (i ++ (f ++ e)))) (special : Bool)
    (tiny : ℚ → Bool) (old : Dbl.Float) : toFloat special tiny view old =
      .ok (if (m ++ (i ++ (f ++ e))).length ≤ 511 then ((toRange tiny (decide (m ≠ [])) (absValue i f e)).map fun r => (r.1, Dbl.narrow r.2)).getD old
        else old) := by
  unfold toFloat
  rw [if_neg (by rw [view_length hv]; exact number_nonempty h), hv, ok_bind, special_number h]
  dsimp only
  rw [tmjToDouble, strtod_number h]
  by_cases hl : (m ++ (i ++ (f ++ e))).length ≤ 511
  · rw [if_pos hl, if_neg (by omega)]
    cases toRange tiny (decide (m ≠ [])) (absValue i f e) <;> rfl
  · rw [if_neg hl, if_pos (by omega)]

/-! ### The greatest number -/

theorem rep_max {r : ℚ} (h : Dbl.Representable r) (hr : r < 2 ^ 1024) : r ≤ 2 ^ 1024 - 2 ^ 971 := by
  obtain ⟨m, k, hm, hk, rfl⟩ := h
  have e1 : (2 : ℚ) ^ 1024 = 9007199254740992 * 2 ^ 971 := by rw [show (1024 : ℕ) = 53 + 971 by rfl, pow_add]; norm_num
  have hX : (0 : ℚ) < 2 ^ 971 := by positivity
  rw [e1] at hr ⊢
  rcases le_or_gt k 971 with hc | hc
  · have h1 : (m : ℚ) ≤ 9007199254740991 := by exact_mod_cast (show m ≤ 9007199254740991 by omega)
    have h2 : (2 : ℚ) ^ k ≤ 2 ^ 971 := by
      rw [← zpow_natCast]
      exact zpow_le_zpow_right₀ (by norm_num) (by exact_mod_cast hc)
    have h3 : (m : ℚ) * 2 ^ k ≤ 9007199254740991 * 2 ^ 971 := mul_le_mul h1 h2 (Dbl.two_pos _).le (by norm_num)
    generalize (2 : ℚ) ^ 971 = X at *
    linarith
  · obtain ⟨n, rfl⟩ : ∃ n : ℕ, k = 971 + n := ⟨(k - 971).toNat, by omega⟩
    have e2 : (m : ℚ) * 2 ^ (971 + (n : ℤ)) = ((m * 2 ^ n : ℕ) : ℚ) * 2 ^ 971 := by
      rw [zpow_add₀ (by norm_num), zpow_natCast, show (971 : ℤ) = ((971 : ℕ) : ℤ) by rfl, zpow_natCast]
      push_cast
      ring
    rw [e2] at hr ⊢
    have h1 : ((m * 2 ^ n : ℕ) : ℚ) < ((9007199254740992 : ℕ) : ℚ) := by
      refine lt_of_mul_lt_mul_right ?_ hX.le
      exact_mod_cast hr
    have h2 : m * 2 ^ n < 9007199254740992 := by exact_mod_cast h1
    have h3 : ((m * 2 ^ n : ℕ) : ℚ) ≤ 9007199254740991 := by exact_mod_cast (show m * 2 ^ n ≤ 9007199254740991 by omega)
    have h4 := mul_le_mul_of_nonneg_right h3 hX.le
    generalize (2 : ℚ) ^ 971 = X at *
    linarith

theorem tie_above {q r M X : ℚ} (hX : 0 < X) (hc : M - X ≤ q) (hmax : r ≤ M - 2 * X) (d : |q - r| ≤ |q - M|) : r = M - 2 * X ∧ q = M - X := by
  rw [abs_of_nonneg (show 0 ≤ q - r by linarith)] at d
  rcases le_or_gt M q with hq | hq
  · rw [abs_of_nonneg (show 0 ≤ q - M by linarith)] at d
    linarith
  · rw [abs_of_nonpos (show q - M ≤ 0 by linarith)] at d
    constructor <;> linarith

theorem tie_same {q M X : ℚ} (hX : 0 < X) (hq : q = M - X) : |q - M| = |q - (M - 2 * X)| := by
  rw [hq, abs_of_nonpos (by linarith), abs_of_nonneg (by linarith)]
  ring

theorem not_above {q r M X : ℚ} (hX : 0 < X) (hq : q < M - X) (hc : M ≤ r) (d : |q - r| ≤ |q - (M - 2 * X)|) : False := by
  rw [abs_of_nonpos (show q - r ≤ 0 by linarith)] at d
  rcases le_or_gt (M - 2 * X) q with hh | hh
  · rw [abs_of_nonneg (show 0 ≤ q - (M - 2 * X) by linarith)] at d
    linarith
  · rw [abs_of_nonpos (show q - (M - 2 * X) ≤ 0 by linarith)] at d
    linarith

theorem double_less {a X : ℚ} (hX : 0 < X) (h : 9007199254740991 * (2 * X) = a) (ha : a ≤ 9007199254740991 * X) : False := by linarith

theorem pow_gap {M X q : ℚ} (hM : M = 2 ^ 54 * X) (hX : 0 < X) : 0 < M - X ∧ (1 ≤ X → q < 1 → q < M - X) := by
  norm_num at hM
  constructor
  · linarith
  · intro h1 h2
    linarith

theorem max_odd {m : ℕ} {k : ℤ} (hm : m % 2 = 0) (hlt : m < 2 ^ 53) (h : (2 : ℚ) ^ 1024 - 2 ^ 971 = m * 2 ^ k) : False := by
  have e1 : (2 : ℚ) ^ 1024 = 9007199254740992 * 2 ^ 971 := by rw [show (1024 : ℕ) = 53 + 971 by rfl, pow_add]; norm_num
  have hX : (0 : ℚ) < 2 ^ 971 := by positivity
  have e2 : (9007199254740991 : ℚ) * 2 ^ 971 = m * 2 ^ k := by rw [← h, e1]; ring
  rcases le_or_gt 971 k with hc | hc
  · obtain ⟨n, rfl⟩ : ∃ n : ℕ, k = 971 + n := ⟨(k - 971).toNat, by omega⟩
    have e3 : (m : ℚ) * 2 ^ (971 + (n : ℤ)) = ((m * 2 ^ n : ℕ) : ℚ) * 2 ^ 971 := by
      rw [zpow_add₀ (by norm_num), zpow_natCast, show (971 : ℤ) = ((971 : ℕ) : ℤ) by rfl, zpow_natCast]
      push_cast
      ring
    rw [e3] at e2
    have e4 : (9007199254740991 : ℚ) = ((m * 2 ^ n : ℕ) : ℚ) := mul_right_cancel₀ hX.ne' e2
    have e5 : 9007199254740991 = m * 2 ^ n := by exact_mod_cast e4
    obtain ⟨a, rfl⟩ : ∃ a, m = 2 * a := ⟨m / 2, by omega⟩
    rw [Nat.mul_assoc] at e5
    omega
  · have h1 : (m : ℚ) ≤ 9007199254740991 := by exact_mod_cast (show m ≤ 9007199254740991 by omega)
    have h2 : (2 : ℚ) ^ k ≤ 2 ^ (970 : ℤ) := zpow_le_zpow_right₀ (by norm_num) (by omega)
    have h3 : (m : ℚ) * 2 ^ k ≤ 9007199254740991 * 2 ^ (970 : ℤ) := mul_le_mul h1 h2 (Dbl.two_pos _).le (by norm_num)
    have h4 : (2 : ℚ) ^ 971 = 2 * 2 ^ (970 : ℤ) := by
      rw [← zpow_natCast, show ((971 : ℕ) : ℤ) = 1 + 970 by rfl, zpow_add₀ (by norm_num)]
      norm_num
    have h5 := Dbl.two_pos 970
    rw [h4] at e2
    exact double_less h5 e2 h3

theorem round_fits {q : ℚ} (h : 0 < q) : Dbl.round q < 2 ^ 1024 ↔ q < 2 ^ 1024 - 2 ^ 970 := by
  obtain ⟨n1, n2, n3⟩ := Dbl.round_nearest h
  have e1 : (2 : ℚ) ^ 1024 = 9007199254740992 * 2 ^ 971 := by rw [show (1024 : ℕ) = 53 + 971 by rfl, pow_add]; norm_num
  have e2 : (2 : ℚ) ^ 971 = 2 * 2 ^ 970 := by rw [pow_succ]; ring
  have hX : (0 : ℚ) < 2 ^ 970 := by positivity
  have r1 : Dbl.Representable (2 ^ 1024 - 2 ^ 971) := ⟨9007199254740991, 971, by norm_num, by norm_num, by
    rw [e1, show (971 : ℤ) = ((971 : ℕ) : ℤ) by rfl, zpow_natCast]; push_cast; ring⟩
  have r2 : Dbl.Representable (2 ^ 1024) := ⟨1, 1024, by norm_num, by norm_num, by
    rw [show (1024 : ℤ) = ((1024 : ℕ) : ℤ) by rfl, zpow_natCast]; push_cast; ring⟩
  constructor
  · intro hr
    by_contra hc
    rw [not_lt] at hc
    have hmax := rep_max n1 hr
    have d := n2 _ r2
    have key := tie_above hX hc (e2 ▸ hmax) d
    obtain ⟨k1, k2⟩ := key
    obtain ⟨m, k, hm, hlt, -, hv, -⟩ := n3 _ r2 hr.ne' (by rw [k1]; exact tie_same hX k2)
    rw [k1, ← e2] at hv
    exact max_odd hm hlt hv
  · intro hq
    by_contra hc
    rw [not_lt] at hc
    have d := n2 _ r1
    rw [e2] at d
    exact not_above hX hq hc d

theorem absValue_nonneg (i f e : List Byte) : 0 ≤ absValue i f e := by unfold absValue; positivity

theorem toRange_zero (tiny : ℚ → Bool) (neg : Bool) : toRange tiny neg 0 = some (neg, .fin 0) := by
  rw [toRange, Dbl.rnd_zero]
  dsimp only
  rw [if_neg (fun h => lt_irrefl _ h.1)]

theorem toRange_normal {q : ℚ} (tiny : ℚ → Bool) (neg : Bool) (h1 : (2 : ℚ) ^ (-1022 : ℤ) ≤ q) (h2 : q < 2 ^ 1024 - 2 ^ 970) :
    toRange tiny neg q = some (neg, .fin (Dbl.round q)) := by
  have h0 : 0 < q := lt_of_lt_of_le (Dbl.two_pos _) h1
  rw [toRange, Dbl.rnd_pos h0, if_pos ((round_fits h0).2 h2)]
  dsimp only
  rw [if_neg (fun h => absurd h.2.1 (not_lt.2 h1))]

theorem toRange_great {q : ℚ} (tiny : ℚ → Bool) (neg : Bool) (h : (2 : ℚ) ^ 1024 - 2 ^ 970 ≤ q) : toRange tiny neg q = none := by
  have h0 : 0 < q := lt_of_lt_of_le (pow_gap (q := 0) (by rw [← pow_add]) (by positivity)).1 h
  rw [toRange, Dbl.rnd_pos h0, if_neg (fun hr => absurd ((round_fits h0).1 hr) (not_lt.2 h))]

theorem toRange_small {q : ℚ} (tiny : ℚ → Bool) (neg : Bool) (h0 : 0 < q) (h : q < 2 ^ (-1022 : ℤ)) :
    toRange tiny neg q = none ∨ toRange tiny neg q = some (neg, .fin (Dbl.round q)) := by
  have h2 : q < 2 ^ 1024 - 2 ^ 970 := by
    have a : (2 : ℚ) ^ (-1022 : ℤ) ≤ 1 := zpow_le_one_of_nonpos₀ (by norm_num) (by norm_num)
    exact (pow_gap (by rw [← pow_add]) (by positivity)).2 (one_le_pow₀ (by norm_num)) (lt_of_lt_of_le h a)
  rw [toRange, Dbl.rnd_pos h0, if_pos ((round_fits h0).2 h2)]
  dsimp only
  split
  · exact Or.inl rfl
  · exact Or.inr rfl

/-! ### C266: `double` -/

/-- **C266, in part.** Missing: texts of more than 511 chars, see `C266_not_long`. `jsonGetDouble` of a value that is written as a number gives the nearest `double`, and the default value if
the number is too great. A number below the least normal one gives the nearest `double` or the default value, as the C library has it (`tiny`). -/
theorem C266_nearest_partial (special : Bool) (tiny : ℚ → Bool) (v : JVal) (m i f e : List Byte) (old : Dbl.Double) (hn : Number m i f e)
    (hv : Written v (m ++ i ++ f ++ e)) (hl : (m ++ i ++ f ++ e).length ≤ 511) :
    ∃ r, getDouble special tiny v old = .ok r ∧
      (absValue i f e = 0 → r = (decide (m ≠ []), .fin 0)) ∧
      ((2 : ℚ) ^ (-1022 : ℤ) ≤ absValue i f e → absValue i f e < 2 ^ 1024 - 2 ^ 970 →
        ∃ d, r = (decide (m ≠ []), .fin d) ∧ Dbl.Nearest (absValue i f e) d) ∧
      (2 ^ 1024 - 2 ^ 970 ≤ absValue i f e → r = old) ∧
      (0 < absValue i f e → absValue i f e < (2 : ℚ) ^ (-1022 : ℤ) →
        r = old ∨ ∃ d, r = (decide (m ≠ []), .fin d) ∧ Dbl.Nearest (absValue i f e) d) := by
  simp only [List.append_assoc] at hv hl
  obtain ⟨view, ht, hg⟩ := written_get hv
  refine ⟨_, (hg _ _).trans (toDouble_number hn ht special tiny old), ?_, ?_, ?_, ?_⟩
  all_goals rw [if_pos hl]
  · intro h
    rw [h, toRange_zero]
    rfl
  · intro h1 h2
    rw [toRange_normal _ _ h1 h2]
    exact ⟨_, rfl, Dbl.round_nearest (lt_of_lt_of_le (Dbl.two_pos _) h1)⟩
  · intro h
    rw [toRange_great _ _ h]
    rfl
  · intro h1 h2
    rcases toRange_small tiny (decide (m ≠ [])) h1 h2 with h | h
    · rw [h]
      exact Or.inl rfl
    · rw [h]
      exact Or.inr ⟨_, rfl, Dbl.round_nearest h1⟩

/-- **C266 does not hold** of texts of more than 511 chars: of "1.000…0" with 510 zeros the result is the default value. -/
theorem C266_not_long : ∃ i f : List Byte, Number [] i f [] ∧ absValue i f [] = 1 ∧
    ∀ special tiny v old, Written v ([] ++ i ++ f ++ []) → getDouble special tiny v old = .ok old := by
  have hn : Number [] [chr '1'] (chr '.' :: List.replicate 510 (chr '0')) [] :=
    ⟨Or.inl rfl, Or.inr ⟨⟨by decide, by decide⟩, by decide⟩, Or.inr ⟨_, ⟨fun h => absurd (congrArg List.length h) (by rw [List.length_replicate]; decide), fun b hb => by
      rw [List.eq_of_mem_replicate hb]; decide⟩, rfl⟩, Or.inl rfl⟩
  refine ⟨_, _, hn, ?_, ?_⟩
  · have hd : decimal ([chr '1'] ++ List.replicate 510 (chr '0')) = 10 ^ 510 := by decide +kernel
    unfold absValue
    rw [List.drop_succ_cons, List.drop_zero, hd, List.length_replicate]
    show ((10 ^ 510 : ℕ) : ℚ) * 10 ^ (0 - (510 : ℤ)) = 1
    rw [zero_sub, zpow_neg, show (510 : ℤ) = ((510 : ℕ) : ℤ) by rfl, zpow_natCast]
    push_cast
    exact mul_inv_cancel₀ (by positivity)
  · intro special tiny v old hv
    rw [List.append_assoc, List.append_assoc] at hv
    obtain ⟨view, ht, hg⟩ := written_get hv
    rw [getDouble, hg, toDouble_number hn ht, if_neg (by simp only [List.length_append, List.length_cons, List.length_replicate, List.length_nil]; omega)]

example : Number (ascii "-") (ascii "12") (ascii ".5") (ascii "e+3") ∧ absValue (ascii "12") (ascii ".5") (ascii "e+3") = 12500 ∧
    Written (.scalar .float ⟨false, ascii "-12.5e+3, 1", 8⟩) (ascii "-" ++ ascii "12" ++ ascii ".5" ++ ascii "e+3") ∧
    getDouble true (fun _ => true) (.scalar .float ⟨false, ascii "-12.5e+3, 1", 8⟩) (false, .nan) = .ok (true, .fin 12500) := by
  have hn : Number (ascii "-") (ascii "12") (ascii ".5") (ascii "e+3") :=
    ⟨Or.inr (by decide), Or.inr ⟨⟨by decide, by decide⟩, by decide⟩, Or.inr ⟨ascii "5", ⟨by decide, by decide⟩, by decide⟩,
      Or.inr ⟨chr 'e', ascii "+", ascii "3", Or.inl rfl, Or.inr (Or.inl (by decide)), ⟨by decide, by decide⟩, by decide⟩⟩
  refine ⟨hn, by decide +kernel, Or.inl ?_, by decide +kernel⟩
  exact MeansBy.num (R := ⟨Shows, Shows, Shows⟩) (v := ⟨false, ascii "-12.5e+3, 1", 8⟩) hn ⟨rfl, by decide +kernel⟩

/-! ### C267: `float` -/

theorem single_least {q : ℚ} (h : Dbl.Single q) (h0 : 0 < q) : (2 : ℚ) ^ (-149 : ℤ) ≤ q := by
  obtain ⟨⟨m, k, hm, hk, rfl⟩, _⟩ := h
  have hm0 : 1 ≤ (m : ℚ) := by
    rcases Nat.eq_zero_or_pos m with rfl | hp
    · simp at h0
    · exact_mod_cast hp
  have h1 : (2 : ℚ) ^ (-149 : ℤ) ≤ 2 ^ k := zpow_le_zpow_right₀ (by norm_num) hk
  have h2 : 1 * (2 : ℚ) ^ k ≤ m * 2 ^ k := mul_le_mul_of_nonneg_right hm0 (Dbl.two_pos _).le
  linarith

theorem great_le {q : ℚ} (h : q ≤ 2 ^ 128) : q < 2 ^ 1024 - 2 ^ 970 := by
  have a : (2 : ℚ) ^ 128 ≤ 2 ^ 970 := pow_le_pow_right₀ (by norm_num) (by norm_num)
  have b : (2 : ℚ) ^ 1024 = 2 ^ 54 * 2 ^ 970 := by rw [← pow_add]
  have c : (0 : ℚ) < 2 ^ 970 := by positivity
  generalize (2 : ℚ) ^ 1024 = M at *
  generalize (2 : ℚ) ^ 970 = X at *
  generalize (2 : ℚ) ^ 128 = Y at *
  norm_num at b
  linarith

/-- **C267, in part.** Missing: texts of more than 511 chars (as for C266), and the nearest `float` for numbers that no `float` can have, see `C267_not_nearest` and `C267_not_range`.
`jsonGetFloat` of a value that is written as a number that a `float` can have gives this number. -/
theorem C267_exact_partial (special : Bool) (tiny : ℚ → Bool) (v : JVal) (m i f e : List Byte) (old : Dbl.Float) (hn : Number m i f e)
    (hv : Written v (m ++ i ++ f ++ e)) (hl : (m ++ i ++ f ++ e).length ≤ 511) (hs : Dbl.Single (absValue i f e)) :
    getFloat special tiny v old = .ok (decide (m ≠ []), .fin (absValue i f e)) := by
  simp only [List.append_assoc] at hv hl
  obtain ⟨view, ht, hg⟩ := written_get hv
  rw [getFloat, hg, toFloat_number hn ht, if_pos hl]
  rcases eq_or_lt_of_le (absValue_nonneg i f e) with h0 | h0
  · rw [← h0, toRange_zero]
    rfl
  · have h1 : (2 : ℚ) ^ (-1022 : ℤ) ≤ absValue i f e :=
      le_trans (zpow_le_zpow_right₀ (by norm_num) (by norm_num)) (single_least hs h0)
    rw [toRange_normal _ _ h1 (great_le hs.2.le), Dbl.round_exact h0 (Dbl.single_double hs)]
    show Except.ok (decide (m ≠ []), Dbl.narrow (.fin (absValue i f e))) = _
    rw [Dbl.narrow, Dbl.rnd32_exact h0.le hs]

theorem bound_sum {q d r y : ℚ} (h0 : 0 ≤ q) (h1 : |q - d| ≤ q * 2 ^ (-53 : ℤ)) (h2 : |d - r| ≤ d * 2 ^ (-24 : ℤ) + y) :
    |q - r| ≤ q * (2 ^ (-24 : ℤ) + 2 ^ (-52 : ℤ)) + y := by
  have e1 : (2 : ℚ) ^ (-53 : ℤ) = 1 / 9007199254740992 := by norm_num
  have e2 : (2 : ℚ) ^ (-24 : ℤ) = 1 / 16777216 := by norm_num
  have e3 : (2 : ℚ) ^ (-52 : ℤ) = 1 / 4503599627370496 := by norm_num
  rw [e1] at h1
  rw [e2] at h2 ⊢
  rw [e3]
  have a := abs_le.mp h1
  have b := abs_le.mp h2
  rw [abs_le]
  constructor <;> linarith

theorem tiny_single {q : ℚ} (h0 : 0 < q) (h : q < (2 : ℚ) ^ (-1022 : ℤ)) : Dbl.rnd32 (Dbl.round q) = .fin 0 := by
  obtain ⟨n1, n2, -⟩ := Dbl.round_nearest h0
  have hle : Dbl.round q ≤ 2 ^ (-1022 : ℤ) := by
    have d := n2 ((2 : ℚ) ^ (-1022 : ℤ)) ⟨1, -1022, by norm_num, by norm_num, by rw [Nat.cast_one, one_mul]⟩
    by_contra hc
    rw [not_le] at hc
    rw [abs_of_nonpos (by linarith), abs_of_nonpos (by linarith)] at d
    linarith
  rcases eq_or_lt_of_le (Dbl.rep_nonneg n1) with hz | hp
  · rw [← hz, Dbl.rnd32, if_pos (le_refl _)]
  · have he : Dbl.expo (Dbl.round q) ≤ -1022 := by
      by_contra hc
      have a := (Dbl.expo_spec hp).1
      have b : (2 : ℚ) ^ (-1022 : ℤ) < 2 ^ Dbl.expo (Dbl.round q) := zpow_lt_zpow_right₀ (by norm_num) (by omega)
      linarith
    have hpl : Dbl.place32 (Dbl.round q) = -149 := by unfold Dbl.place32; omega
    have hq : Dbl.halfEven (Dbl.round q / 2 ^ (-149 : ℤ)) = 0 := by
      refine Dbl.halfEven_close ?_
      rw [Int.cast_zero, sub_zero, abs_of_nonneg (div_nonneg hp.le (Dbl.two_pos _).le), div_lt_iff₀ (Dbl.two_pos _)]
      refine lt_of_le_of_lt hle ?_
      have e : (1 : ℚ) / 2 * 2 ^ (-149 : ℤ) = 2 ^ (-150 : ℤ) := by norm_num
      rw [e]
      exact zpow_lt_zpow_right₀ (by norm_num) (by norm_num)
    rw [Dbl.rnd32_pos hp, Dbl.round32, hpl, hq, Int.cast_zero, zero_mul, if_pos (by positivity)]

/-- **C267, in part.** Missing as above. The `float` differs from the number by at most half a unit of the last of 24 binary digits, and 2^-52 of it. -/
theorem C267_close_partial (special : Bool) (tiny : ℚ → Bool) (v : JVal) (m i f e : List Byte) (old : Dbl.Float) (hn : Number m i f e)
    (hv : Written v (m ++ i ++ f ++ e)) (hl : (m ++ i ++ f ++ e).length ≤ 511) :
    ∃ r, getFloat special tiny v old = .ok r ∧
      ((2 : ℚ) ^ (-1022 : ℤ) ≤ absValue i f e → absValue i f e ≤ 2 ^ 127 →
        ∃ s, r = (decide (m ≠ []), .fin s) ∧ Dbl.Single s ∧
          |absValue i f e - s| ≤ absValue i f e * (2 ^ (-24 : ℤ) + 2 ^ (-52 : ℤ)) + 2 ^ (-150 : ℤ)) ∧
      (2 ^ 1024 - 2 ^ 970 ≤ absValue i f e → r = old) ∧
      (0 < absValue i f e → absValue i f e < (2 : ℚ) ^ (-1022 : ℤ) → r = old ∨ r = (decide (m ≠ []), .fin 0)) := by
  simp only [List.append_assoc] at hv hl
  obtain ⟨view, ht, hg⟩ := written_get hv
  refine ⟨_, (hg _ _).trans (toFloat_number hn ht special tiny old), ?_, ?_, ?_⟩
  all_goals rw [if_pos hl]
  · intro h1 h2
    have h0 : 0 < absValue i f e := lt_of_lt_of_le (Dbl.two_pos _) h1
    have h3 : absValue i f e ≤ 2 ^ 128 := le_trans h2 (pow_le_pow_right₀ (by norm_num) (by norm_num))
    obtain ⟨d, hd, hde⟩ := Dbl.rnd_normal h1 (lt_of_le_of_lt h2 (by
      rw [← zpow_natCast]
      exact zpow_lt_zpow_right₀ (by norm_num) (by norm_num)))
    rw [Dbl.rnd_pos h0, if_pos ((round_fits h0).2 (great_le h3))] at hd
    injection hd with hd
    rw [toRange_normal _ _ h1 (great_le h3), hd]
    have hd0 : 0 ≤ d := by
      rw [← hd]
      exact Dbl.rep_nonneg (Dbl.round_representable h0)
    have hd1 : d < 2 ^ (127 : ℤ) * (3 / 2) := by
      have e1 : (2 : ℚ) ^ (-53 : ℤ) = 1 / 9007199254740992 := by norm_num
      rw [e1] at hde
      have a := abs_le.mp hde
      have b : (2 : ℚ) ^ (127 : ℤ) = 2 ^ 127 := by rw [show (127 : ℤ) = ((127 : ℕ) : ℤ) by rfl, zpow_natCast]
      rw [b]
      clear e1 hde h3 h1 hd hn hv hl ht b
      norm_num at h2 ⊢
      linarith
    obtain ⟨s, hs1, hs2, hs3⟩ := Dbl.rnd32_error hd0 hd1
    refine ⟨s, ?_, hs2, bound_sum h0.le hde hs3⟩
    show (decide (m ≠ []), Dbl.narrow (.fin d)) = _
    rw [Dbl.narrow, hs1]
  · intro h
    rw [toRange_great _ _ h]
    rfl
  · intro h1 h2
    rcases toRange_small tiny (decide (m ≠ [])) h1 h2 with h | h
    · rw [h]
      exact Or.inl rfl
    · rw [h]
      right
      show (decide (m ≠ []), Dbl.narrow (.fin (Dbl.round (absValue i f e)))) = _
      rw [Dbl.narrow, tiny_single h1 h2]

/-- **C267 does not hold.** The number is rounded twice: the nearest `float` of this number, which is a little more than 1 + 2^-24, is 1 + 2^-23, but the result is 1. -/
theorem C267_not_nearest : ∃ i f : List Byte, Number [] i f [] ∧ |absValue i f [] - (1 + 1 / 8388608)| < |absValue i f [] - 1| ∧
    Dbl.Single (1 + 1 / 8388608) ∧
    ∀ special tiny v old, Written v ([] ++ i ++ f ++ []) → getFloat special tiny v old = .ok (false, .fin 1) := by
  have hn : Number [] (ascii "1") (ascii ".00000005960464477539062500000000001") [] :=
    ⟨Or.inl rfl, Or.inr ⟨⟨by decide, by decide⟩, by decide⟩, Or.inr ⟨ascii "00000005960464477539062500000000001", ⟨by decide, by decide⟩, by decide⟩,
      Or.inl rfl⟩
  refine ⟨_, _, hn, by decide +kernel, ⟨⟨8388609, -23, by norm_num, by norm_num, by norm_num⟩, by norm_num⟩, ?_⟩
  intro special tiny v old hv
  rw [List.append_assoc, List.append_assoc] at hv
  obtain ⟨view, ht, hg⟩ := written_get hv
  rw [getFloat, hg, toFloat_number hn ht, if_pos (by decide), toRange_normal _ _ ?_ ?_]
  · have : Dbl.narrow (.fin (Dbl.round (absValue (ascii "1") (ascii ".00000005960464477539062500000000001") []))) = .fin 1 := by decide +kernel
    show Except.ok (false, Dbl.narrow _) = _
    rw [this]
  · decide +kernel
  · decide +kernel

/-- **C267 does not hold** of numbers that are too great for a `float`, but not for a `double`: the result is infinity instead of the default value. -/
theorem C267_not_range : ∃ i e : List Byte, Number [] i [] e ∧ absValue i [] e = 10 ^ 39 ∧ (2 : ℚ) ^ 128 ≤ absValue i [] e ∧
    ∀ special tiny v old, Written v ([] ++ i ++ [] ++ e) → getFloat special tiny v old = .ok (false, .inf) := by
  have hn : Number [] (ascii "1") [] (ascii "e39") :=
    ⟨Or.inl rfl, Or.inr ⟨⟨by decide, by decide⟩, by decide⟩, Or.inl rfl,
      Or.inr ⟨chr 'e', [], ascii "39", Or.inl rfl, Or.inl rfl, ⟨by decide, by decide⟩, by decide⟩⟩
  refine ⟨_, _, hn, by decide +kernel, by decide +kernel, ?_⟩
  intro special tiny v old hv
  rw [List.append_assoc, List.append_assoc] at hv
  obtain ⟨view, ht, hg⟩ := written_get hv
  rw [getFloat, hg, toFloat_number hn ht, if_pos (by decide), toRange_normal _ _ ?_ ?_]
  · have : Dbl.narrow (.fin (Dbl.round (absValue (ascii "1") [] (ascii "e39")))) = .inf := by decide +kernel
    show Except.ok (false, Dbl.narrow _) = _
    rw [this]
  · decide +kernel
  · decide +kernel

example : Number (ascii "-") (ascii "12") (ascii ".5") (ascii "e+3") ∧ Dbl.Single (absValue (ascii "12") (ascii ".5") (ascii "e+3")) ∧
    (2 : ℚ) ^ (-1022 : ℤ) ≤ absValue (ascii "12") (ascii ".5") (ascii "e+3") ∧ absValue (ascii "12") (ascii ".5") (ascii "e+3") ≤ 2 ^ 127 ∧
    getFloat false (fun _ => true) (.scalar .float ⟨false, ascii "-12.5e+3, 1", 8⟩) (false, .nan) = .ok (true, .fin 12500) := by
  have hv : absValue (ascii "12") (ascii ".5") (ascii "e+3") = 12500 := by decide +kernel
  refine ⟨⟨Or.inr (by decide), Or.inr ⟨⟨by decide, by decide⟩, by decide⟩, Or.inr ⟨ascii "5", ⟨by decide, by decide⟩, by decide⟩,
      Or.inr ⟨chr 'e', ascii "+", ascii "3", Or.inl rfl, Or.inr (Or.inl (by decide)), ⟨by decide, by decide⟩, by decide⟩⟩,
    ?_, by decide +kernel, by decide +kernel, by decide +kernel⟩
  rw [hv]
  exact ⟨⟨12500, 0, by norm_num, by norm_num, by norm_num⟩, by norm_num⟩

/-! ### C268: numbers that are not finite -/

theorem special_text {sign word : List Byte} (hs : sign = [] ∨ sign = [chr '+'] ∨ sign = [chr '-']) {c : Byte} {w : List Byte}
    (hw : word.map toLower = c :: w) (hc : c = 0x69 ∨ c = 0x6E) (tiny : ℚ → Bool) :
    signOf (sign ++ word) = (decide (sign = [chr '-']), word) ∧
    strtod tiny (sign ++ word) = strtodUnsigned tiny (decide (sign = [chr '-'])) word := by
  match word, hw with
  | x :: word, hw =>
    rw [List.map_cons] at hw
    injection hw with hx hw
    have hx' : toLower x = 0x69 ∨ toLower x = 0x6E := hx ▸ hc
    have key : isSpace x = false ∧ x ≠ 0x2B ∧ x ≠ 0x2D := by
      revert hx'
      clear hx hw
      revert x
      decide +kernel
    obtain ⟨k1, k2, k3⟩ := key
    rcases hs with rfl | rfl | rfl
    · constructor
      · rw [List.nil_append, signOf, if_neg k2, if_neg k3]
        rfl
      · rw [List.nil_append, strtod, List.dropWhile_cons, if_neg (by simp [k1])]
        dsimp only
        rw [if_neg k3, if_neg k2]
        rfl
    · exact ⟨rfl, rfl⟩
    · exact ⟨rfl, rfl⟩

theorem toLower_small (b : Byte) : toLower b = small b := by
  revert b
  decide +kernel

theorem map_small (t : List Byte) : t.map toLower = t.map small := List.map_congr_left fun b _ => toLower_small b

theorem get_special {v : JVal} {sign word : List Byte} (hs : sign = [] ∨ sign = [chr '+'] ∨ sign = [chr '-']) {c : Byte} {w : List Byte}
    (hw : word.map toLower = c :: w) (hc : c = 0x69 ∨ c = 0x6E) (hv : Written v (sign ++ word)) (hl : (sign ++ word).length ≤ 511)
    {x : Dbl.F} (special : Bool) (tiny : ℚ → Bool)
    (h1 : specialValue special (sign ++ word) = none ∨ specialValue special (sign ++ word) = some (decide (sign = [chr '-']), x))
    (h2 : strtodUnsigned tiny (decide (sign = [chr '-'])) word = some (decide (sign = [chr '-']), x)) :
    (∀ old, getDouble special tiny v old = .ok (decide (sign = [chr '-']), x)) ∧
    ∀ old, getFloat special tiny v old = .ok (decide (sign = [chr '-']), Dbl.narrow x) := by
  obtain ⟨view, ht, hg⟩ := written_get hv
  have hz : view.size ≠ 0 := by
    rw [view_length ht]
    match word, hw with
    | x :: word, _ => simp
  have hd : tmjToDouble tiny (sign ++ word) = some (decide (sign = [chr '-']), x) := by
    rw [tmjToDouble, if_neg (by omega), (special_text hs hw hc tiny).2, h2]
  constructor
  · intro old
    rw [getDouble, hg, toDouble, if_neg hz, ht, ok_bind]
    rcases h1 with h1 | h1
    · rw [h1, hd]
      rfl
    · rw [h1]
  · intro old
    rw [getFloat, hg, toFloat, if_neg hz, ht, ok_bind]
    rcases h1 with h1 | h1
    · rw [h1, hd]
    · rw [h1]

/-- **C268.** `jsonGetDouble` and `jsonGetFloat` of a value that is written as infinity or NaN, with or without a sign and in letters of any case, give infinity or NaN with this sign,
whether `TM_INFINITY` and `TM_NAN` are defined or not. -/
theorem C268_special (special : Bool) (tiny : ℚ → Bool) (v : JVal) (sign word : List Byte) (hs : sign = [] ∨ sign = [chr '+'] ∨ sign = [chr '-'])
    (hv : Written v (sign ++ word)) :
    (word.map small = ascii "infinity" → (∀ old, getDouble special tiny v old = .ok (decide (sign = [chr '-']), .inf)) ∧
      ∀ old, getFloat special tiny v old = .ok (decide (sign = [chr '-']), .inf)) ∧
    (word.map small = ascii "nan" → (∀ old, getDouble special tiny v old = .ok (decide (sign = [chr '-']), .nan)) ∧
      ∀ old, getFloat special tiny v old = .ok (decide (sign = [chr '-']), .nan)) := by
  have hsl : sign.length ≤ 1 := by rcases hs with rfl | rfl | rfl <;> decide
  constructor
  · intro hw
    rw [← map_small] at hw
    have hlen : word.length = 8 := by have := congrArg List.length hw; rwa [List.length_map] at this
    have hb : beginsIgnoreCase word [0x69, 0x6E, 0x66] = true := by
      unfold beginsIgnoreCase
      rw [List.map_take, hw]
      decide
    refine get_special hs hw (Or.inl rfl) hv (by rw [List.length_append]; omega) special tiny ?_ ?_
    · cases special with
      | false => exact Or.inl rfl
      | true =>
        right
        rw [specialValue, if_pos rfl, (special_text hs hw (Or.inl rfl) tiny).1]
        dsimp only
        rw [if_pos]
        unfold equalsIgnoreCase
        rw [hw, hlen]
        decide
    · rw [strtodUnsigned, if_pos hb]
  · intro hw
    rw [← map_small] at hw
    have hlen : word.length = 3 := by have := congrArg List.length hw; rwa [List.length_map] at this
    have ha : beginsIgnoreCase word [0x69, 0x6E, 0x66] = false := by
      unfold beginsIgnoreCase
      rw [List.map_take, hw]
      decide
    have hb : beginsIgnoreCase word [0x6E, 0x61, 0x6E] = true := by
      unfold beginsIgnoreCase
      rw [List.map_take, hw]
      decide
    refine get_special hs hw (Or.inr rfl) hv (by rw [List.length_append]; omega) special tiny ?_ ?_
    · cases special with
      | false => exact Or.inl rfl
      | true =>
        right
        rw [specialValue, if_pos rfl, (special_text hs hw (Or.inr rfl) tiny).1]
        dsimp only
        rw [if_neg, if_pos]
        · unfold equalsIgnoreCase
          rw [hw, hlen]
          decide
        · unfold equalsIgnoreCase
          rw [hw, hlen]
          decide
    · rw [strtodUnsigned, ha, hb, if_neg (by decide), if_pos rfl]

example : Written (.scalar .string ⟨false, ascii "-InFinity", 9⟩) (ascii "-" ++ ascii "InFinity") ∧ (ascii "InFinity").map small = ascii "infinity" ∧
    (ascii "NaN").map small = ascii "nan" := ⟨written_witness _, by decide +kernel, by decide +kernel⟩

/-! ### C269: values that are no numbers -/

/-- **C269, in part.** Missing: other texts that are no numbers, see `C269_not_default`. `jsonGetDouble` and `jsonGetFloat` give the default value for null, objects and arrays, and all
functions for numbers give it for the empty string. -/
theorem C269_default_partial (special : Bool) (tiny : ℚ → Bool) (v : JVal) (j : Json) (hv : Means v j) (a : BitVec 32) (b : BitVec 64) (d : Dbl.Double)
    (x : Dbl.Float) :
    ((j = .null ∨ (∃ items, j = .arr items) ∨ (∃ members, j = .obj members) ∨ j = .str []) → getDouble special tiny v d = .ok d ∧ getFloat special tiny v x = .ok x) ∧
    (j = .str [] → getInt v a = .ok a ∧ getUInt v a = .ok a ∧ getInt64 v b = .ok b ∧ getUInt64 v b = .ok b) := by
  have he : ∀ view : View, Shows view [] → view.size = 0 := fun view h => view_length h.2
  constructor
  · rintro (rfl | ⟨items, rfl⟩ | ⟨members, rfl⟩ | rfl)
    · cases hv; exact ⟨rfl, rfl⟩
    · cases hv; exact ⟨rfl, rfl⟩
    · cases hv; exact ⟨rfl, rfl⟩
    · cases hv with
      | str hs => exact ⟨if_pos (he _ hs), if_pos (he _ hs)⟩
  · rintro rfl
    cases hv with
    | str hs => exact ⟨if_pos (he _ hs), if_pos (he _ hs), if_pos (he _ hs), if_pos (he _ hs)⟩

/-- **C269 does not hold** of texts that are no numbers: of "abc" the result is zero, not the default value. -/
theorem C269_not_default : ∀ v, Means v (.str (ascii "abc")) →
    getInt v 7 = .ok 0 ∧ getUInt v 7 = .ok 0 ∧ getInt64 v 7 = .ok 0 ∧ getUInt64 v 7 = .ok 0 ∧
    ∀ special tiny old, getDouble special tiny v old = .ok (false, .fin 0) ∧ getFloat special tiny v old = .ok (false, .fin 0) := by
  intro v hv
  obtain ⟨view, ht, hg⟩ := written_get (Or.inr hv)
  have hz : view.size ≠ 0 := by rw [view_length ht]; decide
  have hd : ∀ tiny, tmjToDouble tiny (ascii "abc") = some (false, .fin 0) := by
    intro tiny
    show strtodUnsigned tiny false (ascii "abc") = _
    rw [strtodUnsigned, if_neg (by decide), if_neg (by decide), if_neg (by decide)]
  have hp : ∀ special, specialValue special (ascii "abc") = none := by decide +kernel
  refine ⟨?_, ?_, ?_, ?_, ?_⟩
  · rw [getInt, hg, toSigned, if_neg hz, ht, ok_bind]
    rfl
  · rw [getUInt, hg, toUnsigned, if_neg hz, ht, ok_bind]
    rfl
  · rw [getInt64, hg, toSigned, if_neg hz, ht, ok_bind]
    rfl
  · rw [getUInt64, hg, toUnsigned, if_neg hz, ht, ok_bind]
    rfl
  · intro special tiny old
    constructor
    · rw [getDouble, hg, toDouble, if_neg hz, ht, ok_bind, hp, hd]
      rfl
    · rw [getFloat, hg, toFloat, if_neg hz, ht, ok_bind, hp, hd]
      rfl

example : Means (.scalar .string ⟨false, ascii "abc", 3⟩) (.str (ascii "abc")) ∧ Means (.scalar .string ⟨false, [], 0⟩) (.str []) :=
  ⟨.str ⟨rfl, by decide⟩, .str ⟨rfl, by decide⟩⟩

end Tm.Json
