import Verif.Util.Float
import Verif.Dbl.FloatProps

/-!
# Properties of the functions of `float`
-/

namespace Tm.Util

open Dbl (F rnd32 Single NearestSingle)

/-- Something that a `float` can be. -/
def IsFloat (a : Dbl.Float) : Prop :=
  match a.2 with
  | .fin q => Single q
  | _ => True

/-- The `float` is this number. -/
def Is (a : Dbl.Float) (x : ℚ) : Prop := ∃ s q, a = (s, .fin q) ∧ Single q ∧ x = if s then -q else q

/-! ## Rounding -/

theorem single_nonneg {q : ℚ} (h : Single q) : 0 ≤ q := by
  obtain ⟨⟨m, k, _, _, rfl⟩, _⟩ := h
  positivity

theorem single_zero : Single 0 := ⟨⟨0, 0, by norm_num, by norm_num, by norm_num⟩, by norm_num⟩

/-- Rounding does not go beyond a number that a `float` can have. -/
theorem rnd32_between {q lo hi : ℚ} (h0 : 0 ≤ q) (hlo : Single lo) (hhi : Single hi) (h1 : lo ≤ q) (h2 : q ≤ hi) :
    ∃ r, rnd32 q = .fin r ∧ Single r ∧ lo ≤ r ∧ r ≤ hi := by
  rcases eq_or_lt_of_le h0 with rfl | h0
  · exact ⟨0, by rw [rnd32, if_pos (le_refl _)], single_zero, h1, h2⟩
  · obtain ⟨n2, -⟩ := Dbl.round32_nearest h0
    have a := n2 hi hhi
    have b := n2 lo hlo
    have hle : Dbl.round32 q ≤ hi := by
      by_contra hc
      rw [not_le] at hc
      rw [abs_of_nonpos (by linarith), abs_of_nonpos (by linarith)] at a
      linarith
    have hge : lo ≤ Dbl.round32 q := by
      by_contra hc
      rw [not_le] at hc
      rw [abs_of_nonneg (by linarith), abs_of_nonneg (by linarith)] at b
      linarith
    have hlt := lt_of_le_of_lt hle hhi.2
    exact ⟨_, by rw [Dbl.rnd32_pos h0, if_pos hlt], ⟨Dbl.round32_representable h0, hlt⟩, hge, hle⟩

theorem rounded_exact {s : Bool} {x : ℚ} (h : Single |x|) : Is (rounded s x) x := by
  unfold rounded
  split
  · rename_i hx
    subst hx
    exact ⟨s, 0, rfl, single_zero, by simp⟩
  · rw [Dbl.rnd32_exact (abs_nonneg x) h]
    refine ⟨_, _, rfl, h, ?_⟩
    by_cases hx : x < 0
    · rw [if_pos (by simpa using hx), abs_of_neg hx, neg_neg]
    · rw [if_neg (by simpa using hx), abs_of_nonneg (not_lt.1 hx)]

/-- Rounding of a number with a sign between two numbers that a `float` can have. -/
theorem rounded_between {s : Bool} {x lo hi : ℚ} (hlo : Single |lo|) (hhi : Single |hi|) (h1 : lo ≤ x) (h2 : x ≤ hi) :
    ∃ r, Is (rounded s x) r ∧ lo ≤ r ∧ r ≤ hi := by
  by_cases hx : x = 0
  · subst hx
    exact ⟨0, ⟨s, 0, by rw [rounded, if_pos rfl], single_zero, by simp⟩, h1, h2⟩
  · unfold rounded
    rw [if_neg hx]
    by_cases hn : x < 0
    · have : ∃ r, rnd32 |x| = .fin r ∧ Single r ∧ max 0 (-hi) ≤ r ∧ r ≤ |lo| := by
        refine rnd32_between (abs_nonneg x) ?_ hlo ?_ ?_
        · rcases le_total hi 0 with h | h
          · rw [max_eq_right (by linarith), ← abs_of_nonpos h]; exact hhi
          · rw [max_eq_left (by linarith)]; exact single_zero
        · rw [abs_of_neg hn]; exact max_le (by linarith) (by linarith)
        · rw [abs_of_neg hn, abs_of_neg (lt_of_le_of_lt h1 hn)]; linarith
      obtain ⟨r, e1, e2, e3, e4⟩ := this
      rw [abs_of_neg (lt_of_le_of_lt h1 hn)] at e4
      refine ⟨-r, ⟨true, r, by rw [e1]; simp [hn], e2, by simp⟩, by linarith, ?_⟩
      have := le_trans (le_max_right 0 (-hi)) e3
      linarith
    · have hp : 0 < x := lt_of_le_of_ne (not_lt.1 hn) (Ne.symm hx)
      have : ∃ r, rnd32 |x| = .fin r ∧ Single r ∧ max 0 lo ≤ r ∧ r ≤ |hi| := by
        refine rnd32_between (abs_nonneg x) ?_ hhi ?_ ?_
        · rcases le_total 0 lo with h | h
          · rw [max_eq_right h, ← abs_of_nonneg h]; exact hlo
          · rw [max_eq_left h]; exact single_zero
        · rw [abs_of_pos hp]; exact max_le (by linarith) (by linarith)
        · rw [abs_of_pos hp, abs_of_pos (lt_of_lt_of_le hp h2)]; linarith
      obtain ⟨r, e1, e2, e3, e4⟩ := this
      rw [abs_of_pos (lt_of_lt_of_le hp h2)] at e4
      exact ⟨r, ⟨false, r, by rw [e1]; simp [hn], e2, by simp⟩, le_trans (le_max_right 0 lo) e3, e4⟩

theorem is_single {a : Dbl.Float} {x : ℚ} (h : Is a x) : Single |x| := by
  obtain ⟨s, q, rfl, hq, rfl⟩ := h
  have := single_nonneg hq
  cases s
  · simpa [abs_of_nonneg this] using hq
  · simpa [abs_of_nonneg this] using hq

theorem is_signed {a : Dbl.Float} {x : ℚ} (h : Is a x) : ∃ s q, a = (s, .fin q) ∧ Single q ∧ signed s q = x := by
  obtain ⟨s, q, rfl, hq, rfl⟩ := h
  exact ⟨s, q, rfl, hq, rfl⟩

theorem fadd_is {a b : Dbl.Float} {x y : ℚ} (ha : Is a x) (hb : Is b y) : ∃ s, fadd a b = rounded s (x + y) := by
  obtain ⟨s, p, rfl, -, rfl⟩ := is_signed ha
  obtain ⟨t, q, rfl, -, rfl⟩ := is_signed hb
  exact ⟨_, rfl⟩

theorem fneg_is {a : Dbl.Float} {x : ℚ} (ha : Is a x) : Is (fneg a) (-x) := by
  obtain ⟨s, p, rfl, hp, rfl⟩ := ha
  refine ⟨!s, p, rfl, hp, ?_⟩
  cases s <;> simp

theorem fsub_is {a b : Dbl.Float} {x y : ℚ} (ha : Is a x) (hb : Is b y) : ∃ s, fsub a b = rounded s (x - y) := by
  obtain ⟨s, h⟩ := fadd_is ha (fneg_is hb)
  exact ⟨s, by rw [fsub, h, sub_eq_add_neg]⟩

theorem fmul_is {a b : Dbl.Float} {x y : ℚ} (ha : Is a x) (hb : Is b y) : ∃ s, fmul a b = rounded s (x * y) := by
  obtain ⟨s, p, rfl, hp, rfl⟩ := is_signed ha
  obtain ⟨t, q, rfl, hq, rfl⟩ := is_signed hb
  have h1 := single_nonneg hp
  have h2 := single_nonneg hq
  have habs : |signed s p * signed t q| = p * q := by
    rw [abs_mul]
    cases s <;> cases t <;> simp [signed, abs_of_nonneg h1, abs_of_nonneg h2]
  refine ⟨s != t, ?_⟩
  unfold fmul rounded
  rw [habs]
  dsimp only
  split
  · rename_i hz
    rw [hz, abs_zero] at habs
    rw [← habs, rnd32, if_pos (le_refl _)]
  · rename_i hz
    have hpq : 0 < p * q := by
      rw [← habs]
      exact abs_pos.2 hz
    congr 1
    cases s <;> cases t <;> simp [signed] <;> linarith

/-- Rounding keeps the order. -/
theorem rnd32_mono {q q' r r' : ℚ} (h0 : 0 ≤ q) (h : q ≤ q') (e : rnd32 q = .fin r) (e' : rnd32 q' = .fin r') : r ≤ r' := by
  rcases eq_or_lt_of_le h0 with rfl | h0
  · rw [rnd32, if_pos (le_refl _)] at e
    injection e with e
    subst e
    rcases eq_or_lt_of_le h with rfl | h
    · rw [rnd32, if_pos (le_refl _)] at e'
      injection e' with e'
      exact e'.le
    · exact single_nonneg (Dbl.rnd32_nearest h e').1
  · rcases eq_or_lt_of_le h with rfl | hlt
    · rw [e] at e'
      injection e' with e'
      exact e'.le
    · obtain ⟨s1, n1, -⟩ := Dbl.rnd32_nearest h0 e
      obtain ⟨s2, n2, -⟩ := Dbl.rnd32_nearest (lt_trans h0 hlt) e'
      have a := n1 r' s2
      have b := n2 r s1
      by_contra hc
      rw [not_le] at hc
      have c := abs_le.mp a
      rcases le_total q r' with hq | hq
      · rw [abs_of_nonpos (show q - r ≤ 0 by linarith), abs_of_nonpos (show q - r' ≤ 0 by linarith)] at a
        linarith
      · rw [abs_of_nonneg (show 0 ≤ q - r' by linarith)] at a
        rw [abs_of_nonneg (show 0 ≤ q' - r' by linarith)] at b
        rcases le_total q r with hr | hr
        · rw [abs_of_nonpos (show q - r ≤ 0 by linarith)] at a
          rcases le_total q' r with hr' | hr'
          · rw [abs_of_nonpos (show q' - r ≤ 0 by linarith)] at b
            linarith
          · rw [abs_of_nonneg (show 0 ≤ q' - r by linarith)] at b
            linarith
        · rw [abs_of_nonneg (show 0 ≤ q' - r by linarith)] at b
          linarith

/-! ## C270: comparison with a tolerance -/

theorem tolerance_value : tolerance = (false, .fin (8796093 / 8796093022208)) := by decide +kernel

theorem tolerance_is : Is tolerance (8796093 / 8796093022208) :=
  ⟨false, _, tolerance_value, ⟨⟨8796093, -43, by norm_num, by norm_num, by norm_num⟩, by norm_num⟩, by simp⟩

theorem fabs_rounded (s t : Bool) (x : ℚ) : fabs (rounded s x) = fabs (rounded t (-x)) := by
  unfold rounded fabs
  by_cases h : x = 0
  · rw [if_pos h, if_pos (by rw [h, neg_zero])]
  · rw [if_neg h, if_neg (by simpa using h), abs_neg]

theorem fsub_swap (a b : Dbl.Float) : fabs (fsub a b) = fabs (fsub b a) := by
  obtain ⟨s, x⟩ := a
  obtain ⟨t, y⟩ := b
  cases x <;> cases y <;> try rfl
  · rename_i p q
    show fabs (rounded _ (signed s p + signed (!t) q)) = fabs (rounded _ (signed t q + signed (!s) p))
    rw [fabs_rounded _ (t && !s)]
    congr 2
    cases s <;> cases t <;> simp [signed] <;> ring
  · cases s <;> cases t <;> rfl

theorem feq_swap (a b : Dbl.Float) : feq a b = feq b a := by
  obtain ⟨s, x⟩ := a
  obtain ⟨t, y⟩ := b
  cases x <;> cases y <;> try rfl
  · simp only [feq, eq_comm]
  · simp only [feq, eq_comm]

theorem fmax_swap (a b : Dbl.Float) (ha : a.2 ≠ .nan) (hb : b.2 ≠ .nan) : fmax (fabs a) (fabs b) = fmax (fabs b) (fabs a) := by
  obtain ⟨s, x⟩ := a
  obtain ⟨t, y⟩ := b
  cases x <;> cases y <;> first | rfl | (exact absurd rfl ha) | (exact absurd rfl hb) | skip
  rename_i p q
  simp only [fmax, fabs, flt, signed]
  rcases lt_trichotomy p q with h | h | h
  · simp [h, not_lt.2 h.le]
  · simp [h]
  · simp [h, not_lt.2 h.le]

theorem fsub_nan {a b : Dbl.Float} (h : a.2 = .nan ∨ b.2 = .nan) : (fsub a b).2 = .nan := by
  obtain ⟨s, x⟩ := a
  obtain ⟨t, y⟩ := b
  rcases h with h | h
  · change x = .nan at h; subst h; cases y <;> rfl
  · change y = .nan at h; subst h; cases x <;> rfl

theorem fle_nan {a b : Dbl.Float} (h : a.2 = .nan) : fle (fabs a) b = false := by
  obtain ⟨s, x⟩ := a
  change x = .nan at h
  subst h
  rfl

/-- **C270.** `floatToleranceComparison` does not depend on the order of its arguments, whatever they are. -/
theorem C270_symmetric (a b : Dbl.Float) : floatToleranceComparison a b = floatToleranceComparison b a := by
  unfold floatToleranceComparison
  rw [feq_swap b a, fsub_swap b a]
  by_cases h : a.2 = .nan ∨ b.2 = .nan
  · have := fsub_nan h
    rw [fle_nan this, fle_nan this, fle_nan this]
  · rw [fmax_swap a b (fun e => h (Or.inl e)) (fun e => h (Or.inr e))]

/-- **C270.** Numbers and infinities are equal to themselves; NaN is equal to nothing. -/
theorem C270_same (a b : Dbl.Float) : (a.2 ≠ .nan → floatToleranceComparison a a = true) ∧
    (a.2 = .nan ∨ b.2 = .nan → floatToleranceComparison a b = false) := by
  constructor
  · intro h
    have : feq a a = true := by
      obtain ⟨s, x⟩ := a
      cases x <;> first | exact absurd rfl h | simp [feq]
    rw [floatToleranceComparison, if_pos this]
  · intro h
    have hd := fsub_nan h
    have : feq a b = false := by
      obtain ⟨s, x⟩ := a
      obtain ⟨t, y⟩ := b
      rcases h with h | h
      · change x = .nan at h; subst h; cases y <;> rfl
      · change y = .nan at h; subst h; cases x <;> rfl
    rw [floatToleranceComparison, this, if_neg (by simp), fle_nan hd, fle_nan hd]
    rfl

theorem fle_fin (p q : ℚ) : fle (false, .fin p) (false, .fin q) = true ↔ p ≤ q := by
  simp only [fle, flt, feq, signed, Bool.or_eq_true, decide_eq_true_eq]
  simp only [decide_eq_true_eq, Bool.false_eq_true, if_false]
  exact (le_iff_lt_or_eq (a := p) (b := q)).symm

theorem fmax_is {a b : Dbl.Float} {x y : ℚ} (ha : Is a x) (hb : Is b y) : fmax (fabs a) (fabs b) = (false, .fin (max |x| |y|)) := by
  obtain ⟨s, p, rfl, hp, rfl⟩ := ha
  obtain ⟨t, q, rfl, hq, rfl⟩ := hb
  have e1 : ∀ (s : Bool) {p : ℚ}, Single p → |(if s then -p else p)| = p := by
    intro s p hp
    have := single_nonneg hp
    cases s <;> simp [abs_of_nonneg this]
  rw [e1 s hp, e1 t hq]
  simp only [fmax, fabs, flt, signed]
  rcases lt_or_ge p q with h | h
  · simp [h, max_eq_right h.le]
  · simp [not_lt.2 h, max_eq_left h]

theorem fabs_sub_is {a b : Dbl.Float} {x y : ℚ} (ha : Is a x) (hb : Is b y) : fabs (fsub a b) = (false, rnd32 |x - y|) := by
  obtain ⟨s, h⟩ := fsub_is ha hb
  rw [h, rounded, fabs]
  split
  · rename_i hz
    rw [hz, abs_zero, rnd32, if_pos (le_refl _)]
  · rfl

theorem feq_is {a b : Dbl.Float} {x y : ℚ} (ha : Is a x) (hb : Is b y) : feq a b = true ↔ x = y := by
  obtain ⟨s, p, rfl, hp, rfl⟩ := is_signed ha
  obtain ⟨t, q, rfl, hq, rfl⟩ := is_signed hb
  simp [feq]

theorem single_pow {k : ℤ} (h1 : -149 ≤ k) (h2 : k ≤ 127) : Single (2 ^ k) := by
  refine ⟨⟨1, k, by norm_num, h1, by rw [Nat.cast_one, one_mul]⟩, ?_⟩
  rw [← zpow_natCast]
  exact zpow_lt_zpow_right₀ (by norm_num) (by push_cast; omega)

/-- **C270, in part.** Missing: infinities, see `C270_not_infinite`. For finite numbers: equal if they differ by at most 0.999999 millionths of 1 or of the greater one of them, and not equal if they differ by more than
1.000001 millionths of both. -/
theorem C270_finite_partial {a b : Dbl.Float} {x y : ℚ} (ha : Is a x) (hb : Is b y) :
    (|x - y| ≤ 999999 / 10 ^ 12 * max 1 (max |x| |y|) → floatToleranceComparison a b = true) ∧
    (1000001 / 10 ^ 12 * max 1 (max |x| |y|) < |x - y| → floatToleranceComparison a b = false) := by
  have hM : Single (max |x| |y|) := by
    rcases max_choice |x| |y| with h | h <;> rw [h]
    · exact is_single ha
    · exact is_single hb
  have hmax := fmax_is ha hb
  generalize max |x| |y| = M at hM hmax ⊢
  have hM0 := single_nonneg hM
  have hM1 : M < 2 ^ 128 := hM.2
  have hT : Single (8796093 / 8796093022208 : ℚ) := ⟨⟨8796093, -43, by norm_num, by norm_num, by norm_num⟩, by norm_num⟩
  have h109 : 8796093 / 8796093022208 * M ≤ (2 : ℚ) ^ (109 : ℤ) := by
    norm_num at hM1 ⊢
    linarith
  have hs109 : Single ((2 : ℚ) ^ (109 : ℤ)) := single_pow (by norm_num) (by norm_num)
  -- the product of the tolerance and the greater number
  obtain ⟨w, hw, hws, hw0, hw2⟩ := rnd32_between (q := 8796093 / 8796093022208 * M) (by positivity) single_zero hs109 (by positivity) h109
  have hmul : fmul tolerance (fmax (fabs a) (fabs b)) = (false, .fin w) := by
    rw [hmax, tolerance_value]
    show (false, rnd32 _) = _
    rw [hw]
  have hcmp : feq a b = false → ∀ d, rnd32 |x - y| = .fin d →
      (floatToleranceComparison a b = true ↔ d ≤ 8796093 / 8796093022208 ∨ d ≤ w) := by
    intro hne d hd
    rw [floatToleranceComparison, hne, if_neg (by simp), hmul, fabs_sub_is ha hb, hd, tolerance_value, Bool.or_eq_true, fle_fin, fle_fin]
  constructor
  · intro h
    by_cases he : feq a b = true
    · rw [floatToleranceComparison, if_pos he]
    · have hne : feq a b = false := by simpa using he
      rcases le_total 1 M with hm | hm
      · rw [max_eq_right hm] at h
        have h' : |x - y| ≤ 8796093 / 8796093022208 * M := by
          norm_num at h ⊢
          linarith
        obtain ⟨d, hd, -, -, -⟩ := rnd32_between (abs_nonneg (x - y)) single_zero hs109 (abs_nonneg _) (le_trans h' h109)
        exact (hcmp hne d hd).2 (Or.inr (rnd32_mono (abs_nonneg _) h' hd hw))
      · rw [max_eq_left hm] at h
        have h' : |x - y| ≤ 8796093 / 8796093022208 := le_trans h (by norm_num)
        obtain ⟨d, hd, -, -, h2⟩ := rnd32_between (abs_nonneg (x - y)) single_zero hT (abs_nonneg _) h'
        exact (hcmp hne d hd).2 (Or.inl h2)
  · intro h
    have hmx1 : 1 ≤ max 1 M := le_max_left _ _
    have hmxM : M ≤ max 1 M := le_max_right _ _
    generalize max 1 M = mx at *
    have hpos : 0 < |x - y| := lt_of_le_of_lt (by positivity) h
    have hne : feq a b = false := by
      by_contra hc
      have := (feq_is ha hb).1 (by simpa using hc)
      rw [this, sub_self, abs_zero] at hpos
      exact lt_irrefl _ hpos
    cases hd : rnd32 |x - y| with
    | inf =>
      rw [floatToleranceComparison, hne, if_neg (by simp), hmul, fabs_sub_is ha hb, hd, tolerance_value]
      rfl
    | nan =>
      rw [floatToleranceComparison, hne, if_neg (by simp), hmul, fabs_sub_is ha hb, hd, tolerance_value]
      rfl
    | fin d =>
      by_contra hc
      have hle := (hcmp hne d hd).1 (by simpa using hc)
      rcases lt_or_ge |x - y| (2 ^ (127 : ℤ) * (3 / 2)) with hlt | hge
      · obtain ⟨r, r1, -, r3⟩ := Dbl.rnd32_error (abs_nonneg (x - y)) hlt
        rw [hd] at r1
        injection r1 with r1
        subst r1
        obtain ⟨r, r1, -, w3⟩ := Dbl.rnd32_error (d := 8796093 / 8796093022208 * M) (by positivity) (lt_of_le_of_lt h109 (by norm_num))
        rw [hw] at r1
        injection r1 with r1
        subst r1
        have e1 : (2 : ℚ) ^ (-24 : ℤ) = 1 / 16777216 := by norm_num
        have e2 : (2 : ℚ) ^ (-150 : ℤ) ≤ 1 / 10 ^ 20 := by norm_num
        rw [e1] at r3 w3
        have r4 := abs_le.mp r3
        have w4 := abs_le.mp w3
        generalize (2 : ℚ) ^ (-150 : ℤ) = y0 at *
        norm_num at h e2
        rcases hle with hle | hle <;> linarith
      · have hmono := rnd32_mono (q := 2 ^ (127 : ℤ)) (Dbl.two_pos _).le (le_trans (by norm_num) hge)
          (Dbl.rnd32_exact (Dbl.two_pos _).le (single_pow (by norm_num) (by norm_num))) hd
        have e3 : (2 : ℚ) ^ (109 : ℤ) < 2 ^ (127 : ℤ) := zpow_lt_zpow_right₀ (by norm_num) (by norm_num)
        have e4 : (8796093 / 8796093022208 : ℚ) < 2 ^ (127 : ℤ) := by norm_num
        rcases hle with hle | hle <;> linarith

/-- An infinity is equal to every number and to the other infinity. -/
theorem C270_not_infinite : floatToleranceComparison (false, .inf) (false, .fin 1) = true ∧
    floatToleranceComparison (false, .inf) (true, .inf) = true := by decide +kernel

example : Is (false, .fin 16777216) 16777216 ∧ Is (false, .fin 16777200) 16777200 ∧
    |(16777216 : ℚ) - 16777200| ≤ 999999 / 10 ^ 12 * max 1 (max |16777216| |16777200|) ∧
    floatToleranceComparison (false, .fin 16777216) (false, .fin 16777200) = true ∧
    floatToleranceComparison (false, .fin 16777216) (false, .fin 16777196) = false := by
  refine ⟨⟨false, _, rfl, ⟨⟨1, 24, by norm_num, by norm_num, by norm_num⟩, by norm_num⟩, by simp⟩,
    ⟨false, _, rfl, ⟨⟨16777200, 0, by norm_num, by norm_num, by norm_num⟩, by norm_num⟩, by simp⟩, by norm_num, by decide +kernel, by decide +kernel⟩

/-! ## C271: `lerp` -/

/-- The last two operations of `lerp` and `remap`. -/
theorem blend {u a d : Dbl.Float} {t x y : ℚ} (hu : Is u t) (ha : Is a x) (hb : Single |y|) (hd : Is d (y - x)) (h0 : 0 ≤ t) (h1 : t ≤ 1) :
    ∃ r, Is (fadd a (fmul u d)) r ∧ min x y ≤ r ∧ r ≤ max x y ∧ (t = 0 → r = x) ∧ (t = 1 → r = y) := by
  obtain ⟨s, hm⟩ := fmul_is hu hd
  have hx := is_single ha
  have hds := is_single hd
  -- the product lies between zero and the difference
  have hp : ∃ z, Is (fmul u d) z ∧ min 0 (y - x) ≤ z ∧ z ≤ max 0 (y - x) ∧ (t = 0 → z = 0) ∧ (t = 1 → z = y - x) := by
    by_cases e0 : t = 0
    · subst e0
      refine ⟨0, ?_, min_le_left _ _, le_max_left _ _, fun _ => rfl, fun h => by norm_num at h⟩
      rw [hm, zero_mul]
      exact rounded_exact (by simpa using single_zero)
    · by_cases e1 : t = 1
      · subst e1
        refine ⟨y - x, ?_, min_le_right _ _, le_max_right _ _, fun h => by norm_num at h, fun _ => rfl⟩
        rw [hm, one_mul]
        exact rounded_exact hds
      · rw [hm]
        obtain ⟨z, z1, z2, z3⟩ := rounded_between (s := s) (x := t * (y - x)) (lo := min 0 (y - x)) (hi := max 0 (y - x))
          (by rcases min_choice 0 (y - x) with h | h <;> rw [h]
              · simpa using single_zero
              · exact hds)
          (by rcases max_choice 0 (y - x) with h | h <;> rw [h]
              · simpa using single_zero
              · exact hds)
          (by rcases le_total 0 (y - x) with h | h
              · rw [min_eq_left h]; exact mul_nonneg h0 h
              · rw [min_eq_right h]; nlinarith)
          (by rcases le_total 0 (y - x) with h | h
              · rw [max_eq_right h]; nlinarith
              · rw [max_eq_left h]; exact mul_nonpos_of_nonneg_of_nonpos h0 h)
        exact ⟨z, z1, z2, z3, fun h => absurd h e0, fun h => absurd h e1⟩
  obtain ⟨z, z1, z2, z3, z4, z5⟩ := hp
  obtain ⟨s', ha'⟩ := fadd_is ha z1
  rw [ha']
  by_cases e0 : t = 0
  · rw [z4 e0, add_zero]
    exact ⟨x, rounded_exact hx, min_le_left _ _, le_max_left _ _, fun _ => rfl, fun h => by rw [h] at e0; norm_num at e0⟩
  · by_cases e1 : t = 1
    · rw [z5 e1, add_sub_cancel]
      exact ⟨y, rounded_exact hb, min_le_right _ _, le_max_right _ _, fun h => absurd h e0, fun _ => rfl⟩
    · obtain ⟨r, r1, r2, r3⟩ := rounded_between (s := s') (x := x + z) (lo := min x y) (hi := max x y)
        (by rcases min_choice x y with h | h <;> rw [h]
            · exact hx
            · exact hb)
        (by rcases max_choice x y with h | h <;> rw [h]
            · exact hx
            · exact hb)
        (by rcases le_total x y with h | h
            · rw [min_eq_left h]; rw [min_eq_left (by linarith)] at z2; linarith
            · rw [min_eq_right h]; rw [min_eq_right (by linarith)] at z2; linarith)
        (by rcases le_total x y with h | h
            · rw [max_eq_right h]; rw [max_eq_right (by linarith)] at z3; linarith
            · rw [max_eq_left h]; rw [max_eq_left (by linarith)] at z3; linarith)
      exact ⟨r, r1, r2, r3, fun h => absurd h e0, fun h => absurd h e1⟩

/-- **C271, in part.** Missing: ends whose difference is no number that a `float` can have, see `C271_not_between`. `lerp` with `t` between 0 and 1 gives a number between the ends, the first
one for 0 and the second one for 1. -/
theorem C271_between_partial {u a b : Dbl.Float} {t x y : ℚ} (hu : Is u t) (ha : Is a x) (hb : Is b y) (h0 : 0 ≤ t) (h1 : t ≤ 1) (hd : Single |y - x|) :
    ∃ r, Is (lerp u a b) r ∧ min x y ≤ r ∧ r ≤ max x y ∧ (t = 0 → r = x) ∧ (t = 1 → r = y) := by
  obtain ⟨s, hs⟩ := fsub_is hb ha
  exact blend hu ha (is_single hb) (hs ▸ rounded_exact hd) h0 h1

/-- **C271 does not hold** in general: `lerp(1, -1, b)` is greater than `b`. And where the difference is too great for a `float`, the result is not even a number. -/
theorem C271_not_between : ∃ b : ℚ, Single b ∧ lerp (false, .fin 1) (true, .fin 1) (false, .fin b) = (false, .fin (1 / 8388608)) ∧ b < 1 / 8388608 ∧
    ∃ c : ℚ, Single c ∧ (lerp (false, .fin 0) (true, .fin c) (false, .fin c)).2 = .nan :=
  ⟨3 / 33554432, ⟨⟨3, -25, by norm_num, by norm_num, by norm_num⟩, by norm_num⟩, by decide +kernel, by norm_num,
    2 ^ 127, ⟨⟨1, 127, by norm_num, by norm_num, by norm_num⟩, by norm_num⟩, by decide +kernel⟩

example : Is (false, .fin (1 / 4)) (1 / 4) ∧ Is (true, .fin 2) (-2) ∧ Is (false, .fin 10) 10 ∧ Single |(10 : ℚ) - -2| ∧
    lerp (false, .fin (1 / 4)) (true, .fin 2) (false, .fin 10) = (false, .fin 1) := by
  refine ⟨⟨false, _, rfl, ⟨⟨1, -2, by norm_num, by norm_num, by norm_num⟩, by norm_num⟩, by simp⟩,
    ⟨true, _, rfl, ⟨⟨2, 0, by norm_num, by norm_num, by norm_num⟩, by norm_num⟩, by simp⟩,
    ⟨false, _, rfl, ⟨⟨10, 0, by norm_num, by norm_num, by norm_num⟩, by norm_num⟩, by simp⟩,
    ⟨⟨12, 0, by norm_num, by norm_num, by norm_num⟩, by norm_num⟩, by decide +kernel⟩

/-! ## C272: `remap` -/

theorem single_multiple {q : ℚ} (h : Single q) : ∃ n : ℕ, q = n * 2 ^ (-149 : ℤ) := by
  obtain ⟨⟨m, k, _, hk, rfl⟩, _⟩ := h
  obtain ⟨n, rfl⟩ : ∃ n : ℕ, k = n + (-149) := ⟨(k + 149).toNat, by omega⟩
  refine ⟨m * 2 ^ n, ?_⟩
  rw [zpow_add₀ (by norm_num), zpow_natCast]
  push_cast
  ring

/-- Two different numbers that a `float` can have differ by at least the least one. -/
theorem is_gap {a b : Dbl.Float} {x y : ℚ} (ha : Is a x) (hb : Is b y) (h : x < y) : (2 : ℚ) ^ (-149 : ℤ) ≤ y - x := by
  have key : ∀ {a : Dbl.Float} {x : ℚ}, Is a x → ∃ n : ℤ, x = n * 2 ^ (-149 : ℤ) := by
    rintro a x ⟨s, q, rfl, hq, rfl⟩
    obtain ⟨n, hn⟩ := single_multiple hq
    cases s
    · exact ⟨n, by simpa using hn⟩
    · exact ⟨-n, by rw [if_pos rfl, hn]; push_cast; ring⟩
  obtain ⟨m, rfl⟩ := key ha
  obtain ⟨n, rfl⟩ := key hb
  have h2 := Dbl.two_pos (-149)
  have h3 : (m : ℚ) < n := lt_of_mul_lt_mul_right h h2.le
  have h4 : m + 1 ≤ n := by exact_mod_cast h3
  have h5 : (m : ℚ) + 1 ≤ n := by exact_mod_cast h4
  rw [← sub_mul]
  nlinarith

theorem fdiv_is {a b : Dbl.Float} {x y : ℚ} (ha : Is a x) (hb : Is b y) (hy : y ≠ 0) : ∃ s, fdiv a b = rounded s (x / y) := by
  obtain ⟨s, p, rfl, hp, rfl⟩ := is_signed ha
  obtain ⟨t, q, rfl, hq, rfl⟩ := is_signed hb
  have h1 := single_nonneg hp
  have h2 := single_nonneg hq
  have hq0 : q ≠ 0 := by
    rintro rfl
    exact hy (by cases t <;> simp [signed])
  have habs : |signed s p / signed t q| = p / q := by
    rw [abs_div]
    cases s <;> cases t <;> simp [signed, abs_of_nonneg h1, abs_of_nonneg h2]
  refine ⟨s != t, ?_⟩
  unfold fdiv rounded
  rw [habs]
  dsimp only
  rw [if_neg hq0]
  split
  · rename_i hz
    rw [hz, abs_zero] at habs
    rw [← habs, rnd32, if_pos (le_refl _)]
  · rename_i hz
    have hpq : 0 < p / q := by
      rw [← habs]
      exact abs_pos.2 hz
    congr 1
    cases s <;> cases t <;> simp [signed, div_neg, neg_div] <;> linarith

theorem single_one : Single 1 := ⟨⟨1, 0, by norm_num, by norm_num, by norm_num⟩, by norm_num⟩

/-- **C272, in part.** Missing: ends whose difference is no number that a `float` can have, see `C272_not_between`, and ranges of a length above 2^127. `remap` of a number in a range gives a number between the ends of the other range, the first one for the begin of the range and the second one for
its end. -/
theorem C272_between_partial {u v w a b : Dbl.Float} {t lo hi x y : ℚ} (hu : Is u t) (hv : Is v lo) (hw : Is w hi) (ha : Is a x) (hb : Is b y) (h0 : lo ≤ t) (h1 : t ≤ hi)
    (hlt : lo < hi) (hr : hi - lo ≤ 2 ^ (127 : ℤ)) (hd : Single |y - x|) :
    ∃ r, Is (remap u v w a b) r ∧ min x y ≤ r ∧ r ≤ max x y ∧ (t = lo → r = x) ∧ (t = hi → r = y) := by
  obtain ⟨s, hs⟩ := fsub_is hb ha
  obtain ⟨s1, hs1⟩ := fsub_is hu hv
  obtain ⟨s2, hs2⟩ := fsub_is hw hv
  have h127 : Single ((2 : ℚ) ^ (127 : ℤ)) := single_pow (by norm_num) (by norm_num)
  have hmin : Single ((2 : ℚ) ^ (-149 : ℤ)) := single_pow (by norm_num) (by norm_num)
  -- the two differences, rounded
  obtain ⟨n, n1, n2, n3, n4⟩ := rnd32_between (q := t - lo) (by linarith) single_zero h127 (by linarith) (by linarith)
  obtain ⟨d, d1, d2, d3, d4⟩ := rnd32_between (q := hi - lo) (by linarith) hmin h127 (is_gap hv hw hlt) hr
  have hnd : n ≤ d := rnd32_mono (by linarith) (by linarith) n1 d1
  have hd0 : 0 < d := lt_of_lt_of_le (Dbl.two_pos _) d3
  have ispos : ∀ {s : Bool} {z r : ℚ}, 0 ≤ z → rnd32 z = .fin r → Single r → Is (rounded s z) r := by
    intro s z r hz hzr hsr
    unfold rounded
    split
    · rename_i e
      rw [e, rnd32, if_pos (le_refl _)] at hzr
      injection hzr with hzr
      exact ⟨s, 0, rfl, single_zero, by simp [← hzr]⟩
    · rw [abs_of_nonneg hz, hzr]
      exact ⟨false, r, by simp [not_lt.2 hz], hsr, by simp⟩
  have i1 : Is (fsub u v) n := hs1 ▸ ispos (by linarith) n1 n2
  have i2 : Is (fsub w v) d := hs2 ▸ ispos (by linarith) d1 d2
  obtain ⟨s3, hs3⟩ := fdiv_is i1 i2 hd0.ne'
  have hq0 : 0 ≤ n / d := div_nonneg n3 hd0.le
  obtain ⟨q, q1, q2, q3, q4⟩ := rnd32_between hq0 single_zero single_one hq0 ((div_le_one hd0).2 hnd)
  have i3 : Is (fdiv (fsub u v) (fsub w v)) q := hs3 ▸ ispos hq0 q1 q2
  obtain ⟨r, r1, r2, r3, r4, r5⟩ := blend i3 ha (is_single hb) (hs ▸ rounded_exact hd) q3 q4
  refine ⟨r, r1, r2, r3, fun e => r4 ?_, fun e => r5 ?_⟩
  · rw [e, sub_self, rnd32, if_pos (le_refl _)] at n1
    injection n1 with n1
    rw [← n1, zero_div, rnd32, if_pos (le_refl _)] at q1
    injection q1 with q1
    exact q1.symm
  · rw [e, d1] at n1
    injection n1 with n1
    rw [← n1, div_self hd0.ne', Dbl.rnd32_exact (by norm_num) single_one] at q1
    injection q1 with q1
    exact q1.symm

/-- **C272 does not hold** in general, for the same reason as C271. -/
theorem C272_not_between : ∃ b : ℚ, Single b ∧
    remap (false, .fin 5) (false, .fin 3) (false, .fin 5) (true, .fin 1) (false, .fin b) = (false, .fin (1 / 8388608)) ∧ b < 1 / 8388608 :=
  ⟨3 / 33554432, ⟨⟨3, -25, by norm_num, by norm_num, by norm_num⟩, by norm_num⟩, by decide +kernel, by norm_num⟩

example : remap (false, .fin 4) (false, .fin 3) (false, .fin 7) (true, .fin 2) (false, .fin 10) = (false, .fin 1) := by decide +kernel

/-! ## C273: `safeDivide` -/

theorem round32_fits {q : ℚ} (h : 0 < q) : Dbl.round32 q < 2 ^ 128 ↔ q < 2 ^ 128 - 2 ^ 103 := by
  constructor
  · intro hr
    by_contra hc
    rw [not_lt] at hc
    obtain ⟨e1, e2⟩ := Dbl.expo_spec h
    have h127 : 127 ≤ Dbl.expo q := by
      by_contra hlt
      have : (2 : ℚ) ^ (Dbl.expo q + 1) ≤ 2 ^ (127 : ℤ) := zpow_le_zpow_right₀ (by norm_num) (by omega)
      norm_num at this hc
      linarith
    have hpl : Dbl.place32 q = Dbl.expo q - 23 := max_eq_left (by omega)
    unfold Dbl.round32 at hr
    rw [hpl] at hr
    have hE := Dbl.two_pos (Dbl.expo q - 23)
    have hsplit : (2 : ℚ) ^ Dbl.expo q = 2 ^ 23 * 2 ^ (Dbl.expo q - 23) := by
      rw [← zpow_natCast, ← zpow_add₀ (by norm_num)]
      congr 1
      push_cast
      omega
    rcases eq_or_lt_of_le h127 with heq | hgt
    · rw [← heq] at hr
      have hx : (16777216 : ℚ) - 1 / 2 ≤ q / 2 ^ (127 - 23 : ℤ) := by
        rw [le_div_iff₀ (Dbl.two_pos _)]
        norm_num at hc ⊢
        linarith
      generalize q / 2 ^ (127 - 23 : ℤ) = x at *
      have hn : Dbl.halfEven x < 16777216 := by
        have : (Dbl.halfEven x : ℚ) < 16777216 := by
          by_contra hh
          norm_num at hr
          rw [not_lt] at hh
          linarith
        exact_mod_cast this
      have hnear := abs_le.mp (Dbl.halfEven_near x)
      have hge : 16777215 ≤ Dbl.halfEven x := by
        have : (16777214 : ℚ) < Dbl.halfEven x := by linarith
        have : (16777214 : ℤ) < Dbl.halfEven x := by exact_mod_cast this
        omega
      have heq : Dbl.halfEven x = 16777215 := by omega
      have hbest := Dbl.halfEven_best x 16777216
      rw [heq] at hbest hnear
      push_cast at hbest hnear
      have hx2 : x = 16777216 - 1 / 2 := by linarith
      have := hbest.2 (by norm_num) (by rw [hx2]; norm_num)
      norm_num at this
    · have hx : (8388608 : ℚ) ≤ q / 2 ^ (Dbl.expo q - 23) := by
        rw [le_div_iff₀ hE]
        rw [hsplit] at e1
        norm_num at e1 ⊢
        linarith
      have hnear := abs_le.mp (Dbl.halfEven_near (q / 2 ^ (Dbl.expo q - 23)))
      have hge : (8388608 : ℚ) ≤ Dbl.halfEven (q / 2 ^ (Dbl.expo q - 23)) := by
        have : (8388607 : ℚ) < Dbl.halfEven (q / 2 ^ (Dbl.expo q - 23)) := by linarith
        have : (8388607 : ℤ) < Dbl.halfEven (q / 2 ^ (Dbl.expo q - 23)) := by exact_mod_cast this
        exact_mod_cast (show (8388608 : ℤ) ≤ Dbl.halfEven (q / 2 ^ (Dbl.expo q - 23)) by omega)
      have h128 : (2 : ℚ) ^ (128 : ℤ) ≤ 2 ^ Dbl.expo q := zpow_le_zpow_right₀ (by norm_num) (by omega)
      have := mul_le_mul_of_nonneg_right hge hE.le
      rw [hsplit] at h128
      norm_num at h128 hr
      linarith
  · intro hq
    by_contra hc
    rw [not_lt] at hc
    have d := (Dbl.round32_nearest h).1 (2 ^ 128 - 2 ^ 104)
      ⟨⟨16777215, 104, by norm_num, by norm_num, by norm_num⟩, by norm_num⟩
    generalize Dbl.round32 q = r at *
    rw [abs_of_nonpos (show q - r ≤ 0 by norm_num at hq hc; linarith)] at d
    have d' := abs_le.mp (le_refl |q - (2 ^ 128 - 2 ^ 104)|)
    rcases abs_cases (q - (2 ^ 128 - 2 ^ 104)) with ⟨h1, -⟩ | ⟨h1, -⟩ <;> rw [h1] at d <;> norm_num at d hq hc <;> linarith

/-- **C273.** `safeDivide` gives the default value if the divisor is zero, with any sign. Of other numbers it gives the nearest number to the quotient, with the sign of the quotient, or an infinity
if and only if the quotient is too great: half a unit above the greatest number, or more. It never gives NaN. -/
theorem C273_divide {a b : Dbl.Float} {x y : ℚ} (ha : Is a x) (hb : Is b y) (dflt : Dbl.Float) :
    (y = 0 → safeDivide a b dflt = dflt) ∧
    (y ≠ 0 → x = 0 → Is (safeDivide a b dflt) 0) ∧
    (y ≠ 0 → x ≠ 0 →
      (|x / y| < 2 ^ 128 - 2 ^ 103 → ∃ r, safeDivide a b dflt = (decide (x / y < 0), .fin r) ∧ NearestSingle |x / y| r) ∧
      (2 ^ 128 - 2 ^ 103 ≤ |x / y| → safeDivide a b dflt = (decide (x / y < 0), .inf))) := by
  have hz : Is (false, .fin 0) 0 := ⟨false, 0, rfl, single_zero, by simp⟩
  have hne : y ≠ 0 → ∃ s, safeDivide a b dflt = rounded s (x / y) := by
    intro hy
    obtain ⟨s, h⟩ := fdiv_is ha hb hy
    refine ⟨s, ?_⟩
    rw [safeDivide, if_neg (fun h => hy ((feq_is hb hz).1 h)), h]
  refine ⟨fun hy => ?_, fun hy hx => ?_, fun hy hx => ?_⟩
  · rw [safeDivide, if_pos ((feq_is hb hz).2 hy)]
  · obtain ⟨s, h⟩ := hne hy
    rw [h, hx, zero_div]
    exact rounded_exact (by simpa using single_zero)
  · obtain ⟨s, h⟩ := hne hy
    have hq : x / y ≠ 0 := div_ne_zero hx hy
    rw [rounded, if_neg hq] at h
    rw [h]
    have hp := abs_pos.2 hq
    constructor
    · intro hlt
      have r1 : rnd32 |x / y| = .fin (Dbl.round32 |x / y|) := by rw [Dbl.rnd32_pos hp, if_pos ((round32_fits hp).2 hlt)]
      exact ⟨_, by rw [r1], Dbl.rnd32_nearest hp r1⟩
    · intro hge
      rw [Dbl.rnd32_pos hp, if_neg (fun hr => absurd ((round32_fits hp).1 hr) (not_lt.2 hge))]

example : safeDivide (true, .fin 6) (false, .fin 4) (false, .nan) = (true, .fin (3 / 2)) ∧ safeDivide (true, .fin 6) (true, .fin 0) (false, .fin 7) = (false, .fin 7) := by
  decide +kernel

/-! ## C274: `clamp` of floats -/

theorem flt_is {a b : Dbl.Float} {x y : ℚ} (ha : Is a x) (hb : Is b y) : flt a b = true ↔ x < y := by
  obtain ⟨s, p, rfl, -, rfl⟩ := is_signed ha
  obtain ⟨t, q, rfl, -, rfl⟩ := is_signed hb
  simp [flt]

/-- **C274.** `clamp` gives the number of the range that is nearest to the value. -/
theorem C274_clamp {v l u : Dbl.Float} {x lo hi : ℚ} (hv : Is v x) (hl : Is l lo) (hu : Is u hi) (h : lo ≤ hi) :
    ∃ r, Is (fclamp v l u) r ∧ lo ≤ r ∧ r ≤ hi ∧ ∀ z, lo ≤ z → z ≤ hi → |x - r| ≤ |x - z| := by
  unfold fclamp
  by_cases h1 : x < lo
  · rw [if_pos ((flt_is hv hl).2 h1)]
    refine ⟨lo, hl, le_refl _, h, fun z hz _ => ?_⟩
    rw [abs_of_nonpos (by linarith), abs_of_nonpos (by linarith)]
    linarith
  · rw [if_neg (fun h => h1 ((flt_is hv hl).1 h))]
    by_cases h2 : hi < x
    · rw [if_pos ((flt_is hu hv).2 h2)]
      refine ⟨hi, hu, h, le_refl _, fun z _ hz => ?_⟩
      rw [abs_of_nonneg (by linarith), abs_of_nonneg (by linarith)]
      linarith
    · rw [if_neg (fun h => h2 ((flt_is hu hv).1 h))]
      exact ⟨x, hv, by linarith, by linarith, fun z _ _ => by simp⟩

/-- **C274.** Infinities are clamped to the ends of the range, and NaN stays NaN. -/
theorem C274_special {l u : Dbl.Float} {lo hi : ℚ} (hl : Is l lo) (hu : Is u hi) (s : Bool) :
    fclamp (s, .inf) l u = (if s then l else u) ∧ fclamp (s, .nan) l u = (s, .nan) := by
  obtain ⟨t, p, rfl, -, rfl⟩ := is_signed hl
  obtain ⟨t', q, rfl, -, rfl⟩ := is_signed hu
  cases s <;> simp [fclamp, flt]

example : fclamp (true, .fin 3) (false, .fin 0) (false, .fin 1) = (false, .fin 0) ∧ fclamp (false, .fin (1 / 2)) (false, .fin 0) (false, .fin 1) = (false, .fin (1 / 2)) := by
  decide +kernel

/-! ## C275: less than, equal to and greater than zero -/

/-- **C275, in part.** Missing: not both less than zero and equal to zero, see `C275_not_one`. Of every number at most one of "equal to zero" and "greater than zero" holds, and at most one of "less than
zero" and "greater than zero". One of the three holds unless the number is 0.001f. -/
theorem C275_exclusive_partial {x : Dbl.Float} (hx : IsFloat x) :
    ¬ (floatEqZeroSoft x = true ∧ floatGtZeroSoft x = true) ∧ ¬ (floatLtZeroSoft x = true ∧ floatGtZeroSoft x = true) ∧
    (x.2 ≠ .nan → x ≠ (false, rnd32 (1 / 1000)) → floatLtZeroSoft x = true ∨ floatGtZeroSoft x = true) := by
  obtain ⟨s, v⟩ := x
  have hb : bigEpsilon = (false, .fin (8589935 / 8589934592)) := by decide +kernel
  have hr : rnd32 (1 / 1000) = .fin (8589935 / 8589934592) := by decide +kernel
  unfold floatEqZeroSoft floatGtZeroSoft floatLtZeroSoft
  rw [hb, hr]
  cases v with
  | nan => simp [flt, fabs]
  | inf => cases s <;> simp [flt, fabs]
  | fin q =>
    cases s
    · simp only [flt, fabs, signed, decide_eq_true_eq, Bool.false_eq_true, if_false]
      refine ⟨by rintro ⟨h1, h2⟩; linarith, by rintro ⟨h1, h2⟩; linarith, fun _ hne => ?_⟩
      rcases lt_trichotomy q (8589935 / 8589934592) with h | h | h
      · exact Or.inl h
      · exact absurd (by rw [h]) hne
      · exact Or.inr h
    · simp only [flt, fabs, signed, decide_eq_true_eq, Bool.false_eq_true, if_false, if_true]
      have h0 : 0 ≤ q := single_nonneg hx
      exact ⟨by rintro ⟨h1, h2⟩; linarith, by rintro ⟨h1, h2⟩; linarith, fun _ _ => Or.inl (by linarith)⟩

/-- **C275 does not hold** for "less than zero": 0 and 0.0005 are also less than zero. Nothing holds of 0.001f. -/
theorem C275_not_one : floatLtZeroSoft (false, .fin 0) = true ∧ floatEqZeroSoft (false, .fin 0) = true ∧
    floatLtZeroSoft (false, rnd32 (5 / 10000)) = true ∧
    floatLtZeroSoft (false, rnd32 (1 / 1000)) = false ∧ floatEqZeroSoft (false, rnd32 (1 / 1000)) = false ∧ floatGtZeroSoft (false, rnd32 (1 / 1000)) = false := by
  decide +kernel

/-! ## C276: `floatEq`, `floatEqSoft`, `floatZeroClamp` -/

theorem flt_trans_fin {a : Dbl.Float} {p q : ℚ} (h : flt (fabs a) (false, .fin p) = true) (hpq : p ≤ q) :
    flt (fabs a) (false, .fin q) = true ∧ fle (fabs a) (false, .fin q) = true := by
  obtain ⟨s, v⟩ := a
  cases v with
  | nan => simp [flt, fabs] at h
  | inf => simp [flt, fabs] at h
  | fin r =>
    have h : r < p := by simpa [flt, fabs, signed] using h
    have h2 : r < q := lt_of_lt_of_le h hpq
    constructor <;> simp [fle, flt, fabs, signed, h2]

/-- **C276.** `floatEq` and `floatEqSoft` do not depend on the order of their arguments. Numbers that are equal for `floatEq` are so for `floatEqSoft` and for `floatToleranceComparison`. -/
theorem C276_equal (a b : Dbl.Float) :
    floatEq a b = floatEq b a ∧ floatEqSoft a b = floatEqSoft b a ∧ (floatEq a b = true → floatEqSoft a b = true ∧ floatToleranceComparison a b = true) := by
  have he : epsilon = (false, .fin (8796093 / 8796093022208)) := by decide +kernel
  have hb : bigEpsilon = (false, .fin (8589935 / 8589934592)) := by decide +kernel
  have ht : tolerance = (false, .fin (8796093 / 8796093022208)) := by decide +kernel
  refine ⟨by unfold floatEq floatEqZero; rw [fsub_swap], by unfold floatEqSoft floatEqZeroSoft; rw [fsub_swap], fun h => ⟨?_, ?_⟩⟩
  · unfold floatEq floatEqZero at h
    unfold floatEqSoft floatEqZeroSoft
    rw [he] at h
    rw [hb]
    exact (flt_trans_fin h (by norm_num)).1
  · unfold floatEq floatEqZero at h
    rw [he] at h
    unfold floatToleranceComparison
    rw [ht, (flt_trans_fin h (le_refl _)).2]
    simp

/-- What is below a number of the format stays so if it is at most the previous number, and what is at least it stays so. -/
theorem below_limit {d pre e : ℚ} (h0 : 0 ≤ d) (hp : Single pre) (he : Single e) (hpe : pre < e) :
    (d ≤ pre → flt (false, rnd32 d) (false, .fin e) = true) ∧ (e ≤ d → flt (false, rnd32 d) (false, .fin e) = false) := by
  constructor
  · intro h
    obtain ⟨r, h1, -, -, h2⟩ := rnd32_between h0 single_zero hp h0 h
    rw [h1]
    simpa [flt, signed] using lt_of_le_of_lt h2 hpe
  · intro h
    cases hd : rnd32 d with
    | nan => rfl
    | inf => rfl
    | fin r =>
      have := rnd32_mono (single_nonneg he) h (Dbl.rnd32_exact (single_nonneg he) he) hd
      simpa [flt, signed] using this

/-- **C276.** Numbers that differ by a millionth or more are not equal for `floatEq`, those that differ by less than 0.999999 millionths are. For `floatEqSoft` the limits are 1.000001 and
0.999999 thousandths. -/
theorem C276_value {a b : Dbl.Float} {x y : ℚ} (ha : Is a x) (hb : Is b y) :
    (|x - y| < 999999 / 10 ^ 12 → floatEq a b = true) ∧ (1 / 10 ^ 6 ≤ |x - y| → floatEq a b = false) ∧
    (|x - y| < 999999 / 10 ^ 9 → floatEqSoft a b = true) ∧ (1000001 / 10 ^ 9 ≤ |x - y| → floatEqSoft a b = false) := by
  have he : epsilon = (false, .fin (8796093 / 8796093022208)) := by decide +kernel
  have hb' : bigEpsilon = (false, .fin (8589935 / 8589934592)) := by decide +kernel
  unfold floatEq floatEqZero floatEqSoft floatEqZeroSoft
  rw [he, hb', fabs_sub_is ha hb]
  have h0 := abs_nonneg (x - y)
  generalize |x - y| = d at *
  have k1 := below_limit (pre := 8796092 / 8796093022208) (e := 8796093 / 8796093022208) h0
    ⟨⟨8796092, -43, by norm_num, by norm_num, by norm_num⟩, by norm_num⟩ ⟨⟨8796093, -43, by norm_num, by norm_num, by norm_num⟩, by norm_num⟩ (by norm_num)
  have k2 := below_limit (pre := 8589934 / 8589934592) (e := 8589935 / 8589934592) h0
    ⟨⟨8589934, -33, by norm_num, by norm_num, by norm_num⟩, by norm_num⟩ ⟨⟨8589935, -33, by norm_num, by norm_num, by norm_num⟩, by norm_num⟩ (by norm_num)
  exact ⟨fun h => k1.1 (by norm_num at h ⊢; linarith), fun h => k1.2 (by norm_num at h ⊢; linarith),
    fun h => k2.1 (by norm_num at h ⊢; linarith), fun h => k2.2 (by norm_num at h ⊢; linarith)⟩

/-- **C276.** NaN and infinities are equal to nothing. -/
theorem C276_special (a b : Dbl.Float) (h : ∀ q, a.2 ≠ .fin q) : floatEq a b = false ∧ floatEq b a = false ∧ floatEqSoft a b = false ∧ floatEqSoft b a = false := by
  have he : epsilon = (false, .fin (8796093 / 8796093022208)) := by decide +kernel
  have hb' : bigEpsilon = (false, .fin (8589935 / 8589934592)) := by decide +kernel
  unfold floatEq floatEqZero floatEqSoft floatEqZeroSoft
  rw [fsub_swap b a, he, hb']
  obtain ⟨s, v⟩ := a
  obtain ⟨t, w⟩ := b
  cases v with
  | fin q => exact absurd rfl (h q)
  | inf => cases w <;> cases s <;> cases t <;> simp [fsub, fadd, fneg, fabs, flt]
  | nan => cases w <;> cases s <;> cases t <;> simp [fsub, fadd, fneg, fabs, flt]

/-- **C276.** `floatZeroClamp` gives zero for numbers nearer to zero than 0.999999 millionths, and its argument for those that are not nearer than a millionth, for infinities and for NaN. Twice
is the same as once. -/
theorem C276_clamp (a : Dbl.Float) : (∀ x, Is a x → (|x| < 999999 / 10 ^ 12 → floatZeroClamp a = (false, .fin 0)) ∧ (1 / 10 ^ 6 ≤ |x| → floatZeroClamp a = a)) ∧
    ((∀ q, a.2 ≠ .fin q) → floatZeroClamp a = a) ∧ floatZeroClamp (floatZeroClamp a) = floatZeroClamp a := by
  have he : epsilon = (false, .fin (8796093 / 8796093022208)) := by decide +kernel
  refine ⟨fun x hx => ?_, fun h => ?_, ?_⟩
  · obtain ⟨s, q, rfl, hq, rfl⟩ := is_signed hx
    have h0 := single_nonneg hq
    have hs : |signed s q| = q := by cases s <;> simp [signed, abs_of_nonneg h0]
    rw [hs]
    unfold floatZeroClamp
    rw [he]
    constructor
    · intro h
      rw [if_pos]
      simp only [flt, fabs, signed, decide_eq_true_eq, Bool.false_eq_true, if_false]
      norm_num at h ⊢
      linarith
    · intro h
      rw [if_neg]
      simp only [flt, fabs, signed, decide_eq_true_eq, Bool.false_eq_true, if_false]
      norm_num at h ⊢
      linarith
  · unfold floatZeroClamp
    rw [he, if_neg]
    obtain ⟨s, v⟩ := a
    cases v with
    | fin q => exact absurd rfl (h q)
    | inf => simp [flt, fabs]
    | nan => simp [flt, fabs]
  · unfold floatZeroClamp
    by_cases h : flt (fabs a) epsilon = true
    · simp only [if_pos h]
      split <;> rfl
    · simp only [if_neg h]

example : floatEq (false, .fin 1) (false, .fin 1) = true ∧ floatEq (false, .fin 1) (false, .fin (8388609 / 8388608)) = true ∧
    floatEq (false, .fin 1) (false, .fin (8388617 / 8388608)) = false ∧ floatEqSoft (false, .fin 1) (false, .fin (8388617 / 8388608)) = true ∧
    floatZeroClamp (true, .fin (1 / 8388608)) = (false, .fin 0) := by decide +kernel

end Tm.Util
