import Verif.U128.FromFloat
/-!
# Properties of the floating point conversions of 128-bit integers (C08, C09)

The specification (FloatSpec.lean) says which rational number a bit pattern represents, which natural numbers a format with
`P` significant digits represents (24 for `float`, 53 for `double`) and what rounding is.
-/
namespace Tm.U128

/-! ## C08 128-bit integer to floating point -/

/-- The specified roundings determine the result. -/
theorem C08_rounding_unique {P v a b : Nat} (hP : 1 < P) :
    (IsRoundDown P v a → IsRoundDown P v b → a = b) ∧ (IsRoundUp P v a → IsRoundUp P v b → a = b) ∧
    (IsNearestEven P v a → IsNearestEven P v b → a = b) :=
  ⟨roundDown_unique, roundUp_unique, nearest_unique hP⟩

open Classical in
theorem double_core (v : U128) (mode : RoundMode) (s : Nat) (h : IsHighestBit v.toNat s) :
    ∃ b r, toDoubleRm v mode = .ok b ∧ DoubleFinite b ∧
      r * 2 ^ (127 - s) = (v.toNat * 2 ^ (127 - s) / 2 ^ 75 + if doubleUp (v.toNat * 2 ^ (127 - s)) mode then 1 else 0) * 2 ^ 75 ∧
      (r < 2 ^ (s + 1) → doubleValue b = r) ∧ (¬ r < 2 ^ (s + 1) → r = 2 ^ (s + 1) ∧ doubleValue b = ((2 ^ s : ℕ) : ℚ)) := by
  have hn := normal_float v s h 53 75 (by decide) (by decide) rfl
  have hs := hn.hs
  obtain ⟨b, h1, h2⟩ := toDoubleRm_spec v mode s h
  have hu : (if doubleUp (v.toNat * 2 ^ (127 - s)) mode then 1 else 0) ≤ 1 := by split <;> omega
  obtain ⟨r, hr⟩ := hn.result (if doubleUp (v.toNat * 2 ^ (127 - s)) mode then 1 else 0) (by
    cases mode with
    | nearest =>
      by_cases hc : doubleUp (v.toNat * 2 ^ (127 - s)) .nearest
      · right; left; simp only [doubleUp] at hc; omega
      · left; rw [if_neg hc]
    | upward =>
      by_cases hc : doubleUp (v.toNat * 2 ^ (127 - s)) .upward
      · right; left; simpa only [doubleUp] using hc
      · left; rw [if_neg hc]
    | truncate => simp [doubleUp])
  have hv := Normal.value (p := 52) (w := 11) hn hu (by simp; omega) (by simp) hr
  refine ⟨b, r, h1, ?_, hr, ?_, ?_⟩
  · rw [DoubleFinite, h2, field_of (Nat.mod_lt _ (by positivity)) (by omega)]; omega
  · intro hlt; rw [doubleValue, h2]; exact hv.1 hlt
  · intro hge
    refine ⟨(hv.2 hge).1, ?_⟩
    rw [doubleValue, h2]; exact (hv.2 hge).2

open Classical in
theorem float_core (v : U128) (mode : RoundMode) (s : Nat) (h : IsHighestBit v.toNat s) :
    ∃ b r, toFloatRm v mode = .ok b ∧ FloatFinite b ∧
      r * 2 ^ (127 - s) = (v.toNat * 2 ^ (127 - s) / 2 ^ 104 + if floatUp (v.toNat * 2 ^ (127 - s)) mode then 1 else 0) * 2 ^ 104 ∧
      (r < 2 ^ (s + 1) → floatValue b = r) ∧ (¬ r < 2 ^ (s + 1) → r = 2 ^ (s + 1) ∧ floatValue b = ((2 ^ s : ℕ) : ℚ)) := by
  have hn := normal_float v s h 24 104 (by decide) (by decide) rfl
  have hs := hn.hs
  obtain ⟨b, h1, h2⟩ := toFloatRm_spec v mode s h
  have hu : (if floatUp (v.toNat * 2 ^ (127 - s)) mode then 1 else 0) ≤ 1 := by split <;> omega
  obtain ⟨r, hr⟩ := hn.result (if floatUp (v.toNat * 2 ^ (127 - s)) mode then 1 else 0) (by
    cases mode with
    | nearest =>
      by_cases hc : floatUp (v.toNat * 2 ^ (127 - s)) .nearest
      · right; left; simp only [floatUp] at hc; omega
      · left; rw [if_neg hc]
    | upward =>
      by_cases hne : floatUp (v.toNat * 2 ^ (127 - s)) .upward
      · right; right
        by_contra hc
        apply hne
        have : v.toNat * 2 ^ (127 - s) = v.toNat * 2 ^ (22 - s) * 2 ^ 105 := by
          rw [Nat.mul_assoc, ← Nat.pow_add]; congr 2; omega
        rw [this]; exact Nat.mul_mod_left _ _
      · left; rw [if_neg hne]
    | truncate => simp [floatUp])
  have hv := Normal.value (p := 23) (w := 8) hn hu (by simp; omega) (by simp) hr
  refine ⟨b, r, h1, ?_, hr, ?_, ?_⟩
  · rw [FloatFinite, h2, field_of (Nat.mod_lt _ (by positivity)) (by omega)]; omega
  · intro hlt; rw [floatValue, h2]; exact hv.1 hlt
  · intro hge
    refine ⟨(hv.2 hge).1, ?_⟩
    rw [floatValue, h2]; exact (hv.2 hge).2

theorem double_zero (v : U128) (mode : RoundMode) (h : v.toNat = 0) : toDoubleRm v mode = .ok 0 := by
  rw [toDoubleRm, if_pos (by rw [isZero_spec]; simpa using h)]
theorem float_zero (v : U128) (mode : RoundMode) (h : v.toNat = 0) : toFloatRm v mode = .ok 0 := by
  rw [toFloatRm, if_pos (by rw [isZero_spec]; simpa using h)]
theorem doubleValue_zero : doubleValue 0 = ((0 : ℕ) : ℚ) := by
  have : (0 : BitVec 64).toNat = 0 := rfl
  rw [doubleValue, this, ieee_zero]; rfl
theorem floatValue_zero : floatValue 0 = ((0 : ℕ) : ℚ) := by
  have : (0 : BitVec 32).toNat = 0 := rfl
  rw [floatValue, this, ieee_zero]; rfl
theorem repr_zero (P : Nat) : Repr P 0 := ⟨0, 0, by positivity, rfl⟩

theorem down_lt {v r s P : Nat} (h : IsHighestBit v s) (hr : IsRoundDown P v r) : r < 2 ^ (s + 1) :=
  Nat.lt_of_le_of_lt hr.2.1 h.2

/-- C08, rounding toward zero or downward: every 128-bit value, `double` and `float`. -/
theorem C08_toward_zero (v : U128) :
    (∃ b r, toDoubleRm v .truncate = .ok b ∧ DoubleFinite b ∧ IsRoundDown 53 v.toNat r ∧ doubleValue b = r) ∧
    (∃ b r, toFloatRm v .truncate = .ok b ∧ FloatFinite b ∧ IsRoundDown 24 v.toNat r ∧ floatValue b = r) := by
  by_cases h0 : v.toNat = 0
  · refine ⟨⟨0, 0, double_zero v _ h0, by unfold DoubleFinite; decide, ?_, doubleValue_zero⟩,
      ⟨0, 0, float_zero v _ h0, by unfold FloatFinite; decide, ?_, floatValue_zero⟩⟩
    · rw [h0]; exact roundDown_repr (repr_zero _)
    · rw [h0]; exact roundDown_repr (repr_zero _)
  · obtain ⟨s, hs⟩ := exists_highest _ h0
    constructor
    · obtain ⟨b, r, h1, h2, h3, h4, _⟩ := double_core v .truncate s hs
      have hd := (normal_float v s hs 53 75 (by decide) (by decide) rfl).roundDown (r := r) (by simpa [doubleUp] using h3)
      exact ⟨b, r, h1, h2, hd, h4 (down_lt hs hd)⟩
    · obtain ⟨b, r, h1, h2, h3, h4, _⟩ := float_core v .truncate s hs
      have hd := (normal_float v s hs 24 104 (by decide) (by decide) rfl).roundDown (r := r) (by simpa [floatUp] using h3)
      exact ⟨b, r, h1, h2, hd, h4 (down_lt hs hd)⟩

example : toDoubleRm (ofNat (2 ^ 54 - 1)) .truncate = .ok 0x434FFFFFFFFFFFFF := by decide +kernel
example : toFloatRm (ofNat 16777219) .truncate = .ok 0x4B800001 := by decide +kernel

open Classical in
theorem double_nearest_up (v : U128) (up : Bool) (s : Nat) (hs : IsHighestBit v.toNat s) :
    ∃ b r, toDoubleRm v (if up then .upward else .nearest) = .ok b ∧ DoubleFinite b ∧
      (if up then IsRoundUp 53 v.toNat r else IsNearestEven 53 v.toNat r) ∧
      (r < 2 ^ (s + 1) → doubleValue b = r) ∧ (¬ r < 2 ^ (s + 1) → r = 2 ^ (s + 1) ∧ doubleValue b = ((2 ^ s : ℕ) : ℚ)) := by
  have hn := normal_float v s hs 53 75 (by decide) (by decide) rfl
  cases up with
  | true =>
    obtain ⟨b, r, h1, h2, h3, h4⟩ := double_core v .upward s hs
    refine ⟨b, r, h1, h2, ?_, h4⟩
    exact hn.roundUp (u := if doubleUp (v.toNat * 2 ^ (127 - s)) .upward then 1 else 0)
      (by
        by_cases hc : doubleUp (v.toNat * 2 ^ (127 - s)) .upward
        · rw [if_pos hc]; simp only [doubleUp] at hc; rw [if_neg hc]
        · rw [if_neg hc]; simp only [doubleUp, not_not] at hc; rw [if_pos hc]) h3
  | false =>
    obtain ⟨b, r, h1, h2, h3, h4⟩ := double_core v .nearest s hs
    refine ⟨b, r, h1, h2, ?_, h4⟩
    exact hn.nearest (u := if doubleUp (v.toNat * 2 ^ (127 - s)) .nearest then 1 else 0)
      (by
        by_cases hc : doubleUp (v.toNat * 2 ^ (127 - s)) .nearest
        · rw [if_pos hc]; simp only [doubleUp] at hc; rw [if_pos (by simpa using hc)]
        · rw [if_neg hc]; simp only [doubleUp] at hc; rw [if_neg (by simpa using hc)]) h3

/-- C08, `double`, nearest and upward. Missing: the values whose correct rounding is the next power of two
(`C08_double_carry` says what happens to them). -/
theorem C08_double_partial (v : U128) :
    (∃ b r, toDoubleRm v .nearest = .ok b ∧ DoubleFinite b ∧ IsNearestEven 53 v.toNat r ∧
      ((∀ i, v.toNat < 2 ^ i → r < 2 ^ i) → doubleValue b = r)) ∧
    (∃ b r, toDoubleRm v .upward = .ok b ∧ DoubleFinite b ∧ IsRoundUp 53 v.toNat r ∧
      ((∀ i, v.toNat < 2 ^ i → r < 2 ^ i) → doubleValue b = r)) := by
  by_cases h0 : v.toNat = 0
  · refine ⟨⟨0, 0, double_zero v _ h0, by unfold DoubleFinite; decide, ?_, fun _ => doubleValue_zero⟩,
      ⟨0, 0, double_zero v _ h0, by unfold DoubleFinite; decide, ?_, fun _ => doubleValue_zero⟩⟩
    · rw [h0]; exact nearest_repr (repr_zero _)
    · rw [h0]; exact roundUp_repr (repr_zero _)
  · obtain ⟨s, hs⟩ := exists_highest _ h0
    constructor
    · obtain ⟨b, r, h1, h2, h3, h4, _⟩ := double_nearest_up v false s hs
      exact ⟨b, r, h1, h2, h3, fun hc => h4 (hc _ hs.2)⟩
    · obtain ⟨b, r, h1, h2, h3, h4, _⟩ := double_nearest_up v true s hs
      exact ⟨b, r, h1, h2, h3, fun hc => h4 (hc _ hs.2)⟩

-- the hypothesis (no carry) holds of 2^53 + 3, which lies half way between two doubles; it rounds to 2^53 + 4
example : toDoubleRm (ofNat (2 ^ 53 + 3)) .nearest = .ok 0x4340000000000002 := by decide +kernel
example : (2 ^ 53 + 3 : Nat) < 2 ^ 54 ∧ (2 ^ 53 + 4 : Nat) < 2 ^ 54 := by decide

/-- The defect: when the correct rounding is the next power of two, the result is half of it. -/
theorem C08_double_carry (v : U128) (i : Nat) (hv : v.toNat < 2 ^ i) :
    (IsNearestEven 53 v.toNat (2 ^ i) → ∃ b, toDoubleRm v .nearest = .ok b ∧ 2 * doubleValue b = ((2 ^ i : ℕ) : ℚ)) ∧
    (IsRoundUp 53 v.toNat (2 ^ i) → ∃ b, toDoubleRm v .upward = .ok b ∧ 2 * doubleValue b = ((2 ^ i : ℕ) : ℚ)) := by
  have h0 : ∀ r, r = 2 ^ i → v.toNat = 0 → (IsNearestEven 53 v.toNat r ∨ IsRoundUp 53 v.toNat r) → False := by
    intro r hr h h1
    have hp : 0 < 2 ^ i := by positivity
    rw [h] at h1
    rcases h1 with h1 | h1
    · have := nearest_unique (by decide) h1 (nearest_repr (repr_zero _)); omega
    · have := roundUp_unique h1 (roundUp_repr (repr_zero _)); omega
  have key : ∀ (s : Nat) (b : BitVec 64), IsHighestBit v.toNat s →
      ((2 ^ i < 2 ^ (s + 1) → doubleValue b = ((2 ^ i : ℕ) : ℚ)) ∧
      (¬ 2 ^ i < 2 ^ (s + 1) → 2 ^ i = 2 ^ (s + 1) ∧ doubleValue b = ((2 ^ s : ℕ) : ℚ))) →
      2 * doubleValue b = ((2 ^ i : ℕ) : ℚ) := by
    intro s b hs h
    have hsi : s < i := by
      by_contra hc
      have := Nat.pow_le_pow_right (show 0 < 2 by decide) (show i ≤ s by omega)
      have := hs.1; omega
    have hge : ¬ 2 ^ i < 2 ^ (s + 1) := by
      have := Nat.pow_le_pow_right (show 0 < 2 by decide) (show s + 1 ≤ i by omega); omega
    obtain ⟨h1, h2⟩ := h.2 hge
    rw [h1, h2]; push_cast; ring
  constructor
  · intro h
    obtain ⟨s, hs⟩ := exists_highest v.toNat (fun hz => h0 _ rfl hz (.inl h))
    obtain ⟨b, r, h1, _, h3, h4⟩ := double_nearest_up v false s hs
    have := nearest_unique (by decide) h h3
    subst this
    exact ⟨b, h1, key s b hs h4⟩
  · intro h
    obtain ⟨s, hs⟩ := exists_highest v.toNat (fun hz => h0 _ rfl hz (.inr h))
    obtain ⟨b, r, h1, _, h3, h4⟩ := double_nearest_up v true s hs
    have := roundUp_unique h h3
    subst this
    exact ⟨b, h1, key s b hs h4⟩

-- 2^54 - 1 becomes 2^53
example : toDoubleRm (ofNat (2 ^ 54 - 1)) .nearest = .ok 0x4340000000000000 ∧
    toDoubleRm (ofNat (2 ^ 53)) .nearest = .ok 0x4340000000000000 := by decide +kernel

open Classical in
theorem float_nearest_up (v : U128) (up : Bool) (s : Nat) (hs : IsHighestBit v.toNat s)
    (hup : up = true → ¬ Repr 24 v.toNat ∨ Repr 23 v.toNat) :
    ∃ b r, toFloatRm v (if up then .upward else .nearest) = .ok b ∧ FloatFinite b ∧
      (if up then IsRoundUp 24 v.toNat r else IsNearestEven 24 v.toNat r) ∧
      (r < 2 ^ (s + 1) → floatValue b = r) ∧ (¬ r < 2 ^ (s + 1) → r = 2 ^ (s + 1) ∧ floatValue b = ((2 ^ s : ℕ) : ℚ)) := by
  have hn := normal_float v s hs 24 104 (by decide) (by decide) rfl
  cases up with
  | true =>
    obtain ⟨b, r, h1, h2, h3, h4⟩ := float_core v .upward s hs
    refine ⟨b, r, h1, h2, ?_, h4⟩
    refine hn.roundUp (u := if floatUp (v.toNat * 2 ^ (127 - s)) .upward then 1 else 0) ?_ h3
    rcases hup rfl with h | h
    · have hne : v.toNat * 2 ^ (127 - s) % 2 ^ 104 ≠ 0 := fun hz => h (hn.rem_repr hz)
      rw [if_neg hne, if_pos (by simp only [floatUp]; omega)]
    · have hz := hn.repr_rem h (by decide)
      simp only [Nat.reduceSub, Nat.reduceAdd] at hz
      rw [if_neg (by simp only [floatUp]; omega), if_pos (by omega)]
  | false =>
    obtain ⟨b, r, h1, h2, h3, h4⟩ := float_core v .nearest s hs
    refine ⟨b, r, h1, h2, ?_, h4⟩
    exact hn.nearest (u := if floatUp (v.toNat * 2 ^ (127 - s)) .nearest then 1 else 0)
      (by
        by_cases hc : floatUp (v.toNat * 2 ^ (127 - s)) .nearest
        · rw [if_pos hc]; simp only [floatUp] at hc; rw [if_pos (by simpa using hc)]
        · rw [if_neg hc]; simp only [floatUp] at hc; rw [if_neg (by simpa using hc)]) h3

/-- C08, `float`, nearest and upward. Missing: the values whose correct rounding is the next power of two
(`C08_float_carry`), and for upward the values with exactly 24 significant digits (`C08_float_upward_exact`). -/
theorem C08_float_partial (v : U128) :
    (∃ b r, toFloatRm v .nearest = .ok b ∧ FloatFinite b ∧ IsNearestEven 24 v.toNat r ∧
      ((∀ i, v.toNat < 2 ^ i → r < 2 ^ i) → floatValue b = r)) ∧
    (¬ Repr 24 v.toNat ∨ Repr 23 v.toNat → ∃ b r, toFloatRm v .upward = .ok b ∧ FloatFinite b ∧ IsRoundUp 24 v.toNat r ∧
      ((∀ i, v.toNat < 2 ^ i → r < 2 ^ i) → floatValue b = r)) := by
  by_cases h0 : v.toNat = 0
  · refine ⟨⟨0, 0, float_zero v _ h0, by unfold FloatFinite; decide, ?_, fun _ => floatValue_zero⟩,
      fun _ => ⟨0, 0, float_zero v _ h0, by unfold FloatFinite; decide, ?_, fun _ => floatValue_zero⟩⟩
    · rw [h0]; exact nearest_repr (repr_zero _)
    · rw [h0]; exact roundUp_repr (repr_zero _)
  · obtain ⟨s, hs⟩ := exists_highest _ h0
    constructor
    · obtain ⟨b, r, h1, h2, h3, h4, _⟩ := float_nearest_up v false s hs (by simp)
      exact ⟨b, r, h1, h2, h3, fun hc => h4 (hc _ hs.2)⟩
    · intro hup
      obtain ⟨b, r, h1, h2, h3, h4, _⟩ := float_nearest_up v true s hs (fun _ => hup)
      exact ⟨b, r, h1, h2, h3, fun hc => h4 (hc _ hs.2)⟩

example : toFloatRm (ofNat 16777219) .nearest = .ok 0x4B800002 := by decide +kernel
example : Repr 23 6 := ⟨3, 1, by decide, rfl⟩

/-- The defect of the missing carry in the `float` conversion: half of the correct result. -/
theorem C08_float_carry (v : U128) (i : Nat) (hv : v.toNat < 2 ^ i) (h : IsNearestEven 24 v.toNat (2 ^ i)) :
    ∃ b, toFloatRm v .nearest = .ok b ∧ 2 * floatValue b = ((2 ^ i : ℕ) : ℚ) := by
  have hp : 0 < 2 ^ i := by positivity
  obtain ⟨s, hs⟩ := exists_highest v.toNat (fun hz => by
    rw [hz] at h
    have := nearest_unique (by decide) h (nearest_repr (repr_zero _)); omega)
  obtain ⟨b, r, h1, _, h3, h4⟩ := float_nearest_up v false s hs (by simp)
  have := nearest_unique (by decide) h h3
  subst this
  refine ⟨b, h1, ?_⟩
  have hsi : s < i := by
    by_contra hc
    have := Nat.pow_le_pow_right (show 0 < 2 by decide) (show i ≤ s by omega)
    have := hs.1; omega
  have hge : ¬ 2 ^ i < 2 ^ (s + 1) := by
    have := Nat.pow_le_pow_right (show 0 < 2 by decide) (show s + 1 ≤ i by omega); omega
  obtain ⟨h5, h6⟩ := h4.2 hge
  rw [h5, h6]; push_cast; ring

example : toFloatRm (ofNat (2 ^ 25 - 1)) .nearest = .ok 0x4B800000 ∧ toFloatRm (ofNat (2 ^ 24)) .nearest = .ok 0x4B800000 := by
  decide +kernel

/-- The defect of the wrong mask in the upward mode of the `float` conversion: 2^23 + 1 is representable but converts to
2^23 + 2. -/
theorem C08_float_upward_exact :
    Repr 24 (2 ^ 23 + 1) ∧ ∃ b, toFloatRm (ofNat (2 ^ 23 + 1)) .upward = .ok b ∧ floatValue b = 2 ^ 23 + 2 := by
  refine ⟨⟨2 ^ 23 + 1, 0, by decide, by decide⟩, 0x4B000002, by decide +kernel, ?_⟩
  have : (0x4B000002 : BitVec 32).toNat = (2 ^ (8 - 1) - 1 + 23) * 2 ^ 23 + 2 := rfl
  rw [floatValue, this, ieee_natural 23 8 23 2 (2 ^ 23 + 2) (by decide) (by decide) (by decide) (by decide)]
  norm_num

/-- C08: values which the format can represent convert exactly, in every mode for `double`, and except upward for `float`. -/
theorem C08_exact (v : U128) :
    (Repr 53 v.toNat → ∀ mode, ∃ b, toDoubleRm v mode = .ok b ∧ doubleValue b = (v.toNat : ℚ)) ∧
    (Repr 24 v.toNat → ∀ mode, mode ≠ .upward → ∃ b, toFloatRm v mode = .ok b ∧ floatValue b = (v.toNat : ℚ)) := by
  constructor
  · intro h mode
    cases mode with
    | nearest =>
      obtain ⟨b, r, h1, _, h3, h4⟩ := (C08_double_partial v).1
      have := nearest_unique (by decide) h3 (nearest_repr h)
      subst this
      exact ⟨b, h1, h4 (fun _ h => h)⟩
    | upward =>
      obtain ⟨b, r, h1, _, h3, h4⟩ := (C08_double_partial v).2
      have := roundUp_unique h3 (roundUp_repr h)
      subst this
      exact ⟨b, h1, h4 (fun _ h => h)⟩
    | truncate =>
      obtain ⟨b, r, h1, _, h3, h4⟩ := (C08_toward_zero v).1
      have := roundDown_unique h3 (roundDown_repr h)
      subst this
      exact ⟨b, h1, h4⟩
  · intro h mode hm
    cases mode with
    | nearest =>
      obtain ⟨b, r, h1, _, h3, h4⟩ := (C08_float_partial v).1
      have := nearest_unique (by decide) h3 (nearest_repr h)
      subst this
      exact ⟨b, h1, h4 (fun _ h => h)⟩
    | upward => exact absurd rfl hm
    | truncate =>
      obtain ⟨b, r, h1, _, h3, h4⟩ := (C08_toward_zero v).2
      have := roundDown_unique h3 (roundDown_repr h)
      subst this
      exact ⟨b, h1, h4⟩

example : Repr 53 (5 * 2 ^ 100) := ⟨5, 100, by decide, rfl⟩

/-! ## C09 floating point to 128-bit integer -/

theorem double_split (bits : BitVec 64) (h : 2 ^ 63 ≤ bits.toNat) :
    doubleValue bits = - ieee 52 11 (bits.toNat - 2 ^ 63) := by
  have hb := bits.isLt
  have e : bits.toNat = 2 ^ (52 + 11) + (bits.toNat - 2 ^ 63) := by simp only [Nat.reduceAdd]; omega
  rw [← ieee_sign (p := 52) (w := 11) (bits := bits.toNat - 2 ^ 63) (by simp only [Nat.reduceAdd]; omega), ← e, doubleValue]

/-- C09, `double`: every value above -1 and below 2^128 is truncated toward zero (`⌊x⌋₊` is 0 for negative `x`). -/
theorem C09_from_double (bits : BitVec 64) (h0 : -1 < doubleValue bits) (hv : doubleValue bits < 2 ^ 128) :
    ∃ r, fromDouble bits = .ok r ∧ r.toNat = ⌊doubleValue bits⌋₊ := by
  by_cases hs : bits.toNat < 2 ^ 63
  · exact fromDouble_spec bits hs hv
  · have hb := bits.isLt
    have e := double_split bits (by omega)
    have hE : ¬ 1023 ≤ (bits.toNat - 2 ^ 63) / 2 ^ 52 := by
      intro hc
      have := (ieee_floor (p := 52) (w := 11) (bits := bits.toNat - 2 ^ 63) (by simp only [Nat.reduceAdd]; omega)
        (by simp only [Nat.reduceSub, Nat.reducePow] at *; omega) (by decide)).1
      rw [e] at h0; linarith
    have hp := (ieee_below_one (p := 52) (w := 11) (bits := bits.toNat - 2 ^ 63) (by decide) (by simp only [Nat.reduceAdd]; omega)
      (by simp only [Nat.reduceSub, Nat.reducePow] at *; omega)).1
    refine ⟨zero, fromDouble_zero bits (by omega), ?_⟩
    rw [Nat.floor_of_nonpos (by rw [e]; linarith)]; rfl

-- 2.75 becomes 2; 3 * 2^100 is exact
example : fromDouble 0x4006000000000000 = .ok (ofNat 2) := by decide +kernel
example : fromDouble 0x4648000000000000 = .ok (ofNat (3 * 2 ^ 100)) := by decide +kernel
example : fromDouble 0xBFE0000000000000 = .ok zero := by decide +kernel

/-- C09, `float`, sign bit clear: every finite value is truncated toward zero. Missing: values with the sign bit set whose
truncation is 0 (see `C09_from_float_negative`, `C09_from_float_negative_zero`). -/
theorem C09_from_float_partial (bits : BitVec 32) (hs : bits.toNat < 2 ^ 31) (hf : FloatFinite bits) :
    ∃ r, fromFloat bits = .ok r ∧ r.toNat = ⌊floatValue bits⌋₊ := fromFloat_spec bits hs hf

example : fromFloat 0x40300000 = .ok (ofNat 2) := by decide +kernel
example : fromFloat 0x7F7FFFFF = .ok (ofNat (2 ^ 128 - 2 ^ 104)) := by decide +kernel

/-- The defect: the exponent mask includes the sign bit, so nearly every `float` with the sign bit set (all but those within
2^-105 of zero) stops the program in the shift's assertion, also -0.5 whose truncation is 0. -/
theorem C09_from_float_negative (bits : BitVec 32) (hs : 2 ^ 31 ≤ bits.toNat) (he : 22 ≤ bits.toNat / 2 ^ 23 % 2 ^ 8) :
    fromFloat bits = .error .assertion := fromFloat_negative bits hs he

example : (2 ^ 31 ≤ (0xBF000000 : BitVec 32).toNat) ∧ 22 ≤ (0xBF000000 : BitVec 32).toNat / 2 ^ 23 % 2 ^ 8 := by decide

/-- The same defect for negative zero: it converts to the largest 128-bit value. -/
theorem C09_from_float_negative_zero : floatValue 0x80000000 = 0 ∧ fromFloat 0x80000000 = .ok max := by
  refine ⟨?_, by decide +kernel⟩
  have : (0x80000000 : BitVec 32).toNat = 2 ^ (23 + 8) + 0 := rfl
  rw [floatValue, this, ieee_sign (by positivity), ieee_zero, neg_zero]

/-- C09, the checked variants: infinities and NaNs are rejected, and values in range are converted. Missing: rejection of
finite values out of range (`C09_checked_accepts_out_of_range`) and the `float` values with the sign bit set. -/
theorem C09_checked_partial :
    (∀ bits : BitVec 64, ¬ DoubleFinite bits → fromDoubleS bits = .ok none) ∧
    (∀ bits : BitVec 32, ¬ FloatFinite bits → fromFloatS bits = .ok none) ∧
    (∀ bits : BitVec 64, -1 < doubleValue bits → doubleValue bits < 2 ^ 128 → DoubleFinite bits →
      ∃ r, fromDoubleS bits = .ok (some r) ∧ r.toNat = ⌊doubleValue bits⌋₊) ∧
    (∀ bits : BitVec 32, bits.toNat < 2 ^ 31 → FloatFinite bits →
      ∃ r, fromFloatS bits = .ok (some r) ∧ r.toNat = ⌊floatValue bits⌋₊) := by
  refine ⟨?_, ?_, ?_, ?_⟩
  · intro bits h; rw [DoubleFinite] at h; rw [fromDoubleS, if_neg h]
  · intro bits h; rw [FloatFinite] at h; rw [fromFloatS, if_neg h]
  · intro bits h1 h2 h3
    obtain ⟨r, h4, h5⟩ := C09_from_double bits h1 h2
    exact ⟨r, by rw [DoubleFinite] at h3; rw [fromDoubleS, if_pos h3, h4]; rfl, h5⟩
  · intro bits h1 h2
    obtain ⟨r, h4, h5⟩ := C09_from_float_partial bits h1 h2
    exact ⟨r, by rw [FloatFinite] at h2; rw [fromFloatS, if_pos h2, h4]; rfl, h5⟩

/-- The defect of the checked variants: 2^128 is accepted and converts to 0, -1.0 is accepted and converts to 2^128 - 2, and
2^200 stops the program in the shift's assertion. -/
theorem C09_checked_accepts_out_of_range :
    (2 : ℚ) ^ 128 ≤ doubleValue 0x47F0000000000000 ∧ fromDoubleS 0x47F0000000000000 = .ok (some zero) ∧
    doubleValue 0xBFF0000000000000 = -1 ∧ fromDoubleS 0xBFF0000000000000 = .ok (some (ofNat (2 ^ 128 - 2))) ∧
    fromDoubleS 0x4C70000000000000 = .error .assertion := by
  refine ⟨?_, by decide +kernel, ?_, by decide +kernel, by decide +kernel⟩
  · exact ieee_ge_pow (p := 52) (w := 11) (bits := (0x47F0000000000000 : BitVec 64).toNat) (by decide) (by decide) (by decide)
  · rw [double_split _ (by decide)]
    have : (0xBFF0000000000000 : BitVec 64).toNat - 2 ^ 63 = (2 ^ (11 - 1) - 1 + 0) * 2 ^ 52 + 0 := rfl
    rw [this, ieee_natural 52 11 0 0 1 (by decide) (by decide) (by decide) (by decide)]
    norm_num

end Tm.U128
