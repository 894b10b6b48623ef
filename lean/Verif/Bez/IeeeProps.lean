import Verif.Bez.Ieee
import Verif.Util.FloatProps

/-!
# C277: evaluating a curve ends
-/

namespace Tm.Bez

open Util
open Dbl (F rnd32 Single NearestSingle)

theorem fle_is {a b : Dbl.Float} {x y : ℚ} (ha : Is a x) (hb : Is b y) : fle a b = true ↔ x ≤ y := by
  unfold fle
  rw [Bool.or_eq_true, flt_is ha hb, feq_is ha hb, le_iff_lt_or_eq]

theorem lit_is {x : ℚ} (h : Single |x|) : Is (ieee.lit x) x := rounded_exact h

theorem round32_near (q : ℚ) : |q - Dbl.round32 q| ≤ 2 ^ Dbl.place32 q / 2 := by
  unfold Dbl.round32
  have h := Dbl.halfEven_near (q / 2 ^ Dbl.place32 q)
  have hp := Dbl.two_pos (Dbl.place32 q)
  rw [show q - Dbl.halfEven (q / 2 ^ Dbl.place32 q) * 2 ^ Dbl.place32 q = (q / 2 ^ Dbl.place32 q - Dbl.halfEven (q / 2 ^ Dbl.place32 q)) * 2 ^ Dbl.place32 q by
    rw [sub_mul, div_mul_cancel₀ _ hp.ne'], abs_mul, abs_of_pos hp]
  nlinarith

theorem single_two : Single 2 := ⟨⟨2, 0, by norm_num, by norm_num, by norm_num⟩, by norm_num⟩

theorem is_rounded {s : Bool} {z r : ℚ} (hz : 0 ≤ z) (hzr : rnd32 z = .fin r) (hs : Single r) : Is (rounded s z) r := by
  unfold rounded
  split
  · rename_i e
    rw [e, rnd32, if_pos (le_refl _)] at hzr
    injection hzr with hzr
    exact ⟨s, 0, rfl, single_zero, by simp [← hzr]⟩
  · rw [abs_of_nonneg hz, hzr]
    exact ⟨false, r, by simp [not_lt.2 hz], hs, by simp⟩

/-- A step of at least 2^-24 takes a number below 1 to 1 or at least half of the step further. -/
theorem progress {c h : Dbl.Float} {x q : ℚ} (hc : Is c x) (hh : Is h q) (h0 : 0 ≤ x) (h1 : x < 1) (hq : (2 : ℚ) ^ (-24 : ℤ) ≤ q) (hq1 : q ≤ 1) :
    ∃ y, Is (fadd c h) y ∧ (1 ≤ y ∨ x + q / 2 ≤ y) := by
  obtain ⟨s, hs⟩ := fadd_is hc hh
  have hqp : 0 < q := lt_of_lt_of_le (Dbl.two_pos _) hq
  rw [hs]
  rcases le_or_gt 1 (x + q) with hd | hd
  · obtain ⟨r, r1, r2, r3, -⟩ := rnd32_between (q := x + q) (by linarith) single_one single_two hd (by linarith)
    exact ⟨r, is_rounded (by linarith) r1 r2, Or.inl r3⟩
  · obtain ⟨r, r1, r2, -, -⟩ := rnd32_between (q := x + q) (by linarith) single_zero single_one (by linarith) hd.le
    refine ⟨r, is_rounded (by linarith) r1 r2, Or.inr ?_⟩
    have hpos : 0 < x + q := by linarith
    have e : r = Dbl.round32 (x + q) := by
      rw [Dbl.rnd32_pos hpos] at r1
      split at r1
      · injection r1 with r1
        exact r1.symm
      · cases r1
    obtain ⟨e1, -⟩ := Dbl.expo_spec hpos
    have hexp : Dbl.expo (x + q) < 0 := by
      by_contra hge
      have : (2 : ℚ) ^ (0 : ℤ) ≤ 2 ^ Dbl.expo (x + q) := zpow_le_zpow_right₀ (by norm_num) (by omega)
      rw [zpow_zero] at this
      linarith
    have hpl : Dbl.place32 (x + q) ≤ -24 := max_le (by omega) (by norm_num)
    have hz : (2 : ℚ) ^ Dbl.place32 (x + q) ≤ 2 ^ (-24 : ℤ) := zpow_le_zpow_right₀ (by norm_num) hpl
    have hn := abs_le.mp (round32_near (x + q))
    rw [← e] at hn
    linarith

theorem evaluateLoop_ends (data : Data Dbl.Float) (t : Dbl.Float) {q : ℚ} (hh : Is data.h q) (hq : (2 : ℚ) ^ (-24 : ℤ) ≤ q) (hq1 : q ≤ 1) :
    ∀ (n fuel : ℕ) (w : Walk Dbl.Float) (x : ℚ), Is w.current x → 0 ≤ x → 1 ≤ x + n * (q / 2) → n < fuel → ∃ r, evaluateLoop ieee data t fuel w = .ok r := by
  have hqp : 0 < q := lt_of_lt_of_le (Dbl.two_pos _) hq
  have h1 : Is (ieee.lit 1) 1 := lit_is (by simpa using single_one)
  intro n
  induction n with
  | zero =>
    intro fuel w x hw h0 hx hf
    obtain ⟨fuel, rfl⟩ : ∃ k, fuel = k + 1 := ⟨fuel - 1, by omega⟩
    have : ieee.le (ieee.lit 1) w.current = true := (fle_is h1 hw).2 (by simpa using hx)
    rw [evaluateLoop, this]
    split
    · exact ⟨_, rfl⟩
    · exact ⟨_, rfl⟩
  | succ n ih =>
    intro fuel w x hw h0 hx hf
    obtain ⟨fuel, rfl⟩ : ∃ k, fuel = k + 1 := ⟨fuel - 1, by omega⟩
    rw [evaluateLoop]
    split
    · exact ⟨_, rfl⟩
    · split
      · exact ⟨_, rfl⟩
      · rename_i _ hlt
        have hlt : x < 1 := by
          by_contra hc
          exact hlt ((fle_is h1 hw).2 (not_lt.1 hc))
        obtain ⟨y, y1, y2⟩ := progress hw hh h0 hlt hq hq1
        push_cast at hx
        have hnn : 0 ≤ (n : ℚ) * (q / 2) := by positivity
        refine ih fuel _ y y1 ?_ ?_ (by omega) <;> rcases y2 with y2 | y2 <;> linarith

theorem fromXLoop_ends (data : Data Dbl.Float) (t : Dbl.Float) {q : ℚ} (hh : Is data.h q) (hq : (2 : ℚ) ^ (-24 : ℤ) ≤ q) (hq1 : q ≤ 1) :
    ∀ (n fuel : ℕ) (w : Walk Dbl.Float) (x : ℚ), Is w.current x → 0 ≤ x → 1 ≤ x + n * (q / 2) → n < fuel → ∃ r, fromXLoop ieee data t fuel w = .ok r := by
  have hqp : 0 < q := lt_of_lt_of_le (Dbl.two_pos _) hq
  have h1 : Is (ieee.lit 1) 1 := lit_is (by simpa using single_one)
  intro n
  induction n with
  | zero =>
    intro fuel w x hw h0 hx hf
    obtain ⟨fuel, rfl⟩ : ∃ k, fuel = k + 1 := ⟨fuel - 1, by omega⟩
    have : ieee.le (ieee.lit 1) w.current = true := (fle_is h1 hw).2 (by simpa using hx)
    rw [fromXLoop, this]
    split
    · exact ⟨_, rfl⟩
    · exact ⟨_, rfl⟩
  | succ n ih =>
    intro fuel w x hw h0 hx hf
    obtain ⟨fuel, rfl⟩ : ∃ k, fuel = k + 1 := ⟨fuel - 1, by omega⟩
    rw [fromXLoop]
    split
    · exact ⟨_, rfl⟩
    · split
      · exact ⟨_, rfl⟩
      · rename_i _ hlt
        have hlt : x < 1 := by
          by_contra hc
          exact hlt ((fle_is h1 hw).2 (not_lt.1 hc))
        obtain ⟨y, y1, y2⟩ := progress hw hh h0 hlt hq hq1
        push_cast at hx
        have hnn : 0 ≤ (n : ℚ) * (q / 2) := by positivity
        refine ih fuel _ y y1 ?_ ?_ (by omega) <;> rcases y2 with y2 | y2 <;> linarith

theorem single_nat {n : ℕ} (h : n ≤ 2 ^ 24) : Single (n : ℚ) := by
  rcases lt_or_eq_of_le h with h | h
  · refine ⟨⟨n, 0, h, by norm_num, by simp⟩, ?_⟩
    have : (n : ℚ) < 2 ^ 24 := by exact_mod_cast h
    exact lt_trans this (by norm_num)
  · subst h
    exact ⟨⟨1, 24, by norm_num, by norm_num, by norm_num⟩, by norm_num⟩

/-- The width of a step, rounded. -/
theorem step_is {steps : ℕ} (hs : 0 < steps) (hm : steps ≤ 2 ^ 24) :
    ∃ q, Is (ieee.div (ieee.lit 1) (ieee.lit ((steps : ℤ) : ℚ))) q ∧ (2 : ℚ) ^ (-24 : ℤ) ≤ q ∧ q ≤ 1 ∧ 1 ≤ 2 * steps * q := by
  have hpos : (0 : ℚ) < steps := by exact_mod_cast hs
  have h1s : (1 : ℚ) ≤ steps := by exact_mod_cast hs
  have h1 : Is (ieee.lit 1) 1 := lit_is (by simpa using single_one)
  have h2 : Is (ieee.lit ((steps : ℤ) : ℚ)) steps := by
    rw [Int.cast_natCast]
    exact lit_is (by rw [abs_of_pos hpos]; exact single_nat hm)
  obtain ⟨s, hd⟩ := fdiv_is h1 h2 hpos.ne'
  have hle : (1 : ℚ) / steps ≤ 1 := (div_le_one hpos).2 h1s
  have hmq : (steps : ℚ) ≤ 16777216 := by exact_mod_cast hm
  have hge : (2 : ℚ) ^ (-24 : ℤ) ≤ 1 / steps := by
    rw [le_div_iff₀ hpos]
    norm_num
    linarith
  have hp0 : (0 : ℚ) ≤ 1 / steps := by positivity
  obtain ⟨r, r1, r2, r3, r4⟩ := rnd32_between hp0 (single_pow (k := -24) (by norm_num) (by norm_num)) single_one hge hle
  refine ⟨r, ?_, r3, r4, ?_⟩
  · show Is (fdiv (ieee.lit 1) (ieee.lit ((steps : ℤ) : ℚ))) r
    rw [hd]
    exact is_rounded hp0 r1 r2
  · obtain ⟨r', r1', -, r3'⟩ := Dbl.rnd32_error hp0 (lt_of_le_of_lt hle (by norm_num))
    rw [r1] at r1'
    injection r1' with r1'
    subst r1'
    have hab := abs_le.mp r3'
    have hgap : (2 : ℚ) ^ (-150 : ℤ) ≤ 2 ^ (-24 : ℤ) / 4 := by norm_num
    have hq4 : r ≥ 1 / steps - 1 / steps * 2 ^ (-24 : ℤ) - 1 / steps / 4 := by linarith
    have : r ≥ 1 / steps / 2 := by norm_num at hq4 ⊢; linarith
    have h3 := mul_le_mul_of_nonneg_left this (show (0 : ℚ) ≤ 2 * steps by positivity)
    have h4 : 2 * (steps : ℚ) * (1 / steps / 2) = 1 := by field_simp
    linarith

/-- **C277, in part.** Missing: more than 2^24 steps, see `C277_not_ends`. Both functions end for every curve and every parameter, NaN and infinities included: after at most four times as many
iterations as there are steps. They do not fail an assertion. -/
theorem C277_ends_partial {steps fuel : ℕ} (hs : 0 < steps) (hm : steps ≤ 2 ^ 24) (hf : 4 * steps < fuel) (x0 y0 x1 y1 x2 y2 x3 y3 t : Dbl.Float) :
    (∃ r, evaluate ieee fuel (compute ieee steps x0 y0 x1 y1 x2 y2 x3 y3) t = .ok r) ∧
    ∃ r, fromX ieee fuel (compute ieee steps x0 y0 x1 y1 x2 y2 x3 y3) t = .ok r := by
  obtain ⟨q, q1, q2, q3, q4⟩ := step_is hs hm
  have h0 : Is (ieee.lit 0) 0 := lit_is (by simpa using single_zero)
  have hqp : 0 < q := lt_of_lt_of_le (Dbl.two_pos _) q2
  have hlt : ieee.lt (ieee.lit 0) (compute ieee steps x0 y0 x1 y1 x2 y2 x3 y3).h = true := (flt_is h0 q1).2 hqp
  have hn : (1 : ℚ) ≤ 0 + (4 * steps : ℕ) * (q / 2) := by push_cast; linarith
  constructor
  · rw [evaluate, hlt, assert, if_pos rfl, ok_bind]
    exact evaluateLoop_ends _ t q1 q2 q3 (4 * steps) fuel _ 0 h0 (le_refl _) hn hf
  · rw [fromX, hlt, assert, if_pos rfl, ok_bind]
    exact fromXLoop_ends _ t q1 q2 q3 (4 * steps) fuel _ 0 h0 (le_refl _) hn hf

/-- **C277 does not hold** for 2^25 steps: evaluating any curve at its end does not end, because `current` stays at 0.5 or below it. -/
theorem C277_not_ends (x0 y0 x1 y1 x2 y2 x3 y3 : Dbl.Float) (fuel : ℕ) :
    evaluate ieee fuel (compute ieee 33554432 x0 y0 x1 y1 x2 y2 x3 y3) (false, .fin 1) = .error .diverge := by
  have hh : (compute ieee 33554432 x0 y0 x1 y1 x2 y2 x3 y3).h = (false, .fin (1 / 33554432)) := by
    show ieee.div (ieee.lit 1) (ieee.lit ((33554432 : ℤ) : ℚ)) = _
    decide +kernel
  generalize compute ieee 33554432 x0 y0 x1 y1 x2 y2 x3 y3 = data at hh
  have hs : Single (1 / 33554432) := ⟨⟨1, -25, by norm_num, by norm_num, by norm_num⟩, by norm_num⟩
  have hhalf : Single (1 / 2) := ⟨⟨1, -1, by norm_num, by norm_num, by norm_num⟩, by norm_num⟩
  have ht : Is (false, .fin 1) 1 := ⟨false, 1, rfl, single_one, by simp⟩
  have h1 : Is (ieee.lit 1) 1 := lit_is (by simpa using single_one)
  have h0 : Is (ieee.lit 0) 0 := lit_is (by simpa using single_zero)
  have hd : Is data.h (1 / 33554432) := hh ▸ ⟨false, _, rfl, hs, by simp⟩
  have key : ∀ (fuel : ℕ) (w : Walk Dbl.Float) (x : ℚ), Is w.current x → 0 ≤ x → x ≤ 1 / 2 → evaluateLoop ieee data (false, .fin 1) fuel w = .error .diverge := by
    intro fuel
    induction fuel with
    | zero => intros; rfl
    | succ fuel ih =>
      intro w x hw hx0 hx
      have e1 : ¬ ieee.le (false, .fin 1) w.current = true := fun h => absurd ((fle_is ht hw).1 h) (by linarith)
      have e2 : ¬ ieee.le (ieee.lit 1) w.current = true := fun h => absurd ((fle_is h1 hw).1 h) (by linarith)
      rw [evaluateLoop, if_neg e1, if_neg e2]
      obtain ⟨s, hadd⟩ := fadd_is hw hd
      obtain ⟨r, r1, r2, r3, -⟩ := rnd32_between (q := x + 1 / 33554432) (by linarith) single_zero single_one (by linarith) (by linarith)
      have hle : r ≤ 1 / 2 := rnd32_mono (q' := 1 / 2 + 1 / 33554432) (by linarith) (by linarith) r1 (by decide +kernel)
      have hadv : (advance ieee data w).current = fadd w.current data.h := rfl
      exact ih _ r (by rw [hadv, hadd]; exact is_rounded (by linarith) r1 r2) r3 hle
  rw [evaluate, (flt_is h0 hd).2 (by norm_num) |> (show _ → ieee.lt (ieee.lit 0) data.h = true from id), assert, if_pos rfl, ok_bind]
  exact key fuel _ 0 h0 (le_refl _) (by norm_num)

example : evaluate ieee 17 (compute ieee 4 (false, .fin 0) (false, .fin 0) (false, .fin (1 / 2)) (false, .fin 0) (false, .fin (1 / 2)) (false, .fin 1) (false, .fin 1) (false, .fin 1))
    (false, .fin (1 / 4)) = .ok ⟨(false, .fin (19 / 64)), (false, .fin (5 / 32))⟩ := by decide +kernel

end Tm.Bez
