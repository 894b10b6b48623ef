import Mathlib.Tactic.Linarith
import Mathlib.Tactic.Ring
import Mathlib.Tactic.FieldSimp
import Mathlib.Tactic.Positivity
import Mathlib.Algebra.Order.Field.Basic
import Verif.Bez.Model
import Verif.Poly.Exact

/-!
# Bezier curves

Properties C193-C195, in exact arithmetic.
-/

namespace Tm.Bez
open Poly (Arith V X exact exact_add exact_sub exact_mul exact_div exact_lit exact_le)

/-- The point of a cubic Bezier curve, one coordinate. -/
def bezier (p0 p1 p2 p3 t : ℚ) : ℚ := (1 - t) ^ 3 * p0 + 3 * (1 - t) ^ 2 * t * p1 + 3 * (1 - t) * t ^ 2 * p2 + t ^ 3 * p3

/-- The four points of a curve. -/
structure Curve where
  x0 : ℚ
  y0 : ℚ
  x1 : ℚ
  y1 : ℚ
  x2 : ℚ
  y2 : ℚ
  x3 : ℚ
  y3 : ℚ

/-- The point of a curve, first coordinate. -/
def Curve.x (c : Curve) (t : ℚ) : ℚ := bezier c.x0 c.x1 c.x2 c.x3 t

/-- The point of a curve, second coordinate. -/
def Curve.y (c : Curve) (t : ℚ) : ℚ := bezier c.y0 c.y1 c.y2 c.y3 t

/-- What `computeBezierForwardDifferencer` returns. -/
def Curve.data (c : Curve) (steps : ℤ) : Data X :=
  compute exact steps (.fin c.x0) (.fin c.y0) (.fin c.x1) (.fin c.y1) (.fin c.x2) (.fin c.y2) (.fin c.x3) (.fin c.y3)

/-- The variables after `k` steps of width `h`. -/
def walk (c : Curve) (h : ℚ) (k : ℕ) : Walk X :=
  ⟨.fin (k * h), .fin (c.x ((k + 1) * h)), .fin (c.y ((k + 1) * h)), .fin (c.x ((k + 1) * h) - c.x (k * h)),
    .fin (c.y ((k + 1) * h) - c.y (k * h)), .fin (c.x ((k + 2) * h) - 2 * c.x ((k + 1) * h) + c.x (k * h)),
    .fin (c.y ((k + 2) * h) - 2 * c.y ((k + 1) * h) + c.y (k * h))⟩

theorem exact_neg (a : ℚ) : exact.neg (.fin a) = .fin (-a) := rfl

theorem coordinate_eq (h p0 p1 p2 p3 : ℚ) :
    coordinate exact (.fin h) (.fin p0) (.fin p1) (.fin p2) (.fin p3)
      = (.fin p0, .fin (bezier p0 p1 p2 p3 h - p0), .fin (bezier p0 p1 p2 p3 (2 * h) - 2 * bezier p0 p1 p2 p3 h + p0),
          .fin (6 * h ^ 3 * (p3 - 3 * p2 + 3 * p1 - p0))) := by
  unfold coordinate
  simp only [exact_mul, exact_add, exact_neg, exact_lit]
  unfold bezier
  refine Prod.ext rfl (Prod.ext ?_ (Prod.ext ?_ ?_)) <;> · simp only; congr 1; ring

theorem data_eq (c : Curve) {steps : ℕ} (hs : 0 < steps) :
    c.data steps = ⟨.fin (1 / steps), .fin c.x0, .fin c.y0, .fin (c.x (1 / steps) - c.x0), .fin (c.y (1 / steps) - c.y0),
      .fin (c.x (2 * (1 / steps)) - 2 * c.x (1 / steps) + c.x0), .fin (c.y (2 * (1 / steps)) - 2 * c.y (1 / steps) + c.y0),
      .fin (6 * (1 / steps) ^ 3 * (c.x3 - 3 * c.x2 + 3 * c.x1 - c.x0)), .fin (6 * (1 / steps) ^ 3 * (c.y3 - 3 * c.y2 + 3 * c.y1 - c.y0))⟩ := by
  have h0 : ((steps : ℤ) : ℚ) ≠ 0 := by
    have : (steps : ℤ) ≠ 0 := by omega
    exact_mod_cast this
  unfold Curve.data compute
  simp only [exact_lit]
  rw [exact_div _ _ h0]
  rw [show ((steps : ℤ) : ℚ) = (steps : ℚ) by push_cast; rfl]
  simp only [coordinate_eq]
  rfl

theorem first_eq (c : Curve) {steps : ℕ} (hs : 0 < steps) : first exact (c.data steps) = walk c (1 / steps) 0 := by
  rw [data_eq c hs]
  unfold first walk
  simp only [exact_add, exact_lit]
  generalize (1 / steps : ℚ) = h
  have e0 : c.x 0 = c.x0 := by unfold Curve.x bezier; ring
  have e1 : c.y 0 = c.y0 := by unfold Curve.y bezier; ring
  simp only [Nat.cast_zero, zero_mul, zero_add, one_mul, e0, e1]
  congr 2 <;> ring

theorem advance_eq (c : Curve) {steps : ℕ} (hs : 0 < steps) (k : ℕ) :
    advance exact (c.data steps) (walk c (1 / steps) k) = walk c (1 / steps) (k + 1) := by
  rw [data_eq c hs]
  unfold advance walk
  simp only [exact_add]
  generalize (1 / steps : ℚ) = h
  unfold Curve.x Curve.y bezier
  push_cast
  congr 2 <;> ring

/-- What the loop returns if it stops after `k` steps. -/
theorem evaluate_eq (c : Curve) {steps : ℕ} (hs : 0 < steps) {t : ℚ} {k : ℕ} (hk : t ≤ k * (1 / steps)) (hj : ∀ j < k, (j : ℚ) * (1 / steps) < t)
    (hks : k ≤ steps) :
    ∀ {n j fuel : ℕ}, j + n = k → n < fuel → evaluateLoop exact (c.data steps) (.fin t) fuel (walk c (1 / steps) j)
      = .ok ⟨.fin (c.x (k * (1 / steps)) + (c.x ((k + 1) * (1 / steps)) - c.x (k * (1 / steps))) * ((k * (1 / steps) - t) / (1 / steps))),
          .fin (c.y (k * (1 / steps)) + (c.y ((k + 1) * (1 / steps)) - c.y (k * (1 / steps))) * ((k * (1 / steps) - t) / (1 / steps)))⟩ := by
  intro n
  have hpos : (0 : ℚ) < steps := by exact_mod_cast hs
  have hh : (1 / steps : ℚ) ≠ 0 := (one_div_pos.2 hpos).ne'
  induction n with
  | zero =>
    intro j fuel e hf
    cases fuel with
    | zero => omega
    | succ fuel =>
      have e' : j = k := by omega
      subst e'
      unfold evaluateLoop
      rw [if_pos (by show exact.le _ (.fin _) = true; rw [exact_le]; simpa using hk), data_eq c hs]
      unfold walk
      simp only [exact_sub, exact_mul, exact_add, exact_div _ _ hh]
      congr 3 <;> ring
  | succ n ih =>
    intro j fuel e hf
    cases fuel with
    | zero => omega
    | succ fuel =>
      unfold evaluateLoop
      have h1 : (j : ℚ) * (1 / steps) < t := hj j (by omega)
      have h2 : (j : ℚ) * (1 / steps) < 1 := by
        rw [mul_one_div, div_lt_one hpos]
        exact_mod_cast (by omega : j < steps)
      rw [if_neg (by show ¬ exact.le _ (.fin _) = true; rw [exact_le]; simpa using h1),
        if_neg (by show ¬ exact.le _ (.fin _) = true; rw [exact_lit, exact_le]; simpa using h2), advance_eq c hs]
      exact ih (by omega) (by omega)

theorem step_pos (c : Curve) {steps : ℕ} (hs : 0 < steps) : exact.lt (exact.lit 0) (c.data steps).h = true := by
  rw [data_eq c hs]
  show decide ((0 : ℚ) < 1 / steps) = true
  have hpos : (0 : ℚ) < steps := by exact_mod_cast hs
  simpa using hpos

/-- C193: at `k / steps` the evaluated point is the point of the curve. -/
theorem C193_grid (c : Curve) {steps k fuel : ℕ} (hs : 0 < steps) (hk : k ≤ steps) (hf : steps < fuel) :
    evaluate exact fuel (c.data steps) (.fin (k / steps)) = .ok ⟨.fin (c.x (k / steps)), .fin (c.y (k / steps))⟩ := by
  have hpos : (0 : ℚ) < steps := by exact_mod_cast hs
  unfold evaluate
  rw [step_pos c hs, assert, if_pos rfl, ok_bind, first_eq c hs,
    evaluate_eq c hs (k := k) (by rw [mul_one_div]) (fun j hj => by
      rw [mul_one_div, div_lt_div_iff_of_pos_right hpos]; exact_mod_cast hj) hk (j := 0) (n := k) (by omega) (by omega)]
  simp only [mul_one_div, sub_self, zero_div, mul_zero, add_zero]

/-- An S for easing. -/
def easing : Curve := ⟨0, 0, 1 / 2, 0, 1 / 2, 1, 1, 1⟩

example : evaluate exact 5 (easing.data 4) (.fin (1 / 4)) = .ok ⟨.fin (19 / 64), .fin (5 / 32)⟩ := by decide +kernel

/-- C194, at the computed points: the evaluated point is the point of the curve, so it is on the line between the computed points around
it. Missing are all other parameters, for which it does not hold, see `C194_not_between`. -/
theorem C194_grid_partial (c : Curve) {steps k fuel : ℕ} (hs : 0 < steps) (hk : k < steps) (hf : steps < fuel) {t : ℚ}
    (ht : t = k / steps ∨ t = (k + 1 : ℕ) / steps) :
    ∃ r : ℚ, 0 ≤ r ∧ r ≤ 1 ∧ evaluate exact fuel (c.data steps) (.fin t)
      = .ok ⟨.fin (c.x (k / steps) + r * (c.x ((k + 1 : ℕ) / steps) - c.x (k / steps))),
          .fin (c.y (k / steps) + r * (c.y ((k + 1 : ℕ) / steps) - c.y (k / steps)))⟩ := by
  rcases ht with rfl | rfl
  · exact ⟨0, le_refl _, zero_le_one, by rw [C193_grid c hs (by omega) hf, zero_mul, zero_mul, add_zero, add_zero]⟩
  · refine ⟨1, zero_le_one, le_refl _, ?_⟩
    rw [C193_grid c hs (by omega) hf, one_mul, one_mul, add_sub_cancel, add_sub_cancel]

/-- A straight line with constant speed. -/
def line : Curve := ⟨0, 0, 1 / 3, 1 / 3, 2 / 3, 2 / 3, 1, 1⟩

/-- C194 does not hold: the interpolation between the computed points goes in the wrong direction. On a straight line from (0, 0) to
(1, 1) with ten steps, the parameter 1/100 gives (19/100, 19/100). -/
theorem C194_not_between :
    line.x (1 / 100) = 1 / 100 ∧ evaluate exact 100 (line.data 10) (.fin (1 / 100)) = .ok ⟨.fin (19 / 100), .fin (19 / 100)⟩ := by
  decide +kernel

/-- C194 does not hold behind the end: a parameter greater than 1 gives a point that is one step behind the end of the curve. -/
theorem C194_not_end : evaluate exact 100 (line.data 10) (.fin 2) = .ok ⟨.fin (11 / 10), .fin (11 / 10)⟩ := by decide +kernel

/-- A curve for easing, as documented. -/
structure Curve.Easing (c : Curve) : Prop where
  x0 : c.x0 = 0
  y0 : c.y0 = 0
  x1 : 0 ≤ c.x1 ∧ c.x1 ≤ 1
  x2 : 0 ≤ c.x2 ∧ c.x2 ≤ 1
  x3 : c.x3 = 1
  y3 : c.y3 = 1

/-- The first coordinate of a curve for easing increases. -/
theorem x_mono {c : Curve} (h : c.Easing) {s t : ℚ} (h0 : 0 ≤ s) (hst : s < t) (h1 : t ≤ 1) : c.x s < c.x t := by
  have e : c.x t - c.x s = (t - s) * ((1 - c.x1) * (1 - c.x2) * (t ^ 2 + t * s + s ^ 2)
      + c.x1 * c.x2 * ((1 - t) ^ 2 + (1 - t) * (1 - s) + (1 - s) ^ 2)
      + (1 - c.x1) * c.x2 * (2 * t * (1 - t) + 2 * s * (1 - s) + t * (1 - s) + s * (1 - t))
      + c.x1 * (1 - c.x2) * (4 * ((t - 1 / 2) ^ 2 + (t - 1 / 2) * (s - 1 / 2) + (s - 1 / 2) ^ 2))) := by
    unfold Curve.x bezier
    rw [h.x0, h.x3]
    ring
  have hd : 0 < t - s := by linarith
  have q1 : 0 < t ^ 2 + t * s + s ^ 2 := by nlinarith [mul_nonneg h0 (by linarith : (0 : ℚ) ≤ t), sq_nonneg s, mul_pos (by linarith : (0 : ℚ) < t) (by linarith : (0 : ℚ) < t)]
  have q2 : 0 < (1 - t) ^ 2 + (1 - t) * (1 - s) + (1 - s) ^ 2 := by
    nlinarith [mul_nonneg (by linarith : (0 : ℚ) ≤ 1 - t) (by linarith : (0 : ℚ) ≤ 1 - s), sq_nonneg (1 - t),
      mul_pos (by linarith : (0 : ℚ) < 1 - s) (by linarith : (0 : ℚ) < 1 - s)]
  have q3 : 0 < 2 * t * (1 - t) + 2 * s * (1 - s) + t * (1 - s) + s * (1 - t) := by
    nlinarith [mul_nonneg (by linarith : (0 : ℚ) ≤ t) (by linarith : (0 : ℚ) ≤ 1 - t), mul_nonneg h0 (by linarith : (0 : ℚ) ≤ 1 - s),
      mul_pos (by linarith : (0 : ℚ) < t) (by linarith : (0 : ℚ) < 1 - s), mul_nonneg h0 (by linarith : (0 : ℚ) ≤ 1 - t)]
  have q4 : 0 < 4 * ((t - 1 / 2) ^ 2 + (t - 1 / 2) * (s - 1 / 2) + (s - 1 / 2) ^ 2) := by
    nlinarith [mul_pos hd hd, sq_nonneg ((t - 1 / 2) + (s - 1 / 2))]
  have a1 := h.x1
  have a2 := h.x2
  have w1 : 0 ≤ (1 - c.x1) * (1 - c.x2) := mul_nonneg (by linarith) (by linarith)
  have w2 : 0 ≤ c.x1 * c.x2 := mul_nonneg (by linarith) (by linarith)
  have w3 : 0 ≤ (1 - c.x1) * c.x2 := mul_nonneg (by linarith) (by linarith)
  have w4 : 0 ≤ c.x1 * (1 - c.x2) := mul_nonneg (by linarith) (by linarith)
  have ws : (1 - c.x1) * (1 - c.x2) + c.x1 * c.x2 + (1 - c.x1) * c.x2 + c.x1 * (1 - c.x2) = 1 := by ring
  have : 0 < c.x t - c.x s := by
    rw [e]
    refine mul_pos hd ?_
    generalize (1 - c.x1) * (1 - c.x2) = w1' at *
    generalize c.x1 * c.x2 = w2' at *
    generalize (1 - c.x1) * c.x2 = w3' at *
    generalize c.x1 * (1 - c.x2) = w4' at *
    generalize t ^ 2 + t * s + s ^ 2 = p1 at *
    generalize (1 - t) ^ 2 + (1 - t) * (1 - s) + (1 - s) ^ 2 = p2 at *
    generalize 2 * t * (1 - t) + 2 * s * (1 - s) + t * (1 - s) + s * (1 - t) = p3 at *
    generalize 4 * ((t - 1 / 2) ^ 2 + (t - 1 / 2) * (s - 1 / 2) + (s - 1 / 2) ^ 2) = p4 at *
    have := mul_nonneg w1 q1.le
    have := mul_nonneg w2 q2.le
    have := mul_nonneg w3 q3.le
    have := mul_nonneg w4 q4.le
    by_contra hn
    have z1 : w1' * p1 = 0 := by linarith
    have z2 : w2' * p2 = 0 := by linarith
    have z3 : w3' * p3 = 0 := by linarith
    have z4 : w4' * p4 = 0 := by linarith
    have y1 := (mul_eq_zero.1 z1).resolve_right q1.ne'
    have y2 := (mul_eq_zero.1 z2).resolve_right q2.ne'
    have y3 := (mul_eq_zero.1 z3).resolve_right q3.ne'
    have y4 := (mul_eq_zero.1 z4).resolve_right q4.ne'
    linarith
  linarith

theorem fromX_eq {c : Curve} (h : c.Easing) {steps : ℕ} (hs : 0 < steps) {x : ℚ} {k : ℕ} (hk : x ≤ c.x ((k + 1) * (1 / steps)))
    (hj : ∀ j < k, c.x (((j : ℚ) + 1) * (1 / steps)) < x) (hks : k < steps) :
    ∀ {n j fuel : ℕ}, j + n = k → n < fuel → fromXLoop exact (c.data steps) (.fin x) fuel (walk c (1 / steps) j)
      = .ok (.fin (c.y (k * (1 / steps)) + (c.y ((k + 1) * (1 / steps)) - c.y (k * (1 / steps)))
          * ((x - c.x (k * (1 / steps))) / (c.x ((k + 1) * (1 / steps)) - c.x (k * (1 / steps)))))) := by
  intro n
  have hpos : (0 : ℚ) < steps := by exact_mod_cast hs
  have hh : (0 : ℚ) < 1 / steps := one_div_pos.2 hpos
  induction n with
  | zero =>
    intro j fuel e hf
    cases fuel with
    | zero => omega
    | succ fuel =>
      have e' : j = k := by omega
      subst e'
      unfold fromXLoop
      rw [if_pos (by show exact.le (.fin _) (.fin _) = true; rw [exact_le]; simpa using hk)]
      unfold walk
      simp only [exact_sub, exact_mul, exact_add]
      have hne : c.x ((j + 1) * (1 / steps)) - (c.x ((j + 1) * (1 / steps)) - (c.x ((j + 1) * (1 / steps)) - c.x (j * (1 / steps)))) ≠ 0 := by
        have := x_mono h (s := j * (1 / steps)) (t := (j + 1) * (1 / steps)) (mul_nonneg (Nat.cast_nonneg j) hh.le)
          (by nlinarith) (by rw [mul_one_div, div_le_one hpos]; exact_mod_cast (by omega : j + 1 ≤ steps))
        intro h0
        linarith
      rw [exact_div _ _ hne]
      simp only [exact_mul, exact_add]
      congr 2
      rw [show c.x ((j + 1) * (1 / steps)) - (c.x ((j + 1) * (1 / steps)) - c.x (j * (1 / steps))) = c.x (j * (1 / steps)) by ring,
        show c.y ((j + 1) * (1 / steps)) - (c.y ((j + 1) * (1 / steps)) - c.y (j * (1 / steps))) = c.y (j * (1 / steps)) by ring]
  | succ n ih =>
    intro j fuel e hf
    cases fuel with
    | zero => omega
    | succ fuel =>
      unfold fromXLoop
      have h1 := hj j (by omega)
      have h2 : (j : ℚ) * (1 / steps) < 1 := by
        rw [mul_one_div, div_lt_one hpos]
        exact_mod_cast (by omega : j < steps)
      rw [if_neg (by show ¬ exact.le (.fin _) (.fin _) = true; rw [exact_le]; simpa using h1),
        if_neg (by show ¬ exact.le _ (.fin _) = true; rw [exact_lit, exact_le]; simpa using h2), advance_eq c hs]
      exact ih (by omega) (by omega)

/-- C195: for a curve for easing and x from 0 to 1 the value is on the line between two neighbouring points of the curve, at x. -/
theorem C195_interpolates {c : Curve} (h : c.Easing) {steps fuel : ℕ} (hs : 0 < steps) (hf : steps < fuel) {x : ℚ} (h0 : 0 ≤ x) (h1 : x ≤ 1) :
    ∃ k < steps, c.x (k / steps) ≤ x ∧ x ≤ c.x ((k + 1 : ℕ) / steps) ∧
      fromX exact fuel (c.data steps) (.fin x) = .ok (.fin (c.y (k / steps) + (c.y ((k + 1 : ℕ) / steps) - c.y (k / steps))
        * ((x - c.x (k / steps)) / (c.x ((k + 1 : ℕ) / steps) - c.x (k / steps))))) := by
  have hpos : (0 : ℚ) < steps := by exact_mod_cast hs
  have hex : ∃ k : ℕ, x ≤ c.x (((k : ℚ) + 1) * (1 / steps)) := by
    refine ⟨steps - 1, ?_⟩
    have e : ((steps - 1 : ℕ) : ℚ) + 1 = steps := by exact_mod_cast Nat.sub_add_cancel hs
    rw [e, mul_one_div, div_self hpos.ne']
    have : c.x 1 = 1 := by unfold Curve.x bezier; rw [h.x3]; ring
    rw [this]; exact h1
  classical
  have hk := Nat.find_spec hex
  have hm : ∀ j < Nat.find hex, c.x (((j : ℚ) + 1) * (1 / steps)) < x := fun j hj => not_le.1 (Nat.find_min hex hj)
  generalize Nat.find hex = k at hk hm
  have hks : k < steps := by
    by_contra hn
    have := hm (steps - 1) (by omega)
    have e : ((steps - 1 : ℕ) : ℚ) + 1 = steps := by exact_mod_cast Nat.sub_add_cancel hs
    rw [e, mul_one_div, div_self hpos.ne'] at this
    have e1 : c.x 1 = 1 := by unfold Curve.x bezier; rw [h.x3]; ring
    rw [e1] at this
    linarith
  refine ⟨k, hks, ?_, ?_, ?_⟩
  · cases k with
    | zero =>
      have : c.x ((0 : ℕ) / steps) = 0 := by unfold Curve.x bezier; rw [h.x0, h.x3]; push_cast; rw [zero_div]; ring
      rw [this]; exact h0
    | succ k =>
      have := hm k (by omega)
      rw [mul_one_div] at this
      push_cast
      exact this.le
  · rw [mul_one_div] at hk
    push_cast
    exact hk
  · unfold fromX
    rw [step_pos c hs, assert, if_pos rfl, ok_bind, first_eq c hs, fromX_eq h hs hk hm hks (j := 0) (n := k) (by omega) (by omega)]
    simp only [mul_one_div, Nat.cast_add, Nat.cast_one]

/-- C195: the curve for easing starts at 0 and ends at 1. -/
theorem C195_ends {c : Curve} (h : c.Easing) {steps fuel : ℕ} (hs : 0 < steps) (hf : steps < fuel) :
    fromX exact fuel (c.data steps) (.fin 0) = .ok (.fin 0) ∧ fromX exact fuel (c.data steps) (.fin 1) = .ok (.fin 1) := by
  have hpos : (0 : ℚ) < steps := by exact_mod_cast hs
  have ex0 : c.x 0 = 0 := by unfold Curve.x bezier; rw [h.x0]; ring
  have ey0 : c.y 0 = 0 := by unfold Curve.y bezier; rw [h.y0]; ring
  have ex1 : c.x 1 = 1 := by unfold Curve.x bezier; rw [h.x3]; ring
  have ey1 : c.y 1 = 1 := by unfold Curve.y bezier; rw [h.y3]; ring
  constructor
  · obtain ⟨k, hk, h1, h2, e⟩ := C195_interpolates h hs hf (le_refl (0 : ℚ)) zero_le_one
    have hk0 : k = 0 := by
      by_contra hn
      have := x_mono h (le_refl 0) (t := k / steps) (by have : 0 < k := by omega
                                                        positivity) (by rw [div_le_one hpos]; exact_mod_cast hk.le)
      rw [ex0] at this
      linarith
    subst hk0
    rw [e]
    simp only [Nat.cast_zero, zero_div, ex0, ey0, sub_self, mul_zero, add_zero]
  · obtain ⟨k, hk, h1, h2, e⟩ := C195_interpolates h hs hf zero_le_one (le_refl (1 : ℚ))
    have hk0 : k + 1 = steps := by
      by_contra hn
      have := x_mono h (s := (k + 1 : ℕ) / steps) (t := 1) (by positivity) (by
        rw [div_lt_one hpos]; exact_mod_cast (by omega : k + 1 < steps)) (le_refl 1)
      rw [ex1] at this
      linarith
    rw [e, hk0, div_self hpos.ne', ex1, ey1]
    have hx : c.x (k / steps) < c.x 1 := x_mono h (by positivity) (by rw [div_lt_one hpos]; exact_mod_cast hk) (le_refl 1)
    rw [ex1] at hx
    rw [div_self (by linarith), mul_one, add_sub_cancel]

example : easing.Easing := ⟨rfl, rfl, by decide +kernel, by decide +kernel, rfl, rfl⟩

example : fromX exact 5 (easing.data 4) (.fin (1 / 2)) = .ok (.fin (1 / 2)) := by decide +kernel

theorem fromX_beyond (c : Curve) {steps : ℕ} (hs : 0 < steps) {x : ℚ} (hx : ∀ j ≤ steps, c.x (((j : ℚ) + 1) * (1 / steps)) < x) :
    ∀ {n j fuel : ℕ}, j + n = steps → n < fuel → fromXLoop exact (c.data steps) (.fin x) fuel (walk c (1 / steps) j) = .ok (.fin (c.y 1)) := by
  have hpos : (0 : ℚ) < steps := by exact_mod_cast hs
  intro n
  induction n with
  | zero =>
    intro j fuel e hf
    cases fuel with
    | zero => omega
    | succ fuel =>
      obtain rfl : j = steps := by omega
      unfold fromXLoop
      have h1 := hx j (le_refl _)
      have h2 : (j : ℚ) * (1 / j) = 1 := by field_simp
      rw [if_neg (by show ¬ exact.le (.fin _) (.fin _) = true; rw [exact_le]; simpa using h1),
        if_pos (by show exact.le _ (.fin _) = true; rw [exact_lit, exact_le, h2]; simp)]
      show Except.ok (exact.sub (.fin (c.y ((j + 1) * (1 / j)))) (.fin (c.y ((j + 1) * (1 / j)) - c.y (j * (1 / j))))) = _
      rw [exact_sub, h2, sub_sub_cancel]
  | succ n ih =>
    intro j fuel e hf
    cases fuel with
    | zero => omega
    | succ fuel =>
      unfold fromXLoop
      have h1 := hx j (by omega)
      have h2 : (j : ℚ) * (1 / steps) < 1 := by
        rw [mul_one_div, div_lt_one hpos]
        exact_mod_cast (by omega : j < steps)
      rw [if_neg (by show ¬ exact.le (.fin _) (.fin _) = true; rw [exact_le]; simpa using h1),
        if_neg (by show ¬ exact.le _ (.fin _) = true; rw [exact_lit, exact_le]; simpa using h2), advance_eq c hs]
      exact ih (by omega) (by omega)

/-- C195: an x that is greater than those of all computed points, of which the last is one step behind the end of the curve, gives the end of the curve. This holds for every curve. -/
theorem C195_beyond (c : Curve) {steps fuel : ℕ} (hs : 0 < steps) (hf : steps < fuel) {x : ℚ} (hx : ∀ j : ℕ, 1 ≤ j → j ≤ steps + 1 → c.x (j / steps) < x) :
    fromX exact fuel (c.data steps) (.fin x) = .ok (.fin c.y3) := by
  have e : c.y 1 = c.y3 := by unfold Curve.y bezier; ring
  unfold fromX
  rw [step_pos c hs, assert, if_pos rfl, ok_bind, first_eq c hs, ← e]
  refine fromX_beyond c hs (fun j hj => ?_) (j := 0) (by omega) hf
  have := hx (j + 1) (by omega) (by omega)
  rw [mul_one_div]
  push_cast at this
  exact this

example : fromX exact 5 (easing.data 4) (.fin 10) = .ok (.fin 1) := by decide +kernel

end Tm.Bez
