import Mathlib.Algebra.Order.Field.Basic
import Mathlib.Algebra.Order.Ring.Abs
import Mathlib.Tactic.FieldSimp
import Verif.Poly.Tri

/-!
# Exact arithmetic

Numbers that are never rounded, with the infinities and the NaN of IEEE 754; and arithmetics that are exact for small whole numbers.
-/

namespace Tm.Poly

/-- Exact numbers, infinities and NaN. There is one zero, which counts as positive. -/
inductive X
  | fin (q : ℚ)
  | inf (negative : Bool)
  | nan
  deriving DecidableEq, Repr

/-- `-a`. -/
def X.neg : X → X
  | .fin q => .fin (-q)
  | .inf n => .inf !n
  | .nan => .nan

/-- `a + b`. -/
def X.add : X → X → X
  | .fin a, .fin b => .fin (a + b)
  | .fin _, .inf n => .inf n
  | .inf n, .fin _ => .inf n
  | .inf m, .inf n => if m = n then .inf m else .nan
  | _, _ => .nan

/-- `a * b`. -/
def X.mul : X → X → X
  | .fin a, .fin b => .fin (a * b)
  | .fin a, .inf n => if a = 0 then .nan else .inf (n != decide (a < 0))
  | .inf n, .fin a => if a = 0 then .nan else .inf (n != decide (a < 0))
  | .inf m, .inf n => .inf (m != n)
  | _, _ => .nan

/-- `a / b`. -/
def X.div : X → X → X
  | .fin a, .fin b => if b = 0 then (if a = 0 then .nan else .inf (decide (a < 0))) else .fin (a / b)
  | .fin _, .inf _ => .fin 0
  | .inf n, .fin a => .inf (n != decide (a < 0))
  | _, _ => .nan

/-- `a <= b`. -/
def X.le : X → X → Bool
  | .fin a, .fin b => decide (a ≤ b)
  | .fin _, .inf n => !n
  | .inf n, .fin _ => n
  | .inf m, .inf n => m || !n
  | _, _ => false

/-- `a < b`. -/
def X.lt : X → X → Bool
  | .fin a, .fin b => decide (a < b)
  | .fin _, .inf n => !n
  | .inf n, .fin _ => n
  | .inf m, .inf n => m && !n
  | _, _ => false

/-- Exact arithmetic. -/
def exact : Arith X := ⟨.fin, X.add, fun a b => a.add b.neg, X.mul, X.div, X.neg, X.le, X.lt⟩

/-- A point of exact numbers. -/
def fin (v : V ℚ) : V X := ⟨.fin v.x, .fin v.y⟩

/-- An arithmetic that is exact for whole numbers of magnitude up to `n`: if the operands and the result are such numbers, the result is
not rounded. Each number has one value; for `float`, where 0 has two, see `FloatProps.lean`. -/
structure ExactInts {F : Type} (A : Arith F) (ι : ℤ → F) (n : ℤ) : Prop where
  zero : A.lit 0 = ι 0
  add (x y : ℤ) : |x| ≤ n → |y| ≤ n → |x + y| ≤ n → A.add (ι x) (ι y) = ι (x + y)
  sub (x y : ℤ) : |x| ≤ n → |y| ≤ n → |x - y| ≤ n → A.sub (ι x) (ι y) = ι (x - y)
  mul (x y : ℤ) : |x| ≤ n → |y| ≤ n → |x * y| ≤ n → A.mul (ι x) (ι y) = ι (x * y)
  le (x y : ℤ) : |x| ≤ n → |y| ≤ n → A.le (ι x) (ι y) = decide (x ≤ y)

open Spec

theorem exact_sub (a b : ℚ) : exact.sub (.fin a) (.fin b) = .fin (a - b) := by
  show X.fin (a + -b) = _
  rw [sub_eq_add_neg]
theorem exact_add (a b : ℚ) : exact.add (.fin a) (.fin b) = .fin (a + b) := rfl
theorem exact_mul (a b : ℚ) : exact.mul (.fin a) (.fin b) = .fin (a * b) := rfl
theorem exact_lit (a : ℚ) : exact.lit a = .fin a := rfl
theorem exact_le (a b : ℚ) : exact.le (.fin a) (.fin b) = decide (a ≤ b) := rfl
theorem exact_div (a b : ℚ) (h : b ≠ 0) : exact.div (.fin a) (.fin b) = .fin (a / b) := by
  show (if b = 0 then _ else _) = _
  rw [if_neg h]

theorem exact_clockwise (a b c : V ℚ) : isTriangleClockwise exact (fin a) (fin b) (fin c) = decide (0 ≤ cross a b c) := by
  unfold isTriangleClockwise fin
  simp only [exact_sub, exact_mul, exact_lit, exact_le]
  rfl

theorem exact_inside {a b c : V ℚ} (v : V ℚ) (h : cross a b c ≠ 0) :
    pointInsideTriangle exact (fin a) (fin b) (fin c) (fin v)
      = (decide (0 ≤ cross a v c / cross a b c) && decide (0 ≤ cross a b v / cross a b c) &&
         decide (cross a v c / cross a b c + cross a b v / cross a b c ≤ 1)) := by
  unfold pointInsideTriangle fin
  simp only [exact_sub, exact_mul, exact_lit, exact_add]
  unfold cross at h ⊢
  generalize b.x - a.x = bx at *
  generalize b.y - a.y = bY at *
  generalize c.x - a.x = cx at *
  generalize c.y - a.y = cy at *
  generalize v.x - a.x = vx at *
  generalize v.y - a.y = vy at *
  have e : (bx * bx + bY * bY) * (cx * cx + cy * cy) - (bx * cx + bY * cy) * (bx * cx + bY * cy) = (bx * cy - bY * cx) ^ 2 := by ring
  rw [e, exact_div _ _ (pow_ne_zero _ h)]
  simp only [exact_mul, exact_add, exact_le]
  have e1 : ((cx * cx + cy * cy) * (vx * bx + vy * bY) - (bx * cx + bY * cy) * (vx * cx + vy * cy)) * (1 / (bx * cy - bY * cx) ^ 2)
      = (vx * cy - vy * cx) / (bx * cy - bY * cx) := by
    rw [show (cx * cx + cy * cy) * (vx * bx + vy * bY) - (bx * cx + bY * cy) * (vx * cx + vy * cy)
      = (bx * cy - bY * cx) * (vx * cy - vy * cx) by ring]
    generalize bx * cy - bY * cx = k at *
    field_simp
  have e2 : ((bx * bx + bY * bY) * (vx * cx + vy * cy) - (bx * cx + bY * cy) * (vx * bx + vy * bY)) * (1 / (bx * cy - bY * cx) ^ 2)
      = (bx * vy - bY * vx) / (bx * cy - bY * cx) := by
    rw [show (bx * bx + bY * bY) * (vx * cx + vy * cy) - (bx * cx + bY * cy) * (vx * bx + vy * bY)
      = (bx * cy - bY * cx) * (bx * vy - bY * vx) by ring]
    generalize bx * cy - bY * cx = k at *
    field_simp
  rw [e1, e2]

theorem inTriangle_inside {a b c v : V ℚ} (h : cross a b c ≠ 0) (hv : InTriangle a b c v) :
    pointInsideTriangle exact (fin a) (fin b) (fin c) (fin v) = true := by
  obtain ⟨r, s, t, hr, hs, ht, e, ex, ey⟩ := hv
  rw [exact_inside v h]
  have e1 : cross a v c = s * cross a b c := by
    unfold cross
    rw [ex, ey, show r = 1 - s - t by linarith]
    ring
  have e2 : cross a b v = t * cross a b c := by
    unfold cross
    rw [ex, ey, show r = 1 - s - t by linarith]
    ring
  rw [e1, e2, mul_div_assoc, mul_div_assoc, div_self h, mul_one, mul_one]
  simp only [Bool.and_eq_true, decide_eq_true_eq]
  exact ⟨⟨hs, ht⟩, by linarith⟩

theorem outside {a b c v : V ℚ} (h : 0 < cross a b c ∧ (cross a v c < 0 ∨ cross a b v < 0 ∨ cross v b c < 0)
      ∨ cross a b c < 0 ∧ (0 < cross a v c ∨ 0 < cross a b v ∨ 0 < cross v b c)) :
    pointInsideTriangle exact (fin a) (fin b) (fin c) (fin v) = false := by
  have h0 : cross a b c ≠ 0 := by rcases h with h | h <;> [exact h.1.ne'; exact h.1.ne]
  rw [exact_inside v h0, Bool.eq_false_iff]
  intro hh
  simp only [Bool.and_eq_true, decide_eq_true_eq] at hh
  obtain ⟨⟨h1, h2⟩, h3⟩ := hh
  have e : cross v b c = cross a b c - cross a v c - cross a b v := by unfold cross; ring
  rw [← add_div] at h3
  rcases h with ⟨hp, h⟩ | ⟨hp, h⟩
  · rw [div_le_one hp] at h3
    rw [div_nonneg_iff] at h1 h2
    rcases h with h | h | h
    · rcases h1 with h1 | h1 <;> linarith [h1.1, h1.2]
    · rcases h2 with h2 | h2 <;> linarith [h2.1, h2.2]
    · linarith
  · rw [div_le_one_of_neg hp] at h3
    rw [div_nonneg_iff] at h1 h2
    rcases h with h | h | h
    · rcases h1 with h1 | h1 <;> linarith [h1.1, h1.2]
    · rcases h2 with h2 | h2 <;> linarith [h2.1, h2.2]
    · linarith

/-! ## What an ear is -/

variable {F : Type} {A : Arith F}

theorem earLoop_true {vertices : List (V F)} {a b c : Nat} {va vb vc : V F} {n i : Nat} (h : earLoop A vertices a b c va vb vc n i = .ok true)
    {j : Nat} (h1 : i ≤ j) (h2 : j < i + n) (ha : j ≠ a) (hb : j ≠ b) (hc : j ≠ c) {v : V F} (hv : vertices[j]? = some v) :
    pointInsideTriangle A va vb vc v = false := by
  induction n generalizing i with
  | zero => omega
  | succ n ih =>
    unfold earLoop at h
    by_cases hi : i = j
    · subst hi
      rw [if_neg (by simp [ha, hb, hc])] at h
      unfold rd at h
      rw [hv, ok_bind] at h
      by_cases hp : pointInsideTriangle A va vb vc v
      · rw [if_pos hp] at h
        cases h
      · simpa using hp
    · split at h
      · exact ih h (by omega) (by omega)
      · unfold rd at h
        split at h
        · rw [ok_bind] at h
          split at h
          · cases h
          · exact ih h (by omega) (by omega)
        · cases h

theorem earLoop_false {vertices : List (V F)} {a b c : Nat} {va vb vc : V F} {n i : Nat}
    (h : earLoop A vertices a b c va vb vc n i = .ok false) :
    ∃ j v, j < i + n ∧ j ≠ a ∧ j ≠ b ∧ j ≠ c ∧ vertices[j]? = some v ∧ pointInsideTriangle A va vb vc v = true := by
  induction n generalizing i with
  | zero => cases h
  | succ n ih =>
    unfold earLoop at h
    split at h
    · obtain ⟨j, v, h1, h2⟩ := ih h
      exact ⟨j, v, by omega, h2⟩
    · rename_i hn
      unfold rd at h
      split at h
      · rename_i v hv
        rw [ok_bind] at h
        split at h
        · rename_i hp
          exact ⟨i, v, by omega, fun e => hn (.inl e), fun e => hn (.inr (.inl e)), fun e => hn (.inr (.inr e)), hv, hp⟩
        · obtain ⟨j, v, h1, h2⟩ := ih h
          exact ⟨j, v, by omega, h2⟩
      · cases h

/-! ## Small whole numbers -/

/-- A point of whole numbers. -/
def ints (ι : ℤ → F) (v : V ℤ) : V F := ⟨ι v.x, ι v.y⟩

theorem ints_clockwise {ι : ℤ → F} {n m : ℤ} (h : ExactInts A ι n) (hm : 8 * (m * m) ≤ n) {a b c : V ℤ}
    (ha : |a.x| ≤ m ∧ |a.y| ≤ m) (hb : |b.x| ≤ m ∧ |b.y| ≤ m) (hc : |c.x| ≤ m ∧ |c.y| ≤ m) :
    isTriangleClockwise A (ints ι a) (ints ι b) (ints ι c) = decide (0 ≤ cross a b c) := by
  have m0 : 0 ≤ m := (abs_nonneg _).trans ha.1
  have mm : m ≤ m * m := by nlinarith [Int.le_self_sq m]
  have d : ∀ {x y : ℤ}, |x| ≤ m → |y| ≤ m → A.sub (ι x) (ι y) = ι (x - y) ∧ |x - y| ≤ 2 * m := by
    intro x y hx hy
    have := abs_sub x y
    exact ⟨h.sub x y (by linarith) (by linarith) (by linarith), by linarith⟩
  have p : ∀ {x y : ℤ}, |x| ≤ 2 * m → |y| ≤ 2 * m → A.mul (ι x) (ι y) = ι (x * y) ∧ |x * y| ≤ 4 * (m * m) := by
    intro x y hx hy
    have : |x * y| ≤ 4 * (m * m) := by
      rw [abs_mul]
      have := mul_le_mul hx hy (abs_nonneg _) (by linarith)
      linarith
    exact ⟨h.mul x y (by linarith) (by linarith) (by linarith), this⟩
  unfold isTriangleClockwise ints
  dsimp only
  obtain ⟨e1, b1⟩ := d hb.1 ha.1
  obtain ⟨e2, b2⟩ := d hb.2 ha.2
  obtain ⟨e3, b3⟩ := d hc.1 ha.1
  obtain ⟨e4, b4⟩ := d hc.2 ha.2
  obtain ⟨e5, b5⟩ := p b1 b4
  obtain ⟨e6, b6⟩ := p b2 b3
  have := abs_sub ((b.x - a.x) * (c.y - a.y)) ((b.y - a.y) * (c.x - a.x))
  rw [e1, e2, e3, e4, e5, e6, h.sub _ _ (by linarith) (by linarith) (by linarith), h.zero,
    h.le _ _ (by rw [abs_zero]; linarith) (by linarith)]
  rfl

end Tm.Poly
