import Verif.Pack.Occupancy
import Verif.Pack.GuilProps
import Verif.Pack.MaxProps
import Verif.Bez.IeeeProps

/-!
# C278: the occupancy of a bin
-/

namespace Tm.Pack

open Util
open Dbl (F rnd32 Single NearestSingle)

/-- Conversion of an `int` that is not negative: the error is at most 2^-24 of it (and a little for the sake of numbers that no `int` is). -/
theorem int_is {n : Int} (h0 : 0 ≤ n) (h1 : n ≤ 2147483647) (s : Bool) :
    ∃ r, Is (rounded s (n : ℚ)) r ∧ rnd32 (n : ℚ) = .fin r ∧ |(n : ℚ) - r| ≤ n * (1 / 2 ^ 23) := by
  have hq0 : (0 : ℚ) ≤ n := by exact_mod_cast h0
  have hq1 : (n : ℚ) ≤ 2147483647 := by exact_mod_cast h1
  obtain ⟨r, r1, r2, r3⟩ := Dbl.rnd32_error hq0 (lt_of_le_of_lt hq1 (by norm_num))
  refine ⟨r, Bez.is_rounded hq0 r1 r2, r1, ?_⟩
  rcases eq_or_lt_of_le h0 with rfl | hp
  · rw [Int.cast_zero, rnd32, if_pos (le_refl _)] at r1
    injection r1 with r1
    simp [← r1]
  · have h1 : (1 : ℚ) ≤ n := by exact_mod_cast hp
    norm_num at r3 ⊢
    linarith

theorem ratio_close {A B a b e : ℚ} (hA : 0 ≤ A) (hAB : A ≤ B) (hB : 0 < B) (hb : 0 < b) (ha : |A - a| ≤ A * e) (hbe : |B - b| ≤ B * e) (he : 0 ≤ e) (he1 : e ≤ 1 / 1000) :
    |a / b - A / B| ≤ 2002 / 999 * e := by
  have h1 : a / b - A / B = (a * B - A * b) / (b * B) := by field_simp
  have h2 : |a * B - A * b| ≤ 2 * (A * B * e) := by
    rw [show a * B - A * b = -((A - a) * B) + A * (B - b) by ring]
    refine le_trans (abs_add_le _ _) ?_
    rw [abs_neg, abs_mul, abs_mul, abs_of_pos hB, abs_of_nonneg hA]
    have := mul_le_mul_of_nonneg_right ha hB.le
    have := mul_le_mul_of_nonneg_left hbe hA
    nlinarith
  have h3 : B * (999 / 1000) ≤ b := by
    have := (_root_.abs_le.mp hbe).2
    nlinarith
  rw [h1, abs_div, abs_of_pos (mul_pos hb hB), div_le_iff₀ (mul_pos hb hB)]
  refine le_trans h2 ?_
  have h4 : A * B * e ≤ B * B * e := by
    have := mul_nonneg hB.le he
    nlinarith
  have h5 : B * (999 / 1000) * B * e ≤ b * B * e := by
    have := mul_nonneg hB.le he
    nlinarith
  have h6 : 0 ≤ B * B * e := by positivity
  nlinarith

/-- The quotient of two areas. -/
theorem quotient_is {A B : Int} (hA : 0 ≤ A) (hAB : A ≤ B) (hB : 0 < B) (hB1 : B ≤ 2147483647) :
    ∃ r, Is (fdiv (rounded false (A : ℚ)) (rounded false (B : ℚ))) r ∧ 0 ≤ r ∧ r ≤ 1 ∧ |r - A / B| ≤ 1 / 2 ^ 21 ∧ (A = 0 → r = 0) ∧ (A = B → r = 1) := by
  obtain ⟨a, a1, a2, a3⟩ := int_is hA (by omega) false
  obtain ⟨b, b1, b2, b3⟩ := int_is hB.le hB1 false
  have hq0 : (0 : ℚ) ≤ A := by exact_mod_cast hA
  have hqB : (0 : ℚ) < B := by exact_mod_cast hB
  have hqAB : (A : ℚ) ≤ B := by exact_mod_cast hAB
  have hab : a ≤ b := rnd32_mono hq0 hqAB a2 b2
  have ha0 : 0 ≤ a := by
    have := (_root_.abs_le.mp a3).2
    norm_num at this
    linarith
  have hb0 : 0 < b := by
    have := (_root_.abs_le.mp b3).2
    norm_num at this
    linarith
  obtain ⟨s, hs⟩ := fdiv_is a1 b1 hb0.ne'
  have hd0 : 0 ≤ a / b := div_nonneg ha0 hb0.le
  have hd1 : a / b ≤ 1 := (div_le_one hb0).2 hab
  obtain ⟨r, r1, r2, r3, r4⟩ := rnd32_between hd0 single_zero single_one hd0 hd1
  obtain ⟨r', r1', -, r3'⟩ := Dbl.rnd32_error hd0 (lt_of_le_of_lt hd1 (by norm_num))
  rw [r1] at r1'
  injection r1' with r1'
  subst r1'
  have hc := ratio_close hq0 hqAB hqB hb0 a3 b3 (by norm_num) (by norm_num)
  refine ⟨r, hs ▸ Bez.is_rounded hd0 r1 r2, r3, r4, ?_, ?_, ?_⟩
  · have hc' := _root_.abs_le.mp hc
    have he := _root_.abs_le.mp r3'
    rw [_root_.abs_le]
    norm_num at hc' he ⊢
    constructor <;> linarith
  · rintro rfl
    rw [Int.cast_zero, rnd32, if_pos (le_refl _)] at a2
    injection a2 with a2
    rw [← a2, zero_div, rnd32, if_pos (le_refl _)] at r1
    injection r1 with r1
    exact r1.symm
  · rintro rfl
    rw [a2] at b2
    injection b2 with b2
    rw [← b2, div_self (b2 ▸ hb0.ne'), Dbl.rnd32_exact (by norm_num) single_one] at r1
    injection r1 with r1
    exact r1.symm

theorem sum_nonneg {l : List Rect} (hl : ∀ r ∈ l, 0 < r.width ∧ 0 < r.height) : 0 ≤ areas l := by
  induction l with
  | nil => exact le_refl _
  | cons r l ih =>
    have h1 := hl r (by simp)
    have h2 := ih fun x hx => hl x (by simp [hx])
    have h3 : areas (r :: l) = area r + areas l := by simp [areas]
    have : 0 < r.width * r.height := Int.mul_pos h1.1 h1.2
    unfold area at h3
    omega

theorem areas_nonneg {W H : Int} {p : Pack} (h : Reached W H 0 p) : 0 ≤ areas p.used.live ∧ 0 ≤ areas p.free.live := by
  have hi := (reached_inv h).1
  exact ⟨sum_nonneg hi.tiles.posU, sum_nonneg hi.tiles.posF⟩

/-- **C278, in part.** Missing: bins of the MaxRects functions in which rectangles overlap, see `C278_not_maxRects`, and bins with an area above INT_MAX, see `C278_not_faultless`. After any
history of the guillotine functions the occupancy is a number from 0 to 1 that differs from the quotient of the areas by at most 2^-21. It is 0 for an empty bin and 1 for one
without free rectangles. -/
theorem C278_guillotine_partial {W H : Int} {p : Pack} (h : Reached W H 0 p) :
    ∃ f r, occupancy p = .ok f ∧ Is f r ∧ 0 ≤ r ∧ r ≤ 1 ∧ |r - (areas p.used.live : ℚ) / ((W * H : Int) : ℚ)| ≤ 1 / 2 ^ 21 ∧
      (p.used.live = [] → r = 0) ∧ (p.free.live = [] → r = 1) := by
  obtain ⟨hi, -, hw, hh⟩ := reached_inv h
  obtain ⟨ha, hsum⟩ := C80_area h
  obtain ⟨n1, n2⟩ := areas_nonneg h
  obtain ⟨s1, s2, s3⟩ := h.1, h.2.1, h.2.2.1
  have hpos : 0 < W * H := Int.mul_pos (by omega) (by omega)
  obtain ⟨r, r1, r2, r3, r4, r5, r6⟩ := quotient_is (A := areas p.used.live) (B := W * H) n1 (by omega) hpos (by omega)
  refine ⟨_, r, ?_, r1, r2, r3, r4, fun e => r5 (by rw [e]; rfl), fun e => r6 (by rw [e] at hsum; rw [← hsum]; simp [areas])⟩
  unfold occupancy
  rw [hw, hh, ha, i32, if_pos (by omega), ok_bind]

example : ∃ p, Reached 10 8 0 p ∧ p.used.live.length = 4 := exampleReached

/-- **C278, in part.** Missing as above. The same for the MaxRects functions, as long as no rectangle had exactly the size of a free rectangle. -/
theorem C278_maxRects_partial {W H : Int} (hW : 1 ≤ W) (hH : 1 ≤ H) (hA : W * H ≤ 2147483647) {p : Pack} (h : NoExact W H p) :
    ∃ f r, occupancy p = .ok f ∧ Is f r ∧ 0 ≤ r ∧ r ≤ 1 ∧ |r - (areas p.used.live : ℚ) / ((W * H : Int) : ℚ)| ≤ 1 / 2 ^ 21 ∧
      (p.used.live = [] → r = 0) := by
  have hW2 : W ≤ 2147483647 := by nlinarith
  have hH2 : H ≤ 2147483647 := by nlinarith
  obtain ⟨-, hle, -⟩ := C87_apart_partial ⟨hW, hW2⟩ ⟨hH, hH2⟩ h
  obtain ⟨hin, ha⟩ := C86_inside ⟨hW, hW2⟩ ⟨hH, hH2⟩ h.reached
  have hi := noExact_inv ⟨⟨hW, hW2⟩, ⟨hH, hH2⟩⟩ h
  have hpos : 0 < W * H := Int.mul_pos (by omega) (by omega)
  have n1 : 0 ≤ areas p.used.live := sum_nonneg fun r hr => (hin r hr).2
  obtain ⟨r, r1, r2, r3, r4, r5, -⟩ := quotient_is (A := areas p.used.live) (B := W * H) n1 (by omega) hpos (by omega)
  refine ⟨_, r, ?_, r1, r2, r3, r4, fun e => r5 (by rw [e]; rfl)⟩
  unfold occupancy
  rw [hi.width, hi.height, ha, i32, if_pos (by omega), ok_bind]

example : ∃ p, NoExact 10 10 p ∧ occupancy p = .ok (false, .fin (1 / 4)) := ⟨examplePack, examplePack_noExact, by decide +kernel⟩

/-- **C278 does not hold** for the MaxRects functions in general: more than the whole bin is occupied, see `C87_not_apart`. -/
theorem C278_not_maxRects : ∃ p, MReached 10 10 p ∧ occupancy p = .ok (false, .fin (5 / 4)) := by
  have h0 : MReached 10 10 ⟨10, 10, 0, ⟨[⟨0, 0, 10, 10⟩], [], 20, 0⟩, ⟨[], [], 4, 0⟩, false⟩ :=
    .create (dyn := false) (freeCap := 20) (usedCap := 4) rfl
  have h1 := MReached.insert (w := 5) (h := 5) (fit := .shortSide) (flip := false) h0 (by decide) (by decide) rfl
  have h2 := MReached.insert (w := 5) (h := 10) (fit := .shortSide) (flip := false) h1 (by decide) (by decide) rfl
  have h3 := MReached.insert (w := 10) (h := 5) (fit := .shortSide) (flip := false) h2 (by decide) (by decide) rfl
  exact ⟨_, h3, by decide +kernel⟩

/-- **C278 does not hold** for great bins: the product of the sizes overflows. -/
theorem C278_not_faultless : ∃ p, create false 65536 65536 2 1 = .ok p ∧ occupancy p = .error .overflow := ⟨_, rfl, by decide +kernel⟩

end Tm.Pack
