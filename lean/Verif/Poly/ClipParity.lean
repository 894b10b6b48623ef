import Verif.Poly.ClipExact
import Mathlib.Tactic.Linarith
import Mathlib.Tactic.FieldSimp
import Mathlib.Tactic.Ring

/-! # How crossings change whether a point is inside -/

namespace Tm.Poly
open Spec

/-- An affine function changes its sign if and only if it has a zero in between. -/
theorem sign_change {α β lo hi : ℚ} (h : lo ≤ hi) (h1 : α + β * lo ≠ 0) (h2 : α + β * hi ≠ 0) :
    (∃ x, lo ≤ x ∧ x ≤ hi ∧ α + β * x = 0) ↔ ¬ (0 < α + β * lo ↔ 0 < α + β * hi) := by
  constructor
  · rintro ⟨x, hx1, hx2, e⟩ hs
    rcases le_total 0 β with hb | hb
    · have e1 : α + β * lo ≤ 0 := by nlinarith
      have e2 : 0 ≤ α + β * hi := by nlinarith
      have := hs.2 (lt_of_le_of_ne e2 (Ne.symm h2))
      linarith
    · have e1 : 0 ≤ α + β * lo := by nlinarith
      have e2 : α + β * hi ≤ 0 := by nlinarith
      have := hs.1 (lt_of_le_of_ne e1 (Ne.symm h1))
      linarith
  · intro hs
    have hb : β ≠ 0 := by
      rintro rfl
      apply hs
      simp
    refine ⟨-α / β, ?_, ?_, by field_simp; ring⟩
    · rcases lt_or_gt_of_ne hb with hb | hb
      · rw [le_div_iff_of_neg hb]
        by_contra hc
        apply hs
        have e1 : α + β * lo < 0 := by linarith
        have e2 : α + β * hi ≤ α + β * lo := by nlinarith
        constructor <;> intro <;> linarith
      · rw [le_div_iff₀ hb]
        by_contra hc
        apply hs
        have e1 : 0 < α + β * lo := by linarith
        have e2 : α + β * lo ≤ α + β * hi := by nlinarith
        constructor <;> intro <;> linarith
    · rcases lt_or_gt_of_ne hb with hb | hb
      · rw [div_le_iff_of_neg hb]
        by_contra hc
        apply hs
        have e1 : 0 < α + β * hi := by linarith
        have e2 : α + β * hi ≤ α + β * lo := by nlinarith
        constructor <;> intro <;> linarith
      · rw [div_le_iff₀ hb]
        by_contra hc
        apply hs
        have e1 : α + β * hi < 0 := by linarith
        have e2 : α + β * lo ≤ α + β * hi := by nlinarith
        constructor <;> intro <;> linarith

/-- Whether a proposition is true. -/
noncomputable def tt (p : Prop) : Bool := @decide p (Classical.propDecidable p)

theorem tt_iff {p : Prop} : tt p = true ↔ p := by
  unfold tt
  exact @decide_eq_true_iff p (Classical.propDecidable p)

theorem tt_true {p : Prop} (h : p) : tt p = true := tt_iff.2 h

theorem tt_false {p : Prop} (h : ¬ p) : tt p = false := by
  rw [← Bool.not_eq_true, tt_iff]
  exact h

theorem tt_congr {p q : Prop} (h : p ↔ q) : tt p = tt q := by
  rw [propext h]

theorem tt_decide (p : Prop) [Decidable p] : tt p = decide p := by
  rw [Bool.eq_iff_iff, tt_iff, decide_eq_true_iff]

theorem tt_cases {p : Prop} : (p ∧ tt p = true) ∨ (¬ p ∧ tt p = false) := by
  by_cases h : p
  · exact .inl ⟨h, tt_true h⟩
  · exact .inr ⟨h, tt_false h⟩

/-- Exclusive or of propositions. -/
noncomputable def xor3 (a b c : Prop) : Bool := (tt a != tt b) != tt c

theorem heights_key {p q r s α β : ℚ} {c : Prop}
    (hc : c ↔ ∃ h, p ≤ h ∧ r ≤ h ∧ h ≤ q ∧ h ≤ s ∧ α + β * h = 0)
    (hz : ∀ h, p ≤ h → r ≤ h → h ≤ q → h ≤ s → α + β * h = 0 → p < h ∧ r < h ∧ h < q ∧ h < s) :
    ∀ lo hi, lo ≤ hi → p ≤ lo → r ≤ lo → hi ≤ q → hi ≤ s → (lo = p ∨ lo = r) → (hi = q ∨ hi = s) →
      tt c = (tt (0 < α + β * lo) != tt (0 < α + β * hi)) := by
  intro lo hi hl g1 g2 g3 g4 e1 e2
  have n1 : α + β * lo ≠ 0 := fun e => by
    have := hz lo g1 g2 (by linarith) (by linarith) e
    rcases e1 with e1 | e1 <;> linarith
  have n2 : α + β * hi ≠ 0 := fun e => by
    have := hz hi (by linarith) (by linarith) g3 g4 e
    rcases e2 with e2 | e2 <;> linarith
  have e3 : c ↔ ¬ (0 < α + β * lo ↔ 0 < α + β * hi) := by
    rw [← sign_change hl n1 n2, hc]
    constructor
    · rintro ⟨h, k1, k2, k3, k4, k5⟩
      refine ⟨h, ?_, ?_, k5⟩
      · rcases e1 with e1 | e1 <;> rw [e1] <;> assumption
      · rcases e2 with e2 | e2 <;> rw [e2] <;> assumption
    · rintro ⟨h, k1, k2, k3⟩
      exact ⟨h, by linarith, by linarith, by linarith, by linarith, k3⟩
  rw [tt_congr e3]
  rcases tt_cases (p := 0 < α + β * lo) with ⟨a1, b1⟩ | ⟨a1, b1⟩ <;> rcases tt_cases (p := 0 < α + β * hi) with ⟨a2, b2⟩ | ⟨a2, b2⟩ <;>
    rw [b1, b2]
  · exact tt_false fun h => h ⟨fun _ => a2, fun _ => a1⟩
  · exact tt_true fun h => a2 (h.1 a1)
  · exact tt_true fun h => a1 (h.2 a2)
  · exact tt_false fun h => h ⟨fun x => absurd x a1, fun x => absurd x a2⟩

theorem heights {p q r s α β : ℚ} (hpq : p < q) (hrs : r < s) {c : Prop}
    (hc : c ↔ ∃ h, p ≤ h ∧ r ≤ h ∧ h ≤ q ∧ h ≤ s ∧ α + β * h = 0)
    (hz : ∀ h, p ≤ h → r ≤ h → h ≤ q → h ≤ s → α + β * h = 0 → p < h ∧ r < h ∧ h < q ∧ h < s) :
    xor3 (r < p ∧ p ≤ s ∧ 0 < α + β * p) (r < q ∧ q ≤ s ∧ 0 < α + β * q) c =
      (tt (p ≤ r ∧ r < q ∧ 0 < α + β * r) != tt (p ≤ s ∧ s < q ∧ 0 < α + β * s)) := by
  unfold xor3
  by_cases h1 : s < p
  · have hc' : ¬ c := by
      rw [hc]
      rintro ⟨h, g1, g2, g3, g4, -⟩
      linarith
    rw [tt_false (show ¬ (r < p ∧ p ≤ s ∧ _) from fun h => by linarith [h.2.1]),
      tt_false (show ¬ (r < q ∧ q ≤ s ∧ _) from fun h => by linarith [h.2.1]), tt_false hc',
      tt_false (show ¬ (p ≤ r ∧ r < q ∧ _) from fun h => by linarith [h.1]),
      tt_false (show ¬ (p ≤ s ∧ s < q ∧ _) from fun h => by linarith [h.1])]
    rfl
  by_cases h2 : q ≤ r
  · have hc' : ¬ c := by
      rw [hc]
      rintro ⟨h, g1, g2, g3, g4, g5⟩
      have := hz h g1 g2 g3 g4 g5
      linarith
    rw [tt_false (show ¬ (r < p ∧ p ≤ s ∧ _) from fun h => by linarith [h.1]),
      tt_false (show ¬ (r < q ∧ q ≤ s ∧ _) from fun h => by linarith [h.1]), tt_false hc',
      tt_false (show ¬ (p ≤ r ∧ r < q ∧ _) from fun h => by linarith [h.2.1]),
      tt_false (show ¬ (p ≤ s ∧ s < q ∧ _) from fun h => by linarith [h.2.1])]
    rfl
  push Not at h1 h2
  have key := heights_key (c := c) hc hz
  by_cases h3 : r < p
  · rw [tt_false (show ¬ (p ≤ r ∧ r < q ∧ _) from fun h => by linarith [h.1])]
    have t1 : tt (r < p ∧ p ≤ s ∧ 0 < α + β * p) = tt (0 < α + β * p) := tt_congr (by simp [h3, h1])
    by_cases h4 : q ≤ s
    · rw [tt_false (show ¬ (p ≤ s ∧ s < q ∧ _) from fun h => by linarith [h.2.1]),
        key p q hpq.le le_rfl h3.le le_rfl h4 (.inl rfl) (.inl rfl), t1,
        show tt (r < q ∧ q ≤ s ∧ 0 < α + β * q) = tt (0 < α + β * q) from tt_congr (by simp [h2, h4])]
      generalize tt (0 < α + β * p) = u
      generalize tt (0 < α + β * q) = v
      revert u v
      decide
    · push Not at h4
      rw [tt_false (show ¬ (r < q ∧ q ≤ s ∧ _) from fun h => by linarith [h.2.1]),
        key p s h1 le_rfl h3.le h4.le le_rfl (.inl rfl) (.inr rfl), t1,
        show tt (p ≤ s ∧ s < q ∧ 0 < α + β * s) = tt (0 < α + β * s) from tt_congr (by simp [h1, h4])]
      generalize tt (0 < α + β * p) = u
      generalize tt (0 < α + β * s) = v
      revert u v
      decide
  · push Not at h3
    rw [tt_false (show ¬ (r < p ∧ p ≤ s ∧ _) from fun h => by linarith [h.1])]
    have t1 : tt (p ≤ r ∧ r < q ∧ 0 < α + β * r) = tt (0 < α + β * r) := tt_congr (by simp [h3, h2])
    by_cases h4 : q ≤ s
    · rw [tt_false (show ¬ (p ≤ s ∧ s < q ∧ _) from fun h => by linarith [h.2.1]),
        key r q h2.le h3 le_rfl le_rfl h4 (.inr rfl) (.inl rfl), t1,
        show tt (r < q ∧ q ≤ s ∧ 0 < α + β * q) = tt (0 < α + β * q) from tt_congr (by simp [h2, h4])]
      generalize tt (0 < α + β * r) = u
      generalize tt (0 < α + β * q) = v
      revert u v
      decide
    · push Not at h4
      rw [tt_false (show ¬ (r < q ∧ q ≤ s ∧ _) from fun h => by linarith [h.2.1]),
        key r s hrs.le h3 le_rfl h4.le le_rfl (.inr rfl) (.inr rfl), t1,
        show tt (p ≤ s ∧ s < q ∧ 0 < α + β * s) = tt (0 < α + β * s) from tt_congr (by simp [h1, h4])]
      generalize tt (0 < α + β * r) = u
      generalize tt (0 < α + β * s) = v
      revert u v
      decide

/-- The points to the right of a side. -/
def Region (p q u : V ℚ) : Prop :=
  (p.y ≤ u.y ∧ u.y < q.y ∨ q.y ≤ u.y ∧ u.y < p.y) ∧
  ∃ t, 0 ≤ t ∧ t ≤ 1 ∧ p.y + t * (q.y - p.y) = u.y ∧ p.x + t * (q.x - p.x) < u.x

/-- Common points of sides are not ends of them. -/
def NoTouch (p q r s : V ℚ) : Prop := ∀ x y, Common p q r s x y → turn p q r s ≠ 0 ∧ 0 < x ∧ x < 1 ∧ 0 < y ∧ y < 1

theorem common_swap1 {p q r s : V ℚ} {x y : ℚ} (h : Common p q r s x y) : Common q p r s (1 - x) y :=
  ⟨by linarith [h.x1], by linarith [h.x0], h.y0, h.y1, by linarith [h.ex], by linarith [h.ey]⟩

theorem common_swap2 {p q r s : V ℚ} {x y : ℚ} (h : Common p q r s x y) : Common p q s r x (1 - y) :=
  ⟨h.x0, h.x1, by linarith [h.y1], by linarith [h.y0], by linarith [h.ex], by linarith [h.ey]⟩

theorem noTouch_swap1 {p q r s : V ℚ} (h : NoTouch p q r s) : NoTouch q p r s := by
  intro x y hc
  obtain ⟨h1, h2, h3, h4, h5⟩ := h _ _ (common_swap1 hc)
  refine ⟨fun e => h1 ?_, by linarith, by linarith, h4, h5⟩
  unfold turn at e ⊢
  linarith

theorem noTouch_swap2 {p q r s : V ℚ} (h : NoTouch p q r s) : NoTouch p q s r := by
  intro x y hc
  obtain ⟨h1, h2, h3, h4, h5⟩ := h _ _ (common_swap2 hc)
  refine ⟨fun e => h1 ?_, h2, h3, by linarith, by linarith⟩
  unfold turn at e ⊢
  linarith

theorem onRay_swap (v p q : V ℚ) : OnRay v p q ↔ OnRay v q p := by
  have : ∀ p q, OnRay v p q → OnRay v q p := by
    rintro p q ⟨h, t, h1, h2, h3, h4⟩
    exact ⟨h.symm, 1 - t, by linarith, by linarith, by linarith, by linarith⟩
  exact ⟨this p q, this q p⟩

theorem region_swap (p q u : V ℚ) : Region p q u ↔ Region q p u := by
  have : ∀ p q, Region p q u → Region q p u := by
    rintro p q ⟨h, t, h1, h2, h3, h4⟩
    exact ⟨h.symm, 1 - t, by linarith, by linarith, by linarith, by linarith⟩
  exact ⟨this p q, this q p⟩

/-- The two sides have a common point. -/
def Touch (p q r s : V ℚ) : Prop := ∃ x y, Common p q r s x y

theorem touch_swap1 (p q r s : V ℚ) : Touch p q r s ↔ Touch q p r s :=
  ⟨fun ⟨_, y, h⟩ => ⟨_, y, common_swap1 h⟩, fun ⟨_, y, h⟩ => ⟨_, y, common_swap1 h⟩⟩

theorem touch_swap2 (p q r s : V ℚ) : Touch p q r s ↔ Touch p q s r :=
  ⟨fun ⟨x, _, h⟩ => ⟨x, _, common_swap2 h⟩, fun ⟨x, _, h⟩ => ⟨x, _, common_swap2 h⟩⟩

/-- How one side of a polygon contributes to whether the ends of a side of the other one are inside. -/
def Local (p q r s : V ℚ) : Prop :=
  xor3 (OnRay p r s) (OnRay q r s) (Touch p q r s) = (tt (Region p q r) != tt (Region p q s))

theorem local_swap1 {p q r s : V ℚ} (h : Local q p r s) : Local p q r s := by
  unfold Local xor3 at h ⊢
  rw [tt_congr (touch_swap1 p q r s), tt_congr (region_swap p q r), tt_congr (region_swap p q s), ← h]
  cases tt (OnRay p r s) <;> cases tt (OnRay q r s) <;> rfl

theorem local_swap2 {p q r s : V ℚ} (h : Local p q s r) : Local p q r s := by
  unfold Local xor3 at h ⊢
  rw [tt_congr (touch_swap2 p q r s), tt_congr (onRay_swap p r s), tt_congr (onRay_swap q r s), h]
  cases tt (Region p q r) <;> cases tt (Region p q s) <;> rfl

/-- How far right a side is at a height. -/
def across (p q : V ℚ) (h : ℚ) : ℚ := p.x + (h - p.y) / (q.y - p.y) * (q.x - p.x)

theorem onRay_up {v r s : V ℚ} (h : r.y < s.y) : OnRay v r s ↔ r.y < v.y ∧ v.y ≤ s.y ∧ v.x < across r s v.y := by
  have hd : s.y - r.y ≠ 0 := by linarith
  constructor
  · rintro ⟨h1 | h1, t, h2, h3, h4, h5⟩
    · linarith [h1.1, h1.2]
    · refine ⟨h1.1, h1.2, ?_⟩
      unfold across
      rw [show (v.y - r.y) / (s.y - r.y) = t by rw [div_eq_iff hd]; linarith]
      exact h5
  · rintro ⟨h1, h2, h3⟩
    refine ⟨.inr ⟨h1, h2⟩, (v.y - r.y) / (s.y - r.y), div_nonneg (by linarith) (by linarith), ?_, by field_simp; ring, h3⟩
    rw [div_le_one (by linarith)]
    linarith

theorem region_up {p q u : V ℚ} (h : p.y < q.y) : Region p q u ↔ p.y ≤ u.y ∧ u.y < q.y ∧ across p q u.y < u.x := by
  have hd : q.y - p.y ≠ 0 := by linarith
  constructor
  · rintro ⟨h1 | h1, t, h2, h3, h4, h5⟩
    · refine ⟨h1.1, h1.2, ?_⟩
      unfold across
      rw [show (u.y - p.y) / (q.y - p.y) = t by rw [div_eq_iff hd]; linarith]
      exact h5
    · linarith [h1.1, h1.2]
  · rintro ⟨h1, h2, h3⟩
    refine ⟨.inl ⟨h1, h2⟩, (u.y - p.y) / (q.y - p.y), div_nonneg (by linarith) (by linarith), ?_, by field_simp; ring, h3⟩
    rw [div_le_one (by linarith)]
    linarith

theorem region_flat {p q u : V ℚ} (h : p.y = q.y) : ¬ Region p q u := by
  rintro ⟨h1 | h1, -⟩ <;> linarith [h1.1, h1.2]

theorem onRay_flat {v r s : V ℚ} (h : r.y = s.y) : ¬ OnRay v r s := by
  rintro ⟨h1 | h1, -⟩ <;> linarith [h1.1, h1.2]

theorem local_up {p q r s : V ℚ} (hn : NoTouch p q r s) (h1 : p.y < q.y) (h2 : r.y < s.y) : Local p q r s := by
  have d1 : q.y - p.y ≠ 0 := by linarith
  have d2 : s.y - r.y ≠ 0 := by linarith
  obtain ⟨α, β, hf⟩ : ∃ α β, ∀ h, across r s h - across p q h = α + β * h := by
    refine ⟨r.x - r.y / (s.y - r.y) * (s.x - r.x) - p.x + p.y / (q.y - p.y) * (q.x - p.x),
      (s.x - r.x) / (s.y - r.y) - (q.x - p.x) / (q.y - p.y), fun h => ?_⟩
    unfold across
    field_simp
    ring
  have mk : ∀ h, p.y ≤ h → r.y ≤ h → h ≤ q.y → h ≤ s.y → α + β * h = 0 →
      Common p q r s ((h - p.y) / (q.y - p.y)) ((h - r.y) / (s.y - r.y)) := by
    intro h g1 g2 g3 g4 g5
    rw [← hf] at g5
    unfold across at g5
    refine ⟨div_nonneg (by linarith) (by linarith), by rw [div_le_one (by linarith)]; linarith, div_nonneg (by linarith) (by linarith),
      by rw [div_le_one (by linarith)]; linarith, by linarith, ?_⟩
    rw [div_mul_cancel₀ _ d1, div_mul_cancel₀ _ d2]
    ring
  have hc : Touch p q r s ↔ ∃ h, p.y ≤ h ∧ r.y ≤ h ∧ h ≤ q.y ∧ h ≤ s.y ∧ α + β * h = 0 := by
    constructor
    · rintro ⟨x, y, hc⟩
      have x0 := hc.x0
      have x1 := hc.x1
      have y0 := hc.y0
      have y1 := hc.y1
      have ey := hc.ey
      refine ⟨p.y + x * (q.y - p.y), by nlinarith, by nlinarith, by nlinarith, by nlinarith, ?_⟩
      rw [← hf]
      unfold across
      rw [show (p.y + x * (q.y - p.y) - p.y) / (q.y - p.y) = x by rw [div_eq_iff d1]; ring,
        show (p.y + x * (q.y - p.y) - r.y) / (s.y - r.y) = y by rw [div_eq_iff d2]; linarith]
      linarith [hc.ex]
    · rintro ⟨h, g1, g2, g3, g4, g5⟩
      exact ⟨_, _, mk h g1 g2 g3 g4 g5⟩
  have hz : ∀ h, p.y ≤ h → r.y ≤ h → h ≤ q.y → h ≤ s.y → α + β * h = 0 → p.y < h ∧ r.y < h ∧ h < q.y ∧ h < s.y := by
    intro h g1 g2 g3 g4 g5
    obtain ⟨-, k1, k2, k3, k4⟩ := hn _ _ (mk h g1 g2 g3 g4 g5)
    rw [div_lt_one (by linarith)] at k2 k4
    have k1' := (div_pos_iff_of_pos_right (by linarith : (0 : ℚ) < q.y - p.y)).1 k1
    have k3' := (div_pos_iff_of_pos_right (by linarith : (0 : ℚ) < s.y - r.y)).1 k3
    exact ⟨by linarith, by linarith, by linarith, by linarith⟩
  have := heights h1 h2 hc hz
  unfold Local
  have eP : across p q p.y = p.x := by unfold across; simp
  have eQ : across p q q.y = q.x := by unfold across; rw [div_self d1]; ring
  have eR : across r s r.y = r.x := by unfold across; simp
  have eS : across r s s.y = s.x := by unfold across; rw [div_self d2]; ring
  have a1 : OnRay p r s ↔ (r.y < p.y ∧ p.y ≤ s.y ∧ 0 < α + β * p.y) := by rw [onRay_up h2, ← hf, eP, sub_pos]
  have a2 : OnRay q r s ↔ (r.y < q.y ∧ q.y ≤ s.y ∧ 0 < α + β * q.y) := by rw [onRay_up h2, ← hf, eQ, sub_pos]
  have a3 : Region p q r ↔ (p.y ≤ r.y ∧ r.y < q.y ∧ 0 < α + β * r.y) := by rw [region_up h1, ← hf, eR, sub_pos]
  have a4 : Region p q s ↔ (p.y ≤ s.y ∧ s.y < q.y ∧ 0 < α + β * s.y) := by rw [region_up h1, ← hf, eS, sub_pos]
  unfold xor3 at this ⊢
  rw [tt_congr a1, tt_congr a2, tt_congr a3, tt_congr a4]
  exact this

theorem local_flat1 {p q r s : V ℚ} (hn : NoTouch p q r s) (h1 : p.y = q.y) (h2 : r.y < s.y) : Local p q r s := by
  have d2 : s.y - r.y ≠ 0 := by linarith
  unfold Local
  rw [tt_false (region_flat h1), tt_false (region_flat h1)]
  unfold xor3
  rw [tt_congr (onRay_up h2), tt_congr (onRay_up h2), ← h1]
  by_cases hb : r.y < p.y ∧ p.y ≤ s.y
  · have mk : ∀ x, 0 ≤ x → x ≤ 1 → p.x - across r s p.y + (q.x - p.x) * x = 0 → Common p q r s x ((p.y - r.y) / (s.y - r.y)) := by
      intro x g1 g2 g3
      unfold across at g3
      refine ⟨g1, g2, div_nonneg (by linarith) (by linarith), by rw [div_le_one (by linarith)]; linarith, by linarith, ?_⟩
      rw [div_mul_cancel₀ _ d2, h1]
      ring
    have hc : Touch p q r s ↔ ∃ x, 0 ≤ x ∧ x ≤ 1 ∧ p.x - across r s p.y + (q.x - p.x) * x = 0 := by
      constructor
      · rintro ⟨x, y, hc⟩
        refine ⟨x, hc.x0, hc.x1, ?_⟩
        have ey := hc.ey
        rw [← h1] at ey
        unfold across
        rw [show (p.y - r.y) / (s.y - r.y) = y by rw [div_eq_iff d2]; linarith]
        linarith [hc.ex]
      · rintro ⟨x, g1, g2, g3⟩
        exact ⟨_, _, mk x g1 g2 g3⟩
    have n0 : p.x - across r s p.y + (q.x - p.x) * 0 ≠ 0 := fun e => by
      have := (hn _ _ (mk 0 le_rfl zero_le_one e)).2.1
      linarith
    have n1 : p.x - across r s p.y + (q.x - p.x) * 1 ≠ 0 := fun e => by
      have := (hn _ _ (mk 1 zero_le_one le_rfl e)).2.2.1
      linarith
    rw [tt_congr hc, tt_congr (sign_change zero_le_one n0 n1)]
    have t1 : (p.x < across r s p.y) ↔ ¬ (0 < p.x - across r s p.y + (q.x - p.x) * 0) := by
      constructor
      · intro h h'
        linarith
      · intro h
        exact lt_of_le_of_ne (by linarith) fun e => n0 (by linarith)
    have t2 : (q.x < across r s p.y) ↔ ¬ (0 < p.x - across r s p.y + (q.x - p.x) * 1) := by
      constructor
      · intro h h'
        linarith
      · intro h
        exact lt_of_le_of_ne (by linarith) fun e => n1 (by linarith)
    simp only [hb.1, hb.2, true_and, t1, t2]
    by_cases b1 : 0 < p.x - across r s p.y + (q.x - p.x) * 0 <;> by_cases b2 : 0 < p.x - across r s p.y + (q.x - p.x) * 1 <;>
      simp only [b1, b2] <;> simp [tt_true, tt_false]
  · have hc : ¬ Touch p q r s := by
      rintro ⟨x, y, hc⟩
      obtain ⟨-, -, -, k3, k4⟩ := hn _ _ hc
      have ey := hc.ey
      rw [← h1] at ey
      apply hb
      constructor <;> nlinarith
    rw [tt_false hc, tt_false (fun h => hb ⟨h.1, h.2.1⟩), tt_false (fun h => hb ⟨h.1, h.2.1⟩)]
    rfl

theorem local_flat2 {p q r s : V ℚ} (hn : NoTouch p q r s) (h1 : p.y < q.y) (h2 : r.y = s.y) : Local p q r s := by
  have d1 : q.y - p.y ≠ 0 := by linarith
  unfold Local xor3
  rw [tt_false (onRay_flat h2), tt_false (onRay_flat h2), tt_congr (region_up h1), tt_congr (region_up h1), ← h2]
  by_cases hb : p.y ≤ r.y ∧ r.y < q.y
  · have mk : ∀ y, 0 ≤ y → y ≤ 1 → r.x - across p q r.y + (s.x - r.x) * y = 0 → Common p q r s ((r.y - p.y) / (q.y - p.y)) y := by
      intro y g1 g2 g3
      unfold across at g3
      refine ⟨div_nonneg (by linarith) (by linarith), by rw [div_le_one (by linarith)]; linarith, g1, g2, by linarith, ?_⟩
      rw [div_mul_cancel₀ _ d1, h2]
      ring
    have hc : Touch p q r s ↔ ∃ y, 0 ≤ y ∧ y ≤ 1 ∧ r.x - across p q r.y + (s.x - r.x) * y = 0 := by
      constructor
      · rintro ⟨x, y, hc⟩
        refine ⟨y, hc.y0, hc.y1, ?_⟩
        have ey := hc.ey
        rw [← h2] at ey
        unfold across
        rw [show (r.y - p.y) / (q.y - p.y) = x by rw [div_eq_iff d1]; linarith]
        linarith [hc.ex]
      · rintro ⟨y, g1, g2, g3⟩
        exact ⟨_, _, mk y g1 g2 g3⟩
    have n0 : r.x - across p q r.y + (s.x - r.x) * 0 ≠ 0 := fun e => by
      have := (hn _ _ (mk 0 le_rfl zero_le_one e)).2.2.2.1
      linarith
    have n1 : r.x - across p q r.y + (s.x - r.x) * 1 ≠ 0 := fun e => by
      have := (hn _ _ (mk 1 zero_le_one le_rfl e)).2.2.2.2
      linarith
    rw [tt_congr hc, tt_congr (sign_change zero_le_one n0 n1)]
    have t1 : (across p q r.y < r.x) ↔ (0 < r.x - across p q r.y + (s.x - r.x) * 0) := by
      constructor <;> intro h <;> linarith
    have t2 : (across p q r.y < s.x) ↔ (0 < r.x - across p q r.y + (s.x - r.x) * 1) := by
      constructor <;> intro h <;> linarith
    simp only [hb.1, hb.2, true_and, t1, t2]
    by_cases b1 : 0 < r.x - across p q r.y + (s.x - r.x) * 0 <;> by_cases b2 : 0 < r.x - across p q r.y + (s.x - r.x) * 1 <;>
      simp only [b1, b2] <;> simp [tt_true, tt_false]
  · have hc : ¬ Touch p q r s := by
      rintro ⟨x, y, hc⟩
      obtain ⟨-, k1, k2, -⟩ := hn _ _ hc
      have ey := hc.ey
      rw [← h2] at ey
      apply hb
      constructor <;> nlinarith
    rw [tt_false hc, tt_false (fun h => hb ⟨h.1, h.2.1⟩), tt_false (fun h => hb ⟨h.1, h.2.1⟩)]
    rfl

theorem local_all {p q r s : V ℚ} (hn : NoTouch p q r s) : Local p q r s := by
  rcases lt_trichotomy p.y q.y with h1 | h1 | h1 <;> rcases lt_trichotomy r.y s.y with h2 | h2 | h2
  · exact local_up hn h1 h2
  · exact local_flat2 hn h1 h2
  · exact local_swap2 (local_up (noTouch_swap2 hn) h1 h2)
  · exact local_flat1 hn h1 h2
  · unfold Local xor3
    have hc : ¬ Touch p q r s := by
      rintro ⟨x, y, hc⟩
      apply (hn _ _ hc).1
      unfold turn
      rw [h1, h2]
      ring
    rw [tt_false (onRay_flat h2), tt_false (onRay_flat h2), tt_false (region_flat h1), tt_false (region_flat h1),
      tt_false hc]
    rfl
  · exact local_swap2 (local_flat1 (noTouch_swap2 hn) h1 h2)
  · exact local_swap1 (local_up (noTouch_swap1 hn) h1 h2)
  · exact local_swap1 (local_flat2 (noTouch_swap1 hn) h1 h2)
  · exact local_swap1 (local_swap2 (local_up (noTouch_swap2 (noTouch_swap1 hn)) h1 h2))

end Tm.Poly
