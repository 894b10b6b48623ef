import Verif.Pack.MaxInv

/-! # MaxRects: areas and outlines are bounded by the bin, so that nothing overflows -/

namespace Tm.Pack

open Tm

/-- The sum of the first `n` values. -/
def sumTo (f : Nat → Int) : Nat → Int
  | 0 => 0
  | n + 1 => sumTo f n + f n

theorem sumTo_le {f g : Nat → Int} : ∀ n, (∀ k, k < n → f k ≤ g k) → sumTo f n ≤ sumTo g n
  | 0, _ => Int.le_refl _
  | n + 1, h => Int.add_le_add (sumTo_le n fun k hk => h k (by omega)) (h n (by omega))

theorem sumTo_const (c : Int) : ∀ n : Nat, sumTo (fun _ => c) n = n * c
  | 0 => by simp [sumTo]
  | n + 1 => by
    unfold sumTo
    rw [sumTo_const c n]
    push_cast
    ring

theorem tot_sumTo (f : Rect → Nat → Int) (l : List Rect) : ∀ n, tot (fun r => sumTo (f r) n) l = sumTo (fun k => tot (fun r => f r k) l) n
  | 0 => by
    unfold sumTo tot
    induction l with
    | nil => rfl
    | cons r l ih => rw [List.map_cons, List.sum_cons, ih]; rfl
  | n + 1 => by
    have h := tot_sumTo f l n
    unfold sumTo
    rw [← h]
    clear h
    induction l with
    | nil => rfl
    | cons r l ih => rw [tot_cons, tot_cons, tot_cons, ih]; ring

theorem tot_mono {f g : Rect → Int} {l : List Rect} (h : ∀ r ∈ l, f r ≤ g r) : tot f l ≤ tot g l := by
  induction l with
  | nil => exact Int.le_refl _
  | cons r l ih =>
    rw [tot_cons, tot_cons]
    exact Int.add_le_add (h r (by simp)) (ih fun s hs => h s (by simp [hs]))

theorem tot_add (f g : Rect → Int) (l : List Rect) : tot (fun r => f r + g r) l = tot f l + tot g l := by
  induction l with
  | nil => rfl
  | cons r l ih => rw [tot_cons, tot_cons, tot_cons, ih]; ring

/-- Rectangles that are apart cover every cell at most once. -/
theorem cov_le_one {l : List Rect} (h : l.Pairwise Apart) (x y : Int) : tot (cov x y) l ≤ 1 := by
  induction h with
  | nil => exact (by decide : (0 : Int) ≤ 1)
  | cons hr hl ih =>
    rename_i r l
    rw [tot_cons]
    by_cases hc : Covers r x y
    · have h0 : tot (cov x y) l ≤ tot (fun _ => 0) l := by
        apply tot_mono
        intro s hs
        unfold cov
        rw [if_neg fun hs' => hr s hs x y ⟨hc, hs'⟩]
      have h1 : tot (fun _ => 0) l = 0 := by
        clear * -
        induction l with
        | nil => rfl
        | cons r l ih => rw [tot_cons, ih]; rfl
      have h2 : cov x y r = 1 := by unfold cov; rw [if_pos hc]
      omega
    · have h2 : cov x y r = 0 := by unfold cov; rw [if_neg hc]
      omega

/-- How many cells of a piece of a column a rectangle covers. -/
theorem sum_column (x t : Int) (c : Rect) (hc : 0 ≤ c.height) : ∀ n : Nat, sumTo (fun k => cov x (t + k) c) n =
    if c.left ≤ x ∧ x < c.left + c.width then shared c.top c.height t n else 0
  | 0 => by
    unfold sumTo shared
    split_ifs <;> omega
  | n + 1 => by
    unfold sumTo
    rw [sum_column x t c hc n]
    unfold cov Covers shared
    push_cast
    split_ifs <;> omega

/-- How many cells of a piece of a row a rectangle covers. -/
theorem sum_row (y l : Int) (c : Rect) (hc : 0 ≤ c.width) : ∀ n : Nat, sumTo (fun k => cov (l + k) y c) n =
    if c.top ≤ y ∧ y < c.top + c.height then shared c.left c.width l n else 0
  | 0 => by
    unfold sumTo shared
    split_ifs <;> omega
  | n + 1 => by
    unfold sumTo
    rw [sum_row y l c hc n]
    unfold cov Covers shared
    push_cast
    split_ifs <;> omega

theorem column_le {l : List Rect} (h : l.Pairwise Apart) (x t : Int) (n : Nat) : tot (fun c => sumTo (fun k => cov x (t + k) c) n) l ≤ n := by
  rw [tot_sumTo (fun c k => cov x (t + k) c) l n]
  have h1 := sumTo_le (f := fun k => tot (fun r => cov x (t + k) r) l) (g := fun _ => 1) n fun k _ => cov_le_one h x (t + k)
  rw [sumTo_const] at h1
  omega

theorem row_le {l : List Rect} (h : l.Pairwise Apart) (y t : Int) (n : Nat) : tot (fun c => sumTo (fun k => cov (t + k) y c) n) l ≤ n := by
  rw [tot_sumTo (fun c k => cov (t + k) y c) l n]
  have h1 := sumTo_le (f := fun k => tot (fun r => cov (t + k) y r) l) (g := fun _ => 1) n fun k _ => cov_le_one h (t + k) y
  rw [sumTo_const] at h1
  omega

/-- Of the outline of a rectangle at most all touches rectangles that are apart. -/
theorem touching_le {l : List Rect} (h : l.Pairwise Apart) (hpos : ∀ c ∈ l, Pos c) (r : Rect) (hw : 0 ≤ r.width) (hh : 0 ≤ r.height) :
    (l.map (touching r)).sum ≤ 2 * (r.width + r.height) := by
  have e1 := column_le h (r.left + r.width) r.top r.height.toNat
  have e2 := column_le h (r.left - 1) r.top r.height.toNat
  have e3 := row_le h (r.top + r.height) r.left r.width.toNat
  have e4 := row_le h (r.top - 1) r.left r.width.toNat
  have hb : tot (touching r) l ≤ tot (fun c => (sumTo (fun k => cov (r.left + r.width) (r.top + k) c) r.height.toNat +
      sumTo (fun k => cov (r.left - 1) (r.top + k) c) r.height.toNat) +
      (sumTo (fun k => cov (r.left + k) (r.top + r.height) c) r.width.toNat + sumTo (fun k => cov (r.left + k) (r.top - 1) c) r.width.toNat)) l := by
    apply tot_mono
    intro c hc
    obtain ⟨p1, p2⟩ := hpos c hc
    rw [sum_column _ _ c (by omega), sum_column _ _ c (by omega), sum_row _ _ c (by omega), sum_row _ _ c (by omega), Int.toNat_of_nonneg hh, Int.toNat_of_nonneg hw]
    unfold touching
    have h1 := shared_nonneg c.top c.height r.top r.height
    have h2 := shared_nonneg c.left c.width r.left r.width
    split_ifs <;> omega
  rw [tot_add, tot_add, tot_add] at hb
  have : (l.map (touching r)).sum = tot (touching r) l := rfl
  omega

/-- The areas of rectangles that are apart and lie in the bin. -/
theorem areas_le {W H : Int} (hW : 0 ≤ W) (hH : 0 ≤ H) {l : List Rect} (h : l.Pairwise Apart) (hin : ∀ c ∈ l, Pos c ∧ Inside W H c) : areas l ≤ W * H := by
  have hcols : ∀ (c : Rect), 0 ≤ c.left → 0 ≤ c.width → 0 ≤ c.height → ∀ (n : Nat), c.left + c.width ≤ n →
      sumTo (fun i => if c.left ≤ (i : Int) ∧ (i : Int) < c.left + c.width then c.height else 0) n = c.width * c.height := by
    intro c h1 h2 h3 n hn
    have : ∀ m : Nat, sumTo (fun i => if c.left ≤ (i : Int) ∧ (i : Int) < c.left + c.width then c.height else 0) m = shared c.left c.width 0 m * c.height := by
      intro m
      induction m with
      | zero =>
        have : shared c.left c.width 0 (0 : Nat) = 0 := by unfold shared; omega
        rw [this]
        simp [sumTo]
      | succ m ih =>
        unfold sumTo
        rw [ih]
        by_cases hc : c.left ≤ (m : Int) ∧ (m : Int) < c.left + c.width
        · rw [if_pos hc]
          have : shared c.left c.width 0 ((m + 1 : Nat) : Int) = shared c.left c.width 0 m + 1 := by unfold shared; push_cast; omega
          rw [this]
          ring
        · rw [if_neg hc]
          have : shared c.left c.width 0 ((m + 1 : Nat) : Int) = shared c.left c.width 0 m := by unfold shared; push_cast; omega
          rw [this]
          ring
    rw [this n]
    have : shared c.left c.width 0 n = c.width := by unfold shared; omega
    rw [this]
  have e1 : areas l ≤ tot (fun c => sumTo (fun i => sumTo (fun k => cov (i : Int) (0 + (k : Int)) c) H.toNat) W.toNat) l := by
    apply tot_mono
    intro c hc
    obtain ⟨⟨p1, p2⟩, p3⟩ := hin c hc
    unfold Inside at p3
    rw [← show sumTo (fun i => if c.left ≤ (i : Int) ∧ (i : Int) < c.left + c.width then c.height else 0) W.toNat = area c from
      hcols c (by omega) (by omega) (by omega) W.toNat (by omega)]
    apply sumTo_le
    intro i hi
    rw [sum_column _ _ c (by omega)]
    have : shared c.top c.height 0 H.toNat = c.height := by unfold shared; omega
    rw [this]
  rw [tot_sumTo (fun c i => sumTo (fun k => cov (i : Int) (0 + (k : Int)) c) H.toNat) l W.toNat] at e1
  have e2 := sumTo_le (f := fun i => tot (fun c => sumTo (fun k => cov (i : Int) (0 + (k : Int)) c) H.toNat) l) (g := fun _ => (H.toNat : Int)) W.toNat
    fun i _ => column_le h i 0 H.toNat
  rw [sumTo_const, Int.toNat_of_nonneg hW, Int.toNat_of_nonneg hH] at e2
  omega

/-! ### The scores -/

theorem commonLength_total {a n b m : Int} (h1 : 0 ≤ a) (h2 : 0 ≤ b) (h3 : 0 ≤ n) (h4 : 0 ≤ m) (h5 : a + n ≤ 2147483647) (h6 : b + m ≤ 2147483647) :
    ∃ x, commonLength a (a + n) b (b + m) = .ok x := by
  unfold commonLength
  split
  · exact ⟨_, rfl⟩
  · exact ⟨_, i32_ok (by split_ifs <;> omega) (by split_ifs <;> omega)⟩

theorem contactLoop_total {l t w h : Int} (hl : 0 ≤ l) (ht : 0 ≤ t) (hw : 0 ≤ w) (hh : 0 ≤ h) (hr : l + w ≤ 2147483647) (hb : t + h ≤ 2147483647) :
    ∀ (cs : List Rect) (s : Int), (∀ c ∈ cs, Ranged c) → 0 ≤ s → s + (cs.map (touching ⟨l, t, w, h⟩)).sum ≤ 2147483647 →
    ∃ x, contactLoop l t (l + w) (t + h) cs s = .ok x := by
  intro cs
  induction cs with
  | nil => intro s _ _ _; exact ⟨s, rfl⟩
  | cons c cs ih =>
    intro s hc hs hle
    obtain ⟨⟨p1, p2⟩, p3, p4⟩ := hc c (by simp)
    rw [List.map_cons, List.sum_cons] at hle
    have hrest : 0 ≤ (cs.map (touching ⟨l, t, w, h⟩)).sum := by
      have : tot (fun _ => 0) cs ≤ tot (touching ⟨l, t, w, h⟩) cs := tot_mono fun r _ => touching_nonneg _ r
      have h1 : tot (fun _ => 0) cs = 0 := by
        clear * -
        induction cs with
        | nil => rfl
        | cons r l ih => rw [tot_cons, ih]; rfl
      have h2 : (cs.map (touching ⟨l, t, w, h⟩)).sum = tot (touching ⟨l, t, w, h⟩) cs := rfl
      omega
    have n1 := shared_nonneg c.top c.height t h
    have n2 := shared_nonneg c.left c.width l w
    unfold contactLoop
    rw [i32_ok (by omega) (by omega), ok_bind, i32_ok (by omega) (by omega), ok_bind]
    dsimp only
    obtain ⟨x1, g1⟩ := commonLength_total (a := c.top) (n := c.height) (b := t) (m := h) (by omega) ht (by omega) hh (by omega) hb
    obtain ⟨x2, g2⟩ := commonLength_total (a := c.left) (n := c.width) (b := l) (m := w) (by omega) hl (by omega) hw (by omega) hr
    have g1' := commonLength_eq (by omega) hh g1
    have g2' := commonLength_eq (by omega) hw g2
    have htc : touching ⟨l, t, w, h⟩ c = (if c.left = l + w ∨ c.left + c.width = l then shared c.top c.height t h else 0) +
      (if c.top = t + h ∨ c.top + c.height = t then shared c.left c.width l w else 0) := rfl
    have hc' : ∀ c ∈ cs, Ranged c := fun d hd => hc d (by simp [hd])
    by_cases hA : c.left = l + w ∨ c.left + c.width = l <;> by_cases hB : c.top = t + h ∨ c.top + c.height = t
    · rw [if_pos hA, if_pos hB] at htc
      rw [if_pos (by simpa using hA), g1, ok_bind, i32_ok (by omega) (by omega), ok_bind, if_pos (by simpa using hB), g2, ok_bind, i32_ok (by omega) (by omega), ok_bind]
      exact ih _ hc' (by omega) (by omega)
    · rw [if_pos hA, if_neg hB] at htc
      rw [if_pos (by simpa using hA), g1, ok_bind, i32_ok (by omega) (by omega), ok_bind, if_neg (by simpa using hB), ok_bind]
      exact ih _ hc' (by omega) (by omega)
    · rw [if_neg (by simpa using hA), ok_bind, if_pos (by simpa using hB)]
      rw [if_neg hA, if_pos hB] at htc
      rw [g2, ok_bind, i32_ok (by omega) (by omega), ok_bind]
      exact ih _ hc' (by omega) (by omega)
    · rw [if_neg (by simpa using hA), ok_bind, if_neg (by simpa using hB), ok_bind]
      rw [if_neg hA, if_neg hB] at htc
      exact ih _ hc' (by omega) (by omega)

theorem area_le {W H w h : Int} (h1 : 0 ≤ w) (h2 : 0 ≤ h) (h3 : w ≤ W) (h4 : h ≤ H) : w * h ≤ W * H :=
  Int.mul_le_mul h3 h4 h2 (by omega)

theorem leftovers_total {w h : Int} {r : Rect} (hr : Ranged r) (hw : 1 ≤ w) (hh : 1 ≤ h) (hf : FitsIn w h r) : ∃ x, leftovers w h r = .ok x := by
  obtain ⟨⟨p1, p2⟩, p3, p4⟩ := hr
  unfold FitsIn at hf
  unfold leftovers abs
  rw [i32_ok (by omega) (by omega), ok_bind, if_neg (by omega), ok_bind, i32_ok (by omega) (by omega), ok_bind, if_neg (by omega), ok_bind]
  exact ⟨_, rfl⟩

theorem contactScore_total {W H l t w h : Int} {p : Pack} (hp : MInv W H p) (hl : 0 ≤ l) (ht : 0 ≤ t) (hw : 0 ≤ w) (hh : 0 ≤ h) (hr : l + w ≤ W)
    (hb : t + h ≤ H) (hrep : 3 * (W + H) ≤ 2147483647) :
    ∃ x, contactScore p l t (l + w) (t + h) = .ok x ∧ 0 ≤ x ∧ x ≤ 2147483647 := by
  have hd1 := hp.dims.w
  have hd2 := hp.dims.h
  have hle := touching_le hp.apart (fun c hc => (hp.used c hc).1) ⟨l, t, w, h⟩ hw hh
  dsimp only at hle
  have hsum : 0 ≤ (p.used.live.map (touching ⟨l, t, w, h⟩)).sum := by
    have : tot (fun _ => 0) p.used.live ≤ tot (touching ⟨l, t, w, h⟩) p.used.live := tot_mono fun r _ => touching_nonneg _ r
    have h1 : ∀ cs : List Rect, tot (fun _ => 0) cs = 0 := by
      intro cs
      induction cs with
      | nil => rfl
      | cons r l ih => rw [tot_cons, ih]; rfl
    have h2 : (p.used.live.map (touching ⟨l, t, w, h⟩)).sum = tot (touching ⟨l, t, w, h⟩) p.used.live := rfl
    have h3 := h1 p.used.live
    omega
  have fin : ∀ s, 0 ≤ s → s ≤ w + h → ∃ x, contactLoop l t (l + w) (t + h) p.used.live s = .ok x ∧ 0 ≤ x ∧ x ≤ 2147483647 := by
    intro s h1 h2
    obtain ⟨x, hx⟩ := contactLoop_total hl ht hw hh (by omega) (by omega) p.used.live s
      (fun c hc => ranged_of_inside hp.dims (hp.used c hc).1 (hp.used c hc).2) h1 (by omega)
    have := contactLoop_eq hw hh _ _ _ (fun c hc => (hp.used c hc).1) hx
    exact ⟨x, hx, by omega, by omega⟩
  unfold contactScore
  dsimp only
  have e1 : t + h - t = h := by omega
  have e2 : l + w - l = w := by omega
  rw [e1, e2]
  by_cases hA : (decide (l = 0) || decide (l + w = p.width)) = true <;> by_cases hB : (decide (t = 0) || decide (t + h = p.height)) = true
  · rw [if_pos hA, i32_ok (by omega) (by omega), ok_bind, if_pos hB, i32_ok (by omega) (by omega), ok_bind, i32_ok (by omega) (by omega), ok_bind]
    exact fin _ (by omega) (by omega)
  · rw [if_pos hA, i32_ok (by omega) (by omega), ok_bind, if_neg hB, ok_bind]
    exact fin _ (by omega) (by omega)
  · rw [if_neg hA, ok_bind, if_pos hB, i32_ok (by omega) (by omega), ok_bind, i32_ok (by omega) (by omega), ok_bind]
    exact fin _ (by omega) (by omega)
  · rw [if_neg hA, ok_bind, if_neg hB, ok_bind]
    exact fin _ (by omega) (by omega)

theorem mScore_total {W H : Int} {p : Pack} (hp : MInv W H p) {fit : MFit} {w h : Int} (hw : 1 ≤ w) (hh : 1 ≤ h) {c : Rect} (hc : Pos c ∧ Inside W H c)
    (hf : FitsIn w h c) (hrep : Representable W H fit w h) : ∃ s, mScore p fit w h c = .ok s := by
  have hd1 := hp.dims.w
  have hd2 := hp.dims.h
  have hr := ranged_of_inside hp.dims hc.1 hc.2
  obtain ⟨x, hx⟩ := leftovers_total hr hw hh hf
  obtain ⟨⟨p1, p2⟩, p3⟩ := hc
  have hf' := hf
  unfold FitsIn at hf'
  unfold Inside at p3
  unfold mScore
  cases fit with
  | shortSide => dsimp only; rw [hx, ok_bind]; exact ⟨_, rfl⟩
  | longSide => dsimp only; rw [hx, ok_bind]; exact ⟨_, rfl⟩
  | area =>
    obtain ⟨h1, h2⟩ := hrep
    have a1 := area_le (W := W) (H := H) (w := c.width) (h := c.height) (by omega) (by omega) (by omega) (by omega)
    have a2 := area_le (W := c.width) (H := c.height) (w := w) (h := h) (by omega) (by omega) (by omega) (by omega)
    have a3 := Int.mul_nonneg (a := w) (b := h) (by omega) (by omega)
    dsimp only
    rw [i32_ok (by omega) (by omega), ok_bind, i32_ok (by omega) (by omega), ok_bind, i32_ok (by omega) (by omega), ok_bind, hx, ok_bind]
    exact ⟨_, rfl⟩
  | bottomLeft =>
    dsimp only
    rw [i32_ok (by omega) (by omega), ok_bind]
    exact ⟨_, rfl⟩
  | contact =>
    dsimp only
    rw [i32_ok (by omega) (by omega), ok_bind, i32_ok (by omega) (by omega), ok_bind]
    obtain ⟨x, e1, e2, e3⟩ := contactScore_total hp (l := c.left) (t := c.top) (w := w) (h := h) (by omega) (by omega) (by omega) (by omega) (by omega)
      (by omega) hrep
    rw [e1, ok_bind, i32_ok (by omega) (by omega), ok_bind]
    exact ⟨_, rfl⟩

theorem Representable.turn {W H : Int} {fit : MFit} {w h : Int} (hrep : Representable W H fit w h) : Representable W H fit h w := by
  cases fit with
  | area => exact ⟨hrep.1, by rw [Int.mul_comm]; exact hrep.2⟩
  | contact => exact hrep
  | _ => trivial

theorem mTry_total {W H : Int} {p : Pack} (hp : MInv W H p) {fit : MFit} {w h : Int} (hw : 1 ≤ w) (hh : 1 ≤ h) {c : Rect} (hc : Pos c ∧ Inside W H c)
    (hrep : Representable W H fit w h) (fl : Bool) (i : Nat) (res : MChoice) : ∃ r, mTry p fit w h fl c i res = .ok r := by
  unfold mTry
  split
  · rename_i hf
    obtain ⟨s, hs⟩ := mScore_total hp hw hh hc (by simpa [FitsIn] using hf) hrep
    rw [hs, ok_bind]
    exact ⟨_, rfl⟩
  · exact ⟨_, rfl⟩

theorem mBest_total {W H : Int} {p : Pack} (hp : MInv W H p) {fit : MFit} {flip : Bool} {w h : Int} (hw : 1 ≤ w) (hh : 1 ≤ h)
    (hrep : Representable W H fit w h) : ∀ (cs : List Rect) (i : Nat) (res : MChoice), (∀ c ∈ cs, Pos c ∧ Inside W H c) →
    ∃ r, mBest p fit flip w h cs i res = .ok r := by
  intro cs
  induction cs with
  | nil => intro i res _; exact ⟨res, rfl⟩
  | cons c cs ih =>
    intro i res hc
    have hcc := hc c (by simp)
    have key : ∃ r, (do
        let res ← mTry p fit w h false c i res
        let res ← if flip then mTry p fit h w true c i res else .ok res
        mBest p fit flip w h cs (i + 1) res) = .ok r := by
      obtain ⟨r1, e1⟩ := mTry_total hp hw hh hcc hrep false i res
      dsimp only
      rw [e1, ok_bind]
      cases flip with
      | true =>
        rw [if_pos rfl]
        obtain ⟨r2, e2⟩ := mTry_total hp hh hw hcc hrep.turn true i r1
        rw [e2, ok_bind]
        exact ih _ _ fun d hd => hc d (by simp [hd])
      | false =>
        rw [if_neg (by decide), ok_bind]
        exact ih _ _ fun d hd => hc d (by simp [hd])
    unfold mBest
    by_cases hfa : fit = .area
    · subst hfa
      rw [if_pos rfl]
      obtain ⟨h1, h2⟩ := hrep
      obtain ⟨⟨p1, p2⟩, p3⟩ := hcc
      unfold Inside at p3
      have a1 := area_le (W := W) (H := H) (w := c.width) (h := c.height) (by omega) (by omega) (by omega) (by omega)
      have a2 := Int.mul_nonneg (a := c.width) (b := c.height) (by omega) (by omega)
      have a3 := Int.mul_nonneg (a := w) (b := h) (by omega) (by omega)
      rw [i32_ok (by omega) (by omega), ok_bind, i32_ok (by omega) (by omega), ok_bind, i32_ok (by omega) (by omega), ok_bind]
      exact key
    · rw [if_neg hfa]
      exact key

theorem mChoice_total {W H : Int} {p : Pack} (hp : MInv W H p) {fit : MFit} {flip : Bool} {w h : Int} (hw : 1 ≤ w) (hh : 1 ≤ h)
    (hrep : Representable W H fit w h) : ∃ c, mChoice p w h fit flip = .ok c :=
  mBest_total hp hw hh hrep _ _ _ fun f hf => ⟨(hp.free f hf).1, (hp.free f hf).2.1⟩

/-- An insertion ends without error if the numbers are representable and there is memory. -/
theorem mInsertChoice_total {W H : Int} {p : Pack} (hp : MInv W H p) {fit : MFit} {flip : Bool} {w h : Int} (hw : 1 ≤ w) (hh : 1 ≤ h)
    (hrep : Representable W H fit w h) (hA : W * H ≤ 2147483647) (hnex : ∀ r ∈ p.free.live, ¬ ExactIn flip w h r)
    (hcapF : 4 * p.free.live.length + 1 ≤ p.free.cap) (hcapU : p.dyn = true ∨ p.used.live.length < p.used.cap) :
    ∃ p' res, mInsertChoice p w h fit flip = .ok (p', res) := by
  obtain ⟨c, ec⟩ := mChoice_total hp (flip := flip) hw hh hrep
  have hb := mChoice_ok (fun r hr => (hp.used r hr).1) hw hh hp.ranged ec
  unfold mInsertChoice
  rw [ec, ok_bind]
  by_cases hv : c.valid = true
  · rw [if_pos hv]
    cases hb with
    | none he _ => rw [he] at hv; exact absurd hv (by decide)
    | some f hix hsu _ _ _ =>
      have hmem := mem_of_getElem? hix
      unfold mInsert
      rw [show assert c.valid = .ok () by rw [hv]; rfl, ok_bind]
      unfold rectAt
      rw [entry_ok hix, ok_bind, ok_bind]
      rw [show (if c.flipped then (⟨f.left, f.top, h, w⟩ : Rect) else ⟨f.left, f.top, w, h⟩) = atCorner f w h c.flipped from rfl]
      have hnw := fun g hg => exact_of_within hp hmem hsu hnex (g := g) hg
      generalize hu : atCorner f w h c.flipped = u at hnw ⊢
      have hufit : Pos u ∧ Within u f := by
        rw [← hu]
        unfold atCorner
        cases hfl : c.flipped with
        | true =>
          rw [hfl] at hsu
          have hsu' : flip = true ∧ FitsIn h w f := hsu
          unfold FitsIn at hsu'
          rw [if_pos rfl]
          refine ⟨⟨by dsimp only; omega, by dsimp only; omega⟩, ?_⟩
          unfold Within; dsimp only; omega
        | false =>
          rw [hfl] at hsu
          have hsu' : FitsIn w h f := hsu
          unfold FitsIn at hsu'
          rw [if_neg (by decide)]
          refine ⟨⟨by dsimp only; omega, by dsimp only; omega⟩, ?_⟩
          unfold Within; dsimp only; omega
      obtain ⟨hupos, huf⟩ := hufit
      have huin := inside_within (hp.free f hmem).2.1 huf
      have huap : ∀ r ∈ p.used.live, Apart u r := fun r hr => apart_within ((hp.free f hmem).2.2 r hr) huf
      have hur := ranged_of_inside hp.dims hupos huin
      have hne : ∀ g ∈ p.free.live, clearOf u g = false → pieces g u ≠ [] := fun g hg hc =>
        pieces_ne_nil (hp.free g hg).1 hupos (fun ha => by rw [(clearOf_iff hupos (hp.free g hg).1).mpr ha] at hc; cases hc) (hnw g hg)
      obtain ⟨a1, e1, e1'⟩ := splitLoop_total (dyn := p.dyn) hur p.free.live hp.ranged hne p.free.live.length 0 p.free (by omega) hp.okF (Nat.le_refl _)
        (fun _ _ _ => rfl) (by omega)
      rw [e1, ok_bind]
      obtain ⟨s1, s2, s3⟩ := splitLoop_ok hur p.free.live hp.ranged hne
        p.free.live.length 0 p.free a1 (by omega) hp.okF (Nat.le_refl _) (fun _ _ _ => rfl) (by simp) e1
      have hrng : ∀ x ∈ a1.live, Ranged x := by
        intro x hx
        obtain ⟨g, hg, hxg⟩ := List.mem_flatMap.mp (s1.mem_iff.mp hx)
        unfold after at hxg
        by_cases hc : clearOf u g = true
        · rw [if_pos hc, List.mem_singleton] at hxg
          subst hxg
          exact hp.ranged x hg
        · rw [if_neg hc] at hxg
          obtain ⟨k1, k2, k3⟩ := pieces_good (hp.free g hg).1 hupos (fun ha => hc ((clearOf_iff hupos (hp.free g hg).1).mpr ha)) hxg
          exact ranged_of_inside hp.dims k1 (inside_within (hp.free g hg).2.1 k2)
      obtain ⟨a2, t1, t2, t3, t4, t5⟩ := pruneLoop_ok (a1.live.length + 1) a1 0 s2 hrng (by omega) (fun k _ _ _ hk => by omega)
      rw [t1, ok_bind]
      unfold note
      dsimp only
      obtain ⟨us, eus, _⟩ := push_ok (dyn := p.dyn) u (a := p.used) hp.okU hcapU
      rw [eus, ok_bind]
      have hd1 := hp.dims.w
      have hd2 := hp.dims.h
      have harea : areas (p.used.live ++ [u]) ≤ W * H := by
        refine areas_le (by omega) (by omega) ?_ ?_
        · rw [List.pairwise_append]
          refine ⟨hp.apart, List.pairwise_singleton _ _, fun a ha b hb => ?_⟩
          rw [List.mem_singleton] at hb
          subst hb
          exact apart_symm (huap a ha)
        · intro r hr
          rcases List.mem_append.mp hr with hr | hr
          · exact hp.used r hr
          · rw [List.mem_singleton] at hr
            subst hr
            exact ⟨hupos, huin⟩
      rw [areas_append] at harea
      have h0 : 0 ≤ areas p.used.live := tot_nonneg meas_area fun r hr => (hp.used r hr).1
      have h1 : 0 ≤ u.width * u.height := meas_area.nonneg' hupos
      rw [i32_ok (by omega) (by omega), ok_bind, i32_ok (by rw [hp.area]; omega) (by rw [hp.area]; omega), ok_bind, ok_bind]
      exact ⟨_, _, rfl⟩
  · rw [if_neg hv]
    exact ⟨p, notPlaced, rfl⟩

end Tm.Pack
