import Verif.Pack.Spec
import Mathlib.Tactic.Ring
import Mathlib.Tactic.Linarith

/-! # Sums over rectangles that are split and joined -/

namespace Tm.Pack

open Tm

theorem i32_ok {x : Int} (h1 : -2147483648 ≤ x) (h2 : x ≤ 2147483647) : i32 x = .ok x := by
  unfold i32
  rw [if_pos ⟨h1, h2⟩]

/-- The sum of `f` over the rectangles. -/
def tot (f : Rect → Int) (l : List Rect) : Int := (l.map f).sum

theorem tot_nil (f : Rect → Int) : tot f [] = 0 := rfl
theorem tot_cons (f : Rect → Int) (r : Rect) (l : List Rect) : tot f (r :: l) = f r + tot f l := by simp [tot]
theorem tot_append (f : Rect → Int) (l m : List Rect) : tot f (l ++ m) = tot f l + tot f m := by simp [tot]
theorem tot_perm (f : Rect → Int) {l m : List Rect} (h : l.Perm m) : tot f l = tot f m := by
  induction h with
  | nil => rfl
  | cons _ _ ih => rw [tot_cons, tot_cons, ih]
  | swap => rw [tot_cons, tot_cons, tot_cons, tot_cons]; ring
  | trans _ _ a b => rw [a, b]

theorem tot_set (f : Rect → Int) (l : List Rect) (i : Nat) (r s : Rect) (h : l[i]? = some r) : tot f (l.set i s) = tot f l - f r + f s := by
  induction l generalizing i with
  | nil => simp at h
  | cons a l ih =>
    cases i with
    | zero =>
      simp at h
      subst h
      simp [tot_cons]
      ring
    | succ i =>
      simp at h
      rw [List.set_cons_succ, tot_cons, tot_cons, ih i h]
      ring

/-- `f` is additive: a rectangle that is cut in two has the sum of both parts. -/
structure Meas (f : Rect → Int) : Prop where
  horiz : ∀ l t w1 w2 h, 0 ≤ w1 → 0 ≤ w2 → 0 ≤ h → f ⟨l, t, w1 + w2, h⟩ = f ⟨l, t, w1, h⟩ + f ⟨l + w1, t, w2, h⟩
  vert : ∀ l t w h1 h2, 0 ≤ w → 0 ≤ h1 → 0 ≤ h2 → f ⟨l, t, w, h1 + h2⟩ = f ⟨l, t, w, h1⟩ + f ⟨l, t + h1, w, h2⟩
  nonneg : ∀ l t w h, 0 ≤ w → 0 ≤ h → 0 ≤ f ⟨l, t, w, h⟩

theorem Meas.zeroW {f : Rect → Int} (m : Meas f) (l t h : Int) (hh : 0 ≤ h) : f ⟨l, t, 0, h⟩ = 0 := by
  have := m.horiz l t 0 0 h (by omega) (by omega) hh
  simp only [Int.add_zero] at this
  omega

theorem Meas.zeroH {f : Rect → Int} (m : Meas f) (l t w : Int) (hw : 0 ≤ w) : f ⟨l, t, w, 0⟩ = 0 := by
  have := m.vert l t w 0 0 hw (by omega) (by omega)
  simp only [Int.add_zero] at this
  omega

/-- One if the cell is covered. -/
def cov (x y : Int) (r : Rect) : Int := if Covers r x y then 1 else 0

theorem meas_cov (x y : Int) : Meas (cov x y) where
  horiz l t w1 w2 h h1 h2 h3 := by
    unfold cov Covers
    dsimp only
    split_ifs <;> omega
  vert l t w h1 h2 a b c := by
    unfold cov Covers
    dsimp only
    split_ifs <;> omega
  nonneg l t w h _ _ := by
    unfold cov
    split_ifs <;> omega

theorem meas_area : Meas area where
  horiz l t w1 w2 h h1 h2 h3 := by unfold area; dsimp only; ring
  vert l t w h1 h2 a b c := by unfold area; dsimp only; ring
  nonneg l t w h h1 h2 := Int.mul_nonneg h1 h2

theorem tot_cov (l : List Rect) (x y : Int) : tot (cov x y) l = covering l x y := by
  induction l with
  | nil => rfl
  | cons r l ih =>
    rw [tot_cons, ih]
    unfold covering cov
    rw [List.countP_cons]
    split_ifs <;> simp_all
    omega

/-- Positive sides. -/
def Pos (r : Rect) : Prop := 0 < r.width ∧ 0 < r.height

theorem Meas.nonneg' {f : Rect → Int} (m : Meas f) {r : Rect} (h : Pos r) : 0 ≤ f r := m.nonneg r.left r.top r.width r.height (by have := h.1; omega) (by have := h.2; omega)

theorem tot_nonneg {f : Rect → Int} (m : Meas f) {l : List Rect} (h : ∀ r ∈ l, Pos r) : 0 ≤ tot f l := by
  induction l with
  | nil => exact Int.le_refl _
  | cons r l ih =>
    rw [tot_cons]
    have h1 := m.nonneg' (h r (by simp))
    have h2 := ih fun s hs => h s (by simp [hs])
    omega

theorem tot_mem {f : Rect → Int} (m : Meas f) {l : List Rect} (h : ∀ r ∈ l, Pos r) {r : Rect} (hr : r ∈ l) : f r ≤ tot f l := by
  induction l with
  | nil => cases hr
  | cons s l ih =>
    rw [tot_cons]
    rcases List.mem_cons.mp hr with rfl | hr
    · have := tot_nonneg m fun s hs => h s (List.mem_cons_of_mem _ hs)
      omega
    · have h1 := m.nonneg' (h s (by simp))
      have h2 := ih (fun s hs => h s (by simp [hs])) hr
      omega

/-! ### Arrays -/

/-- The size does not exceed the memory. -/
def Arr.Ok (a : Arr) : Prop := a.live.length ≤ a.cap

theorem push_ok {dyn : Bool} {a : Arr} (x : Rect) (h : a.Ok) (hr : dyn = true ∨ a.live.length < a.cap) :
    ∃ b, push dyn a x = .ok b ∧ b.live = a.live ++ [x] ∧ b.Ok ∧ (dyn = false → b.cap = a.cap) ∧ a.cap ≤ b.cap := by
  unfold push Arr.Ok at *
  split
  · rename_i hc
    rcases hr with hr | hr
    · rw [if_pos hr]
      refine ⟨_, rfl, rfl, ?_, fun h => ?_, by dsimp only; omega⟩
      · simp only [List.length_append, List.length_singleton]
        omega
      · rw [hr] at h; cases h
    · omega
  · refine ⟨_, rfl, rfl, ?_, fun _ => rfl, Nat.le_refl _⟩
    simp only [List.length_append, List.length_singleton]
    omega

theorem set_dropLast_perm : ∀ (l : List Rect) (i : Nat) (r last : Rect), l[i]? = some r → l.getLast? = some last →
    (r :: l.dropLast.set i last).Perm l
  | [], _, _, _, h, _ => by simp at h
  | [a], i, r, last, h, h2 => by
    cases i with
    | zero => simp at h h2 ⊢; exact h.symm
    | succ i => simp at h
  | a :: b :: l, i, r, last, h, h2 => by
    rw [List.dropLast_cons_cons]
    cases i with
    | zero =>
      simp at h
      subst h
      rw [List.set_cons_zero]
      refine .cons _ ?_
      have h3 : (b :: l).getLast? = some last := by rw [List.getLast?_cons_cons] at h2; exact h2
      have h4 : (b :: l) = (b :: l).dropLast ++ [last] := by
        obtain ⟨ys, hys⟩ := List.getLast?_eq_some_iff.mp h3
        rw [hys, List.dropLast_concat]
      rw [h4]
      simp only [List.dropLast_concat]
      exact List.perm_append_comm (l₁ := [last])
    | succ i =>
      simp only [List.getElem?_cons_succ] at h
      rw [List.set_cons_succ]
      have h3 : (b :: l).getLast? = some last := by rw [List.getLast?_cons_cons] at h2; exact h2
      exact (List.Perm.swap _ _ _).trans (.cons _ (set_dropLast_perm (b :: l) i r last h h3))

theorem erase_ok {a : Arr} {i : Nat} {r : Rect} (h : a.Ok) (hr : a.live[i]? = some r) :
    ∃ b, erase a i = .ok b ∧ (r :: b.live).Perm a.live ∧ b.Ok ∧ b.cap = a.cap ∧ b.block = a.block := by
  have hi : i < a.live.length := by
    rw [List.getElem?_eq_some_iff] at hr
    exact hr.1
  unfold erase
  rw [show assert (decide (a.live.length ≤ a.cap)) = .ok () from by unfold assert; rw [if_pos (decide_eq_true (by exact h))], ok_bind,
    show assert (decide (i < a.live.length)) = .ok () from by unfold assert; rw [if_pos (decide_eq_true hi)], ok_bind]
  cases hl : a.live.getLast? with
  | none =>
    rw [List.getLast?_eq_none_iff] at hl
    rw [hl] at hi
    cases hi
  | some last =>
    have hp := set_dropLast_perm a.live i r last hr hl
    refine ⟨_, rfl, hp, ?_, rfl, rfl⟩
    have := hp.length_eq
    unfold Arr.Ok at *
    simp only [List.length_cons] at this
    dsimp only
    omega

theorem entry_ok {a : Arr} {i : Nat} {r : Rect} (h : a.live[i]? = some r) : entry a i = .ok r := by
  unfold entry
  have hi : i < a.live.length := by
    rw [List.getElem?_eq_some_iff] at h
    exact h.1
  rw [List.getElem?_append_left hi, h]

end Tm.Pack
