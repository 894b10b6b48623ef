import Mathlib.Algebra.BigOperators.Group.List.Basic
import Verif.Poly.Spec

/-! # Cutting triangles off -/

namespace Tm.Poly.Spec

variable {α β : Type} {R : Type} [CommRing R]

theorem Cuts.rotate {p p' q : List α} {ts} (h : Cuts p ts q) (r : p' ~r p) : Cuts p' ts q := by
  cases h with
  | none h => exact .none (r.trans h)
  | cut h h' => exact .cut (r.trans h) h'

theorem Cuts.length {p q : List α} {ts} (h : Cuts p ts q) : p.length = q.length + ts.length := by
  induction h with
  | none h => simpa using h.perm.length_eq
  | cut h _ ih =>
    have := h.perm.length_eq
    simp only [List.length_cons] at *
    omega

theorem Cuts.map (f : α → β) {p q : List α} {ts} (h : Cuts p ts q) :
    Cuts (p.map f) (ts.map fun t => (f t.1, f t.2.1, f t.2.2)) (q.map f) := by
  induction h with
  | none h => exact .none (h.map f)
  | cut h _ ih => exact .cut (h.map f) ih

theorem sub_rotated {p p' q : List α} (h : q.Sublist p') (r : p' ~r p) : ∃ q', q'.Sublist p ∧ q ~r q' := by
  obtain ⟨n, rfl⟩ := r
  obtain ⟨k, e⟩ : ∃ k, p'.rotate n = p'.drop k ++ p'.take k := by
    rcases Nat.eq_zero_or_pos p'.length with h0 | h0
    · have : p' = [] := List.length_eq_zero_iff.1 h0
      subst this
      exact ⟨0, by simp⟩
    · exact ⟨n % p'.length, by rw [← List.rotate_mod]; exact List.rotate_eq_drop_append_take (Nat.mod_lt _ h0).le⟩
  rw [e]
  rw [← List.take_append_drop k p', List.sublist_append_iff] at h
  obtain ⟨q1, q2, rfl, h1, h2⟩ := h
  exact ⟨q2 ++ q1, h2.append h1, ⟨q1.length, List.rotate_append_length_eq q1 q2⟩⟩

/-- What is left is a part of the polygon. -/
theorem Cuts.sub {p q : List α} {ts} (h : Cuts p ts q) : ∃ q', q'.Sublist p ∧ q ~r q' := by
  induction h with
  | none h => exact ⟨_, .refl _, h.symm⟩
  | @cut p q a b c r ts h _ ih =>
    obtain ⟨q', h1, h2⟩ := ih
    obtain ⟨q'', h3, h4⟩ := sub_rotated (h1.trans (.cons_cons a (.cons b (.refl _)))) h.symm
    exact ⟨q'', h3, h2.trans h4⟩

/-- Every triangle was three corners in a row of a part of the polygon. -/
theorem Cuts.mem {p q : List α} {ts} (h : Cuts p ts q) {t} (ht : t ∈ ts) :
    ∃ q' r, q'.Sublist p ∧ q' ~r (t.1 :: t.2.1 :: t.2.2 :: r) := by
  induction h with
  | none h => cases ht
  | @cut p q a b c r ts h _ ih =>
    rcases List.mem_cons.1 ht with rfl | ht
    · exact ⟨p, r, .refl _, h⟩
    · obtain ⟨q', r', h1, h2⟩ := ih ht
      obtain ⟨q'', h3, h4⟩ := sub_rotated (h1.trans (.cons_cons a (.cons b (.refl _)))) h.symm
      exact ⟨q'', r', h3, h4.symm.trans h2⟩

theorem Cuts.sound {P : α → Prop} {p q : List α} {ts} (h : Cuts p ts q) (hp : ∀ x ∈ p, P x) :
    (∀ t ∈ ts, P t.1 ∧ P t.2.1 ∧ P t.2.2) ∧ ∀ x ∈ q, P x := by
  refine ⟨fun t ht => ?_, fun x hx => ?_⟩
  · obtain ⟨q', r, h1, h2⟩ := h.mem ht
    have m : ∀ y ∈ t.1 :: t.2.1 :: t.2.2 :: r, P y := fun y hy => hp y (h1.subset (h2.perm.mem_iff.2 hy))
    exact ⟨m _ (by simp), m _ (by simp), m _ (by simp)⟩
  · obtain ⟨q', h1, h2⟩ := h.sub
    exact hp x (h1.subset (h2.perm.mem_iff.1 hx))

/-- Every corner is cut off once or is left. -/
theorem Cuts.perm {p q : List α} {ts} (h : Cuts p ts q) : p.Perm (ts.map (fun t => t.2.1) ++ q) := by
  induction h with
  | none h => exact h.perm
  | cut h _ ih => exact h.perm.trans ((List.Perm.swap _ _ _).trans (.cons _ ih))

/-! ## Sides -/

theorem sum_rotate (f : α → R) (l : List α) (n : Nat) : ((l.rotate n).map f).sum = (l.map f).sum :=
  ((List.rotate_perm l n).map f).sum_eq

theorem sides_rotate (p : List α) (n : Nat) : sides (p.rotate n) = (sides p).rotate n := by
  unfold sides
  rw [List.rotate_rotate, Nat.add_comm, ← List.rotate_rotate]
  apply List.ext_getElem
  · simp
  · intro i h1 h2
    simp [List.getElem_zip, List.getElem_rotate, show i + (1 + n) = i + n + 1 by omega]

theorem sum_sides_rotated (f : α × α → R) {p q : List α} (h : p ~r q) : ((sides p).map f).sum = ((sides q).map f).sum := by
  obtain ⟨n, rfl⟩ := h
  rw [sides_rotate, sum_rotate]

theorem sides_cons (a b : α) (r : List α) : sides (a :: b :: r) = (a, b) :: (b :: r).zip (r ++ [a]) := rfl

theorem sides_cut (f : α → α → R) (h : ∀ x y, f x y = -f y x) (a b c : α) (r : List α) :
    ((sides (a :: b :: c :: r)).map fun e => f e.1 e.2).sum
      = ((triSides (a, b, c)).map fun e => f e.1 e.2).sum + ((sides (a :: c :: r)).map fun e => f e.1 e.2).sum := by
  rw [sides_cons, sides_cons]
  simp only [triSides, List.map_cons, List.map_nil, List.sum_cons, List.sum_nil, List.cons_append, List.zip_cons_cons]
  rw [h a c]
  ring

/-- Sides inside of the polygon cancel. -/
theorem Cuts.sum (f : α → α → R) (hf : ∀ x y, f x y = -f y x) {p q : List α} {ts} (h : Cuts p ts q) :
    ((sides p).map fun e => f e.1 e.2).sum
      = (ts.map fun t => ((triSides t).map fun e => f e.1 e.2).sum).sum + ((sides q).map fun e => f e.1 e.2).sum := by
  induction h with
  | none h => simpa using sum_sides_rotated (fun e => f e.1 e.2) h
  | cut h _ ih =>
    rw [sum_sides_rotated (fun e => f e.1 e.2) h, sides_cut f hf, ih, List.map_cons, List.sum_cons]
    ring

theorem sum_two (f : α → α → R) (hf : ∀ x y, f x y = -f y x) {q : List α} (h : q.length = 2) :
    ((sides q).map fun e => f e.1 e.2).sum = 0 := by
  match q, h with
  | [a, b], _ =>
    have : ((sides [a, b]).map fun e => f e.1 e.2).sum = f a b + (f b a + 0) := rfl
    rw [this, hf a b]
    ring

end Tm.Poly.Spec
