import Verif.Vec.Spec
import Mathlib.Tactic.Linarith

/-! # What the loops over elements do -/

namespace Tm.Vec

open Tm

variable {α : Type}

@[simp] theorem set_len (m : Mem α) (i : Nat) (s : Slot α) : (m.set i s).len = m.len := rfl
theorem set_cell (m : Mem α) (i k : Nat) (s : Slot α) : (m.set i s).cell k = if k = i then s else m.cell k := rfl
theorem set_self (m : Mem α) (i : Nat) (s : Slot α) : (m.set i s).cell i = s := by rw [set_cell, if_pos rfl]
theorem set_ne (m : Mem α) {i k : Nat} (s : Slot α) (h : k ≠ i) : (m.set i s).cell k = m.cell k := by rw [set_cell, if_neg h]

theorem get_ok {m : Mem α} {i : Nat} {x : Option α} (hi : i < m.len) (hx : m.cell i = .obj x) : get m i = .ok x := by
  unfold get
  rw [if_pos hi, hx]

theorem take_ok (c : Cfg) {m : Mem α} {i : Nat} {x : Option α} (hi : i < m.len) (hx : m.cell i = .obj x) :
    take c m i = .ok (x, if c.triv then m else m.set i (.obj none)) := by
  unfold take
  rw [get_ok hi hx, ok_bind]

theorem construct_ok (c : Cfg) {m : Mem α} {i : Nat} (x : Option α) (hi : i < m.len) (hr : c.triv = false → m.cell i = .raw) :
    construct c m i x = .ok (m.set i (.obj x)) := by
  unfold construct
  rw [if_pos hi]
  cases h : c.triv with
  | true => rfl
  | false => rw [hr h]; rfl

theorem assign_ok (c : Cfg) {m : Mem α} {i : Nat} (x : Option α) (hi : i < m.len) (ho : c.triv = false → ∃ y, m.cell i = .obj y) :
    assign c m i x = .ok (m.set i (.obj x)) := by
  unfold assign
  rw [if_pos hi]
  cases h : c.triv with
  | true => rfl
  | false =>
    obtain ⟨y, hy⟩ := ho h
    rw [hy]; rfl

theorem destroyAt_ok {c : Cfg} {m : Mem α} {i : Nat} (hc : c.triv = false) (hi : i < m.len) (ho : ∃ y, m.cell i = .obj y) :
    destroyAt c m i = .ok (m.set i .raw) := by
  unfold destroyAt
  obtain ⟨y, hy⟩ := ho
  rw [hc, if_neg (by simp), if_pos hi, hy]
  rfl

theorem destroyAt_triv {c : Cfg} (m : Mem α) (i : Nat) (hc : c.triv = true) : destroyAt c m i = .ok m := by
  unfold destroyAt
  rw [if_pos hc]

theorem destroyRange_triv {c : Cfg} (hc : c.triv = true) (n : Nat) (m : Mem α) (i : Nat) : destroyRange c n m i = .ok m := by
  induction n generalizing i with
  | zero => rfl
  | succ n ih =>
    unfold destroyRange
    rw [destroyAt_triv m i hc, ok_bind]
    exact ih (i + 1)

theorem destroyRange_obj {c : Cfg} (hc : c.triv = false) (n : Nat) (m : Mem α) (i : Nat) (hl : i + n ≤ m.len)
    (ho : ∀ k, i ≤ k → k < i + n → ∃ y, m.cell k = .obj y) :
    ∃ m', destroyRange c n m i = .ok m' ∧ m'.len = m.len ∧ ∀ k, m'.cell k = if i ≤ k ∧ k < i + n then .raw else m.cell k := by
  induction n generalizing i m with
  | zero => exact ⟨m, rfl, rfl, fun k => by rw [if_neg (by omega)]⟩
  | succ n ih =>
    unfold destroyRange
    rw [destroyAt_ok hc (by omega) (ho i (by omega) (by omega)), ok_bind]
    obtain ⟨m', e1, e2, e3⟩ := ih (m.set i .raw) (i + 1) (by rw [set_len]; omega) (fun k h1 h2 => by
      rw [set_ne _ _ (by omega)]
      exact ho k (by omega) (by omega))
    refine ⟨m', e1, e2, fun k => ?_⟩
    rw [e3, set_cell]
    by_cases hk : k = i
    · subst hk
      rw [if_neg (by omega), if_pos rfl, if_pos (by omega)]
    · by_cases hk2 : i + 1 ≤ k ∧ k < i + 1 + n
      · rw [if_pos hk2, if_pos (by omega)]
      · rw [if_neg hk2, if_neg hk, if_neg (by omega)]

theorem assignList_ok (c : Cfg) (xs : List (Option α)) (m : Mem α) (i : Nat) (hl : i + xs.length ≤ m.len)
    (ho : c.triv = false → ∀ k, i ≤ k → k < i + xs.length → ∃ y, m.cell k = .obj y) :
    ∃ m', assignList c m i xs = .ok m' ∧ m'.len = m.len ∧ (∀ k x, xs[k]? = some x → m'.cell (i + k) = .obj x) ∧
      ∀ k, k < i ∨ i + xs.length ≤ k → m'.cell k = m.cell k := by
  induction xs generalizing i m with
  | nil => exact ⟨m, rfl, rfl, nofun, fun k _ => rfl⟩
  | cons x xs ih =>
    rw [List.length_cons] at hl ho
    unfold assignList
    rw [assign_ok c x (by omega) (fun h => ho h i (by omega) (by omega)), ok_bind]
    obtain ⟨m', e1, e2, e3, e4⟩ := ih (m.set i (.obj x)) (i + 1) (by rw [set_len]; omega) (fun hc k h1 h2 => by
      rw [set_ne _ _ (by omega)]
      exact ho hc k (by omega) (by omega))
    refine ⟨m', e1, e2, fun k y hk => ?_, fun k hk => ?_⟩
    · cases k with
      | zero =>
        injection hk with hk
        rw [e4 _ (by omega), Nat.add_zero, set_self, hk]
      | succ k =>
        rw [show i + (k + 1) = i + 1 + k from by omega]
        exact e3 k y hk
    · rw [List.length_cons] at hk
      rw [e4 k (by omega), set_ne _ _ (by omega)]

theorem constructList_ok (c : Cfg) (xs : List (Option α)) (m : Mem α) (i : Nat) (hl : i + xs.length ≤ m.len)
    (ho : c.triv = false → ∀ k, i ≤ k → k < i + xs.length → m.cell k = .raw) :
    ∃ m', constructList c m i xs = .ok m' ∧ m'.len = m.len ∧ (∀ k x, xs[k]? = some x → m'.cell (i + k) = .obj x) ∧
      ∀ k, k < i ∨ i + xs.length ≤ k → m'.cell k = m.cell k := by
  induction xs generalizing i m with
  | nil => exact ⟨m, rfl, rfl, nofun, fun k _ => rfl⟩
  | cons x xs ih =>
    rw [List.length_cons] at hl ho
    unfold constructList
    rw [construct_ok c x (by omega) (fun h => ho h i (by omega) (by omega)), ok_bind]
    obtain ⟨m', e1, e2, e3, e4⟩ := ih (m.set i (.obj x)) (i + 1) (by rw [set_len]; omega) (fun hc k h1 h2 => by
      rw [set_ne _ _ (by omega)]
      exact ho hc k (by omega) (by omega))
    refine ⟨m', e1, e2, fun k y hk => ?_, fun k hk => ?_⟩
    · cases k with
      | zero =>
        injection hk with hk
        rw [e4 _ (by omega), Nat.add_zero, set_self, hk]
      | succ k =>
        rw [show i + (k + 1) = i + 1 + k from by omega]
        exact e3 k y hk
    · rw [List.length_cons] at hk
      rw [e4 k (by omega), set_ne _ _ (by omega)]

theorem readAll_ok (l : List (Option α)) (m : Mem α) (i : Nat) (hl : i + l.length ≤ m.len) (ho : ∀ k x, l[k]? = some x → m.cell (i + k) = .obj x) :
    readAll m l.length i = .ok l := by
  induction l generalizing i with
  | nil => rfl
  | cons x l ih =>
    rw [List.length_cons] at hl ⊢
    unfold readAll
    rw [get_ok (i := i) (x := x) (by omega) (ho 0 x rfl), ok_bind, ih (i + 1) (by omega) (fun k y hk => by
      rw [show i + 1 + k = i + (k + 1) from by omega]
      exact ho (k + 1) y hk), ok_bind]

theorem takeAll_ok (c : Cfg) (l : List (Option α)) (m : Mem α) (i : Nat) (hl : i + l.length ≤ m.len)
    (ho : ∀ k x, l[k]? = some x → m.cell (i + k) = .obj x) :
    ∃ m', takeAll c l.length m i = .ok (l, m') ∧ m'.len = m.len ∧ (∀ k, k < l.length → ∃ y, m'.cell (i + k) = .obj y) ∧
      ∀ k, k < i ∨ i + l.length ≤ k → m'.cell k = m.cell k := by
  induction l generalizing i m with
  | nil => exact ⟨m, rfl, rfl, nofun, fun k _ => rfl⟩
  | cons x l ih =>
    rw [List.length_cons] at hl ⊢
    unfold takeAll
    rw [take_ok c (i := i) (x := x) (by omega) (ho 0 x rfl), ok_bind]
    have hm1 : ∀ k, k ≠ i → (if c.triv then m else m.set i (.obj none)).cell k = m.cell k := by
      intro k hk
      split
      · rfl
      · rw [set_ne _ _ hk]
    have hm2 : ∃ y, (if c.triv then m else m.set i (.obj none)).cell i = .obj y := by
      split
      · exact ⟨x, ho 0 x rfl⟩
      · exact ⟨none, set_self ..⟩
    have hm3 : (if c.triv then m else m.set i (.obj none)).len = m.len := by split <;> rfl
    obtain ⟨m', e1, e2, e3, e4⟩ := ih (if c.triv then m else m.set i (.obj none)) (i + 1) (by omega) (fun k y hk => by
      rw [hm1 _ (by omega), show i + 1 + k = i + (k + 1) from by omega]
      exact ho (k + 1) y hk)
    dsimp only
    rw [e1, ok_bind]
    refine ⟨m', rfl, e2.trans hm3, fun k hk => ?_, fun k hk => ?_⟩
    · cases k with
      | zero =>
        rw [Nat.add_zero, e4 i (by omega)]
        exact hm2
      | succ k =>
        rw [show i + (k + 1) = i + 1 + k from by omega]
        exact e3 k (by omega)
    · rw [e4 k (by omega), hm1 k (by omega)]

theorem relocate_ok (c : Cfg) (n i : Nat) (new old : Mem α) (hn : i + n ≤ new.len) (ho : i + n ≤ old.len)
    (hobj : ∀ k, i ≤ k → k < i + n → ∃ y, old.cell k = .obj y) (hraw : c.triv = false → ∀ k, i ≤ k → k < i + n → new.cell k = .raw) :
    ∃ new' old', relocate c n i new old = .ok (new', old') ∧ new'.len = new.len ∧ old'.len = old.len ∧
      (∀ k, new'.cell k = if i ≤ k ∧ k < i + n then old.cell k else new.cell k) ∧
      (∀ k, old'.cell k = if c.triv = false ∧ i ≤ k ∧ k < i + n then .raw else old.cell k) := by
  induction n generalizing i new old with
  | zero => exact ⟨new, old, rfl, rfl, rfl, fun k => by rw [if_neg (by omega)], fun k => by rw [if_neg (by omega)]⟩
  | succ n ih =>
    obtain ⟨x, hx⟩ := hobj i (by omega) (by omega)
    unfold relocate
    rw [take_ok c (by omega) hx, ok_bind]
    dsimp only
    rw [construct_ok c x (by omega) (fun h => hraw h i (by omega) (by omega)), ok_bind]
    have hstep : ∃ old1, destroyAt c (if c.triv then old else old.set i (.obj none)) i = .ok old1 ∧ old1.len = old.len ∧
        ∀ k, old1.cell k = if c.triv = false ∧ k = i then .raw else old.cell k := by
      cases hc : c.triv with
      | true =>
        refine ⟨old, ?_, rfl, fun k => ?_⟩
        · rw [if_pos rfl, destroyAt_triv _ _ hc]
        · rw [if_neg (by simp)]
      | false =>
        rw [if_neg (by simp)]
        refine ⟨_, destroyAt_ok hc (by rw [set_len]; omega) ⟨none, set_self ..⟩, rfl, fun k => ?_⟩
        rw [set_cell, set_cell]
        by_cases hk : k = i
        · rw [if_pos hk, if_pos ⟨rfl, hk⟩]
        · rw [if_neg hk, if_neg hk, if_neg (fun h => hk h.2)]
    obtain ⟨old1, d1, d2, d3⟩ := hstep
    rw [d1, ok_bind]
    obtain ⟨new', old', e1, e2, e3, e4, e5⟩ := ih (i + 1) (new.set i (.obj x)) old1 (by rw [set_len]; omega) (by omega) (fun k h1 h2 => by
      rw [d3, if_neg (by omega)]
      exact hobj k (by omega) (by omega)) (fun hc k h1 h2 => by
      rw [set_ne _ _ (by omega)]
      exact hraw hc k (by omega) (by omega))
    refine ⟨new', old', e1, e2, e3.trans d2, fun k => ?_, fun k => ?_⟩
    · rw [e4, set_cell]
      by_cases hk : k = i
      · subst hk
        rw [if_neg (by omega), if_pos rfl, if_pos (by omega), hx]
      · by_cases hk2 : i + 1 ≤ k ∧ k < i + 1 + n
        · rw [if_pos hk2, d3, if_neg (fun h => hk h.2), if_pos (by omega)]
        · rw [if_neg hk2, if_neg hk, if_neg (by omega)]
    · rw [e5, d3]
      by_cases hc : c.triv = false
      · by_cases hk : k = i
        · subst hk
          rw [if_neg (by omega), if_pos ⟨hc, rfl⟩, if_pos ⟨hc, by omega⟩]
        · by_cases hk2 : i + 1 ≤ k ∧ k < i + 1 + n
          · rw [if_pos ⟨hc, hk2⟩, if_pos ⟨hc, by omega⟩]
          · rw [if_neg (fun h => hk2 h.2), if_neg (fun h => hk h.2), if_neg (by omega)]
      · rw [if_neg (fun h => hc h.1), if_neg (fun h => hc h.1), if_neg (fun h => hc h.1)]

theorem leave_ok {c : Cfg} {m : Mem α} (h : c.triv = false → ∀ k, k < m.len → m.cell k = .raw) : leave c m = .ok () := by
  unfold leave
  rw [if_pos]
  cases hc : c.triv with
  | true => rfl
  | false =>
    rw [Bool.false_or, List.all_eq_true]
    intro k hk
    rw [h hc k (List.mem_range.mp hk)]
    rfl

theorem memmove_ok (m : Mem α) (dest src n : Nat) (h1 : dest + n ≤ m.len) (h2 : src + n ≤ m.len) :
    ∃ m', memmove m dest src n = .ok m' ∧ m'.len = m.len ∧ ∀ k, m'.cell k = if dest ≤ k ∧ k < dest + n then m.cell (k - dest + src) else m.cell k := by
  unfold memmove
  rw [if_pos (by simp [h1, h2])]
  exact ⟨_, rfl, rfl, fun k => rfl⟩

/-! ### Moving within one block; these loops run only for types that are not trivial -/

theorem take_obj {c : Cfg} (hc : c.triv = false) {m : Mem α} {i : Nat} {x : Option α} (hi : i < m.len) (hx : m.cell i = .obj x) :
    take c m i = .ok (x, m.set i (.obj none)) := by
  rw [take_ok c hi hx, hc]
  rfl

theorem moveDown_ok {c : Cfg} (hc : c.triv = false) (n : Nat) (m : Mem α) (dest src : Nat) (hlt : dest < src) (hl : src + n ≤ m.len)
    (ho : ∀ k, dest ≤ k → k < src + n → ∃ y, m.cell k = .obj y) :
    ∃ m', moveDown c n m dest src = .ok m' ∧ m'.len = m.len ∧ (∀ k, dest ≤ k → k < dest + n → m'.cell k = m.cell (k + (src - dest))) ∧
      (∀ k, dest + n ≤ k → k < src + n → ∃ y, m'.cell k = .obj y) ∧ ∀ k, k < dest ∨ src + n ≤ k → m'.cell k = m.cell k := by
  induction n generalizing m dest src with
  | zero => exact ⟨m, rfl, rfl, fun k h1 h2 => by omega, fun k h1 h2 => ho k (by omega) (by omega), fun k _ => rfl⟩
  | succ n ih =>
    obtain ⟨x, hx⟩ := ho src (by omega) (by omega)
    unfold moveDown
    rw [take_obj hc (by omega) hx, ok_bind]
    dsimp only
    rw [assign_ok c x (by rw [set_len]; omega) (fun _ => by
      rw [set_ne _ _ (by omega)]
      exact ho dest (by omega) (by omega)), ok_bind]
    have hcell : ∀ k, k ≠ dest → k ≠ src → ((m.set src (.obj none)).set dest (.obj x)).cell k = m.cell k := by
      intro k h1 h2
      rw [set_ne _ _ h1, set_ne _ _ h2]
    obtain ⟨m', e1, e2, e3, e4, e5⟩ := ih ((m.set src (.obj none)).set dest (.obj x)) (dest + 1) (src + 1) (by omega)
      (by rw [set_len, set_len]; omega) (fun k h1 h2 => by
        by_cases hk : k = src
        · rw [set_ne _ _ (by omega), hk, set_self]
          exact ⟨none, rfl⟩
        · rw [hcell k (by omega) hk]
          exact ho k (by omega) (by omega))
    refine ⟨m', e1, e2, fun k h1 h2 => ?_, fun k h1 h2 => ?_, fun k hk => ?_⟩
    · by_cases hk : k = dest
      · subst hk
        rw [e5 k (by omega), set_self, show k + (src - k) = src from by omega, hx]
      · rw [e3 k (by omega) (by omega), hcell _ (by omega) (by omega)]
        congr 1
        omega
    · exact e4 k (by omega) (by omega)
    · rw [e5 k (by omega), hcell k (by omega) (by omega)]

theorem copyDown_ok {c : Cfg} (n : Nat) (m : Mem α) (dest src : Nat) (hle : dest ≤ src) (hl : src + n ≤ m.len)
    (ho : ∀ k, dest ≤ k → k < src + n → ∃ y, m.cell k = .obj y) :
    ∃ m', copyDown c n m dest src = .ok m' ∧ m'.len = m.len ∧ (∀ k, dest ≤ k → k < dest + n → m'.cell k = m.cell (k + (src - dest))) ∧
      ∀ k, k < dest ∨ dest + n ≤ k → m'.cell k = m.cell k := by
  induction n generalizing m dest src with
  | zero => exact ⟨m, rfl, rfl, fun k h1 h2 => by omega, fun k _ => rfl⟩
  | succ n ih =>
    obtain ⟨x, hx⟩ := ho src (by omega) (by omega)
    unfold copyDown
    rw [get_ok (by omega) hx, ok_bind, assign_ok c x (by omega) (fun _ => ho dest (by omega) (by omega)), ok_bind]
    obtain ⟨m', e1, e2, e3, e4⟩ := ih (m.set dest (.obj x)) (dest + 1) (src + 1) (by omega) (by rw [set_len]; omega) (fun k h1 h2 => by
      rw [set_ne _ _ (by omega)]
      exact ho k (by omega) (by omega))
    refine ⟨m', e1, e2, fun k h1 h2 => ?_, fun k hk => ?_⟩
    · by_cases hk : k = dest
      · subst hk
        rw [e4 k (by omega), set_self, show k + (src - k) = src from by omega, hx]
      · rw [e3 k (by omega) (by omega), set_ne _ _ (by omega)]
        congr 1
        omega
    · rw [e4 k (by omega), set_ne _ _ (by omega)]

theorem roomConstruct_ok {c : Cfg} (hc : c.triv = false) (n : Nat) (m : Mem α) (tail current : Nat) (h1 : n ≤ tail) (h2 : tail + n ≤ current)
    (hl : current ≤ m.len) (ho : ∀ k, tail - n ≤ k → k < tail → ∃ y, m.cell k = .obj y)
    (hr : ∀ k, current - n ≤ k → k < current → m.cell k = .raw) :
    ∃ m', roomConstruct c n m tail current = .ok m' ∧ m'.len = m.len ∧
      (∀ k, current - n ≤ k → k < current → m'.cell k = m.cell (k - (current - tail))) ∧
      (∀ k, tail - n ≤ k → k < tail → ∃ y, m'.cell k = .obj y) ∧
      ∀ k, k < tail - n ∨ (tail ≤ k ∧ k < current - n) ∨ current ≤ k → m'.cell k = m.cell k := by
  induction n generalizing m tail current with
  | zero => exact ⟨m, rfl, rfl, fun k h1 h2 => by omega, fun k h1 h2 => by omega, fun k _ => rfl⟩
  | succ n ih =>
    obtain ⟨x, hx⟩ := ho (tail - 1) (by omega) (by omega)
    unfold roomConstruct
    rw [take_obj hc (by omega) hx, ok_bind]
    dsimp only
    rw [construct_ok c x (by rw [set_len]; omega) (fun _ => by
      rw [set_ne _ _ (by omega)]
      exact hr (current - 1) (by omega) (by omega)), ok_bind]
    have hcell : ∀ k, k ≠ tail - 1 → k ≠ current - 1 → ((m.set (tail - 1) (.obj none)).set (current - 1) (.obj x)).cell k = m.cell k := by
      intro k a b
      rw [set_ne _ _ b, set_ne _ _ a]
    obtain ⟨m', e1, e2, e3, e4, e5⟩ := ih ((m.set (tail - 1) (.obj none)).set (current - 1) (.obj x)) (tail - 1) (current - 1) (by omega) (by omega)
      (by rw [set_len, set_len]; omega)
      (fun k a b => by rw [hcell k (by omega) (by omega)]; exact ho k (by omega) (by omega))
      (fun k a b => by rw [hcell k (by omega) (by omega)]; exact hr k (by omega) (by omega))
    refine ⟨m', e1, e2, fun k a b => ?_, fun k a b => ?_, fun k hk => ?_⟩
    · by_cases hk : k = current - 1
      · subst hk
        rw [e5 _ (by omega), set_self, show current - 1 - (current - tail) = tail - 1 from by omega, hx]
      · rw [e3 k (by omega) (by omega), hcell _ (by omega) (by omega)]
        congr 1
        omega
    · by_cases hk : k = tail - 1
      · subst hk
        rw [e5 _ (by omega), set_ne _ _ (by omega), set_self]
        exact ⟨none, rfl⟩
      · exact e4 k (by omega) (by omega)
    · rw [e5 k (by omega), hcell k (by omega) (by omega)]

theorem roomAssign_ok {c : Cfg} (hc : c.triv = false) (n : Nat) (m : Mem α) (tail current : Nat) (h1 : n ≤ tail) (h2 : tail < current)
    (hl : current ≤ m.len) (ho : ∀ k, tail - n ≤ k → k < current → ∃ y, m.cell k = .obj y) :
    ∃ m', roomAssign c n m tail current = .ok m' ∧ m'.len = m.len ∧
      (∀ k, current - n ≤ k → k < current → m'.cell k = m.cell (k - (current - tail))) ∧
      (∀ k, tail - n ≤ k → k < current → ∃ y, m'.cell k = .obj y) ∧
      ∀ k, k < tail - n ∨ current ≤ k → m'.cell k = m.cell k := by
  induction n generalizing m tail current with
  | zero => exact ⟨m, rfl, rfl, fun k h1 h2 => by omega, fun k h1 h2 => ho k (by omega) (by omega), fun k _ => rfl⟩
  | succ n ih =>
    obtain ⟨x, hx⟩ := ho (tail - 1) (by omega) (by omega)
    unfold roomAssign
    rw [take_obj hc (by omega) hx, ok_bind]
    dsimp only
    rw [if_neg (by omega), assign_ok c x (by rw [set_len]; omega) (fun _ => by
      rw [set_ne _ _ (by omega)]
      exact ho (current - 1) (by omega) (by omega)), ok_bind]
    have hcell : ∀ k, k ≠ tail - 1 → k ≠ current - 1 → ((m.set (tail - 1) (.obj none)).set (current - 1) (.obj x)).cell k = m.cell k := by
      intro k a b
      rw [set_ne _ _ b, set_ne _ _ a]
    obtain ⟨m', e1, e2, e3, e4, e5⟩ := ih ((m.set (tail - 1) (.obj none)).set (current - 1) (.obj x)) (tail - 1) (current - 1) (by omega) (by omega)
      (by rw [set_len, set_len]; omega)
      (fun k a b => by
        by_cases hk : k = tail - 1
        · rw [set_ne _ _ (by omega), hk, set_self]
          exact ⟨none, rfl⟩
        · rw [hcell k (by omega) (by omega)]; exact ho k (by omega) (by omega))
    refine ⟨m', e1, e2, fun k a b => ?_, fun k a b => ?_, fun k hk => ?_⟩
    · by_cases hk : k = current - 1
      · subst hk
        rw [e5 _ (by omega), set_self, show current - 1 - (current - tail) = tail - 1 from by omega, hx]
      · rw [e3 k (by omega) (by omega), hcell _ (by omega) (by omega)]
        congr 1
        omega
    · by_cases hk : k = current - 1
      · subst hk
        rw [e5 _ (by omega), set_self]
        exact ⟨x, rfl⟩
      · exact e4 k (by omega) (by omega)
    · rw [e5 k (by omega), hcell k (by omega) (by omega)]

end Tm.Vec
