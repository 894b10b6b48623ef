import Verif.Vec.Ops

/-! # Two vectors -/

namespace Tm.Vec

open Tm

variable {α : Type}

theorem Inv.frame {c : Cfg} {M : Nat} {rest rest' : List Nat} {h h' : Heap} {v : Vec α} {l : List (Option α)} (i : Inv c M rest h v l) (hh : h'.Ok)
    (hl : h'.live.Perm (blocks v ++ rest')) : Inv c M rest' h' v l :=
  ⟨i.size, i.has, i.le, i.len, i.bound, i.place, hh, hl⟩

/-- Both vectors keep the invariant, with different blocks. -/
def Both (c : Cfg) (M : Nat) (rest : List Nat) (h : Heap) (v : Vec α) (lv : List (Option α)) (w : Vec α) (lw : List (Option α)) : Prop :=
  Inv c M (blocks w ++ rest) h v lv ∧ Inv c M (blocks v ++ rest) h w lw

theorem perm_swap (a b rest : List Nat) : (a ++ (b ++ rest)).Perm (b ++ (a ++ rest)) := by
  rw [← List.append_assoc, ← List.append_assoc]
  exact (List.perm_append_comm).append_right rest

/-- The second vector is not touched. -/
theorem Both.of {c : Cfg} {M : Nat} {rest rest0 : List Nat} {h h0 : Heap} {v w : Vec α} {lv lw : List (Option α)} (i : Inv c M (blocks w ++ rest) h v lv)
    (j : Inv c M rest0 h0 w lw) : Both c M rest h v lv w lw :=
  ⟨i, j.frame i.heap (i.live.trans (perm_swap _ _ _))⟩

theorem Both.symm {c : Cfg} {M : Nat} {rest : List Nat} {h : Heap} {v w : Vec α} {lv lw : List (Option α)} (b : Both c M rest h v lv w lw) :
    Both c M rest h w lw v lv := ⟨b.2, b.1⟩

theorem none_inv (c : Cfg) (M : Nat) (rest : List Nat) (h : Heap) (hh : h.Ok) (hl : h.live.Perm rest) : Inv c M rest h (Vec.none : Vec α) [] :=
  ⟨rfl, ⟨nofun, fun _ _ _ => rfl⟩, Nat.le_refl _, Nat.le_refl _, Nat.zero_le _, ⟨rfl, rfl⟩, hh, hl⟩

theorem exists_list (m : Mem α) (n : Nat) (ho : ∀ k, k < n → ∃ y, m.cell k = .obj y) :
    ∃ l : List (Option α), l.length = n ∧ ∀ k x, l[k]? = some x → m.cell k = .obj x := by
  induction n with
  | zero => exact ⟨[], rfl, nofun⟩
  | succ n ih =>
    obtain ⟨l, h1, h2⟩ := ih (fun k hk => ho k (by omega))
    obtain ⟨y, hy⟩ := ho n (by omega)
    refine ⟨l ++ [y], by rw [List.length_append, h1]; rfl, fun k x hk => ?_⟩
    by_cases hk2 : k < n
    · rw [List.getElem?_append_left (by omega)] at hk
      exact h2 k x hk
    · have hlt := (List.getElem?_eq_some_iff.mp hk).1
      rw [List.length_append, h1, List.length_singleton] at hlt
      have : k = n := by omega
      subst this
      rw [List.getElem?_append_right (by omega), h1, Nat.sub_self] at hk
      injection hk with hk
      rw [hy, hk]

/-- All elements are moved from. -/
theorem takeAll_inv {c : Cfg} {M : Nat} {rest : List Nat} {h : Heap} {v : Vec α} {l : List (Option α)} (i : Inv c M rest h v l) :
    ∃ m l', takeAll c v.sz v.mem 0 = .ok (l, m) ∧ Inv c M rest h { v with mem := m } l' := by
  have hle := i.le
  have hlen := i.len
  obtain ⟨m, e1, e2, e3, e4⟩ := takeAll_ok c l v.mem 0 (by omega) (fun k x hk => by rw [Nat.zero_add]; exact i.has.obj k x hk)
  obtain ⟨l', f1, f2⟩ := exists_list m l.length (fun k hk => by have := e3 k hk; rwa [Nat.zero_add] at this)
  rw [← i.size] at e1
  refine ⟨m, l', e1, ?_⟩
  have := i.update (l' := l') (m := m) (n := v.sz) ⟨f2, fun hc k hk => by
    rw [e4 k (by omega)]
    exact i.has.raw hc k (by omega)⟩ e2 (by omega) (by rw [f1]; exact i.size)
  exact this

theorem clear_inv {c : Cfg} {M : Nat} {rest : List Nat} {h : Heap} {v : Vec α} {l : List (Option α)} (i : Inv c M rest h v l) :
    ∃ w, clear c v = .ok w ∧ Inv c M rest h w [] ∧ blocks w = blocks v := by
  obtain ⟨m, e1, e2⟩ := clear_ok i
  exact ⟨_, e1, e2, rfl⟩

/-- The storage of a new vector, for a given number of elements. -/
theorem fresh_ok {c : Cfg} {M : Nat} {rest : List Nat} {h : Heap} (ha : Addressable c M) (hh : h.Ok) (hl : h.live.Perm rest) {v : Vec α}
    (iv : Inv c M rest h v []) (hv : v.cap = c.n) (hb : blocks v = []) {size : Nat} (hs : size ≤ max c.n (2 * M)) :
    ∃ h' v', storage c h v size = .ok (h', v') ∧ Inv c M rest h' v' [] ∧ h'.ok = h.ok ∧
      (size ≤ c.n ∨ (c.fixed = false ∧ ∀ k, h.ok k = true) → size ≤ v'.cap) := by
  unfold storage
  by_cases hn : c.n < size
  · rw [if_pos hn]
    obtain ⟨h', w, e1, e2, e3, e4, e5, e6, _⟩ := create_ok (α := α) (cap := size) ha hh hl (by omega)
    rw [e1, ok_bind]
    dsimp only
    by_cases hp : w.ptr = .null
    · rw [if_pos hp]
      refine ⟨_, _, rfl, iv.frame e2.heap ?_, e3, fun hx => ?_⟩
      · have := e2.live
        unfold blocks at this
        rw [hp] at this
        rw [hb]
        exact this
      · rcases hx with hx | hx
        · omega
        · exact absurd hp (e4 hx.1 hx.2)
    · rw [if_neg hp]
      exact ⟨_, _, rfl, e2, e3, fun _ => by rw [(e5 hp).1]⟩
  · rw [if_neg hn]
    exact ⟨_, _, rfl, iv, rfl, fun _ => by omega⟩

theorem make_blocks {c : Cfg} {v : Vec α} (h : make c = .ok v) : blocks v = [] := by
  unfold make at h
  by_cases hc : c.n ≤ maxCount
  · rw [assert_ok hc, ok_bind] at h
    injection h with h
    subst h
    unfold blocks
    dsimp only
    by_cases h0 : c.n = 0
    · rw [if_pos h0]
    · rw [if_neg h0]
  · unfold assert at h
    rw [if_neg (by simpa using hc)] at h
    exact absurd h nofun

theorem copyMake_ok {c : Cfg} {M : Nat} {rest : List Nat} {h : Heap} {other : Vec α} {l : List (Option α)} (ha : Addressable c M) (i : Inv c M rest h other l) :
    ∃ h' v ok, copyMake c h other = .ok (h', v) ∧ Both c M rest h' v (if ok then l else []) other l ∧ h'.ok = h.ok ∧
      (l.length ≤ c.n ∨ (c.fixed = false ∧ ∀ k, h.ok k = true) → ok = true) := by
  have hsz := i.size
  have hle := i.le
  have hlen := i.len
  have hbd := i.bound
  obtain ⟨v0, m1, m2, m3⟩ := make_ok (α := α) ha i.heap
  have hb0 := make_blocks m1
  have iv0 : Inv c M (blocks other ++ rest) h v0 [] := m2.frame i.heap (by rw [hb0]; exact i.live)
  unfold copyMake
  rw [m1, ok_bind]
  by_cases h0 : other.sz = 0
  · rw [if_pos h0]
    have hl : l = [] := List.length_eq_zero_iff.mp (by omega)
    subst hl
    exact ⟨_, _, true, rfl, Both.of iv0 i, rfl, fun _ => rfl⟩
  · rw [if_neg h0]
    obtain ⟨h', v', e1, e2, e3, e4⟩ := fresh_ok ha i.heap i.live iv0 m3 hb0 (size := other.sz) (by omega)
    have hrest : ∃ w ok, (if v'.cap ≥ other.sz then do
          let xs ← readAll other.mem other.sz 0
          let m ← constructList c v'.mem 0 xs
          .ok (h', { v' with mem := m, sz := other.sz })
        else .ok (h', v')) = .ok (h', w) ∧ Inv c M (blocks other ++ rest) h' w (if ok then l else []) ∧ (other.sz ≤ v'.cap → ok = true) := by
      by_cases hc : v'.cap ≥ other.sz
      · rw [if_pos hc, hsz, readAll_ok l other.mem 0 (by omega) (fun k x hk => by rw [Nat.zero_add]; exact i.has.obj k x hk), ok_bind]
        have := e2.len
        obtain ⟨m, f1, f2, f3, f4⟩ := constructList_ok c l v'.mem 0 (by omega) (fun hc k _ _ => e2.has.raw hc k (Nat.zero_le _))
        rw [f1, ok_bind]
        refine ⟨_, true, rfl, e2.update ⟨fun k x hk => ?_, fun hc k hk => ?_⟩ f2 (by show l.length ≤ _; omega) rfl, fun _ => rfl⟩
        · have := f3 k x hk
          rwa [Nat.zero_add] at this
        · rw [f4 k (by simp only [if_pos] at hk; omega)]
          exact e2.has.raw hc k (Nat.zero_le _)
      · rw [if_neg hc]
        exact ⟨_, false, rfl, e2, fun hx => absurd hx hc⟩
    obtain ⟨w, ok, f1, f2, f3⟩ := hrest
    refine ⟨h', w, ok, ?_, Both.of f2 i, e3, fun hx => f3 (e4 (by rw [hsz]; exact hx))⟩
    rw [e1, ok_bind]
    exact f1

theorem moveMake_ok {c : Cfg} {M : Nat} {rest : List Nat} {h : Heap} {other : Vec α} {l : List (Option α)} (ha : Addressable c M) (i : Inv c M rest h other l) :
    ∃ h' v other' ok, moveMake c h other = .ok (h', v, other') ∧ Both c M rest h' v (if ok then l else []) other' [] ∧ h'.ok = h.ok ∧
      (l.length ≤ c.n ∨ (c.fixed = false ∧ ∀ k, h.ok k = true) → ok = true) ∧
      (other.sbo = false → ok = true ∧ h' = h ∧ (v.ptr = other.ptr ∨ l = [])) := by
  have hsz := i.size
  have hle := i.le
  have hlen := i.len
  have hbd := i.bound
  obtain ⟨v0, m1, m2, m3⟩ := make_ok (α := α) ha i.heap
  have hb0 := make_blocks m1
  have iv0 : Inv c M (blocks other ++ rest) h v0 [] := m2.frame i.heap (by rw [hb0]; exact i.live)
  unfold moveMake
  rw [m1, ok_bind]
  dsimp only
  by_cases hs : other.sbo = true
  · rw [if_pos hs]
    obtain ⟨h', v', e1, e2, e3, e4⟩ := fresh_ok ha i.heap i.live iv0 m3 hb0 (size := other.sz) (by omega)
    rw [e1, ok_bind]
    dsimp only
    have io : Inv c M (blocks v' ++ rest) h' other l := (Both.of e2 i).2
    by_cases hc : v'.cap ≥ other.sz
    · rw [if_pos hc]
      obtain ⟨mo, lo, g1, g2⟩ := takeAll_inv io
      rw [g1, ok_bind]
      dsimp only
      have := e2.len
      obtain ⟨m, f1, f2, f3, f4⟩ := constructList_ok c l v'.mem 0 (by omega) (fun hc k _ _ => e2.has.raw hc k (Nat.zero_le _))
      rw [f1, ok_bind]
      obtain ⟨o', k1, k2, k3⟩ := clear_inv g2
      rw [k1, ok_bind]
      refine ⟨_, _, _, true, rfl, ⟨?_, k2⟩, e3, fun _ => rfl, fun h0 => absurd hs (by rw [h0]; simp)⟩
      have iw : Inv c M (blocks other ++ rest) h' { v' with mem := m, sz := other.sz } l := e2.update ⟨fun k x hk => by
        have := f3 k x hk
        rwa [Nat.zero_add] at this, fun hc k hk => by
        rw [f4 k (by omega)]
        exact e2.has.raw hc k (Nat.zero_le _)⟩ f2 (by omega) hsz
      rw [k3]
      exact iw
    · rw [if_neg hc]
      obtain ⟨o', k1, k2, k3⟩ := clear_inv io
      rw [k1, ok_bind]
      refine ⟨_, _, _, false, rfl, ⟨?_, k2⟩, e3, fun hx => absurd (e4 (by rw [hsz]; exact hx)) hc, fun h0 => absurd hs (by rw [h0]; simp)⟩
      rw [k3]
      exact e2
  · rw [if_neg hs]
    by_cases h0 : (other.sz = 0 && other.cap < v0.cap : Bool) = true
    · rw [if_pos h0]
      have hl : l = [] := List.length_eq_zero_iff.mp (by simp only [Bool.and_eq_true, decide_eq_true_eq] at h0; omega)
      subst hl
      exact ⟨_, _, _, true, rfl, Both.of iv0 i, rfl, fun _ => rfl, fun _ => ⟨rfl, rfl, Or.inr rfl⟩⟩
    · rw [if_neg h0]
      exact ⟨_, _, _, true, rfl, ⟨i, none_inv c M _ h i.heap i.live⟩, rfl, fun _ => rfl, fun _ => ⟨rfl, rfl, Or.inl rfl⟩⟩

theorem copyAssign_ok {c : Cfg} {M : Nat} {rest : List Nat} {h : Heap} {v other : Vec α} {lv lo : List (Option α)} (ha : Addressable c M)
    (b : Both c M rest h v lv other lo) (hM : lo.length ≤ M) :
    ∃ h' v' ok, copyAssign c h v other = .ok (h', v') ∧ Both c M rest h' v' (if ok then lo else []) other lo ∧ h'.ok = h.ok ∧
      (lo.length ≤ v.cap ∨ (c.fixed = false ∧ ∀ k, h.ok k = true) → ok = true) := by
  obtain ⟨i, j⟩ := b
  have hle := j.le
  have hlen := j.len
  unfold copyAssign
  rw [j.size, readAll_ok lo other.mem 0 (by omega) (fun k x hk => by rw [Nat.zero_add]; exact j.has.obj k x hk), ok_bind]
  obtain ⟨h', v', ok, e1, e2, e3, e4, e5, _⟩ := assignRange_ok ha i (r := .ext lo) hM
  rw [e1, ok_bind]
  refine ⟨h', v', ok, rfl, Both.of e2 j, e3, fun hx => ?_⟩
  rcases hx with hx | hx
  · exact (e5 hx).1
  · exact e4 hx.1 hx.2

theorem moveAssign_ok {c : Cfg} {M : Nat} {rest : List Nat} {h : Heap} {v other : Vec α} {lv lo : List (Option α)} (ha : Addressable c M)
    (b : Both c M rest h v lv other lo) (hM : lo.length ≤ 2 * M) :
    ∃ h' v' other' ok, moveAssign c h v other = .ok (h', v', other') ∧ Both c M rest h' v' (if ok then lo else []) other' [] ∧ h'.ok = h.ok ∧
      (lo.length ≤ v.cap ∨ (c.fixed = false ∧ ∀ k, h.ok k = true) → ok = true) ∧ (other.sbo = false → ok = true ∧ v' = other) := by
  obtain ⟨i, j⟩ := b
  have hsz := j.size
  have hle := j.le
  unfold moveAssign
  by_cases hs : other.sbo = true
  · rw [if_pos hs]
    have hns : ∀ {p : Prop}, other.sbo = false → p := fun h0 => absurd hs (by rw [h0]; simp)
    by_cases h0 : other.sz = 0
    · rw [if_pos h0]
      have hl : lo = [] := List.length_eq_zero_iff.mp (by omega)
      subst hl
      obtain ⟨v', e1, e2, e3⟩ := clear_inv i
      obtain ⟨o', f1, f2, f3⟩ := clear_inv j
      rw [e1, ok_bind, f1, ok_bind]
      exact ⟨_, _, _, true, rfl, ⟨by rw [f3]; exact e2, by rw [e3]; exact f2⟩, rfl, fun _ => rfl, hns⟩
    · rw [if_neg h0]
      by_cases hc : other.sz > v.cap
      · rw [if_pos hc]
        obtain ⟨h1, w1, e1, e2, e3, e4, e5, e6⟩ := destroy_ok i
        rw [e1, ok_bind]
        obtain ⟨h2, w2, f1, f2, f3, f4, f5, f6, _⟩ := create_ok (α := α) (cap := other.sz) ha e2.heap e4 (by omega)
        dsimp only
        rw [f1, ok_bind]
        dsimp only
        have hlive2 : h2.live.Perm (blocks w2 ++ (blocks other ++ rest)) := f2.live
        by_cases hp : w2.ptr = .null
        · rw [if_pos hp]
          have hb2 : blocks w2 = [] := by
            unfold blocks
            rw [hp]
          rw [hb2] at hlive2
          have io : Inv c M (blocks w1 ++ rest) h2 other lo := j.frame f2.heap (by rw [e5]; exact hlive2)
          obtain ⟨o', k1, k2, k3⟩ := clear_inv io
          rw [k1, ok_bind]
          refine ⟨_, _, _, false, rfl, ⟨e2.frame f2.heap (by rw [e5, k3]; exact hlive2), k2⟩, f3.trans e3, fun hx => ?_, hns⟩
          rcases hx with hx | hx
          · omega
          · exact absurd hp (f4 hx.1 (by rw [e3]; exact hx.2))
        · rw [if_neg hp]
          obtain ⟨mo, l', g1, g2⟩ := takeAll_inv j
          rw [g1, ok_bind]
          dsimp only
          obtain ⟨m, k1, k2⟩ := overwrite_ok f2 hp (xs := lo) (by rw [(f5 hp).1]; omega)
          rw [k1, ok_bind]
          have iw : Inv c M (blocks w2 ++ (blocks other ++ rest)) h2 w1 [] := e2.frame f2.heap (by rw [e5]; exact hlive2)
          obtain ⟨h3, w3, n1, n2, n3, n4, n5, n6⟩ := destroy_ok iw
          rw [n1, ok_bind]
          dsimp only
          have io : Inv c M (blocks w2 ++ rest) h3 { other with mem := mo } l' := g2.frame n2.heap (n4.trans (perm_swap _ _ _))
          obtain ⟨o', q1, q2, q3⟩ := clear_inv io
          rw [q1, ok_bind]
          exact ⟨_, _, _, true, rfl, ⟨k2.frame n2.heap (by rw [q3]; exact n4), q2⟩, n3.trans (f3.trans e3), fun _ => rfl, hns⟩
      · rw [if_neg hc]
        obtain ⟨mo, l', g1, g2⟩ := takeAll_inv j
        rw [g1, ok_bind]
        dsimp only
        obtain ⟨m, k1, k2⟩ := overwrite_ok i (i.ptr_ne (by omega)) (xs := lo) (by omega)
        rw [k1, ok_bind]
        obtain ⟨o', q1, q2, q3⟩ := clear_inv g2
        rw [q1, ok_bind]
        exact ⟨_, _, _, true, rfl, ⟨by rw [q3]; exact k2, q2⟩, rfl, fun _ => rfl, hns⟩
  · rw [if_neg hs]
    obtain ⟨h1, w1, e1, e2, e3, e4, e5, e6⟩ := destroy_ok i
    rw [e1, ok_bind]
    exact ⟨_, _, _, true, rfl, ⟨j.frame e2.heap e4, none_inv c M _ h1 e2.heap e4⟩, e3, fun _ => rfl, fun _ => ⟨rfl, rfl⟩⟩

/-! ### Exchange -/

theorem swapCells_ok (c : Cfg) (n i : Nat) (a b : Mem α) (h1 : i + n ≤ a.len) (h2 : i + n ≤ b.len) (ho : ∀ k, i ≤ k → k < i + n → ∃ y, a.cell k = .obj y)
    (hp : ∀ k, i ≤ k → k < i + n → ∃ y, b.cell k = .obj y) :
    ∃ a' b', swapCells c n i a b = .ok (a', b') ∧ a'.len = a.len ∧ b'.len = b.len ∧
      (∀ k, a'.cell k = if i ≤ k ∧ k < i + n then b.cell k else a.cell k) ∧ ∀ k, b'.cell k = if i ≤ k ∧ k < i + n then a.cell k else b.cell k := by
  induction n generalizing i a b with
  | zero => exact ⟨a, b, rfl, rfl, rfl, fun k => by rw [if_neg (by omega)], fun k => by rw [if_neg (by omega)]⟩
  | succ n ih =>
    obtain ⟨x, hx⟩ := ho i (by omega) (by omega)
    obtain ⟨y, hy⟩ := hp i (by omega) (by omega)
    unfold swapCells
    rw [get_ok (by omega) hx, ok_bind, get_ok (by omega) hy, ok_bind, assign_ok c y (by omega) (fun _ => ⟨x, hx⟩), ok_bind,
      assign_ok c x (by omega) (fun _ => ⟨y, hy⟩), ok_bind]
    obtain ⟨a', b', e1, e2, e3, e4, e5⟩ := ih (i + 1) (a.set i (.obj y)) (b.set i (.obj x)) (by rw [set_len]; omega) (by rw [set_len]; omega)
      (fun k p q => by rw [set_ne _ _ (by omega)]; exact ho k (by omega) (by omega))
      (fun k p q => by rw [set_ne _ _ (by omega)]; exact hp k (by omega) (by omega))
    refine ⟨a', b', e1, e2, e3, fun k => ?_, fun k => ?_⟩
    · rw [e4, set_cell, set_cell]
      by_cases hk : k = i
      · subst hk
        rw [if_neg (by omega), if_pos rfl, if_pos (by omega), hy]
      · by_cases hk2 : i + 1 ≤ k ∧ k < i + 1 + n
        · rw [if_pos hk2, if_neg hk, if_pos (by omega)]
        · rw [if_neg hk2, if_neg hk, if_neg (by omega)]
    · rw [e5, set_cell, set_cell]
      by_cases hk : k = i
      · subst hk
        rw [if_neg (by omega), if_pos rfl, if_pos (by omega), hx]
      · by_cases hk2 : i + 1 ≤ k ∧ k < i + 1 + n
        · rw [if_pos hk2, if_neg hk, if_pos (by omega)]
        · rw [if_neg hk2, if_neg hk, if_neg (by omega)]

theorem exchange_ok {c : Cfg} {a b a1 b1 : Mem α} {la lb : List (Option α)} (ha : Has c a la) (hb : Has c b lb) (hle : la.length ≤ lb.length)
    (hla : lb.length ≤ a.len) (hlb : lb.length ≤ b.len) (e1 : a1.len = a.len) (e2 : b1.len = b.len)
    (e3 : ∀ k, a1.cell k = if k < la.length then b.cell k else a.cell k) (e4 : ∀ k, b1.cell k = if k < la.length then a.cell k else b.cell k) :
    ∃ a2 b2, relocate c (lb.length - la.length) la.length a1 b1 = .ok (a2, b2) ∧ a2.len = a.len ∧ b2.len = b.len ∧ Has c a2 lb ∧ Has c b2 la := by
  obtain ⟨a2, b2, f1, f2, f3, f4, f5⟩ := relocate_ok c (lb.length - la.length) la.length a1 b1 (by omega) (by omega)
    (fun k p q => by rw [e4, if_neg (by omega)]; exact hb.exists_obj (by omega))
    (fun hc k p q => by rw [e3, if_neg (by omega)]; exact ha.raw hc k p)
  refine ⟨a2, b2, f1, f2.trans e1, f3.trans e2, ⟨fun k x hk => ?_, fun hc k hk => ?_⟩, ⟨fun k x hk => ?_, fun hc k hk => ?_⟩⟩
  · have hlt := (List.getElem?_eq_some_iff.mp hk).1
    rw [f4]
    by_cases hk2 : k < la.length
    · rw [if_neg (by omega), e3, if_pos hk2]
      exact hb.obj k x hk
    · rw [if_pos (by omega), e4, if_neg hk2]
      exact hb.obj k x hk
  · rw [f4, if_neg (by omega), e3, if_neg (by omega)]
    exact ha.raw hc k (by omega)
  · have hlt := (List.getElem?_eq_some_iff.mp hk).1
    rw [f5, if_neg (by omega), e4, if_pos hlt]
    exact ha.obj k x hk
  · rw [f5]
    by_cases hk2 : k < lb.length
    · rw [if_pos ⟨hc, by omega⟩]
    · rw [if_neg (by omega), e4, if_neg (by omega)]
      exact hb.raw hc k (by omega)

theorem Inv.cap_le {c : Cfg} {M : Nat} {rest : List Nat} {h : Heap} {v : Vec α} {l : List (Option α)} (ha : Addressable c M) (i : Inv c M rest h v l) : v.cap ≤ maxCount := by
  have h1 := bound_M ha
  have h2 := ha.2.1
  have h3 := i.bound
  unfold maxCount
  omega

theorem swap_heap {c : Cfg} {M : Nat} {rest : List Nat} {h : Heap} {v w : Vec α} {lv lw : List (Option α)} (ha : Addressable c M) (b : Both c M rest h v lv w lw)
    (hv : v.sbo = false) (hw : w.sbo = false) : swap c c h v w = .ok (h, w, v, true) := by
  unfold swap setCap
  rw [if_neg (by simp [hv, hw]), assert_ok (b.2.cap_le ha), ok_bind, ok_bind, assert_ok (b.1.cap_le ha), ok_bind, ok_bind]
  rw [hv, hw, Bool.false_and, Bool.false_and]
  cases v
  cases w
  simp only at hv hw
  subst hv hw
  rfl

theorem swap_same {c : Cfg} {M : Nat} {rest : List Nat} {h : Heap} {v w : Vec α} {lv lw : List (Option α)} (ha : Addressable c M) (b : Both c M rest h v lv w lw)
    (hs : v.sbo = true ∨ w.sbo = true) (hc : v.cap = w.cap) :
    ∃ v' w', swap c c h v w = .ok (h, v', w', true) ∧ Both c M rest h v' lw w' lv ∧ v'.cap = v.cap ∧ w'.cap = w.cap ∧ v'.ptr = v.ptr ∧ w'.ptr = w.ptr := by
  obtain ⟨i, j⟩ := b
  have hvs := i.size
  have hws := j.size
  have hvl := i.le
  have hwl := j.le
  have hvm := i.len
  have hwm := j.len
  have hsbo : ∀ {rest : List Nat} {x : Vec α} {l : List (Option α)}, Inv c M rest h x l → (x.sbo && decide (x.cap > 0)) = x.sbo := by
    intro rest x l ix
    cases hx : x.sbo with
    | false => rfl
    | true =>
      have hpl := ix.place
      unfold Place at hpl
      cases hp : x.ptr with
      | null => rw [hp] at hpl; rw [hx] at hpl; exact absurd hpl.2 (by simp)
      | sbo =>
        rw [hp] at hpl
        have : x.cap > 0 := by
          have := hpl.2.1
          have := hpl.2.2
          omega
        simp [this]
      | heap id => rw [hp] at hpl; rw [hx] at hpl; exact absurd hpl.1 (by simp)
  have hmem : ∃ a1 b1 a b, swapCells c (min v.sz w.sz) 0 v.mem w.mem = .ok (a1, b1) ∧
      swapTail c v.sz w.sz a1 b1 = .ok (a, b) ∧
      a.len = v.mem.len ∧ b.len = w.mem.len ∧ Has c a lw ∧ Has c b lv := by
    obtain ⟨a1, b1, e1, e2, e3, e4, e5⟩ := swapCells_ok c (min v.sz w.sz) 0 v.mem w.mem (by omega) (by omega)
      (fun k _ q => i.has.exists_obj (by omega)) (fun k _ q => j.has.exists_obj (by omega))
    by_cases hlt : w.sz < v.sz
    · obtain ⟨b2, a2, f1, f2, f3, f4, f5⟩ := exchange_ok (a := w.mem) (b := v.mem) (a1 := b1) (b1 := a1) j.has i.has (by omega) (by omega) (by omega) e3 e2
        (fun k => by rw [e5, ← hws, Nat.min_eq_right (by omega)]; simp)
        (fun k => by rw [e4, ← hws, Nat.min_eq_right (by omega)]; simp)
      rw [← hvs, ← hws] at f1
      refine ⟨a1, b1, a2, b2, e1, ?_, f3, f2, f5, f4⟩
      unfold swapTail
      rw [if_pos hlt, Nat.min_eq_right (by omega), f1, ok_bind]
    · obtain ⟨a2, b2, f1, f2, f3, f4, f5⟩ := exchange_ok (a := v.mem) (b := w.mem) (a1 := a1) (b1 := b1) i.has j.has (by omega) (by omega) (by omega) e2 e3
        (fun k => by rw [e4, ← hvs, Nat.min_eq_left (by omega)]; simp)
        (fun k => by rw [e5, ← hvs, Nat.min_eq_left (by omega)]; simp)
      rw [← hvs, ← hws] at f1
      refine ⟨a1, b1, a2, b2, e1, ?_, f2, f3, f4, f5⟩
      unfold swapTail
      rw [if_neg hlt, Nat.min_eq_left (by omega), f1]
  obtain ⟨a1, b1, a, b, e1, e2, e3, e4, e5, e6⟩ := hmem
  unfold swap reserve setCap
  rw [if_pos (by simp only [Bool.or_eq_true]; exact hs.symm), if_pos (show v.cap ≥ w.sz by omega), ok_bind]
  dsimp only
  rw [if_neg (by simp), if_pos (show w.cap ≥ v.sz by omega), ok_bind]
  dsimp only
  rw [if_neg (by simp), e1, ok_bind]
  dsimp only
  rw [e2, ok_bind]
  dsimp only
  rw [assert_ok (j.cap_le ha), ok_bind, ok_bind, assert_ok (i.cap_le ha), ok_bind, ok_bind, ← hc, hsbo i, hc, hsbo j]
  refine ⟨_, _, rfl, ⟨?_, ?_⟩, rfl, rfl, rfl, rfl⟩
  · have := i.update (l' := lw) (n := w.sz) e5 e3 (by omega) hws
    rw [← hc]
    exact this
  · have := j.update (l' := lv) (n := v.sz) e6 e4 (by omega) hvs
    exact this

/-! ### Growth one by one -/

theorem growBy_one {c : Cfg} {M : Nat} {rest : List Nat} {h : Heap} {v : Vec α} {l : List (Option α)} (ha : Addressable c M) (i : Inv c M rest h v l)
    (hf : c.fixed = false) (hg : ∀ k, h.ok k = true) (hb : l.length + 1 ≤ M) {h' : Heap} {v' : Vec α} {ok : Bool} (e : growBy c h v 1 = .ok (h', v', ok)) :
    (h' = h ∧ v'.cap = v.cap) ∨ (h'.next = h.next + 1 ∧ l.length = v.cap ∧ v'.cap = v.cap + v.cap / 2 + 1) := by
  have hsz := i.size
  have hle := i.le
  have hM := bound_M ha
  have hnc : v.cap < 2 ^ 62 → nextCapacity v.cap 1 = v.cap + v.cap / 2 + 1 := by
    intro hx
    unfold nextCapacity
    rw [Nat.mod_eq_of_lt (by omega : v.cap + v.cap / 2 + 1 < 2 ^ 64), Nat.mod_eq_of_lt (by omega : v.cap + 1 < 2 ^ 64)]
    dsimp only
    rw [if_neg (by omega)]
  unfold growBy at e
  rw [assert_ok (show 1 ≤ maxCount - v.sz by unfold maxCount; omega), ok_bind, if_neg (by rw [hf]; simp)] at e
  by_cases hp : v.ptr = .null
  · have hpl := i.place
    unfold Place at hpl
    rw [hp] at hpl
    have hcap := hpl.1
    rw [if_pos hp, assert_ok (by omega), ok_bind, assert_ok hcap, ok_bind] at e
    unfold create malloc at e
    rw [if_neg (by rw [hf]; simp), if_pos (hg _)] at e
    dsimp only at e
    rw [assert_ok (by unfold maxCount; omega), ok_bind, ok_bind] at e
    injection e with e
    injection e with e1 e2
    injection e2 with e2 e3
    subst e1 e2
    exact Or.inr ⟨rfl, by omega, by show 1 = _; omega⟩
  · rw [if_neg hp] at e
    by_cases hfit : v.sz + 1 ≤ v.cap
    · rw [if_pos hfit] at e
      injection e with e
      injection e with e1 e2
      injection e2 with e2 e3
      subst e1 e2
      exact Or.inl ⟨rfl, rfl⟩
    · rw [if_neg hfit] at e
      have hn := hnc (by omega)
      by_cases htr : (c.triv && !v.sbo) = true
      · rw [if_pos htr] at e
        have hpl := i.place
        have hlv := i.live
        have htr' : c.triv = true ∧ v.sbo = false := by simpa using htr
        unfold Place at hpl
        unfold blocks at hlv
        cases hptr : v.ptr with
        | null => exact absurd hptr hp
        | sbo =>
          rw [hptr] at hpl
          rw [htr'.2] at hpl
          exact absurd hpl.1 (by simp)
        | heap id =>
          rw [hptr] at hlv
          have hmem : id ∈ h.live := hlv.mem_iff.mpr (by simp)
          unfold realloc at e
          rw [hptr] at e
          dsimp only at e
          rw [if_pos (by simp [hmem]), if_pos (hg _), ok_bind] at e
          dsimp only at e
          rw [assert_ok (by rw [hn]; unfold maxCount; omega), ok_bind] at e
          injection e with e
          injection e with e1 e2
          injection e2 with e2 e3
          subst e1 e2
          exact Or.inr ⟨rfl, by omega, hn⟩
      · rw [if_neg htr] at e
        obtain ⟨h2, v2, ok2, g1, g2⟩ := growMove_ok ha i hf hp (cap := nextCapacity v.cap 1) (by omega) (by omega) (amount := 1) (by omega) (by omega)
        unfold growMove malloc at e
        rw [if_pos (hg _)] at e
        dsimp only at e
        obtain ⟨new, old, r1, r2, r3, r4, r5⟩ := relocate_ok c v.sz 0 (.fresh (room c (nextCapacity v.cap 1))) v.mem (by
          rw [room_eq ha (by omega)]
          show 0 + v.sz ≤ nextCapacity v.cap 1
          omega) (by have := i.len; omega) (fun k _ hk => i.has.exists_obj (by omega)) (fun _ k _ _ => rfl)
        rw [r1, ok_bind] at e
        dsimp only at e
        rw [leave_ok (fun hc k _ => by
          rw [r5]
          by_cases hk : k < v.sz
          · rw [if_pos ⟨hc, by omega, by omega⟩]
          · rw [if_neg (by omega)]
            exact i.has.raw hc k (by omega)), ok_bind] at e
        have hfin : ∀ hx : Heap, hx.next = h.next + 1 → (do
            assert (decide (nextCapacity v.cap 1 ≤ maxCount))
            (Except.ok (hx, ({ v with ptr := .heap h.next, mem := new, cap := nextCapacity v.cap 1, sbo := false } : Vec α), true) : C (Heap × Vec α × Bool))) = .ok (h', v', ok) →
            h'.next = h.next + 1 ∧ v'.cap = v.cap + v.cap / 2 + 1 := by
          intro hx hxn e
          rw [assert_ok (by rw [hn]; unfold maxCount; omega), ok_bind] at e
          injection e with e
          injection e with e1 e2
          injection e2 with e2 e3
          subst e1 e2
          exact ⟨hxn, hn⟩
        by_cases hs : v.sbo = true
        · rw [if_pos hs, ok_bind] at e
          have := hfin _ rfl e
          exact Or.inr ⟨this.1, by omega, this.2⟩
        · rw [if_neg hs] at e
          cases hptr : v.ptr with
          | null => exact absurd hptr hp
          | sbo =>
            rw [hptr] at e
            exact absurd e nofun
          | heap id =>
            rw [hptr] at e
            unfold free at e
            dsimp only at e
            by_cases hcn : (h.next :: h.live).contains id = true
            · rw [if_pos hcn, ok_bind] at e
              have := hfin _ rfl e
              exact Or.inr ⟨this.1, by omega, this.2⟩
            · rw [if_neg hcn] at e
              exact absurd e nofun

end Tm.Vec
