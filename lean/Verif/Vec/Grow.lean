import Verif.Vec.Loops

/-! # The invariant of a vector, and growth -/

namespace Tm.Vec

open Tm

variable {α : Type}

/-- The objects in the storage are exactly these elements. -/
structure Has (c : Cfg) (m : Mem α) (l : List (Option α)) : Prop where
  obj : ∀ i x, l[i]? = some x → m.cell i = .obj x
  raw : c.triv = false → ∀ i, l.length ≤ i → m.cell i = .raw

/-- Where the storage is. -/
def Place (c : Cfg) (v : Vec α) : Prop :=
  match v.ptr with
  | .null => v.cap = 0 ∧ v.sbo = false
  | .sbo => v.sbo = true ∧ 0 < c.n ∧ v.cap = c.n
  | .heap _ => v.sbo = false ∧ c.fixed = false

/-- The blocks of the heap that belong to the vector. -/
def blocks (v : Vec α) : List Nat :=
  match v.ptr with
  | .heap id => [id]
  | _ => []

structure Inv (c : Cfg) (M : Nat) (rest : List Nat) (h : Heap) (v : Vec α) (l : List (Option α)) : Prop where
  size : v.sz = l.length
  has : Has c v.mem l
  le : l.length ≤ v.cap
  len : v.cap ≤ v.mem.len
  bound : v.cap ≤ max c.n (2 * M)
  place : Place c v
  heap : h.Ok
  live : h.live.Perm (blocks v ++ rest)

theorem Has.object {c : Cfg} {m : Mem α} {l : List (Option α)} (h : Has c m l) {i : Nat} (hi : i < l.length) : m.cell i = .obj (l[i]'hi) :=
  h.obj i _ (List.getElem?_eq_getElem hi)

theorem Has.exists_obj {c : Cfg} {m : Mem α} {l : List (Option α)} (h : Has c m l) {i : Nat} (hi : i < l.length) : ∃ y, m.cell i = .obj y :=
  ⟨_, h.object hi⟩

theorem assert_ok {p : Prop} [Decidable p] (h : p) : assert (decide p) = .ok () := by
  unfold assert
  rw [if_pos (decide_eq_true h)]

theorem if_do {β γ : Type} {p : Prop} [Decidable p] {a b : C β} {f : β → C γ} {y : β} (e : (if p then a else b) = .ok y) :
    (if p then a >>= f else b >>= f) = f y := by
  by_cases hp : p
  · rw [if_pos hp] at e ⊢
    rw [e, ok_bind]
  · rw [if_neg hp] at e ⊢
    rw [e, ok_bind]

theorem assert_true {b : Bool} (h : b = true) : assert b = .ok () := by subst h; rfl

theorem Inv.update {c : Cfg} {M : Nat} {rest : List Nat} {h : Heap} {v : Vec α} {l l' : List (Option α)} (i : Inv c M rest h v l) {m : Mem α} {n : Nat}
    (hm : Has c m l') (hlen : m.len = v.mem.len) (hle : l'.length ≤ v.cap) (hn : n = l'.length) : Inv c M rest h { v with mem := m, sz := n } l' :=
  ⟨hn, hm, hle, by rw [hlen]; exact i.len, i.bound, i.place, i.heap, i.live⟩

theorem Inv.ptr_ne {c : Cfg} {M : Nat} {rest : List Nat} {h : Heap} {v : Vec α} {l : List (Option α)} (i : Inv c M rest h v l) (hp : 0 < v.cap) : v.ptr ≠ .null := by
  intro e
  have := i.place
  unfold Place at this
  rw [e] at this
  have := this.1
  omega

theorem Inv.at_ok {c : Cfg} {M : Nat} {rest : List Nat} {h : Heap} {v : Vec α} {l : List (Option α)} (i : Inv c M rest h v l) {k : Nat} {x : Option α}
    (hk : l[k]? = some x) : v.at k = .ok x := by
  have hlt : k < l.length := (List.getElem?_eq_some_iff.mp hk).1
  have := i.size
  have := i.le
  have := i.len
  unfold Vec.at
  rw [assert_ok (i.ptr_ne (by omega)), ok_bind, assert_ok (by omega), ok_bind, assert_ok (by omega), ok_bind]
  exact get_ok (by omega) (i.has.obj k x hk)

theorem Inv.valid_ok {c : Cfg} {M : Nat} {rest : List Nat} {h : Heap} {v : Vec α} {l : List (Option α)} (i : Inv c M rest h v l) : valid v = .ok () := by
  unfold valid
  apply assert_true
  by_cases hp : v.ptr = .null
  · have h1 := i.place
    unfold Place at h1
    rw [hp] at h1
    have h2 := i.le
    have h3 := i.size
    have h4 := h1.1
    simp [hp, h4]
    omega
  · simp [hp]

theorem Inv.holds {c : Cfg} {M : Nat} {rest : List Nat} {h : Heap} {v : Vec α} {l : List (Option α)} (i : Inv c M rest h v l) : Holds v l :=
  ⟨i.size, fun _ _ hk => i.at_ok hk⟩

/-! ### The heap -/

theorem room_eq {c : Cfg} {M cap : Nat} (ha : Addressable c M) (hc : cap ≤ 2 * M) : room c cap = cap := by
  obtain ⟨h1, _, h3⟩ := ha
  unfold room
  have : c.esz * cap ≤ c.esz * (2 * M) := Nat.mul_le_mul_left _ hc
  rw [Nat.mod_eq_of_lt (by omega), Nat.mul_div_cancel_left _ h1]

theorem bound_M {c : Cfg} {M : Nat} (ha : Addressable c M) : 2 * M < 2 ^ 63 := by
  obtain ⟨h1, _, h3⟩ := ha
  have : 1 * (2 * M) ≤ c.esz * (2 * M) := Nat.mul_le_mul_right _ h1
  omega

/-- A new block. -/
theorem heap_push {h : Heap} (hh : h.Ok) : ({ h with next := h.next + 1, live := h.next :: h.live } : Heap).Ok :=
  ⟨List.nodup_cons.mpr ⟨fun hm => Nat.lt_irrefl _ (hh.2 _ hm), hh.1⟩, fun id hid => by
    rcases List.mem_cons.mp hid with e | e
    · subst e; exact Nat.lt_succ_self _
    · exact Nat.lt_succ_of_lt (hh.2 id e)⟩

theorem heap_skip {h : Heap} (hh : h.Ok) : ({ h with next := h.next + 1 } : Heap).Ok := ⟨hh.1, fun id hid => Nat.lt_succ_of_lt (hh.2 id hid)⟩

theorem heap_erase {h : Heap} (hh : h.Ok) (id : Nat) : ({ h with live := h.live.erase id } : Heap).Ok :=
  ⟨hh.1.erase id, fun k hk => hh.2 k (List.mem_of_mem_erase hk)⟩

theorem live_erase {h : Heap} {id : Nat} {rest : List Nat} (p : h.live.Perm (id :: rest)) : (h.live.erase id).Perm rest := by
  have := p.erase id
  rwa [List.erase_cons_head] at this

/-! ### Growth -/

/-- What growth gives: the same elements, the same oracle, and room if it says so. -/
def Grown (c : Cfg) (M : Nat) (rest : List Nat) (h : Heap) (v : Vec α) (l : List (Option α)) (amount : Nat) (r : C (Heap × Vec α × Bool)) : Prop :=
  ∃ h' v' ok, r = .ok (h', v', ok) ∧ Inv c M rest h' v' l ∧ h'.ok = h.ok ∧ v.cap ≤ v'.cap ∧
    (ok = true → l.length + amount ≤ v'.cap ∧ (0 < amount → v'.ptr ≠ .null)) ∧ (c.fixed = false → (∀ k, h.ok k = true) → ok = true) ∧
    (0 < v.cap ∨ c.fixed = true → l.length + amount ≤ v.cap → ok = true ∧ h' = h ∧ v' = v) ∧ (c.fixed = true → h' = h ∧ v' = v)

theorem growMove_ok {c : Cfg} {M : Nat} {rest : List Nat} {h : Heap} {v : Vec α} {l : List (Option α)} (ha : Addressable c M) (i : Inv c M rest h v l)
    (hf : c.fixed = false) (hp : v.ptr ≠ .null) {cap : Nat} (h1 : v.cap ≤ cap) (h2 : cap ≤ 2 * M) {amount : Nat} (h3 : l.length + amount ≤ cap)
    (h4 : ¬ l.length + amount ≤ v.cap) : Grown c M rest h v l amount (growMove c h v cap) := by
  have hsz := i.size
  have hle := i.le
  have hlen := i.len
  have hM := bound_M ha
  unfold growMove malloc
  by_cases hok : h.ok h.next = true
  · rw [if_pos hok]
    dsimp only
    obtain ⟨new, old, e1, e2, e3, e4, e5⟩ := relocate_ok c v.sz 0 (.fresh (room c cap)) v.mem (by
      rw [room_eq ha h2]
      show 0 + v.sz ≤ cap
      omega) (by omega) (fun k _ hk => i.has.exists_obj (by omega)) (fun _ k _ _ => rfl)
    rw [e1, ok_bind]
    dsimp only
    rw [leave_ok (fun hc k _ => by
      rw [e5]
      by_cases hk : k < v.sz
      · rw [if_pos ⟨hc, by omega, by omega⟩]
      · rw [if_neg (by omega)]
        exact i.has.raw hc k (by omega)), ok_bind]
    have hfree : ∃ h', (if v.sbo = true then Except.ok ({ h with next := h.next + 1, live := h.next :: h.live } : Heap)
        else free ({ h with next := h.next + 1, live := h.next :: h.live } : Heap) v.ptr) = .ok h' ∧ h'.ok = h.ok ∧ h'.Ok ∧
        h'.live.Perm (h.next :: rest) := by
      have hpl := i.place
      have hlv := i.live
      unfold Place at hpl
      unfold blocks at hlv
      cases hptr : v.ptr with
      | null => exact absurd hptr hp
      | sbo =>
        rw [hptr] at hpl hlv
        rw [hpl.1, if_pos rfl]
        exact ⟨_, rfl, rfl, heap_push i.heap, hlv.cons _⟩
      | heap id =>
        rw [hptr] at hpl hlv
        rw [hpl.1, if_neg (by simp)]
        have hmem : id ∈ h.live := hlv.mem_iff.mpr (by simp)
        have hne : h.next ≠ id := fun e => Nat.lt_irrefl _ (e ▸ i.heap.2 id hmem)
        unfold free
        dsimp only
        rw [if_pos (by simp [hmem])]
        refine ⟨_, rfl, rfl, heap_erase (heap_push i.heap) id, ?_⟩
        show ((h.next :: h.live).erase id).Perm _
        rw [List.erase_cons_tail (by simpa using hne)]
        exact (live_erase hlv).cons _
    obtain ⟨h', f1, f2, f3, f4⟩ := hfree
    rw [if_do f1, assert_ok (show cap ≤ maxCount by unfold maxCount; omega), ok_bind]
    refine ⟨_, _, _, rfl, ⟨hsz, ⟨fun k x hk => ?_, fun hc k hk => ?_⟩, by show _ ≤ cap; omega, ?_, by show cap ≤ _; omega, ?_, f3, f4⟩, f2, h1, fun _ => ⟨h3, nofun⟩,
      fun _ _ => rfl, fun _ hx => absurd hx h4, fun h0 => absurd h0 (by rw [hf]; simp)⟩
    · have hlt : k < l.length := (List.getElem?_eq_some_iff.mp hk).1
      show new.cell k = _
      rw [e4, if_pos (by omega)]
      exact i.has.obj k x hk
    · show new.cell k = _
      rw [e4, if_neg (by omega)]
      rfl
    · show cap ≤ new.len
      rw [e2]
      show cap ≤ room c cap
      rw [room_eq ha h2]
    · exact ⟨rfl, hf⟩
  · rw [if_neg hok]
    exact ⟨_, _, _, rfl, ⟨i.size, i.has, i.le, i.len, i.bound, i.place, heap_skip i.heap, i.live⟩, rfl, Nat.le_refl _, nofun,
      fun _ hall => absurd (hall _) hok, fun _ hx => absurd hx h4, fun h0 => absurd h0 (by rw [hf]; simp)⟩

theorem nextCapacity_le {M old atLeast : Nat} (hM : 2 * M < 2 ^ 63) (h1 : old + 1 ≤ M) (h2 : old + atLeast ≤ 2 * M) :
    nextCapacity old atLeast ≤ 2 * M ∧ old + atLeast ≤ nextCapacity old atLeast := by
  unfold nextCapacity
  rw [Nat.mod_eq_of_lt (by omega : old + old / 2 + 1 < 2 ^ 64), Nat.mod_eq_of_lt (by omega : old + atLeast < 2 ^ 64)]
  dsimp only
  split <;> omega

theorem create_ok {c : Cfg} {M : Nat} {rest : List Nat} {h : Heap} (ha : Addressable c M) (hh : h.Ok) (hl : h.live.Perm rest) {cap : Nat} (hc : cap ≤ 2 * M) :
    ∃ h' w, create (α := α) c h cap = .ok (h', w) ∧ Inv c M rest h' w [] ∧ h'.ok = h.ok ∧
      (c.fixed = false → (∀ k, h.ok k = true) → w.ptr ≠ .null) ∧ (w.ptr ≠ .null → w.cap = cap ∧ ∃ id, w.ptr = .heap id ∧ id ∉ rest) ∧
      (w.ptr = .null → w = .none) ∧ (w.ptr ≠ .null → c.fixed = false) := by
  have hM := bound_M ha
  unfold create
  by_cases hf : c.fixed = true
  · rw [if_pos hf]
    exact ⟨_, _, rfl, ⟨rfl, ⟨nofun, fun _ _ _ => rfl⟩, Nat.le_refl _, Nat.le_refl _, Nat.zero_le _, ⟨rfl, rfl⟩, hh, hl⟩, rfl,
      fun h0 => absurd hf (by rw [h0]; simp), fun h0 => absurd rfl h0, fun _ => rfl, fun h0 => absurd rfl h0⟩
  · have hf' : c.fixed = false := by simpa using hf
    rw [if_neg hf]
    unfold malloc
    by_cases hok : h.ok h.next = true
    · rw [if_pos hok]
      dsimp only
      rw [assert_ok (show cap ≤ maxCount by unfold maxCount; omega), ok_bind]
      refine ⟨_, _, rfl, ⟨rfl, ⟨nofun, fun _ _ _ => rfl⟩, Nat.zero_le _, ?_, by show cap ≤ _; omega, ⟨rfl, hf'⟩, heap_push hh, hl.cons _⟩, rfl, nofun,
        fun _ => ⟨rfl, _, rfl, fun hm => Nat.lt_irrefl _ (hh.2 _ (hl.mem_iff.mpr hm))⟩, nofun, fun _ => hf'⟩
      show cap ≤ room c cap
      rw [room_eq ha hc]
    · rw [if_neg hok]
      exact ⟨_, _, rfl, ⟨rfl, ⟨nofun, fun _ _ _ => rfl⟩, Nat.le_refl _, Nat.le_refl _, Nat.zero_le _, ⟨rfl, rfl⟩, heap_skip hh, hl⟩, rfl,
        fun _ hall => absurd (hall _) hok, fun h0 => absurd rfl h0, fun _ => rfl, fun h0 => absurd rfl h0⟩

theorem growBy_ok {c : Cfg} {M : Nat} {rest : List Nat} {h : Heap} {v : Vec α} {l : List (Option α)} (ha : Addressable c M) (i : Inv c M rest h v l)
    {amount : Nat} (hb : l.length + amount ≤ M) (hb2 : v.cap + amount ≤ 2 * M ∨ l.length + amount ≤ v.cap) : Grown c M rest h v l amount (growBy c h v amount) := by
  have hsz := i.size
  have hle := i.le
  have hM := bound_M ha
  unfold growBy
  rw [assert_ok (show amount ≤ maxCount - v.sz by unfold maxCount; omega), ok_bind]
  by_cases hf : c.fixed = true
  · rw [if_pos hf]
    refine ⟨_, _, _, rfl, i, rfl, Nat.le_refl _, fun hd => ?_, fun h0 => absurd hf (by rw [h0]; simp), fun _ hx => ⟨by rw [hsz]; exact decide_eq_true hx, rfl, rfl⟩, fun _ => ⟨rfl, rfl⟩⟩
    have := of_decide_eq_true hd
    exact ⟨by omega, fun hp => i.ptr_ne (by omega)⟩
  · have hf' : c.fixed = false := by simpa using hf
    rw [if_neg hf]
    by_cases hp : v.ptr = .null
    · have hpl := i.place
      unfold Place at hpl
      rw [hp] at hpl
      have hcap := hpl.1
      have hl0 : l = [] := List.length_eq_zero_iff.mp (by omega)
      subst hl0
      rw [if_pos hp, assert_ok (by rw [hsz]; rfl), ok_bind, assert_ok hcap, ok_bind]
      have hlv := i.live
      unfold blocks at hlv
      rw [hp] at hlv
      obtain ⟨h', w, e1, e2, e3, e4, e5, e6, e7⟩ := create_ok (α := α) (cap := amount) ha i.heap hlv (by rw [List.length_nil] at hb; omega)
      rw [e1, ok_bind]
      refine ⟨_, _, _, rfl, e2, e3, by omega, fun hd => ?_, fun h0 hall => decide_eq_true (e4 h0 hall), fun hx => ?_, fun h0 => absurd h0 hf⟩
      · have := (e5 (of_decide_eq_true hd)).1
        exact ⟨by rw [List.length_nil]; omega, fun _ => of_decide_eq_true hd⟩
      · rcases hx with hx | hx
        · omega
        · exact absurd hx hf
    · rw [if_neg hp]
      by_cases hfit : v.sz + amount ≤ v.cap
      · rw [if_pos hfit]
        exact ⟨_, _, _, rfl, i, rfl, Nat.le_refl _, fun _ => ⟨by omega, fun _ => hp⟩, fun _ _ => rfl, fun _ _ => ⟨rfl, rfl, rfl⟩, fun h0 => absurd h0 hf⟩
      · rw [if_neg hfit]
        have hb3 : v.cap + amount ≤ 2 * M := by omega
        have hnc := nextCapacity_le hM (show v.cap + 1 ≤ M by omega) hb3
        have hmove : ∀ h1, h1.Ok → h1.live = h.live → h1.ok = h.ok → Grown c M rest h v l amount (growMove c h1 v (nextCapacity v.cap amount)) := by
          intro h1 a1 a2 a3
          obtain ⟨h', v', ok, e1, e2, e3, e4, e5, e6, e7, e8⟩ := growMove_ok (h := h1) ha
            ⟨i.size, i.has, i.le, i.len, i.bound, i.place, a1, a2 ▸ i.live⟩ hf' hp (cap := nextCapacity v.cap amount) (by omega) (by omega) (amount := amount) (by omega) (by omega)
          exact ⟨h', v', ok, e1, e2, e3.trans a3, e4, e5, fun b1 b2 => e6 b1 (by rw [a3]; exact b2), fun _ b2 => absurd b2 (by omega), fun h0 => absurd h0 hf⟩
        by_cases htr : (c.triv && !v.sbo) = true
        · rw [if_pos htr]
          have htr' : c.triv = true ∧ v.sbo = false := by simpa using htr
          have hpl := i.place
          have hlv := i.live
          unfold Place at hpl
          unfold blocks at hlv
          cases hptr : v.ptr with
          | null => exact absurd hptr hp
          | sbo =>
            rw [hptr] at hpl
            rw [htr'.2] at hpl
            exact absurd hpl.1 (by simp)
          | heap id =>
            rw [hptr] at hpl hlv
            have hmem : id ∈ h.live := hlv.mem_iff.mpr (by simp)
            unfold realloc
            dsimp only
            rw [if_pos (by simp [hmem])]
            by_cases hok : h.ok h.next = true
            · rw [if_pos hok, ok_bind]
              dsimp only
              rw [assert_ok (show nextCapacity v.cap amount ≤ maxCount by unfold maxCount; omega), ok_bind]
              have hlen := i.len
              refine ⟨_, _, _, rfl, ⟨hsz, ⟨fun k x hk => ?_, fun hc => absurd hc (by rw [htr'.1]; simp)⟩, by show _ ≤ nextCapacity _ _; omega, ?_,
                by show nextCapacity _ _ ≤ _; omega, ⟨rfl, hf'⟩, ?_, ?_⟩, rfl, by show _ ≤ nextCapacity _ _; omega,
                fun _ => ⟨by show _ ≤ nextCapacity _ _; omega, nofun⟩, fun _ _ => rfl, fun _ hx => absurd hx (by omega), fun h0 => absurd h0 hf⟩
              · have hlt : k < l.length := (List.getElem?_eq_some_iff.mp hk).1
                show (if k < v.mem.len then v.mem.cell k else .raw) = _
                rw [if_pos (by omega)]
                exact i.has.obj k x hk
              · show nextCapacity _ _ ≤ room c _
                rw [room_eq ha hnc.1]
              · refine ⟨List.nodup_cons.mpr ⟨fun hm => Nat.lt_irrefl _ (i.heap.2 _ (List.mem_of_mem_erase hm)), i.heap.1.erase _⟩, fun k hk => ?_⟩
                rcases List.mem_cons.mp hk with e | e
                · subst e; exact Nat.lt_succ_self _
                · exact Nat.lt_succ_of_lt (i.heap.2 k (List.mem_of_mem_erase e))
              · exact (live_erase hlv).cons _
            · rw [if_neg hok, ok_bind]
              exact hmove _ (heap_skip i.heap) rfl rfl
        · rw [if_neg htr]
          exact hmove h i.heap rfl rfl

end Tm.Vec
