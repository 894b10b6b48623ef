import Verif.Vec.Two
import Mathlib.Tactic.Ring

/-! # What a small vector does -/

namespace Tm.Vec

open Tm

variable {α : Type}

/-- A vector with a small buffer of two elements that are not trivial. -/
def small : Cfg := ⟨false, 8, 2, false⟩

/-- A vector of trivial elements without a small buffer. -/
def plain : Cfg := ⟨true, 8, 0, false⟩

/-- A vector without an allocator. -/
def static2 : Cfg := ⟨false, 8, 2, true⟩

/-- A heap that grants everything. -/
def rich : Heap := ⟨0, [], fun _ => true⟩

/-- A heap that grants nothing. -/
def poor : Heap := ⟨0, [], fun _ => false⟩

theorem rich_ok : rich.Ok := ⟨List.nodup_nil, nofun⟩

/-- The cases that the examples use: a vector that has outgrown its small buffer, whose second element was added by copying the first one. -/
theorem example_reached : ∃ h v, Reached (α := Nat) small 100 rich h v [some 7, some 7, some 9] ∧ v.sbo = false ∧ v.cap = 4 := by
  refine ⟨_, _, Reached.step (op := .emplaceBack (some 9)) (ok := true) (Reached.step (op := .pushBack (.own 0)) (ok := true)
    (Reached.step (op := .pushBack (.ext (some 7))) (ok := true) (Reached.make rfl) (show True ∧ 0 + 1 ≤ 100 from ⟨trivial, by decide⟩) rfl)
    (show 0 < 1 ∧ 1 + 1 ≤ 100 from ⟨by decide, by decide⟩) rfl) (show 2 + 1 ≤ 100 by decide) rfl, ?_, ?_⟩
  · rfl
  · rfl

theorem example_addressable : Addressable small 100 := ⟨by decide, by decide, by decide⟩

/-! ### C96: a vector is a list -/

theorem C96_no_fault {c : Cfg} {M : Nat} {h0 h : Heap} {v : Vec α} {l : List (Option α)} {op : Op α} (ha : Addressable c M) (hh : h0.Ok)
    (r : Reached c M h0 h v l) (hs : Sensible M l op) : ∃ h' v' ok, exec c h v op = .ok (h', v', ok) := by
  obtain ⟨h', v', ok, e, _⟩ := exec_ok ha (reached_inv ha hh r) hs
  exact ⟨h', v', ok, e⟩

theorem C96_elements {c : Cfg} {M : Nat} {h0 h : Heap} {v : Vec α} {l : List (Option α)} (ha : Addressable c M) (hh : h0.Ok)
    (r : Reached c M h0 h v l) : Holds v l := (reached_inv ha hh r).holds

example : ∃ h v, Reached (α := Nat) small 100 rich h v [some 7, some 7, some 9] ∧ Holds v [some 7, some 7, some 9] ∧
    Sensible 100 [some 7, some 7, some 9] (.insertN 1 2 (.own 2)) := by
  obtain ⟨h, v, r, _⟩ := example_reached
  exact ⟨h, v, r, C96_elements example_addressable rich_ok r, show 1 ≤ 3 ∧ 1 ≤ 2 ∧ 2 < 3 ∧ 3 + 2 ≤ 100 from ⟨by decide, by decide, by decide, by decide⟩⟩

/-! ### C97: when an operation succeeds -/

theorem C97_memory {c : Cfg} {M : Nat} {h0 h : Heap} {v : Vec α} {l : List (Option α)} {op : Op α} (ha : Addressable c M) (hh : h0.Ok)
    (r : Reached c M h0 h v l) (hs : Sensible M l op) (hf : c.fixed = false) (hg : ∀ k, h.ok k = true) {h' : Heap} {v' : Vec α} {ok : Bool}
    (e : exec c h v op = .ok (h', v', ok)) : ok = true ∧ Holds v' (apply c.triv l op) := by
  obtain ⟨h1, v1, ok1, e1, e2, _, e4, _⟩ := exec_ok ha (reached_inv ha hh r) hs
  rw [e] at e1
  injection e1 with e1
  injection e1 with a1 a2
  injection a2 with a2 a3
  subst a1 a2 a3
  have := e4 hf hg
  subst this
  exact ⟨rfl, e2.holds⟩

theorem C97_room {c : Cfg} {M : Nat} {h0 h : Heap} {v : Vec α} {l : List (Option α)} {op : Op α} (ha : Addressable c M) (hh : h0.Ok)
    (r : Reached c M h0 h v l) (hs : Sensible M l op) (hd : demand c.triv l op ≤ v.cap) {h' : Heap} {v' : Vec α} {ok : Bool}
    (e : exec c h v op = .ok (h', v', ok)) : ok = true ∧ h' = h ∧ v'.ptr = v.ptr ∧ v'.cap = v.cap ∧ Holds v' (apply c.triv l op) := by
  obtain ⟨h1, v1, ok1, e1, e2, _, _, e5, _⟩ := exec_ok ha (reached_inv ha hh r) hs
  rw [e] at e1
  injection e1 with e1
  injection e1 with a1 a2
  injection a2 with a2 a3
  subst a1 a2 a3
  obtain ⟨b1, b2, b3, b4⟩ := e5 hd
  subst b1
  exact ⟨rfl, b2, b3, b4, e2.holds⟩

example : demand (α := Nat) false [some 7, some 7, some 9] (.insertMove 0 (.own 1)) = 4 := rfl

/-! ### C98: vectors without an allocator -/

theorem C98_static {c : Cfg} {M : Nat} {h0 h : Heap} {v : Vec α} {l : List (Option α)} {op : Op α} (ha : Addressable c M) (hh : h0.Ok)
    (r : Reached c M h0 h v l) (hs : Sensible M l op) (hf : c.fixed = true) (hr : ¬ op.IsReserve) {h' : Heap} {v' : Vec α} {ok : Bool}
    (e : exec c h v op = .ok (h', v', ok)) : ok = true ↔ (apply c.triv l op).length ≤ v.cap := by
  obtain ⟨h1, v1, ok1, e1, e2, _, _, e5, e6⟩ := exec_ok ha (reached_inv ha hh r) hs
  rw [e] at e1
  injection e1 with e1
  injection e1 with a1 a2
  injection a2 with a2 a3
  subst a1 a2 a3
  have hd : demand c.triv l op = (apply c.triv l op).length := by
    cases op <;> first | rfl | exact absurd trivial hr
  rw [hd] at e5
  refine ⟨fun ht => ?_, fun hl => (e5 hl).1⟩
  subst ht
  have := (e6 hf rfl).2
  have := e2.le
  simp only [if_pos] at this
  omega

example : ∃ h v, Reached (α := Nat) static2 100 rich h v [some 7] := by
  exact ⟨_, _, Reached.step (op := .pushBack (.ext (some 7))) (ok := true) (Reached.make rfl) (show True ∧ 0 + 1 ≤ 100 from ⟨trivial, by decide⟩) rfl⟩

/-! ### C99: destruction -/

theorem C99_released {c : Cfg} {M : Nat} {h0 h : Heap} {v : Vec α} {l : List (Option α)} (ha : Addressable c M) (hh : h0.Ok)
    (r : Reached c M h0 h v l) : ∃ h' w, destroy c h v = .ok (h', w) ∧ h'.live.Perm h0.live ∧ (c.triv = false → ∀ k, w.mem.cell k = .raw) := by
  obtain ⟨h', w, e1, _, _, e4, _, e6⟩ := destroy_ok (reached_inv ha hh r)
  exact ⟨h', w, e1, e4, fun hc k => e6 k hc⟩

/-- The block of the vector in the examples exists before, and not after. -/
example : ∃ h v h' w, Reached (α := Nat) small 100 rich h v [some 7, some 7, some 9] ∧ v.sbo = false ∧ destroy small h v = .ok (h', w) ∧ h'.live.Perm [] := by
  obtain ⟨h, v, r, e, _⟩ := example_reached
  obtain ⟨h', w, e1, e2, _⟩ := C99_released example_addressable rich_ok r
  exact ⟨h, v, h', w, r, e, e1, e2⟩

/-! ### C100: no memory -/

theorem C100_kept_partial {c : Cfg} {M : Nat} {h0 h : Heap} {v : Vec α} {l : List (Option α)} {op : Op α} (ha : Addressable c M) (hh : h0.Ok)
    (r : Reached c M h0 h v l) (hs : Sensible M l op) (hk : op.Keeps) {h' : Heap} {v' : Vec α} (e : exec c h v op = .ok (h', v', false)) : Holds v' l := by
  obtain ⟨h1, v1, ok1, e1, e2, _⟩ := exec_ok ha (reached_inv ha hh r) hs
  rw [e] at e1
  injection e1 with e1
  injection e1 with a1 a2
  injection a2 with a2 a3
  subst a1 a2 a3
  have hfl : failed c.triv l op = l := by
    cases op with
    | pushBackMove s => cases s with
      | ext x => rfl
      | own k => exact absurd hk id
    | insertMove p s => cases s with
      | ext x => rfl
      | own k => exact absurd hk id
    | assignN n s => exact absurd hk id
    | assignRange r => exact absurd hk id
    | _ => rfl
  rw [hfl, if_neg (by simp)] at e2
  exact e2.holds

/-- The vector `[1]`, without memory for more, after an attempt to add its own element by moving it: the value is gone. -/
theorem C100_not_moved : ∃ (h : Heap) (v : Vec Nat) (h' : Heap) (v' : Vec Nat), Reached ⟨false, 8, 1, false⟩ 100 poor h v [some 1] ∧
    Sensible 100 [some 1] (Op.pushBackMove (α := Nat) (.own 0)) ∧
    exec ⟨false, 8, 1, false⟩ h v (.pushBackMove (.own 0)) = .ok (h', v', false) ∧ v'.at 0 = .ok none := by
  refine ⟨_, _, _, _, Reached.step (op := .pushBack (.ext (some 1))) (ok := true) (Reached.make rfl) (show True ∧ 0 + 1 ≤ 100 from ⟨trivial, by decide⟩) rfl,
    (show 0 < 1 ∧ 1 + 1 ≤ 100 from ⟨by decide, by decide⟩), rfl, rfl⟩

example : ∃ (h : Heap) (v : Vec Nat) (h' : Heap) (v' : Vec Nat), Reached ⟨false, 8, 1, false⟩ 100 poor h v [some 1] ∧
    exec ⟨false, 8, 1, false⟩ h v (.pushBack (.own 0)) = .ok (h', v', false) := by
  exact ⟨_, _, _, _, Reached.step (op := .pushBack (.ext (some 1))) (ok := true) (Reached.make rfl) (show True ∧ 0 + 1 ≤ 100 from ⟨trivial, by decide⟩) rfl, rfl⟩

/-! ### C101: reserve -/

theorem C101_full_partial {c : Cfg} {M : Nat} {h0 h : Heap} {v : Vec α} {l : List (Option α)} {count : Nat} (ha : Addressable c M) (hh : h0.Ok)
    (r : Reached c M h0 h v l) (hs : count ≤ M) (hfull : v.size = v.cap) {h' : Heap} {v' : Vec α} (e : reserve c h v count = .ok (h', v', true)) :
    count ≤ v'.cap ∧ Holds v' l := by
  have i := reached_inv ha hh r
  have hsz := i.size
  have hle := i.le
  unfold Vec.size at hfull
  unfold reserve at e
  by_cases hc : v.cap ≥ count
  · rw [if_pos hc] at e
    injection e with e
    injection e with e1 e2
    injection e2 with e2 e3
    subst e1 e2
    exact ⟨hc, i.holds⟩
  · rw [if_neg hc] at e
    obtain ⟨h1, v1, ok1, e1, e2, e3, e4, e5, e6, e7, e8⟩ := growBy_ok ha i (amount := count - v.cap) (by omega) (by omega)
    rw [e] at e1
    injection e1 with e1
    injection e1 with a1 a2
    injection a2 with a2 a3
    subst a1 a2 a3
    have := (e5 rfl).1
    exact ⟨by omega, e2.holds⟩

/-- A new vector with a small buffer of two elements: `reserve(4)` succeeds, and the capacity is still two. -/
theorem C101_not_reserved : ∃ (v : Vec Nat) (h' : Heap) (v' : Vec Nat), make small = .ok v ∧ reserve small rich v 4 = .ok (h', v', true) ∧ v'.cap = 2 := by
  exact ⟨_, _, _, rfl, rfl, rfl⟩

example : ∃ (h : Heap) (v : Vec Nat), Reached plain 100 rich h v [some 7] ∧ v.size = v.cap ∧ ∃ h' v', reserve plain h v 10 = .ok (h', v', true) ∧ v'.cap = 10 := by
  exact ⟨_, _, Reached.step (op := .pushBack (.ext (some 7))) (ok := true) (Reached.make rfl) (show True ∧ 0 + 1 ≤ 100 from ⟨trivial, by decide⟩) rfl, rfl, _, _, rfl, rfl⟩

/-! ### C102: the cost of adding elements -/

theorem pushAll_cost {c : Cfg} {M : Nat} {rest : List Nat} (ha : Addressable c M) (hf : c.fixed = false) (xs : List (Option α)) (h : Heap) (v : Vec α)
    (l : List (Option α)) (i : Inv c M rest h v l) (hg : ∀ k, h.ok k = true) (hM : l.length + xs.length ≤ M) (start : Nat) (hs : start ≤ h.next)
    (hk : h.next = start ∨ (2 * 3 ^ (h.next - start) ≤ 3 * 2 ^ (h.next - start) * v.cap ∧ v.cap ≤ 2 * l.length)) :
    ∃ h' v', pushAll c h v xs = .ok (h', v', true) ∧ Inv c M rest h' v' (l ++ xs) ∧ start ≤ h'.next ∧
      (h'.next = start ∨ (2 * 3 ^ (h'.next - start) ≤ 3 * 2 ^ (h'.next - start) * v'.cap ∧ v'.cap ≤ 2 * (l ++ xs).length)) := by
  induction xs generalizing h v l with
  | nil =>
    rw [List.append_nil]
    exact ⟨h, v, rfl, i, hs, hk⟩
  | cons x xs ih =>
    rw [List.length_cons] at hM
    have hone := insertAll_ok ha i (Nat.le_refl l.length) (xs := [x]) (by simp) (by rw [List.length_singleton]; omega)
    obtain ⟨h1, v1, ok, e1, e2, e3, e4, _⟩ := hone
    have hok := e4 hf hg
    subst hok
    rw [if_pos rfl, inserted_end] at e2
    have hpb : pushBack c h v (.ext x) = .ok (h1, v1, true) := by
      unfold pushBack insertOne temp
      rw [i.valid_ok, ok_bind, ok_bind, i.size]
      exact e1
    have hgrow : (h1 = h ∧ v1.cap = v.cap) ∨ (h1.next = h.next + 1 ∧ l.length = v.cap ∧ v1.cap = v.cap + v.cap / 2 + 1) := by
      obtain ⟨hx, vx, okx, g1, g2, g3, g4, g5, g6, g7, g8⟩ := growBy_ok ha i (amount := 1) (by omega) (by omega)
      have hr := growBy_one ha i hf hg (by omega) g1
      have hokx := g6 hf hg
      subst hokx
      obtain ⟨hy, vy, ry, m1, m2, m3, m4, m5, m6, m7⟩ := makeRoom_ok ha i (pos := l.length) (n := 1) (Nat.le_refl _) (Nat.le_refl _) (by omega)
      have hsame : hy = hx ∧ vy.cap = vx.cap := by
        unfold makeRoom at m1
        rw [assert_ok (by rw [i.size]), ok_bind, g1, ok_bind] at m1
        dsimp only at m1
        have hsuf : vx.sz - l.length = 0 := by rw [g2.size, Nat.sub_self]
        rw [if_neg (by simp), hsuf] at m1
        by_cases htr : c.triv = true
        · rw [if_pos htr, if_neg (by simp), ok_bind] at m1
          injection m1 with m1
          injection m1 with a1 a2
          injection a2 with a2 a3
          subst a1 a2
          exact ⟨rfl, rfl⟩
        · rw [if_neg htr, if_neg (by simp)] at m1
          injection m1 with m1
          injection m1 with a1 a2
          injection a2 with a2 a3
          subst a1 a2
          exact ⟨rfl, rfl⟩
      have hfin : h1 = hy ∧ v1.cap = vy.cap := by
        unfold insertAll at e1
        rw [List.length_singleton, m1, ok_bind] at e1
        dsimp only at e1
        cases ry with
        | none => exact absurd rfl (m3 hf hg)
        | some p =>
          obtain ⟨fi, fu⟩ := p
          obtain ⟨hfi, w, m, hw, hcap, hv', g⟩ := m7 fi fu rfl
          subst hfi
          have := hw.len
          obtain ⟨m', f1, f2, f3⟩ := putAll_ok (xs := [x]) hw.has (Nat.le_refl _) (by rw [g.len, List.length_singleton]; omega) g
          dsimp only at e1
          rw [hv'] at e1
          dsimp only at e1
          rw [f1, ok_bind] at e1
          injection e1 with e1
          injection e1 with a1 a2
          injection a2 with a2 a3
          subst a1 a2
          exact ⟨rfl, by rw [hv']⟩
      rw [hfin.1, hfin.2, hsame.1, hsame.2]
      exact hr
    have hk1 : start ≤ h1.next ∧ (h1.next = start ∨ (2 * 3 ^ (h1.next - start) ≤ 3 * 2 ^ (h1.next - start) * v1.cap ∧ v1.cap ≤ 2 * (l ++ [x]).length)) := by
      rw [List.length_append, List.length_singleton]
      rcases hgrow with ⟨q1, q2⟩ | ⟨q1, q2, q3⟩
      · rw [q1, q2]
        refine ⟨hs, ?_⟩
        rcases hk with hk | ⟨k1, k2⟩
        · exact Or.inl hk
        · exact Or.inr ⟨k1, by omega⟩
      · refine ⟨by omega, Or.inr ⟨?_, by omega⟩⟩
        rw [q1, q3, show h.next + 1 - start = (h.next - start) + 1 from by omega, pow_succ, pow_succ]
        rcases hk with hk | ⟨k1, k2⟩
        · rw [hk, Nat.sub_self]
          omega
        · have h3 : 3 * v.cap ≤ 2 * (v.cap + v.cap / 2 + 1) := by omega
          calc 2 * (3 ^ (h.next - start) * 3) = 3 * (2 * 3 ^ (h.next - start)) := by ring
            _ ≤ 3 * (3 * 2 ^ (h.next - start) * v.cap) := Nat.mul_le_mul_left _ k1
            _ = 3 * 2 ^ (h.next - start) * (3 * v.cap) := by ring
            _ ≤ 3 * 2 ^ (h.next - start) * (2 * (v.cap + v.cap / 2 + 1)) := Nat.mul_le_mul_left _ h3
            _ = 3 * (2 ^ (h.next - start) * 2) * (v.cap + v.cap / 2 + 1) := by ring
    obtain ⟨h2, v2, f1, f2, f3, f4⟩ := ih h1 v1 (l ++ [x]) e2 (fun k => by rw [e3]; exact hg k) (by rw [List.length_append, List.length_singleton]; omega) hk1.1 hk1.2
    rw [List.append_assoc] at f2 f4
    refine ⟨h2, v2, ?_, f2, f3, f4⟩
    unfold pushAll
    rw [hpb, ok_bind]
    exact f1

theorem C102_requests {c : Cfg} {M : Nat} {h : Heap} (xs : List (Option α)) (ha : Addressable c M) (hh : h.Ok) (hf : c.fixed = false)
    (hg : ∀ k, h.ok k = true) (hM : xs.length ≤ M) :
    ∃ v h' v' k, make c = .ok v ∧ pushAll c h v xs = .ok (h', v', true) ∧ Holds v' xs ∧ h'.next = h.next + k ∧
      (k = 0 ∨ 3 ^ k ≤ 3 * 2 ^ k * xs.length) := by
  obtain ⟨v, m1, m2, m3⟩ := make_ok (α := α) ha hh
  obtain ⟨h', v', e1, e2, e3, e4⟩ := pushAll_cost ha hf xs h v [] m2 hg (by rw [List.length_nil]; omega) h.next (Nat.le_refl _) (Or.inl rfl)
  rw [List.nil_append] at e2 e4
  refine ⟨v, h', v', h'.next - h.next, m1, e1, e2.holds, by omega, ?_⟩
  rcases e4 with e4 | ⟨k1, k2⟩
  · left
    omega
  · right
    have : 2 * 3 ^ (h'.next - h.next) ≤ 2 * (3 * 2 ^ (h'.next - h.next) * xs.length) := calc
      2 * 3 ^ (h'.next - h.next) ≤ 3 * 2 ^ (h'.next - h.next) * v'.cap := k1
      _ ≤ 3 * 2 ^ (h'.next - h.next) * (2 * xs.length) := Nat.mul_le_mul_left _ k2
      _ = 2 * (3 * 2 ^ (h'.next - h.next) * xs.length) := by ring
    omega

/-- Twenty elements, seven requests. -/
example : ∃ h' v', pushAll (α := Nat) plain rich ⟨.null, .fresh 0, 0, 0, false⟩ (List.replicate 20 (some 3)) = .ok (h', v', true) ∧ h'.next = 7 := by
  exact ⟨_, _, rfl, rfl⟩

/-! ### C103: copies -/

theorem released {c : Cfg} {M : Nat} {rest : List Nat} {h : Heap} {v w : Vec α} {lv lw : List (Option α)} (b : Both c M rest h v lv w lw) :
    BothReleased c h v w rest := by
  obtain ⟨h1, v1, e1, e2, e3, e4, e5, e6⟩ := destroy_ok b.1
  obtain ⟨h2, w2, f1, f2, f3, f4, f5, f6⟩ := destroy_ok (b.2.frame e2.heap e4)
  exact ⟨h1, v1, h2, w2, e1, f1, f4⟩

/-- Two vectors with different histories, on the same heap: the second one was made after the first. -/
theorem both_reached {c : Cfg} {M : Nat} {h0 h h' : Heap} {v w : Vec α} {lv lw : List (Option α)} (ha : Addressable c M) (hh : h0.Ok)
    (r : Reached c M h0 h v lv) (q : Reached c M h h' w lw) : Both c M h0.live h' w lw v lv := by
  have i := reached_inv ha hh r
  have j := reached_inv ha i.heap q
  have j' : Inv c M (blocks v ++ h0.live) h' w lw := j.frame j.heap (j.live.trans (i.live.append_left _))
  exact Both.of j' i

theorem C103_copy {c : Cfg} {M : Nat} {h0 h : Heap} {other : Vec α} {l : List (Option α)} (ha : Addressable c M) (hh : h0.Ok)
    (r : Reached c M h0 h other l) :
    ∃ h' v, copyMake c h other = .ok (h', v) ∧ (Holds v l ∨ Holds v []) ∧
      (l.length ≤ c.n ∨ (c.fixed = false ∧ ∀ k, h.ok k = true) → Holds v l) ∧ BothReleased c h' v other h0.live := by
  obtain ⟨h', v, ok, e1, e2, e3, e4⟩ := copyMake_ok ha (reached_inv ha hh r)
  refine ⟨h', v, e1, ?_, fun hx => ?_, released e2⟩
  · cases ok with
    | true => exact Or.inl e2.1.holds
    | false => exact Or.inr e2.1.holds
  · have := e4 hx
    subst this
    exact e2.1.holds

theorem C103_assign {c : Cfg} {M : Nat} {h0 h h1 : Heap} {v other : Vec α} {lv lo : List (Option α)} (ha : Addressable c M) (hh : h0.Ok)
    (r : Reached c M h0 h other lo) (q : Reached c M h h1 v lv) (hM : lo.length ≤ M) :
    ∃ h' v', copyAssign c h1 v other = .ok (h', v') ∧ (Holds v' lo ∨ Holds v' []) ∧
      (lo.length ≤ v.cap ∨ (c.fixed = false ∧ ∀ k, h1.ok k = true) → Holds v' lo) ∧ BothReleased c h' v' other h0.live := by
  obtain ⟨h', v', ok, e1, e2, e3, e4⟩ := copyAssign_ok ha (both_reached ha hh r q) hM
  refine ⟨h', v', e1, ?_, fun hx => ?_, released e2⟩
  · cases ok with
    | true => exact Or.inl e2.1.holds
    | false => exact Or.inr e2.1.holds
  · have := e4 hx
    subst this
    exact e2.1.holds

/-! ### C104: moves -/

theorem C104_move {c : Cfg} {M : Nat} {h0 h : Heap} {other : Vec α} {l : List (Option α)} (ha : Addressable c M) (hh : h0.Ok)
    (r : Reached c M h0 h other l) :
    ∃ h' v other', moveMake c h other = .ok (h', v, other') ∧ (Holds v l ∨ Holds v []) ∧ Holds other' [] ∧
      (l.length ≤ c.n ∨ other.sbo = false ∨ (c.fixed = false ∧ ∀ k, h.ok k = true) → Holds v l) ∧
      (other.sbo = false → h' = h ∧ (v.ptr = other.ptr ∨ l = [])) ∧ BothReleased c h' v other' h0.live := by
  obtain ⟨h', v, o', ok, e1, e2, e3, e4, e5⟩ := moveMake_ok ha (reached_inv ha hh r)
  refine ⟨h', v, o', e1, ?_, e2.2.holds, fun hx => ?_, fun hx => (e5 hx).2, released e2⟩
  · cases ok with
    | true => exact Or.inl e2.1.holds
    | false => exact Or.inr e2.1.holds
  · have : ok = true := by
      rcases hx with hx | hx | hx
      · exact e4 (Or.inl hx)
      · exact (e5 hx).1
      · exact e4 (Or.inr hx)
    subst this
    exact e2.1.holds

theorem C104_assign {c : Cfg} {M : Nat} {h0 h h1 : Heap} {v other : Vec α} {lv lo : List (Option α)} (ha : Addressable c M) (hh : h0.Ok)
    (r : Reached c M h0 h other lo) (q : Reached c M h h1 v lv) (hM : lo.length ≤ M) :
    ∃ h' v' other', moveAssign c h1 v other = .ok (h', v', other') ∧ (Holds v' lo ∨ Holds v' []) ∧ Holds other' [] ∧
      (lo.length ≤ v.cap ∨ other.sbo = false ∨ (c.fixed = false ∧ ∀ k, h1.ok k = true) → Holds v' lo) ∧
      (other.sbo = false → v' = other) ∧ BothReleased c h' v' other' h0.live := by
  obtain ⟨h', v', o', ok, e1, e2, e3, e4, e5⟩ := moveAssign_ok ha (both_reached ha hh r q) (by omega)
  refine ⟨h', v', o', e1, ?_, e2.2.holds, fun hx => ?_, fun hx => (e5 hx).2, released e2⟩
  · cases ok with
    | true => exact Or.inl e2.1.holds
    | false => exact Or.inr e2.1.holds
  · have : ok = true := by
      rcases hx with hx | hx | hx
      · exact e4 (Or.inl hx)
      · exact (e5 hx).1
      · exact e4 (Or.inr hx)
    subst this
    exact e2.1.holds

/-- Two vectors on the heap, one of which has outgrown its small buffer. -/
theorem example_two : ∃ h v h' w, Reached (α := Nat) small 100 rich h v [some 7, some 7, some 9] ∧ Reached small 100 h h' w [some 5] ∧ v.sbo = false ∧ w.sbo = true := by
  obtain ⟨h, v, r, e, _⟩ := example_reached
  exact ⟨h, v, _, _, r, Reached.step (op := .pushBack (.ext (some 5))) (ok := true) (Reached.make rfl) (show True ∧ 0 + 1 ≤ 100 from ⟨trivial, by decide⟩) rfl, e, rfl⟩

/-! ### C105: exchange -/

theorem C105_swap_partial {c : Cfg} {M : Nat} {h0 h h1 : Heap} {v w : Vec α} {lv lw : List (Option α)} (ha : Addressable c M) (hh : h0.Ok)
    (r : Reached c M h0 h w lw) (q : Reached c M h h1 v lv) (hs : (v.sbo = false ∧ w.sbo = false) ∨ v.cap = w.cap) :
    ∃ v' w', swap c c h1 v w = .ok (h1, v', w', true) ∧ Holds v' lw ∧ Holds w' lv ∧ BothReleased c h1 v' w' h0.live := by
  have b := both_reached ha hh r q
  by_cases hx : v.sbo = false ∧ w.sbo = false
  · exact ⟨w, v, swap_heap ha b hx.1 hx.2, b.2.holds, b.1.holds, released b.symm⟩
  · have hc : v.cap = w.cap := hs.resolve_left hx
    obtain ⟨v', w', e1, e2, _⟩ := swap_same ha b (by
      cases hv : v.sbo with
      | true => exact Or.inl rfl
      | false => cases hw : w.sbo with
        | true => exact Or.inr rfl
        | false => exact absurd ⟨hv, hw⟩ hx) hc
    exact ⟨v', w', e1, e2.1.holds, e2.2.holds, released e2⟩

example : ∃ h v h' w, Reached (α := Nat) small 100 rich h v [some 7] ∧ Reached (α := Nat) small 100 h h' w [] ∧ v.cap = w.cap := by
  refine ⟨_, _, _, _, Reached.step (op := .pushBack (.ext (some 7))) (ok := true) (Reached.make rfl) (show True ∧ 0 + 1 ≤ 100 from ⟨trivial, by decide⟩) rfl,
    Reached.make rfl, ?_⟩
  rfl

/-- Three elements on the heap, none in the other vector with a small buffer of two elements: the third one is written behind the buffer. -/
theorem C105_not_exchanged : ∃ (h : Heap) (v : Vec Nat) (h' : Heap) (w : Vec Nat), Reached small 100 rich h v [some 1, some 2, some 3] ∧ Reached small 100 h h' w [] ∧
    swap small small h' v w = .error .oob := by
  refine ⟨_, _, _, _, Reached.step (op := .assignRange (.ext [some 1, some 2, some 3])) (ok := true) (Reached.make rfl) (show 3 ≤ 100 by decide) rfl,
    Reached.make rfl, rfl⟩

/-- Where the elements are exchanged, the capacities are too, although the buffers are not: the small buffer of two elements claims to have room for three. -/
theorem C105_not_capacity : ∃ (h : Heap) (v : Vec Nat) (h1 : Heap) (w h2 : _) (v' w' : Vec Nat), Reached small 100 rich h v [some 1] ∧ Reached small 100 h h1 w [] ∧
    v.cap = 3 ∧ v.sbo = false ∧ w.cap = 2 ∧ swap small small h1 v w = .ok (h2, v', w', true) ∧ w'.cap = 3 ∧ w'.sbo = true ∧
    exec small h2 w' (.insertRange 1 [some 8, some 9]) = .error .oob := by
  refine ⟨_, _, _, _, _, _, _, Reached.step (op := .erase 1 3) (ok := true)
    (Reached.step (op := .assignRange (.ext [some 1, some 2, some 3])) (ok := true) (Reached.make rfl) (show 3 ≤ 100 by decide) rfl)
      (show 1 ≤ 3 ∧ 3 ≤ 3 from ⟨by decide, by decide⟩) rfl, Reached.make rfl, rfl, rfl, rfl, rfl, rfl, rfl, rfl⟩

/-! ### C106: nothing to insert -/

theorem C106_trivial_partial {c : Cfg} {M : Nat} {h0 h : Heap} {v : Vec α} {l : List (Option α)} {pos : Nat} {s : Src α} (ha : Addressable c M) (hh : h0.Ok)
    (r : Reached c M h0 h v l) (hp : pos ≤ l.length) (hs : s.Exists l) (hc : 0 < v.cap) (ht : c.triv = true ∨ pos = l.length) :
    ∃ v', insertN c h v pos 0 s = .ok (h, v', true) ∧ Holds v' l := by
  have i := reached_inv ha hh r
  have hle := i.le
  have hlen := i.len
  have hsz := i.size
  have hm := i.cap_le ha
  unfold insertN
  rw [i.valid_ok, ok_bind, temp_ok i hs, ok_bind]
  have hg : growBy c h v 0 = .ok (h, v, true) := by
    unfold growBy
    rw [assert_ok (Nat.zero_le _), ok_bind]
    by_cases hf : c.fixed = true
    · rw [if_pos hf, show decide (v.sz + 0 ≤ v.cap) = true from decide_eq_true (by omega)]
    · rw [if_neg hf, if_neg (i.ptr_ne hc), if_pos (by omega)]
  unfold insertAll makeRoom
  rw [assert_ok (by omega), ok_bind, List.length_replicate, hg, ok_bind]
  dsimp only
  rw [if_neg (by simp)]
  by_cases htr : c.triv = true
  · rw [if_pos htr]
    by_cases hsf : v.sz - pos ≠ 0
    · rw [if_pos hsf]
      obtain ⟨m, e1, e2, e3⟩ := memmove_ok v.mem (pos + 0) pos (v.sz - pos) (by omega) (by omega)
      rw [e1, ok_bind]
      unfold putAll
      rw [ok_bind]
      dsimp only
      rw [List.replicate_zero, List.take_nil, List.drop_nil]
      unfold assignList constructList
      rw [ok_bind, ok_bind]
      refine ⟨_, rfl, (i.update (m := m) (n := v.sz + 0) (l' := l) ⟨fun k x hk => ?_, fun h0 => absurd htr (by rw [h0]; simp)⟩ e2 hle (by omega)).holds⟩
      rw [e3]
      split
      · rw [show k - (pos + 0) + pos = k from by omega]
        exact i.has.obj k x hk
      · exact i.has.obj k x hk
    · rw [if_neg hsf, ok_bind]
      unfold putAll
      rw [ok_bind]
      dsimp only
      rw [List.replicate_zero, List.take_nil, List.drop_nil]
      unfold assignList constructList
      rw [ok_bind, ok_bind]
      exact ⟨_, rfl, (i.update (m := v.mem) (n := v.sz + 0) (l' := l) i.has rfl hle (by omega)).holds⟩
  · have hpe : pos = l.length := ht.resolve_left htr
    rw [if_neg htr, if_neg (by omega), ok_bind]
    unfold putAll
    dsimp only
    rw [List.replicate_zero, List.take_nil, List.drop_nil]
    unfold assignList constructList
    rw [ok_bind, ok_bind]
    exact ⟨_, rfl, (i.update (m := v.mem) (n := v.sz + 0) (l' := l) i.has rfl hle (by omega)).holds⟩

example : ∃ (h : Heap) (v : Vec Nat), Reached plain 100 rich h v [some 7] ∧ 0 < v.cap ∧ plain.triv = true := by
  refine ⟨_, _, Reached.step (op := .pushBack (.ext (some 7))) (ok := true) (Reached.make rfl) (show True ∧ 0 + 1 ≤ 100 from ⟨trivial, by decide⟩) rfl, ?_, rfl⟩
  decide

/-- Every element behind the position is assigned to itself by a move. -/
theorem C106_not_kept : ∃ (h : Heap) (v : Vec Nat) (h' : Heap) (v' : Vec Nat), Reached small 100 rich h v [some 1] ∧
    insertN small h v 0 0 (.ext (some 2)) = .ok (h', v', true) ∧ v'.at 0 = .ok none := by
  refine ⟨_, _, _, _, Reached.step (op := .pushBack (.ext (some 1))) (ok := true) (Reached.make rfl) (show True ∧ 0 + 1 ≤ 100 from ⟨trivial, by decide⟩) rfl, rfl, rfl⟩

/-- `assign(0, value)` fails an assertion if the vector has no storage yet. -/
theorem C106_not_assign : ∃ v : Vec Nat, make plain = .ok v ∧ assignN plain rich v 0 (.ext (some 1)) = .error .assertion := ⟨_, rfl, rfl⟩

/-- So does the insertion of an empty range of null pointers. -/
theorem C106_not_range : ∃ v : Vec Nat, make plain = .ok v ∧ insertRange plain rich v 0 .null = .error .assertion := ⟨_, rfl, rfl⟩

/-! ### C107: elements as arguments of emplace -/

theorem C107_room_partial {c : Cfg} {M : Nat} {h0 h : Heap} {v : Vec α} {l : List (Option α)} {pos k : Nat} (ha : Addressable c M) (hh : h0.Ok)
    (r : Reached c M h0 h v l) (hp : pos ≤ l.length) (hk : k < pos) (hM : l.length + 1 ≤ M) (hc : l.length < v.cap) :
    ∃ v', emplace c h v pos (.own k) = .ok (h, v', true) ∧ Holds v' (inserted l pos [val l (.own k)]) := by
  have i := reached_inv ha hh r
  obtain ⟨h', v', rr, e1, e2, e3, e4, e5, e6, e7⟩ := makeRoom_ok ha i (pos := pos) (n := 1) hp (Nat.le_refl _) hM
  obtain ⟨a1, a2, a3, a4⟩ := e4 (by omega)
  cases rr with
  | none => exact absurd rfl a1
  | some p =>
    obtain ⟨fi, fu⟩ := p
    obtain ⟨hfi, w, m, hw, hcap, hv', g⟩ := e7 fi fu rfl
    subst hfi
    have hwl := hw.len
    unfold emplace
    rw [e1, ok_bind]
    dsimp only
    rw [if_pos a3]
    subst hv'
    have hget : get m k = .ok (val l (.own k)) := by
      refine get_ok (by rw [g.len]; omega) ?_
      rw [g.below k hk, hw.has.object (show k < l.length by omega)]
      unfold val
      dsimp only
      rw [List.getElem?_eq_getElem (show k < l.length by omega)]
      rfl
    dsimp only
    rw [hget, ok_bind]
    obtain ⟨m', f1, f2, f3⟩ := putAll_ok (xs := [val l (.own k)]) hw.has hp (by rw [g.len, List.length_singleton]; omega) g
    rw [f1, ok_bind, a2]
    have hle := inserted_length l [val l (.own k)] hp
    exact ⟨_, rfl, (hw.update f3 (f2.trans g.len) (by rw [hle]; exact hcap) hle.symm).holds⟩

/-- The vector `[1]` is full. `v.emplace_back(v[0])` reads the element after its storage is gone. -/
theorem C107_not_grown : ∃ (h : Heap) (v : Vec Nat), Reached plain 100 rich h v [some 1] ∧ emplace plain h v 1 (.own 0) = .error .invalid := by
  exact ⟨_, _, Reached.step (op := .pushBack (.ext (some 1))) (ok := true) (Reached.make rfl) (show True ∧ 0 + 1 ≤ 100 from ⟨trivial, by decide⟩) rfl, rfl⟩

/-- The vector `[1, 2]` has room. `v.emplace(v.begin(), v[1])` inserts `1` instead of `2`. -/
theorem C107_not_shifted : ∃ (h : Heap) (v : Vec Nat) (h' : Heap) (v' : Vec Nat), Reached ⟨true, 8, 4, false⟩ 100 rich h v [some 1, some 2] ∧
    emplace ⟨true, 8, 4, false⟩ h v 0 (.own 1) = .ok (h', v', true) ∧ v'.at 0 = .ok (some 1) := by
  refine ⟨_, _, _, _, Reached.step (op := .assignRange (.ext [some 1, some 2])) (ok := true) (Reached.make rfl) (show 2 ≤ 100 by decide) rfl, rfl, rfl⟩

example : ∃ (h : Heap) (v : Vec Nat), Reached small 100 rich h v [some 7, some 7, some 9] ∧ [some 7, some 7, some 9].length < v.cap := by
  obtain ⟨h, v, r, _, e⟩ := example_reached
  exact ⟨h, v, r, by rw [e]; decide⟩

/-! ### C108: requests that cannot be met -/

/-- Room for `2^61` elements of eight bytes is granted: `2^64` bytes are `0` bytes. The first element is written out of bounds. -/
theorem C108_not_refused : ∃ (v : Vec Nat) (h' : Heap) (v' : Vec Nat), make plain = .ok v ∧ reserve plain rich v (2 ^ 61) = .ok (h', v', true) ∧ v'.cap = 2 ^ 61 ∧
    pushBack plain h' v' (.ext (some 1)) = .error .oob := by
  exact ⟨_, _, _, rfl, rfl, rfl, rfl⟩

theorem C108_capacity_partial {c : Cfg} {M : Nat} {h0 h : Heap} {v : Vec α} {l : List (Option α)} (ha : Addressable c M) (hh : h0.Ok)
    (r : Reached c M h0 h v l) : v.size ≤ v.cap ∧ v.cap ≤ v.mem.len := by
  have i := reached_inv ha hh r
  have := i.size
  have := i.le
  exact ⟨by unfold Vec.size; omega, i.len⟩

example : ∃ (h : Heap) (v : Vec Nat), Reached small 100 rich h v [some 7, some 7, some 9] ∧ v.size = 3 ∧ v.cap = 4 := by
  obtain ⟨h, v, r, _, e⟩ := example_reached
  exact ⟨h, v, r, (C96_elements example_addressable rich_ok r).1, e⟩

/-! ### C109: the capacity of vectors without an allocator -/

theorem insertAll_fixed {c : Cfg} {M : Nat} {rest : List Nat} {h : Heap} {v : Vec α} {l : List (Option α)} (ha : Addressable c M) (i : Inv c M rest h v l)
    (hf : c.fixed = true) {pos : Nat} (hpos : pos ≤ l.length) {xs : List (Option α)} (hn : 1 ≤ xs.length) (hb : l.length + xs.length ≤ M)
    {h' : Heap} {v' : Vec α} {ok : Bool} (e : insertAll c h v pos xs = .ok (h', v', ok)) : v'.cap = v.cap := by
  obtain ⟨h1, v1, r, e1, _, _, _, e5, _⟩ := makeRoom_ok ha i hpos hn hb
  unfold insertAll at e
  rw [e1, ok_bind] at e
  rw [← (e5 hf).2]
  cases r with
  | none =>
    injection e with e
    injection e with _ e
    injection e with e _
    rw [e]
  | some p =>
    dsimp only at e
    cases hq : putAll c v1.mem p.1 p.2 xs with
    | error f =>
      rw [hq, error_bind] at e
      exact absurd e nofun
    | ok m =>
      rw [hq, ok_bind] at e
      injection e with e
      injection e with _ e
      injection e with e _
      rw [← e]

theorem C109_capacity_partial {c : Cfg} {M : Nat} {h0 h : Heap} {v : Vec α} {l : List (Option α)} {op : Op α} (ha : Addressable c M) (hh : h0.Ok)
    (r : Reached c M h0 h v l) (hs : Sensible M l op) (hf : c.fixed = true) (hop : ∀ n s, op ≠ .assignN n s) {h' : Heap} {v' : Vec α} {ok : Bool}
    (e : exec c h v op = .ok (h', v', ok)) : v'.cap = v.cap := by
  have i := reached_inv ha hh r
  obtain ⟨h1, v1, ok1, e1, e2, _, _, e5, e6⟩ := exec_ok ha i hs
  rw [e] at e1
  injection e1 with e1
  injection e1 with a1 a2
  injection a2 with a2 a3
  subst a1 a2 a3
  by_cases hok : ok = true
  · exact (e6 hf hok).2
  have hsz := i.size
  have hle := i.le
  by_cases hd : demand c.triv l op ≤ v.cap
  · exact (e5 hd).2.2.2
  have hone : ∀ pos s, pos ≤ l.length → s.Exists l → l.length + 1 ≤ M → insertOne c h v pos s = .ok (h', v', ok) → v'.cap = v.cap := by
    intro pos s h1 h2 h3 e
    unfold insertOne at e
    rw [i.valid_ok, ok_bind, temp_ok i h2, ok_bind] at e
    exact insertAll_fixed ha i hf h1 (by simp) (by simpa using h3) e
  have hmove : ∀ pos s, pos ≤ l.length → s.Exists l → l.length + 1 ≤ M → insertMove c h v pos s = .ok (h', v', ok) → v'.cap = v.cap := by
    intro pos s h1 h2 h3 e
    obtain ⟨m, f1, f2⟩ := tempMove_ok i h2
    unfold insertMove at e
    rw [i.valid_ok, ok_bind, f1, ok_bind] at e
    exact insertAll_fixed ha f2 hf (by rw [gone_length]; exact h1) (by simp) (by rw [gone_length]; simpa using h3) e
  have hn : ∀ pos n s, pos ≤ l.length → 1 ≤ n → s.Exists l → l.length + n ≤ M → ∀ ok', insertN c h v pos n s = .ok (h', v', ok') → v'.cap = v.cap := by
    intro pos n s h1 h2 h3 h4 ok' e
    unfold insertN at e
    rw [i.valid_ok, ok_bind, temp_ok i h3, ok_bind] at e
    exact insertAll_fixed ha i hf h1 (by simpa using h2) (by simpa using h4) e
  cases op with
  | pushBack s => exact hone _ s (by rw [hsz]) hs.1 hs.2 e
  | pushBackMove s => exact hmove _ s (by rw [hsz]) hs.1 hs.2 e
  | insert pos s => exact hone _ s hs.1 hs.2.1 hs.2.2 e
  | insertMove pos s => exact hmove _ s hs.1 hs.2.1 hs.2.2 e
  | insertN pos n s => exact hn _ _ s hs.1 hs.2.1 hs.2.2.1 hs.2.2.2 _ e
  | insertRange pos xs =>
    replace e : insertRange c h v pos (.ext xs) = .ok (h', v', ok) := e
    unfold insertRange at e
    rw [i.valid_ok, ok_bind, assert_true (b := !ownsRange v (.ext xs)) rfl, ok_bind] at e
    dsimp only at e
    rw [assert_ok (by rw [hsz]; exact hs.1), ok_bind] at e
    by_cases hx : xs.length = 0
    · rw [if_pos hx] at e
      injection e with e
      injection e with _ e
      injection e with e _
      rw [e]
    · rw [if_neg hx] at e
      exact insertAll_fixed ha i hf hs.1 (by omega) hs.2 e
  | emplace pos x =>
    replace e : emplace c h v pos (.ext x) = .ok (h', v', ok) := e
    rw [emplace_ext] at e
    exact insertAll_fixed ha i hf hs.1 (by simp) (by simpa using hs.2) e
  | emplaceBack x =>
    replace e : emplace c h v v.sz (.ext x) = .ok (h', v', ok) := e
    rw [emplace_ext] at e
    exact insertAll_fixed ha i hf (xs := [x]) (by rw [hsz]) (by simp) (show l.length + 1 ≤ M from hs) e
  | popBack => exact absurd (show l.dropLast.length ≤ v.cap by rw [List.length_dropLast]; omega) hd
  | erase first last =>
    refine absurd (show (l.take first ++ l.drop last).length ≤ v.cap by
      have := hs.1
      have := hs.2
      rw [List.length_append, List.length_take, List.length_drop]
      omega) hd
  | clear => exact absurd (Nat.zero_le v.cap) hd
  | resize count s =>
    have hd' : ¬ (l.take count ++ List.replicate (count - l.length) (val l s)).length ≤ v.cap := hd
    rw [List.length_append, List.length_take, List.length_replicate] at hd'
    replace e : resize c h v count s = .ok (h', v', ok) := e
    unfold resize at e
    rw [if_neg (by omega), if_neg (by omega)] at e
    cases hq : insertN c h v v.sz (count - v.sz) s with
    | error f =>
      rw [hq, error_bind] at e
      exact absurd e nofun
    | ok q =>
      obtain ⟨q1, q2, q3⟩ := q
      rw [hq, ok_bind] at e
      injection e with e
      injection e with p1 e
      injection e with p2 _
      subst p1 p2
      exact hn _ _ s (by omega) (by omega) hs.1 (by have := hs.2; omega) _ hq
  | reserve count =>
    have hs' : count ≤ M := hs
    have hd' : ¬ count ≤ v.cap := hd
    replace e : reserve c h v count = .ok (h', v', ok) := e
    unfold reserve at e
    rw [if_neg (by omega)] at e
    obtain ⟨h1, v1, ok1, g1, _, _, _, _, _, _, g8⟩ := growBy_ok ha i (amount := count - v.cap) (by omega) (by omega)
    rw [e] at g1
    injection g1 with g1
    injection g1 with p1 g1
    injection g1 with p2 _
    rw [p2, (g8 hf).2]
  | assignN n s => exact absurd rfl (hop n s)
  | assignRange r =>
    cases r with
    | null => exact absurd (Nat.zero_le v.cap) hd
    | own first last =>
      refine absurd (show ((l.take last).drop first).length ≤ v.cap by
        rw [List.length_drop, List.length_take]
        omega) hd
    | ext xs =>
      have hd' : ¬ xs.length ≤ v.cap := hd
      obtain ⟨d1, d2, d3, _⟩ := destroy_ok i
      have hkeep : d2.cap = v.cap := by
        unfold destroy at d3
        cases hq : destroyRange c v.sz v.mem 0 with
        | error f =>
          rw [hq, error_bind] at d3
          exact absurd d3 nofun
        | ok m =>
          rw [hq, ok_bind, if_pos (by rw [hf]; rfl)] at d3
          injection d3 with d3
          injection d3 with _ d3
          rw [← d3]
      replace e : assignRange c h v (.ext xs) = .ok (h', v', ok) := e
      unfold assignRange at e
      dsimp only at e
      rw [if_neg (by omega), if_pos (by omega), d3, ok_bind] at e
      dsimp only at e
      cases hq : create (α := α) c d1 xs.length with
      | error f =>
        rw [hq, error_bind] at e
        exact absurd e nofun
      | ok q =>
        rw [hq, ok_bind] at e
        unfold create at hq
        rw [if_pos hf] at hq
        injection hq with hq
        rw [← hq, if_pos (by rfl)] at e
        injection e with e
        injection e with _ e
        injection e with e _
        rw [← e, hkeep]

/-- A failed `assign(n, value)` leaves a vector that has no room for anything. -/
theorem C109_not_capacity : ∃ (v : Vec Nat) (h' : Heap) (v' : Vec Nat), make static2 = .ok v ∧ v.cap = 2 ∧
    exec static2 rich v (.assignN 3 (.ext (some 1))) = .ok (h', v', false) ∧ v'.cap = 0 ∧
    ∃ h2 v2, exec static2 h' v' (.pushBack (.ext (some 1))) = .ok (h2, v2, false) := by
  exact ⟨_, _, _, rfl, rfl, rfl, rfl, _, _, rfl⟩

example : ∃ h v h' v', Reached (α := Nat) static2 100 rich h v [some 7] ∧ Sensible (α := Nat) 100 [some 7] (.assignRange (.ext [some 1, some 2, some 3])) ∧
    exec static2 h v (.assignRange (.ext [some 1, some 2, some 3])) = .ok (h', v', false) := by
  refine ⟨_, _, _, _, Reached.step (op := .pushBack (.ext (some 7))) (ok := true) (Reached.make rfl) (show True ∧ 0 + 1 ≤ 100 from ⟨trivial, by decide⟩) rfl,
    (show 3 ≤ 100 by decide), rfl⟩

end Tm.Vec
