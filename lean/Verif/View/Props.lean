import Verif.View.Spec
import Mathlib.Tactic.Ring

/-! # Properties of tm_arrayview.h -/

namespace Tm.View

variable {α : Type}

theorem assert_t {b : Bool} (h : b = true) : assert b = .ok () := by rw [h]; rfl
theorem assert_f {b : Bool} (h : b = false) : assert b = .error .assertion := by rw [h]; rfl
theorem wrap_nat {x : Int} {n : Nat} (h : x = n) (hn : n < 2 ^ 64) : wrap x = n := by unfold wrap; omega
theorem rd_ok {mem : List α} {i : Nat} (h : i < mem.length) : rd mem i = .ok mem[i] := by unfold rd; rw [List.getElem?_eq_getElem h]

/-- Replace values. -/
def splice (mem : List α) (a : Nat) (new : List α) : List α := mem.take a ++ new ++ mem.drop (a + new.length)

theorem splice_length {mem : List α} {a : Nat} {new : List α} (h : a + new.length ≤ mem.length) : (splice mem a new).length = mem.length := by
  simp only [splice, List.length_append, List.length_take, List.length_drop]; omega

theorem splice_get {mem : List α} {a : Nat} {new : List α} (h : a + new.length ≤ mem.length) (i : Nat) :
    (splice mem a new)[i]? = if i < a then mem[i]? else if i < a + new.length then new[i - a]? else mem[i]? := by
  simp only [splice, List.getElem?_append, List.length_append, List.length_take, List.getElem?_take, List.getElem?_drop]
  rw [Nat.min_eq_left (by omega)]
  by_cases h1 : i < a
  · rw [if_pos (by omega), if_pos h1, if_pos h1, if_pos h1]
  · rw [if_neg h1]
    by_cases h2 : i < a + new.length
    · rw [if_pos h2, if_neg h1, if_pos h2]
    · rw [if_neg h2, if_neg h2, show a + new.length + (i - (a + new.length)) = i by omega]; split <;> rfl

theorem slice_get (mem : List α) (f n i : Nat) : (slice mem f n)[i]? = if i < n then mem[f + i]? else none := by
  simp [slice, List.getElem?_take, List.getElem?_drop]

theorem slice_length {mem : List α} {f n : Nat} (h : f + n ≤ mem.length) : (slice mem f n).length = n := by
  simp only [slice, List.length_take, List.length_drop]; omega

theorem slice_congr {mem mem' : List α} {f f' n : Nat} (h : ∀ i < n, mem[f + i]? = mem'[f' + i]?) : slice mem f n = slice mem' f' n := by
  apply List.ext_getElem?
  intro i
  rw [slice_get, slice_get]
  split
  · exact h i (by omega)
  · rfl

theorem memmove_eq {mem : List α} {dest src : Nat} {n : Nat} {m : Int} (hm : m = n) (h1 : src + n ≤ mem.length) (h2 : dest + n ≤ mem.length) :
    memmove mem dest src m = .ok (splice mem dest (slice mem src n)) := by
  subst hm
  unfold memmove splice
  rw [if_pos (by omega), slice_length h1]
  rfl

theorem memcpy_eq {mem : List α} {dest src n : Nat} (h1 : src + n ≤ mem.length) (h2 : dest + n ≤ mem.length)
    (h3 : src + n ≤ dest ∨ dest + n ≤ src) : memcpy mem dest src n = .ok (splice mem dest (slice mem src n)) := by
  unfold memcpy
  rw [if_neg (by omega)]
  exact memmove_eq rfl h1 h2

theorem memmove_inv {mem mem' : List α} {dest src : Nat} {m : Int} (h : memmove mem dest src m = .ok mem') :
    0 ≤ m ∧ src + m.toNat ≤ mem.length ∧ dest + m.toNat ≤ mem.length ∧ mem' = splice mem dest (slice mem src m.toNat) := by
  unfold memmove at h
  split at h
  · rename_i hc
    refine ⟨hc.1, hc.2.1, hc.2.2, ?_⟩
    rw [← Except.ok.inj h, splice, slice_length hc.2.1]
    rfl
  · exact nomatch h

theorem memcpy_inv {mem mem' : List α} {dest src n : Nat} (h : memcpy mem dest src n = .ok mem') :
    src + n ≤ mem.length ∧ dest + n ≤ mem.length ∧ mem' = splice mem dest (slice mem src n) := by
  unfold memcpy at h
  split at h
  · exact nomatch h
  · obtain ⟨_, h1, h2, h3⟩ := memmove_inv h
    exact ⟨by simpa using h1, by simpa using h2, by simpa using h3⟩

/-- Replacing values of a view from `a` on up to its new end. -/
theorem splice_becomes {s : St α} (hf : s.Fits) {a sz : Nat} {new : List α} (h1 : s.view.ptr ≤ a) (h2 : a ≤ s.stop)
    (h3 : a + new.length = s.view.ptr + sz) (h4 : sz ≤ s.view.cap) :
    let s' : St α := ⟨splice s.mem a new, { s.view with sz := sz }⟩
    s'.contents = s.contents.take (a - s.view.ptr) ++ new ∧ s'.Fits ∧ Keeps s s' := by
  obtain ⟨f1, f2, f3⟩ := hf
  have hl : a + new.length ≤ s.mem.length := by omega
  unfold St.stop at h2
  refine ⟨?_, ⟨by simpa [splice_length hl] using f1, h4, by simpa [splice_length hl] using f3⟩, rfl, rfl, splice_length hl, fun i hi => ?_⟩
  · apply List.ext_getElem?
    intro i
    simp only [St.contents, slice_get, List.getElem?_append, List.length_take, List.getElem?_take, splice_get hl]
    rw [slice_length (by omega), Nat.min_eq_left (by omega)]
    by_cases hi : i < a - s.view.ptr
    · rw [if_pos (by omega), if_pos (by omega), if_pos hi, if_pos hi, if_pos (by omega)]
    · rw [if_neg hi]
      by_cases hi' : i < sz
      · rw [if_pos hi', if_neg (by omega), if_pos (by omega)]; congr 1; omega
      · rw [if_neg hi', List.getElem?_eq_none (by omega)]
  · show (splice s.mem a new)[i]? = _
    rw [splice_get hl]
    split
    · rfl
    · rw [if_neg (by omega)]

/-- Only the size changes. -/
theorem resize_becomes {s : St α} (hf : s.Fits) {sz : Nat} (h4 : sz ≤ s.view.cap) :
    let s' : St α := { s with view := { s.view with sz := sz } }
    s'.contents = slice s.mem s.view.ptr sz ∧ s'.Fits ∧ Keeps s s' :=
  ⟨rfl, ⟨hf.1, h4, hf.2.2⟩, rfl, rfl, rfl, fun _ _ => rfl⟩

theorem contents_length {s : St α} (hf : s.Fits) : s.contents.length = s.view.sz := slice_length (by have := hf.1; have := hf.2.1; omega)

theorem slice_take {mem : List α} {f n m : Nat} (h : m ≤ n) : slice mem f m = (slice mem f n).take m := by
  unfold slice; rw [List.take_take, Nat.min_eq_left h]

theorem slice_drop {mem : List α} {f n k : Nat} : (slice mem f n).drop k = slice mem (f + k) (n - k) := by
  unfold slice; rw [List.drop_take, List.drop_drop]

/-! ## C159 -/

/-- A value of the view itself may be given, too. -/
theorem C159_push_back (s : St α) (hf : s.Fits) (elem : Nat) (he : elem < s.mem.length) :
    (s.view.sz < s.view.cap → Becomes s (pushBack s elem) (s.contents ++ [s.mem[elem]])) ∧
    (s.view.sz = s.view.cap → pushBack s elem = .error .assertion) := by
  obtain ⟨f1, f2, f3⟩ := id hf
  have hw : wrap ((s.view.sz : Int) + 1) = s.view.sz + 1 := wrap_nat (by omega) (by omega)
  unfold pushBack
  rw [hw]
  refine ⟨fun h => ?_, fun h => ?_⟩
  · rw [assert_t (by simp; omega), ok_bind, rd_ok he, ok_bind]
    have hws : wr s.mem (s.view.ptr + s.view.sz) s.mem[elem] = .ok (splice s.mem (s.view.ptr + s.view.sz) [s.mem[elem]]) := by
      unfold wr splice
      rw [if_pos (by omega), List.set_eq_take_append_cons_drop, if_pos (by omega)]
      simp
    rw [hws, ok_bind]
    have := splice_becomes hf (a := s.view.ptr + s.view.sz) (sz := s.view.sz + 1) (new := [s.mem[elem]]) (by omega) (by unfold St.stop; omega)
      (by simp; omega) (by omega)
    refine ⟨_, rfl, this.1.trans ?_, this.2⟩
    rw [Nat.add_sub_cancel_left, List.take_of_length_le (by rw [contents_length hf])]
  · rw [assert_f (by simp; omega)]; rfl

example : ∃ s : St Nat, s.Fits ∧ s.view.sz < s.view.cap ∧ pushBack s 2 = .ok ⟨[9, 1, 2, 2, 8], ⟨1, 3, 3⟩⟩ :=
  ⟨⟨[9, 1, 2, 7, 8], ⟨1, 2, 3⟩⟩, by unfold St.Fits; decide, by decide, by decide⟩

/-- `try_push_back` says whether there was room. -/
theorem C159_try_push_back (s : St α) (hf : s.Fits) (elem : Nat) (he : elem < s.mem.length) :
    (s.view.sz < s.view.cap → ∃ s', tryPushBack s elem = .ok (true, s') ∧ Becomes s (.ok s') (s.contents ++ [s.mem[elem]])) ∧
    (s.view.sz = s.view.cap → tryPushBack s elem = .ok (false, s)) := by
  obtain ⟨f1, f2, f3⟩ := id hf
  have hw : s.remaining = s.view.cap - s.view.sz := wrap_nat (by omega) (by omega)
  unfold tryPushBack
  rw [hw]
  refine ⟨fun h => ?_, fun h => ?_⟩
  · rw [if_neg (by omega)]
    obtain ⟨s', h1, h2⟩ := (C159_push_back s hf elem he).1 h
    rw [h1]
    exact ⟨s', rfl, s', rfl, h2⟩
  · rw [if_pos (by omega)]

example : ∃ s : St Nat, s.Fits ∧ s.view.sz = s.view.cap ∧ tryPushBack s 0 = .ok (false, s) :=
  ⟨⟨[9, 1, 2, 7, 8], ⟨1, 3, 3⟩⟩, by unfold St.Fits; decide, by decide, by decide⟩

/-- Missing: `pop_back` of an empty view. -/
theorem C159_pop_back_partial (s : St α) (hf : s.Fits) (h0 : 0 < s.view.sz) : Becomes s (popBack s) s.contents.dropLast := by
  obtain ⟨f1, f2, f3⟩ := id hf
  have hw : wrap ((s.view.sz : Int) - 1) = s.view.sz - 1 := wrap_nat (by omega) (by omega)
  have := resize_becomes hf (sz := s.view.sz - 1) (by omega)
  unfold popBack
  rw [hw]
  refine ⟨_, rfl, this.1.trans ?_, this.2⟩
  rw [List.dropLast_eq_take, contents_length hf]
  exact slice_take (by omega)

example : ∃ s : St Nat, s.Fits ∧ 0 < s.view.sz := ⟨⟨[9, 1, 2, 7, 8], ⟨1, 2, 3⟩⟩, by unfold St.Fits; decide, by decide⟩

/-- The assertion of `pop_back` does not see an empty view: its size becomes 2^64 - 1. -/
theorem C159_not_pop_back : ∃ s s' : St Nat, s.Fits ∧ s.view.sz = 0 ∧ popBack s = .ok s' ∧ s'.view.sz = 2 ^ 64 - 1 :=
  ⟨⟨[9, 1, 2, 7, 8], ⟨1, 0, 3⟩⟩, ⟨[9, 1, 2, 7, 8], ⟨1, 2 ^ 64 - 1, 3⟩⟩, by unfold St.Fits; decide, by decide, by decide, by decide⟩

theorem C159_try_pop_back (s : St α) (hf : s.Fits) :
    (0 < s.view.sz → ∃ s', tryPopBack s = .ok (true, s') ∧ Becomes s (.ok s') s.contents.dropLast) ∧
    (s.view.sz = 0 → tryPopBack s = .ok (false, s)) := by
  unfold tryPopBack
  refine ⟨fun h => ?_, fun h => by rw [if_neg (by omega)]⟩
  rw [if_pos h]
  exact ⟨_, rfl, C159_pop_back_partial s hf h⟩

example : ∃ s : St Nat, s.Fits ∧ s.view.sz = 0 ∧ tryPopBack s = .ok (false, s) :=
  ⟨⟨[9, 1, 2, 7, 8], ⟨1, 0, 3⟩⟩, by unfold St.Fits; decide, by decide, by decide⟩

/-- The values can be read. -/
theorem C159_access (s : St α) (hf : s.Fits) (i : Nat) :
    (∀ x, s.contents[i]? = some x → get s i = .ok x) ∧ (s.contents[i]? = none → get s i = .error .assertion) ∧
    (∀ x, s.contents.head? = some x → front s = .ok x) ∧ (∀ x, s.contents.getLast? = some x → back s = .ok x) ∧
    (s.contents = [] → front s = .error .assertion ∧ back s = .error .assertion) := by
  have hl := contents_length hf
  have hg : ∀ i < s.view.sz, ∀ x, s.contents[i]? = some x → rd s.mem (s.view.ptr + i) = .ok x := by
    intro i hi x hx
    rw [St.contents, slice_get, if_pos hi] at hx
    unfold rd
    rw [hx]
  refine ⟨fun x hx => ?_, fun hx => ?_, fun x hx => ?_, fun x hx => ?_, fun hx => ?_⟩
  · have hi : i < s.view.sz := by have := (List.getElem?_eq_some_iff.mp hx).1; omega
    unfold get
    rw [assert_t (by simpa using hi), ok_bind]
    exact hg i hi x hx
  · have hi : ¬ i < s.view.sz := by have := List.getElem?_eq_none_iff.mp hx; omega
    unfold get
    rw [assert_f (by simpa using hi)]; rfl
  · rw [List.head?_eq_getElem?] at hx
    have hi : 0 < s.view.sz := by have := (List.getElem?_eq_some_iff.mp hx).1; omega
    unfold front
    rw [assert_t (by simp; omega), ok_bind]
    exact hg 0 hi x hx
  · rw [List.getLast?_eq_getElem?] at hx
    have hi : 0 < s.view.sz := by have := (List.getElem?_eq_some_iff.mp hx).1; omega
    unfold back
    rw [assert_t (by simp; omega), ok_bind]
    rw [hl] at hx
    exact hg _ (by omega) x hx
  · have : s.view.sz = 0 := by rw [hx] at hl; simpa using hl.symm
    unfold front back
    rw [assert_f (by simp [this])]
    exact ⟨rfl, rfl⟩

example : back (⟨[9, 1, 2, 7, 8], ⟨1, 2, 3⟩⟩ : St Nat) = .ok 2 := by decide

/-! ## C160 -/

theorem insertLoop_eq (position : Nat) (tmp : α) : ∀ (n i : Nat) (mem : List α), position + i + n ≤ mem.length → i + n < 2 ^ 31 →
    insertLoop position tmp i mem n = .ok (splice mem (position + i) (List.replicate n tmp))
  | 0, i, mem, _, _ => by simp [insertLoop, splice]
  | n + 1, i, mem, h, hn => by
    unfold insertLoop wr
    rw [if_pos (by omega), ok_bind, if_neg (by omega), insertLoop_eq position tmp n (i + 1) _ (by rw [List.length_set]; omega) (by omega)]
    congr 1
    apply List.ext_getElem?
    intro j
    rw [splice_get (by simp; omega), splice_get (by simp; omega), List.getElem?_set]
    simp only [List.length_replicate, List.getElem?_replicate]
    rcases Nat.lt_trichotomy j (position + i) with hj | hj | hj
    · rw [if_pos (by omega), if_neg (by omega), if_pos hj]
    · subst hj
      rw [if_pos (by omega), if_pos rfl, if_pos (by omega), if_neg (by omega), if_pos (by omega), if_pos (by omega)]
    · by_cases hj' : j < position + i + (n + 1)
      · rw [if_neg (by omega), if_pos (by omega), if_pos (by omega), if_neg (by omega), if_pos hj', if_pos (by omega)]
      · rw [if_neg (by omega), if_neg (by omega), if_neg (by omega), if_neg (by omega), if_neg hj']

theorem splice_splice {mem a b : List α} {p : Nat} (h : p + a.length + b.length ≤ mem.length) :
    splice (splice mem (p + a.length) b) p a = splice mem p (a ++ b) := by
  apply List.ext_getElem?
  intro i
  rw [splice_get (by rw [splice_length (by omega)]; omega), splice_get (by omega), splice_get (by rw [List.length_append]; omega),
    List.getElem?_append, List.length_append]
  by_cases h1 : i < p
  · rw [if_pos h1, if_pos (by omega), if_pos h1]
  · rw [if_neg h1, if_neg h1]
    by_cases h2 : i < p + a.length
    · rw [if_pos h2, if_pos (by omega), if_pos (by omega)]
    · rw [if_neg h2, if_neg h2]
      by_cases h3 : i < p + a.length + b.length
      · rw [if_pos h3, if_pos (by omega), if_neg (by omega), show i - (p + a.length) = i - p - a.length by omega]
      · rw [if_neg h3, if_neg (by omega)]

/-- As many copies as there is room for are inserted. The value may be one of the view. Missing: 2^31 values or more. -/
theorem C160_insert_copies_partial (s : St α) (hf : s.Fits) (k n val : Nat) (hk : k ≤ s.view.sz) (hv : val < s.mem.length)
    (hn : n < 2 ^ 31 ∨ s.view.cap < 2 ^ 31) :
    Becomes s (insertFill s (s.view.ptr + k) n val)
      (s.contents.take k ++ List.replicate (min n (s.view.cap - s.view.sz)) s.mem[val] ++ s.contents.drop k) := by
  obtain ⟨f1, f2, f3⟩ := id hf
  have hw : s.remaining = s.view.cap - s.view.sz := wrap_nat (by omega) (by omega)
  unfold insertFill
  rw [assert_t (by simp [St.stop]; omega), ok_bind, hw]
  have hc : (if n < s.view.cap - s.view.sz then n else s.view.cap - s.view.sz) = min n (s.view.cap - s.view.sz) := by
    rw [Nat.min_def]; split <;> split <;> omega
  simp only [hc]
  generalize hcn : min n (s.view.cap - s.view.sz) = c
  have hcs : c ≤ s.view.cap - s.view.sz := by omega
  by_cases h0 : 0 < c
  · rw [if_pos h0, rd_ok hv, ok_bind, memmove_eq (n := s.view.sz - k) (by unfold St.stop; omega) (by omega) (by omega), ok_bind,
      insertLoop_eq _ _ _ _ _ (by rw [splice_length (by rw [slice_length (by omega)]; omega)]; omega) (by omega), ok_bind]
    have hs : (slice s.mem (s.view.ptr + k) (s.view.sz - k)).length = s.view.sz - k := slice_length (by omega)
    have := splice_splice (mem := s.mem) (a := List.replicate c s.mem[val]) (b := slice s.mem (s.view.ptr + k) (s.view.sz - k))
      (p := s.view.ptr + k) (by rw [hs, List.length_replicate]; omega)
    rw [List.length_replicate] at this
    rw [Nat.add_zero, this, wrap_nat (n := s.view.sz + c) (by omega) (by omega)]
    have := splice_becomes hf (a := s.view.ptr + k) (sz := s.view.sz + c)
      (new := List.replicate c s.mem[val] ++ slice s.mem (s.view.ptr + k) (s.view.sz - k)) (by omega) (by unfold St.stop; omega)
      (by rw [List.length_append, hs, List.length_replicate]; omega) (by omega)
    refine ⟨_, rfl, this.1.trans ?_, this.2⟩
    rw [Nat.add_sub_cancel_left, List.append_assoc]
    congr 2
    exact slice_drop.symm
  · rw [if_neg h0]
    have hc0 : c = 0 := by omega
    refine ⟨s, rfl, ?_, hf, rfl, rfl, rfl, fun _ _ => rfl⟩
    rw [hc0]
    simp

example : ∃ s : St Nat, s.Fits ∧ insertFill s 2 2 4 = .ok ⟨[9, 1, 3, 3, 2, 3, 8], ⟨1, 5, 5⟩⟩ :=
  ⟨⟨[9, 1, 2, 3, 3, 7, 8], ⟨1, 3, 5⟩⟩, by unfold St.Fits; decide, by decide⟩

/-- A range is inserted if there is room for it. It may be anywhere except behind the position in the view. Missing: such ranges. -/
theorem C160_insert_range_partial (s : St α) (hf : s.Fits) (k first n : Nat) (hk : k ≤ s.view.sz) (hv : first + n ≤ s.mem.length)
    (ho : first + n ≤ s.view.ptr + k ∨ s.stop + n ≤ first) :
    (s.view.sz + n ≤ s.view.cap → Becomes s (insertRange s (s.view.ptr + k) first (first + n))
      (s.contents.take k ++ slice s.mem first n ++ s.contents.drop k)) ∧
    (s.view.cap < s.view.sz + n → insertRange s (s.view.ptr + k) first (first + n) = .error .assertion) := by
  obtain ⟨f1, f2, f3⟩ := id hf
  have hw : s.remaining = s.view.cap - s.view.sz := wrap_nat (by omega) (by omega)
  unfold insertRange
  rw [assert_t (by simp), ok_bind, assert_t (by simp [St.stop]; omega), ok_bind, hw]
  simp only [Nat.add_sub_cancel_left]
  refine ⟨fun h => ?_, fun h => by rw [assert_f (by simp; omega)]; rfl⟩
  rw [assert_t (by simp; omega), ok_bind]
  by_cases h0 : 0 < n
  · unfold St.stop at ho
    have hs : (slice s.mem (s.view.ptr + k) (s.view.sz - k)).length = s.view.sz - k := slice_length (by omega)
    have hs' : (slice s.mem first n).length = n := slice_length (by omega)
    rw [if_pos (by simp; omega), memmove_eq (n := s.view.sz - k) (by unfold St.stop; omega) (by omega) (by omega), ok_bind]
    have hl : (splice s.mem (s.view.ptr + k + n) (slice s.mem (s.view.ptr + k) (s.view.sz - k))).length = s.mem.length :=
      splice_length (by rw [hs]; omega)
    rw [memcpy_eq (by rw [hl]; omega) (by rw [hl]; omega) (by omega), ok_bind]
    have hsame : slice (splice s.mem (s.view.ptr + k + n) (slice s.mem (s.view.ptr + k) (s.view.sz - k))) first n = slice s.mem first n := by
      apply slice_congr
      intro i hi
      rw [splice_get (by rw [hs]; omega), hs]
      split
      · rfl
      · rw [if_neg (by omega)]
    have := splice_splice (mem := s.mem) (a := slice s.mem first n) (b := slice s.mem (s.view.ptr + k) (s.view.sz - k))
      (p := s.view.ptr + k) (by rw [hs, hs']; omega)
    rw [hs'] at this
    rw [hsame, this, wrap_nat (n := s.view.sz + n) (by omega) (by omega)]
    have := splice_becomes hf (a := s.view.ptr + k) (sz := s.view.sz + n)
      (new := slice s.mem first n ++ slice s.mem (s.view.ptr + k) (s.view.sz - k)) (by omega) (by unfold St.stop; omega)
      (by rw [List.length_append, hs, hs']; omega) (by omega)
    refine ⟨_, rfl, this.1.trans ?_, this.2⟩
    rw [Nat.add_sub_cancel_left, List.append_assoc]
    congr 2
    exact slice_drop.symm
  · rw [if_neg (by simp; omega)]
    have h0 : n = 0 := by omega
    subst h0
    refine ⟨s, rfl, ?_, hf, rfl, rfl, rfl, fun _ _ => rfl⟩
    simp [slice]

example : ∃ s : St Nat, s.Fits ∧ insertRange s 3 1 3 = .ok ⟨[9, 1, 2, 1, 2, 3, 8], ⟨1, 5, 5⟩⟩ :=
  ⟨⟨[9, 1, 2, 3, 6, 7, 8], ⟨1, 3, 5⟩⟩, by unfold St.Fits; decide, by decide⟩

/-- Values behind the position are moved before they are copied: to insert the second value in front of the first one inserts the first
one. -/
theorem C160_not_own : ∃ s s' : St Nat, s.Fits ∧ s.view.sz + 1 ≤ s.view.cap ∧ insertRange s 1 2 3 = .ok s' ∧
    s'.contents ≠ s.contents.take 0 ++ slice s.mem 2 1 ++ s.contents.drop 0 :=
  ⟨⟨[9, 1, 2, 3, 6, 7, 8], ⟨1, 3, 5⟩⟩, ⟨[9, 1, 1, 2, 3, 7, 8], ⟨1, 4, 5⟩⟩, by unfold St.Fits; decide, by decide, by decide, by decide⟩

/-! ## C161 -/

/-- Missing: the end of the view as position. -/
theorem C161_erase_partial (s : St α) (hf : s.Fits) (k : Nat) (hk : k < s.view.sz) :
    Becomes s (erase s (s.view.ptr + k)) (s.contents.take k ++ s.contents.drop (k + 1)) := by
  obtain ⟨f1, f2, f3⟩ := id hf
  unfold erase
  rw [assert_t (by simp [St.stop]; omega), ok_bind,
    memmove_eq (n := s.view.sz - (k + 1)) (by unfold St.stop; omega) (by omega) (by omega), ok_bind,
    wrap_nat (n := s.view.sz - 1) (by omega) (by omega)]
  have hs : (slice s.mem (s.view.ptr + k + 1) (s.view.sz - (k + 1))).length = s.view.sz - (k + 1) := slice_length (by omega)
  have := splice_becomes hf (a := s.view.ptr + k) (sz := s.view.sz - 1) (new := slice s.mem (s.view.ptr + k + 1) (s.view.sz - (k + 1)))
    (by omega) (by unfold St.stop; omega) (by rw [hs]; omega) (by omega)
  refine ⟨_, rfl, this.1.trans ?_, this.2⟩
  rw [Nat.add_sub_cancel_left]
  congr 1
  rw [Nat.add_assoc]
  exact slice_drop.symm

example : ∃ s : St Nat, s.Fits ∧ 1 < s.view.sz ∧ erase s 2 = .ok ⟨[9, 1, 3, 3, 6, 7, 8], ⟨1, 2, 5⟩⟩ :=
  ⟨⟨[9, 1, 2, 3, 6, 7, 8], ⟨1, 3, 5⟩⟩, by unfold St.Fits; decide, by decide, by decide⟩

/-- The assertion of `erase` lets the end of the view pass, and "-1" values are moved. -/
theorem C161_not_end : ∃ s : St Nat, s.Fits ∧ erase s s.stop = .error .oob :=
  ⟨⟨[9, 1, 2, 3, 6, 7, 8], ⟨1, 3, 5⟩⟩, by unfold St.Fits; decide, by decide⟩

theorem C161_erase_range (s : St α) (hf : s.Fits) (i j : Nat) (hij : i ≤ j) (hj : j ≤ s.view.sz) :
    Becomes s (eraseRange s (s.view.ptr + i) (s.view.ptr + j)) (s.contents.take i ++ s.contents.drop j) := by
  obtain ⟨f1, f2, f3⟩ := id hf
  unfold eraseRange
  rw [assert_t (by simp; omega), ok_bind]
  have hl := contents_length hf
  by_cases hall : i = 0 ∧ j = s.view.sz
  · rw [if_pos (by simp [St.stop]; omega)]
    obtain ⟨rfl, rfl⟩ := hall
    have := resize_becomes hf (sz := 0) (by omega)
    refine ⟨_, rfl, this.1.trans ?_, this.2⟩
    rw [List.drop_of_length_le (by omega)]
    simp [slice]
  · rw [if_neg (by simp [St.stop]; omega)]
    by_cases hlt : i < j
    · have hs : (slice s.mem (s.view.ptr + j) (s.view.sz - j)).length = s.view.sz - j := slice_length (by omega)
      rw [if_pos (by omega), assert_t (by simp [St.stop]; omega), ok_bind,
        memmove_eq (n := s.view.sz - j) (by unfold St.stop; omega) (by omega) (by omega), ok_bind,
        wrap_nat (n := s.view.sz - (j - i)) (by omega) (by omega)]
      have := splice_becomes hf (a := s.view.ptr + i) (sz := s.view.sz - (j - i)) (new := slice s.mem (s.view.ptr + j) (s.view.sz - j))
        (by omega) (by unfold St.stop; omega) (by rw [hs]; omega) (by omega)
      refine ⟨_, rfl, this.1.trans ?_, this.2⟩
      rw [Nat.add_sub_cancel_left]
      congr 1
      exact slice_drop.symm
    · rw [if_neg (by omega)]
      have : i = j := by omega
      subst this
      exact ⟨s, rfl, by rw [List.take_append_drop], hf, rfl, rfl, rfl, fun _ _ => rfl⟩

example : ∃ s : St Nat, s.Fits ∧ eraseRange s 1 3 = .ok ⟨[9, 3, 2, 3, 6, 7, 8], ⟨1, 1, 5⟩⟩ :=
  ⟨⟨[9, 1, 2, 3, 6, 7, 8], ⟨1, 3, 5⟩⟩, by unfold St.Fits; decide, by decide⟩

/-! ## C162 -/

/-- Missing: ranges that end where the view begins, if the view is not empty. -/
theorem C162_assign_range_partial (s : St α) (hf : s.Fits) (first n : Nat) (hv : first + n ≤ s.mem.length) (hn : n ≤ s.view.cap)
    (ho : first + n < s.view.ptr ∨ (s.stop ≤ first ∧ s.view.ptr + n ≤ first)) :
    Becomes s (assignRange s first (first + n)) (slice s.mem first n) ∧ Becomes s (assignLength s first n) (slice s.mem first n) := by
  obtain ⟨f1, f2, f3⟩ := id hf
  have hs : (slice s.mem first n).length = n := slice_length (by omega)
  have hout : (outside s first && outside s (first + n)) = true := by unfold outside; unfold St.stop at *; simp; omega
  have := splice_becomes hf (a := s.view.ptr) (sz := n) (new := slice s.mem first n) (by omega) (by unfold St.stop; omega) (by omega) hn
  unfold assignRange assignLength
  rw [wrap_nat (n := n) (by omega) (by omega)]
  simp only
  rw [hout, assert_t rfl, ok_bind, assert_t (by simpa using hn), ok_bind,
    memcpy_eq hv (by omega) (by omega), ok_bind]
  exact ⟨⟨_, rfl, this.1.trans (by simp), this.2⟩, ⟨_, rfl, this.1.trans (by simp), this.2⟩⟩

example : ∃ s : St Nat, s.Fits ∧ assignRange s 4 6 = .ok ⟨[9, 6, 7, 3, 6, 7, 8], ⟨1, 2, 5⟩⟩ :=
  ⟨⟨[9, 1, 2, 3, 6, 7, 8], ⟨1, 3, 5⟩⟩, by unfold St.Fits; decide, by decide⟩

/-- The range in front of the view is disjoint from it, but the assertion fails. -/
theorem C162_not_front : ∃ s : St Nat, s.Fits ∧ s.view.ptr = 2 ∧ 2 ≤ s.view.cap ∧ assignRange s 0 2 = .error .assertion :=
  ⟨⟨[9, 1, 2, 3, 6, 7, 8], ⟨2, 3, 5⟩⟩, by unfold St.Fits; decide, by decide, by decide, by decide⟩

theorem assignLoop_eq (ptr val : Nat) : ∀ (n i : Nat) (mem : List α) (x : α), ptr + i + n ≤ mem.length → mem[val]? = some x →
    assignLoop ptr val i mem n = .ok (splice mem (ptr + i) (List.replicate n x))
  | 0, i, mem, x, _, _ => by simp [assignLoop, splice]
  | n + 1, i, mem, x, h, hx => by
    have hr : rd mem val = .ok x := by unfold rd; rw [hx]
    unfold assignLoop wr
    rw [hr, ok_bind, if_pos (by omega), ok_bind, assignLoop_eq ptr val n (i + 1) _ x (by rw [List.length_set]; omega)
      (by rw [List.getElem?_set]; split; · rw [if_pos (by omega)]
          · exact hx)]
    congr 1
    apply List.ext_getElem?
    intro j
    rw [splice_get (by simp; omega), splice_get (by simp; omega), List.getElem?_set]
    simp only [List.length_replicate, List.getElem?_replicate]
    rcases Nat.lt_trichotomy j (ptr + i) with hj | hj | hj
    · rw [if_pos (by omega), if_neg (by omega), if_pos hj]
    · subst hj
      rw [if_pos (by omega), if_pos rfl, if_pos (by omega), if_neg (by omega), if_pos (by omega), if_pos (by omega)]
    · by_cases hj' : j < ptr + i + (n + 1)
      · rw [if_neg (by omega), if_pos (by omega), if_pos (by omega), if_neg (by omega), if_pos hj', if_pos (by omega)]
      · rw [if_neg (by omega), if_neg (by omega), if_neg (by omega), if_neg (by omega), if_neg hj']

/-- As many copies as there is room for. The value may be one of the view. -/
theorem C162_assign_copies (s : St α) (hf : s.Fits) (n val : Nat) (hv : val < s.mem.length) :
    Becomes s (assignFill s n val) (List.replicate (min n s.view.cap) s.mem[val]) := by
  obtain ⟨f1, f2, f3⟩ := id hf
  unfold assignFill
  have hc : (if n < s.view.cap then n else s.view.cap) = min n s.view.cap := by rw [Nat.min_def]; split <;> split <;> omega
  simp only [hc]
  rw [assignLoop_eq _ _ _ _ _ _ (by omega) (List.getElem?_eq_getElem hv), ok_bind]
  have := splice_becomes hf (a := s.view.ptr) (sz := min n s.view.cap) (new := List.replicate (min n s.view.cap) s.mem[val]) (by omega)
    (by unfold St.stop; omega) (by simp) (by omega)
  exact ⟨_, rfl, this.1.trans (by simp), this.2⟩

example : ∃ s : St Nat, s.Fits ∧ assignFill s 9 2 = .ok ⟨[9, 2, 2, 2, 2, 2, 8], ⟨1, 5, 5⟩⟩ :=
  ⟨⟨[9, 1, 2, 3, 6, 7, 8], ⟨1, 3, 5⟩⟩, by unfold St.Fits; decide, by decide⟩

/-- Values that become part of the view are the ones in the memory. -/
theorem C162_resize (s : St α) (hf : s.Fits) (n : Nat) :
    (n ≤ s.view.cap → Becomes s (resize s n) (slice s.mem s.view.ptr n)) ∧
    (s.view.cap < n → resize s n = .error .assertion) ∧
    Becomes s (.ok (clear s)) [] ∧
    (s.view.sz + n ≤ s.view.cap → Becomes s (grow s n) (slice s.mem s.view.ptr (s.view.sz + n))) ∧
    (s.view.sz < s.view.cap → ∃ s', emplaceBack s = .ok (s.view.ptr + s.view.sz, s') ∧
      Becomes s (.ok s') (slice s.mem s.view.ptr (s.view.sz + 1))) ∧
    (s.view.sz = s.view.cap → emplaceBack s = .error .assertion) := by
  obtain ⟨f1, f2, f3⟩ := id hf
  have hw : wrap ((s.view.sz : Int) + 1) = s.view.sz + 1 := wrap_nat (by omega) (by omega)
  refine ⟨fun h => ?_, fun h => ?_, ?_, fun h => ?_, fun h => ?_, fun h => ?_⟩
  · unfold resize
    rw [assert_t (by simpa using h), ok_bind]
    exact ⟨_, rfl, resize_becomes hf h⟩
  · unfold resize
    rw [assert_f (by simp; omega)]; rfl
  · have := resize_becomes hf (sz := 0) (by omega)
    exact ⟨_, rfl, this.1.trans (by simp [slice]), this.2⟩
  · unfold grow
    simp only
    rw [wrap_nat (n := s.view.sz + n) (by omega) (by omega), assert_t (by simpa using h), ok_bind]
    exact ⟨_, rfl, resize_becomes hf h⟩
  · unfold emplaceBack
    rw [hw, assert_t (by simp; omega), ok_bind]
    exact ⟨_, rfl, _, rfl, resize_becomes hf (by omega)⟩
  · unfold emplaceBack
    rw [hw, assert_f (by simp; omega)]; rfl

example : ∃ s : St Nat, s.Fits ∧ s.view.sz + 2 ≤ s.view.cap ∧ (grow s 2).map (·.contents) = .ok [1, 2, 3, 6, 7] :=
  ⟨⟨[9, 1, 2, 3, 6, 7, 8], ⟨1, 3, 5⟩⟩, by unfold St.Fits; decide, by decide, by decide⟩

/-! ## C163 -/

theorem Keeps.refl (s : St α) : Keeps s s := ⟨rfl, rfl, rfl, fun _ _ => rfl⟩

theorem Keeps.trans {s s' s'' : St α} (h : Keeps s s') (h' : Keeps s' s'') : Keeps s s'' := by
  obtain ⟨a1, a2, a3, a4⟩ := h
  obtain ⟨b1, b2, b3, b4⟩ := h'
  refine ⟨b1.trans a1, b2.trans a2, b3.trans a3, fun i hi => ?_⟩
  rw [b4 i (by omega), a4 i hi]

theorem bind_ok {β γ : Type} {x : C β} {f : β → C γ} {r : γ} (h : x >>= f = .ok r) : ∃ y, x = .ok y ∧ f y = .ok r := by
  cases x with
  | error e => exact nomatch h
  | ok y => exact ⟨y, rfl, h⟩

theorem assert_inv {b : Bool} {u : Unit} (h : assert b = .ok u) : b = true := by
  cases b with
  | false => exact nomatch h
  | true => rfl

theorem of_becomes {s s' : St α} {r : C (St α)} {l : List α} (h : Becomes s r l) (hr : r = .ok s') : s'.Fits ∧ Keeps s s' := by
  obtain ⟨t, h1, _, h2⟩ := h
  rw [hr] at h1
  rw [Except.ok.inj h1]
  exact h2

/-- Replacing values in the part of the memory that the view is of. -/
theorem splice_keeps {s : St α} (hf : s.Fits) {a sz : Nat} {new : List α} (h1 : s.view.ptr ≤ a) 
    (h3 : a + new.length ≤ s.view.ptr + s.view.cap) (h4 : sz ≤ s.view.cap) :
    let s' : St α := ⟨splice s.mem a new, { s.view with sz := sz }⟩
    s'.Fits ∧ Keeps s s' := by
  obtain ⟨f1, f2, f3⟩ := hf
  have hl : a + new.length ≤ s.mem.length := by omega
  refine ⟨⟨by simpa [splice_length hl] using f1, h4, by simpa [splice_length hl] using f3⟩, rfl, rfl, splice_length hl, fun i hi => ?_⟩
  show (splice s.mem a new)[i]? = _
  rw [splice_get hl]
  split
  · rfl
  · rw [if_neg (by omega)]

theorem insertLoop_inv (position : Nat) (tmp : α) : ∀ (n i : Nat) (mem mem' : List α), insertLoop position tmp i mem n = .ok mem' →
    mem'.length = mem.length ∧ ∀ j, j < position + i ∨ position + i + n ≤ j → mem'[j]? = mem[j]?
  | 0, i, mem, mem', h => by rw [← Except.ok.inj h]; exact ⟨rfl, fun _ _ => rfl⟩
  | n + 1, i, mem, mem', h => by
    unfold insertLoop wr at h
    split at h
    · rw [ok_bind] at h
      split at h
      · exact nomatch h
      · obtain ⟨h1, h2⟩ := insertLoop_inv position tmp n (i + 1) _ mem' h
        rw [List.length_set] at h1
        refine ⟨h1, fun j hj => ?_⟩
        rw [h2 j (by omega), List.getElem?_set, if_neg (by omega)]
    · exact nomatch h

theorem exec_keeps {s s' : St α} (hf : s.Fits) (op : Op) (hp : op = .popBack → 0 < s.view.sz) (h : exec s op = .ok s') :
    s'.Fits ∧ Keeps s s' := by
  obtain ⟨f1, f2, f3⟩ := id hf
  have hw : wrap ((s.view.sz : Int) + 1) = s.view.sz + 1 := wrap_nat (by omega) (by omega)
  have hrem : s.remaining = s.view.cap - s.view.sz := wrap_nat (by omega) (by omega)
  have push : ∀ {e t}, pushBack s e = .ok t → t.Fits ∧ Keeps s t := by
    intro e t h
    have h0 := h
    unfold pushBack at h
    obtain ⟨_, h1, h⟩ := bind_ok h
    obtain ⟨x, h2, h⟩ := bind_ok h
    have h1 := assert_inv h1
    rw [hw] at h1
    have he : e < s.mem.length := by
      unfold rd at h2
      split at h2
      · rename_i hm; exact (List.getElem?_eq_some_iff.mp hm).1
      · exact nomatch h2
    exact of_becomes ((C159_push_back s hf e he).1 (by simp at h1; omega)) h0
  have size : ∀ n, n ≤ s.view.cap → ({ s with view := { s.view with sz := n } } : St α).Fits ∧
      Keeps s ({ s with view := { s.view with sz := n } } : St α) := fun n hn => (resize_becomes hf hn).2
  cases op with
  | pushBack e => exact push h
  | popBack => exact of_becomes (C159_pop_back_partial s hf (hp rfl)) h
  | tryPushBack e =>
    obtain ⟨r, h1, h⟩ := bind_ok h
    rw [← Except.ok.inj h]
    unfold tryPushBack at h1
    split at h1
    · rw [← Except.ok.inj h1]; exact ⟨hf, Keeps.refl s⟩
    · obtain ⟨t, h2, h1⟩ := bind_ok h1
      rw [← Except.ok.inj h1]
      exact push h2
  | tryPopBack =>
    obtain ⟨r, h1, h⟩ := bind_ok h
    rw [← Except.ok.inj h]
    unfold tryPopBack at h1
    split at h1
    · rw [← Except.ok.inj h1]
      exact of_becomes (C159_pop_back_partial s hf (by assumption)) rfl
    · rw [← Except.ok.inj h1]; exact ⟨hf, Keeps.refl s⟩
  | emplaceBack =>
    obtain ⟨r, h1, h⟩ := bind_ok h
    rw [← Except.ok.inj h]
    unfold emplaceBack at h1
    obtain ⟨_, h2, h1⟩ := bind_ok h1
    have h2 := assert_inv h2
    rw [← Except.ok.inj h1]
    exact size _ (by simpa using h2)
  | clear => rw [← Except.ok.inj h]; exact size 0 (by omega)
  | resize n =>
    obtain ⟨_, h2, h1⟩ := bind_ok h
    have h2 := assert_inv h2
    rw [← Except.ok.inj h1]
    exact size _ (by simpa using h2)
  | grow n =>
    obtain ⟨_, h2, h1⟩ := bind_ok h
    have h2 := assert_inv h2
    rw [← Except.ok.inj h1]
    exact size _ (by simpa using h2)
  | assignRange first last =>
    obtain ⟨_, _, h⟩ := bind_ok h
    obtain ⟨_, h2, h⟩ := bind_ok h
    obtain ⟨m, h3, h⟩ := bind_ok h
    have h2 := assert_inv h2
    obtain ⟨h4, h5, rfl⟩ := memcpy_inv h3
    rw [← Except.ok.inj h]
    exact splice_keeps hf (Nat.le_refl _) (by rw [slice_length h4]; simp at h2; omega) (by simpa using h2)
  | assignLength first n =>
    obtain ⟨_, h2, h⟩ := bind_ok h
    obtain ⟨_, _, h⟩ := bind_ok h
    obtain ⟨m, h3, h⟩ := bind_ok h
    have h2 := assert_inv h2
    obtain ⟨h4, h5, rfl⟩ := memcpy_inv h3
    rw [← Except.ok.inj h]
    exact splice_keeps hf (Nat.le_refl _) (by rw [slice_length h4]; simp at h2; omega) (by simpa using h2)
  | assignFill n val =>
    by_cases hv : val < s.mem.length
    · exact of_becomes (C162_assign_copies s hf n val hv) h
    · obtain ⟨m, h3, h⟩ := bind_ok h
      rw [← Except.ok.inj h]
      by_cases h0 : (if n < s.view.cap then n else s.view.cap) = 0
      · rw [h0] at h3 ⊢
        rw [← Except.ok.inj h3]
        exact size 0 (by omega)
      · obtain ⟨k, hk⟩ := Nat.exists_eq_succ_of_ne_zero h0
        rw [hk] at h3
        unfold assignLoop at h3
        obtain ⟨x, h4, _⟩ := bind_ok h3
        unfold rd at h4
        rw [List.getElem?_eq_none (by omega)] at h4
        exact nomatch h4
  | insertFill position n val =>
    obtain ⟨_, h2, h⟩ := bind_ok h
    have h2 := assert_inv h2
    simp only [Bool.and_eq_true, decide_eq_true_eq] at h2
    simp only [hrem] at h
    generalize hc : (if n < s.view.cap - s.view.sz then n else s.view.cap - s.view.sz) = c at h
    have hcs : c ≤ s.view.cap - s.view.sz := by rw [← hc]; split <;> omega
    split at h
    · obtain ⟨x, h3, h⟩ := bind_ok h
      obtain ⟨m, h4, h⟩ := bind_ok h
      obtain ⟨m', h5, hz⟩ := bind_ok h
      obtain ⟨i1, i2⟩ := insertLoop_inv _ _ _ _ _ _ h5
      obtain ⟨h6, h7, h8, rfl⟩ := memmove_inv h4
      unfold St.stop at *
      have hlen : (slice s.mem position ((s.view.ptr + s.view.sz : Nat) - position : Int).toNat).length =
          ((s.view.ptr + s.view.sz : Nat) - position : Int).toNat := slice_length h7
      rw [splice_length (by rw [hlen]; exact h8)] at i1
      have hk := (splice_keeps hf (a := position + c) (sz := s.view.sz)
        (new := slice s.mem position ((s.view.ptr + s.view.sz : Nat) - position : Int).toNat) (by omega) (by rw [hlen]; omega) (by omega)).2
      rw [← Except.ok.inj hz, wrap_nat (n := s.view.sz + c) (by omega) (by omega)]
      refine ⟨⟨by simpa [i1] using f1, by simp only; omega, by simpa [i1] using f3⟩, rfl, rfl, i1, fun j hj => ?_⟩
      rw [i2 j (by omega)]
      exact hk.2.2.2 j hj
    · rw [← Except.ok.inj h]; exact ⟨hf, Keeps.refl s⟩
  | insertRange position first last =>
    obtain ⟨_, _, h⟩ := bind_ok h
    obtain ⟨_, h2, h⟩ := bind_ok h
    have h2 := assert_inv h2
    simp only [Bool.and_eq_true, decide_eq_true_eq] at h2
    obtain ⟨_, h3, h⟩ := bind_ok h
    have h3 := assert_inv h3
    rw [hrem, decide_eq_true_eq] at h3
    split at h
    · obtain ⟨m, h4, h⟩ := bind_ok h
      obtain ⟨m', h5, h⟩ := bind_ok h
      obtain ⟨h6, h7, h8, rfl⟩ := memmove_inv h4
      obtain ⟨h9, h10, rfl⟩ := memcpy_inv h5
      rw [← Except.ok.inj h]
      unfold St.stop at *
      generalize last - first = c at *
      have hlen : (slice s.mem position ((s.view.ptr + s.view.sz : Nat) - position : Int).toNat).length =
          ((s.view.ptr + s.view.sz : Nat) - position : Int).toNat := slice_length h7
      have k1 := splice_keeps hf (a := position + c) (sz := s.view.sz)
        (new := slice s.mem position ((s.view.ptr + s.view.sz : Nat) - position : Int).toNat) (by omega) (by rw [hlen]; omega) (by omega)
      rw [wrap_nat (n := s.view.sz + c) (by omega) (by omega)]
      have k2 := splice_keeps k1.1 (a := position) (sz := s.view.sz + c) (new := slice _ first c) (by simpa using h2.1)
        (by rw [slice_length h9]; simp only; omega) (by simp only; omega)
      exact ⟨k2.1, k1.2.trans k2.2⟩
    · rw [← Except.ok.inj h]; exact ⟨hf, Keeps.refl s⟩
  | erase position =>
    have h0 := h
    obtain ⟨_, h2, h⟩ := bind_ok h
    have h2 := assert_inv h2
    simp only [Bool.and_eq_true, decide_eq_true_eq] at h2
    obtain ⟨m, h4, h⟩ := bind_ok h
    obtain ⟨h6, h7, h8, _⟩ := memmove_inv h4
    unfold St.stop at *
    have := C161_erase_partial s hf (position - s.view.ptr) (by omega)
    rw [show s.view.ptr + (position - s.view.ptr) = position by omega] at this
    exact of_becomes this h0
  | eraseRange first last =>
    have h0 := h
    obtain ⟨_, h1, h⟩ := bind_ok h
    have h1 := assert_inv h1
    rw [decide_eq_true_eq] at h1
    split at h
    · rw [← Except.ok.inj h]; exact size 0 (by omega)
    · split at h
      · obtain ⟨_, h2, h⟩ := bind_ok h
        have h2 := assert_inv h2
        simp only [Bool.and_eq_true, decide_eq_true_eq] at h2
        unfold St.stop at h2
        have := C161_erase_range s hf (first - s.view.ptr) (last - s.view.ptr) (by omega) (by omega)
        rw [show s.view.ptr + (first - s.view.ptr) = first by omega, show s.view.ptr + (last - s.view.ptr) = last by omega] at this
        exact of_becomes this h0
      · rw [← Except.ok.inj h]; exact ⟨hf, Keeps.refl s⟩

/-- Whatever is called, and with whatever arguments: as long as nothing fails, only the memory of the view is changed and its size does
not exceed its capacity. Missing: `pop_back` of an empty view. -/
theorem C163_bounds_partial (s s' : St α) (hf : s.Fits) (h : History False s s') : s'.Fits ∧ Keeps s s' := by
  induction h with
  | nil => exact ⟨hf, Keeps.refl s⟩
  | call op t t' _ hp hx ih =>
    obtain ⟨h1, h2⟩ := exec_keeps ih.1 op (fun h => by
      rcases Nat.eq_zero_or_pos t.view.sz with h0 | h0
      · exact (hp h h0).elim
      · exact h0) hx
    exact ⟨h1, ih.2.trans h2⟩

example : ∃ s s' : St Nat, s.Fits ∧ History False s s' ∧ s'.contents = [8, 1] := by
  refine ⟨makeInitialized [9, 1, 2, 3, 6, 7, 8] 1 3 5, ⟨[9, 8, 1, 2, 3, 7, 8], ⟨1, 2, 5⟩⟩, by unfold St.Fits; decide, ?_, by decide⟩
  refine .call (.eraseRange 3 5) ⟨[9, 8, 1, 2, 3, 7, 8], ⟨1, 4, 5⟩⟩ _ ?_ (fun h => nomatch h) (by decide)
  exact .call (.insertRange 1 6 7) _ _ .nil (fun h => nomatch h) (by decide)

/-- After `pop_back` of an empty view. -/
theorem C163_not_pop_back : ∃ s s' : St Nat, s.Fits ∧ History True s s' ∧ ¬ s'.Fits := by
  refine ⟨⟨[9, 1, 2, 7, 8], ⟨1, 0, 3⟩⟩, ⟨[9, 1, 2, 7, 8], ⟨1, 2 ^ 64 - 1, 3⟩⟩, by unfold St.Fits; decide, ?_, by unfold St.Fits; decide⟩
  exact .call .popBack _ _ .nil (fun _ _ => trivial) (by decide)

/-! ## C164 -/

/-- The indices of a grid and its coordinates are in one to one correspondence, row by row. -/
theorem C164_index (g : Grid) (hs : g.width * g.height < 2 ^ 64) :
    (∀ x y, x < g.width → y < g.height → g.index x y = y * g.width + x ∧ g.index x y < g.size ∧ g.coordinates (g.index x y) = .ok (x, y)) ∧
    (∀ i, i < g.size → ∃ x y, g.coordinates i = .ok (x, y) ∧ x < g.width ∧ y < g.height ∧ g.index x y = i) ∧
    (∀ i, g.size ≤ i → g.coordinates i = .error .assertion) := by
  have hsz : g.size = g.width * g.height := wrap_nat (by push_cast; rfl) hs
  have hidx : ∀ x y, x < g.width → y < g.height → g.index x y = y * g.width + x ∧ y * g.width + x < g.width * g.height := by
    intro x y hx hy
    have : (y + 1) * g.width ≤ g.height * g.width := Nat.mul_le_mul_right _ hy
    rw [Nat.add_mul, Nat.mul_comm g.height] at this
    exact ⟨wrap_nat (by push_cast; ring) (by omega), by omega⟩
  refine ⟨fun x y hx hy => ?_, fun i hi => ?_, fun i hi => ?_⟩
  · obtain ⟨h1, h2⟩ := hidx x y hx hy
    refine ⟨h1, by rw [h1, hsz]; exact h2, ?_⟩
    unfold Grid.coordinates
    rw [h1, hsz, assert_t (by simpa using h2), ok_bind]
    rw [Nat.mul_add_mod_self_right, Nat.mod_eq_of_lt hx, Nat.add_comm, Nat.add_mul_div_right _ _ (by omega), Nat.div_eq_of_lt hx, Nat.zero_add]
  · rw [hsz] at hi
    have hw : 0 < g.width := by
      rcases Nat.eq_zero_or_pos g.width with h | h
      · rw [h, Nat.zero_mul] at hi; omega
      · exact h
    have hy : i / g.width < g.height := by rw [Nat.div_lt_iff_lt_mul hw, Nat.mul_comm]; exact hi
    have hx := Nat.mod_lt i hw
    refine ⟨i % g.width, i / g.width, ?_, hx, hy, ?_⟩
    · unfold Grid.coordinates
      rw [hsz, assert_t (by simpa using hi)]; rfl
    · rw [(hidx _ _ hx hy).1, Nat.mul_comm]; exact Nat.div_add_mod i g.width
  · unfold Grid.coordinates
    rw [assert_f (by simp; omega)]; rfl

example : (⟨0, 3, 4⟩ : Grid).index 2 3 = 11 ∧ (⟨0, 3, 4⟩ : Grid).coordinates 7 = .ok (1, 2) := by decide

/-- Access by coordinates is access to the value in that row and column, or nothing. -/
theorem C164_access (g : Grid) (mem : List α) (hs : g.width * g.height < 2 ^ 64) (hm : g.ptr + g.width * g.height ≤ mem.length) (x y : Nat) :
    (x < g.width → y < g.height → g.query x y = some (g.ptr + (y * g.width + x)) ∧ (∃ v, mem[g.ptr + (y * g.width + x)]? = some v ∧ g.at mem x y = .ok v) ∧
      g.queryIndex (y * g.width + x) = g.query x y ∧ g.atIndex mem (y * g.width + x) = g.at mem x y) ∧
    (¬ (x < g.width ∧ y < g.height) → g.query x y = none ∧ g.at mem x y = .error .assertion) := by
  have hsz : g.size = g.width * g.height := wrap_nat (by push_cast; rfl) hs
  refine ⟨fun hx hy => ?_, fun h => ?_⟩
  · obtain ⟨h1, h2, _⟩ := (C164_index g hs).1 x y hx hy
    have hb : g.inBounds x y = true := by simp [Grid.inBounds, hx, hy]
    have hy' : wrap ((y : Int) * g.width) = y * g.width := wrap_nat (by push_cast; rfl) (by rw [h1, hsz] at h2; omega)
    have hxy : wrap ((x : Int) + y * g.width) = y * g.width + x := h1
    rw [h1, hsz] at h2
    have hq : g.query x y = some (g.ptr + (y * g.width + x)) := by
      unfold Grid.query
      rw [if_pos hb, hy']
      congr 1
      omega
    have hlt : g.ptr + (y * g.width + x) < mem.length := by omega
    have ha : g.at mem x y = .ok mem[g.ptr + (y * g.width + x)] := by
      unfold Grid.at
      rw [assert_t hb, ok_bind, hxy, hsz]
      simp only
      rw [assert_t (by simpa using h2), ok_bind, rd_ok hlt]
    refine ⟨hq, ⟨_, List.getElem?_eq_getElem hlt, ha⟩, ?_, ?_⟩
    · rw [hq]; unfold Grid.queryIndex; rw [hsz, if_pos h2]
    · rw [ha]; unfold Grid.atIndex; rw [hsz, assert_t (by simpa using h2), ok_bind, rd_ok hlt]
  · have hb : g.inBounds x y = false := by
      unfold Grid.inBounds
      by_cases hx : x < g.width
      · simp [hx]; omega
      · simp [hx]
    unfold Grid.query Grid.at
    rw [hb, assert_f rfl]
    exact ⟨rfl, rfl⟩

example : (⟨1, 2, 2⟩ : Grid).at [9, 1, 2, 3, 4, 8] 0 1 = .ok 3 ∧ (⟨1, 2, 2⟩ : Grid).query 2 0 = none := by decide

/-! ## C165 -/

/-- The range of a container, with bounds behind its end taken as its end. -/
theorem C165_range (mem : List α) (data sz start stop : Nat) (hm : data + sz ≤ mem.length) (hl : mem.length < 2 ^ 63) :
    (∃ p n, makeRangeFrom data sz start = .ok (p, n) ∧ p + n = data + sz ∧ slice mem p n = (slice mem data sz).drop start) ∧
    (min start sz ≤ min stop sz → ∃ p n, makeRange data sz start stop = .ok (p, n) ∧ data ≤ p ∧ p + n ≤ data + sz ∧
      slice mem p n = ((slice mem data sz).take stop).drop start) ∧
    (min stop sz < min start sz → makeRange data sz start stop = .error .assertion) := by
  have e1 : (if sz ≤ start then sz else start) = min start sz := by rw [Nat.min_def]; split <;> split <;> omega
  have e2 : (if sz ≤ stop then sz else stop) = min stop sz := by rw [Nat.min_def]; split <;> split <;> omega
  refine ⟨?_, fun h => ?_, fun h => ?_⟩
  · unfold makeRangeFrom
    simp only [e1]
    refine ⟨_, _, rfl, ?_, ?_⟩
    · rw [wrap_nat (n := sz - min start sz) (by omega) (by omega)]; omega
    · rw [wrap_nat (n := sz - min start sz) (by omega) (by omega), slice_drop]
      apply List.ext_getElem?
      intro i
      rw [slice_get, slice_get]
      rcases Nat.lt_or_ge start sz with hs | hs
      · rw [Nat.min_eq_left (by omega)]
      · rw [if_neg (by omega), if_neg (by omega)]
  · unfold makeRange
    simp only [e1, e2]
    rw [assert_t (by simpa using h), ok_bind]
    refine ⟨_, _, rfl, by omega, ?_, ?_⟩
    · rw [wrap_nat (n := min stop sz - min start sz) (by omega) (by omega)]; omega
    · rw [wrap_nat (n := min stop sz - min start sz) (by omega) (by omega)]
      have : (slice mem data sz).take stop = slice mem data (min stop sz) := by unfold slice; rw [List.take_take]
      rw [this, slice_drop]
      apply List.ext_getElem?
      intro i
      rw [slice_get, slice_get]
      rcases Nat.lt_or_ge start sz with hs | hs
      · rw [Nat.min_eq_left (b := sz) (a := start) (by omega)]
      · rw [if_neg (by omega), if_neg (by omega)]
  · unfold makeRange
    simp only [e1, e2]
    rw [assert_f (by simp; omega)]; rfl

example : makeRange 1 5 2 9 = .ok (3, 3) ∧ makeRange 1 5 3 2 = .error .assertion := by decide

end Tm.View
