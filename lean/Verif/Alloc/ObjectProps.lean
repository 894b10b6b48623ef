import Verif.Alloc.Objects
import Verif.Alloc.StackProps
/-!
# Properties of the functions that create and destroy objects, and of `DynamicStackAllocator`
-/
namespace Tm.Alloc

/-! ### C250 creating and destroying objects -/

theorem mul_exact {a b : U64} (h : a.toNat * b.toNat < 2 ^ 62) : (a * b).toNat = a.toNat * b.toNat := by
  rw [BitVec.toNat_mul, Nat.mod_eq_of_lt (by omega)]

theorem constructLoop_ok {b : Block} {size built : U64} (hbu : built.toNat ≤ size.toNat) : ∀ (n i : Nat), (i + n) * size.toNat ≤ b.size.toNat →
    constructLoop b size built n i = .ok ((List.range n).map fun k => ⟨b.ptr.toNat + (i + k) * size.toNat, built.toNat⟩)
  | 0, _, _ => rfl
  | n + 1, i, h => by
    have h1 : (i + 1) * size.toNat ≤ (i + (n + 1)) * size.toNat := Nat.mul_le_mul_right _ (by omega)
    have h2 : (i + 1) * size.toNat = i * size.toNat + size.toNat := by rw [Nat.add_mul, Nat.one_mul]
    rw [constructLoop, if_pos (by omega), constructLoop_ok hbu n (i + 1) (by rw [show i + 1 + n = i + (n + 1) by omega]; exact h), ok_bind,
      List.range_succ_eq_map, List.map_cons, List.map_map]
    simp only [Nat.add_zero, Except.ok.injEq, List.cons.injEq, true_and]
    apply List.map_congr_left
    intro k _
    simp only [Function.comp_apply, Obj.mk.injEq, and_true]
    rw [show i + 1 + k = i + (k + 1) by omega]

theorem destructLoop_ok {ptr size : U64} (rest : List Obj) : ∀ (n i : Nat),
    destructLoop ptr size n i (((List.range n).map fun k => ⟨ptr.toNat + (i + k) * size.toNat, size.toNat⟩) ++ rest) = .ok rest
  | 0, _ => rfl
  | n + 1, i => by
    have e : ((List.range (n + 1)).map fun k => (⟨ptr.toNat + (i + k) * size.toNat, size.toNat⟩ : Obj)) =
        ⟨ptr.toNat + i * size.toNat, size.toNat⟩ :: (List.range n).map fun k => ⟨ptr.toNat + (i + 1 + k) * size.toNat, size.toNat⟩ := by
      rw [List.range_succ_eq_map, List.map_cons, List.map_map]
      congr 1
      apply List.map_congr_left
      intro k _
      simp only [Function.comp_apply, Obj.mk.injEq, and_true]
      rw [show i + 1 + k = i + (k + 1) by omega]
    rw [destructLoop, e]
    rw [List.cons_append, if_pos (by simp), List.erase_cons_head]
    exact destructLoop_ok rest n (i + 1)

/-- A usable allocator, and a request for `count` objects of `size` bytes that is not so large that numbers wrap around. -/
structure CreateRequest (s : Stack) (count size a : U64) : Prop where
  buffer : s.p ≠ 0 ∧ s.cap ≠ 0 ∧ s.sz.toNat ≤ s.cap.toNat
  limits : s.cap.toNat < 2 ^ 62 ∧ s.p.toNat + s.cap.toNat < 2 ^ 64
  align : ∃ k, k ≤ 62 ∧ a.toNat = 2 ^ k
  some : count ≠ 0 ∧ size ≠ 0
  small : count.toNat * size.toNat < 2 ^ 62

theorem CreateRequest.good {s : Stack} {count size a : U64} (h : CreateRequest s count size a) : s.Good :=
  ⟨pos_of_ne_zero h.buffer.1, pos_of_ne_zero h.buffer.2.1, h.limits.1, h.limits.2, h.buffer.2.2⟩

theorem CreateRequest.bytes {s : Stack} {count size a : U64} (h : CreateRequest s count size a) : count * size ≠ 0 ∧ (count * size).toNat < 2 ^ 62 := by
  rw [mul_exact h.small]
  refine ⟨?_, h.small⟩
  apply ne_zero_of_pos
  rw [mul_exact h.small]
  exact Nat.mul_pos (pos_of_ne_zero h.some.1) (pos_of_ne_zero h.some.2)

theorem CreateRequest.div {s : Stack} {count size a : U64} (h : CreateRequest s count size a) : count * size / size = count := by
  apply BitVec.eq_of_toNat_eq
  rw [BitVec.toNat_udiv, mul_exact h.small, Nat.mul_div_cancel _ (pos_of_ne_zero h.some.2)]

/-- The objects of an array at the address `start`. -/
def arrayAt (start count size : Nat) : List Obj := (List.range count).map fun k => ⟨start + k * size, size⟩

/-- C250, partial: missing are requests so large that the number of bytes wraps around, and arrays of pointers. All others succeed exactly if the array,
at the first aligned address behind the fill level, fits in the buffer; then the objects of the array were constructed, each once and in order, and
the buffer is filled up to the end of the array. Otherwise the result is null, nothing was constructed and the allocator is as before. The functions for single
objects, arrays and arrays of at least some size do the same. -/
theorem C250_create_partial (s : Stack) (count size a : U64) (h : CreateRequest s count size a) :
    ∃ start : Nat, (s.p.toNat + s.sz.toNat ≤ start ∧ a.toNat ∣ start ∧ ∀ x, s.p.toNat + s.sz.toNat ≤ x → a.toNat ∣ x → start ≤ x) ∧
      (start + count.toNat * size.toNat ≤ s.p.toNat + s.cap.toNat →
        ∃ r s', r.toNat = start ∧ s'.p = s.p ∧ s'.cap = s.cap ∧ s'.p.toNat + s'.sz.toNat = start + count.toNat * size.toNat ∧
          s.createInit count size a = .ok (r, s', arrayAt start count.toNat size.toNat) ∧
          s.createArray count size size a = .ok (r, s', arrayAt start count.toNat size.toNat) ∧
          s.createAtLeast count size size a = .ok (r, count, s', arrayAt start count.toNat size.toNat)) ∧
      (s.p.toNat + s.cap.toNat < start + count.toNat * size.toNat →
        s.createInit count size a = .ok (0, s, []) ∧ s.createArray count size size a = .ok (0, s, []) ∧
          s.createAtLeast count size size a = .ok (0, 0, s, [])) := by
  obtain ⟨start, h1, h2, h3⟩ := C25_allocate s (count * size) a h.buffer h.limits h.align h.bytes
  rw [mul_exact h.small] at h2 h3
  refine ⟨start, h1, ?_, ?_⟩
  · intro hf
    obtain ⟨r, s', e, e1, e2, e3, e4⟩ := h2 hf
    have hr : (⟨r, count * size⟩ : Block).ok = true := by
      have : 0 < r.toNat := by
        have := pos_of_ne_zero h.buffer.1
        omega
      simpa [Block.ok] using ne_zero_of_pos this
    have hl : constructLoop ⟨r, count * size⟩ size size count.toNat 0 = .ok (arrayAt start count.toNat size.toNat) := by
      rw [constructLoop_ok (Nat.le_refl _) _ _ (by rw [Nat.zero_add, mul_exact h.small]), ← e1]
      simp only [Nat.zero_add]
      rfl
    refine ⟨r, s', e1, e2, e3, e4, ?_, ?_, ?_⟩
    · rw [Stack.createInit, Stack.allocateStorage, assert_true h.good.valid, ok_bind, e, ok_bind]
      dsimp only
      rw [ok_bind]
      dsimp only
      rw [if_pos hr, hl, ok_bind]
    · rw [Stack.createArray, Stack.allocateStorage, assert_true h.good.valid, ok_bind, e, ok_bind]
      dsimp only
      rw [ok_bind]
      dsimp only
      rw [if_pos hr, hl, ok_bind]
    · rw [Stack.createAtLeast, Stack.allocateStorage, assert_true h.good.valid, ok_bind, e, ok_bind]
      dsimp only
      rw [ok_bind]
      dsimp only
      rw [if_pos hr, h.div, hl, ok_bind]
  · intro hf
    have e := h3 hf
    refine ⟨?_, ?_, ?_⟩
    · rw [Stack.createInit, Stack.allocateStorage, assert_true h.good.valid, ok_bind, e]
      rfl
    · rw [Stack.createArray, Stack.allocateStorage, assert_true h.good.valid, ok_bind, e]
      rfl
    · rw [Stack.createAtLeast, Stack.allocateStorage, assert_true h.good.valid, ok_bind, e, ok_bind]
      dsimp only
      rw [ok_bind]
      dsimp only
      rw [if_neg (by decide), show (0 : U64) / size = 0 by simp]

example : CreateRequest ⟨0x1000, 5, 64, 1⟩ 3 8 8 :=
  ⟨by decide, by decide, ⟨3, by decide, by decide⟩, by decide, by decide⟩

example : (⟨0x1000, 5, 64, 1⟩ : Stack).createInit 3 8 8 = .ok (0x1008, ⟨0x1000, 32, 64, 1⟩, [⟨0x1008, 8⟩, ⟨0x1010, 8⟩, ⟨0x1018, 8⟩]) := by rfl

/-- C250, partial as above: destroying what was created last, by hand or by a `unique_ptr`, ends each object of it once and no other, no assertion
fails, and the fill level is where the array was: creating the same again gives the same address. -/
theorem C250_destroy_partial (s : Stack) (count size a : U64) (h : CreateRequest s count size a) (r : U64) (s' : Stack) (objs others : List Obj)
    (e : s.createInit count size a = .ok (r, s', objs)) (hr : r ≠ 0) :
    ∃ s'', s'.destroyObjects (objs ++ others) r count size a = .ok (s'', others) ∧ s'.destroyUnique (objs ++ others) r count size a = .ok (s'', others) ∧
      s''.p = s.p ∧ s''.cap = s.cap ∧ s''.p.toNat + s''.sz.toNat = r.toNat ∧
      ∃ t, s''.createInit count size a = .ok (r, t, objs) := by
  obtain ⟨start, h1, h2, h3⟩ := C250_create_partial s count size a h
  by_cases hf : start + count.toNat * size.toNat ≤ s.p.toNat + s.cap.toNat
  · obtain ⟨r2, s2, g1, g2, g3, g4, g5, _⟩ := h2 hf
    rw [e] at g5
    injection g5 with g5
    injection g5 with g5 g6
    injection g6 with g6 g7
    subst g5 g6 g7
    have hg := h.good
    have hpos : 0 < count.toNat * size.toNat := Nat.mul_pos (pos_of_ne_zero h.some.1) (pos_of_ne_zero h.some.2)
    have good : s'.Good := by
      refine ⟨by rw [g2]; exact hg.p0, by rw [g3]; exact hg.cap0, by rw [g3]; exact hg.cap62, by rw [g2, g3]; exact hg.top, ?_⟩
      rw [g3]
      rw [g2] at g4
      omega
    have hlast : s'.last = 1 := by
      have sp := allocate_spec hg (a := a) (size := count * size) (by obtain ⟨k, _, hk⟩ := h.align; exact ⟨k, hk⟩)
        (by obtain ⟨k, hk1, hk⟩ := h.align; rw [hk]; exact Nat.pow_le_pow_right (by omega) hk1) h.bytes.1 h.bytes.2
      rw [Stack.createInit, Stack.allocateStorage, assert_true hg.valid, ok_bind] at e
      split at sp
      · rw [sp] at e
        injection e with e
        injection e with e
        exact absurd e.symm hr
      · obtain ⟨q, s3, k0, k1, k2, k3, k4, k5⟩ := sp
        rw [k0, ok_bind] at e
        dsimp only at e
        rw [ok_bind] at e
        dsimp only at e
        split at e
        · cases hl : constructLoop ⟨q, count * size⟩ size size count.toNat 0 with
          | error _ => rw [hl] at e; cases e
          | ok l =>
            rw [hl, ok_bind] at e
            injection e with e
            injection e with _ e
            injection e with e
            rw [← e]
            exact k4
        · injection e with e
          injection e with _ e
          injection e with e
          rw [← e]
          exact k4
    have hone : Pow2 s'.last.toNat := by rw [hlast]; exact ⟨0, by decide⟩
    have sp := free_spec good (ptr := r) (size := count * size) (a := a) (by rw [g2]; omega) (by rw [mul_exact h.small]; exact hpos)
      (by rw [mul_exact h.small]; omega) hone
    rw [if_pos (by rw [hlast, mul_exact h.small, show (1 : U64).toNat = 1 from rfl, pad_one]; omega)] at sp
    have hd : s'.destroyObjects (arrayAt start count.toNat size.toNat ++ others) r count size a = .ok ({ s' with sz := r - s'.p, last := a }, others) := by
      have hl := destructLoop_ok (ptr := r) (size := size) others count.toNat 0
      simp only [Nat.zero_add, g1] at hl
      rw [Stack.destroyObjects, if_pos hr, arrayAt, hl, ok_bind, Stack.freeStorage, assert_true good.valid, ok_bind, sp, ok_bind]
    have hsz : ({ s' with sz := r - s'.p, last := a } : Stack).p.toNat + ({ s' with sz := r - s'.p, last := a } : Stack).sz.toNat = r.toNat := by
      dsimp only
      have hle : s'.p.toNat ≤ r.toNat := by rw [g2]; omega
      rw [BitVec.toNat_sub_of_le hle]
      omega
    refine ⟨_, hd, ?_, g2, g3, hsz, ?_⟩
    · rw [Stack.destroyUnique, if_neg hr]
      exact hd
    · have req : CreateRequest { s' with sz := r - s'.p, last := a } count size a := by
        refine ⟨⟨by dsimp only; rw [g2]; exact h.buffer.1, by dsimp only; rw [g3]; exact h.buffer.2.1, ?_⟩, ?_, h.align, h.some, h.small⟩
        · have := hsz
          dsimp only at this ⊢
          rw [g2] at this
          rw [g3, g2]
          omega
        · dsimp only
          rw [g2, g3]
          exact h.limits
      obtain ⟨start2, k1, k2, _⟩ := C250_create_partial _ count size a req
      rw [hsz, g1] at k1
      have hst : start2 = start := Nat.le_antisymm (k1.2.2 start (Nat.le_refl _) h1.2.1) k1.1
      subst hst
      obtain ⟨r3, s3, m1, _, _, _, m5, _⟩ := k2 (by dsimp only; rw [g2, g3]; exact hf)
      have : r3 = r := BitVec.eq_of_toNat_eq (by omega)
      subst this
      exact ⟨s3, m5⟩
  · rw [(h3 (by omega)).1] at e
    injection e with e
    injection e with e
    exact absurd e.symm hr

/-- C250: destroying the null pointer does nothing. -/
theorem C250_destroy_null (s : Stack) (hv : s.isValid = true) (objs : List Obj) (count size a : U64) :
    s.destroyObjects objs 0 count size a = .ok (s, objs) ∧ s.destroyUnique objs 0 count size a = .ok (s, objs) := by
  refine ⟨?_, rfl⟩
  rw [Stack.destroyObjects, if_neg (by simp), ok_bind, Stack.freeStorage, assert_true hv, ok_bind, Stack.free, assert_true hv, ok_bind]
  rfl

example : (⟨0x1000, 5, 64, 1⟩ : Stack).isValid = true := by decide

/-- C250: an array of no elements is null, and nothing changes. -/
theorem C250_create_nothing (s : Stack) (hv : s.isValid = true) (size a : U64) : s.createInit 0 size a = .ok (0, s, []) := by
  rw [Stack.createInit, Stack.allocateStorage, assert_true hv, ok_bind, show (0 : U64) * size = 0 by simp, allocate_zero, ok_bind]
  rfl

/-- C250 fails: for an array whose size in bytes is 8 when it wraps around, 8 bytes are allocated, and objects are constructed behind them. -/
theorem C250_not_inside : (⟨0x1000, 0, 64, 1⟩ : Stack).createArray (BitVec.ofNat 64 (2 ^ 61 + 1)) 8 8 8 = .error .oob := by
  rw [Stack.createArray, show (⟨0x1000, 0, 64, 1⟩ : Stack).allocateStorage (BitVec.ofNat 64 (2 ^ 61 + 1)) 8 8 = .ok (⟨0x1000, 8⟩, 1, ⟨0x1000, 8, 64, 1⟩) by rfl, ok_bind]
  dsimp only
  rw [if_pos (by decide), show (BitVec.ofNat 64 (2 ^ 61 + 1)).toNat = (2 ^ 61 - 1 + 1) + 1 by decide, constructLoop, constructLoop]
  rfl

/-- C250 fails: in an array of one pointer to objects of 64 bytes, `create` constructs such an object in the 8 bytes of the pointer. -/
theorem C250_not_pointers : (⟨0x1000, 0, 64, 1⟩ : Stack).createArray 1 8 64 8 = .error .oob ∧
    (⟨0x1000, 0, 64, 1⟩ : Stack).createAtLeast 1 8 64 8 = .error .oob := ⟨rfl, rfl⟩

/-! ### C251 the memory of dynamic stack allocators -/

/-- Each object with memory has its own, and all memory belongs to an object. -/
structure Owned (w : World) : Prop where
  nodup : w.heap.Nodup
  nonzero : (0 : U64) ∉ w.heap
  has : ∀ v s, w.objs v = some s → s.p ≠ 0 → s.p ∈ w.heap
  own : ∀ v u s t, w.objs v = some s → w.objs u = some t → s.p ≠ 0 → s.p = t.p → v = u
  all : ∀ p ∈ w.heap, ∃ v s, w.objs v = some s ∧ s.p = p
  empty : ∀ v s, w.objs v = some s → s.p = 0 → s.cap = 0

theorem putObj_same {objs : Nat → Option Stack} {v : Nat} {x : Option Stack} : putObj objs v x v = x := by simp [putObj]

theorem putObj_other {objs : Nat → Option Stack} {v u : Nat} {x : Option Stack} (h : u ≠ v) : putObj objs v x u = objs u := by simp [putObj, h]

/-- An object with the same memory takes the place of another. -/
theorem Owned.same {w : World} (h : Owned w) {v : Nat} {s t : Stack} (hs : w.objs v = some s) (hp : t.p = s.p) (hc : t.cap = s.cap) :
    Owned ⟨w.heap, putObj w.objs v (some t)⟩ := by
  have look : ∀ u x, putObj w.objs v (some t) u = some x → ∃ y, w.objs u = some y ∧ x.p = y.p ∧ x.cap = y.cap := by
    intro u x hx
    by_cases hu : u = v
    · subst hu
      rw [putObj_same] at hx
      injection hx with hx
      subst hx
      exact ⟨s, hs, hp, hc⟩
    · rw [putObj_other hu] at hx
      exact ⟨x, hx, rfl, rfl⟩
  refine ⟨h.nodup, h.nonzero, ?_, ?_, ?_, ?_⟩
  · intro u x hx hn
    obtain ⟨y, hy, e1, _⟩ := look u x hx
    rw [e1] at hn ⊢
    exact h.has u y hy hn
  · intro u u2 x x2 hx hx2 hn he
    obtain ⟨y, hy, e1, _⟩ := look u x hx
    obtain ⟨y2, hy2, e2, _⟩ := look u2 x2 hx2
    exact h.own u u2 y y2 hy hy2 (by rw [← e1]; exact hn) (by rw [← e1, ← e2]; exact he)
  · intro p hpm
    obtain ⟨u, x, hx, e⟩ := h.all p hpm
    by_cases hu : u = v
    · subst hu
      rw [hs] at hx
      injection hx with hx
      subst hx
      exact ⟨u, t, putObj_same, hp.trans e⟩
    · exact ⟨u, x, by dsimp only; rw [putObj_other hu]; exact hx, e⟩
  · intro u x hx hn
    obtain ⟨y, hy, e1, e2⟩ := look u x hx
    rw [e2]
    exact h.empty u y hy (by rw [← e1]; exact hn)

/-- A new object without memory. -/
theorem Owned.fresh {w : World} (h : Owned w) {v : Nat} {t : Stack} (hv : w.objs v = none) (hp : t.p = 0) (hc : t.cap = 0) :
    Owned ⟨w.heap, putObj w.objs v (some t)⟩ := by
  have look : ∀ u x, putObj w.objs v (some t) u = some x → (x = t ∧ u = v) ∨ (w.objs u = some x ∧ u ≠ v) := by
    intro u x hx
    by_cases hu : u = v
    · subst hu
      rw [putObj_same] at hx
      injection hx with hx
      exact Or.inl ⟨hx.symm, rfl⟩
    · rw [putObj_other hu] at hx
      exact Or.inr ⟨hx, hu⟩
  refine ⟨h.nodup, h.nonzero, ?_, ?_, ?_, ?_⟩
  · intro u x hx hn
    rcases look u x hx with ⟨rfl, _⟩ | ⟨hx, _⟩
    · exact absurd hp hn
    · exact h.has u x hx hn
  · intro u u2 x x2 hx hx2 hn he
    rcases look u x hx with ⟨rfl, _⟩ | ⟨hx, _⟩
    · exact absurd hp hn
    · rcases look u2 x2 hx2 with ⟨rfl, _⟩ | ⟨hx2, _⟩
      · exact absurd (he.trans hp) hn
      · exact h.own u u2 x x2 hx hx2 hn he
  · intro p hpm
    obtain ⟨u, x, hx, e⟩ := h.all p hpm
    have hu : u ≠ v := by
      rintro rfl
      rw [hv] at hx
      cases hx
    exact ⟨u, x, by dsimp only; rw [putObj_other hu]; exact hx, e⟩
  · intro u x hx hn
    rcases look u x hx with ⟨rfl, _⟩ | ⟨hx, _⟩
    · exact hc
    · exact h.empty u x hx hn

/-- A new object with memory that nobody has. -/
theorem Owned.given {w : World} (h : Owned w) {v : Nat} {t : Stack} (hv : w.objs v = none) (hp : t.p ≠ 0) (hn : t.p ∉ w.heap) :
    Owned ⟨t.p :: w.heap, putObj w.objs v (some t)⟩ := by
  have look : ∀ u x, putObj w.objs v (some t) u = some x → (x = t ∧ u = v) ∨ (w.objs u = some x ∧ u ≠ v) := by
    intro u x hx
    by_cases hu : u = v
    · subst hu
      rw [putObj_same] at hx
      injection hx with hx
      exact Or.inl ⟨hx.symm, rfl⟩
    · rw [putObj_other hu] at hx
      exact Or.inr ⟨hx, hu⟩
  refine ⟨List.nodup_cons.2 ⟨hn, h.nodup⟩, ?_, ?_, ?_, ?_, ?_⟩
  · intro hm
    rcases List.mem_cons.1 hm with e | e
    · exact hp e.symm
    · exact h.nonzero e
  · intro u x hx hne
    rcases look u x hx with ⟨rfl, _⟩ | ⟨hx, _⟩
    · exact List.mem_cons_self
    · exact List.mem_cons_of_mem _ (h.has u x hx hne)
  · intro u u2 x x2 hx hx2 hne he
    rcases look u x hx with ⟨rfl, rfl⟩ | ⟨hy, _⟩
    · rcases look u2 x2 hx2 with ⟨rfl, rfl⟩ | ⟨hx2, _⟩
      · rfl
      · exact absurd (he ▸ h.has u2 x2 hx2 (he ▸ hne)) hn
    · rcases look u2 x2 hx2 with ⟨rfl, rfl⟩ | ⟨hx2, _⟩
      · exact absurd (he ▸ h.has u x hy hne) hn
      · exact h.own u u2 x x2 hy hx2 hne he
  · intro p hpm
    rcases List.mem_cons.1 hpm with rfl | hpm
    · exact ⟨v, t, putObj_same, rfl⟩
    · obtain ⟨u, x, hx, e⟩ := h.all p hpm
      have hu : u ≠ v := by
        rintro rfl
        rw [hv] at hx
        cases hx
      exact ⟨u, x, by dsimp only; rw [putObj_other hu]; exact hx, e⟩
  · intro u x hx h0
    rcases look u x hx with ⟨rfl, _⟩ | ⟨hx, _⟩
    · exact absurd h0 hp
    · exact h.empty u x hx h0

/-- An object is gone and its memory was given back. -/
theorem Owned.gone {w : World} (h : Owned w) {v : Nat} {s : Stack} (hs : w.objs v = some s) :
    ∃ heap, dynFree w.heap s = .ok heap ∧ Owned ⟨heap, putObj w.objs v none⟩ := by
  have look : ∀ u x, putObj w.objs v none u = some x → w.objs u = some x ∧ u ≠ v := by
    intro u x hx
    by_cases hu : u = v
    · subst hu
      rw [putObj_same] at hx
      cases hx
    · rw [putObj_other hu] at hx
      exact ⟨hx, hu⟩
  by_cases hp : s.p = 0
  · refine ⟨w.heap, by rw [dynFree, if_neg (by simpa using hp)], h.nodup, h.nonzero, ?_, ?_, ?_, ?_⟩
    · exact fun u x hx hn => h.has u x (look u x hx).1 hn
    · exact fun u u2 x x2 hx hx2 hn he => h.own u u2 x x2 (look u x hx).1 (look u2 x2 hx2).1 hn he
    · intro p hpm
      obtain ⟨u, x, hx, e⟩ := h.all p hpm
      have hu : u ≠ v := by
        rintro rfl
        rw [hs] at hx
        injection hx with hx
        subst hx
        exact h.nonzero (hp ▸ e ▸ hpm)
      exact ⟨u, x, by dsimp only; rw [putObj_other hu]; exact hx, e⟩
    · exact fun u x hx hn => h.empty u x (look u x hx).1 hn
  · refine ⟨w.heap.erase s.p, by rw [dynFree, if_pos hp, mfree, if_pos (h.has v s hs hp)], h.nodup.erase _, ?_, ?_, ?_, ?_, ?_⟩
    · exact fun hm => h.nonzero (List.mem_of_mem_erase hm)
    · intro u x hx hn
      obtain ⟨hx, hu⟩ := look u x hx
      refine (List.mem_erase_of_ne ?_).2 (h.has u x hx hn)
      exact fun e => hu (h.own u v x s hx hs hn e)
    · exact fun u u2 x x2 hx hx2 hn he => h.own u u2 x x2 (look u x hx).1 (look u2 x2 hx2).1 hn he
    · intro p hpm
      obtain ⟨u, x, hx, e⟩ := h.all p (List.mem_of_mem_erase hpm)
      have hu : u ≠ v := by
        rintro rfl
        rw [hs] at hx
        injection hx with hx
        subst hx
        have := (List.Nodup.mem_erase_iff h.nodup).1 hpm
        exact this.1 e.symm
      exact ⟨u, x, by dsimp only; rw [putObj_other hu]; exact hx, e⟩
    · exact fun u x hx hn => h.empty u x (look u x hx).1 hn

/-- Two objects change places with a new one. -/
theorem Owned.moved {w : World} (h : Owned w) {v u : Nat} {s : Stack} (hne : v ≠ u) (hv : w.objs v = none) (hu : w.objs u = some s) :
    Owned ⟨w.heap, putObj (putObj w.objs u (some dynMoved)) v (some s)⟩ := by
  have look : ∀ y x, putObj (putObj w.objs u (some dynMoved)) v (some s) y = some x →
      (y = v ∧ x = s) ∨ (y = u ∧ x = dynMoved) ∨ (y ≠ v ∧ y ≠ u ∧ w.objs y = some x) := by
    intro y x hx
    by_cases h1 : y = v
    · subst h1
      rw [putObj_same] at hx
      injection hx with hx
      exact Or.inl ⟨rfl, hx.symm⟩
    · rw [putObj_other h1] at hx
      by_cases h2 : y = u
      · subst h2
        rw [putObj_same] at hx
        injection hx with hx
        exact Or.inr (Or.inl ⟨rfl, hx.symm⟩)
      · rw [putObj_other h2] at hx
        exact Or.inr (Or.inr ⟨h1, h2, hx⟩)
  refine ⟨h.nodup, h.nonzero, ?_, ?_, ?_, ?_⟩
  · intro y x hx hn
    rcases look y x hx with ⟨_, rfl⟩ | ⟨_, rfl⟩ | ⟨_, _, hx⟩
    · exact h.has u x hu hn
    · exact absurd rfl hn
    · exact h.has y x hx hn
  · intro y y2 x x2 hx hx2 hn he
    rcases look y x hx with ⟨rfl, rfl⟩ | ⟨_, rfl⟩ | ⟨g1, g2, hy⟩
    · rcases look y2 x2 hx2 with ⟨rfl, rfl⟩ | ⟨_, rfl⟩ | ⟨k1, k2, hx2⟩
      · rfl
      · exact absurd he hn
      · exact absurd (h.own u y2 x x2 hu hx2 hn he).symm k2
    · exact absurd rfl hn
    · rcases look y2 x2 hx2 with ⟨rfl, rfl⟩ | ⟨_, rfl⟩ | ⟨k1, k2, hx2⟩
      · exact absurd (h.own y u x x2 hy hu hn he) g2
      · exact absurd he hn
      · exact h.own y y2 x x2 hy hx2 hn he
  · intro p hpm
    obtain ⟨y, x, hx, e⟩ := h.all p hpm
    by_cases h2 : y = u
    · subst h2
      rw [hu] at hx
      injection hx with hx
      subst hx
      exact ⟨v, s, putObj_same, e⟩
    · have h1 : y ≠ v := by
        rintro rfl
        rw [hv] at hx
        cases hx
      exact ⟨y, x, by dsimp only; rw [putObj_other h1, putObj_other h2]; exact hx, e⟩
  · intro y x hx hn
    rcases look y x hx with ⟨_, rfl⟩ | ⟨_, rfl⟩ | ⟨_, _, hx⟩
    · exact h.empty u x hu hn
    · rfl
    · exact h.empty y x hx hn

theorem allocate_same {s t : Stack} {b : Block} {size a : U64} (h : s.allocate size a = .ok (b, t)) : t.p = s.p ∧ t.cap = s.cap := by
  unfold Stack.allocate at h
  split at h
  · injection h with h
    injection h with _ h
    subst h
    exact ⟨rfl, rfl⟩
  · cases he : s.endPtr with
    | error _ => rw [he] at h; cases h
    | ok e =>
      rw [he, ok_bind] at h
      cases ho : alignmentOffset e a with
      | error _ => rw [ho] at h; cases h
      | ok o =>
        rw [ho, ok_bind] at h
        split at h
        · injection h with h
          injection h with _ h
          subst h
          exact ⟨rfl, rfl⟩
        · rw [ok_bind] at h
          dsimp only at h
          cases hi : isPointerAligned (e + o) a with
          | error _ => rw [hi] at h; cases h
          | ok i =>
            rw [hi, ok_bind] at h
            cases ha : assert i with
            | error _ => rw [ha] at h; cases h
            | ok _ =>
              rw [ha, ok_bind] at h
              injection h with h
              injection h with _ h
              subst h
              exact ⟨rfl, rfl⟩

/-- A computation that does not end in the fault `.invalid`. -/
def Valid {α : Type} (x : C α) : Prop := x ≠ .error .invalid

theorem Valid.bind {α β : Type} {x : C α} {g : α → C β} (hx : Valid x) (hg : ∀ a, Valid (g a)) : Valid (x >>= g) := by
  cases x with
  | ok a => exact hg a
  | error e =>
    intro h
    injection h with h
    subst h
    exact hx rfl

theorem Valid.ok {α : Type} (a : α) : Valid (.ok a) := by intro h; cases h

theorem assert_valid (b : Bool) : Valid (assert b) := by
  cases b <;> (intro h; cases h)

theorem isPointerAligned_valid (p a : U64) : Valid (isPointerAligned p a) := by
  unfold isPointerAligned
  split
  · intro h; cases h
  · exact Valid.ok _

theorem alignmentOffset_valid (p a : U64) : Valid (alignmentOffset p a) := by
  unfold alignmentOffset
  refine (assert_valid _).bind fun _ => ?_
  exact (isPointerAligned_valid _ _).bind fun _ => (assert_valid _).bind fun _ => Valid.ok _

theorem endPtr_valid (s : Stack) : Valid s.endPtr := (assert_valid _).bind fun _ => Valid.ok _

theorem allocate_valid (s : Stack) (size a : U64) : Valid (s.allocate size a) := by
  unfold Stack.allocate
  split
  · exact Valid.ok _
  · refine (endPtr_valid s).bind fun _ => (alignmentOffset_valid _ _).bind fun _ => ?_
    split
    · exact Valid.ok _
    · exact (endPtr_valid s).bind fun _ => (isPointerAligned_valid _ _).bind fun _ => (assert_valid _).bind fun _ => Valid.ok _

theorem isMostRecent_valid (s : Stack) (p size : U64) : Valid (s.isMostRecent p size) :=
  (alignmentOffset_valid _ _).bind fun _ => (endPtr_valid s).bind fun _ => Valid.ok _

theorem free_valid (s : Stack) (p size a : U64) : Valid (s.free p size a) := by
  unfold Stack.free
  refine (assert_valid _).bind fun _ => ?_
  refine Valid.bind ?_ fun _ => (assert_valid _).bind fun _ => ?_
  · unfold Stack.freeOwned Stack.owns
    split
    · exact Valid.ok _
    · exact (assert_valid _).bind fun _ => Valid.ok _
  refine Valid.bind ?_ fun _ => (assert_valid _).bind fun _ => ?_
  · unfold Stack.freeInOrder
    split
    · exact Valid.ok _
    · exact isMostRecent_valid _ _ _
  refine Valid.bind ?_ fun _ => ?_
  · unfold Stack.freeRecent
    split
    · exact Valid.ok _
    · exact isMostRecent_valid _ _ _
  split
  · exact (alignmentOffset_valid _ _).bind fun _ => Valid.ok _
  · exact Valid.ok _

theorem free_same {s t : Stack} {p size a : U64} (h : s.free p size a = .ok t) : t.p = s.p ∧ t.cap = s.cap := by
  unfold Stack.free at h
  cases h1 : assert s.isValid with
  | error _ => rw [h1] at h; cases h
  | ok _ =>
    rw [h1, ok_bind] at h
    cases h2 : s.freeOwned p with
    | error _ => rw [h2] at h; cases h
    | ok b2 =>
      rw [h2, ok_bind] at h
      cases h3 : assert b2 with
      | error _ => rw [h3] at h; cases h
      | ok _ =>
        rw [h3, ok_bind] at h
        cases h4 : s.freeInOrder p size with
        | error _ => rw [h4] at h; cases h
        | ok b4 =>
          rw [h4, ok_bind] at h
          cases h5 : assert b4 with
          | error _ => rw [h5] at h; cases h
          | ok _ =>
            rw [h5, ok_bind] at h
            cases h6 : s.freeRecent p size with
            | error _ => rw [h6] at h; cases h
            | ok b6 =>
              rw [h6, ok_bind] at h
              cases b6
              · injection h with h
                subst h
                exact ⟨rfl, rfl⟩
              · rw [if_pos rfl] at h
                cases h7 : alignmentOffset (p + size) s.last with
                | error _ => rw [h7] at h; cases h
                | ok _ =>
                  rw [h7, ok_bind] at h
                  injection h with h
                  subst h
                  exact ⟨rfl, rfl⟩

theorem step_owned {w : World} (h : Owned w) (op : DynOp) : Valid (w.step op) ∧ ∀ w', w.step op = .ok w' → Owned w' := by
  have stay : Valid (.ok w : C World) ∧ ∀ w', (.ok w : C World) = .ok w' → Owned w' := by
    refine ⟨Valid.ok _, ?_⟩
    intro w' e
    injection e with e
    exact e ▸ h
  have becomes : ∀ w2, Owned w2 → Valid (.ok w2 : C World) ∧ ∀ w', (.ok w2 : C World) = .ok w' → Owned w' := by
    intro w2 h2
    refine ⟨Valid.ok _, ?_⟩
    intro w' e
    injection e with e
    exact e ▸ h2
  cases op with
  | default v =>
    rw [World.step]
    cases hv : w.objs v with
    | some s => exact stay
    | none => exact becomes _ (h.fresh hv rfl rfl)
  | make v capacity answer =>
    rw [World.step]
    cases hv : w.objs v with
    | some s => exact stay
    | none =>
      apply becomes
      unfold dynMake malloc
      dsimp only
      by_cases hc : capacity = 0
      · rw [if_neg (by simpa using hc)]
        exact h.fresh hv rfl rfl
      · rw [if_pos hc]
        by_cases ha : answer = 0 ∨ answer ∈ w.heap
        · rw [if_pos ha]
          exact h.fresh hv rfl (by simp)
        · rw [if_neg ha]
          exact h.given (t := ⟨answer, 0, _, 0⟩) hv (fun e => ha (Or.inl e)) (fun e => ha (Or.inr e))
  | moveMake v u =>
    rw [World.step]
    cases hv : w.objs v with
    | some s => exact stay
    | none =>
      cases hu : w.objs u with
      | none => exact stay
      | some s =>
        apply becomes
        exact h.moved (by rintro rfl; rw [hv] at hu; cases hu) hv hu
  | moveAssign v u =>
    rw [World.step]
    cases hv : w.objs v with
    | none => exact stay
    | some d =>
      cases hu : w.objs u with
      | none => exact stay
      | some s =>
        dsimp only
        by_cases hne : v = u
        · rw [if_neg (by simpa using hne)]
          exact stay
        · rw [if_pos hne]
          obtain ⟨heap, e, h2⟩ := h.gone hv
          rw [e, ok_bind]
          apply becomes
          have h3 := h2.moved (v := v) (u := u) (s := s) hne putObj_same (by dsimp only; rw [putObj_other (Ne.symm hne)]; exact hu)
          have : putObj (putObj (putObj w.objs v none) u (some dynMoved)) v (some s) = putObj (putObj w.objs v (some s)) u (some dynMoved) := by
            funext y
            simp only [putObj]
            by_cases h1 : y = v
            · have : y ≠ u := fun e => hne (h1 ▸ e)
              simp [h1, hne]
            · simp [h1]
          rw [← this]
          exact h3
  | destroy v =>
    rw [World.step]
    cases hv : w.objs v with
    | none => exact stay
    | some s =>
      obtain ⟨heap, e, h2⟩ := h.gone hv
      dsimp only
      rw [e, ok_bind]
      exact becomes _ h2
  | allocate v size a =>
    rw [World.step]
    cases hv : w.objs v with
    | none => exact stay
    | some s =>
      dsimp only
      refine ⟨(allocate_valid s size a).bind fun _ => Valid.ok _, ?_⟩
      intro w' e
      cases ha : s.allocate size a with
      | error _ => rw [ha] at e; cases e
      | ok x =>
        rw [ha, ok_bind] at e
        injection e with e
        subst e
        obtain ⟨b, t⟩ := x
        exact h.same hv (allocate_same ha).1 (allocate_same ha).2
  | free v p size a =>
    rw [World.step]
    cases hv : w.objs v with
    | none => exact stay
    | some s =>
      dsimp only
      refine ⟨(free_valid s p size a).bind fun _ => Valid.ok _, ?_⟩
      intro w' e
      cases ha : s.free p size a with
      | error _ => rw [ha] at e; cases e
      | ok t =>
        rw [ha, ok_bind] at e
        injection e with e
        subst e
        exact h.same hv (free_same ha).1 (free_same ha).2
  | clear v =>
    rw [World.step]
    cases hv : w.objs v with
    | none => exact stay
    | some s => exact becomes _ (h.same hv rfl rfl)

theorem run_owned : ∀ (ops : List DynOp) {w : World}, Owned w → Valid (w.run ops) ∧ ∀ w', w.run ops = .ok w' → Owned w'
  | [], w, h => by
    refine ⟨Valid.ok _, ?_⟩
    intro w' e
    injection e with e
    exact e ▸ h
  | op :: ops, w, h => by
    rw [World.run]
    have hs := step_owned h op
    cases e : w.step op with
    | error x =>
      rw [e] at hs
      refine ⟨fun h => hs.1 (by injection h with h; rw [h]), ?_⟩
      intro w' e
      cases e
    | ok w1 =>
      rw [ok_bind]
      exact run_owned ops (hs.2 w1 e)

theorem start_owned : Owned World.start :=
  ⟨List.nodup_nil, by simp [World.start], by simp [World.start], by simp [World.start], by simp [World.start], by simp [World.start]⟩

/-- C251: whatever a program does with dynamic stack allocators, it never gives memory back that it does not have: no block is freed twice. -/
theorem C251_not_freed_twice (ops : List DynOp) : World.start.run ops ≠ .error .invalid := (run_owned ops start_owned).1

/-- C251: at each time the memory that was given and not given back is exactly that of the allocators that exist, each has its own, and those without
memory have no capacity. -/
theorem C251_owned (ops : List DynOp) (w : World) (h : World.start.run ops = .ok w) :
    (∀ p, p ∈ w.heap ↔ p ≠ 0 ∧ ∃ v s, w.objs v = some s ∧ s.p = p) ∧ w.heap.Nodup ∧
      (∀ v u s t, w.objs v = some s → w.objs u = some t → s.p ≠ 0 → s.p = t.p → v = u) ∧
      ∀ v s, w.objs v = some s → s.p = 0 → s.cap = 0 := by
  have ho := (run_owned ops start_owned).2 w h
  refine ⟨fun p => ⟨fun hp => ⟨fun e => ho.nonzero (e ▸ hp), ho.all p hp⟩, ?_⟩, ho.nodup, ho.own, ho.empty⟩
  rintro ⟨hp, v, s, hs, rfl⟩
  exact ho.has v s hs hp

/-- C251: when all allocators were destroyed, all memory was given back. -/
theorem C251_all_given_back (ops : List DynOp) (w : World) (h : World.start.run ops = .ok w) (hd : ∀ v, w.objs v = none) : w.heap = [] := by
  have ho := (run_owned ops start_owned).2 w h
  cases hh : w.heap with
  | nil => rfl
  | cons p l =>
    obtain ⟨v, s, hs, _⟩ := ho.all p (by rw [hh]; exact List.mem_cons_self)
    rw [hd v] at hs
    cases hs

/-- Two allocators are made, one is moved into the other, a third one is made of that, all are destroyed. -/
def dynSample : List DynOp := [.make 0 64 0x1000, .allocate 0 16 8, .make 1 32 0x2000, .moveAssign 1 0, .moveMake 2 1, .moveAssign 2 2, .make 3 8 0,
  .destroy 0, .destroy 1, .destroy 2, .destroy 3]

example : ∃ w, World.start.run dynSample = .ok w ∧ w.heap = [] ∧ w.objs 0 = none ∧ w.objs 1 = none ∧ w.objs 2 = none ∧ w.objs 3 = none :=
  ⟨_, rfl, rfl, rfl, rfl, rfl, rfl⟩

example : ∃ w, World.start.run (dynSample.take 6) = .ok w ∧ w.heap = [0x1000] ∧ w.objs 2 = some ⟨0x1000, 16, 64, 1⟩ := ⟨_, rfl, rfl, rfl⟩

/-! ### C252 moving dynamic stack allocators -/

/-- C252: moving hands over memory, fill level and capacity; the object moved from is left without memory. -/
theorem C252_moved (w : World) (v u : Nat) (s : Stack) (hne : v ≠ u) (hu : w.objs u = some s) :
    (w.objs v = none → ∃ w', w.step (.moveMake v u) = .ok w' ∧ w'.heap = w.heap ∧ w'.objs v = some s ∧
      (∃ t, w'.objs u = some t ∧ t.p = 0 ∧ t.sz = 0 ∧ t.cap = 0) ∧ ∀ x, x ≠ v → x ≠ u → w'.objs x = w.objs x) ∧
    ∀ d w', w.objs v = some d → w.step (.moveAssign v u) = .ok w' → w'.objs v = some s ∧
      (∃ t, w'.objs u = some t ∧ t.p = 0 ∧ t.sz = 0 ∧ t.cap = 0) ∧ (∀ x, x ≠ v → x ≠ u → w'.objs x = w.objs x) ∧
      (d.p = 0 → w'.heap = w.heap) ∧ (d.p ≠ 0 → w'.heap = w.heap.erase d.p) := by
  constructor
  · intro hv
    refine ⟨⟨w.heap, putObj (putObj w.objs u (some dynMoved)) v (some s)⟩, ?_, rfl, putObj_same, ⟨dynMoved, ?_, rfl, rfl, rfl⟩, ?_⟩
    · rw [World.step, hv, hu]
    · dsimp only
      rw [putObj_other (Ne.symm hne), putObj_same]
    · intro x h1 h2
      dsimp only
      rw [putObj_other h1, putObj_other h2]
  · intro d w' hv e
    rw [World.step, hv, hu] at e
    dsimp only at e
    rw [if_pos hne] at e
    cases hd : dynFree w.heap d with
    | error _ => rw [hd] at e; cases e
    | ok heap =>
      rw [hd, ok_bind] at e
      injection e with e
      subst e
      unfold dynFree mfree at hd
      refine ⟨by dsimp only; rw [putObj_other hne, putObj_same], ⟨dynMoved, putObj_same, rfl, rfl, rfl⟩, ?_, ?_, ?_⟩
      · intro x h1 h2
        dsimp only
        rw [putObj_other h2, putObj_other h1]
      · intro h0
        rw [if_neg (by simpa using h0)] at hd
        injection hd with hd
        exact hd.symm
      · intro h0
        rw [if_pos h0] at hd
        split at hd
        · injection hd with hd
          exact hd.symm
        · cases hd

example : ∃ w, World.start.run (dynSample.take 3) = .ok w ∧ w.objs 0 = some ⟨0x1000, 16, 64, 1⟩ ∧ w.objs 1 = some ⟨0x2000, 0, 32, 0⟩ := ⟨_, rfl, rfl, rfl⟩

/-- C252: assigning an allocator to itself changes nothing. -/
theorem C252_self (w : World) (v : Nat) : w.step (.moveAssign v v) = .ok w := by
  rw [World.step]
  split
  · rw [if_neg (by simp)]
  · rfl

/-- C252: an allocator without memory (after a move, default constructed, or when there was none) answers requests with null, and is unchanged. -/
theorem C252_without_memory (s : Stack) (hp : s.p = 0) (hs : s.sz = 0) (hc : s.cap = 0) (size a : U64) (ha : ∃ k, a.toNat = 2 ^ k) (hsize : size ≠ 0) :
    s.allocate size a = .ok (⟨0, 0⟩, s) := by
  obtain ⟨p, sz, cap, last⟩ := s
  dsimp only at hp hs hc
  subst hp hs hc
  have hv : (⟨0, 0, 0, last⟩ : Stack).endPtr = .ok 0 := rfl
  have hpow : Pow2 a.toNat := ha
  have ho := alignmentOffset_ok (ptr := 0) hpow
  have hz : (a - 0) &&& (a - 1) = 0 := by
    have := offset_toNat (ptr := 0) hpow
    apply BitVec.eq_of_toNat_eq
    rw [this, show (0 : U64).toNat = 0 from rfl, pad_of_dvd (Nat.dvd_zero _)]
  rw [hz] at ho
  rw [Stack.allocate, if_neg hsize, hv, ok_bind, ho, ok_bind, if_pos]
  · rfl
  · dsimp only
    rw [BitVec.lt_def]
    have := pos_of_ne_zero hsize
    simpa using this

example : dynMoved.p = 0 ∧ dynMoved.sz = 0 ∧ dynMoved.cap = 0 ∧ dynMoved.allocate 16 8 = .ok (⟨0, 0⟩, dynMoved) := by decide

end Tm.Alloc
