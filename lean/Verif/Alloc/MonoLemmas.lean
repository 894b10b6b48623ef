import Verif.Alloc.MonoSpec
import Verif.Alloc.Lemmas
import Verif.Alloc.Hist

namespace Tm.Alloc

theorem rd_some {α : Type} {l : List α} {i : Nat} {x : α} (h : l[i]? = some x) : rd l i = .ok x := by
  unfold rd
  rw [h]

/-- Regions of addresses have no common address. -/
def Apart (r t : U64 × U64) : Prop :=
  ∀ x : Nat, ¬ ((r.1.toNat ≤ x ∧ x < r.1.toNat + r.2.toNat) ∧ (t.1.toNat ≤ x ∧ x < t.1.toNat + t.2.toNat))

theorem Apart.symm {r t : U64 × U64} (h : Apart r t) : Apart t r := fun x hx => h x hx.symm

/-- The memory of a stack allocator. -/
def Stack.region (s : Stack) : U64 × U64 := (s.p, s.cap)

structure Stacks (array : List Stack) (mapped : List (U64 × U64)) (live : List Live) : Prop where
  each : ∀ s ∈ array, s = Stack.empty ∨ s.Good ∧ s.region ∈ mapped
  apart : (array.map Stack.region).Pairwise Apart
  lives : ∀ b ∈ live, 0 < b.size.toNat ∧ IsAligned b ∧ ∃ (i : Nat) (s : Stack), array[i]? = some s ∧ s.p.toNat ≤ b.ptr.toNat ∧ b.stop ≤ s.p.toNat + s.sz.toNat
  disjoint : live.Pairwise Disjoint

theorem Stacks.put {array : List Stack} {mapped : List (U64 × U64)} {live : List Live} (h : Stacks array mapped live) {i : Nat} {s s' : Stack}
    (hi : array[i]? = some s) (hg : s.Good) {r size a : U64} (ha : Pow2 a.toNat) (h0 : 0 < size.toNat)
    (hc : ¬ s.cap.toNat < s.sz.toNat + pad (s.p.toNat + s.sz.toNat) a.toNat + size.toNat)
    (hr : r.toNat = s.p.toNat + s.sz.toNat + pad (s.p.toNat + s.sz.toNat) a.toNat) (h1 : s'.p = s.p) (h2 : s'.cap = s.cap)
    (h3 : s'.sz.toNat = s.sz.toNat + pad (s.p.toNat + s.sz.toNat) a.toNat + size.toNat) :
    Stacks (array.set i s') mapped (⟨r, size, a⟩ :: live) := by
  have hil := (List.getElem?_eq_some_iff.1 hi).1
  have hmap : (array.set i s').map Stack.region = array.map Stack.region := by
    rw [List.map_set]
    refine set_same ?_
    rw [List.getElem?_map, hi]
    show some s.region = some s'.region
    unfold Stack.region
    rw [h1, h2]
  have hg' : s'.Good := ⟨by rw [h1]; exact hg.p0, by rw [h2]; exact hg.cap0, by rw [h2]; exact hg.cap62, by rw [h1, h2]; exact hg.top,
    by rw [h2, h3]; omega⟩
  have hst : s.region ∈ mapped := by
    rcases h.each s (List.mem_of_getElem? hi) with e | e
    · have := hg.p0
      rw [e] at this
      simp [Stack.empty] at this
    · exact e.2
  refine ⟨fun t ht => ?_, by rw [hmap]; exact h.apart, fun b hb => ?_, ?_⟩
  · rcases List.mem_or_eq_of_mem_set ht with ht | rfl
    · exact h.each t ht
    · refine .inr ⟨hg', ?_⟩
      unfold Stack.region at hst ⊢
      rw [h1, h2]
      exact hst
  · rcases List.mem_cons.1 hb with rfl | hb
    · refine ⟨h0, ?_, i, s', by rw [List.getElem?_set_self hil], ?_, ?_⟩
      · unfold IsAligned
        simp only
        rw [hr]
        exact pad_dvd ha.pos
      · rw [h1]; simp only; omega
      · unfold Live.stop; simp only; rw [h1]; omega
    · obtain ⟨b1, b2, j, t, b3, b4, b5⟩ := h.lives b hb
      refine ⟨b1, b2, j, ?_⟩
      by_cases hj : i = j
      · subst hj
        rw [hi] at b3
        cases b3
        refine ⟨s', by rw [List.getElem?_set_self hil], by rw [h1]; exact b4, by rw [h1]; omega⟩
      · exact ⟨t, by rw [List.getElem?_set_ne hj]; exact b3, b4, b5⟩
  · refine List.pairwise_cons.2 ⟨fun b hb => ?_, h.disjoint⟩
    obtain ⟨b1, b2, j, t, b3, b4, b5⟩ := h.lives b hb
    intro x hx
    unfold Live.stop at hx b5
    simp only at hx
    by_cases hj : i = j
    · subst hj
      rw [hi] at b3
      cases b3
      omega
    · have hjl := (List.getElem?_eq_some_iff.1 b3).1
      have htg : t.sz.toNat ≤ t.cap.toNat := by
        rcases h.each t (List.mem_of_getElem? b3) with e | e
        · rw [e]; simp [Stack.empty]
        · exact e.1.fill
      have hap : Apart s.region t.region := by
        have hp := List.pairwise_iff_getElem.1 h.apart
        have e1 : (array.map Stack.region)[i]'(by rw [List.length_map]; exact hil) = s.region := by
          rw [List.getElem_map, (List.getElem?_eq_some_iff.1 hi).2]
        have e2 : (array.map Stack.region)[j]'(by rw [List.length_map]; exact hjl) = t.region := by
          rw [List.getElem_map, (List.getElem?_eq_some_iff.1 b3).2]
        rcases Nat.lt_or_gt_of_ne hj with hlt | hgt
        · have := hp i j (by rw [List.length_map]; exact hil) (by rw [List.length_map]; exact hjl) hlt
          rwa [e1, e2] at this
        · have := hp j i (by rw [List.length_map]; exact hjl) (by rw [List.length_map]; exact hil) hgt
          rw [e1, e2] at this
          exact this.symm
      refine hap x ?_
      unfold Stack.region
      simp only
      omega

theorem Stacks.append {array : List Stack} {mapped : List (U64 × U64)} {live : List Live} (h : Stacks array mapped live) {s : Stack}
    {mapped' : List (U64 × U64)} (hm : ∀ r ∈ mapped, r ∈ mapped') (hs : s = Stack.empty ∨ s.Good ∧ s.region ∈ mapped')
    (ha : ∀ r ∈ mapped, Apart r s.region) : Stacks (array ++ [s]) mapped' live := by
  refine ⟨fun t ht => ?_, ?_, fun b hb => ?_, h.disjoint⟩
  · rcases List.mem_append.1 ht with ht | ht
    · rcases h.each t ht with e | e
      · exact .inl e
      · exact .inr ⟨e.1, hm _ e.2⟩
    · rw [List.mem_singleton] at ht
      rw [ht]
      exact hs
  · rw [List.map_append, List.map_singleton, List.pairwise_append]
    refine ⟨h.apart, List.pairwise_singleton _ _, fun r hr t ht => ?_⟩
    rw [List.mem_singleton] at ht
    subst ht
    obtain ⟨u, hu, rfl⟩ := List.mem_map.1 hr
    rcases h.each u hu with e | e
    · intro x hx
      rw [e] at hx
      simp [Stack.region, Stack.empty] at hx
    · exact ha _ e.2
  · obtain ⟨b1, b2, i, t, b3, b4⟩ := h.lives b hb
    exact ⟨b1, b2, i, t, by rw [List.getElem?_append_left (List.getElem?_eq_some_iff.1 b3).1]; exact b3, b4⟩

structure PInv (gran : U64) (c : Pool) : Prop where
  table : c.mono.table ≠ 0
  cap : c.mono.capacity = c.mono.array.length
  cur : c.mono.current < c.mono.array.length
  block : c.mono.blockSize = gran
  all : Stacks c.mono.array c.mapped c.live

theorem empty_allocate {size a : U64} (h0 : size ≠ 0) (ha : Pow2 a.toNat) : Stack.empty.allocate size a = .ok (.none, Stack.empty) := by
  unfold Stack.allocate
  rw [if_neg h0]
  have he : Stack.empty.endPtr = .ok 0 := rfl
  rw [he]
  simp only [ok_bind]
  rw [alignmentOffset_ok ha]
  simp only [ok_bind]
  have h1 : ((a - 0) &&& (a - 1)).toNat = 0 := by
    rw [offset_toNat ha]
    exact pad_of_dvd (by simp)
  rw [if_pos]
  rw [BitVec.lt_def, BitVec.toNat_add, BitVec.toNat_add, h1]
  simp only [Stack.empty]
  have := pos_of_ne_zero h0
  have := size.isLt
  simp
  omega

/-- What one call does. -/
inductive Called (m : Mono) (q : Request) : Mono → List (U64 × U64) → Option U64 → Prop
  /-- from the current stack allocator -/
  | current {s s' : Stack} {r : U64} (hi : m.array[m.current]? = some s) (hg : s.Good) (hp : Pow2 q.align.toNat) (h0 : 0 < q.size.toNat)
    (hc : ¬ s.cap.toNat < s.sz.toNat + pad (s.p.toNat + s.sz.toNat) q.align.toNat + q.size.toNat)
    (hr : r.toNat = s.p.toNat + s.sz.toNat + pad (s.p.toNat + s.sz.toNat) q.align.toNat) (h1 : s'.p = s.p) (h2 : s'.cap = s.cap)
    (h3 : s'.sz.toNat = s.sz.toNat + pad (s.p.toNat + s.sz.toNat) q.align.toNat + q.size.toNat) :
    Called m q { m with array := m.array.set m.current s' } [] (some r)
  | nothing : q.given.table = 0 → Called m q m [] none
  | empty {cur : Nat} (hcur : cur = m.current ∨ cur = m.capacity) : q.given.page = 0 → q.given.table ≠ 0 →
    Called m q { m with table := q.given.table, array := m.array ++ [Stack.empty], capacity := m.capacity + 1, current := cur } [] none
  /-- from a new one -/
  | fresh {cur : Nat} (hcur : cur = m.current ∨ cur = m.capacity) {size : U64} (hs : size = m.blockSize ∨ size = q.size) (ht : q.given.table ≠ 0)
    {s' : Stack} {r : U64} (h0 : 0 < q.size.toNat) (hp : Pow2 q.align.toNat)
    (hc : ¬ size.toNat < pad q.given.page.toNat q.align.toNat + q.size.toNat)
    (hpage : q.given.page ≠ 0) (hr : r.toNat = q.given.page.toNat + pad q.given.page.toNat q.align.toNat) (h1 : s'.p = q.given.page) (h2 : s'.cap = size)
    (h3 : s'.sz.toNat = pad q.given.page.toNat q.align.toNat + q.size.toNat) :
    Called m q { m with table := q.given.table, array := m.array ++ [s'], capacity := m.capacity + 1, current := cur } [(q.given.page, size)] (some r)
  /-- the new one is too small -/
  | small {cur : Nat} (hcur : cur = m.current ∨ cur = m.capacity) {size : U64} (hs : size = m.blockSize ∨ size = q.size) (ht : q.given.table ≠ 0)
    (hpage : q.given.page ≠ 0) (h0 : 0 < size.toNat) (hle : q.size.toNat ≤ size.toNat)
    (hsmall : q.size ≠ 0 → size.toNat < pad q.given.page.toNat q.align.toNat + q.size.toNat) :
    Called m q { m with table := q.given.table, array := m.array ++ [⟨q.given.page, 0, size, 0⟩], capacity := m.capacity + 1, current := cur }
      [(q.given.page, size)] none

theorem fresh_good {page size : U64} (hp : page ≠ 0) (h0 : 0 < size.toNat) (h62 : size.toNat < 2 ^ 62) (ht : page.toNat + size.toNat < 2 ^ 64) :
    (⟨page, 0, size, 0⟩ : Stack).Good := ⟨pos_of_ne_zero hp, h0, h62, ht, by simp⟩

theorem takePages_called {gran : U64} {c : Pool} (h : PInv gran c) {q : Request} (hf : c.Fair q) (h62 : q.size.toNat < 2 ^ 62) (ha : q.align.toNat ≤ 2 ^ 62)
    {size : U64} (hs : size = c.mono.blockSize ∨ size = q.size) (hs0 : 0 < size.toNat) (hle : q.size.toNat ≤ size.toNat) (hs62 : size.toNat < 2 ^ 62) (ht : q.given.table ≠ 0) {cur : Nat}
    (hcur : cur = c.mono.current ∨ cur = c.mono.capacity) (hpow : q.size ≠ 0 → Pow2 q.align.toNat) :
    ∃ b m' pages, Mono.takePages { c.mono with table := q.given.table, array := c.mono.array ++ [Stack.empty], capacity := c.mono.capacity + 1, current := cur } c.mono.capacity size q.given q.size q.align = .ok (b, m', pages) ∧
      (b = Block.none ∧ Called c.mono q m' pages none ∨ ∃ r, r ≠ 0 ∧ b = ⟨r, q.size⟩ ∧ Called c.mono q m' pages (some r)) := by
  unfold Mono.takePages
  by_cases hp : q.given.page = 0
  · rw [if_pos hp]
    exact ⟨_, _, _, rfl, .inl ⟨rfl, .empty hcur hp ht⟩⟩
  · rw [if_neg hp]
    have hmk : Stack.make q.given.page size = .ok ⟨q.given.page, 0, size, 0⟩ := by
      unfold Stack.make
      rw [assert_true (by rw [Bool.or_eq_true, bne_iff_ne]; exact .inl hp)]
      rfl
    rw [hmk, ok_bind]
    have hset : ∀ s : Stack, (c.mono.array ++ [Stack.empty]).set c.mono.capacity s = c.mono.array ++ [s] := fun s => by
      rw [h.cap, List.set_append_right _ _ (Nat.le_refl _)]
      simp
    obtain ⟨f1, f2, f3⟩ := hf size hs hp
    have hg := fresh_good hp hs0 hs62 f2
    by_cases h0 : q.size = 0
    · rw [h0, allocate_zero, ok_bind]
      refine ⟨_, _, _, rfl, .inl ⟨rfl, ?_⟩⟩
      simp only [hset]
      exact .small hcur hs ht hp hs0 hle (fun h => absurd h0 h)
    · have hsp := allocate_spec hg (hpow h0) ha h0 h62
      have hadd : (q.given.page.toNat + (0 : U64).toNat) = q.given.page.toNat := by simp
      simp only [hadd] at hsp
      have hz : (0 : U64).toNat = 0 := rfl
      rw [hz] at hsp
      split at hsp
      · rename_i hlt
        rw [hsp, ok_bind]
        refine ⟨_, _, _, rfl, .inl ⟨rfl, ?_⟩⟩
        simp only [hset]
        exact .small hcur hs ht hp hs0 hle (fun _ => by omega)
      · rename_i hlt
        obtain ⟨r, s', e, e1, e2, e3, -, e4⟩ := hsp
        rw [e, ok_bind]
        refine ⟨_, _, _, rfl, .inr ⟨r, ?_, rfl, ?_⟩⟩
        · have := hg.p0
          exact ne_zero_of_pos (by simp only at this; omega)
        · simp only [hset]
          exact .fresh hcur hs ht (pos_of_ne_zero h0) (hpow h0) (by omega) hp (by omega) e2 e3 (by omega)

theorem grow_called {gran : U64} {c : Pool} (h : PInv gran c) (hg0 : 0 < gran.toNat) (hg62 : gran.toNat < 2 ^ 62) {q : Request} (hf : c.Fair q)
    (h62 : q.size.toNat < 2 ^ 62) (ha : q.align.toNat ≤ 2 ^ 62) (hpow : q.size ≠ 0 → Pow2 q.align.toNat) :
    c.mono.grow q.given q.size q.align = .error .overflow ∧ c.mono.capacity = 2 ^ 31 - 1 ∨
    ∃ b m' pages, c.mono.grow q.given q.size q.align = .ok (b, m', pages) ∧
      (b = Block.none ∧ Called c.mono q m' pages none ∨ ∃ r, r ≠ 0 ∧ b = ⟨r, q.size⟩ ∧ Called c.mono q m' pages (some r)) := by
  unfold Mono.grow
  by_cases h1 : c.mono.capacity = 2 ^ 31 - 1
  · rw [if_pos h1]
    exact .inl ⟨rfl, h1⟩
  · rw [if_neg h1]
    right
    by_cases h2 : q.given.table = 0
    · rw [if_pos h2]
      exact ⟨_, _, _, rfl, .inl ⟨rfl, .nothing h2⟩⟩
    · rw [if_neg h2]
      by_cases h3 : q.size ≤ c.mono.blockSize
      · rw [if_pos h3]
        exact takePages_called h hf h62 ha (.inl rfl) (by rw [h.block]; exact hg0) (BitVec.le_def.1 h3) (by rw [h.block]; exact hg62) h2 (.inr rfl) hpow
      · rw [if_neg h3]
        have h4 : c.mono.blockSize.toNat < q.size.toNat := by
          rw [BitVec.le_def] at h3
          omega
        exact takePages_called h hf h62 ha (.inr rfl) (by omega) (Nat.le_refl _) h62 h2 (.inl rfl) hpow

theorem allocate_called {gran : U64} {c : Pool} (h : PInv gran c) (hg0 : 0 < gran.toNat) (hg62 : gran.toNat < 2 ^ 62) {q : Request} (hf : c.Fair q)
    (h62 : q.size.toNat < 2 ^ 62) (ha : q.align.toNat ≤ 2 ^ 62) (hpow : q.size ≠ 0 → Pow2 q.align.toNat) :
    c.mono.allocate q.given q.size q.align = .error .overflow ∧ c.mono.capacity = 2 ^ 31 - 1 ∨
    ∃ b m' pages, c.mono.allocate q.given q.size q.align = .ok (b, m', pages) ∧
      (b = Block.none ∧ Called c.mono q m' pages none ∨ ∃ r, r ≠ 0 ∧ b = ⟨r, q.size⟩ ∧ Called c.mono q m' pages (some r)) := by
  have hg := grow_called h hg0 hg62 hf h62 ha hpow
  obtain ⟨s, hs⟩ : ∃ s, c.mono.array[c.mono.current]? = some s := ⟨_, List.getElem?_eq_getElem h.cur⟩
  unfold Mono.allocate
  rw [assert_true (by simpa using h.table), ok_bind, rd_some hs, ok_bind]
  by_cases h0 : q.size = 0
  · rw [h0, allocate_zero, ok_bind]
    rw [h0] at hg
    exact hg
  · rcases h.all.each s (List.mem_of_getElem? hs) with rfl | ⟨hgood, -⟩
    · rw [empty_allocate h0 (hpow h0), ok_bind]
      exact hg
    · have hsp := allocate_spec hgood (hpow h0) ha h0 h62
      split at hsp
      · rw [hsp, ok_bind]
        exact hg
      · rename_i hlt
        obtain ⟨r, s', e, e1, e2, e3, -, e4⟩ := hsp
        have hr : r ≠ 0 := ne_zero_of_pos (by have := hgood.p0; omega)
        rw [e, ok_bind]
        simp only
        rw [if_pos (block_ok hr)]
        exact .inr ⟨_, _, _, rfl, .inr ⟨r, hr, rfl, .current hs hgood (hpow h0) (pos_of_ne_zero h0) hlt e1 e2 e3 e4⟩⟩

/-- The blocks after a call. -/
def taken (q : Request) (live : List Live) : Option U64 → List Live
  | none => live
  | some r => ⟨r, q.size, q.align⟩ :: live

theorem called_inv {gran : U64} {c : Pool} (h : PInv gran c) (hg0 : 0 < gran.toNat) (hg62 : gran.toNat < 2 ^ 62) {q : Request} (hf : c.Fair q)
    (h62 : q.size.toNat < 2 ^ 62) {m' : Mono} {pages : List (U64 × U64)} {o : Option U64}
    (hc : Called c.mono q m' pages o) :
    PInv gran ⟨m', pages ++ c.mapped, taken q c.live o⟩ := by
  have hsz : ∀ size, (size = c.mono.blockSize ∨ size = q.size) → size.toNat < 2 ^ 62 := fun size hs => by
    rcases hs with rfl | rfl
    · rw [h.block]; exact hg62
    · exact h62
  cases hc with
  | current hi hg hp h0 hc hr h1 h2 h3 =>
    exact ⟨h.table, by rw [List.length_set]; exact h.cap, by rw [List.length_set]; exact h.cur, h.block, h.all.put hi hg hp h0 hc hr h1 h2 h3⟩
  | nothing => exact h
  | empty hcur hp ht =>
    refine ⟨ht, ?_, ?_, h.block, h.all.append (fun _ h => h) (.inl rfl) fun r _ x hx => ?_⟩
    · simp only [List.length_append, h.cap, List.length_singleton]
    · have := h.cur
      have := h.cap
      simp only [List.length_append, List.length_singleton]
      rcases hcur with rfl | rfl <;> omega
    · simp [Stack.region, Stack.empty] at hx
  | @fresh cur hcur size hs ht s' r h0 hp hc hpage hr h1 h2 h3 =>
    obtain ⟨f1, f2, f3⟩ := hf size hs hpage
    have hgood := fresh_good hpage (by omega) (hsz size hs) f2
    have hA : Stacks (c.mono.array ++ [⟨q.given.page, 0, size, 0⟩]) ((q.given.page, size) :: c.mapped) c.live :=
      h.all.append (fun r h => List.mem_cons_of_mem _ h) (.inr ⟨hgood, List.mem_cons_self⟩) fun r hr => f3 r hr
    have hz : (0 : U64).toNat = 0 := rfl
    have := hA.put (i := c.mono.array.length) (s := ⟨q.given.page, 0, size, 0⟩) (s' := s') (r := r) (size := q.size) (a := q.align) (by simp) hgood hp h0
      (by simp only [hz, Nat.add_zero, Nat.zero_add]; exact hc) (by simp only [hz, Nat.add_zero]; exact hr) h1 h2
      (by simp only [hz, Nat.add_zero, Nat.zero_add]; exact h3)
    rw [List.set_append_right _ _ (Nat.le_refl _), Nat.sub_self] at this
    refine ⟨ht, ?_, ?_, h.block, this⟩
    · simp only [List.length_append, h.cap, List.length_singleton]
    · have := h.cur
      have := h.cap
      simp only [List.length_append, List.length_singleton]
      rcases hcur with rfl | rfl <;> omega
  | @small cur hcur size hs ht hpage h0 hle hsmall =>
    obtain ⟨f1, f2, f3⟩ := hf size hs hpage
    refine ⟨ht, ?_, ?_, h.block, h.all.append (fun r h => List.mem_cons_of_mem _ h)
      (.inr ⟨fresh_good hpage h0 (hsz size hs) f2, List.mem_cons_self⟩) fun r hr => f3 r hr⟩
    · simp only [List.length_append, h.cap, List.length_singleton]
    · have := h.cur
      have := h.cap
      simp only [List.length_append, List.length_singleton]
      rcases hcur with rfl | rfl <;> omega

theorem mono_pow2 {gran : U64} {c : Pool} (h : PInv gran c) {q : Request} {r} (e : c.mono.allocate q.given q.size q.align = .ok r) :
    q.size ≠ 0 → Pow2 q.align.toNat := by
  intro h0
  obtain ⟨s, hs⟩ : ∃ s, c.mono.array[c.mono.current]? = some s := ⟨_, List.getElem?_eq_getElem h.cur⟩
  unfold Mono.allocate at e
  rw [assert_true (by simpa using h.table), ok_bind, rd_some hs, ok_bind] at e
  cases hx : s.allocate q.size q.align with
  | error f => rw [hx] at e; cases e
  | ok x => exact allocate_pow2 (r := x.1) (s' := x.2) h0 hx

theorem step_called {gran : U64} {c c' : Pool} (h : PInv gran c) (hg0 : 0 < gran.toNat) (hg62 : gran.toNat < 2 ^ 62) {q : Request} (hf : c.Fair q)
    (h62 : q.size.toNat < 2 ^ 62) (ha : q.align.toNat ≤ 2 ^ 62) (e : c.step q = .ok c') : PInv gran c' := by
  unfold Pool.step at e
  cases hx : c.mono.allocate q.given q.size q.align with
  | error f => rw [hx] at e; cases e
  | ok x =>
    rcases allocate_called h hg0 hg62 hf h62 ha (mono_pow2 h hx) with ⟨h1, -⟩ | ⟨b, m', pages, h1, h2⟩
    · rw [h1] at hx; cases hx
    · rw [h1, ok_bind] at e
      rcases h2 with ⟨rfl, hc⟩ | ⟨r, hr, rfl, hc⟩
      · simp only [Block.none, if_true] at e
        cases e
        exact called_inv h hg0 hg62 hf h62 hc
      · simp only [if_neg hr] at e
        cases e
        exact called_inv h hg0 hg62 hf h62 hc

theorem reached_inv {gran : U64} (hg0 : 0 < gran.toNat) (hg62 : gran.toNat < 2 ^ 62) {c : Pool} (h : c.Reached gran) : PInv gran c := by
  induction h with
  | made table ht =>
    unfold Mono.make
    rw [if_neg ht]
    exact ⟨ht, rfl, by simp, rfl, fun s hs => .inl (by simpa [Stack.empty] using hs), by simp, by simp, List.Pairwise.nil⟩
  | step _ hf h1 h2 e ih => exact step_called ih hg0 hg62 hf h1 h2 e

end Tm.Alloc
