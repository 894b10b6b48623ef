import Verif.Alloc.MonoLemmas
/-!
# Properties of `MonotonicAllocator`
-/
namespace Tm.Alloc

/-- C202, what is proved of it: if the memory for the array of stack allocators happens to be zero, then all blocks that were given are aligned,
have the size that was asked for, lie in pages that were mapped, and no two of them overlap. (Missing: other memory, see `C202_not_first`, and
sizes and alignments of 2^62 and more, with which additions overflow.) -/
theorem C202_blocks_partial {granularity : U64} (hg : 0 < granularity.toNat) (hg62 : granularity.toNat < 2 ^ 62) {c : Pool} (h : c.Reached granularity) :
    (∀ b ∈ c.live, 0 < b.size.toNat ∧ IsAligned b ∧ ∃ r ∈ c.mapped, Inside r.1 r.2 b) ∧ c.live.Pairwise Disjoint := by
  have hi := (reached_inv hg hg62 h).all
  refine ⟨fun b hb => ?_, hi.disjoint⟩
  obtain ⟨b1, b2, i, s, b3, b4, b5⟩ := hi.lives b hb
  refine ⟨b1, b2, ?_⟩
  rcases hi.each s (List.mem_of_getElem? b3) with rfl | ⟨g, hm⟩
  · have : b.stop ≤ 0 := by simpa [Stack.empty] using b5
    unfold Live.stop at this
    omega
  · have := g.fill
    exact ⟨_, hm, b4, by unfold Stack.region; simp only; omega⟩

/-- An answer of the system. -/
def samplePage : Given := ⟨0x7000, 0x10000⟩

/-- Two blocks on a page, and one on its own pages. -/
example : ∃ c, Pool.Reached 4096 c ∧ c.live = [⟨0x20000, 5000, 8⟩, ⟨0x10010, 100, 16⟩, ⟨0x10000, 3, 1⟩] ∧ c.mapped = [(0x20000, 5000), (0x10000, 4096)] := by
  have f1 : ∀ (c : Pool) (q : Request), c.mapped = [] → c.mono.blockSize = 4096 → q.given.page = 0x10000 → q.size.toNat < 5000 → c.Fair q := by
    intro c q h1 h2 h3 h4 size hs _
    rw [h1, h2, h3]
    rw [h2] at hs
    refine ⟨by decide, ?_, by simp⟩
    rcases hs with rfl | rfl
    · decide
    · have : (0x10000 : U64).toNat = 0x10000 := by decide
      omega
  refine ⟨_, .step (.step (.step (.made 0x5000 (by decide)) (f1 _ ⟨3, 1, ⟨0x5000, 0x10000⟩⟩ rfl rfl rfl (by decide)) (by decide) (by decide) rfl)
    (q := ⟨100, 16, ⟨0x6000, 0⟩⟩) ?_ (by decide) (by decide) rfl) (q := ⟨5000, 8, ⟨0x7000, 0x20000⟩⟩) ?_ (by decide) (by decide) rfl, by decide, by decide⟩
  · intro size _ h
    exact absurd rfl h
  · intro size hs _
    have hs' : size.toNat = 4096 ∨ size.toNat = 5000 := by
      rcases hs with rfl | rfl
      · exact .inl rfl
      · exact .inr rfl
    refine ⟨by decide, ?_, fun r hr x hx => ?_⟩
    · have : (0x20000 : U64).toNat = 0x20000 := by decide
      simp only
      omega
    · have hr' : r = (0x10000, 4096) := by
        change r ∈ [((0x10000 : U64), (4096 : U64))] at hr
        simpa using hr
      subst hr'
      have e1 : (0x20000 : U64).toNat = 0x20000 := by decide
      have e2 : (0x10000 : U64).toNat = 0x10000 := by decide
      have e3 : (4096 : U64).toNat = 4096 := by decide
      simp only at hx
      omega

/-- C202 does not hold if the memory that `TM_MALLOC` gives is not zero: the first stack allocator is whatever was in it, and the first block
is given from memory that was never mapped. -/
theorem C202_not_first : ∃ (memory : Stack) (c : Pool), Pool.step ⟨Mono.make 0x5000 memory 4096, [], []⟩ ⟨16, 8, samplePage⟩ = .ok c ∧
    c.live = [⟨0x1234000, 16, 8⟩] ∧ c.mapped = [] :=
  ⟨⟨0x1234000, 0, 100, 0⟩, _, rfl, by decide, by decide⟩

/-- C203, what is proved of it: a request for at least one byte, with an alignment that divides the granularity, is met whenever the system
gives the memory that is asked for. (Missing: the same as for C202; the number of stack allocators must be less than 2^31 - 1.) -/
theorem C203_met_partial {granularity : U64} (hg : 0 < granularity.toNat) (hg62 : granularity.toNat < 2 ^ 62) {c : Pool} (h : c.Reached granularity)
    {q : Request} (hf : c.Fair q) (h0 : q.size ≠ 0) (h62 : q.size.toNat < 2 ^ 62) (hp : ∃ k, q.align.toNat = 2 ^ k)
    (hd : q.align.toNat ∣ granularity.toNat) (ht : q.given.table ≠ 0) (hpage : q.given.page ≠ 0) (hn : c.mono.capacity < 2 ^ 31 - 1) :
    ∃ c' r, c.step q = .ok c' ∧ c'.live = ⟨r, q.size, q.align⟩ :: c.live := by
  have hi := reached_inv hg hg62 h
  have ha : q.align.toNat ≤ 2 ^ 62 := Nat.le_trans (Nat.le_of_dvd hg hd) (Nat.le_of_lt hg62)
  unfold Pool.step
  rcases allocate_called hi hg hg62 hf h62 ha (fun _ => hp) with ⟨-, h1⟩ | ⟨b, m', pages, h1, h2⟩
  · omega
  · rw [h1, ok_bind]
    rcases h2 with ⟨rfl, hc⟩ | ⟨r, hr, rfl, hc⟩
    · exfalso
      cases hc with
      | nothing h => exact ht h
      | empty _ h => exact hpage h
      | @small cur hcur size hs ht' hpage' h0' hle hsmall =>
        have h3 := hsmall h0
        obtain ⟨f1, -, -⟩ := hf size hs hpage
        rw [hi.block] at f1
        rw [pad_of_dvd (Nat.dvd_trans hd f1)] at h3
        omega
    · exact ⟨_, r, rfl, by simp only [if_neg hr]⟩

/-- A fresh allocator and a request of 16 bytes meet these conditions. -/
example : ∃ c : Pool, c.Reached 4096 ∧ c.Fair ⟨16, 8, samplePage⟩ ∧ (∃ k, (8 : U64).toNat = 2 ^ k) ∧ (8 : U64).toNat ∣ (4096 : U64).toNat ∧
    samplePage.table ≠ 0 ∧ samplePage.page ≠ 0 ∧ c.mono.capacity < 2 ^ 31 - 1 := by
  refine ⟨_, .made 0x5000 (by decide), ?_, ⟨3, by decide⟩, by decide, by decide, by decide, by decide⟩
  intro size hs _
  have hs' : size.toNat = 4096 ∨ size.toNat = 16 := by
    rcases hs with rfl | rfl
    · exact .inl rfl
    · exact .inr rfl
  refine ⟨by decide, ?_, by simp⟩
  have : samplePage.page.toNat = 0x10000 := by decide
  simp only
  omega

/-- C203 does not hold for a request of 0 bytes: a page is mapped for it, the rest of the page before is not used any more, and no block is given. -/
theorem C203_not_zero : ∃ c c' : Pool, Pool.Reached 4096 c ∧ c.mapped = [(0x10000, 4096)] ∧ c.step ⟨0, 8, ⟨0x6000, 0x20000⟩⟩ = .ok c' ∧
    c'.mapped = [(0x20000, 4096), (0x10000, 4096)] ∧ c'.live = c.live ∧ c'.mono.current = 2 := by
  refine ⟨_, _, .step (.made 0x5000 (by decide)) (q := ⟨16, 8, samplePage⟩) ?_ (by decide) (by decide) rfl, by decide, rfl, by decide, rfl, by decide⟩
  intro size hs _
  have hs' : size.toNat = 4096 ∨ size.toNat = 16 := by
    rcases hs with rfl | rfl
    · exact .inl rfl
    · exact .inr rfl
  refine ⟨by decide, ?_, by simp⟩
  have : samplePage.page.toNat = 0x10000 := by decide
  simp only
  omega

/-- C204, what is proved of it: the array of stack allocators is given back exactly once, by the allocator that has it, unless it was asked to
leak. (Missing: the pages, see `C204_not_pages`.) -/
theorem C204_array_partial (m other : Mono) : (m.leak = false → m.table ≠ 0 → m.destroy.freed = [m.table]) ∧ (m.leak = true → m.destroy.freed = []) ∧
    (m.moveMake.1 = m ∧ m.moveMake.2.destroy.freed = []) ∧
    ((m.moveAssign other).1 = other ∧ (m.moveAssign other).2.1.destroy.freed = [] ∧ (m.moveAssign other).2.2 = m.destroy) := by
  refine ⟨fun h1 h2 => ?_, fun h => ?_, ⟨rfl, rfl⟩, rfl, rfl, rfl⟩
  · unfold Mono.destroy
    rw [if_pos (by rw [h1]; simpa using h2)]
  · unfold Mono.destroy
    rw [if_neg (by rw [h]; simp)]

/-- An allocator with an array that was not asked to leak. -/
example : (Mono.make 0x5000 Stack.empty 4096).leak = false ∧ (Mono.make 0x5000 Stack.empty 4096).table ≠ 0 := by decide

/-- C204 does not hold for the pages: an allocator that has mapped pages and was not asked to leak gives none of them back. -/
theorem C204_not_pages : ∃ c, Pool.Reached 4096 c ∧ c.mapped = [(0x10000, 4096)] ∧ c.mono.leak = false ∧ c.mono.destroy.unmapped = [] := by
  refine ⟨_, .step (.made 0x5000 (by decide)) (q := ⟨16, 8, samplePage⟩) ?_ (by decide) (by decide) rfl, by decide, by decide, by decide⟩
  intro size hs _
  have hs' : size.toNat = 4096 ∨ size.toNat = 16 := by
    rcases hs with rfl | rfl
    · exact .inl rfl
    · exact .inr rfl
  refine ⟨by decide, ?_, by simp⟩
  have : samplePage.page.toNat = 0x10000 := by decide
  simp only
  omega

/-- C205, what is proved of it: addresses in blocks that were given are owned, and addresses outside of the mapped pages are not. (Missing: the
same as for C202. Other addresses in the mapped pages must not be asked for, there is an assertion.) -/
theorem C205_owns_partial {granularity : U64} (hg : 0 < granularity.toNat) (hg62 : granularity.toNat < 2 ^ 62) {c : Pool} (h : c.Reached granularity)
    (ptr : U64) :
    (∀ b ∈ c.live, b.ptr.toNat ≤ ptr.toNat → ptr.toNat < b.stop → c.mono.owns ptr = .ok true) ∧
    (ptr ≠ 0 → (∀ r ∈ c.mapped, ¬ (r.1.toNat ≤ ptr.toNat ∧ ptr.toNat < r.1.toNat + r.2.toNat)) → c.mono.owns ptr = .ok false) ∧
    c.mono.owns 0 = .ok true := by
  have hI := reached_inv hg hg62 h
  have hi := hI.all
  -- outside of the memory of a stack allocator
  have out : ∀ s ∈ c.mono.array, ptr ≠ 0 → ¬ (s.p.toNat ≤ ptr.toNat ∧ ptr.toNat < s.p.toNat + s.cap.toNat) → s.owns ptr = .ok false := by
    intro s hs h0 hn
    unfold Stack.owns
    rw [if_neg h0]
    have e : (s.p + s.cap).toNat = s.p.toNat + s.cap.toNat ∧ (s.p + s.sz).toNat = s.p.toNat + s.sz.toNat ∧ s.sz.toNat ≤ s.cap.toNat := by
      rcases hi.each s hs with rfl | ⟨g, -⟩
      · decide
      · have := g.top
        exact ⟨by rw [BitVec.toNat_add, Nat.mod_eq_of_lt (by omega)], g.end_toNat, g.fill⟩
    have d1 : (decide (s.p ≤ ptr) && decide (ptr < s.p + s.sz)) = false := by
      rw [Bool.and_eq_false_iff, decide_eq_false_iff_not, decide_eq_false_iff_not, BitVec.le_def, BitVec.lt_def]
      omega
    have d2 : (decide (s.p ≤ ptr) && decide (ptr < s.p + s.cap)) = false := by
      rw [Bool.and_eq_false_iff, decide_eq_false_iff_not, decide_eq_false_iff_not, BitVec.le_def, BitVec.lt_def]
      omega
    simp only [d1, d2]
    rfl
  have htake : c.mono.array.take c.mono.capacity = c.mono.array := by rw [hI.cap, List.take_length]
  refine ⟨fun b hb hlo hhi => ?_, fun h0 hn => ?_, rfl⟩
  · obtain ⟨b1, b2, i, s, b3, b4, b5⟩ := hi.lives b hb
    have hs := hi.each s (List.mem_of_getElem? b3)
    have hgood : s.Good := by
      rcases hs with rfl | ⟨g, -⟩
      · have : b.stop ≤ 0 := by simpa [Stack.empty] using b5
        unfold Live.stop at this
        omega
      · exact g
    have hp0 : ptr ≠ 0 := ne_zero_of_pos (by have := hgood.p0; omega)
    unfold Mono.owns
    rw [if_neg hp0, htake]
    -- the stack allocators before
    obtain ⟨pre, post, e, hl⟩ : ∃ pre post, c.mono.array = pre ++ s :: post ∧ pre.length = i := by
      obtain ⟨hil, hie⟩ := List.getElem?_eq_some_iff.1 b3
      refine ⟨c.mono.array.take i, c.mono.array.drop (i + 1), ?_, by rw [List.length_take]; omega⟩
      rw [← hie, List.getElem_cons_drop, List.take_append_drop]
    have hap := hi.apart
    rw [e, List.map_append, List.map_cons, List.pairwise_append] at hap
    have hpre : ∀ t ∈ pre, t.owns ptr = .ok false := fun t ht => by
      refine out t (by rw [e]; exact List.mem_append_left _ ht) hp0 fun hin => ?_
      have := hap.2.2 t.region (List.mem_map_of_mem ht) s.region List.mem_cons_self ptr.toNat
      have := hgood.fill
      unfold Stack.region at *
      simp only at *
      omega
    rw [e]
    clear e hap hl
    induction pre with
    | nil =>
      rw [List.nil_append, ownsLoop]
      have : s.owns ptr = .ok true := by
        unfold Stack.owns
        rw [if_neg hp0]
        have d : (decide (s.p ≤ ptr) && decide (ptr < s.p + s.sz)) = true := by
          rw [Bool.and_eq_true, decide_eq_true_iff, decide_eq_true_iff, BitVec.le_def, BitVec.lt_def, hgood.end_toNat]
          omega
        simp only [d]
        rfl
      rw [this, ok_bind, if_pos rfl]
    | cons t pre ih =>
      rw [List.cons_append, ownsLoop, hpre t List.mem_cons_self, ok_bind]
      simp only [Bool.false_eq_true, if_false]
      exact ih fun u hu => hpre u (List.mem_cons_of_mem _ hu)
  · unfold Mono.owns
    rw [if_neg h0, htake]
    have hall : ∀ s ∈ c.mono.array, s.owns ptr = .ok false := fun s hs => out s hs h0 fun hin => by
      rcases hi.each s hs with rfl | ⟨g, hm⟩
      · have : ptr.toNat < 0 := by simpa [Stack.empty] using hin.2
        omega
      · exact hn _ hm hin
    generalize c.mono.array = l at hall
    induction l with
    | nil => rfl
    | cons s l ih =>
      rw [ownsLoop, hall s List.mem_cons_self, ok_bind]
      simp only [Bool.false_eq_true, if_false]
      exact ih fun u hu => hall u (List.mem_cons_of_mem _ hu)

end Tm.Alloc
