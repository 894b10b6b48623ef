import Verif.Alloc.Hist
/-!
# Properties of the stack allocator (C24 - C28, C58)
-/
namespace Tm.Alloc

/-! ## C24 alignment padding -/

/-- C24: for every address and every power-of-two alignment the computed padding makes the address a multiple of the
alignment, and no smaller padding does. In particular it is smaller than the alignment. -/
theorem C24_padding (ptr a : U64) (ha : ∃ k, a.toNat = 2 ^ k) :
    ∃ off, alignmentOffset ptr a = .ok off ∧ off.toNat < a.toNat ∧ a.toNat ∣ ptr.toNat + off.toNat ∧
      ∀ o, a.toNat ∣ ptr.toNat + o → off.toNat ≤ o := by
  have hp : Pow2 a.toNat := ha
  refine ⟨_, alignmentOffset_ok hp, ?_⟩
  rw [offset_toNat hp]
  refine ⟨pad_lt hp.pos, pad_dvd hp.pos, ?_⟩
  intro o ho
  have := pad_min (n := ptr.toNat) (m := ptr.toNat + o) (by omega) ho
  omega

example : alignmentOffset 0x1001 16 = .ok 15 := by decide

/-- C24: any other alignment, including 0, is rejected by an assertion. -/
theorem C24_other_alignments (ptr a : U64) (ha : ¬ ∃ k, a.toNat = 2 ^ k) : alignmentOffset ptr a = .error .assertion :=
  alignmentOffset_bad ha

example : alignmentOffset 0x1001 12 = .error .assertion := by decide

/-- C24: `is_power_of_two` recognises exactly the powers of two. -/
theorem C24_power_of_two (v : U64) : isPowerOfTwo v = true ↔ ∃ k, v.toNat = 2 ^ k := isPowerOfTwo_iff v

example : isPowerOfTwo 64 = true ∧ isPowerOfTwo 0 = false ∧ isPowerOfTwo 48 = false := by decide

/-! ## C25 blocks -/

/-- C25: a request for `size` bytes (below 2^62) with a power-of-two alignment never faults. It succeeds exactly if the
aligned block still fits in the buffer; then the block starts at the first aligned address at or after the fill level, ends at the new
fill level and nothing else changes. Otherwise `NULL` is returned and the allocator is unchanged. -/
theorem C25_allocate (s : Stack) (size a : U64) (hs : s.p ≠ 0 ∧ s.cap ≠ 0 ∧ s.sz.toNat ≤ s.cap.toNat)
    (hb : s.cap.toNat < 2 ^ 62 ∧ s.p.toNat + s.cap.toNat < 2 ^ 64) (ha : ∃ k, k ≤ 62 ∧ a.toNat = 2 ^ k)
    (hsize : size ≠ 0 ∧ size.toNat < 2 ^ 62) :
    ∃ start : Nat, (s.p.toNat + s.sz.toNat ≤ start ∧ a.toNat ∣ start ∧
        ∀ x, s.p.toNat + s.sz.toNat ≤ x → a.toNat ∣ x → start ≤ x) ∧
      (start + size.toNat ≤ s.p.toNat + s.cap.toNat →
        ∃ r s', s.allocate size a = .ok (⟨r, size⟩, s') ∧ r.toNat = start ∧ s'.p = s.p ∧ s'.cap = s.cap ∧
          s'.p.toNat + s'.sz.toNat = start + size.toNat) ∧
      (s.p.toNat + s.cap.toNat < start + size.toNat → s.allocate size a = .ok (⟨0, 0⟩, s)) := by
  obtain ⟨k, hk, hak⟩ := ha
  have hp : Pow2 a.toNat := ⟨k, hak⟩
  have ha62 : a.toNat ≤ 2 ^ 62 := by rw [hak]; exact Nat.pow_le_pow_right (by omega) hk
  have hg : s.Good := ⟨pos_of_ne_zero hs.1, pos_of_ne_zero hs.2.1, hb.1, hb.2, hs.2.2⟩
  refine ⟨s.p.toNat + s.sz.toNat + pad (s.p.toNat + s.sz.toNat) a.toNat, ⟨by omega, pad_dvd hp.pos, ?_⟩, ?_⟩
  · exact fun x h1 h2 => pad_min h1 h2
  have sp := allocate_spec hg hp ha62 hsize.1 hsize.2
  constructor
  · intro h
    rw [if_neg (by omega)] at sp
    obtain ⟨r, s', e0, e1, e2, e3, e4, e5⟩ := sp
    exact ⟨r, s', e0, e1, e2, e3, by rw [e2, e5]; omega⟩
  · intro h
    rw [if_pos (by omega)] at sp
    exact sp

example : (⟨0x1000, 5, 64, 1⟩ : Stack).allocate 16 8 = .ok (⟨0x1008, 16⟩, ⟨0x1000, 24, 64, 1⟩) := by decide
example : (⟨0x1000, 5, 24, 1⟩ : Stack).allocate 17 8 = .ok (⟨0, 0⟩, ⟨0x1000, 5, 24, 1⟩) := by decide

/-- C25 (partial): after any history of allocations, reallocations and frees with sizes below 2^62, in which either only the newest block
is freed or reallocated, or all blocks have the same alignment, every live block lies in the buffer, is aligned as
requested and overlaps no other live block.
Missing: histories that reallocate an older block while mixing alignments, and huge sizes; for both the claim is false,
see `C25_not_disjoint` and `C25_not_inside`. -/
theorem C25_blocks_partial {p cap : U64} {c : Client} (h : Reachable p cap c) :
    (∀ b ∈ c.live, Inside p cap b ∧ IsAligned b) ∧ c.live.Pairwise Disjoint := by
  have hi := reachable_inv h
  refine ⟨?_, hi.chain.disjoint⟩
  intro b hb
  obtain ⟨h1, h2, h3, h4, h5, h6⟩ := hi.chain.mem hb
  refine ⟨⟨h1, ?_⟩, h4⟩
  have := hi.good.fill
  rw [← hi.cap_eq]
  omega

/-- A history that meets the hypotheses: three blocks, one freed, one grown by moving, one shrunk. -/
def sampleHistory : List Event :=
  [.alloc 5 8, .alloc 3 8, .alloc 9 8, .free 0, .realloc 1 10, .realloc 0 4]

example : ((Client.fresh 0x1001 100 (List.replicate 100 0)).run sampleHistory).toOption.map (·.live) =
    some [⟨0x1018, 4, 8⟩, ⟨0x1010, 3, 8⟩] := by decide +kernel

example : Reachable 0x1001 100 ⟨⟨0x1001, 27, 100, 1⟩, List.replicate 100 7, [⟨0x1018, 4, 8⟩, ⟨0x1010, 3, 8⟩]⟩ := by
  refine Or.inr ⟨8, List.replicate 100 0, sampleHistory,
    ⟨⟨0x1001, 27, 100, 1⟩, List.replicate 100 0, [⟨0x1018, 4, 8⟩, ⟨0x1010, 3, 8⟩]⟩, ?_, ?_, ?_, ?_, rfl, rfl, rfl⟩
  · unfold Buffer; decide
  · decide
  · decide
  · decide +kernel

/-- C25 does not hold for huge sizes: `sz + offset + size` overflows and a block far larger than the buffer is handed
out. -/
theorem C25_not_inside : ∃ (p cap : U64) (c : Client), Buffer p cap (List.replicate cap.toNat 0) ∧
    (Client.fresh p cap (List.replicate cap.toNat 0)).run [.alloc 16 8, .alloc (BitVec.ofNat 64 (2 ^ 64 - 8)) 8] = .ok c ∧
    ∃ b ∈ c.live, ¬ Inside p cap b := by
  refine ⟨0x1000, 64, ⟨⟨0x1000, 8, 64, 1⟩, List.replicate 64 0, [⟨0x1010, BitVec.ofNat 64 (2 ^ 64 - 8), 8⟩, ⟨0x1000, 16, 8⟩]⟩, ?_, ?_, ?_⟩
  · unfold Buffer; decide
  · decide +kernel
  · refine ⟨⟨0x1010, BitVec.ofNat 64 (2 ^ 64 - 8), 8⟩, by simp, ?_⟩
    unfold Inside Live.stop
    decide

/-- C25 does not hold when alignments are mixed and an older block is reallocated: after a block with a larger alignment
was freed, the padding in front of it makes an older block look like the most recent one, and growing that one in place
runs over the block in between. -/
theorem C25_not_disjoint : ∃ (p cap : U64) (c : Client), Buffer p cap (List.replicate cap.toNat 0) ∧
    (Client.fresh p cap (List.replicate cap.toNat 0)).run
      [.alloc 1 1, .alloc 8 8, .alloc 16 16, .free 0, .realloc 1 10] = .ok c ∧
    ¬ c.live.Pairwise Disjoint := by
  refine ⟨0x1000, 64, ⟨⟨0x1000, 25, 64, 16⟩, List.replicate 64 0, [⟨0x1008, 8, 8⟩, ⟨0x1000, 10, 1⟩]⟩, ?_, ?_, ?_⟩
  · unfold Buffer; decide
  · decide +kernel
  · intro h
    have := (List.pairwise_cons.mp h).1 ⟨0x1000, 10, 1⟩ (by simp) 0x1008
    exact this (by decide)

/-! ## C26 frees in reverse order -/

/-- C26: blocks requested from a fresh allocator with any sizes and alignments can be freed in reverse order without a
fault (partial: the fill level then is the padding in front of the first block, which is the initial fill level only if
the buffer is aligned for the first block; see `C26_reverse_aligned` and `C26_not_restored`). -/
theorem C26_reverse_partial {p cap : U64} {mem : List Byte} (hb : Buffer p cap mem) (reqs : List (U64 × U64)) (hne : reqs ≠ [])
    (hr : ∀ r ∈ reqs, r.1.toNat < 2 ^ 62 ∧ ∃ k, k ≤ 62 ∧ r.2.toNat = 2 ^ k) {c : Client}
    (he : (Client.fresh p cap mem).run (reqs.map fun r => .alloc r.1 r.2) = .ok c) (hall : c.live.length = reqs.length) :
    ∃ c', c.run (List.replicate reqs.length (.free 0)) = .ok c' ∧ c'.live = [] ∧
      ∃ a, (reqs.head?.map (·.2)) = some a ∧ a.toNat ∣ p.toNat + c'.st.sz.toNat ∧
        ∀ x, a.toNat ∣ p.toNat + x → c'.st.sz.toNat ≤ x := by
  have hfit : ∀ r ∈ reqs, (Event.alloc r.1 r.2).Fits ∧ Pow2 r.2.toNat := by
    intro r hx
    obtain ⟨h1, k, hk, h2⟩ := hr r hx
    exact ⟨⟨h1, by rw [h2]; exact Nat.pow_le_pow_right (by omega) hk⟩, k, h2⟩
  obtain ⟨i1, i2, new, i3, i4, i5⟩ := run_allocs (tinv_fresh hb) (Or.inl rfl) hfit he
  have hnew : c.live = new := by rw [i3]; simp [Client.fresh]
  rw [hnew] at hall
  have hlen : 0 < reqs.length := List.length_pos_iff.mpr hne
  have hlast : c.st.last = 1 := by
    rcases i2 with h | h
    · exact h
    · rw [h] at hnew
      rw [← hnew] at hall
      simp [Client.fresh] at hall
      omega
  obtain ⟨c', e', j1, j2, j3⟩ := run_frees i1 hnew (fun _ => by rw [hlast]; exact ⟨0, rfl⟩)
  rw [hall] at e'
  refine ⟨c', e', j2, ?_⟩
  obtain ⟨r, rs, hrs⟩ := List.exists_cons_of_ne_nil hne
  have ha : Pow2 r.2.toNat := (hfit r (by rw [hrs]; simp)).2
  rw [i5 hall, hrs] at j3
  have ht := j1.tight
  rw [j2, j3] at ht
  have ht : p.toNat + c'.st.sz.toNat = p.toNat + pad p.toNat r.2.toNat := ht
  refine ⟨r.2, by rw [hrs]; rfl, ?_, ?_⟩
  · rw [ht]; exact pad_dvd ha.pos
  · intro x hx
    have := pad_min (n := p.toNat) (m := p.toNat + x) (by omega) hx
    omega

example : ((Client.fresh 0x1000 100 (List.replicate 100 0)).run
    [.alloc 1 1, .alloc 8 8, .alloc 3 16, .alloc 5 2, .free 0, .free 0, .free 0, .free 0]).toOption.map
      (fun c => (c.st, c.live)) = some (⟨0x1000, 0, 100, 1⟩, []) := by decide +kernel

/-- C26: if the buffer is aligned for the first block, the fill level is 0 again after freeing in reverse order. -/
theorem C26_reverse_aligned {p cap : U64} {mem : List Byte} (hb : Buffer p cap mem) (reqs : List (U64 × U64)) (hne : reqs ≠ [])
    (hr : ∀ r ∈ reqs, r.1.toNat < 2 ^ 62 ∧ ∃ k, k ≤ 62 ∧ r.2.toNat = 2 ^ k)
    (hal : ∀ r, reqs.head? = some r → r.2.toNat ∣ p.toNat) {c : Client}
    (he : (Client.fresh p cap mem).run (reqs.map fun r => .alloc r.1 r.2) = .ok c) (hall : c.live.length = reqs.length) :
    ∃ c', c.run (List.replicate reqs.length (.free 0)) = .ok c' ∧ c'.live = [] ∧ c'.st.sz = 0 := by
  obtain ⟨c', h1, h2, a, h3, h4, h5⟩ := C26_reverse_partial hb reqs hne hr he hall
  refine ⟨c', h1, h2, ?_⟩
  obtain ⟨r, rs, hrs⟩ := List.exists_cons_of_ne_nil hne
  rw [hrs] at h3 hal
  have : a = r.2 := (Option.some.inj h3).symm
  have hz := h5 0 (by rw [this]; exact hal r rfl)
  apply BitVec.eq_of_toNat_eq
  simpa using hz

/-- C26: with a single alignment, any interleaving of requests and of frees of the newest block runs without a fault, and
when no block is left the fill level is at most the padding in front of the buffer. -/
theorem C26_interleaved_uniform {p cap a : U64} {mem : List Byte} (hb : Buffer p cap mem) (ha : ∃ k, k ≤ 62 ∧ a.toNat = 2 ^ k)
    (evs : List Event) (hs : ∀ e ∈ evs, e = .free 0 ∨ ∃ size : U64, size.toNat < 2 ^ 62 ∧ e = .alloc size a) :
    ∃ c, (Client.fresh p cap mem).run evs = .ok c ∧
      (c.live = [] → ∀ x, a.toNat ∣ p.toNat + x → c.st.sz.toNat ≤ x) := by
  obtain ⟨k, hk, hak⟩ := ha
  have hp : Pow2 a.toNat := ⟨k, hak⟩
  have ha62 : a.toNat ≤ 2 ^ 62 := by rw [hak]; exact Nat.pow_le_pow_right (by omega) hk
  obtain ⟨c, e, h1, h2, h3⟩ := run_stack_uniform (a := a) (evs := evs) (tinv_fresh hb) hp (Or.inl ⟨rfl, rfl⟩)
    (by intro e he
        rcases hs e he with rfl | ⟨size, hsz, rfl⟩
        · trivial
        · exact ⟨hsz, ha62⟩)
    (by intro e he
        rcases hs e he with rfl | ⟨size, hsz, rfl⟩
        · trivial
        · rfl)
    (by simp [Client.fresh])
    (by intro e he
        rcases hs e he with rfl | ⟨size, hsz, rfl⟩
        · exact Or.inl rfl
        · exact Or.inr ⟨size, rfl⟩)
  refine ⟨c, e, ?_⟩
  intro hl x hx
  have ht := h1.tight
  rw [hl] at ht
  have ht : p.toNat + c.st.sz.toNat = p.toNat + pad p.toNat c.st.last.toNat := ht
  have hm := pad_min (n := p.toNat) (m := p.toNat + x) (by omega) hx
  rcases h2 with ⟨h2, _⟩ | h2 | h2
  · rw [h2] at ht
    have h0 : pad p.toNat (BitVec.toNat (0 : U64)) = 0 := pad_zero _
    omega
  · rw [h2] at ht
    have h0 : pad p.toNat (BitVec.toNat (1 : U64)) = 0 := pad_one _
    omega
  · rw [h2] at ht
    omega

example : ((Client.fresh 0x1001 100 (List.replicate 100 0)).run
    [.alloc 1 8, .alloc 9 8, .free 0, .alloc 3 8, .alloc 5 8, .free 0, .free 0, .free 0]).toOption.map
      (fun c => (c.st, c.live)) = some (⟨0x1001, 7, 100, 8⟩, []) := by decide +kernel

/-- C26 fails when the buffer is not aligned for the first block: the padding in front of it is not given back. -/
theorem C26_not_restored : ∃ (p cap : U64) (c : Client), Buffer p cap (List.replicate cap.toNat 0) ∧
    (Client.fresh p cap (List.replicate cap.toNat 0)).run [.alloc 1 8, .free 0] = .ok c ∧ c.live = [] ∧
      c.st.sz ≠ (Client.fresh p cap (List.replicate cap.toNat 0)).st.sz := by
  refine ⟨0x1001, 64, ⟨⟨0x1001, 7, 64, 8⟩, List.replicate 64 0, []⟩, ?_, ?_, rfl, by decide⟩
  · unfold Buffer; decide
  · decide +kernel

/-- C26 fails for stack-ordered histories that mix alignments: after a block with a larger alignment was freed and a new
block taken in its place, the padding is forgotten and freeing the block below fails an assertion. -/
theorem C26_not_interleaved : ∃ (p cap : U64), Buffer p cap (List.replicate cap.toNat 0) ∧
    (Client.fresh p cap (List.replicate cap.toNat 0)).run
      [.alloc 1 1, .alloc 8 8, .free 0, .alloc 1 1, .free 0, .free 0] = .error .assertion := by
  refine ⟨0x1000, 64, ?_, ?_⟩
  · unfold Buffer; decide
  · decide +kernel

/-- C26 fails after a reallocation even with a single alignment: the block grown in place behind padding is no longer recognised as
the most recent one. -/
theorem C26_not_after_realloc : ∃ (p cap : U64), Buffer p cap (List.replicate cap.toNat 0) ∧
    (Client.fresh p cap (List.replicate cap.toNat 0)).run
      [.alloc 1 8, .alloc 1 8, .free 0, .realloc 0 2, .free 0] = .error .assertion := by
  refine ⟨0x1000, 64, ?_, ?_⟩
  · unfold Buffer; decide
  · decide +kernel

/-! ## C27 guards -/

/-- C27: whatever a scope does with the allocator, the guard's destructor leaves the allocator exactly as the guard's constructor
found it. -/
theorem C27_guard_restores (c c' : Client) (evs : List Event) (h : c.run evs = .ok c') :
    (Guard.make c.st).destroy c'.st = c.st := by
  obtain ⟨h1, h2⟩ := run_fixed h
  show (⟨c'.st.p, c.st.sz, c'.st.cap, c.st.last⟩ : Stack) = c.st
  rw [h1, h2]

example : (⟨⟨0x1000, 5, 64, 1⟩, List.replicate 64 0, [⟨0x1000, 5, 1⟩]⟩ : Client).run [.alloc 3 8, .alloc 8 4, .free 0] =
    .ok ⟨⟨0x1000, 12, 64, 4⟩, List.replicate 64 0, [⟨0x1008, 3, 8⟩, ⟨0x1000, 5, 1⟩]⟩ := by decide +kernel

/-- C27: the blocks held before a scope keep their bytes, and no block taken in the scope overlaps them, if the scope
uses the allocator in stack order and only touches its own blocks. Partial: requests of 2^62 bytes or more and frees out of
stack order are left out, and so are histories before the scope which `Reachable` leaves out; see `C27_not_outer_blocks`. -/
theorem C27_outer_blocks_partial {p cap : U64} {c : Client} (h : Reachable p cap c) (evs : List Event) (hf : ∀ e ∈ evs, e.Fits)
    (hl : ∀ e ∈ evs, e.Lifo) {c' : Client} (hr : (⟨c.st, c.mem, []⟩ : Client).run evs = .ok c') :
    ∀ b ∈ c.live, bytesOf p c'.mem b = bytesOf p c.mem b ∧ ∀ b' ∈ c'.live, Disjoint b b' := by
  intro b hb
  have hi := reachable_inv h
  have hs := inv_scope hi
  obtain ⟨h1, h2, h3, h4, h5, h6⟩ := hi.chain.mem hb
  refine ⟨?_, ?_⟩
  · have := run_lifo_mem hs hf hl hr
    refine bytesOf_congr (k := p.toNat + c.st.sz.toNat - p.toNat) this ?_ h1
    omega
  · intro b' hb' x hx
    have := ((run_lifo hs hf hl hr).chain.mem hb').1
    omega

/-- C27 does not hold for huge sizes: after a request whose size wraps around, a scope is handed a block that overlaps one
held before the scope. -/
theorem C27_not_outer_blocks : ∃ (p cap : U64) (c c' : Client), Reachable p cap c ∧
    (⟨c.st, c.mem, []⟩ : Client).run [.alloc (BitVec.ofNat 64 (2 ^ 64 - 8)) 8, .alloc 8 8] = .ok c' ∧
    ∃ b ∈ c.live, ∃ b' ∈ c'.live, b'.size = 8 ∧ ¬ Disjoint b b' := by
  refine ⟨0x1000, 64, ⟨⟨0x1000, 16, 64, 1⟩, List.replicate 64 0, [⟨0x1000, 16, 8⟩]⟩,
    ⟨⟨0x1000, 16, 64, 1⟩, List.replicate 64 0, [⟨0x1008, 8, 8⟩, ⟨0x1010, BitVec.ofNat 64 (2 ^ 64 - 8), 8⟩]⟩, ?_, ?_, ?_⟩
  · refine Or.inr ⟨8, List.replicate 64 0, [.alloc 16 8],
      ⟨⟨0x1000, 16, 64, 1⟩, List.replicate 64 0, [⟨0x1000, 16, 8⟩]⟩, ?_, ?_, ?_, ?_, rfl, rfl, rfl⟩
    · unfold Buffer; decide
    · decide
    · decide
    · decide +kernel
  · decide +kernel
  · refine ⟨⟨0x1000, 16, 8⟩, by simp, ⟨0x1008, 8, 8⟩, by simp, rfl, ?_⟩
    intro h
    exact h 0x1008 (by unfold Live.stop; decide)

/-- C27: a guard that was dismissed or moved from does nothing; the guard it was moved to does its work. -/
theorem C27_dismissed (g : Guard) (s : Stack) :
    g.dismiss.destroy s = s ∧ g.move.2.destroy s = s ∧ g.move.1.destroy s = g.destroy s := ⟨rfl, rfl, rfl⟩

/-! ## C28 reallocation -/

/-- C28: resizing (to less than 2^62 bytes) a block of the buffer that the allocator recognises as the most recent one: it keeps its address and no byte of
the buffer changes; it succeeds exactly if the new size fits behind the block's start in the buffer, and otherwise nothing
changes. (Partial: whether the newest block is recognised is a different matter, see `C28_newest_is_recent_partial`.) -/
theorem C28_recent_partial (s : Stack) (mem : List Byte) (ptr old new a : U64) (hs : s.p ≠ 0 ∧ s.cap ≠ 0 ∧ s.sz.toNat ≤ s.cap.toNat)
    (hb : s.cap.toNat < 2 ^ 62 ∧ s.p.toNat + s.cap.toNat < 2 ^ 64) (hold : old.toNat ≤ s.sz.toNat) (hnew : new.toNat < 2 ^ 62)
    (hr : s.isMostRecent ptr old = .ok true) :
    (s.sz.toNat - old.toNat + new.toNat ≤ s.cap.toNat →
      ∃ s', s.reallocate mem ptr old new a = .ok (⟨ptr, new⟩, s', mem) ∧ s.reallocateInPlace ptr old new = .ok (true, s') ∧
        s'.p = s.p ∧ s'.cap = s.cap ∧ s'.sz.toNat = s.sz.toNat - old.toNat + new.toNat) ∧
    (s.cap.toNat < s.sz.toNat - old.toNat + new.toNat →
      s.reallocate mem ptr old new a = .ok (⟨0, 0⟩, s, mem) ∧ s.reallocateInPlace ptr old new = .ok (false, s)) := by
  have hg : s.Good := ⟨pos_of_ne_zero hs.1, pos_of_ne_zero hs.2.1, hb.1, hb.2, hs.2.2⟩
  have sp := reallocate_recent hg mem a hold hnew hr
  have hsz : (s.sz + (new - old)).toNat = s.sz.toNat - old.toNat + new.toNat := by
    have := hg.fill
    have := hg.cap62
    bv_omega
  have hpl : s.reallocateInPlace ptr old new = if s.sz.toNat - old.toNat + new.toNat ≤ s.cap.toNat then
      .ok (true, { s with sz := s.sz + (new - old) }) else .ok (false, s) := by
    unfold Stack.reallocateInPlace
    rw [assert_true (by rw [bne_iff_ne]; exact hs.1), hr]
    simp only [ok_bind, Bool.true_and, BitVec.le_def, hsz, decide_eq_true_iff, pure_eq_ok]
  constructor
  · intro h
    rw [if_neg (by omega)] at sp
    obtain ⟨s', e0, e1, e2, e3, e4⟩ := sp
    refine ⟨s', e0, ?_, e1, e2, e4⟩
    rw [hpl, if_pos h]
    congr 2
    cases s'
    simp only [Stack.mk.injEq]
    exact ⟨e1.symm, BitVec.eq_of_toNat_eq (by rw [hsz]; exact e4.symm), e2.symm, e3.symm⟩
  · intro h
    rw [if_pos h] at sp
    refine ⟨sp, ?_⟩
    rw [hpl, if_neg (by omega)]

example : (⟨0x1000, 24, 64, 1⟩ : Stack).isMostRecent 0x1008 16 = .ok true ∧
    (⟨0x1000, 24, 64, 1⟩ : Stack).reallocateInPlace 0x1008 16 56 = .ok (true, ⟨0x1000, 64, 64, 1⟩) ∧
    (⟨0x1000, 24, 64, 1⟩ : Stack).reallocateInPlace 0x1008 16 57 = .ok (false, ⟨0x1000, 24, 64, 1⟩) := by decide

/-- C28 (partial): right after a block was handed out it is recognised as the most recent one. (After frees this holds
in histories without reallocation and with a single alignment, `C26_interleaved_uniform`; not in general, see `C26_not_after_realloc`.) -/
theorem C28_newest_is_recent_partial (s : Stack) (size a : U64) (hs : s.p ≠ 0 ∧ s.cap ≠ 0 ∧ s.sz.toNat ≤ s.cap.toNat)
    (hb : s.cap.toNat < 2 ^ 62 ∧ s.p.toNat + s.cap.toNat < 2 ^ 64) (ha : a.toNat ≤ 2 ^ 62) (hsize : size.toNat < 2 ^ 62)
    {r : Block} {s' : Stack} (he : s.allocate size a = .ok (r, s')) (hr : r.ptr ≠ 0) : s'.isMostRecent r.ptr r.size = .ok true := by
  have hg : s.Good := ⟨pos_of_ne_zero hs.1, pos_of_ne_zero hs.2.1, hb.1, hb.2, hs.2.2⟩
  by_cases h0 : size = 0
  · subst h0
    rw [allocate_zero] at he
    cases he
    exact absurd rfl hr
  have sp := allocate_spec hg (allocate_pow2 h0 he) ha h0 hsize
  split at sp
  · rw [sp] at he
    cases he
    exact absurd rfl hr
  · obtain ⟨q, s1, e0, e1, e2, e3, e4, e5⟩ := sp
    rw [e0] at he
    cases he
    have hg' : s'.Good := by
      refine ⟨?_, ?_, ?_, ?_, ?_⟩
      · rw [e2]; exact hg.p0
      · rw [e3]; exact hg.cap0
      · rw [e3]; exact hg.cap62
      · rw [e2, e3]; exact hg.top
      · rw [e3, e5]; omega
    rw [isMostRecent_spec hg' (by rw [e2, e5]; show q.toNat + size.toNat ≤ _; omega) (by rw [e4]; exact ⟨0, rfl⟩), e4]
    congr 1
    have h1 : pad (q.toNat + size.toNat) (BitVec.toNat (1 : U64)) = 0 := pad_one _
    rw [decide_eq_true_iff]
    show q.toNat + size.toNat + pad (q.toNat + size.toNat) (BitVec.toNat (1 : U64)) = _
    rw [h1, e2, e5]
    omega

example : (⟨0x1000, 5, 64, 8⟩ : Stack).allocate 16 8 = .ok (⟨0x1008, 16⟩, ⟨0x1000, 24, 64, 1⟩) := by decide

/-- C28 (partial): in a reachable state, resizing any live block keeps all other live blocks and their bytes. The block itself is left as it is (failure, or an older block that is to shrink),
or is gone (new size 0), or has exactly the new size and keeps its bytes up to the smaller of both sizes, at the same or
at a new address. (Missing: histories that mix alignments out of stack order, and huge sizes,
see `C25_not_disjoint` and `C28_not_bounded`.) -/
theorem C28_contents_partial {p cap : U64} {c c' : Client} {i : Nat} (h : Reachable p cap c)
    {b : Live} {new : U64}
    (hb : c.live[i]? = some b) (hnew : new.toNat < 2 ^ 62) (he : c.step (.realloc i new) = .ok c') :
    (∀ (j : Nat) b', j ≠ i → c.live[j]? = some b' → b' ∈ c'.live ∧ bytesOf p c'.mem b' = bytesOf p c.mem b') ∧
    (c' = c ∨ (new = 0 ∧ c'.mem = c.mem) ∨
      ∃ b', b' ∈ c'.live ∧ b'.size = new ∧ b'.align = b.align ∧ IsAligned b' ∧
        (bytesOf p c'.mem b').take b.size.toNat = (bytesOf p c.mem b).take new.toNat) := by
  have hi := reachable_inv h
  have hg := hi.good
  obtain ⟨b1, b2, b3, b4, b5, b6, b7⟩ := hi.block hb
  have hms := mem_step hi (ev := .realloc i new) hnew he
  have hbytes : ∀ (j : Nat) b', c.live[j]? = some b' → bytesOf p c'.mem b' = bytesOf p c.mem b' := by
    intro j b' hj
    obtain ⟨d1, d2, d3, _⟩ := hi.block hj
    rw [hi.p_eq] at d1 d3
    exact bytesOf_congr hms d3 d1
  have herase : ∀ (j : Nat) b', j ≠ i → c.live[j]? = some b' → b' ∈ c.live.eraseIdx i := by
    intro j b' hne hj
    exact List.mem_eraseIdx_iff_getElem?.mpr ⟨j, hne, hj⟩
  have hset : ∀ (x : Live) (j : Nat) b', j ≠ i → c.live[j]? = some b' → b' ∈ c.live.set i x := by
    intro x j b' hne hj
    apply List.mem_of_getElem? (i := j)
    rw [List.getElem?_set_ne (Ne.symm hne)]
    exact hj
  obtain ⟨hil, hie⟩ := List.getElem?_eq_some_iff.mp hb
  refine ⟨?_, ?_⟩
  · intro j b' hne hj
    refine ⟨?_, hbytes j b' hj⟩
    unfold Client.step at he
    dsimp only at he
    rw [hb] at he
    dsimp only at he
    cases hx : c.st.reallocate c.mem b.ptr b.size new b.align with
    | error f => rw [hx] at he; cases he
    | ok rs =>
      rw [hx] at he
      simp only [ok_bind, pure_eq_ok] at he
      cases he
      unfold Client.resized
      split
      · exact List.mem_of_getElem? hj
      · split
        · split
          · exact herase j b' hne hj
          · exact hset _ j b' hne hj
        · exact List.mem_cons_of_mem _ (herase j b' hne hj)
  · unfold Client.step at he
    dsimp only at he
    rw [hb] at he
    dsimp only at he
    cases hx : c.st.isMostRecent b.ptr b.size with
    | error f =>
      unfold Stack.reallocate at he
      rw [assert_true hg.valid, hx] at he
      cases he
    | ok rec =>
      cases rec with
      | true =>
        have sp := reallocate_recent hg c.mem (new := new) b.align (by omega) hnew hx
        split at sp
        · rw [sp] at he
          cases he
          exact Or.inl rfl
        · obtain ⟨s', e0, e1, e2, e3, e4⟩ := sp
          rw [e0] at he
          simp only [ok_bind, pure_eq_ok, Client.resized, block_ok b4, Bool.not_true, Bool.false_eq_true, if_true, if_false] at he
          by_cases hn0 : new = 0
          · subst hn0
            cases he
            exact Or.inr (Or.inl ⟨rfl, rfl⟩)
          · simp only [hn0, if_false] at he
            cases he
            refine Or.inr (Or.inr ⟨{ b with size := new }, ?_, rfl, rfl, ?_, ?_⟩)
            · apply List.mem_of_getElem? (i := i)
              rw [List.getElem?_set_self hil]
            · exact (hi.chain.mem (List.mem_of_getElem? hb)).2.2.2.1
            · unfold bytesOf
              rw [List.take_take, List.take_take, Nat.min_comm]
      | false =>
        have sp := reallocate_moved hg (mem := c.mem) (by rw [hi.len, hi.cap_eq]) b1 b2 b3 b6 b7 hnew hx
        split at sp
        · rw [sp] at he
          simp only [ok_bind, pure_eq_ok, Client.resized, block_ok b4, Bool.not_true, Bool.false_eq_true, if_true, if_false, if_neg b5] at he
          cases he
          left
          have : c.live.set i { b with size := b.size } = c.live := set_same hb
          rw [this]
        · split at sp
          · rw [sp] at he
            cases he
            exact Or.inl rfl
          · rename_i hlt hc
            obtain ⟨r, s', mem', e0, e1, e2, e3, e4, e5, e6⟩ := sp
            rw [e0] at he
            have hrp : r ≠ b.ptr := by
              intro hh
              rw [hh] at e1
              omega
            simp only [ok_bind, pure_eq_ok, Client.resized, block_ok (ne_of_pos_addr hi (r := r) (by omega)), Bool.not_true, Bool.false_eq_true, if_false,
              if_neg hrp] at he
            cases he
            refine Or.inr (Or.inr ⟨⟨r, new, b.align⟩, by simp, rfl, rfl, ?_, ?_⟩)
            · show b.align.toNat ∣ r.toNat
              rw [e1]; exact pad_dvd b6.pos
            · have hlen : c.mem.length = c.st.cap.toNat := by rw [hi.len, hi.cap_eq]
              have hf := hg.fill
              rw [hi.p_eq] at *
              unfold bytesOf
              show (List.take new.toNat (List.drop (r.toNat - p.toNat) mem')).take b.size.toNat = _
              rw [e6]
              generalize ht : (c.mem.drop (b.ptr.toNat - p.toNat)).take b.size.toNat = t
              have htl : t.length = b.size.toNat := by
                rw [← ht, List.length_take, List.length_drop]
                omega
              rw [List.take_of_length_le (l := t) (by omega), List.take_take, Nat.min_eq_left (by omega)]
              unfold Num.splice
              rw [List.append_assoc, List.drop_append_of_le_length (by rw [List.length_take]; omega),
                List.drop_eq_nil_of_le (by rw [List.length_take]; omega), List.nil_append,
                List.take_append_of_le_length (by omega), List.take_of_length_le (by omega)]

example : ((⟨⟨0x1000, 11, 40, 1⟩, List.range 40 |>.map (BitVec.ofNat 8), [⟨0x1008, 3, 8⟩, ⟨0x1000, 5, 8⟩]⟩ : Client).step
    (.realloc 1 7)).toOption.map (fun c => (c.live, bytesOf 0x1000 c.mem ⟨0x1010, 7, 8⟩)) =
    some ([⟨0x1010, 7, 8⟩, ⟨0x1008, 3, 8⟩], [0, 1, 2, 3, 4, 21, 22]) := by decide +kernel

/-- C28 fails for huge sizes: `sz + (new_size - old_size)` overflows and growing beyond the buffer is reported as a success. -/
theorem C28_not_bounded : ∃ s : Stack, ∃ s', s.isMostRecent 0x1008 8 = .ok true ∧ s.p = 0x1000 ∧ s.cap = 64 ∧
    s.reallocateInPlace 0x1008 8 (BitVec.ofNat 64 (2 ^ 64 - 1)) = .ok (true, s') := by
  refine ⟨⟨0x1000, 16, 64, 1⟩, ⟨0x1000, 7, 64, 1⟩, ?_, rfl, rfl, ?_⟩ <;> decide

/-- C28 fails on a fresh allocator: `last_popped_alignment` starts as 0, so that reallocating from an empty block asserts
before anything was allocated. -/
theorem C28_not_fresh (p cap : U64) (mem : List Byte) (h : Buffer p cap mem) (size a : U64) :
    ∃ s, Stack.make p cap = .ok s ∧ s.reallocate mem 0 0 size a = .error .assertion := by
  obtain ⟨h1, h2, h3, h4, h5⟩ := h
  refine ⟨⟨p, 0, cap, 0⟩, ?_, ?_⟩
  · unfold Stack.make
    rw [assert_true]
    · rfl
    · rw [Bool.or_eq_true]
      exact Or.inl (by rw [bne_iff_ne]; exact h1)
  · have hg : Stack.Good ⟨p, 0, cap, 0⟩ := ⟨pos_of_ne_zero h1, pos_of_ne_zero h2, h3, h4, by simp⟩
    unfold Stack.reallocate
    rw [assert_true hg.valid]
    unfold Stack.isMostRecent
    dsimp only
    rw [alignmentOffset_bad (by rintro ⟨k, hk⟩; have := Nat.two_pow_pos k; simp at hk; omega)]
    rfl

example : Buffer 0x1000 64 (List.replicate 64 0) := by unfold Buffer; decide

/-! ## C58 remaining capacity -/

/-- C58: `remaining(alignment)` is exact: a request (of 1 byte to 2^62 bytes) with that alignment is granted if and only if its
size is at most the reported number. Partial: larger requests are left out, see `C58_not_huge`, and so are buffers and alignments
of more than 2^62 bytes. -/
theorem C58_remaining_partial (s : Stack) (a : U64) (hs : s.p ≠ 0 ∧ s.cap ≠ 0 ∧ s.sz.toNat ≤ s.cap.toNat)
    (hb : s.cap.toNat < 2 ^ 62 ∧ s.p.toNat + s.cap.toNat < 2 ^ 64) (ha : ∃ k, k ≤ 62 ∧ a.toNat = 2 ^ k) :
    ∃ r, s.remaining a = .ok r ∧ ∀ size : U64, size ≠ 0 → size.toNat < 2 ^ 62 →
      ((∃ blk s', s.allocate size a = .ok (blk, s') ∧ blk.ptr ≠ 0) ↔ size.toNat ≤ r.toNat) := by
  obtain ⟨k, hk, hak⟩ := ha
  have hp : Pow2 a.toNat := ⟨k, hak⟩
  have ha62 : a.toNat ≤ 2 ^ 62 := by rw [hak]; exact Nat.pow_le_pow_right (by omega) hk
  have hg : s.Good := ⟨pos_of_ne_zero hs.1, pos_of_ne_zero hs.2.1, hb.1, hb.2, hs.2.2⟩
  have hoff := offset_toNat (ptr := s.p + s.sz) hp
  rw [hg.end_toNat] at hoff
  have hcs : (s.cap - s.sz).toNat = s.cap.toNat - s.sz.toNat := by have := hg.fill; bv_omega
  have hr : s.remaining a = .ok (if ((a - (s.p + s.sz)) &&& (a - 1)) ≤ s.cap - s.sz then
      s.cap - s.sz - ((a - (s.p + s.sz)) &&& (a - 1)) else 0) := by
    unfold Stack.remaining
    rw [assert_true hg.valid, hg.endPtr]
    simp only [ok_bind]
    rw [alignmentOffset_ok hp]
    rfl
  refine ⟨_, hr, ?_⟩
  generalize (a - (s.p + s.sz)) &&& (a - 1) = off at hoff ⊢
  have hrem : (if off ≤ s.cap - s.sz then s.cap - s.sz - off else 0).toNat = s.cap.toNat - s.sz.toNat - off.toNat := by
    split
    · rename_i hle
      rw [BitVec.le_def, hcs] at hle
      bv_omega
    · rename_i hle
      rw [BitVec.le_def, hcs] at hle
      show 0 = _
      omega
  intro size h0 h62
  have sp := allocate_spec hg hp ha62 h0 h62
  have hs0 := pos_of_ne_zero h0
  rw [hrem, hoff]
  generalize pad (s.p.toNat + s.sz.toNat) a.toNat = q at *
  constructor
  · rintro ⟨blk, s', e, hne⟩
    split at sp
    · rw [sp] at e
      cases e
      exact absurd rfl hne
    · omega
  · intro hle
    rw [if_neg (by omega)] at sp
    obtain ⟨r, s', e0, e1, _⟩ := sp
    exact ⟨_, _, e0, ne_zero_of_pos (by have := hg.p0; show 0 < r.toNat; omega)⟩

example : (⟨0x1000, 5, 64, 1⟩ : Stack).remaining 16 = .ok 48 := by decide

/-- C58 does not hold for huge sizes: a request far larger than the reported number is granted. -/
theorem C58_not_huge : ∃ (s : Stack) (r size : U64) (blk : Block) (s' : Stack), s.isValid = true ∧ s.sz.toNat ≤ s.cap.toNat ∧
    s.remaining 8 = .ok r ∧ r.toNat < size.toNat ∧ s.allocate size 8 = .ok (blk, s') ∧ blk.ptr ≠ 0 := by
  refine ⟨⟨0x1000, 16, 64, 1⟩, 48, BitVec.ofNat 64 (2 ^ 64 - 8), ⟨0x1010, BitVec.ofNat 64 (2 ^ 64 - 8)⟩, ⟨0x1000, 8, 64, 1⟩,
    ?_, ?_, ?_, ?_, ?_, ?_⟩ <;> decide +kernel

end Tm.Alloc
