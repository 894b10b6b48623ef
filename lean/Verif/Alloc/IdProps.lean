import Verif.Alloc.IdHist
/-!
# C29: `FixedSizeIdAllocator`
-/
namespace Tm.Alloc

/-- C29: in every reachable state the live ids are distinct, and each resolves to storage of its own: inside the allocation, a
whole slot, overlapping no other live id's. Partial: only while the storage has at most 2^31 bytes, see
`C29_not_own_slot`. -/
theorem C29_live_partial {c : IdClient} (h : IdReachable c) (hs : c.Small) :
    c.live.Nodup ∧ ∀ id ∈ c.live, ∃ off, c.st.dataFromId id = some off ∧
      off.toNat + c.st.elem ≤ c.st.slots.length * c.st.elem ∧
      ∀ id' ∈ c.live, id' ≠ id → ∃ off', c.st.dataFromId id' = some off' ∧
        (off.toNat + c.st.elem ≤ off'.toNat ∨ off'.toNat + c.st.elem ≤ off.toNat) := by
  obtain ⟨fs, hi⟩ := id_reachable_inv h hs
  refine ⟨List.Pairwise.of_map _ (fun a b hab e => hab (by rw [e])) (List.nodup_append.mp hi.nodup).1, fun id hm => ?_⟩
  obtain ⟨h0, h1⟩ := hi.live_le hm
  obtain ⟨d1, d2⟩ := hi.data hs h0 h1
  have hf := hi.fits
  refine ⟨_, d1, ?_, fun id' hm' hne => ?_⟩
  · rw [d2, ← Nat.succ_mul]
    exact Nat.mul_le_mul_right _ (by omega)
  · obtain ⟨h0', h1'⟩ := hi.live_le hm'
    obtain ⟨d1', d2'⟩ := hi.data hs h0' h1'
    refine ⟨_, d1', ?_⟩
    rw [d2, d2', ← Nat.succ_mul, ← Nat.succ_mul]
    have : id'.toNat ≠ id.toNat := fun e => hne (BitVec.eq_of_toNat_eq e)
    rcases Nat.lt_or_gt_of_ne this with hlt | hlt
    · exact Or.inr (Nat.mul_le_mul_right _ (by omega))
    · exact Or.inl (Nat.mul_le_mul_right _ (by omega))

/-- C29: `create` never faults on an allocator that has storage, and whatever `realloc` answers it returns 0 or an id that is not
live. If some id was handed out before and is not live now, it returns such an id, and the storage does not grow. Partial:
only while the storage has at most 2^31 bytes, before and after. -/
theorem C29_create_partial {c : IdClient} (h : IdReachable c) (hs : c.Small) (hd : c.st.hasData = true)
    (memory : Option (Nat → U32)) :
    ∃ id st, c.st.create memory = .ok (id, st) ∧ ((c.took id st).Small → id ≠ 0 → id ∉ c.live) ∧
      ((∃ x ∈ c.seen, x ∉ c.live) → id ≠ 0 ∧ id ∈ c.seen ∧ id ∉ c.live ∧ st.slots = c.st.slots ∧ st.size = c.st.size) := by
  obtain ⟨fs, hi⟩ := id_reachable_inv h hs
  cases fs with
  | nil =>
    obtain ⟨id, st, e1, _, _, _, e2⟩ := hi.create_new hd memory
    refine ⟨id, st, e1, fun hsm hne hm => ?_, ?_⟩
    · have := (e2 hsm).1 hne
      have := (hi.live_le hm).2
      omega
    · rintro ⟨x, hx, hnx⟩
      exfalso
      obtain ⟨x0, x1⟩ := (hi.seen x).mp hx
      have hp := hi.perm
      rw [List.append_nil] at hp
      have : x.toNat - 1 ∈ c.live.map (fun id : U32 => id.toNat - 1) := hp.mem_iff.mpr (List.mem_range.mpr (by omega))
      obtain ⟨y, hy, hxy⟩ := List.mem_map.mp this
      have hy0 := hi.pos y hy
      have : y = x := BitVec.eq_of_toNat_eq (by omega)
      exact hnx (this ▸ hy)
  | cons i fs =>
    obtain ⟨id, st, e1, e2, e3, e4, _, _, _⟩ := hi.create_reuse hs hd memory
    have hnl : id ∉ c.live := by
      intro hm
      refine (List.nodup_append.mp hi.nodup).2.2 (id.toNat - 1) (List.mem_map.mpr ⟨id, hm, rfl⟩) i (by simp) ?_
      omega
    have hne : id ≠ 0 := by rintro rfl; simp at e2
    refine ⟨id, st, e1, fun _ _ => hnl, fun _ => ⟨hne, ?_, hnl, e3, e4⟩⟩
    have := hi.chain.mem i (by simp)
    exact (hi.seen id).mpr (by omega)

/-- C29: destroying a live id and storing into a live element never fault. -/
theorem C29_no_fault_partial {c : IdClient} (h : IdReachable c) (hs : c.Small) (i : Nat) (v : U32) :
    (∃ c', c.step (.destroy i) = .ok c') ∧ ∃ c', c.step (.write i v) = .ok c' := by
  obtain ⟨fs, hi⟩ := id_reachable_inv h hs
  constructor
  · unfold IdClient.step
    dsimp only
    split
    · exact ⟨_, rfl⟩
    · rename_i id hid
      obtain ⟨st, e1, _⟩ := hi.destroy hs hid
      rw [e1]
      exact ⟨_, rfl⟩
  · unfold IdClient.step
    dsimp only
    split
    · exact ⟨_, rfl⟩
    · rename_i id hid
      obtain ⟨st, e1, _⟩ := hi.store hs (List.mem_of_getElem? hid) v
      rw [e1]
      exact ⟨_, rfl⟩

/-- Three elements in a storage of two slots that grows, one is destroyed after the client wrote into it. -/
def sampleIds : List IdEvent :=
  [.create none, .create none, .create (some fun _ => 5), .write 1 77, .write 0 99, .destroy 1]

def sampleIdState : IdClient :=
  ⟨⟨true, [3, 0xFFFFFFFF, 99, 5, 5, 5], 3, 1, 8⟩, [3, 1], [3, 2, 1]⟩

theorem sampleIds_reachable : IdReachable sampleIdState :=
  ⟨2, 8, some fun _ => 3, ⟨true, [3, 3], 0, -1, 8⟩, sampleIds, by decide +kernel, by decide +kernel⟩

example : sampleIdState.Small ∧ sampleIdState.st.hasData = true ∧ ∃ x ∈ sampleIdState.seen, x ∉ sampleIdState.live := by
  refine ⟨by unfold IdClient.Small; decide, rfl, 2, by decide, by decide⟩
example : sampleIdState.st.create none = .ok (2, ⟨true, [3, 0xFFFFFFFF, 99, 5, 5, 5], 3, -1, 8⟩) := by decide +kernel

/-- C29 does not hold for storage of more than 4 GiB: the byte offset of a slot is computed modulo 2^32, so that two live ids
resolve to the same storage. -/
theorem C29_not_own_slot : ∃ c : IdClient, IdReachable c ∧ ∃ id ∈ c.live, ∃ id' ∈ c.live, id ≠ id' ∧
    c.st.dataFromId id = some 0 ∧ c.st.dataFromId id' = some 0 := by
  refine ⟨⟨⟨true, List.replicate 6 0, 5, -1, 2 ^ 30⟩, [5, 4, 3, 2, 1], [5, 4, 3, 2, 1]⟩,
    ⟨1, 2 ^ 30, some fun _ => 0, ⟨true, [0], 0, -1, 2 ^ 30⟩, List.replicate 5 (.create (some fun _ => 0)), ?_, ?_⟩,
    1, by decide, 5, by decide, by decide, by decide +kernel, by decide +kernel⟩
  · decide +kernel
  · decide +kernel

end Tm.Alloc
