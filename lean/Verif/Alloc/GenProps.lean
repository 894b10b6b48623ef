import Verif.Alloc.GenHist
/-!
# C30, C31, C59, C60: `FixedSizeGenerationalIdAllocator`
-/
namespace Tm.Alloc

/-- C30: in every reachable state every destroyed id is rejected, whatever happened to its slot since. Partial: only while the
storage has at most 2^31 bytes and fewer than 2^23 - 1 slots. (This says little about slots in use again: the code never marks
such a slot as in use, see `C31_not_reused`.) -/
theorem C30_stale_partial {c : GenClient} (h : GenReachable c) (hs : c.Small) : ∀ id ∈ c.dead, c.st.dataFromId id = .ok none := by
  obtain ⟨fs, hi⟩ := gen_reachable_inv h hs
  intro id hm
  obtain ⟨k, w, g, hk, hw, rfl, ho⟩ := hi.dead id hm
  unfold GenAlloc.dataFromId
  rw [hi.base hs hk hw, if_pos (by rintro rfl; rw [occOf_makeId] at ho; cases ho)]
  rfl

/-- C31: in every reachable state the live ids are distinct. Partial: bounded storage as in C30. -/
theorem C31_distinct_partial {c : GenClient} (h : GenReachable c) (hs : c.Small) : c.live.Nodup := by
  obtain ⟨fs, hi⟩ := gen_reachable_inv h hs
  exact hi.distinct

/-- C31: a live id of generation 0, one whose slot was never used before, resolves to the slot it names, which no other live id
resolves to. Partial: ids of later generations do not resolve at all, see `C31_not_reused`; bounded storage as in C30. -/
theorem C31_first_use_partial {c : GenClient} (h : GenReachable c) (hs : c.Small) :
    ∀ id ∈ c.live, genOf id = 0 → c.st.baseFromId id = .ok (some (idxOf id).toNat) ∧ (idxOf id).toNat < c.st.size ∧
      ∀ id' ∈ c.live, id' ≠ id → c.st.baseFromId id' ≠ .ok (some (idxOf id).toNat) := by
  obtain ⟨fs, hi⟩ := gen_reachable_inv h hs
  have hf := hi.fits
  have hs2 := hs.2
  intro id hm hg
  obtain ⟨k, w, hk, hw, hor⟩ := hi.live id hm
  rcases hor with ⟨e, rfl⟩ | ⟨e, _, _⟩
  · have hidx : (idxOf w).toNat = k := by rw [e]; exact idx_toNat (by omega)
    rw [hidx]
    have hb := hi.base hs (g := 0) hk hw
    rw [← e] at hb
    refine ⟨by simpa using hb, hk, fun id' hm' hne hb' => ?_⟩
    obtain ⟨k', w', hk', hw', hor'⟩ := hi.live id' hm'
    have key : ∀ g : U32, id' = makeId g (BitVec.ofNat 32 k') true → False := by
      intro g e'
      rw [e', hi.base hs hk' hw'] at hb'
      split at hb'
      · cases hb'
      · rename_i hnn
        have h1 : w' = makeId g (BitVec.ofNat 32 k') true := Classical.not_not.mp hnn
        cases hb'
        rw [hw] at hw'
        cases hw'
        exact hne (e'.trans h1.symm)
    rcases hor' with ⟨e', _⟩ | ⟨e', _, _⟩ <;> exact key _ e'
  · rw [e, genOf_makeId] at hg
    exact absurd hg (by decide)

def sampleGen : List GenEvent := [.create none, .create none, .destroy 1, .create (some (0x2000, fun _ => 7)), .destroy 1, .create none]

/-- Slots 0 and 1 were destroyed, slot 1 is in use again, slot 2 is in use. -/
def sampleGenState : GenClient :=
  ⟨⟨true, 0x2000, [0x017FFFFF, 0x01000000, 0x00800002, 7, 7, 7], 3, 0, 16, 8⟩, [0x01800001, 0x00800002], [0x00800001, 0x00800000]⟩

theorem sampleGen_reachable : GenReachable sampleGenState :=
  ⟨2, 8, 8, some (0x1000, fun _ => 5), ⟨true, 0x1000, [5, 5], 0, -1, 16, 8⟩, sampleGen, by decide +kernel, by decide +kernel⟩

example : sampleGenState.Small := by unfold GenClient.Small; decide
example : genOf 0x00800002 = 0 ∧ (0x00800002 : U32) ∈ sampleGenState.live := by decide

/-- C31 does not hold for a slot that is used again: in every reachable state (of bounded storage) a live id of a generation other
than 0 does not resolve, since `create` hands out the slot without marking it as in use. -/
theorem C31_not_reused {c : GenClient} (h : GenReachable c) (hs : c.Small) :
    ∀ id ∈ c.live, genOf id ≠ 0 → c.st.dataFromId id = .ok none := by
  obtain ⟨fs, hi⟩ := gen_reachable_inv h hs
  intro id hm hg
  obtain ⟨k, w, hk, hw, hor⟩ := hi.live id hm
  rcases hor with ⟨e, _⟩ | ⟨e, ho, _⟩
  · rw [e, genOf_makeId] at hg
    exact absurd (by decide) hg
  · unfold GenAlloc.dataFromId
    rw [e, hi.base hs hk hw, if_pos (by rintro rfl; rw [occOf_makeId] at ho; cases ho)]
    rfl

example : (0x01800001 : U32) ∈ sampleGenState.live ∧ genOf 0x01800001 ≠ 0 := by decide

/-- C31: `create` stops at an assertion once a free list that does not end in slot 0 is used up. -/
theorem C31_not_create : ∃ c : GenClient, GenReachable c ∧ c.Small ∧ c.st.hasData = true ∧ c.st.size < c.st.slots.length ∧
    ∀ memory, c.st.create memory = .error .assertion := by
  refine ⟨⟨⟨true, 0x1000, [0x00800000, 0x017FFFFF, 5, 5], 2, 0x7FFFFF, 16, 8⟩, [0x01800001, 0x00800000], [0x00800001]⟩,
    ⟨4, 8, 8, some (0x1000, fun _ => 5), ⟨true, 0x1000, [5, 5, 5, 5], 0, -1, 16, 8⟩,
      [.create none, .create none, .destroy 0, .create none], by decide +kernel, by decide +kernel⟩, ?_, rfl, by decide, fun _ => rfl⟩
  unfold GenClient.Small; decide

/-! ## C59 where the elements are -/

/-- C59: the element of every slot is aligned as requested and lies in its slot behind the header. Partial: only for element sizes
that are a multiple of 4, see `C59_not_small`. The storage is where `malloc` with the slot alignment can put it. -/
theorem C59_layout_partial {capacity : Int} {elementSize elementAlignment : Nat} {memory : Option (U64 × (Nat → U32))} {st : GenAlloc}
    (h : GenAlloc.make capacity elementSize elementAlignment memory = .ok st) (h4 : 4 ∣ elementSize) (ha : elementAlignment < 2 ^ 31)
    (hb : st.align.toNat ∣ st.base.toNat) (k : Nat) (hroom : st.base.toNat + (k + 1) * st.elem < 2 ^ 64) :
    ∃ a, st.bodyOf k = .ok a ∧ st.base.toNat + k * st.elem + 4 ≤ a.toNat ∧
      a.toNat + elementSize ≤ st.base.toNat + (k + 1) * st.elem ∧ elementAlignment ∣ a.toNat ∧ 4 ∣ st.base.toNat + k * st.elem := by
  obtain ⟨hp, he, hal⟩ := genLayout_inv (gen_make_inv h).1
  have hA : (BitVec.ofNat 64 elementAlignment).toNat = elementAlignment := by rw [BitVec.toNat_ofNat]; omega
  rw [hA] at hp he
  have halN : st.align.toNat = if elementAlignment < 4 then 4 else elementAlignment := by
    rw [hal, BitVec.toNat_ofNat]; split <;> omega
  obtain ⟨e, hpe⟩ := hp
  -- the slot alignment is a power of two, a multiple of 4 and of the element alignment
  have hfacts : Pow2 st.align.toNat ∧ 4 ∣ st.align.toNat ∧ elementAlignment ∣ st.align.toNat ∧
      pad 4 elementAlignment = st.align.toNat - 4 := by
    rw [halN]
    match e, hpe with
    | 0, hpe => subst hpe; exact ⟨⟨2, rfl⟩, by decide, by decide, by decide⟩
    | 1, hpe => subst hpe; exact ⟨⟨2, rfl⟩, by decide, by decide, by decide⟩
    | e + 2, hpe =>
      have h4e : elementAlignment = 4 * 2 ^ e := by rw [hpe, Nat.pow_add]; omega
      have hpos := Nat.two_pow_pos e
      rw [if_neg (by omega)]
      refine ⟨⟨e + 2, hpe⟩, ⟨2 ^ e, h4e⟩, Nat.dvd_refl _, ?_⟩
      have hle := pad_min (n := 4) (a := elementAlignment) (m := elementAlignment) (by omega) (Nat.dvd_refl _)
      have hge : elementAlignment ≤ 4 + pad 4 elementAlignment := Nat.le_of_dvd (by omega) (pad_dvd (by omega))
      omega
  obtain ⟨fp, f4, fa, fpad⟩ := hfacts
  have hal4 : 4 ≤ st.align.toNat := Nat.le_of_dvd fp.pos f4
  have helem : st.elem = elementSize + st.align.toNat := by omega
  have h4b : 4 ∣ st.base.toNat := Nat.dvd_trans f4 hb
  have h4s : 4 ∣ st.elem := by rw [helem]; exact Nat.dvd_add h4 f4
  have h4k : 4 ∣ st.base.toNat + k * st.elem := Nat.dvd_add h4b (Nat.dvd_trans h4s (Nat.dvd_mul_left _ _))
  have hsucc : (k + 1) * st.elem = k * st.elem + st.elem := Nat.succ_mul _ _
  have hend : (st.base + BitVec.ofNat 64 (k * st.elem) + 4).toNat = st.base.toNat + k * st.elem + 4 := by
    rw [BitVec.toNat_add, BitVec.toNat_add, BitVec.toNat_ofNat]
    show ((st.base.toNat + k * st.elem % 2 ^ 64) % 2 ^ 64 + 4) % 2 ^ 64 = _
    omega
  -- the padding is a multiple of 4 below the alignment
  have hpl := pad_lt (n := st.base.toNat + k * st.elem + 4) fp.pos
  have hpd := pad_dvd (n := st.base.toNat + k * st.elem + 4) fp.pos
  have h4p : 4 ∣ pad (st.base.toNat + k * st.elem + 4) st.align.toNat := by
    have h1 := Nat.dvd_trans f4 hpd
    omega
  have hpad : pad (st.base.toNat + k * st.elem + 4) st.align.toNat ≤ st.align.toNat - 4 := by omega
  have hoff := offset_toNat (ptr := st.base + BitVec.ofNat 64 (k * st.elem) + 4) fp
  rw [hend] at hoff
  refine ⟨st.base + BitVec.ofNat 64 (k * st.elem) + 4 + ((st.align - (st.base + BitVec.ofNat 64 (k * st.elem) + 4)) &&& (st.align - 1)),
    ?_, ?_⟩
  · unfold GenAlloc.bodyOf
    dsimp only
    rw [alignmentOffset_ok fp]
    rfl
  · rw [BitVec.toNat_add, hoff, hend, Nat.mod_eq_of_lt (by omega)]
    exact ⟨by omega, by omega, Nat.dvd_trans fa hpd, h4k⟩

example : GenAlloc.make 4 8 16 (some (0x1000, fun _ => 5)) = .ok ⟨true, 0x1000, [5, 5, 5, 5], 0, -1, 24, 16⟩ := by decide +kernel
example : (⟨true, 0x1000, [5, 5, 5, 5], 0, -1, 24, 16⟩ : GenAlloc).bodyOf 1 = .ok 0x1020 := by decide +kernel

/-- C59 does not hold for other sizes: with elements of one byte the element of slot 1 lies in the header of slot 2, and that
header is not aligned. -/
theorem C59_not_small : ∃ (st : GenAlloc) (a : U64), GenAlloc.make 4 1 1 (some (0x1000, fun _ => 5)) = .ok st ∧
    st.bodyOf 1 = .ok a ∧ st.base.toNat + 2 * st.elem ≤ a.toNat ∧ a.toNat < st.base.toNat + 2 * st.elem + 4 ∧
    ¬ 4 ∣ st.base.toNat + 1 * st.elem :=
  ⟨⟨true, 0x1000, [5, 5, 5, 5], 0, -1, 5, 4⟩, 0x100C, by decide +kernel, by decide +kernel, by decide, by decide, by decide⟩

/-! ## C60 iteration -/

/-- C60: from an element the iterator advances to the next slot in use, if there is one. Partial: the step from the last slot in use
to the end is wrong, see `C60_not_end`. -/
theorem C60_next_partial (s : GenAlloc) (k j : Nat) (w : U32) (hkj : k < j) (hj : j < s.size) (hw : s.slots[j]? = some w)
    (ho : occOf w = true) (hu : ∀ i v, k < i → i < j → s.slots[i]? = some v → occOf v = false) :
    s.iterNext ⟨k, s.size - k⟩ = .ok ⟨j, s.size - j⟩ := by
  have hlt := (List.getElem?_eq_some_iff.mp hw).1
  unfold GenAlloc.iterNext
  dsimp only
  rw [assert_true (by rw [bne_iff_ne]; omega), ok_bind]
  rw [iterLoop_found (j - (k + 1)) (w := w) (by rw [← hw]; congr 1; omega) ho
    (fun i v hi hv => hu (k + 1 + i) v (by omega) (by omega) hv) (by omega) (by omega)]
  congr 2 <;> omega

example : (⟨true, 0x1000, [0x00800000, 0x01000000, 0x00800002, 7], 3, 1, 16, 8⟩ : GenAlloc).iterNext ⟨0, 3⟩ = .ok ⟨2, 1⟩ := by
  decide +kernel

/-- C60 does not hold at the end: incrementing the iterator at the last slot in use looks at the slots behind it, and if none of
these looks occupied it runs out of the storage. -/
theorem C60_not_end (s : GenAlloc) (k : Nat) (hk : k + 1 = s.size)
    (hu : ∀ j v, s.size ≤ j → s.slots[j]? = some v → occOf v = false) : s.iterNext ⟨k, 1⟩ = .error .oob := by
  unfold GenAlloc.iterNext
  dsimp only
  rw [assert_true (b := (1 : Int) != 0) rfl, ok_bind]
  exact iterLoop_past _ rfl (by omega) (fun j v hj hv => hu j v (by omega) hv) (by omega)

example : ∃ c : GenClient, GenReachable c ∧ 0 + 1 = c.st.size ∧ c.st.slots.length = c.st.size ∧ c.st.begin = .ok ⟨0, 1⟩ :=
  ⟨⟨⟨true, 0x1000, [0x00800000], 1, -1, 16, 8⟩, [0x00800000], []⟩,
    ⟨1, 8, 8, some (0x1000, fun _ => 5), ⟨true, 0x1000, [5], 0, -1, 16, 8⟩, [.create none], by decide +kernel, by decide +kernel⟩,
    rfl, rfl, by decide +kernel⟩

end Tm.Alloc
