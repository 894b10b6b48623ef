import Verif.Alloc.IdHist
namespace Tm.Alloc

theorem bit_low {n i : Nat} (hn : n ≤ 32) : (BitVec.ofNat 32 (2 ^ n - 1)).getLsbD i = decide (i < n) := by
  rw [BitVec.getLsbD_ofNat, Nat.testBit_two_pow_sub_one]
  by_cases h : i < n
  · simp [h]; omega
  · simp [h]

theorem bit_one {n i : Nat} (hn : n < 32) : (BitVec.ofNat 32 (2 ^ n)).getLsbD i = decide (n = i) := by
  rw [BitVec.getLsbD_ofNat, Nat.testBit_two_pow]
  by_cases h : n = i
  · subst h; simp [hn]
  · simp [h]

theorem makeId_bit (g k : U32) (o : Bool) (i : Nat) : (makeId g k o).getLsbD i =
    ((decide (i < 32) && !decide (i < 24) && (g.getLsbD (i - 24) && decide (i - 24 < 8)) || k.getLsbD i && decide (i < 23)) ||
      (o && decide (23 = i))) := by
  have ho : (b2u o <<< 23 : U32) = if o then BitVec.ofNat 32 (2 ^ 23) else 0#32 := by cases o <;> rfl
  have h1 : (0xFF#32 : U32) = BitVec.ofNat 32 (2 ^ 8 - 1) := rfl
  have h2 : (0x007FFFFF#32 : U32) = BitVec.ofNat 32 (2 ^ 23 - 1) := rfl
  unfold makeId
  rw [ho, h1, h2, BitVec.getLsbD_or, BitVec.getLsbD_or, BitVec.getLsbD_shiftLeft, BitVec.getLsbD_and, BitVec.getLsbD_and,
    bit_low (by omega), bit_low (by omega)]
  congr 1
  cases o with
  | true => rw [if_pos rfl, bit_one (by omega), Bool.true_and]
  | false => simp

theorem idxOf_makeId (g k : U32) (o : Bool) : idxOf (makeId g k o) = k &&& 0x007FFFFF#32 := by
  have h2 : (0x007FFFFF#32 : U32) = BitVec.ofNat 32 (2 ^ 23 - 1) := rfl
  unfold idxOf
  refine BitVec.eq_of_getLsbD_eq fun i _ => ?_
  rw [BitVec.getLsbD_and, BitVec.getLsbD_and, makeId_bit, h2, bit_low (by omega)]
  by_cases h : i < 23
  · have e1 : i < 24 := by omega
    have e2 : ¬ 23 = i := by omega
    simp [h, e1, e2]
  · simp [h]

theorem genOf_makeId (g k : U32) (o : Bool) : genOf (makeId g k o) = g &&& 0xFF#32 := by
  have h1 : (0xFF#32 : U32) = BitVec.ofNat 32 (2 ^ 8 - 1) := rfl
  unfold genOf
  refine BitVec.eq_of_getLsbD_eq fun i hi => ?_
  rw [BitVec.getLsbD_ushiftRight, makeId_bit, BitVec.getLsbD_and, h1, bit_low (by omega)]
  have e1 : ¬ 24 + i < 24 := by omega
  have e2 : ¬ 24 + i < 23 := by omega
  have e3 : ¬ 23 = 24 + i := by omega
  have e4 : 24 + i - 24 = i := by omega
  rw [e4]
  by_cases h : i < 8
  · have e5 : 24 + i < 32 := by omega
    simp [e1, e2, e3, e5, h]
  · simp [e2, e3, h]

theorem occOf_makeId (g k : U32) (o : Bool) : occOf (makeId g k o) = o := by
  unfold occOf
  have h1 : (0x00800000#32 : U32) = BitVec.ofNat 32 (2 ^ 23) := rfl
  have : makeId g k o &&& 0x00800000#32 = if o then 0x00800000#32 else 0#32 := by
    refine BitVec.eq_of_getLsbD_eq fun i _ => ?_
    rw [BitVec.getLsbD_and, makeId_bit, h1, bit_one (by omega)]
    by_cases h : 23 = i
    · subst h
      cases o
      · simp
      · rw [if_pos rfl, bit_one (by omega)]; simp
    · cases o
      · simp [h]
      · rw [if_pos rfl, bit_one (by omega)]; simp [h]
  rw [this]
  cases o <;> rfl

theorem mask_toNat (k : U32) : (k &&& 0x007FFFFF#32).toNat = k.toNat % 2 ^ 23 := by
  rw [BitVec.toNat_and]
  exact Nat.and_two_pow_sub_one_eq_mod _ 23

theorem idx_toNat {g : U32} {k : Nat} {o : Bool} (hk : k < 2 ^ 23) : (idxOf (makeId g (BitVec.ofNat 32 k) o)).toNat = k := by
  rw [idxOf_makeId, mask_toNat, BitVec.toNat_ofNat]
  omega

theorem makeId_ne_zero (g k : U32) : makeId g k true ≠ 0 := by
  intro h
  have := occOf_makeId g k true
  rw [h] at this
  exact absurd this (by decide)

theorem makeId_idx_inj {g g' : U32} {k k' : Nat} {o o' : Bool} (hk : k < 2 ^ 23) (hk' : k' < 2 ^ 23)
    (h : makeId g (BitVec.ofNat 32 k) o = makeId g' (BitVec.ofNat 32 k') o') : k = k' := by
  rw [← idx_toNat (g := g) (o := o) hk, h, idx_toNat hk']

theorem GenAlloc.slotAt_mul (s : GenAlloc) {k : Nat} (h4 : 4 ≤ s.elem) (hk : k < s.slots.length) :
    s.slotAt (k * s.elem) = .ok k := by
  unfold GenAlloc.slotAt
  rw [if_pos ⟨Nat.mul_mod_left _ _, by omega⟩, Nat.mul_div_cancel _ (by omega), if_pos hk]

/-- The free list as `pop` walks it: it stops at a negative or zero index, and at the end marker -1 cut to 23 bits. -/
inductive GenChain (slots : List U32) (size : Nat) : Int → List Nat → Prop
  | stop {f : Int} : f = -1 ∨ f = 0 ∨ f = 0x7FFFFF → GenChain slots size f []
  | cons {i : Nat} {w : U32} {fs : List Nat} : 0 < i → i < size → slots[i]? = some w →
      GenChain slots size (idxOf w).toInt fs → GenChain slots size i (i :: fs)

theorem GenChain.mem {slots : List U32} {size : Nat} {f : Int} {fs : List Nat} (h : GenChain slots size f fs) :
    ∀ i ∈ fs, i < size := by
  induction h with
  | stop => simp
  | cons _ h1 _ _ ih => intro i hi; rcases List.mem_cons.mp hi with rfl | hi; exacts [h1, ih i hi]

theorem GenChain.congr {slots slots' : List U32} {size size' : Nat} {f : Int} {fs : List Nat} (h : GenChain slots size f fs)
    (hs : size ≤ size') (hc : ∀ i ∈ fs, slots'[i]? = slots[i]?) : GenChain slots' size' f fs := by
  induction h with
  | stop h => exact .stop h
  | cons h0 h1 h2 _ ih =>
    exact .cons h0 (Nat.lt_of_lt_of_le h1 hs) (by rw [hc _ (by simp), h2]) (ih (fun i hi => hc i (by simp [hi])))

/-- The free index survives being stored in a header, except that -1 becomes the end marker. -/
theorem GenChain.stored {slots : List U32} {size : Nat} {f : Int} {fs : List Nat} (h : GenChain slots size f fs)
    (hs : size < 2 ^ 23) (g : U32) (o : Bool) : GenChain slots size (idxOf (makeId g (BitVec.ofInt 32 f) o)).toInt fs := by
  rw [idxOf_makeId]
  cases h with
  | stop h => rcases h with rfl | rfl | rfl <;> exact .stop (by decide)
  | @cons i w fs h0 h1 h2 h3 =>
    have : (BitVec.ofInt 32 (i : Int) &&& 0x007FFFFF#32).toNat = i := by
      rw [mask_toNat, BitVec.ofInt_natCast, BitVec.toNat_ofNat]; omega
    rw [BitVec.toInt_eq_toNat_of_lt (by rw [this]; omega), this]
    exact .cons h0 h1 h2 h3

structure GenInv (c : GenClient) (fs : List Nat) : Prop where
  elem4 : 4 ≤ c.st.elem
  fits : c.st.size ≤ c.st.slots.length
  hdr : ∀ k, k < c.st.size → ∃ w, c.st.slots[k]? = some w ∧
    (w = makeId 0 (BitVec.ofNat 32 k) true ∨ occOf w = false ∧ genOf w = 1)
  chain : GenChain c.st.slots c.st.size c.st.free fs
  nodup : fs.Nodup
  unocc : ∀ (i : Nat) (w : U32), i ∈ fs → c.st.slots[i]? = some w → occOf w = false
  live : ∀ id ∈ c.live, ∃ (k : Nat) (w : U32), k < c.st.size ∧ c.st.slots[k]? = some w ∧
    (id = makeId 0 (BitVec.ofNat 32 k) true ∧ w = id ∨ id = makeId 1 (BitVec.ofNat 32 k) true ∧ occOf w = false ∧ k ∉ fs)
  distinct : c.live.Nodup
  dead : ∀ id ∈ c.dead, ∃ (k : Nat) (w g : U32), k < c.st.size ∧ c.st.slots[k]? = some w ∧
    id = makeId g (BitVec.ofNat 32 k) true ∧ occOf w = false

/-- Looking up an id whose slot is in use. -/
theorem GenInv.base {c : GenClient} {fs : List Nat} (h : GenInv c fs) (hs : c.Small) {g w : U32} {k : Nat} (hk : k < c.st.size)
    (hw : c.st.slots[k]? = some w) :
    c.st.baseFromId (makeId g (BitVec.ofNat 32 k) true) =
      .ok (if w ≠ makeId g (BitVec.ofNat 32 k) true then none else some k) := by
  obtain ⟨hs1, hs2⟩ := hs
  have hf := h.fits
  have hid := idx_toNat (g := g) (k := k) (o := true) (by omega)
  have hlt := mul_lt_of_slot (show k < c.st.slots.length by omega) h.elem4 hs1
  have he31 : c.st.elem ≤ 2 ^ 31 := Nat.le_trans (Nat.le_mul_of_pos_left _ (by omega)) hs1
  have hoff : (idxOf (makeId g (BitVec.ofNat 32 k) true) * BitVec.ofNat 32 c.st.elem).toNat = k * c.st.elem := by
    rw [BitVec.toNat_mul, hid, BitVec.toNat_ofNat, Nat.mod_eq_of_lt (a := c.st.elem) (by omega), Nat.mod_eq_of_lt (by omega)]
  unfold GenAlloc.baseFromId
  rw [occOf_makeId]
  simp only [Bool.not_true, Bool.false_eq_true, if_false]
  rw [if_neg (by rw [BitVec.toInt_eq_toNat_of_lt (by rw [hid]; omega), hid]; omega), hoff,
    c.st.slotAt_mul h.elem4 (by omega), ok_bind, rd_ok hw]
  rfl

theorem GenInv.destroy {c : GenClient} {fs : List Nat} (h : GenInv c fs) (hs : c.Small) {i : Nat} {id : U32}
    (hi : c.live[i]? = some id) :
    ∃ st fs', c.st.destroy id = .ok st ∧ GenInv ⟨st, c.live.eraseIdx i, id :: c.dead⟩ fs' := by
  have hm : id ∈ c.live := List.mem_of_getElem? hi
  obtain ⟨hs1, hs2⟩ := hs
  have hf := h.fits
  have hp := perm_eraseIdx hi
  have hnd : (id :: c.live.eraseIdx i).Nodup := hp.nodup_iff.mp h.distinct
  have hne : ∀ x ∈ c.live.eraseIdx i, x ≠ id := by
    rintro x hx rfl
    exact (List.nodup_cons.mp hnd).1 hx
  obtain ⟨k, w, hk, hw, hor⟩ := h.live id hm
  rcases hor with ⟨hid, hwid⟩ | ⟨hid, hocc, hkf⟩
  · subst hwid
    have hkl : k < c.st.slots.length := by omega
    have hgen : genOf w + 1 = 1 := by rw [hid, genOf_makeId]; decide
    have hoccw : occOf w = true := by rw [hid, occOf_makeId]
    have hfs : k ∉ fs := by
      intro hh; have := h.unocc k w hh hw; rw [hoccw] at this; cases this
    have hidx : (idxOf w).toNat = k := by rw [hid]; exact idx_toNat (by omega)
    have hidxI : (idxOf w).toInt = k := by rw [BitVec.toInt_eq_toNat_of_lt (by rw [hidx]; omega), hidx]
    have hlt := mul_lt_of_slot hkl h.elem4 hs1
    have he31 : c.st.elem ≤ 2 ^ 31 := Nat.le_trans (Nat.le_mul_of_pos_left _ (by omega)) hs1
    have hoff : (idxOf w * BitVec.ofNat 32 c.st.elem).toNat = k * c.st.elem := by
      rw [BitVec.toNat_mul, hidx, BitVec.toNat_ofNat, Nat.mod_eq_of_lt (a := c.st.elem) (by omega), Nat.mod_eq_of_lt (by omega)]
    have hb : c.st.baseFromId w = .ok (some k) := by
      have := h.base ⟨hs1, hs2⟩ (g := 0) hk hw
      rw [← hid] at this
      simpa using this
    let nw := makeId 1 (BitVec.ofInt 32 c.st.free) false
    have hset : (c.st.slots.set k nw)[k]? = some nw := List.getElem?_set_self hkl
    have hoth : ∀ j, j ≠ k → (c.st.slots.set k nw)[j]? = c.st.slots[j]? := fun j hj => List.getElem?_set_ne (Ne.symm hj)
    have honw : occOf nw = false := occOf_makeId _ _ _
    have hch : GenChain (c.st.slots.set k nw) c.st.size (idxOf nw).toInt fs :=
      (h.chain.stored (by omega) 1 false).congr (Nat.le_refl _) (fun j hj => hoth j (by rintro rfl; exact hfs hj))
    refine ⟨{ c.st with slots := c.st.slots.set k nw, free := k }, if k = 0 then [] else k :: fs, ?_, ?_⟩
    · unfold GenAlloc.destroy
      rw [hb, ok_bind]
      simp only [Option.isSome_some, if_true]
      unfold GenAlloc.push
      dsimp only
      rw [hoff, c.st.slotAt_mul h.elem4 hkl, ok_bind, rd_ok hw, ok_bind, assert_true (by simp), ok_bind, hgen, wr_ok _ hkl,
        ok_bind, hidxI]
      rfl
    · have hsub : ∀ j, j ∈ (if k = 0 then [] else k :: fs) → j = k ∨ j ∈ fs := by
        intro j hj; split at hj
        · cases hj
        · exact List.mem_cons.mp hj
      refine ⟨h.elem4, by simpa using hf, ?_, ?_, ?_, ?_, ?_, (List.nodup_cons.mp hnd).2, ?_⟩
      · intro j hj
        by_cases hjk : j = k
        · subst hjk; exact ⟨nw, hset, Or.inr ⟨honw, by show genOf (makeId _ _ _) = 1; rw [genOf_makeId]; decide⟩⟩
        · obtain ⟨v, hv, hor⟩ := h.hdr j hj
          exact ⟨v, by rw [← hv]; exact hoth j hjk, hor⟩
      · show GenChain _ _ (k : Int) _
        split
        · rename_i hk0; subst hk0; exact .stop (Or.inr (Or.inl rfl))
        · exact .cons (by omega) hk hset hch
      · split
        · exact List.nodup_nil
        · exact List.nodup_cons.mpr ⟨hfs, h.nodup⟩
      · intro j v hj hv
        by_cases hjk : j = k
        · subst hjk
          rw [show (c.st.slots.set j nw)[j]? = some v from hv] at hset
          cases hset
          exact honw
        · have hv' : c.st.slots[j]? = some v := by rw [← hoth j hjk]; exact hv
          rcases hsub j hj with hh | hh
          · exact absurd hh hjk
          · exact h.unocc j v hh hv'
      · intro x hx
        obtain ⟨j, v, hj, hv, hor⟩ := h.live x (List.mem_of_mem_eraseIdx hx)
        have hjk : j ≠ k := by
          rintro rfl
          rw [hw] at hv
          cases hv
          rcases hor with ⟨_, hv⟩ | ⟨_, ho, _⟩
          · exact hne x hx hv.symm
          · rw [hoccw] at ho; cases ho
        refine ⟨j, v, hj, by rw [← hv]; exact hoth j hjk, ?_⟩
        rcases hor with hor | ⟨h1, h2, h3⟩
        · exact Or.inl hor
        · exact Or.inr ⟨h1, h2, fun hh => (hsub j hh).elim hjk h3⟩
      · intro x hx
        rcases List.mem_cons.mp hx with rfl | hx
        · exact ⟨k, nw, 0, hk, hset, hid, honw⟩
        · obtain ⟨j, v, g, hj, hv, h1, h2⟩ := h.dead x hx
          by_cases hjk : j = k
          · subst hjk; exact ⟨j, nw, g, hk, hset, h1, honw⟩
          · exact ⟨j, v, g, hj, by rw [← hv]; exact hoth j hjk, h1, h2⟩
  · have hwne : w ≠ makeId 1 (BitVec.ofNat 32 k) true := by
      intro e; rw [e, occOf_makeId] at hocc; cases hocc
    refine ⟨c.st, fs, ?_, ?_⟩
    · unfold GenAlloc.destroy
      rw [hid, h.base ⟨hs1, hs2⟩ hk hw, if_pos hwne]
      rfl
    · refine ⟨h.elem4, hf, h.hdr, h.chain, h.nodup, h.unocc, ?_, (List.nodup_cons.mp hnd).2, ?_⟩
      · exact fun x hx => h.live x (List.mem_of_mem_eraseIdx hx)
      · intro x hx
        rcases List.mem_cons.mp hx with rfl | hx
        · exact ⟨k, w, 1, hk, hw, hid, hocc⟩
        · exact h.dead x hx

theorem GenAlloc.grow_props (s : GenAlloc) (m : Option (U64 × (Nat → U32))) :
    (s.growIfFull m).size = s.size ∧ (s.growIfFull m).free = s.free ∧ (s.growIfFull m).elem = s.elem ∧
    s.slots.length ≤ (s.growIfFull m).slots.length ∧
    ∀ i, i < s.slots.length → (s.growIfFull m).slots[i]? = s.slots[i]? := by
  unfold GenAlloc.growIfFull
  split
  · split
    · simp
    · refine ⟨rfl, rfl, rfl, by simp, fun i hi => ?_⟩
      exact List.getElem?_append_left hi
  · simp

/-- `create` after the free list was used up down to its end marker. -/
theorem GenInv.create_end {c : GenClient} {fs : List Nat} (h : GenInv c fs) (hs : c.Small) (hfree : c.st.free = 0x7FFFFF)
    (m : Option (U64 × (Nat → U32))) : c.st.create m = .error .assertion := by
  have hf := h.fits
  have hp : c.st.pop = .error .assertion := by
    unfold GenAlloc.pop
    have := hs.2
    rw [hfree, if_pos (by omega), assert_false (by rw [decide_eq_false_iff_not]; omega)]
    rfl
  unfold GenAlloc.create
  cases c.st.hasData with
  | false => rfl
  | true => rw [assert_true rfl, ok_bind, hp]; rfl

/-- `create` with a slot on the free list. -/
theorem GenInv.create_reuse {c : GenClient} {i : Nat} {fs : List Nat} (h : GenInv c (i :: fs)) (hs : c.Small)
    (hd : c.st.hasData = true) (m : Option (U64 × (Nat → U32))) :
    ∃ id st, c.st.create m = .ok (id, st) ∧ id = makeId 1 (BitVec.ofNat 32 i) true ∧ st.slots = c.st.slots ∧
      st.elem = c.st.elem ∧ GenInv (c.took id st) fs := by
  obtain ⟨hs1, hs2⟩ := hs
  have hf := h.fits
  obtain ⟨w, hfree, hi0, hi, hw, hch⟩ : ∃ w : U32, c.st.free = i ∧ 0 < i ∧ i < c.st.size ∧ c.st.slots[i]? = some w ∧
      GenChain c.st.slots c.st.size (idxOf w).toInt fs := by
    have := h.chain
    generalize c.st.free = fr at this
    cases this with
    | cons a b d e => exact ⟨_, rfl, a, b, d, e⟩
  have hocc := h.unocc i w (by simp) hw
  have hgen : genOf w = 1 := by
    obtain ⟨v, hv, hor⟩ := h.hdr i hi
    rw [hw] at hv
    cases hv
    rcases hor with rfl | ⟨_, hg⟩
    · rw [occOf_makeId] at hocc; cases hocc
    · exact hg
  refine ⟨makeId 1 (BitVec.ofNat 32 i) true, { c.st with free := (idxOf w).toInt }, ?_, rfl, rfl, rfl, ?_⟩
  · have hp : c.st.pop = .ok (makeId 1 (BitVec.ofNat 32 i) true, { c.st with free := (idxOf w).toInt }) := by
      unfold GenAlloc.pop
      rw [hfree, if_pos (by omega), assert_true (by rw [decide_eq_true_eq]; omega), ok_bind,
        mulI32_ok (mul_lt_of_slot (by omega) h.elem4 hs1), ok_bind, Int.toNat_natCast, c.st.slotAt_mul h.elem4 (by omega), ok_bind,
        rd_ok hw, ok_bind, hgen, BitVec.ofInt_natCast]
      rfl
    unfold GenAlloc.create
    rw [assert_true hd, ok_bind, hp, ok_bind]
    dsimp only
    rw [if_pos (makeId_ne_zero _ _)]
    rfl
  · unfold GenClient.took
    rw [if_neg (makeId_ne_zero _ _)]
    obtain ⟨n1, n2⟩ := List.nodup_cons.mp h.nodup
    refine ⟨h.elem4, hf, h.hdr, hch, n2, fun j v hj hv => h.unocc j v (by simp [hj]) hv, ?_, ?_, h.dead⟩
    · intro x hx
      rcases List.mem_cons.mp hx with rfl | hx
      · exact ⟨i, w, hi, hw, Or.inr ⟨rfl, hocc, n1⟩⟩
      · obtain ⟨j, v, hj, hv, hor⟩ := h.live x hx
        refine ⟨j, v, hj, hv, ?_⟩
        rcases hor with hor | ⟨a, b, d⟩
        · exact Or.inl hor
        · exact Or.inr ⟨a, b, fun hh => d (by simp [hh])⟩
    · refine List.nodup_cons.mpr ⟨fun hm => ?_, h.distinct⟩
      obtain ⟨j, v, hj, hv, hor⟩ := h.live _ hm
      rcases hor with ⟨a, _⟩ | ⟨a, _, d⟩
      · have := congrArg genOf a
        rw [genOf_makeId, genOf_makeId] at this
        exact absurd this (by decide)
      · have := makeId_idx_inj (by omega) (by omega) a
        subst this
        exact d (by simp)

/-- `create` with an empty free list. -/
theorem GenInv.create_new {c : GenClient} (h : GenInv c []) (hd : c.st.hasData = true) (hfree : c.st.free ≤ 0)
    (m : Option (U64 × (Nat → U32))) (hsm : (c.st.growIfFull m).slots.length * c.st.elem ≤ 2 ^ 31)
    (hsm' : (c.st.growIfFull m).slots.length < 2 ^ 23 - 1) :
    ∃ id st, c.st.create m = .ok (id, st) ∧ st.slots.length = (c.st.growIfFull m).slots.length ∧
      (id ≠ 0 → id = makeId 0 (BitVec.ofNat 32 c.st.size) true) ∧ GenInv (c.took id st) [] := by
  obtain ⟨g1, g2, g3, g4, g5⟩ := c.st.grow_props m
  have hf := h.fits
  have h4 := h.elem4
  have hp : c.st.pop = .ok (0, c.st) := by
    unfold GenAlloc.pop
    rw [if_neg (by omega)]
  have hpre : c.st.create m = (if (c.st.growIfFull m).size < (c.st.growIfFull m).slots.length then (do
      let off ← mulI32 (c.st.growIfFull m).size (c.st.growIfFull m).elem
      let k ← (c.st.growIfFull m).slotAt off.toNat
      let slots ← wr (c.st.growIfFull m).slots k (makeId 0 (BitVec.ofNat 32 (c.st.growIfFull m).size) true)
      return (makeId 0 (BitVec.ofNat 32 (c.st.growIfFull m).size) true,
        { c.st.growIfFull m with slots := slots, size := (c.st.growIfFull m).size + 1 }) : C (U32 × GenAlloc))
      else .ok (0, c.st.growIfFull m)) := by
    unfold GenAlloc.create
    rw [assert_true hd, ok_bind, hp, ok_bind]
    rfl
  have hold : ∀ j, j < c.st.size → (c.st.growIfFull m).slots[j]? = c.st.slots[j]? := fun j hj => g5 j (by omega)
  generalize c.st.growIfFull m = s at *
  by_cases hlt : s.size < s.slots.length
  · let nw := makeId 0 (BitVec.ofNat 32 c.st.size) true
    rw [if_pos hlt, mulI32_ok (mul_lt_of_slot hlt (by omega) (by rw [g3]; exact hsm)), ok_bind, Int.toNat_natCast,
      s.slotAt_mul (by omega) hlt, ok_bind, wr_ok _ hlt, ok_bind, g1] at hpre
    refine ⟨nw, { s with slots := s.slots.set c.st.size nw, size := c.st.size + 1 }, hpre, by simp, fun _ => rfl, ?_⟩
    have hset : (s.slots.set c.st.size nw)[c.st.size]? = some nw := List.getElem?_set_self (by omega)
    have hoth : ∀ j, j < c.st.size → (s.slots.set c.st.size nw)[j]? = c.st.slots[j]? := fun j hj => by
      rw [List.getElem?_set_ne (by omega), hold j hj]
    unfold GenClient.took
    rw [if_neg (makeId_ne_zero _ _)]
    refine ⟨by show 4 ≤ s.elem; omega, ?_, ?_, ?_, List.nodup_nil, by simp, ?_, ?_, ?_⟩
    · show c.st.size + 1 ≤ (s.slots.set c.st.size nw).length
      rw [List.length_set]; omega
    · intro j hj
      by_cases hjs : j = c.st.size
      · subst hjs; exact ⟨nw, hset, Or.inl rfl⟩
      · have hj' : j < c.st.size := by have : j < c.st.size + 1 := hj; omega
        obtain ⟨v, hv, hor⟩ := h.hdr j hj'
        exact ⟨v, by rw [← hv]; exact hoth j hj', hor⟩
    · show GenChain _ _ s.free []
      rw [g2]
      have := h.chain
      generalize c.st.free = fr at this
      cases this with
      | stop hh => exact .stop hh
    · intro x hx
      rcases List.mem_cons.mp hx with rfl | hx
      · exact ⟨c.st.size, nw, Nat.lt_succ_self _, hset, Or.inl ⟨rfl, rfl⟩⟩
      · obtain ⟨j, v, hj, hv, hor⟩ := h.live x hx
        exact ⟨j, v, Nat.lt_succ_of_lt hj, by rw [← hv]; exact hoth j hj, hor⟩
    · refine List.nodup_cons.mpr ⟨fun hm => ?_, h.distinct⟩
      obtain ⟨j, v, hj, hv, hor⟩ := h.live _ hm
      have : c.st.size = j := by
        rcases hor with ⟨a, _⟩ | ⟨a, _⟩ <;> exact makeId_idx_inj (by omega) (by omega) a
      omega
    · intro x hx
      obtain ⟨j, v, g, hj, hv, a, b⟩ := h.dead x hx
      exact ⟨j, v, g, Nat.lt_succ_of_lt hj, by rw [← hv]; exact hoth j hj, a, b⟩
  · rw [if_neg hlt] at hpre
    refine ⟨0, s, hpre, rfl, fun hh => absurd rfl hh, ?_⟩
    unfold GenClient.took
    rw [if_pos rfl]
    refine ⟨by show 4 ≤ s.elem; omega, by show s.size ≤ s.slots.length; omega, ?_, ?_, List.nodup_nil, by simp, ?_, h.distinct, ?_⟩
    · intro j hj
      have hj' : j < c.st.size := by have : j < s.size := hj; omega
      obtain ⟨v, hv, hor⟩ := h.hdr j hj'
      exact ⟨v, by rw [← hv]; exact hold j hj', hor⟩
    · show GenChain _ _ s.free []
      rw [g2]
      have := h.chain
      generalize c.st.free = fr at this
      cases this with
      | stop hh => exact .stop hh
    · intro x hx
      obtain ⟨j, v, hj, hv, hor⟩ := h.live x hx
      exact ⟨j, v, by show j < s.size; omega, by rw [← hv]; exact hold j hj, hor⟩
    · intro x hx
      obtain ⟨j, v, g, hj, hv, a, b⟩ := h.dead x hx
      exact ⟨j, v, g, by show j < s.size; omega, by rw [← hv]; exact hold j hj, a, b⟩

end Tm.Alloc
