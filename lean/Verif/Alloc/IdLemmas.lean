import Verif.Alloc.IdSpec
import Verif.Alloc.Lemmas
namespace Tm.Alloc

/-- The free list starting at `free` visits the slots `fs`. -/
inductive FreeChain (slots : List U32) (size : Nat) : Int → List Nat → Prop
  | nil : FreeChain slots size (-1) []
  | cons {i : Nat} {w : U32} {fs : List Nat} : i < size → slots[i]? = some w → FreeChain slots size w.toInt fs →
      FreeChain slots size i (i :: fs)

structure IdInv (c : IdClient) (fs : List Nat) : Prop where
  elem4 : 4 ≤ c.st.elem
  fits : c.st.size ≤ c.st.slots.length
  chain : FreeChain c.st.slots c.st.size c.st.free fs
  perm : (c.live.map (fun id : U32 => id.toNat - 1) ++ fs).Perm (List.range c.st.size)
  pos : ∀ id ∈ c.live, 0 < id.toNat
  seen : ∀ id : U32, id ∈ c.seen ↔ 0 < id.toNat ∧ id.toNat ≤ c.st.size

theorem FreeChain.mem {slots : List U32} {size : Nat} {free : Int} {fs : List Nat} (h : FreeChain slots size free fs) :
    ∀ i ∈ fs, i < size := by
  induction h with
  | nil => simp
  | cons h1 _ _ ih => intro i hi; rcases List.mem_cons.mp hi with rfl | hi; exacts [h1, ih i hi]

theorem FreeChain.bound {slots : List U32} {size : Nat} {free : Int} {fs : List Nat} (h : FreeChain slots size free fs) :
    -1 ≤ free ∧ free < size := by
  cases h with
  | nil => omega
  | cons h1 _ _ => omega

theorem perm_eraseIdx {α : Type} {l : List α} {i : Nat} {a : α} (h : l[i]? = some a) : l.Perm (a :: l.eraseIdx i) := by
  induction l generalizing i with
  | nil => simp at h
  | cons x t ih =>
    cases i with
    | zero => simp at h; subst h; simp
    | succ i =>
      rw [List.getElem?_cons_succ] at h
      rw [List.eraseIdx_cons_succ]
      exact ((ih h).cons x).trans (List.Perm.swap a x _)

/-- Changing a slot outside the free list, more slots and a larger size keep the free list. -/
theorem FreeChain.congr {slots slots' : List U32} {size size' : Nat} {free : Int} {fs : List Nat}
    (h : FreeChain slots size free fs) (hs : size ≤ size') (hc : ∀ i ∈ fs, slots'[i]? = slots[i]?) :
    FreeChain slots' size' free fs := by
  induction h with
  | nil => exact .nil
  | cons h1 h2 _ ih =>
    exact .cons (Nat.lt_of_lt_of_le h1 hs) (by rw [hc _ (by simp), h2]) (ih (fun i hi => hc i (by simp [hi])))

theorem IdAlloc.slotAt_mul (s : IdAlloc) {k : Nat} (h4 : 4 ≤ s.elem) (hk : k < s.slots.length) :
    s.slotAt (k * s.elem) = .ok k := by
  unfold IdAlloc.slotAt
  rw [if_pos ⟨Nat.mul_mod_left _ _, by omega⟩, Nat.mul_div_cancel _ (by omega), if_pos hk]

theorem mulI32_ok {a b : Nat} (h : a * b < 2 ^ 31) : mulI32 (a : Int) (b : Int) = .ok ((a * b : Nat) : Int) := by
  unfold mulI32
  have h' : ((a : Int) * (b : Int)) = ((a * b : Nat) : Int) := by push_cast; rfl
  rw [h', if_pos (by omega)]

theorem mul_lt_of_slot {k n e : Nat} (hk : k < n) (he : 4 ≤ e) (h : n * e ≤ 2 ^ 31) : k * e < 2 ^ 31 := by
  have : (k + 1) * e ≤ n * e := Nat.mul_le_mul_right e hk
  rw [Nat.succ_mul] at this
  omega

theorem off_toNat {id : U32} {e n : Nat} (h0 : 0 < id.toNat) (h1 : id.toNat ≤ n) (he : 4 ≤ e) (h : n * e ≤ 2 ^ 31) :
    ((id - 1) * BitVec.ofNat 32 e).toNat = (id.toNat - 1) * e := by
  have hk : id.toNat - 1 < n := by omega
  have hlt := mul_lt_of_slot hk he h
  have hn : n ≤ 2 ^ 31 := Nat.le_trans (Nat.le_mul_of_pos_right n (by omega)) h
  have he31 : e ≤ 2 ^ 31 := Nat.le_trans (Nat.le_mul_of_pos_left e (by omega)) h
  have h1' : (id - 1).toNat = id.toNat - 1 := by bv_omega
  rw [BitVec.toNat_mul, h1', BitVec.toNat_ofNat, Nat.mod_eq_of_lt (a := e) (by omega), Nat.mod_eq_of_lt (by omega)]

theorem toInt_pred {id : U32} {n : Nat} (h0 : 0 < id.toNat) (h1 : id.toNat ≤ n) (hn : n ≤ 2 ^ 31) :
    (id - 1).toInt = ((id.toNat - 1 : Nat) : Int) := by
  have h1' : (id - 1).toNat = id.toNat - 1 := by bv_omega
  rw [BitVec.toInt_eq_toNat_of_lt (by rw [h1']; omega), h1']

theorem IdInv.slots_le {c : IdClient} {fs : List Nat} (h : IdInv c fs) (hs : c.Small) : c.st.slots.length ≤ 2 ^ 29 := by
  have := h.elem4
  have h2 : c.st.slots.length * 4 ≤ c.st.slots.length * c.st.elem := Nat.mul_le_mul_left _ this
  unfold IdClient.Small at hs
  omega

theorem IdInv.nodup {c : IdClient} {fs : List Nat} (h : IdInv c fs) :
    (c.live.map (fun id : U32 => id.toNat - 1) ++ fs).Nodup := h.perm.nodup_iff.mpr List.nodup_range

theorem IdInv.live_le {c : IdClient} {fs : List Nat} (h : IdInv c fs) {id : U32} (hi : id ∈ c.live) :
    0 < id.toNat ∧ id.toNat ≤ c.st.size := by
  have h0 := h.pos id hi
  have : id.toNat - 1 ∈ List.range c.st.size :=
    h.perm.mem_iff.mp (List.mem_append_left _ (List.mem_map.mpr ⟨id, hi, rfl⟩))
  rw [List.mem_range] at this
  omega

theorem IdInv.data {c : IdClient} {fs : List Nat} (h : IdInv c fs) (hs : c.Small) {id : U32} (h0 : 0 < id.toNat)
    (h1 : id.toNat ≤ c.st.size) :
    c.st.dataFromId id = some ((id - 1) * BitVec.ofNat 32 c.st.elem) ∧
      ((id - 1) * BitVec.ofNat 32 c.st.elem).toNat = (id.toNat - 1) * c.st.elem := by
  have hf := h.fits
  have hl := h.slots_le hs
  refine ⟨?_, off_toNat h0 (Nat.le_trans h1 hf) h.elem4 hs⟩
  unfold IdAlloc.dataFromId
  rw [if_pos]
  refine ⟨?_, ?_⟩
  · rintro rfl; simp at h0
  · rw [toInt_pred h0 h1 (by omega)]; omega

theorem wr_ok {α : Type} {b : List α} {i : Nat} (v : α) (h : i < b.length) : wr b i v = .ok (b.set i v) := by
  unfold wr; rw [if_pos h]

theorem rd_ok {α : Type} {b : List α} {i : Nat} {v : α} (h : b[i]? = some v) : rd b i = .ok v := by
  unfold rd; rw [h]

/-- Destroying a live id succeeds and puts its slot on the free list. -/
theorem IdInv.destroy {c : IdClient} {fs : List Nat} (h : IdInv c fs) (hs : c.Small) {i : Nat} {id : U32}
    (hi : c.live[i]? = some id) :
    ∃ st, c.st.destroy id = .ok st ∧ st.slots.length = c.st.slots.length ∧ st.elem = c.st.elem ∧ st.hasData = c.st.hasData ∧
      IdInv ⟨st, c.live.eraseIdx i, c.seen⟩ ((id.toNat - 1) :: fs) := by
  have hm : id ∈ c.live := List.mem_of_getElem? hi
  obtain ⟨h0, h1⟩ := h.live_le hm
  obtain ⟨d1, d2⟩ := h.data hs h0 h1
  have hf := h.fits
  have hl := h.slots_le hs
  have hk : id.toNat - 1 < c.st.slots.length := by omega
  refine ⟨{ c.st with slots := c.st.slots.set (id.toNat - 1) (BitVec.ofInt 32 c.st.free), free := (id - 1).toInt }, ?_, ?_, rfl, rfl, ?_⟩
  · unfold IdAlloc.destroy
    rw [d1]
    simp only [Option.isSome_some, if_true]
    unfold IdAlloc.push
    rw [assert_true (by rw [bne_iff_ne]; rintro rfl; simp at h0), ok_bind]
    dsimp only
    rw [d2, c.st.slotAt_mul h.elem4 hk, ok_bind, wr_ok _ hk]
    rfl
  · simp
  · have hnd := h.nodup
    have hnf : id.toNat - 1 ∉ fs := fun hh =>
      (List.nodup_append.mp hnd).2.2 _ (List.mem_map.mpr ⟨id, hm, rfl⟩) _ hh rfl
    refine ⟨h.elem4, ?_, ?_, ?_, ?_, h.seen⟩
    · simpa using hf
    · show FreeChain _ c.st.size (id - 1).toInt _
      rw [toInt_pred h0 h1 (by omega)]
      have hfree : (BitVec.ofInt 32 c.st.free).toInt = c.st.free := by
        have hb : -1 ≤ c.st.free ∧ c.st.free < 2 ^ 29 := by
          have := h.chain.bound
          omega
        rw [BitVec.toInt_ofInt, Int.bmod_def]
        omega
      refine .cons (by omega) (List.getElem?_set_self hk) ?_
      rw [hfree]
      refine h.chain.congr (Nat.le_refl _) (fun j hj => ?_)
      rw [List.getElem?_set_ne]
      rintro rfl
      exact hnf hj
    · show ((c.live.eraseIdx i).map (fun id : U32 => id.toNat - 1) ++ (id.toNat - 1) :: fs).Perm (List.range c.st.size)
      refine List.Perm.trans ?_ h.perm
      refine List.perm_middle.trans ?_
      rw [← List.cons_append]
      refine List.Perm.append_right fs ?_
      have : c.live.Perm (id :: c.live.eraseIdx i) := by
        exact perm_eraseIdx hi
      exact (this.map (fun id : U32 => id.toNat - 1)).symm
    · intro x hx
      exact h.pos x (List.mem_of_mem_eraseIdx hx)

/-- Storing into a live element succeeds and keeps the free list. -/
theorem IdInv.store {c : IdClient} {fs : List Nat} (h : IdInv c fs) (hs : c.Small) {id : U32} (hm : id ∈ c.live) (v : U32) :
    ∃ st, c.st.store id v = .ok st ∧ st.slots.length = c.st.slots.length ∧ st.elem = c.st.elem ∧ st.hasData = c.st.hasData ∧
      IdInv { c with st := st } fs := by
  obtain ⟨h0, h1⟩ := h.live_le hm
  obtain ⟨d1, d2⟩ := h.data hs h0 h1
  have hf := h.fits
  have hk : id.toNat - 1 < c.st.slots.length := by omega
  refine ⟨{ c.st with slots := c.st.slots.set (id.toNat - 1) v }, ?_, by simp, rfl, rfl, ?_⟩
  · unfold IdAlloc.store
    rw [d1]
    dsimp only
    rw [d2, c.st.slotAt_mul h.elem4 hk, ok_bind, wr_ok _ hk]
    rfl
  · refine ⟨h.elem4, by simpa using hf, ?_, h.perm, h.pos, h.seen⟩
    refine h.chain.congr (Nat.le_refl _) (fun j hj => ?_)
    show (c.st.slots.set _ _)[j]? = _
    rw [List.getElem?_set_ne]
    rintro rfl
    exact (List.nodup_append.mp h.nodup).2.2 _ (List.mem_map.mpr ⟨id, hm, rfl⟩) _ hj rfl

theorem IdAlloc.grow_props (s : IdAlloc) (m : Option (Nat → U32)) :
    (s.growIfFull m).size = s.size ∧ (s.growIfFull m).free = s.free ∧ (s.growIfFull m).elem = s.elem ∧
    (s.growIfFull m).hasData = s.hasData ∧ s.slots.length ≤ (s.growIfFull m).slots.length ∧
    ∀ i, i < s.slots.length → (s.growIfFull m).slots[i]? = s.slots[i]? := by
  unfold IdAlloc.growIfFull
  split
  · split
    · simp
    · refine ⟨rfl, rfl, rfl, rfl, by simp, fun i hi => ?_⟩
      exact List.getElem?_append_left hi
  · simp

/-- With a free slot, `create` hands it out and changes neither size nor capacity. -/
theorem IdInv.create_reuse {c : IdClient} {i : Nat} {fs : List Nat} (h : IdInv c (i :: fs)) (hs : c.Small)
    (hd : c.st.hasData = true) (m : Option (Nat → U32)) :
    ∃ id st, c.st.create m = .ok (id, st) ∧ id.toNat = i + 1 ∧ st.slots = c.st.slots ∧ st.size = c.st.size ∧
      st.elem = c.st.elem ∧ st.hasData = c.st.hasData ∧ IdInv (c.took id st) fs := by
  have hf := h.fits
  have hl := h.slots_le hs
  obtain ⟨w, hfree, hi, hw, hch⟩ : ∃ w : U32, c.st.free = i ∧ i < c.st.size ∧ c.st.slots[i]? = some w ∧
      FreeChain c.st.slots c.st.size w.toInt fs := by
    have := h.chain
    generalize c.st.free = fr at this
    cases this with
    | cons a b d => exact ⟨_, rfl, a, b, d⟩
  have hid : (BitVec.ofInt 32 ((i : Int) + 1)).toNat = i + 1 := by
    have : ((i : Int) + 1) = ((i + 1 : Nat) : Int) := by omega
    rw [this, BitVec.ofInt_natCast, BitVec.toNat_ofNat]
    omega
  have hne : BitVec.ofInt 32 ((i : Int) + 1) ≠ 0 := by
    intro h0; rw [h0] at hid; simp at hid
  refine ⟨BitVec.ofInt 32 ((i : Int) + 1), { c.st with free := w.toInt }, ?_, hid, rfl, rfl, rfl, rfl, ?_⟩
  · unfold IdAlloc.create
    rw [assert_true hd, ok_bind]
    have hp : c.st.pop = .ok (BitVec.ofInt 32 ((i : Int) + 1), { c.st with free := w.toInt }) := by
      unfold IdAlloc.pop
      rw [hfree, if_pos (by omega), assert_true (by rw [decide_eq_true_eq]; omega), ok_bind]
      dsimp only
      rw [mulI32_ok (mul_lt_of_slot (by omega) h.elem4 hs), ok_bind]
      rw [Int.toNat_natCast, c.st.slotAt_mul h.elem4 (by omega), ok_bind, rd_ok hw]
      rfl
    rw [hp, ok_bind]
    dsimp only
    rw [if_pos hne]
    rfl
  · unfold IdClient.took
    rw [if_neg hne]
    refine ⟨h.elem4, hf, hch, ?_, ?_, ?_⟩
    · show (((BitVec.ofInt 32 ((i : Int) + 1)) :: c.live).map (fun id : U32 => id.toNat - 1) ++ fs).Perm (List.range c.st.size)
      rw [List.map_cons, hid, Nat.add_sub_cancel, List.cons_append]
      exact List.perm_middle.symm.trans h.perm
    · intro x hx
      rcases List.mem_cons.mp hx with rfl | hx
      · omega
      · exact h.pos x hx
    · intro x
      show x ∈ _ :: c.seen ↔ _
      rw [List.mem_cons, h.seen x]
      constructor
      · rintro (rfl | hx)
        · show _ ∧ _ ≤ c.st.size; omega
        · exact hx
      · exact Or.inr

/-- Without a free slot, `create` fails or hands out a new id. -/
theorem IdInv.create_new {c : IdClient} (h : IdInv c []) (hd : c.st.hasData = true) (m : Option (Nat → U32)) :
    ∃ id st, c.st.create m = .ok (id, st) ∧ st.elem = c.st.elem ∧ st.hasData = c.st.hasData ∧
      c.st.slots.length ≤ st.slots.length ∧
      ((c.took id st).Small → (id ≠ 0 → id.toNat = c.st.size + 1) ∧ IdInv (c.took id st) []) := by
  have hf := h.fits
  have hfree : c.st.free = -1 := by
    have := h.chain
    generalize c.st.free = fr at this
    cases this
    rfl
  obtain ⟨g1, g2, g3, g4, g5, g6⟩ := c.st.grow_props m
  have hp : c.st.pop = .ok (0, c.st) := by
    unfold IdAlloc.pop
    rw [hfree, if_neg (by omega)]
  have hc : c.st.create m = (if (c.st.growIfFull m).size < (c.st.growIfFull m).slots.length then
      .ok (BitVec.ofNat 32 ((c.st.growIfFull m).size + 1), { c.st.growIfFull m with size := (c.st.growIfFull m).size + 1 })
      else .ok (0, c.st.growIfFull m)) := by
    unfold IdAlloc.create
    rw [assert_true hd, ok_bind, hp, ok_bind]
    rfl
  by_cases hlt : (c.st.growIfFull m).size < (c.st.growIfFull m).slots.length
  · rw [if_pos hlt] at hc
    refine ⟨_, _, hc, g3, g4, g5, fun hs => ?_⟩
    have hs' : (c.st.growIfFull m).slots.length * c.st.elem ≤ 2 ^ 31 := by
      unfold IdClient.Small IdClient.took at hs
      split at hs <;> simpa [g3] using hs
    have h4 := h.elem4
    have hl : (c.st.growIfFull m).slots.length * 4 ≤ 2 ^ 31 := Nat.le_trans (Nat.mul_le_mul_left _ h4) hs'
    have hid : (BitVec.ofNat 32 ((c.st.growIfFull m).size + 1)).toNat = c.st.size + 1 := by
      rw [BitVec.toNat_ofNat, g1]; omega
    have hne : BitVec.ofNat 32 ((c.st.growIfFull m).size + 1) ≠ 0 := by
      intro h0; rw [h0] at hid; simp at hid
    refine ⟨fun _ => hid, ?_⟩
    unfold IdClient.took
    rw [if_neg hne]
    refine ⟨?_, ?_, ?_, ?_, ?_, ?_⟩
    · show 4 ≤ (c.st.growIfFull m).elem; omega
    · exact hlt
    · show FreeChain _ _ (c.st.growIfFull m).free []
      rw [g2, hfree]; exact .nil
    · show ((_ :: c.live).map (fun id : U32 => id.toNat - 1) ++ []).Perm (List.range ((c.st.growIfFull m).size + 1))
      have := h.perm
      rw [List.append_nil] at this ⊢
      rw [List.map_cons, hid, Nat.add_sub_cancel, g1, List.range_succ]
      exact (this.cons c.st.size).trans (List.perm_append_singleton _ _).symm
    · intro x hx
      rcases List.mem_cons.mp hx with rfl | hx
      · omega
      · exact h.pos x hx
    · intro x
      show x ∈ _ :: c.seen ↔ 0 < x.toNat ∧ x.toNat ≤ (c.st.growIfFull m).size + 1
      rw [List.mem_cons, h.seen x, g1]
      constructor
      · rintro (rfl | hx)
        · rw [← g1] at *; omega
        · omega
      · rintro ⟨a, b⟩
        by_cases hx : x.toNat ≤ c.st.size
        · exact Or.inr ⟨a, hx⟩
        · refine Or.inl (BitVec.eq_of_toNat_eq ?_)
          rw [← g1, hid]; omega
  · rw [if_neg hlt] at hc
    refine ⟨_, _, hc, g3, g4, g5, fun _ => ⟨fun hh => absurd rfl hh, ?_⟩⟩
    unfold IdClient.took
    rw [if_pos rfl]
    refine ⟨?_, ?_, ?_, ?_, h.pos, ?_⟩
    · show 4 ≤ (c.st.growIfFull m).elem; rw [g3]; exact h.elem4
    · show (c.st.growIfFull m).size ≤ (c.st.growIfFull m).slots.length; omega
    · show FreeChain _ _ (c.st.growIfFull m).free []
      rw [g2, hfree]; exact .nil
    · show List.Perm _ (List.range (c.st.growIfFull m).size); rw [g1]; exact h.perm
    · show ∀ id : U32, id ∈ c.seen ↔ 0 < id.toNat ∧ id.toNat ≤ (c.st.growIfFull m).size
      rw [g1]; exact h.seen

end Tm.Alloc
