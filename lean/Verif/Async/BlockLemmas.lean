import Verif.Async.CallLemmas

/-!
# Which slots are available
-/

namespace Tm.Async

/-- Whether the slot of the given index is marked as available. -/
def bit (blocks : List Block) (i : Nat) : Option Bool := (blocks[i / blockSize]?).bind fun b => b.avail[i % blockSize]?

/-- A slot that is marked as available is not in use. This holds in every run. -/
structure BlockInv (st : State) : Prop where
  length : st.slots.length = st.blocks.length * blockSize
  avail : ∀ b ∈ st.blocks, b.avail.length = blockSize
  free : ∀ i, bit st.blocks i = some true → (st.slot i).job = none

theorem takeIn_ok {b b' : Block} {k : Nat} (hb : b.avail.length = blockSize) (h : takeIn b = .ok (k, b')) :
    k < blockSize ∧ b.avail[k]? = some true ∧ b'.avail = b.avail.set k false := by
  unfold takeIn at h
  cases hf : b.avail.findIdx? id with
  | none => rw [hf] at h; exact nomatch h
  | some m =>
    rw [hf] at h
    cases h
    obtain ⟨hlt, hm, -⟩ := List.findIdx?_eq_some_iff_getElem.mp hf
    refine ⟨by omega, ?_, rfl⟩
    rw [List.getElem?_eq_getElem hlt]
    simpa using hm

theorem bit_zero (b : Block) (bs : List Block) {i : Nat} (h : i < blockSize) : bit (b :: bs) i = b.avail[i]? := by
  unfold bit
  rw [Nat.div_eq_of_lt h, Nat.mod_eq_of_lt h]
  rfl

theorem bit_succ (b : Block) (bs : List Block) (i : Nat) : bit (b :: bs) (i + blockSize) = bit bs i := by
  unfold bit
  rw [Nat.add_div_right _ (by decide), Nat.add_mod_right]
  rfl

theorem bit_cases (b : Block) (bs : List Block) (i : Nat) :
    (i < blockSize ∧ bit (b :: bs) i = b.avail[i]?) ∨ ∃ k, i = k + blockSize ∧ bit (b :: bs) i = bit bs k := by
  by_cases h : i < blockSize
  · exact .inl ⟨h, bit_zero b bs h⟩
  · refine .inr ⟨i - blockSize, by omega, ?_⟩
    have : i = (i - blockSize) + blockSize := by omega
    rw [this, bit_succ]
    simp

/-- What `takeSlot` does. -/
theorem takeSlot_ok {mem : Bool} {bs bs' : List Block} {base i : Nat} (hb : ∀ b ∈ bs, b.avail.length = blockSize)
    (h : takeSlot mem bs base = .ok (.ok (i, bs'))) :
    ∃ k, i = base + k ∧ bs.length ≤ bs'.length ∧ bs'.length ≤ bs.length + 1 ∧ (∀ b ∈ bs', b.avail.length = blockSize) ∧
      k < bs'.length * blockSize ∧ (bit bs k = some true ∨ bs.length * blockSize ≤ k) ∧ bit bs' k = some false ∧
      ∀ m, m ≠ k → bit bs' m = some true → bit bs m = some true ∨ bs.length * blockSize ≤ m := by
  induction bs generalizing base i bs' with
  | nil =>
    unfold takeSlot at h
    split at h
    · obtain ⟨⟨k, b⟩, hk, h⟩ := bind_ok h
      cases h
      obtain ⟨h1, h2, h3⟩ := takeIn_ok (by simp [freshBlock]) hk
      have hl : b.avail.length = blockSize := by rw [h3]; simp [freshBlock]
      refine ⟨k, rfl, by simp, by simp, by simpa using hl, by simpa using h1, .inr (by simp), ?_, fun m _ _ => .inr (by simp)⟩
      rw [bit_zero b [] h1, h3]
      simp [freshBlock, h1]
    · exact nomatch h
  | cons b bs ih =>
    have hbl := hb b List.mem_cons_self
    unfold takeSlot at h
    split at h
    · split at h
      · exact nomatch h
      · obtain ⟨r, hr, h⟩ := bind_ok h
        cases r with
        | error e => exact nomatch h
        | ok r =>
          obtain ⟨i', bs1⟩ := r
          cases h
          obtain ⟨k, rfl, h1, h2, h3, h4, h5, h6, h7⟩ := ih (fun c hc => hb c (List.mem_cons_of_mem _ hc)) hr
          refine ⟨k + blockSize, by omega, by simpa using h1, by simpa using h2, ?_, ?_, ?_, ?_, ?_⟩
          · intro c hc
            rcases List.mem_cons.mp hc with rfl | hc
            · exact hbl
            · exact h3 c hc
          · simp only [List.length_cons, Nat.add_mul, Nat.one_mul]; omega
          · rw [bit_succ]
            simp only [List.length_cons, Nat.add_mul, Nat.one_mul]
            rcases h5 with h5 | h5
            · exact .inl h5
            · exact .inr (by omega)
          · rw [bit_succ]; exact h6
          · intro m hm hbm
            rcases bit_cases b bs1 m with ⟨g1, g2⟩ | ⟨n, rfl, g2⟩
            · left; rw [bit_zero b bs g1, ← g2]; exact hbm
            · rw [g2] at hbm
              rw [bit_succ]
              simp only [List.length_cons, Nat.add_mul, Nat.one_mul]
              rcases h7 n (by omega) hbm with h | h
              · exact .inl h
              · exact .inr (by omega)
    · obtain ⟨⟨k, b'⟩, hk, h⟩ := bind_ok h
      cases h
      obtain ⟨h1, h2, h3⟩ := takeIn_ok hbl hk
      have hl : b'.avail.length = blockSize := by rw [h3]; simpa using hbl
      refine ⟨k, rfl, by simp, by simp, ?_, ?_, .inl ?_, ?_, ?_⟩
      · intro c hc
        rcases List.mem_cons.mp hc with rfl | hc
        · exact hl
        · exact hb c (List.mem_cons_of_mem _ hc)
      · simp only [List.length_cons, Nat.add_mul, Nat.one_mul]; omega
      · rw [bit_zero b bs h1]; exact h2
      · rw [bit_zero b' bs h1, h3]
        simp [h1, hbl]
      · intro m hm hbm
        left
        rcases bit_cases b' bs m with ⟨g1, g2⟩ | ⟨n, rfl, g2⟩
        · rw [g2, h3, List.getElem?_set, if_neg (Ne.symm hm)] at hbm
          rw [bit_zero b bs g1]; exact hbm
        · rw [bit_succ, ← g2]; exact hbm

theorem slot_ge {st : State} {i : Nat} (h : st.slots.length ≤ i) : (st.slot i).job = none := by
  simp [State.slot, List.getD_eq_getElem?_getD, h]

/-- What `tma_impl_push_async_work` does up to its dispatch. -/
theorem pushCall_ok {st st' : State} {deferred mem : Bool} (hb : BlockInv st) (h : pushCall st deferred mem = .ok st') :
    (∃ e, st' = st.say (.rejected e)) ∨
    ∃ i, (st.slot i).job = none ∧
      (∀ s, st'.slot s = if i = s then
        { st.slot i with job := some st.jobs, signaled := false, ringPos := -1, progress := 0, cancelled := false }
        else st.slot s) ∧
      st'.log = .pushed i st.jobs :: st.log ∧ st'.jobs = st.jobs + 1 ∧ st'.work = st.work ∧
      st'.dispatch = st.dispatch ∧ st'.array = st.array ∧ st'.workers = st.workers ∧
      st'.dispatcher = st.dispatcher ∧ st'.exited = st.exited ∧
      st'.main = (if deferred then st.main else .push .work i .wait) ∧ BlockInv st' := by
  unfold pushCall at h
  obtain ⟨r, hr, h⟩ := bind_ok h
  cases r with
  | error e => cases h; exact .inl ⟨e, rfl⟩
  | ok r =>
    obtain ⟨i, blocks⟩ := r
    obtain ⟨slots, hsl, h⟩ := bind_ok h
    obtain ⟨k, hk, h1, h2, h3, h4, h5, h6, h7⟩ := takeSlot_ok hb.avail hr
    rw [Nat.zero_add] at hk
    subst hk
    have hlen := hb.length
    have hnone : (st.slot i).job = none := by
      rcases h5 with h5 | h5
      · exact hb.free i h5
      · exact slot_ge (by omega)
    unfold placeJob at hsl
    dsimp only at hsl
    obtain ⟨x, hx, hsl⟩ := bind_ok hsl
    cases hsl
    have hx := rd_ok hx
    -- the slots, extended by those of a new block
    have hall : ∀ s, (st.slots ++ List.replicate (blocks.length * blockSize - st.slots.length) ({} : Slot)).getD s {} = st.slot s := by
      intro s
      simp only [State.slot, List.getD_eq_getElem?_getD, List.getElem?_append]
      by_cases hs : s < st.slots.length
      · simp [hs]
      · simp only [hs, if_false]
        rw [List.getElem?_eq_none (Nat.le_of_not_lt hs), List.getElem?_replicate]
        split <;> rfl
    have hxs : st.slot i = x := by
      rw [← hall i, List.getD_eq_getElem?_getD, hx]; rfl
    have hlt := (List.getElem?_eq_some_iff.mp hx).1
    have hslots : ∀ s, ((st.slots ++ List.replicate (blocks.length * blockSize - st.slots.length) ({} : Slot)).set i
        { x with job := some st.jobs, signaled := false, ringPos := -1, progress := 0, cancelled := false }).getD s {} =
        if i = s then { st.slot i with job := some st.jobs, signaled := false, ringPos := -1, progress := 0, cancelled := false }
        else st.slot s := by
      intro s
      rw [List.getD_eq_getElem?_getD, List.getElem?_set]
      by_cases his : i = s
      · subst his
        rw [if_pos rfl, if_pos hlt, if_pos rfl, hxs]; rfl
      · rw [if_neg his, if_neg his, ← List.getD_eq_getElem?_getD, hall]
    have hbi : ∀ m w, BlockInv { st.say (.pushed i st.jobs) with
        slots := (st.slots ++ List.replicate (blocks.length * blockSize - st.slots.length) ({} : Slot)).set i
          { x with job := some st.jobs, signaled := false, ringPos := -1, progress := 0, cancelled := false },
        blocks := blocks, jobs := st.jobs + 1, main := m, workers := w } := by
      intro m w
      refine ⟨?_, h3, ?_⟩
      · simp only [List.length_set, List.length_append, List.length_replicate]
        have := Nat.mul_le_mul_right blockSize h1
        omega
      · intro s hs
        show ((List.getD _ s {} : Slot)).job = none
        rw [hslots s]
        by_cases his : i = s
        · subst his
          rw [h6] at hs
          exact nomatch hs
        · rw [if_neg his]
          rcases h7 s (Ne.symm his) hs with h | h
          · exact hb.free s h
          · exact slot_ge (by omega)
    refine .inr ⟨i, hnone, ?_⟩
    cases deferred with
    | true => cases h; exact ⟨hslots, rfl, rfl, rfl, rfl, rfl, rfl, rfl, rfl, rfl, hbi _ _⟩
    | false => cases h; exact ⟨hslots, rfl, rfl, rfl, rfl, rfl, rfl, rfl, rfl, rfl, hbi _ _⟩

/-- A new work keeps the invariant. -/
theorem inv_pushCall {st st' : State} {deferred mem : Bool} (h : Inv st) (hb : BlockInv st) (hm : st.main = .idle)
    (hs : pushCall st deferred mem = .ok st') : Inv st' := by
  rcases pushCall_ok hb hs with ⟨e, rfl⟩ | ⟨i, hi, hsl, hlog, hjobs, e1, e2, e3, e4, e5, -, e6, -⟩
  · exact h.say _ (neutral nofun nofun nofun nofun nofun nofun nofun nofun) ⟨nofun, nofun, nofun⟩
  have hslot := h.slots i
  unfold SlotOk at hslot
  rw [hi] at hslot
  dsimp only at hslot
  obtain ⟨w0, r0, t0, s0, v0⟩ := hslot
  have hw : ∀ t, st'.waits t = st.waits t + st'.main.waits t := by
    intro t; simp only [State.waits, e1, e2, e3, e4, e5, hm, MainPc.waits]; omega
  have hr : ∀ t, st'.runs t = st.runs t := by
    intro t
    simp only [State.runs, e4, hm, e6]
    cases deferred <;> rfl
  have ht : ∀ t, st'.sets t = st.sets t := by
    intro t
    simp only [State.sets, e4, hm, e6]
    cases deferred <;> rfl
  have hold : ∀ s j, (st.slot s).job = some j → i ≠ s := by
    intro s j hj his
    subst his
    rw [hi] at hj
    exact nomatch hj
  refine ⟨?_, ?_, ?_, ?_, ?_, ?_, ?_, ?_, ?_, ?_, ?_, ?_, ?_, ?_⟩
  · intro s
    rw [hsl, hw, hr, ht]
    by_cases his : i = s
    · subst his
      rw [if_pos rfl]
      unfold SlotOk
      dsimp only
      refine ⟨by omega, ?_, ?_, nofun, ?_, ?_, nofun, ?_, ?_⟩
      · rw [w0, r0, e6]
        cases deferred with
        | true => simp [hm, MainPc.waits, MainPc.pushing, home]
        | false => simp [MainPc.waits, MainPc.pushing, home, PushStage.holds]
      · rw [r0, hlog]
        rw [List.count_cons_of_ne (a := Event.started st.jobs) (b := Event.pushed i st.jobs) nofun]
        simp only [Bool.toNat_false, Nat.add_zero]
        apply List.count_eq_zero.mpr
        intro hst
        exact absurd (h.started _ hst) (Nat.lt_irrefl _)
      · rw [v0]; nofun
      · intro h; omega
      · rw [hlog, lastReport_append _ (.pushed i st.jobs) _ nofun, h.reported _ (Nat.le_refl _)]
      · rw [hlog]
        constructor
        · nofun
        · intro hc
          rcases List.mem_cons.mp hc with hc | hc
          · exact nomatch hc
          · exact absurd (h.cancelled _ hc) (Nat.lt_irrefl _)
    · rw [if_neg his, hlog, hjobs]
      have hsay := (h.slots s).say (e := .pushed i st.jobs) fun k hk => ⟨nofun, nofun, nofun⟩
      have hp : st'.main.pushing s = st.main.pushing s := by
        rw [e6]
        cases deferred with
        | true => rfl
        | false => rw [hm]; simp [MainPc.pushing, his]
      have hmw : st'.main.waits s = 0 := by
        rw [e6]
        cases deferred with
        | true => rw [if_pos rfl, hm]; rfl
        | false => simp [MainPc.waits, his]
      rw [hp, hmw]
      unfold SlotOk at hsay ⊢
      cases hj : (st.slot s).job with
      | none => rw [hj] at hsay; simpa using hsay
      | some j => rw [hj] at hsay; dsimp only at hsay ⊢; exact ⟨by omega, hsay.2⟩
  · intro w hw
    rw [e4] at hw
    have hwo := h.workers w hw
    cases w with
    | exec e =>
      cases e with
      | running t k =>
        show (st'.slot t).job = some k
        rw [hsl, if_neg (hold t k hwo)]
        exact hwo
      | mark t k =>
        refine ⟨?_, by rw [hlog]; exact List.mem_cons_of_mem _ hwo.2⟩
        rw [hsl, if_neg (hold t k hwo.1)]
        exact hwo.1
      | _ => trivial
    | _ => trivial
  · rw [e6]
    cases deferred with
    | true => rw [if_pos rfl, hm]; trivial
    | false =>
      rw [if_neg (by simp)]
      refine ⟨?_, ?_⟩
      · rw [hsl, if_pos rfl]; rfl
      · rw [hsl, if_pos rfl]; simp
  · intro s t j hs ht
    rw [hsl] at hs ht
    by_cases h1 : i = s
    · by_cases h2 : i = t
      · omega
      · rw [if_pos h1] at hs
        rw [if_neg h2] at ht
        cases hs
        exact absurd (h.job_lt ht) (Nat.lt_irrefl _)
    · by_cases h2 : i = t
      · rw [if_neg h1] at hs
        rw [if_pos h2] at ht
        cases ht
        exact absurd (h.job_lt hs) (Nat.lt_irrefl _)
      · rw [if_neg h1] at hs
        rw [if_neg h2] at ht
        exact h.distinct s t j hs ht
  · intro j hj
    rw [hlog] at hj
    rcases List.mem_cons.mp hj with hj | hj
    · exact nomatch hj
    · have := h.started j hj; omega
  · intro j hj
    rw [hlog, lastReport_append _ (.pushed i st.jobs) _ nofun]
    exact h.reported j (by omega)
  · intro j hj
    rw [hlog] at hj
    rcases List.mem_cons.mp hj with hj | hj
    · exact nomatch hj
    · have := h.cancelled j hj; omega
  · intro j hj
    rw [hlog] at hj
    rcases List.mem_cons.mp hj with hj | hj
    · exact nomatch hj
    · obtain ⟨d1, d2⟩ := h.dispatched j hj
      refine ⟨by omega, ?_⟩
      rcases d2 with d2 | ⟨s, d2, d3⟩
      · exact .inl (by rw [hlog]; exact ⟨List.mem_cons_of_mem _ d2.1, d2.2.imp fun _ => List.mem_cons_of_mem _⟩)
      · exact .inr ⟨s, by rw [hsl, if_neg (hold s j d2)]; exact d2, by rw [hsl, if_neg (hold s j d2)]; exact d3⟩
  · intro m j hj
    rw [hlog] at hj
    rcases List.mem_cons.mp hj with hj | hj
    · exact nomatch hj
    · obtain ⟨d1, d2⟩ := h.freed m j hj
      refine ⟨by omega, fun s => ?_⟩
      rw [hsl]
      by_cases his : i = s
      · rw [if_pos his]
        intro hh
        cases hh
        omega
      · rw [if_neg his]; exact d2 s
  · rw [hlog]; exact once_cons h.once nofun
  · rw [hlog]; exact waitsHold_cons h.waits nofun
  · rw [hlog]; exact freesHold_cons h.frees nofun nofun
  · rw [hlog]; exact progressHolds_cons h.progress nofun
  · rw [hlog]; exact cancelHolds_cons h.cancel nofun

end Tm.Async
