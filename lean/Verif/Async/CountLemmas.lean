import Verif.Async.FaultLemmas

/-!
# When slots run out
-/

namespace Tm.Async

/-- What the counts of the blocks are. -/
structure CountInv (st : State) : Prop where
  count : ∀ b ∈ st.blocks, b.count ≤ b.avail.count true
  sum : (st.blocks.map Block.count).sum + pushes st.log = st.blocks.length * blockSize
  few : st.blocks.length * blockSize ≤ pushes st.log + blockSize
  some : 0 < st.blocks.length

theorem pushes_plain {e : Event} {log : List Event} (h : e.plain = true) : pushes (e :: log) = pushes log := by
  cases e <;> first | rfl | exact nomatch h

theorem takeSlot_sum {mem : Bool} {bs bs' : List Block} {base i : Nat} (h : takeSlot mem bs base = .ok (.ok (i, bs'))) :
    ((bs'.map Block.count).sum + 1 = (bs.map Block.count).sum ∧ bs'.length = bs.length) ∨
      ((bs.map Block.count).sum = 0 ∧ (bs'.map Block.count).sum = 255 ∧ bs'.length = bs.length + 1) := by
  have one : ∀ {b b' : Block} {k : Nat}, takeIn b = .ok (k, b') → b'.count = b.count - 1 := by
    intro b b' k h
    unfold takeIn at h
    split at h
    · exact nomatch h
    · cases h; rfl
  induction bs generalizing base i bs' with
  | nil =>
    unfold takeSlot at h
    split at h
    · obtain ⟨⟨k, b⟩, hk, h⟩ := bind_ok h
      cases h
      right
      have := one hk
      simp only [List.map_cons, List.map_nil, List.sum_cons, List.sum_nil, List.length_cons, List.length_nil]
      rw [this]
      exact ⟨trivial, rfl, trivial⟩
    · exact nomatch h
  | cons b bs ih =>
    unfold takeSlot at h
    split at h
    · rename_i h0
      split at h
      · exact nomatch h
      · obtain ⟨r, hr, h⟩ := bind_ok h
        cases r with
        | error e => exact nomatch h
        | ok r =>
          obtain ⟨i', bs1⟩ := r
          cases h
          have := ih hr
          simp only [List.map_cons, List.sum_cons, List.length_cons]
          omega
    · rename_i h0
      obtain ⟨⟨k, b'⟩, hk, h⟩ := bind_ok h
      cases h
      have := one hk
      left
      simp only [List.map_cons, List.sum_cons, List.length_cons]
      exact ⟨by omega, trivial⟩

theorem countInv_step {st st' : State} {a : Act} (hh : HandleInv st) (h : CountInv st) (hs : step st a = .ok (some st')) :
    CountInv st' := by
  rcases step_same hs with hs | ⟨d, m, -, hs⟩ | ⟨s, taken, -, hs⟩
  · have hp : pushes st'.log = pushes st.log := by
      rcases hs.log with hl | ⟨e, he, hl⟩
      · rw [hl]
      · rw [hl, pushes_plain he]
    exact ⟨by rw [hs.blocks]; exact h.count, by rw [hs.blocks, hp]; exact h.sum, by rw [hs.blocks, hp]; exact h.few,
      by rw [hs.blocks]; exact h.some⟩
  · unfold pushCall at hs
    obtain ⟨r, hr, hs⟩ := bind_ok hs
    cases r with
    | error e => cases hs; exact ⟨h.count, h.sum, h.few, h.some⟩
    | ok r =>
      obtain ⟨i, blocks⟩ := r
      obtain ⟨slots, -, hs⟩ := bind_ok hs
      have hc := takeSlot_count hh.block.avail h.count hr
      have hsum := takeSlot_sum hr
      have h1 := h.sum
      have h2 := h.few
      have e1 : st'.blocks = blocks := by cases d <;> (cases hs; rfl)
      have e2 : pushes st'.log = pushes st.log + 1 := by cases d <;> (cases hs; rfl)
      have h3 := h.some
      have hl : blockSize = 256 := rfl
      refine ⟨by rw [e1]; exact hc, ?_, ?_, ?_⟩
      · rw [e1, e2]
        rw [hl] at h1 ⊢
        omega
      · rw [e1, e2]
        rcases hsum with ⟨-, hsum⟩ | ⟨h0, -, hsum⟩
        · rw [hsum]; exact Nat.le_trans h2 (by omega)
        · rw [hsum, Nat.add_mul, ← h1, h0]
          omega
      · rw [e1]
        omega
  · obtain ⟨x, j, hx, hj, hg, -, he⟩ := freeEnd_ok hs
    have e2 : pushes st'.log = pushes st.log := by rw [he]; rfl
    unfold giveBack at hg
    cases hb : st.blocks[s / blockSize]? with
    | none => rw [hb] at hg; exact nomatch hg
    | some b =>
      rw [hb] at hg
      injection hg with hg
      have hset := sum_set Block.count st.blocks (s / blockSize) b
        { b with avail := b.avail.set (s % blockSize) true } hb
      refine ⟨?_, ?_, ?_, ?_⟩
      · rw [← hg]
        intro c hc
        rcases List.mem_or_eq_of_mem_set hc with hc | rfl
        · exact h.count c hc
        · have := h.count b (List.mem_of_getElem? hb)
          simp only
          by_cases hlt : s % blockSize < b.avail.length
          · have hset := count_set b.avail (s % blockSize) _ true true (List.getElem?_eq_getElem hlt)
            rw [if_pos rfl] at hset
            split at hset <;> omega
          · rw [List.set_eq_of_length_le (by omega)]; exact this
      · rw [e2, ← hg, List.length_set]
        have := h.sum
        simp only at hset
        omega
      · rw [e2, ← hg, List.length_set]
        exact h.few
      · rw [← hg, List.length_set]
        exact h.some

theorem countInv_init (n : Nat) : CountInv (init n) := by
  refine ⟨?_, by simp [init, pushes, freshBlock], Nat.le_of_eq (by simp [init, pushes]), by simp [init]⟩
  intro b hb
  simp only [init, List.mem_singleton] at hb
  subst hb
  simp [freshBlock]

theorem countInv_run {P : State → Act → Prop} {n : Nat} {acts : List Act} {st : State} (h : Run P n acts st) : CountInv st := by
  induction h with
  | start => exact countInv_init n
  | next hr _ hs ih => exact countInv_step (handleInv_run hr) ih hs

theorem takeSlot_success {mem : Bool} {bs : List Block} {base : Nat} (hc : ∀ b ∈ bs, b.count ≤ b.avail.count true)
    (hs : mem = true ∨ 0 < (bs.map Block.count).sum) (hf : base + bs.length * blockSize ≤ 2147483392) :
    ∃ i bs', takeSlot mem bs base = .ok (.ok (i, bs')) := by
  induction bs generalizing base with
  | nil =>
    have hm : mem = true := by
      rcases hs with hs | hs
      · exact hs
      · simp at hs
    unfold takeSlot
    rw [if_pos hm]
    obtain ⟨⟨k, b⟩, h⟩ := takeIn_total (b := freshBlock) (by simp [freshBlock]) (by decide)
    rw [h]; exact ⟨_, _, rfl⟩
  | cons b bs ih =>
    unfold takeSlot
    simp only [List.length_cons] at hf
    split
    · rename_i h0
      have hl : blockSize = 256 := rfl
      rw [hl] at hf
      rw [if_neg (by rw [hl]; omega)]
      simp only [List.map_cons, List.sum_cons, h0, Nat.zero_add] at hs
      obtain ⟨i, bs', hr⟩ := ih (base := base + blockSize) (fun c hcm => hc c (List.mem_cons_of_mem _ hcm)) hs
        (by rw [hl]; omega)
      rw [hr]
      exact ⟨_, _, rfl⟩
    · rename_i h0
      obtain ⟨⟨k, b'⟩, h⟩ := takeIn_total (hc b List.mem_cons_self) h0
      rw [h]; exact ⟨_, _, rfl⟩

theorem pushCall_success {st : State} {deferred mem : Bool} (hb : BlockInv st) (h : CountInv st)
    (hs : mem = true ∨ pushes st.log < 256) (hf : pushes st.log < 2147483392) :
    ∃ st', pushCall st deferred mem = .ok st' ∧ ∃ i, st'.log = .pushed i st.jobs :: st.log := by
  have h1 := h.sum
  have h2 := h.few
  have h3 := h.some
  have hl : blockSize = 256 := rfl
  rw [hl] at h1 h2
  obtain ⟨i, bs, hr⟩ := takeSlot_success (mem := mem) (base := 0) h.count (by
    rcases hs with hs | hs
    · exact .inl hs
    · right; omega) (by rw [hl]; omega)
  obtain ⟨k, rfl, -, -, -, g3, -⟩ := takeSlot_ok hb.avail hr
  have hlen : 0 + k < (st.slots ++ List.replicate (bs.length * blockSize - st.slots.length) ({} : Slot)).length := by
    rw [List.length_append, List.length_replicate]
    omega
  have : ∃ l, placeJob st.slots bs (0 + k) st.jobs = .ok l := by
    unfold placeJob rd
    dsimp only
    rw [List.getElem?_eq_getElem hlen]
    exact ⟨_, rfl⟩
  obtain ⟨l, hl⟩ := this
  unfold pushCall
  rw [hr, ok_bind]
  dsimp only
  rw [hl]
  cases deferred <;> exact ⟨_, rfl, 0 + k, rfl⟩

end Tm.Async
