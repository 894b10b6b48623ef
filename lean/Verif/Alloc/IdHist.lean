import Verif.Alloc.IdLemmas
namespace Tm.Alloc

theorem bind_ok {α β : Type} {x : C α} {f : α → C β} {b : β} (h : (x >>= f) = .ok b) : ∃ a, x = .ok a ∧ f a = .ok b := by
  cases x with
  | error e => cases h
  | ok a => exact ⟨a, rfl, h⟩

theorem wr_inv {α : Type} {b b' : List α} {i : Nat} {v : α} (h : wr b i v = .ok b') : i < b.length ∧ b' = b.set i v := by
  unfold wr at h
  split at h
  · cases h; exact ⟨by assumption, rfl⟩
  · cases h

/-- What every operation keeps. -/
def IdKeeps (s s' : IdAlloc) : Prop := s.slots.length ≤ s'.slots.length ∧ s'.elem = s.elem ∧ s'.hasData = s.hasData

theorem IdAlloc.pop_keeps {s s' : IdAlloc} {id : U32} (h : s.pop = .ok (id, s')) : IdKeeps s s' := by
  unfold IdAlloc.pop at h
  split at h
  · obtain ⟨_, _, h⟩ := bind_ok h
    dsimp only at h
    obtain ⟨_, _, h⟩ := bind_ok h
    obtain ⟨_, _, h⟩ := bind_ok h
    obtain ⟨_, _, h⟩ := bind_ok h
    cases h
    exact ⟨Nat.le_refl _, rfl, rfl⟩
  · cases h
    exact ⟨Nat.le_refl _, rfl, rfl⟩

theorem IdAlloc.create_keeps {s s' : IdAlloc} {id : U32} {m : Option (Nat → U32)} (h : s.create m = .ok (id, s')) :
    IdKeeps s s' := by
  unfold IdAlloc.create at h
  obtain ⟨_, _, h⟩ := bind_ok h
  obtain ⟨⟨i, s1⟩, h1, h⟩ := bind_ok h
  obtain ⟨k1, k2, k3⟩ := IdAlloc.pop_keeps h1
  dsimp only at h
  split at h
  · cases h; exact ⟨k1, k2, k3⟩
  · obtain ⟨g1, g2, g3, g4, g5, g6⟩ := s1.grow_props m
    split at h
    · cases h; exact ⟨Nat.le_trans k1 g5, by rw [← k2, ← g3], by rw [← k3, ← g4]⟩
    · cases h; exact ⟨Nat.le_trans k1 g5, by rw [← k2, ← g3], by rw [← k3, ← g4]⟩

theorem IdAlloc.destroy_keeps {s s' : IdAlloc} {id : U32} (h : s.destroy id = .ok s') : IdKeeps s s' := by
  unfold IdAlloc.destroy at h
  split at h
  · unfold IdAlloc.push at h
    obtain ⟨_, _, h⟩ := bind_ok h
    dsimp only at h
    obtain ⟨_, _, h⟩ := bind_ok h
    obtain ⟨sl, h1, h⟩ := bind_ok h
    cases h
    refine ⟨?_, rfl, rfl⟩
    show _ ≤ sl.length
    rw [(wr_inv h1).2, List.length_set]
  · cases h; exact ⟨Nat.le_refl _, rfl, rfl⟩

theorem IdAlloc.store_keeps {s s' : IdAlloc} {id v : U32} (h : s.store id v = .ok s') : IdKeeps s s' := by
  unfold IdAlloc.store at h
  split at h
  · cases h
  · obtain ⟨_, _, h⟩ := bind_ok h
    obtain ⟨sl, h1, h⟩ := bind_ok h
    cases h
    refine ⟨?_, rfl, rfl⟩
    show _ ≤ sl.length
    rw [(wr_inv h1).2, List.length_set]

theorem IdClient.took_st (c : IdClient) (id : U32) (st : IdAlloc) : (c.took id st).st = st := by
  unfold IdClient.took; split <;> rfl

theorem IdClient.step_keeps {c c' : IdClient} {e : IdEvent} (h : c.step e = .ok c') : IdKeeps c.st c'.st := by
  cases e with
  | create m =>
    obtain ⟨⟨id, st⟩, h1, h⟩ := bind_ok h
    cases h
    rw [IdClient.took_st]
    exact IdAlloc.create_keeps h1
  | destroy i =>
    unfold IdClient.step at h
    dsimp only at h
    split at h
    · cases h; exact ⟨Nat.le_refl _, rfl, rfl⟩
    · obtain ⟨st, h1, h⟩ := bind_ok h
      cases h
      exact IdAlloc.destroy_keeps h1
  | write i v =>
    unfold IdClient.step at h
    dsimp only at h
    split at h
    · cases h; exact ⟨Nat.le_refl _, rfl, rfl⟩
    · obtain ⟨st, h1, h⟩ := bind_ok h
      cases h
      exact IdAlloc.store_keeps h1

theorem IdClient.run_keeps {evs : List IdEvent} {c c' : IdClient} (h : c.run evs = .ok c') : IdKeeps c.st c'.st := by
  induction evs generalizing c with
  | nil => cases h; exact ⟨Nat.le_refl _, rfl, rfl⟩
  | cons e es ih =>
    obtain ⟨c1, h1, h⟩ := bind_ok h
    obtain ⟨a1, a2, a3⟩ := IdClient.step_keeps h1
    obtain ⟨b1, b2, b3⟩ := ih h
    exact ⟨Nat.le_trans a1 b1, b2.trans a2, b3.trans a3⟩

theorem IdClient.Small.mono {c c' : IdClient} (h : IdKeeps c.st c'.st) (hs : c'.Small) : c.Small := by
  unfold IdClient.Small at *
  rw [h.2.1] at hs
  exact Nat.le_trans (Nat.mul_le_mul_right _ h.1) hs

theorem id_inv_step {c c' : IdClient} {e : IdEvent} (hi : ∃ fs, IdInv c fs) (h : c.step e = .ok c') (hs : c'.Small) :
    ∃ fs, IdInv c' fs := by
  obtain ⟨fs, hi⟩ := hi
  have hs0 := IdClient.Small.mono (IdClient.step_keeps h) hs
  cases e with
  | create m =>
    obtain ⟨⟨id, st⟩, h1, h⟩ := bind_ok h
    cases h
    have hd : c.st.hasData = true := by
      unfold IdAlloc.create at h1
      obtain ⟨_, h2, _⟩ := bind_ok h1
      cases hq : c.st.hasData with
      | true => rfl
      | false => rw [hq] at h2; cases h2
    cases fs with
    | nil =>
      obtain ⟨id', st', e1, _, _, _, e2⟩ := hi.create_new hd m
      rw [e1] at h1
      cases h1
      exact ⟨[], (e2 hs).2⟩
    | cons i fs =>
      obtain ⟨id', st', e1, _, _, _, _, _, e2⟩ := hi.create_reuse hs0 hd m
      rw [e1] at h1
      cases h1
      exact ⟨fs, e2⟩
  | destroy i =>
    unfold IdClient.step at h
    dsimp only at h
    split at h
    · cases h; exact ⟨fs, hi⟩
    · rename_i id hid
      obtain ⟨st, h1, h⟩ := bind_ok h
      cases h
      obtain ⟨st', e1, _, _, _, e2⟩ := hi.destroy hs0 hid
      rw [e1] at h1
      cases h1
      exact ⟨_, e2⟩
  | write i v =>
    unfold IdClient.step at h
    dsimp only at h
    split at h
    · cases h; exact ⟨fs, hi⟩
    · rename_i id hid
      obtain ⟨st, h1, h⟩ := bind_ok h
      cases h
      obtain ⟨st', e1, _, _, _, e2⟩ := hi.store hs0 (List.mem_of_getElem? hid) v
      rw [e1] at h1
      cases h1
      exact ⟨_, e2⟩

theorem id_inv_run {evs : List IdEvent} {c c' : IdClient} (hi : ∃ fs, IdInv c fs) (h : c.run evs = .ok c') (hs : c'.Small) :
    ∃ fs, IdInv c' fs := by
  induction evs generalizing c with
  | nil => cases h; exact hi
  | cons e es ih =>
    obtain ⟨c1, h1, h⟩ := bind_ok h
    exact ih (id_inv_step hi h1 (IdClient.Small.mono (IdClient.run_keeps h) hs)) h

theorem id_inv_make {capacity elementSize : Int} {memory : Option (Nat → U32)} {st : IdAlloc}
    (h : IdAlloc.make capacity elementSize memory = .ok st) : IdInv ⟨st, [], []⟩ [] := by
  unfold IdAlloc.make at h
  obtain ⟨_, h1, h⟩ := bind_ok h
  have h4 : 4 ≤ elementSize := by
    by_cases hq : 4 ≤ elementSize
    · exact hq
    · rw [decide_eq_false hq] at h1; cases h1
  have key : ∀ (b : Bool) (l : List U32), IdInv ⟨⟨b, l, 0, -1, elementSize.toNat⟩, [], []⟩ [] := by
    intro b l
    refine ⟨?_, Nat.zero_le _, .nil, by simp, by simp, ?_⟩
    · show 4 ≤ elementSize.toNat; omega
    · intro id; show id ∈ [] ↔ _ ∧ id.toNat ≤ 0; simp; omega
  split at h
  · cases h; exact key _ _
  · obtain ⟨_, _, h⟩ := bind_ok h
    cases memory with
    | none => cases h; exact key _ _
    | some f => cases h; exact key _ _

theorem id_reachable_inv {c : IdClient} (h : IdReachable c) (hs : c.Small) : ∃ fs, IdInv c fs := by
  obtain ⟨_, _, _, _, _, h1, h2⟩ := h
  exact id_inv_run ⟨[], id_inv_make h1⟩ h2 hs

end Tm.Alloc
