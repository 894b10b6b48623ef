import Verif.Alloc.GenLemmas
namespace Tm.Alloc

/-- What every operation keeps. -/
def GenKeeps (s s' : GenAlloc) : Prop := s.slots.length ≤ s'.slots.length ∧ s'.elem = s.elem

theorem GenAlloc.pop_keeps {s s' : GenAlloc} {id : U32} (h : s.pop = .ok (id, s')) : GenKeeps s s' := by
  unfold GenAlloc.pop at h
  split at h
  · obtain ⟨_, _, h⟩ := bind_ok h
    obtain ⟨_, _, h⟩ := bind_ok h
    obtain ⟨_, _, h⟩ := bind_ok h
    obtain ⟨_, _, h⟩ := bind_ok h
    cases h
    exact ⟨Nat.le_refl _, rfl⟩
  · cases h
    exact ⟨Nat.le_refl _, rfl⟩

theorem GenAlloc.create_keeps {s s' : GenAlloc} {id : U32} {m : Option (U64 × (Nat → U32))} (h : s.create m = .ok (id, s')) :
    GenKeeps s s' := by
  unfold GenAlloc.create at h
  obtain ⟨_, _, h⟩ := bind_ok h
  obtain ⟨⟨i, s1⟩, h1, h⟩ := bind_ok h
  obtain ⟨k1, k2⟩ := GenAlloc.pop_keeps h1
  dsimp only at h
  split at h
  · cases h; exact ⟨k1, k2⟩
  · obtain ⟨g1, g2, g3, g4, g5⟩ := s1.grow_props m
    split at h
    · obtain ⟨_, _, h⟩ := bind_ok h
      obtain ⟨_, _, h⟩ := bind_ok h
      obtain ⟨sl, h2, h⟩ := bind_ok h
      cases h
      refine ⟨?_, by rw [← k2, ← g3]⟩
      show _ ≤ sl.length
      rw [(wr_inv h2).2, List.length_set]
      exact Nat.le_trans k1 g4
    · cases h; exact ⟨Nat.le_trans k1 g4, by rw [← k2, ← g3]⟩

theorem GenAlloc.destroy_keeps {s s' : GenAlloc} {id : U32} (h : s.destroy id = .ok s') : GenKeeps s s' := by
  unfold GenAlloc.destroy at h
  obtain ⟨_, _, h⟩ := bind_ok h
  split at h
  · unfold GenAlloc.push at h
    dsimp only at h
    obtain ⟨_, _, h⟩ := bind_ok h
    obtain ⟨_, _, h⟩ := bind_ok h
    obtain ⟨_, _, h⟩ := bind_ok h
    obtain ⟨sl, h1, h⟩ := bind_ok h
    cases h
    refine ⟨?_, rfl⟩
    show _ ≤ sl.length
    rw [(wr_inv h1).2, List.length_set]
  · cases h; exact ⟨Nat.le_refl _, rfl⟩

theorem GenClient.took_st (c : GenClient) (id : U32) (st : GenAlloc) : (c.took id st).st = st := by
  unfold GenClient.took; split <;> rfl

theorem GenClient.step_keeps {c c' : GenClient} {e : GenEvent} (h : c.step e = .ok c') : GenKeeps c.st c'.st := by
  cases e with
  | create m =>
    obtain ⟨⟨id, st⟩, h1, h⟩ := bind_ok h
    cases h
    rw [GenClient.took_st]
    exact GenAlloc.create_keeps h1
  | destroy i =>
    unfold GenClient.step at h
    dsimp only at h
    split at h
    · cases h; exact ⟨Nat.le_refl _, rfl⟩
    · obtain ⟨st, h1, h⟩ := bind_ok h
      cases h
      exact GenAlloc.destroy_keeps h1

theorem GenClient.run_keeps {evs : List GenEvent} {c c' : GenClient} (h : c.run evs = .ok c') : GenKeeps c.st c'.st := by
  induction evs generalizing c with
  | nil => cases h; exact ⟨Nat.le_refl _, rfl⟩
  | cons e es ih =>
    obtain ⟨c1, h1, h⟩ := bind_ok h
    obtain ⟨a1, a2⟩ := GenClient.step_keeps h1
    obtain ⟨b1, b2⟩ := ih h
    exact ⟨Nat.le_trans a1 b1, b2.trans a2⟩

theorem GenClient.Small.mono {c c' : GenClient} (h : GenKeeps c.st c'.st) (hs : c'.Small) : c.Small := by
  unfold GenClient.Small at *
  rw [h.2] at hs
  exact ⟨Nat.le_trans (Nat.mul_le_mul_right _ h.1) hs.1, Nat.lt_of_le_of_lt h.1 hs.2⟩

/-- With nothing to pop, `create` ends with the capacity of the grown storage. -/
theorem GenAlloc.create_length {s s' : GenAlloc} {id : U32} {m : Option (U64 × (Nat → U32))} (hf : s.free ≤ 0)
    (h : s.create m = .ok (id, s')) : s'.slots.length = (s.growIfFull m).slots.length := by
  unfold GenAlloc.create at h
  obtain ⟨_, _, h⟩ := bind_ok h
  have hp : s.pop = .ok (0, s) := by unfold GenAlloc.pop; rw [if_neg (by omega)]
  rw [hp, ok_bind] at h
  dsimp only at h
  rw [if_neg (by simp)] at h
  split at h
  · obtain ⟨_, _, h⟩ := bind_ok h
    obtain ⟨_, _, h⟩ := bind_ok h
    obtain ⟨sl, h2, h⟩ := bind_ok h
    cases h
    show sl.length = _
    rw [(wr_inv h2).2, List.length_set]
  · cases h; rfl

theorem gen_inv_step {c c' : GenClient} {e : GenEvent} (hi : ∃ fs, GenInv c fs) (h : c.step e = .ok c') (hs : c'.Small) :
    ∃ fs, GenInv c' fs := by
  obtain ⟨fs, hi⟩ := hi
  have hk := GenClient.step_keeps h
  have hs0 := GenClient.Small.mono hk hs
  cases e with
  | create m =>
    obtain ⟨⟨id, st⟩, h1, h⟩ := bind_ok h
    cases h
    have hd : c.st.hasData = true := by
      unfold GenAlloc.create at h1
      obtain ⟨_, h2, _⟩ := bind_ok h1
      cases hq : c.st.hasData with
      | true => rfl
      | false => rw [hq] at h2; cases h2
    cases fs with
    | nil =>
      have hst : c.st.free = -1 ∨ c.st.free = 0 ∨ c.st.free = 0x7FFFFF := by
        have := hi.chain
        generalize c.st.free = fr at this
        cases this with
        | stop hh => exact hh
      by_cases he : c.st.free = 0x7FFFFF
      · rw [hi.create_end hs0 he m] at h1; cases h1
      · have hf : c.st.free ≤ 0 := by omega
        have hlen := GenAlloc.create_length hf h1
        unfold GenClient.Small at hs
        rw [GenClient.took_st] at hs hk
        have hs1 := hs.1
        have hs2 := hs.2
        rw [hk.2] at hs1
        dsimp only at hs1 hs2
        rw [hlen] at hs1 hs2
        obtain ⟨id', st', e1, _, _, e2⟩ := hi.create_new hd hf m hs1 hs2
        rw [e1] at h1
        cases h1
        exact ⟨[], e2⟩
    | cons i fs =>
      obtain ⟨id', st', e1, _, _, _, e2⟩ := hi.create_reuse hs0 hd m
      rw [e1] at h1
      cases h1
      exact ⟨fs, e2⟩
  | destroy i =>
    unfold GenClient.step at h
    dsimp only at h
    split at h
    · cases h; exact ⟨fs, hi⟩
    · rename_i id hid
      obtain ⟨st, h1, h⟩ := bind_ok h
      cases h
      obtain ⟨st', fs', e1, e2⟩ := hi.destroy hs0 hid
      rw [e1] at h1
      cases h1
      exact ⟨_, e2⟩

theorem gen_inv_run {evs : List GenEvent} {c c' : GenClient} (hi : ∃ fs, GenInv c fs) (h : c.run evs = .ok c') (hs : c'.Small) :
    ∃ fs, GenInv c' fs := by
  induction evs generalizing c with
  | nil => cases h; exact hi
  | cons e es ih =>
    obtain ⟨c1, h1, h⟩ := bind_ok h
    exact ih (gen_inv_step hi h1 (GenClient.Small.mono (GenClient.run_keeps h) hs)) h

theorem genLayout_inv {s a e : Nat} {al : U64} (h : genLayout s a = .ok (e, al)) :
    Pow2 (BitVec.ofNat 64 a).toNat ∧ e = s + 4 + pad 4 (BitVec.ofNat 64 a).toNat ∧ al = BitVec.ofNat 64 (if a < 4 then 4 else a) := by
  unfold genLayout at h
  obtain ⟨off, h1, h⟩ := bind_ok h
  by_cases hp : Pow2 (BitVec.ofNat 64 a).toNat
  · have h2 := offset_toNat (ptr := 4) hp
    rw [alignmentOffset_ok hp] at h1
    cases h1
    cases h
    exact ⟨hp, by rw [h2]; rfl, rfl⟩
  · rw [alignmentOffset_bad hp] at h1; cases h1

theorem gen_make_inv {capacity : Int} {s a : Nat} {memory : Option (U64 × (Nat → U32))} {st : GenAlloc}
    (h : GenAlloc.make capacity s a memory = .ok st) :
    genLayout s a = .ok (st.elem, st.align) ∧ st.size = 0 ∧ st.free = -1 := by
  unfold GenAlloc.make at h
  obtain ⟨⟨e, al⟩, h1, h⟩ := bind_ok h
  dsimp only at h
  split at h
  · cases h; exact ⟨h1, rfl, rfl⟩
  · obtain ⟨_, _, h⟩ := bind_ok h
    split at h
    · cases h; exact ⟨h1, rfl, rfl⟩
    · cases h; exact ⟨h1, rfl, rfl⟩

theorem gen_reachable_inv {c : GenClient} (h : GenReachable c) (hs : c.Small) : ∃ fs, GenInv c fs := by
  obtain ⟨_, _, _, _, st, _, h1, h2⟩ := h
  obtain ⟨l, z, f⟩ := gen_make_inv h1
  refine gen_inv_run ⟨[], ?_⟩ h2 hs
  refine ⟨?_, ?_, ?_, ?_, List.nodup_nil, by simp, by simp, List.nodup_nil, by simp⟩
  · have := (genLayout_inv l).2.1
    show 4 ≤ st.elem
    omega
  · show st.size ≤ _; omega
  · intro k hk; have : k < st.size := hk; omega
  · show GenChain _ _ st.free []; rw [f]; exact .stop (Or.inl rfl)

/-- The iterator finds the next slot in use. -/
theorem iterLoop_found {s : GenAlloc} (d : Nat) {fuel k : Nat} {n : Int} {w : U32} (hw : s.slots[k + d]? = some w)
    (ho : occOf w = true) (hu : ∀ j v, j < d → s.slots[k + j]? = some v → occOf v = false) (hn : (d : Int) < n) (hf : d < fuel) :
    s.iterLoop fuel k n = .ok ⟨k + d, n - d⟩ := by
  induction d generalizing fuel k n with
  | zero =>
    obtain ⟨f, rfl⟩ : ∃ f, fuel = f + 1 := ⟨fuel - 1, by omega⟩
    rw [Nat.add_zero] at hw
    rw [GenAlloc.iterLoop, rd_ok hw, ok_bind, if_pos ho]
    simp
  | succ d ih =>
    obtain ⟨f, rfl⟩ : ∃ f, fuel = f + 1 := ⟨fuel - 1, by omega⟩
    have hlt : k < s.slots.length := by
      have := (List.getElem?_eq_some_iff.mp hw).1; omega
    have hk : s.slots[k]? = some s.slots[k] := List.getElem?_eq_getElem hlt
    have h0 := hu 0 _ (by omega) hk
    rw [GenAlloc.iterLoop, rd_ok hk, ok_bind, if_neg (by rw [h0]; simp), if_pos (by omega)]
    rw [ih (k := k + 1) (n := n - 1) (by rw [← hw]; congr 1; omega)
      (fun j v hj hv => hu (j + 1) v (by omega) (by rw [← hv]; congr 1; omega)) (by omega) (by omega)]
    congr 2 <;> omega

/-- Nothing stops the iterator behind the last slot in use, except the end of the storage. -/
theorem iterLoop_past {s : GenAlloc} (d : Nat) {fuel k : Nat} {n : Int} (hd : s.slots.length - k = d) (hn : n ≤ 0)
    (hu : ∀ j v, k ≤ j → s.slots[j]? = some v → occOf v = false) (hf : d < fuel) : s.iterLoop fuel k n = .error .oob := by
  induction d generalizing fuel k n with
  | zero =>
    obtain ⟨f, rfl⟩ : ∃ f, fuel = f + 1 := ⟨fuel - 1, by omega⟩
    rw [GenAlloc.iterLoop]
    unfold rd
    rw [List.getElem?_eq_none (by omega)]
    rfl
  | succ d ih =>
    obtain ⟨f, rfl⟩ : ∃ f, fuel = f + 1 := ⟨fuel - 1, by omega⟩
    have hk : s.slots[k]? = some s.slots[k] := List.getElem?_eq_getElem (by omega)
    rw [GenAlloc.iterLoop, rd_ok hk, ok_bind, if_neg (by rw [hu k _ (Nat.le_refl _) hk]; simp), if_pos (by omega)]
    exact ih (by omega) (by omega) (fun j v hj hv => hu j v (by omega) hv) (by omega)

end Tm.Alloc
