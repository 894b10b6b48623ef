import Verif.Json.TermLemmas

/-! # The memory of documents -/

namespace Tm.Json

open Tm Spec

/-! ### Unescaping any bytes -/

theorem utf8Encode_length (cp : Nat) : (utf8Encode cp).length ≤ 4 := by
  unfold utf8Encode
  split
  · simp
  · split
    · simp
    · split <;> simp

theorem copyRest_safe {cap rem : Nat} {first out : List Byte} (h : out.length + first.length ≤ cap) :
    ∃ res, copyRest cap first out rem = .ok res ∧ res.length ≤ out.length + first.length := by
  unfold copyRest
  have hl : (first.take rem).length ≤ first.length := by rw [List.length_take]; omega
  split
  · rw [put_ok (by omega)]
    exact ⟨_, rfl, by rw [List.length_append]; omega⟩
  · exact ⟨_, rfl, by omega⟩

theorem copyLoop_safe (cap : Nat) : ∀ (fuel : Nat) (first out : List Byte) (rem : Nat), first.length < fuel →
    out.length + first.length ≤ cap → ∃ res, copyLoop cap fuel first out rem = .ok res ∧ res.length ≤ out.length + first.length := by
  intro fuel
  induction fuel with
  | zero => intro _ _ _ h; omega
  | succ fuel ih =>
    intro first out rem hf hc
    unfold copyLoop
    split
    · exact copyRest_safe hc
    · rename_i i hi
      have hlt := memchr_lt hi
      split
      · exact copyRest_safe hc
      · dsimp only
        have hpart : ((first.take i).take rem).length ≤ i := by rw [List.length_take, List.length_take]; omega
        generalize (first.take i).take rem = part at hpart
        rw [put_ok (by omega), ok_bind]
        have hl : (out ++ part).length ≤ out.length + i := by rw [List.length_append]; omega
        generalize hdrop : first.drop (i + 1) = d
        have hd : d.length + (i + 1) = first.length := by rw [← hdrop, List.length_drop]; omega
        match d, hd with
        | [], hd =>
          dsimp only
          obtain ⟨res, e, h⟩ := copyRest_safe (cap := cap) (rem := rem - part.length) (first := []) (out := out ++ part) (by simp only [List.length_nil]; omega)
          exact ⟨res, e, by simp only [List.length_nil] at h; omega⟩
        | [e], hd =>
          dsimp only
          obtain ⟨res, e', h⟩ := copyRest_safe (cap := cap) (rem := rem - part.length) (first := [e]) (out := out ++ part) (by simp only [List.length_cons, List.length_nil] at *; omega)
          exact ⟨res, e', by simp only [List.length_cons, List.length_nil] at *; omega⟩
        | e :: c :: t, hd =>
          dsimp only
          simp only [List.length_cons] at hd
          split
          · obtain ⟨res, e', h⟩ := ih (c :: t) (out ++ part) (rem - part.length) (by simp only [List.length_cons]; omega)
              (by simp only [List.length_cons]; omega)
            exact ⟨res, e', by simp only [List.length_cons] at h; omega⟩
          · split
            · split
              · exact ⟨_, rfl, by omega⟩
              · rename_i adv cp hcp
                have h4 := utf8Encode_length cp
                have hadv : 4 ≤ adv ∧ adv ≤ (c :: t).length := by
                  rcases getCodepoint_some.mp hcp with ⟨g, t', hw, hh, _, rfl⟩ | ⟨h1, h2, n1, n2, t', hw, hh1, hh2, _, _, _, _, _, rfl⟩
                  · have := hex4_length hh
                    rw [hw, List.length_append]; omega
                  · have := hex4_length hh1
                    have := hex4_length hh2
                    rw [hw]; simp only [List.length_append, List.length_cons]; omega
                simp only [List.length_cons] at hadv
                split
                · exact ⟨_, rfl, by omega⟩
                · rw [put_ok (by omega), ok_bind]
                  obtain ⟨res, e', h⟩ := ih ((c :: t).drop adv) (out ++ part ++ utf8Encode cp) (rem - part.length - (utf8Encode cp).length)
                    (by rw [List.length_drop, List.length_cons]; omega) (by rw [List.length_drop, List.length_append, List.length_cons]; omega)
                  exact ⟨res, e', by rw [List.length_drop, List.length_append, List.length_cons] at h; omega⟩
            · rw [put_ok (by simp only [List.length_cons, List.length_nil]; omega), ok_bind]
              generalize (if e = 0x62 then (0x08 : Byte) else if e = 0x66 then 0x0C else if e = 0x6E then 0x0A else if e = 0x72 then 0x0D
                else if e = 0x74 then 0x09 else e) = b
              obtain ⟨res, e', h⟩ := ih (c :: t) (out ++ part ++ [b]) (rem - part.length) (by simp only [List.length_cons]; omega)
                (by simp only [List.length_append, List.length_cons, List.length_nil] at *; omega)
              exact ⟨res, e', by simp only [List.length_append, List.length_cons, List.length_nil] at h hl; omega⟩

theorem copyUnescaped_safe {str : List Byte} {size : Nat} (h : str.length ≤ size) :
    ∃ res, copyUnescaped str size = .ok res ∧ res.length ≤ str.length := by
  unfold copyUnescaped
  split
  · exact ⟨_, rfl, by simp⟩
  · obtain ⟨res, e, hr⟩ := copyLoop_safe size (str.length + 1) str [] size (Nat.lt_succ_self _) (by simpa using h)
    exact ⟨res, e, by simpa using hr⟩

/-! ### Blocks -/

theorem allocate_spec {a a' : Alloc} {size alignment : Nat} {p : Int} (ha : 0 < alignment) (h : allocate a size alignment = some (p, a')) :
    a.ptr + a.size ≤ p ∧ p + size = a'.ptr + a'.size ∧ (alignment : Int) ∣ p ∧ a'.ptr = a.ptr ∧ a'.capacity = a.capacity ∧
      a'.size ≤ a'.capacity ∧ p < a.ptr + a.size + alignment := by
  unfold allocate at h
  dsimp only at h
  split at h
  · cases h
  · rename_i hn
    injection h with h
    injection h with h1 h2
    have hpos : (0 : Int) < alignment := by exact_mod_cast ha
    have hm := Int.emod_nonneg ((alignment : Int) - (a.ptr + a.size) % alignment) (Int.ne_of_gt hpos)
    have hm2 := Int.emod_lt_of_pos ((alignment : Int) - (a.ptr + a.size) % alignment) hpos
    have hto := Int.toNat_of_nonneg hm
    refine ⟨by omega, by rw [← h1, ← h2]; push_cast; omega, ?_, by rw [← h2], by rw [← h2], by rw [← h2]; dsimp only; omega, by omega⟩
    rw [← h1, hto]
    have h4 := Int.emod_add_mul_ediv (a.ptr + a.size) alignment
    apply Int.dvd_of_emod_eq_zero
    rw [Int.add_emod_emod, show a.ptr + a.size + ((alignment : Int) - (a.ptr + a.size) % alignment) =
      alignment * ((a.ptr + a.size) / alignment) + alignment by omega, Int.add_emod_right, Int.mul_emod_right]

/-- A use of the pool: `jsonAllocate` or `jsonAllocateUnescapedString`. -/
inductive PoolOp
  | block (size alignment : Nat)
  | string (v : View)

/-- Memory that was handed out: the address, the number of bytes and the alignment asked for. -/
structure Block where
  addr : Int
  size : Nat
  alignment : Nat

/-- One use: the block handed out, if any. The bytes of a string are those of the result. -/
def poolStep (a : Alloc) : PoolOp → C (List Block × Alloc)
  | .block size alignment =>
    match allocate a size alignment with
    | none => .ok ([], a)
    | some (p, a') => .ok ([⟨p, size, alignment⟩], a')
  | .string v => do
    let x ← allocateString a v
    match allocate a v.size 1 with
    | none => .ok ([], x.2)
    | some (p, _) => .ok ([⟨p, x.1.size, 1⟩], x.2)

/-- Any number of uses: all blocks handed out. -/
def poolRun (a : Alloc) : List PoolOp → C (List Block × Alloc)
  | [] => .ok ([], a)
  | op :: ops => do
    let x ← poolStep a op
    let y ← poolRun x.2 ops
    .ok (x.1 ++ y.1, y.2)

/-- The uses that the interface allows: an alignment, and views that can be read. -/
def PoolOp.Allowed : PoolOp → Prop
  | .block _ alignment => 0 < alignment
  | .string v => ∃ t, v.text = .ok t

theorem text_length {v : View} {t : List Byte} (h : v.text = .ok t) : t.length = v.size := by
  unfold View.text at h
  split at h
  · injection h with h
    rw [← h, List.length_take]
    omega
  · cases h

theorem pool_step {a : Alloc} {op : PoolOp} (h : op.Allowed) :
    ∃ bs a', poolStep a op = .ok (bs, a') ∧ a'.capacity = a.capacity ∧ a'.ptr ≤ a.ptr ∧ a.ptr + a.size ≤ a'.ptr + a'.size ∧
      (bs = [] ∨ ∃ b, bs = [b] ∧ (b.alignment : Int) ∣ b.addr ∧ a.ptr + a.size ≤ b.addr ∧ b.addr + b.size ≤ a'.ptr + a'.size ∧
        b.addr + b.size ≤ a.ptr + a.capacity) := by
  cases op with
  | block size alignment =>
    unfold poolStep
    dsimp only
    cases hal : allocate a size alignment with
    | none => exact ⟨[], a, rfl, rfl, Int.le_refl _, Int.le_refl _, Or.inl rfl⟩
    | some x =>
      obtain ⟨p, a'⟩ := x
      obtain ⟨h1, h2, h3, h4, h5, h6, _⟩ := allocate_spec h hal
      refine ⟨[⟨p, size, alignment⟩], a', rfl, h5, by omega, by omega, Or.inr ⟨_, rfl, h3, h1, by dsimp only; omega, ?_⟩⟩
      dsimp only
      have : (a'.size : Int) ≤ a'.capacity := by exact_mod_cast h6
      rw [h2, h4, ← h5]
      omega
  | string v =>
    obtain ⟨t, ht⟩ := h
    have hlen := text_length ht
    unfold poolStep allocateString
    dsimp only
    rw [ht, ok_bind, hlen]
    cases hal : allocate a v.size 1 with
    | none =>
      dsimp only
      rw [ok_bind]
      exact ⟨[], a, rfl, rfl, Int.le_refl _, Int.le_refl _, Or.inl rfl⟩
    | some x =>
      obtain ⟨p, a'⟩ := x
      dsimp only
      obtain ⟨res, e, hr⟩ := copyUnescaped_safe (str := t) (size := v.size) (by omega)
      rw [e, ok_bind, ok_bind]
      obtain ⟨h1, h2, h3, h4, h5, h6, _⟩ := allocate_spec (by omega) hal
      refine ⟨[⟨p, res.length, 1⟩], _, rfl, h5, by dsimp only; omega, by dsimp only; push_cast; omega,
        Or.inr ⟨_, rfl, h3, h1, by dsimp only; push_cast; omega, ?_⟩⟩
      dsimp only
      have : (a'.size : Int) ≤ a'.capacity := by exact_mod_cast h6
      rw [← h5, ← h4]
      omega

/-- Two blocks do not overlap. -/
def Apart (b c : Block) : Prop := b.addr + b.size ≤ c.addr ∨ c.addr + c.size ≤ b.addr

theorem pool_run : ∀ (ops : List PoolOp) (a : Alloc) (base : Int), (∀ op ∈ ops, op.Allowed) → a.ptr ≤ base →
    ∃ bs a', poolRun a ops = .ok (bs, a') ∧
      (∀ b ∈ bs, (b.alignment : Int) ∣ b.addr ∧ a.ptr + a.size ≤ b.addr ∧ b.addr + b.size ≤ base + a.capacity) ∧ bs.Pairwise Apart := by
  intro ops
  induction ops with
  | nil => intro a base _ _; exact ⟨[], a, rfl, by simp, .nil⟩
  | cons op ops ih =>
    intro a base hops hp
    obtain ⟨bs, a1, e1, h1, h2, h3, h4⟩ := pool_step (a := a) (hops op (by simp))
    obtain ⟨bs', a2, e2, g1, g2⟩ := ih a1 base (fun o ho => hops o (by simp [ho])) (by omega)
    refine ⟨bs ++ bs', a2, by rw [poolRun, e1, ok_bind, e2, ok_bind], ?_, ?_⟩
    · intro b hb
      rcases List.mem_append.mp hb with hb | hb
      · rcases h4 with rfl | ⟨c, rfl, f1, f2, _, f4⟩
        · cases hb
        · rw [List.mem_singleton] at hb
          subst hb
          exact ⟨f1, f2, by omega⟩
      · obtain ⟨f1, f2, f3⟩ := g1 b hb
        exact ⟨f1, by omega, by rw [h1] at f3; exact f3⟩
    · rw [List.pairwise_append]
      refine ⟨?_, g2, ?_⟩
      · rcases h4 with rfl | ⟨c, rfl, _⟩
        · exact .nil
        · exact List.pairwise_singleton _ _
      · intro b hb c hc
        rcases h4 with rfl | ⟨d, rfl, _, _, f3, _⟩
        · cases hb
        · rw [List.mem_singleton] at hb
          subst hb
          have := (g1 c hc).2.1
          exact Or.inl (by omega)

end Tm.Json
