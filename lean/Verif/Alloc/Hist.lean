import Verif.Alloc.Lemmas
import Verif.Num.Lemmas
/-! Histories of the stack allocator: the invariant on the blocks a client holds. -/
namespace Tm.Alloc

/-- The blocks, newest first, lie one below the other between `lo` and `e`. -/
def Chain (lo : Nat) : Nat → List Live → Prop
  | e, [] => lo ≤ e
  | e, b :: t => 0 < b.size.toNat ∧ b.stop ≤ e ∧ IsAligned b ∧ Pow2 b.align.toNat ∧ b.align.toNat ≤ 2 ^ 62 ∧
      Chain lo b.ptr.toNat t

theorem Chain.mono {lo e e' : Nat} {l : List Live} (h : Chain lo e l) (he : e ≤ e') : Chain lo e' l := by
  cases l with
  | nil => exact Nat.le_trans h he
  | cons b t => obtain ⟨h1, h2, h3⟩ := h; exact ⟨h1, by omega, h3⟩

theorem Chain.lo_le {lo e : Nat} {l : List Live} (h : Chain lo e l) : lo ≤ e := by
  induction l generalizing e with
  | nil => exact h
  | cons b t ih =>
    obtain ⟨h1, h2, _, _, _, h3⟩ := h
    have := ih h3
    unfold Live.stop at h2
    omega

theorem Chain.mem {lo e : Nat} {l : List Live} (h : Chain lo e l) {b : Live} (hb : b ∈ l) :
    lo ≤ b.ptr.toNat ∧ 0 < b.size.toNat ∧ b.stop ≤ e ∧ IsAligned b ∧ Pow2 b.align.toNat ∧ b.align.toNat ≤ 2 ^ 62 := by
  induction l generalizing e with
  | nil => cases hb
  | cons c t ih =>
    obtain ⟨h1, h2, h3, h4, h5, h6⟩ := h
    rcases List.mem_cons.mp hb with rfl | hb
    · exact ⟨h6.lo_le, h1, h2, h3, h4, h5⟩
    · obtain ⟨i1, i2, i3, i4⟩ := ih h6 hb
      refine ⟨i1, i2, ?_, i4⟩
      unfold Live.stop at *
      omega

theorem Chain.erase {lo e : Nat} {l : List Live} (h : Chain lo e l) (i : Nat) : Chain lo e (l.eraseIdx i) := by
  induction l generalizing e i with
  | nil => exact h
  | cons c t ih =>
    obtain ⟨h1, h2, h3, h4, h5, h6⟩ := h
    cases i with
    | zero =>
      refine h6.mono ?_
      unfold Live.stop at h2
      omega
    | succ i => exact ⟨h1, h2, h3, h4, h5, ih h6 i⟩

theorem Chain.disjoint {lo e : Nat} {l : List Live} (h : Chain lo e l) : l.Pairwise Disjoint := by
  induction l generalizing e with
  | nil => exact List.Pairwise.nil
  | cons c t ih =>
    obtain ⟨h1, h2, h3, h4, h5, h6⟩ := h
    refine List.Pairwise.cons ?_ (ih h6)
    intro b hb x hx
    have := (h6.mem hb).2.2.1
    omega

/-- A block below the newest one ends at or before the newest one's address. -/
theorem Chain.below {lo e : Nat} {n : Live} {t : List Live} (h : Chain lo e (n :: t)) {b : Live} (hb : b ∈ t) :
    b.stop ≤ n.ptr.toNat := (h.2.2.2.2.2.mem hb).2.2.1

/-- The invariant of a client of an allocator over the buffer at `p` of `cap` bytes that leaves everything below the
address `lo` alone. -/
structure Inv (p cap : U64) (lo : Nat) (c : Client) : Prop where
  good : c.st.Good
  low : p.toNat ≤ lo
  p_eq : c.st.p = p
  cap_eq : c.st.cap = cap
  len : c.mem.length = cap.toNat
  chain : Chain lo (p.toNat + c.st.sz.toNat) c.live

theorem inv_fresh {p cap : U64} {mem : List Byte} (h : Buffer p cap mem) : Inv p cap p.toNat (Client.fresh p cap mem) := by
  obtain ⟨h1, h2, h3, h4, h5⟩ := h
  have hp : 0 < p.toNat := by
    rcases Nat.eq_zero_or_pos p.toNat with h | h
    · exact absurd (BitVec.eq_of_toNat_eq (by simpa using h)) h1
    · exact h
  have hc : 0 < cap.toNat := by
    rcases Nat.eq_zero_or_pos cap.toNat with h | h
    · exact absurd (BitVec.eq_of_toNat_eq (by simpa using h)) h2
    · exact h
  exact ⟨⟨hp, hc, h3, h4, by simp [Client.fresh]⟩, Nat.le_refl _, rfl, rfl, h5, by simp [Client.fresh, Chain]⟩

/-- The allocator takes no block for the most recent one that is not the newest. -/
def Client.Sound (c : Client) : Event → Prop
  | .alloc _ _ => True
  | .free i => ∀ b, c.live[i]? = some b → c.st.isMostRecent b.ptr b.size = .ok true → i = 0
  | .realloc i _ => ∀ b, c.live[i]? = some b → c.st.isMostRecent b.ptr b.size = .ok true → i = 0

theorem Inv.block {p cap : U64} {lo : Nat} {c : Client} (h : Inv p cap lo c) {i : Nat} {b : Live} (hb : c.live[i]? = some b) :
    c.st.p.toNat ≤ b.ptr.toNat ∧ 0 < b.size.toNat ∧ b.ptr.toNat + b.size.toNat ≤ c.st.p.toNat + c.st.sz.toNat ∧
      b.ptr ≠ 0 ∧ b.size ≠ 0 ∧ Pow2 b.align.toNat ∧ b.align.toNat ≤ 2 ^ 62 := by
  obtain ⟨h1, h2, h3, h4, h5, h6⟩ := h.chain.mem (List.mem_of_getElem? hb)
  have h1 := Nat.le_trans h.low h1
  have := h.good.p0
  rw [h.p_eq] at *
  exact ⟨h1, h2, h3, ne_zero_of_pos (by omega), ne_zero_of_pos h2, h5, h6⟩

theorem inv_took {p cap : U64} {lo : Nat} {c : Client} (h : Inv p cap lo c) {r size a : U64} {s' : Stack} (hs : 0 < size.toNat)
    (ha : Pow2 a.toNat) (ha62 : a.toNat ≤ 2 ^ 62)
    (hcap : ¬ c.st.cap.toNat < c.st.sz.toNat + pad (c.st.p.toNat + c.st.sz.toNat) a.toNat + size.toNat)
    (hr : r.toNat = c.st.p.toNat + c.st.sz.toNat + pad (c.st.p.toNat + c.st.sz.toNat) a.toNat)
    (h1 : s'.p = c.st.p) (h2 : s'.cap = c.st.cap)
    (h3 : s'.sz.toNat = c.st.sz.toNat + pad (c.st.p.toNat + c.st.sz.toNat) a.toNat + size.toNat)
    {mem : List Byte} (hm : mem.length = cap.toNat) {l : List Live}
    (hl : Chain lo (p.toNat + c.st.sz.toNat) l) :
    Inv p cap lo ⟨s', mem, ⟨r, size, a⟩ :: l⟩ := by
  have hg := h.good
  have hp := h.p_eq
  have hc := h.cap_eq
  refine ⟨⟨?_, ?_, ?_, ?_, ?_⟩, h.low, ?_, ?_, ?_, ?_⟩
  · rw [h1]; exact hg.p0
  · rw [h2]; exact hg.cap0
  · rw [h2]; exact hg.cap62
  · rw [h1, h2]; exact hg.top
  · rw [h2, h3]; omega
  · rw [h1]; exact hp
  · rw [h2]; exact hc
  · exact hm
  · refine ⟨hs, ?_, ?_, ha, ha62, ?_⟩
    · show r.toNat + size.toNat ≤ p.toNat + s'.sz.toNat
      rw [h3, hr, hp]; omega
    · show a.toNat ∣ r.toNat
      rw [hr]; exact pad_dvd ha.pos
    · refine hl.mono ?_
      show p.toNat + c.st.sz.toNat ≤ r.toNat
      rw [hr, hp]; omega

theorem pos_of_ne_zero {v : U64} (h : v ≠ 0) : 0 < v.toNat := by
  rcases Nat.eq_zero_or_pos v.toNat with h' | h'
  · exact absurd (BitVec.eq_of_toNat_eq (by simpa using h')) h
  · exact h'

theorem block_ok {ptr size : U64} (h : ptr ≠ 0) : (⟨ptr, size⟩ : Block).ok = true := by
  show (ptr != 0) = true
  rw [bne_iff_ne]; exact h

theorem ne_of_pos_addr {p cap : U64} {lo : Nat} {c : Client} (h : Inv p cap lo c) {r : U64} (hr : c.st.p.toNat ≤ r.toNat) : r ≠ 0 := by
  have := h.good.p0
  exact ne_zero_of_pos (by omega)

theorem set_same {α : Type} {l : List α} {i : Nat} {b : α} (h : l[i]? = some b) : l.set i b = l := by
  obtain ⟨hi, he⟩ := List.getElem?_eq_some_iff.mp h
  rw [← he, List.set_getElem_self]

theorem inv_step {p cap : U64} {lo : Nat} {c c' : Client} (h : Inv p cap lo c) {ev : Event} (hf : ev.Fits) (hs : c.Sound ev)
    (e : c.step ev = .ok c') : Inv p cap lo c' := by
  cases ev with
  | alloc size a =>
    obtain ⟨hf1, hf2⟩ := hf
    unfold Client.step at e
    dsimp only at e
    by_cases h0 : size = 0
    · subst h0
      rw [allocate_zero] at e
      cases e
      exact h
    · have ha : Pow2 a.toNat := by
        cases hx : c.st.allocate size a with
        | error f => rw [hx] at e; cases e
        | ok rs => exact allocate_pow2 (r := rs.1) (s' := rs.2) h0 hx
      have sp := allocate_spec h.good ha hf2 h0 hf1
      by_cases hc : c.st.cap.toNat < c.st.sz.toNat + pad (c.st.p.toNat + c.st.sz.toNat) a.toNat + size.toNat
      · rw [if_pos hc] at sp
        rw [sp] at e
        cases e
        exact h
      · rw [if_neg hc] at sp
        obtain ⟨r, s', e0, e1, e2, e3, e4, e5⟩ := sp
        rw [e0] at e
        simp only [ok_bind, pure_eq_ok, Client.took, block_ok (ne_of_pos_addr h (r := r) (by omega)), if_true] at e
        cases e
        exact inv_took h (pos_of_ne_zero h0) ha hf2 hc e1 e2 e3 e5 h.len h.chain
  | free i =>
    unfold Client.step at e
    dsimp only at e
    cases hb : c.live[i]? with
    | none => rw [hb] at e; cases e; exact h
    | some b =>
      rw [hb] at e
      dsimp only at e
      obtain ⟨b1, b2, b3, b4, b5, _⟩ := h.block hb
      cases hx : c.st.free b.ptr b.size b.align with
      | error f => rw [hx] at e; cases e
      | ok st =>
        rw [hx] at e
        cases e
        have hl := free_pow2 b4 b5 hx
        have sp := free_spec h.good (a := b.align) b1 b2 b3 hl
        split at sp
        · rename_i hc
          rw [sp] at hx
          cases hx
          have h0 : i = 0 := hs b hb (by rw [isMostRecent_spec h.good b3 hl, decide_eq_true hc])
          subst h0
          obtain ⟨t, ht⟩ : ∃ t, c.live = b :: t := by
            cases hcl : c.live with
            | nil => rw [hcl] at hb; cases hb
            | cons x t => rw [hcl] at hb; cases hb; exact ⟨t, rfl⟩
          have hch := h.chain
          rw [ht] at hch
          have hg := h.good
          have hsz : (b.ptr - c.st.p).toNat = b.ptr.toNat - c.st.p.toNat := by
            have := hg.top
            have := hg.fill
            bv_omega
          refine ⟨⟨hg.p0, hg.cap0, hg.cap62, hg.top, ?_⟩, h.low, h.p_eq, h.cap_eq, h.len, ?_⟩
          · show (b.ptr - c.st.p).toNat ≤ c.st.cap.toNat
            have := hg.fill
            omega
          · show Chain lo (p.toNat + (b.ptr - c.st.p).toNat) (c.live.eraseIdx 0)
            rw [ht]
            refine hch.2.2.2.2.2.mono ?_
            rw [hsz, h.p_eq]
            rw [h.p_eq] at b1
            omega
        · rw [sp] at hx; cases hx
  | realloc i new =>
    unfold Client.step at e
    dsimp only at e
    cases hb : c.live[i]? with
    | none => rw [hb] at e; cases e; exact h
    | some b =>
      rw [hb] at e
      dsimp only at e
      obtain ⟨b1, b2, b3, b4, b5, b6, b7⟩ := h.block hb
      have hg := h.good
      cases hx : c.st.isMostRecent b.ptr b.size with
      | error f =>
        unfold Stack.reallocate at e
        rw [assert_true hg.valid, hx] at e
        cases e
      | ok rec =>
        cases rec with
        | true =>
          have h0 : i = 0 := hs b hb hx
          subst h0
          obtain ⟨t, ht⟩ : ∃ t, c.live = b :: t := by
            cases hcl : c.live with
            | nil => rw [hcl] at hb; cases hb
            | cons x t => rw [hcl] at hb; cases hb; exact ⟨t, rfl⟩
          have hch := h.chain
          rw [ht] at hch
          have sp := reallocate_recent hg c.mem (new := new) b.align (by omega) hf hx
          split at sp
          · rw [sp] at e
            cases e
            exact h
          · rename_i hc
            obtain ⟨s', e0, e1, e2, e3, e4⟩ := sp
            rw [e0] at e
            have hgood : s'.Good := by
              refine ⟨?_, ?_, ?_, ?_, ?_⟩
              · rw [e1]; exact hg.p0
              · rw [e2]; exact hg.cap0
              · rw [e2]; exact hg.cap62
              · rw [e1, e2]; exact hg.top
              · rw [e2, e4]; omega
            simp only [ok_bind, pure_eq_ok, Client.resized, block_ok b4, if_true] at e
            by_cases hn0 : new = 0
            · subst hn0
              cases e
              refine ⟨hgood, h.low, e1.trans h.p_eq, e2.trans h.cap_eq, h.len, ?_⟩
              show Chain lo (p.toNat + s'.sz.toNat) (c.live.eraseIdx 0)
              rw [ht]
              refine hch.2.2.2.2.2.mono ?_
              rw [e4, ← h.p_eq]
              omega
            · simp only [hn0, if_false] at e
              cases e
              refine ⟨hgood, h.low, e1.trans h.p_eq, e2.trans h.cap_eq, h.len, ?_⟩
              show Chain lo (p.toNat + s'.sz.toNat) (c.live.set 0 _)
              rw [ht]
              refine ⟨pos_of_ne_zero hn0, ?_, hch.2.2.1, b6, b7, hch.2.2.2.2.2⟩
              show b.ptr.toNat + new.toNat ≤ _
              rw [e4, ← h.p_eq]
              omega
        | false =>
          have sp := reallocate_moved hg (mem := c.mem) (by rw [h.len, h.cap_eq]) b1 b2 b3 b6 b7 hf hx
          split at sp
          · rw [sp] at e
            simp only [ok_bind, pure_eq_ok, Client.resized, block_ok b4, if_true, if_neg b5] at e
            cases e
            refine ⟨hg, h.low, h.p_eq, h.cap_eq, h.len, ?_⟩
            show Chain _ _ (c.live.set i b)
            rw [set_same hb]
            exact h.chain
          · split at sp
            · rw [sp] at e
              cases e
              exact h
            · rename_i hlt hc
              obtain ⟨r, s', mem', e0, e1, e2, e3, e4, e5, e6⟩ := sp
              rw [e0] at e
              have hrp : r ≠ b.ptr := by
                intro hh
                rw [hh] at e1
                omega
              simp only [ok_bind, pure_eq_ok, Client.resized, block_ok (ne_of_pos_addr h (r := r) (by omega)),
                if_neg hrp] at e
              cases e
              refine inv_took h ?_ b6 b7 hc e1 e2 e3 e5 ?_ (h.chain.erase i)
              · omega
              · rw [e6, Num.splice_length, h.len]
                rw [h.len, ← h.cap_eq]
                simp only [List.length_take, List.length_drop]
                omega

theorem sound_of_lifo {c : Client} {ev : Event} (h : ev.Lifo) : c.Sound ev := by
  cases ev with
  | alloc => trivial
  | free i => exact fun _ _ _ => h
  | realloc i n => exact fun _ _ _ => h

theorem run_lifo {p cap : U64} {lo : Nat} {evs : List Event} {c c' : Client} (h : Inv p cap lo c) (hf : ∀ e ∈ evs, e.Fits)
    (hl : ∀ e ∈ evs, e.Lifo) (e : c.run evs = .ok c') : Inv p cap lo c' := by
  induction evs generalizing c with
  | nil => cases e; exact h
  | cons ev es ih =>
    unfold Client.run at e
    cases hx : c.step ev with
    | error f => rw [hx] at e; cases e
    | ok c1 =>
      rw [hx] at e
      simp only [ok_bind] at e
      have h1 := inv_step h (hf ev (by simp)) (sound_of_lifo (hl ev (by simp))) hx
      exact ih h1 (fun e he => hf e (by simp [he])) (fun e he => hl e (by simp [he])) e

/-- With one alignment `a` for all blocks. -/
structure UInv (p cap a : U64) (lo : Nat) (c : Client) : Prop extends Inv p cap lo c where
  same : ∀ b ∈ c.live, b.align = a
  last : c.st.last = 0 ∨ c.st.last = 1 ∨ c.st.last = a

/-- A block below the newest one is never taken for the most recent one. -/
theorem UInv.not_recent {p cap a : U64} {lo : Nat} {c : Client} (h : UInv p cap a lo c) {i : Nat} {b : Live} (hb : c.live[i]? = some b)
    (hr : c.st.isMostRecent b.ptr b.size = .ok true) : i = 0 := by
  obtain ⟨b1, b2, b3, b4, b5, b6, b7⟩ := h.block hb
  have hl := isMostRecent_pow2 hr
  rw [isMostRecent_spec h.good b3 hl] at hr
  have hr := of_decide_eq_true (Except.ok.inj hr)
  cases i with
  | zero => rfl
  | succ i =>
    exfalso
    cases hcl : c.live with
    | nil => rw [hcl] at hb; cases hb
    | cons n t =>
      rw [hcl, List.getElem?_cons_succ] at hb
      have hch := h.chain
      rw [hcl] at hch
      have hbt := hch.below (List.mem_of_getElem? hb)
      have hn : n.align = a := h.same n (by rw [hcl]; simp)
      have hdvd : c.st.last.toNat ∣ n.ptr.toNat := by
        rcases h.last with e | e | e
        · rw [e] at hl; exact absurd hl.pos (by decide)
        · rw [e]; exact Nat.one_dvd _
        · rw [e, ← hn]; exact hch.2.2.1
      have := pad_min (n := b.ptr.toNat + b.size.toNat) (m := n.ptr.toNat) hbt hdvd
      have h1 := hch.1
      have h2 := hch.2.1
      rw [← h.p_eq] at h2
      unfold Live.stop at h2
      omega

theorem UInv.sound {p cap a : U64} {lo : Nat} {c : Client} (h : UInv p cap a lo c) (ev : Event) : c.Sound ev := by
  cases ev with
  | alloc => trivial
  | free i => exact fun b hb hr => h.not_recent hb hr
  | realloc i n => exact fun b hb hr => h.not_recent hb hr

theorem allocate_last {s s' : Stack} {size a : U64} {r : Block} (e : s.allocate size a = .ok (r, s')) :
    s'.last = s.last ∨ s'.last = 1 := by
  unfold Stack.allocate at e
  split at e
  · cases e; exact Or.inl rfl
  · cases h1 : s.endPtr with
    | error f => rw [h1] at e; cases e
    | ok x =>
      rw [h1] at e
      simp only [ok_bind] at e
      cases h2 : alignmentOffset x a with
      | error f => rw [h2] at e; cases e
      | ok off =>
        rw [h2] at e
        simp only [ok_bind] at e
        split at e
        · cases e; exact Or.inl rfl
        · cases h3 : isPointerAligned (x + off) a with
          | error f => rw [h3] at e; cases e
          | ok al =>
            rw [h3] at e
            simp only [ok_bind] at e
            cases h4 : assert al with
            | error f => rw [h4] at e; cases e
            | ok u => rw [h4] at e; cases e; exact Or.inr rfl

theorem reallocate_last {s s' : Stack} {mem mem' : List Byte} {ptr old new a : U64} {r : Block}
    (e : s.reallocate mem ptr old new a = .ok (r, s', mem')) : s'.last = s.last ∨ s'.last = 1 := by
  unfold Stack.reallocate at e
  cases h1 : assert s.isValid with
  | error f => rw [h1] at e; cases e
  | ok u =>
    rw [h1] at e
    simp only [ok_bind] at e
    cases h2 : s.isMostRecent ptr old with
    | error f => rw [h2] at e; cases e
    | ok rec =>
      rw [h2] at e
      simp only [ok_bind] at e
      split at e
      · split at e <;> cases e <;> exact Or.inl rfl
      · split at e
        · cases e; exact Or.inl rfl
        · cases h3 : s.allocate new a with
          | error f => rw [h3] at e; cases e
          | ok rs =>
            rw [h3] at e
            simp only [ok_bind] at e
            have hl := allocate_last (r := rs.1) (s' := rs.2) h3
            split at e
            · cases h4 : s.copyBlock mem rs.1.ptr ptr (if old < new then old else new) with
              | error f => rw [h4] at e; cases e
              | ok m => rw [h4] at e; cases e; exact hl
            · cases e; exact hl

theorem resized_same {c : Client} {i : Nat} {b : Live} {r : Block} {st : Stack} {mem : List Byte} {a : U64}
    (hb : b.align = a) (h : ∀ b ∈ c.live, b.align = a) : ∀ b' ∈ (c.resized i b r st mem).live, b'.align = a := by
  intro b' hb'
  unfold Client.resized at hb'
  split at hb'
  · exact h b' hb'
  · split at hb'
    · split at hb'
      · exact h b' (List.mem_of_mem_eraseIdx hb')
      · rcases List.mem_or_eq_of_mem_set hb' with h1 | rfl
        · exact h b' h1
        · exact hb
    · rcases List.mem_cons.mp hb' with rfl | h1
      · exact hb
      · exact h b' (List.mem_of_mem_eraseIdx h1)

theorem resized_st (c : Client) (i : Nat) (b : Live) (r : Block) (st : Stack) (mem : List Byte) :
    (c.resized i b r st mem).st = st := by
  unfold Client.resized
  split
  · rfl
  · split
    · split <;> rfl
    · rfl

theorem uinv_step {p cap a : U64} {lo : Nat} {c c' : Client} (h : UInv p cap a lo c) {ev : Event} (hf : ev.Fits) (hu : ev.Uniform a)
    (e : c.step ev = .ok c') : UInv p cap a lo c' := by
  have hi := inv_step h.toInv hf (h.sound ev) e
  refine ⟨hi, ?_, ?_⟩
  all_goals
    unfold Client.step at e
    cases ev with
    | alloc size al =>
      dsimp only at e
      cases hx : c.st.allocate size al with
      | error f => rw [hx] at e; cases e
      | ok rs =>
        rw [hx] at e
        simp only [ok_bind, pure_eq_ok, Client.took] at e
        have hl := allocate_last (r := rs.1) (s' := rs.2) hx
        have ha : al = a := hu
        split at e <;> cases e
        · first
            | (intro b hb
               rcases List.mem_cons.mp hb with rfl | hb
               · exact ha
               · exact h.same b hb)
            | (rcases hl with e1 | e1
               · rw [e1]; exact h.last
               · exact Or.inr (Or.inl e1))
        · first
            | exact h.same
            | (rcases hl with e1 | e1
               · rw [e1]; exact h.last
               · exact Or.inr (Or.inl e1))
    | free i =>
      dsimp only at e
      cases hb : c.live[i]? with
      | none => rw [hb] at e; cases e; first | exact h.same | exact h.last
      | some b =>
        rw [hb] at e
        dsimp only at e
        cases hx : c.st.free b.ptr b.size b.align with
        | error f => rw [hx] at e; cases e
        | ok st =>
          rw [hx] at e
          cases e
          first
            | exact fun b' hb' => h.same b' (List.mem_of_mem_eraseIdx hb')
            | (obtain ⟨b1, b2, b3, b4, b5, b6, b7⟩ := h.block hb
               have sp := free_spec h.good (a := b.align) b1 b2 b3 (free_pow2 b4 b5 hx)
               split at sp
               · rw [sp] at hx; cases hx
                 exact Or.inr (Or.inr (h.same b (List.mem_of_getElem? hb)))
               · rw [sp] at hx; cases hx)
    | realloc i n =>
      dsimp only at e
      cases hb : c.live[i]? with
      | none => rw [hb] at e; cases e; first | exact h.same | exact h.last
      | some b =>
        rw [hb] at e
        dsimp only at e
        cases hx : c.st.reallocate c.mem b.ptr b.size n b.align with
        | error f => rw [hx] at e; cases e
        | ok rs =>
          rw [hx] at e
          simp only [ok_bind, pure_eq_ok] at e
          cases e
          first
            | exact resized_same (h.same b (List.mem_of_getElem? hb)) h.same
            | (rw [resized_st]
               rcases reallocate_last (r := rs.1) (s' := rs.2.1) (mem' := rs.2.2) hx with e1 | e1
               · rw [e1]; exact h.last
               · exact Or.inr (Or.inl e1))

theorem run_uniform {p cap a : U64} {lo : Nat} {evs : List Event} {c c' : Client} (h : UInv p cap a lo c) (hf : ∀ e ∈ evs, e.Fits)
    (hu : ∀ e ∈ evs, e.Uniform a) (e : c.run evs = .ok c') : UInv p cap a lo c' := by
  induction evs generalizing c with
  | nil => cases e; exact h
  | cons ev es ih =>
    unfold Client.run at e
    cases hx : c.step ev with
    | error f => rw [hx] at e; cases e
    | ok c1 =>
      rw [hx] at e
      simp only [ok_bind] at e
      have h1 := uinv_step h (hf ev (by simp)) (hu ev (by simp)) hx
      exact ih h1 (fun e he => hf e (by simp [he])) (fun e he => hu e (by simp [he])) e

theorem uinv_fresh {p cap a : U64} {mem : List Byte} (h : Buffer p cap mem) : UInv p cap a p.toNat (Client.fresh p cap mem) :=
  ⟨inv_fresh h, by simp [Client.fresh], Or.inl rfl⟩

/-- No step writes below the fill level. -/
theorem mem_step {p cap : U64} {lo : Nat} {c c' : Client} (h : Inv p cap lo c) {ev : Event} (hf : ev.Fits)
    (e : c.step ev = .ok c') : c'.mem.take c.st.sz.toNat = c.mem.take c.st.sz.toNat := by
  cases ev with
  | alloc size a =>
    unfold Client.step at e
    dsimp only at e
    cases hx : c.st.allocate size a with
    | error f => rw [hx] at e; cases e
    | ok rs =>
      rw [hx] at e
      simp only [ok_bind, pure_eq_ok, Client.took] at e
      split at e <;> cases e <;> rfl
  | free i =>
    unfold Client.step at e
    dsimp only at e
    cases hb : c.live[i]? with
    | none => rw [hb] at e; cases e; rfl
    | some b =>
      rw [hb] at e
      dsimp only at e
      cases hx : c.st.free b.ptr b.size b.align with
      | error f => rw [hx] at e; cases e
      | ok st => rw [hx] at e; cases e; rfl
  | realloc i new =>
    unfold Client.step at e
    dsimp only at e
    cases hb : c.live[i]? with
    | none => rw [hb] at e; cases e; rfl
    | some b =>
      rw [hb] at e
      dsimp only at e
      obtain ⟨b1, b2, b3, b4, b5, b6, b7⟩ := h.block hb
      have hg := h.good
      have hmem : ∀ (r : Block) (st : Stack) (m : List Byte), (c.resized i b r st m).mem = m := by
        intro r st m
        unfold Client.resized
        split
        · rfl
        · split
          · split <;> rfl
          · rfl
      cases hx : c.st.isMostRecent b.ptr b.size with
      | error f =>
        unfold Stack.reallocate at e
        rw [assert_true hg.valid, hx] at e
        cases e
      | ok rec =>
        cases rec with
        | true =>
          have sp := reallocate_recent hg c.mem (new := new) b.align (by omega) hf hx
          split at sp
          · rw [sp] at e
            simp only [ok_bind, pure_eq_ok] at e
            cases e
            rw [hmem]
          · obtain ⟨s', e0, _⟩ := sp
            rw [e0] at e
            simp only [ok_bind, pure_eq_ok] at e
            cases e
            rw [hmem]
        | false =>
          have sp := reallocate_moved hg (mem := c.mem) (by rw [h.len, h.cap_eq]) b1 b2 b3 b6 b7 hf hx
          split at sp
          · rw [sp] at e
            simp only [ok_bind, pure_eq_ok] at e
            cases e
            rw [hmem]
          · split at sp
            · rw [sp] at e
              simp only [ok_bind, pure_eq_ok] at e
              cases e
              rw [hmem]
            · obtain ⟨r, s', mem', e0, e1, e2, e3, e4, e5, e6⟩ := sp
              rw [e0] at e
              simp only [ok_bind, pure_eq_ok] at e
              cases e
              rw [hmem, e6]
              unfold Num.splice
              have hle : c.st.sz.toNat ≤ r.toNat - c.st.p.toNat := by omega
              have hlen : c.mem.length = c.st.cap.toNat := by rw [h.len, h.cap_eq]
              have := hg.fill
              rw [List.append_assoc, List.take_append_of_le_length (by rw [List.length_take]; omega), List.take_take,
                Nat.min_eq_left hle]

theorem take_of_take {α : Type} {l l' : List α} {n k : Nat} (h : l'.take n = l.take n) (hk : k ≤ n) : l'.take k = l.take k := by
  have := congrArg (List.take k) h
  rwa [List.take_take, List.take_take, Nat.min_eq_left hk] at this

/-- A run leaves everything below `lo` unchanged. -/
theorem run_uniform_mem {p cap a : U64} {lo : Nat} {evs : List Event} {c c' : Client} (h : UInv p cap a lo c)
    (hf : ∀ e ∈ evs, e.Fits) (hu : ∀ e ∈ evs, e.Uniform a) (e : c.run evs = .ok c') :
    c'.mem.take (lo - p.toNat) = c.mem.take (lo - p.toNat) := by
  induction evs generalizing c with
  | nil => cases e; rfl
  | cons ev es ih =>
    unfold Client.run at e
    cases hx : c.step ev with
    | error f => rw [hx] at e; cases e
    | ok c1 =>
      rw [hx] at e
      simp only [ok_bind] at e
      have h1 := uinv_step h (hf ev (by simp)) (hu ev (by simp)) hx
      have h2 := mem_step h.toInv (hf ev (by simp)) hx
      have h3 := h.chain.lo_le
      rw [ih h1 (fun e he => hf e (by simp [he])) (fun e he => hu e (by simp [he])) e]
      exact take_of_take h2 (by omega)

theorem run_lifo_mem {p cap : U64} {lo : Nat} {evs : List Event} {c c' : Client} (h : Inv p cap lo c)
    (hf : ∀ e ∈ evs, e.Fits) (hu : ∀ e ∈ evs, e.Lifo) (e : c.run evs = .ok c') :
    c'.mem.take (lo - p.toNat) = c.mem.take (lo - p.toNat) := by
  induction evs generalizing c with
  | nil => cases e; rfl
  | cons ev es ih =>
    unfold Client.run at e
    cases hx : c.step ev with
    | error f => rw [hx] at e; cases e
    | ok c1 =>
      rw [hx] at e
      simp only [ok_bind] at e
      have h1 := inv_step h (hf ev (by simp)) (sound_of_lifo (hu ev (by simp))) hx
      have h2 := mem_step h (hf ev (by simp)) hx
      have h3 := h.chain.lo_le
      rw [ih h1 (fun e he => hf e (by simp [he])) (fun e he => hu e (by simp [he])) e]
      exact take_of_take h2 (by omega)

theorem bytesOf_congr {p : U64} {mem mem' : List Byte} {b : Live} {k : Nat} (h : mem'.take k = mem.take k)
    (hb : b.stop ≤ p.toNat + k) (hp : p.toNat ≤ b.ptr.toNat) : bytesOf p mem' b = bytesOf p mem b := by
  have key : ∀ m : List Byte, bytesOf p m b = ((m.take k).drop (b.ptr.toNat - p.toNat)).take b.size.toNat := by
    intro m
    unfold bytesOf
    rw [List.drop_take, List.take_take, Nat.min_eq_left]
    unfold Live.stop at hb
    omega
  rw [key, key, h]

theorem Inv.of_eq {p cap : U64} {lo : Nat} {c c₀ : Client} (hi : Inv p cap lo c₀) (h1 : c.st = c₀.st) (h2 : c.live = c₀.live)
    (h3 : c.mem.length = c₀.mem.length) : Inv p cap lo c :=
  ⟨by rw [h1]; exact hi.good, hi.low, by rw [h1]; exact hi.p_eq, by rw [h1]; exact hi.cap_eq, by rw [h3]; exact hi.len,
    by rw [h1, h2]; exact hi.chain⟩

theorem reachable_uinv {p cap a : U64} {c : Client} (h : ReachableBy (Event.Uniform a) p cap c) : UInv p cap a p.toNat c := by
  obtain ⟨mem, evs, c₀, hb, hf, hd, hr, h1, h2, h3⟩ := h
  have hi := run_uniform (uinv_fresh hb) hf hd hr
  exact ⟨hi.toInv.of_eq h1 h2 h3, by rw [h2]; exact hi.same, by rw [h1]; exact hi.last⟩

theorem reachable_inv {p cap : U64} {c : Client} (h : Reachable p cap c) : Inv p cap p.toNat c := by
  rcases h with h | ⟨a, h⟩
  · obtain ⟨mem, evs, c₀, hb, hf, hd, hr, h1, h2, h3⟩ := h
    exact (run_lifo (inv_fresh hb) hf hd hr).of_eq h1 h2 h3
  · exact (reachable_uinv h).toInv

/-- Every live block ends exactly where the next one (or the fill level) begins, up to the padding for that one's
alignment. -/
def Tight (base : Nat) : Nat → Nat → List Live → Prop
  | last, e, [] => e = base + pad base last
  | last, e, b :: t => e = b.stop + pad b.stop last ∧ Tight base b.align.toNat b.ptr.toNat t

theorem pad_zero (n : Nat) : pad n 0 = 0 := by simp [pad]

theorem tight_alloc {base last e a : Nat} {l : List Live} {b : Live} (h : Tight base last e l) (ha : 0 < a)
    (hl : last = 0 ∨ last = 1 ∨ last = a) (hp : b.ptr.toNat = e + pad e a) (hba : b.align.toNat = a) :
    Tight base 1 b.stop (b :: l) := by
  have key : ∀ x, e = x + pad x last → b.ptr.toNat = x + pad x a := by
    intro x hx
    rcases hl with hl | hl | hl
    · rw [hl, pad_zero] at hx; rw [hp, hx]; rfl
    · rw [hl, pad_one] at hx; rw [hp, hx]; rfl
    · rw [hl] at hx
      have := pad_dvd (n := x) ha
      rw [← hx] at this
      rw [hp, pad_of_dvd this, hx, Nat.add_zero]
  refine ⟨by rw [pad_one, Nat.add_zero], ?_⟩
  cases l with
  | nil => rw [hba]; exact key _ h
  | cons c t => rw [hba]; exact ⟨key _ h.1, h.2⟩

/-- The state of a client that gives blocks back in reverse order. -/
structure TInv (p cap : U64) (c : Client) : Prop extends Inv p cap p.toNat c where
  tight : Tight p.toNat c.st.last.toNat (p.toNat + c.st.sz.toNat) c.live

theorem tinv_fresh {p cap : U64} {mem : List Byte} (h : Buffer p cap mem) : TInv p cap (Client.fresh p cap mem) :=
  ⟨inv_fresh h, by simp [Client.fresh, Tight, pad_zero]⟩

/-- Asking for a block keeps the chain tight. -/
theorem tinv_alloc {p cap : U64} {c : Client} (h : TInv p cap c) {size a : U64} (hf : (Event.alloc size a).Fits)
    (ha : Pow2 a.toNat) (hl : c.st.last = 0 ∨ c.st.last = 1 ∨ c.st.last = a) :
    ∃ c', c.step (.alloc size a) = .ok c' ∧ TInv p cap c' ∧
      (c' = c ∨ (∃ b, c'.live = b :: c.live ∧ b.align = a) ∧ c'.st.last = 1) := by
  obtain ⟨hf1, hf2⟩ := id hf
  by_cases h0 : size = 0
  · subst h0
    refine ⟨c, ?_, h, Or.inl rfl⟩
    unfold Client.step
    dsimp only
    rw [allocate_zero]
    rfl
  · have sp := allocate_spec h.good ha hf2 h0 hf1
    by_cases hc : c.st.cap.toNat < c.st.sz.toNat + pad (c.st.p.toNat + c.st.sz.toNat) a.toNat + size.toNat
    · rw [if_pos hc] at sp
      refine ⟨c, ?_, h, Or.inl rfl⟩
      unfold Client.step
      dsimp only
      rw [sp]
      rfl
    · rw [if_neg hc] at sp
      obtain ⟨r, s', e0, e1, e2, e3, e4, e5⟩ := sp
      have hstep : c.step (.alloc size a) = .ok ⟨s', c.mem, ⟨r, size, a⟩ :: c.live⟩ := by
        unfold Client.step
        dsimp only
        rw [e0]
        simp only [ok_bind, pure_eq_ok, Client.took, block_ok (ne_of_pos_addr h.toInv (r := r) (by omega)), if_true]
      refine ⟨_, hstep, ⟨inv_step h.toInv hf trivial hstep, ?_⟩, Or.inr ⟨⟨_, rfl, rfl⟩, e4⟩⟩
      have hpe := h.p_eq
      rw [hpe] at e1 e5
      have ht := tight_alloc (b := ⟨r, size, a⟩) h.tight ha.pos (a := a.toNat)
        (by rcases hl with e | e | e
            · exact Or.inl (by rw [e]; rfl)
            · exact Or.inr (Or.inl (by rw [e]; rfl))
            · exact Or.inr (Or.inr (by rw [e]))) e1 rfl
      show Tight p.toNat s'.last.toNat (p.toNat + s'.sz.toNat) (⟨r, size, a⟩ :: c.live)
      rw [e4, e5]
      have : p.toNat + (c.st.sz.toNat + pad (p.toNat + c.st.sz.toNat) a.toNat + size.toNat) = (⟨r, size, a⟩ : Live).stop := by
        show _ = r.toNat + size.toNat
        omega
      rw [this]
      exact ht

theorem sub_p {c : Client} {b : Live} (h1 : c.st.p.toNat ≤ b.ptr.toNat) :
    (b.ptr - c.st.p).toNat = b.ptr.toNat - c.st.p.toNat := by
  bv_omega

/-- Giving the newest block back succeeds and keeps the chain tight. -/
theorem tinv_free {p cap : U64} {c : Client} {b : Live} {t : List Live} (h : TInv p cap c) (hl : c.live = b :: t) (hpow : Pow2 c.st.last.toNat) :
    ∃ c', c.step (.free 0) = .ok c' ∧ TInv p cap c' ∧ c'.live = t ∧ c'.st.last = b.align ∧ c'.mem = c.mem := by
  have hb : c.live[0]? = some b := by rw [hl]; rfl
  obtain ⟨b1, b2, b3, b4, b5, b6, b7⟩ := h.block hb
  have ht := h.tight
  rw [hl] at ht
  have sp := free_spec h.good (a := b.align) b1 b2 b3 hpow
  have hpe := h.p_eq
  rw [if_pos (by rw [hpe]; exact ht.1.symm)] at sp
  have hstep : c.step (.free 0) = .ok ⟨{ c.st with sz := b.ptr - c.st.p, last := b.align }, c.mem, t⟩ := by
    unfold Client.step
    dsimp only
    rw [hb]
    dsimp only
    rw [sp, hl]
    rfl
  refine ⟨_, hstep, ⟨inv_step h.toInv (ev := .free 0) trivial (sound_of_lifo (ev := .free 0) rfl) hstep, ?_⟩, rfl, rfl, rfl⟩
  show Tight p.toNat b.align.toNat (p.toNat + (b.ptr - c.st.p).toNat) t
  rw [sub_p b1, hpe]
  rw [hpe] at b1
  rw [show p.toNat + (b.ptr.toNat - p.toNat) = b.ptr.toNat by omega]
  exact ht.2

/-- Giving everything back, newest first. -/
theorem run_frees {p cap : U64} {l : List Live} {c : Client} (h : TInv p cap c) (hl : c.live = l) (hpow : l ≠ [] → Pow2 c.st.last.toNat) :
    ∃ c', c.run (List.replicate l.length (.free 0)) = .ok c' ∧ TInv p cap c' ∧ c'.live = [] ∧
      c'.st.last = (l.getLast?.map (·.align)).getD c.st.last := by
  induction l generalizing c with
  | nil => exact ⟨c, rfl, h, hl, rfl⟩
  | cons b t ih =>
    obtain ⟨c1, e1, i1, l1, a1, _⟩ := tinv_free h hl (hpow (by simp))
    have hb : c.live[0]? = some b := by rw [hl]; rfl
    obtain ⟨_, _, _, _, _, b6, _⟩ := h.block hb
    obtain ⟨c2, e2, i2, l2, a2⟩ := ih i1 l1 (fun _ => by rw [a1]; exact b6)
    refine ⟨c2, ?_, i2, l2, ?_⟩
    · rw [List.length_cons, List.replicate_succ]
      show c.step (.free 0) >>= _ = _
      rw [e1]
      exact e2
    · rw [a2, a1]
      cases t with
      | nil => rfl
      | cons x y =>
        rw [List.getLast?_cons_cons, List.getLast?_eq_some_getLast (List.cons_ne_nil x y)]
        rfl

/-- A sequence of requests: the blocks come in front of the old ones, and if all were granted, the first one has the
alignment of the first request. -/
theorem run_allocs {p cap : U64} {reqs : List (U64 × U64)} {c c' : Client} (h : TInv p cap c)
    (hlast : c.st.last = 0 ∨ c.st.last = 1) (hr : ∀ r ∈ reqs, (Event.alloc r.1 r.2).Fits ∧ Pow2 r.2.toNat)
    (e : c.run (reqs.map fun r => .alloc r.1 r.2) = .ok c') :
    TInv p cap c' ∧ (c'.st.last = 1 ∨ c' = c) ∧ ∃ new, c'.live = new ++ c.live ∧ new.length ≤ reqs.length ∧
      (new.length = reqs.length → new.getLast?.map (·.align) = reqs.head?.map (·.2)) := by
  induction reqs generalizing c with
  | nil => cases e; exact ⟨h, Or.inr rfl, [], rfl, Nat.le_refl _, fun _ => rfl⟩
  | cons r rs ih =>
    obtain ⟨hf, ha⟩ := hr r (by simp)
    have hl' : c.st.last = 0 ∨ c.st.last = 1 ∨ c.st.last = r.2 := by
      rcases hlast with h | h
      · exact Or.inl h
      · exact Or.inr (Or.inl h)
    obtain ⟨c1, e1, i1, k1⟩ := tinv_alloc h hf ha hl'
    have e' : c1.run (rs.map fun r => .alloc r.1 r.2) = .ok c' := by
      rw [List.map_cons] at e
      have : (c.step (.alloc r.1 r.2) >>= fun c => c.run (rs.map fun r => .alloc r.1 r.2)) = .ok c' := e
      rw [e1] at this
      exact this
    have hlast1 : c1.st.last = 0 ∨ c1.st.last = 1 := by
      rcases k1 with k | ⟨_, k⟩
      · rw [k]; exact hlast
      · exact Or.inr k
    obtain ⟨j1, j2, new, j3, j4, j5⟩ := ih i1 hlast1 (fun x hx => hr x (by simp [hx])) e'
    rcases k1 with k | ⟨⟨b, kb, ka⟩, k⟩
    · subst k
      refine ⟨j1, j2, new, j3, by simp; omega, ?_⟩
      intro hh
      simp at hh
      omega
    · refine ⟨j1, ?_, new ++ [b], by rw [j3, kb]; simp, by simp; omega, ?_⟩
      · rcases j2 with j | j
        · exact Or.inl j
        · exact Or.inl (by rw [j]; exact k)
      · intro _
        simp [ka]

/-- A history of requests and frees of the newest block with a single alignment never faults. -/
theorem run_stack_uniform {p cap a : U64} {evs : List Event} {c : Client} (h : TInv p cap c) (ha : Pow2 a.toNat)
    (hlast : (c.st.last = 0 ∧ c.live = []) ∨ c.st.last = 1 ∨ c.st.last = a) (hf : ∀ e ∈ evs, e.Fits) (hu : ∀ e ∈ evs, e.Uniform a)
    (hall : ∀ b ∈ c.live, b.align = a)
    (hs : ∀ e ∈ evs, e = .free 0 ∨ ∃ size, e = .alloc size a) :
    ∃ c', c.run evs = .ok c' ∧ TInv p cap c' ∧ ((c'.st.last = 0 ∧ c'.live = []) ∨ c'.st.last = 1 ∨ c'.st.last = a) ∧
      (∀ b ∈ c'.live, b.align = a) := by
  induction evs generalizing c with
  | nil => exact ⟨c, rfl, h, hlast, hall⟩
  | cons ev es ih =>
    have next : ∀ c1, c.step ev = .ok c1 → TInv p cap c1 → ((c1.st.last = 0 ∧ c1.live = []) ∨ c1.st.last = 1 ∨ c1.st.last = a) →
        (∀ b ∈ c1.live, b.align = a) → ∃ c', c.run (ev :: es) = .ok c' ∧ TInv p cap c' ∧
          ((c'.st.last = 0 ∧ c'.live = []) ∨ c'.st.last = 1 ∨ c'.st.last = a) ∧ (∀ b ∈ c'.live, b.align = a) := by
      intro c1 e1 i1 k1 m1
      obtain ⟨c2, e2, i2⟩ := ih i1 k1 (fun e he => hf e (by simp [he])) (fun e he => hu e (by simp [he])) m1
        (fun e he => hs e (by simp [he]))
      refine ⟨c2, ?_, i2⟩
      show c.step ev >>= _ = _
      rw [e1]
      exact e2
    rcases hs ev (by simp) with rfl | ⟨size, rfl⟩
    · cases hl : c.live with
      | nil =>
        refine next c ?_ h hlast hall
        unfold Client.step
        dsimp only
        rw [hl]
        rfl
      | cons b t =>
        have hpow : Pow2 c.st.last.toNat := by
          rcases hlast with ⟨_, k⟩ | k | k
          · rw [hl] at k; cases k
          · rw [k]; exact ⟨0, rfl⟩
          · rw [k]; exact ha
        obtain ⟨c1, e1, i1, l1, a1, _⟩ := tinv_free h hl hpow
        refine next c1 e1 i1 (Or.inr (Or.inr ?_)) ?_
        · rw [a1]; exact hall b (by rw [hl]; simp)
        · intro x hx
          exact hall x (by rw [hl]; rw [l1] at hx; simp [hx])
    · obtain ⟨c1, e1, i1, k1⟩ := tinv_alloc h (size := size) (hf _ (by simp)) ha (by
        rcases hlast with ⟨k, _⟩ | k | k
        · exact Or.inl k
        · exact Or.inr (Or.inl k)
        · exact Or.inr (Or.inr k))
      rcases k1 with k | ⟨⟨b, kb, ka⟩, k⟩
      · subst k
        exact next c1 e1 i1 hlast hall
      · refine next c1 e1 i1 (Or.inr (Or.inl k)) ?_
        intro x hx
        rw [kb] at hx
        rcases List.mem_cons.mp hx with rfl | hx
        · exact ka
        · exact hall x hx

theorem allocate_fixed {s s' : Stack} {size a : U64} {r : Block} (e : s.allocate size a = .ok (r, s')) :
    s'.p = s.p ∧ s'.cap = s.cap := by
  unfold Stack.allocate at e
  split at e
  · cases e; exact ⟨rfl, rfl⟩
  · cases h1 : s.endPtr with
    | error f => rw [h1] at e; cases e
    | ok x =>
      rw [h1] at e
      simp only [ok_bind] at e
      cases h2 : alignmentOffset x a with
      | error f => rw [h2] at e; cases e
      | ok off =>
        rw [h2] at e
        simp only [ok_bind] at e
        split at e
        · cases e; exact ⟨rfl, rfl⟩
        · cases h3 : isPointerAligned (x + off) a with
          | error f => rw [h3] at e; cases e
          | ok al =>
            rw [h3] at e
            simp only [ok_bind] at e
            cases h4 : assert al with
            | error f => rw [h4] at e; cases e
            | ok u => rw [h4] at e; cases e; exact ⟨rfl, rfl⟩

theorem free_fixed {s s' : Stack} {ptr size a : U64} (e : s.free ptr size a = .ok s') : s'.p = s.p ∧ s'.cap = s.cap := by
  unfold Stack.free at e
  cases h1 : assert s.isValid with
  | error f => rw [h1] at e; cases e
  | ok u =>
    rw [h1] at e
    simp only [ok_bind] at e
    cases h2 : s.freeOwned ptr with
    | error f => rw [h2] at e; cases e
    | ok o =>
      rw [h2] at e
      simp only [ok_bind] at e
      cases h3 : assert o with
      | error f => rw [h3] at e; cases e
      | ok u =>
        rw [h3] at e
        simp only [ok_bind] at e
        cases h4 : s.freeInOrder ptr size with
        | error f => rw [h4] at e; cases e
        | ok o =>
          rw [h4] at e
          simp only [ok_bind] at e
          cases h5 : assert o with
          | error f => rw [h5] at e; cases e
          | ok u =>
            rw [h5] at e
            simp only [ok_bind] at e
            cases h6 : s.freeRecent ptr size with
            | error f => rw [h6] at e; cases e
            | ok o =>
              rw [h6] at e
              simp only [ok_bind] at e
              split at e
              · cases h7 : alignmentOffset (ptr + size) s.last with
                | error f => rw [h7] at e; cases e
                | ok off => rw [h7] at e; cases e; exact ⟨rfl, rfl⟩
              · cases e; exact ⟨rfl, rfl⟩

theorem reallocate_fixed {s s' : Stack} {mem mem' : List Byte} {ptr old new a : U64} {r : Block}
    (e : s.reallocate mem ptr old new a = .ok (r, s', mem')) : s'.p = s.p ∧ s'.cap = s.cap := by
  unfold Stack.reallocate at e
  cases h1 : assert s.isValid with
  | error f => rw [h1] at e; cases e
  | ok u =>
    rw [h1] at e
    simp only [ok_bind] at e
    cases h2 : s.isMostRecent ptr old with
    | error f => rw [h2] at e; cases e
    | ok rec =>
      rw [h2] at e
      simp only [ok_bind] at e
      split at e
      · split at e <;> cases e <;> exact ⟨rfl, rfl⟩
      · split at e
        · cases e; exact ⟨rfl, rfl⟩
        · cases h3 : s.allocate new a with
          | error f => rw [h3] at e; cases e
          | ok rs =>
            rw [h3] at e
            simp only [ok_bind] at e
            have hl := allocate_fixed (r := rs.1) (s' := rs.2) h3
            split at e
            · cases h4 : s.copyBlock mem rs.1.ptr ptr (if old < new then old else new) with
              | error f => rw [h4] at e; cases e
              | ok m => rw [h4] at e; cases e; exact hl
            · cases e; exact hl

theorem step_fixed {c c' : Client} {ev : Event} (e : c.step ev = .ok c') : c'.st.p = c.st.p ∧ c'.st.cap = c.st.cap := by
  unfold Client.step at e
  cases ev with
  | alloc size a =>
    dsimp only at e
    cases hx : c.st.allocate size a with
    | error f => rw [hx] at e; cases e
    | ok rs =>
      rw [hx] at e
      simp only [ok_bind, pure_eq_ok, Client.took] at e
      have := allocate_fixed (r := rs.1) (s' := rs.2) hx
      split at e <;> cases e <;> exact this
  | free i =>
    dsimp only at e
    cases hb : c.live[i]? with
    | none => rw [hb] at e; cases e; exact ⟨rfl, rfl⟩
    | some b =>
      rw [hb] at e
      dsimp only at e
      cases hx : c.st.free b.ptr b.size b.align with
      | error f => rw [hx] at e; cases e
      | ok st => rw [hx] at e; cases e; exact free_fixed hx
  | realloc i n =>
    dsimp only at e
    cases hb : c.live[i]? with
    | none => rw [hb] at e; cases e; exact ⟨rfl, rfl⟩
    | some b =>
      rw [hb] at e
      dsimp only at e
      cases hx : c.st.reallocate c.mem b.ptr b.size n b.align with
      | error f => rw [hx] at e; cases e
      | ok rs =>
        rw [hx] at e
        simp only [ok_bind, pure_eq_ok] at e
        cases e
        rw [resized_st]
        exact reallocate_fixed (r := rs.1) (s' := rs.2.1) (mem' := rs.2.2) hx

theorem run_fixed {evs : List Event} {c c' : Client} (e : c.run evs = .ok c') : c'.st.p = c.st.p ∧ c'.st.cap = c.st.cap := by
  induction evs generalizing c with
  | nil => cases e; exact ⟨rfl, rfl⟩
  | cons ev es ih =>
    unfold Client.run at e
    cases hx : c.step ev with
    | error f => rw [hx] at e; cases e
    | ok c1 =>
      rw [hx] at e
      simp only [ok_bind] at e
      obtain ⟨h1, h2⟩ := ih e
      obtain ⟨h3, h4⟩ := step_fixed hx
      exact ⟨h1.trans h3, h2.trans h4⟩

/-- The client of a scope: it knows only the blocks it takes itself. -/
theorem inv_scope {p cap : U64} {lo : Nat} {c : Client} (h : Inv p cap lo c) :
    Inv p cap (p.toNat + c.st.sz.toNat) ⟨c.st, c.mem, []⟩ :=
  ⟨h.good, by omega, h.p_eq, h.cap_eq, h.len, Nat.le_refl _⟩

end Tm.Alloc
