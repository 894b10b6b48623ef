import Verif.Alloc.Spec
import Mathlib.Data.Nat.Bitwise
/-! Lemmas about the alignment helpers and the single operations of the stack allocator. -/
namespace Tm.Alloc

theorem assert_true {b : Bool} (h : b = true) : assert b = .ok () := by rw [h]; rfl
theorem assert_false {b : Bool} (h : b = false) : assert b = .error .assertion := by rw [h]; rfl

theorem and_pred_eq_zero_iff (n : Nat) (hn : 0 < n) : n &&& (n - 1) = 0 ↔ Pow2 n := by
  constructor
  · intro h
    -- strip the lowest bit
    induction n using Nat.strongRecOn with
    | _ n ih =>
      rcases Nat.even_or_odd' n with ⟨m, rfl | rfl⟩
      · have hm : 0 < m := by omega
        have h2 : m &&& (m - 1) = 0 := by
          apply Nat.eq_of_testBit_eq
          intro i
          have := congrArg (fun x => x.testBit (i+1)) h
          simp only [Nat.testBit_and, Nat.zero_testBit] at this ⊢
          rw [Nat.testBit_succ, Nat.testBit_succ] at this
          rw [show 2 * m / 2 = m by omega, show (2 * m - 1) / 2 = m - 1 by omega] at this
          exact this
        obtain ⟨k, hk⟩ := ih m (by omega) hm h2
        exact ⟨k + 1, by rw [hk, Nat.pow_succ]; omega⟩
      · have h0 : m = 0 := by
          apply Nat.eq_of_testBit_eq
          intro i
          have := congrArg (fun x => x.testBit (i+1)) h
          simp only [Nat.testBit_and, Nat.zero_testBit] at this ⊢
          rw [Nat.testBit_succ, Nat.testBit_succ] at this
          rw [show (2 * m + 1) / 2 = m by omega, show (2 * m + 1 - 1) / 2 = m by omega] at this
          simpa using this
        exact ⟨0, by rw [h0]⟩
  · rintro ⟨k, rfl⟩
    rw [Nat.and_two_pow_sub_one_eq_mod, Nat.mod_self]

theorem isPowerOfTwo_iff (v : U64) : isPowerOfTwo v = true ↔ Pow2 v.toNat := by
  unfold isPowerOfTwo
  by_cases h0 : v = 0
  · subst h0
    simp only [bne_self_eq_false, Bool.false_and, Bool.false_eq_true, false_iff]
    rintro ⟨k, hk⟩
    have := Nat.two_pow_pos k
    simp at hk
    omega
  · have hp : 0 < v.toNat := by
      rcases Nat.eq_zero_or_pos v.toNat with h | h
      · exact absurd (BitVec.eq_of_toNat_eq (by simpa using h)) h0
      · exact h
    rw [← and_pred_eq_zero_iff _ hp]
    have h1 : (v - 1).toNat = v.toNat - 1 := by bv_omega
    simp only [bne_iff_ne, ne_eq, Bool.and_eq_true, beq_iff_eq]
    constructor
    · rintro ⟨_, h⟩
      have := congrArg BitVec.toNat h
      rw [BitVec.toNat_and, h1] at this
      exact this
    · intro h
      refine ⟨h0, BitVec.eq_of_toNat_eq ?_⟩
      rw [BitVec.toNat_and, h1]
      exact h

/-- The padding in front of address `n` for alignment `a`. -/
def pad (n a : Nat) : Nat := (a - n % a) % a

theorem pad_lt {n a : Nat} (h : 0 < a) : pad n a < a := Nat.mod_lt _ h

theorem pad_dvd {n a : Nat} (h : 0 < a) : a ∣ n + pad n a := by
  unfold pad
  rcases Nat.eq_zero_or_pos (n % a) with h0 | h0
  · rw [h0, Nat.sub_zero, Nat.mod_self, Nat.add_zero]; exact Nat.dvd_of_mod_eq_zero h0
  · rw [Nat.mod_eq_of_lt (by omega)]
    have h1 := Nat.mod_lt n h
    have h2 := Nat.div_add_mod n a
    refine ⟨n / a + 1, ?_⟩
    rw [Nat.mul_add]; omega

theorem pad_min {n a m : Nat} (hm : n ≤ m) (hd : a ∣ m) : n + pad n a ≤ m := by
  rcases Nat.eq_zero_or_pos a with h | h
  · subst h; have := Nat.zero_dvd.mp hd; simp [pad]; omega
  obtain ⟨x, hx⟩ := pad_dvd (n := n) h
  obtain ⟨y, rfl⟩ := hd
  rw [hx]
  apply Nat.mul_le_mul_left
  have hlt := pad_lt (n := n) h
  by_contra hc
  have : a * (y + 1) ≤ a * x := Nat.mul_le_mul_left _ (by omega)
  rw [Nat.mul_add] at this
  omega

theorem pad_of_dvd {n a : Nat} (h : a ∣ n) : pad n a = 0 := by
  unfold pad
  rw [Nat.mod_eq_zero_of_dvd h, Nat.sub_zero, Nat.mod_self]

theorem pad_one (n : Nat) : pad n 1 = 0 := pad_of_dvd (Nat.one_dvd n)

theorem Pow2.pos {a : Nat} (h : Pow2 a) : 0 < a := by obtain ⟨k, rfl⟩ := h; exact Nat.two_pow_pos k

theorem Pow2.dvd_word {a : U64} (h : Pow2 a.toNat) : a.toNat ∣ 2 ^ 64 := by
  obtain ⟨k, hk⟩ := h
  rw [hk]
  apply Nat.pow_dvd_pow
  have : a.toNat < 2 ^ 64 := a.isLt
  rw [hk] at this
  exact Nat.le_of_lt ((Nat.pow_lt_pow_iff_right (by omega)).mp this)

theorem mod_dvd {n a : Nat} (h : a ∣ 2 ^ 64) : n % 2 ^ 64 % a = n % a := Nat.mod_mod_of_dvd n h

theorem offset_toNat {ptr a : U64} (h : Pow2 a.toNat) : ((a - ptr) &&& (a - 1)).toNat = pad ptr.toNat a.toNat := by
  have hp := h.pos
  have hd := h.dvd_word
  have hsub : (a - 1).toNat = a.toNat - 1 := by
    have : a.toNat < 2 ^ 64 := a.isLt
    bv_omega
  rw [BitVec.toNat_and, hsub, BitVec.toNat_sub]
  obtain ⟨k, hk⟩ := id h
  rw [hk, Nat.and_two_pow_sub_one_eq_mod, ← hk, mod_dvd hd]
  unfold pad
  obtain ⟨q, hq⟩ := hd
  have hlt : ptr.toNat < 2 ^ 64 := ptr.isLt
  have h2 := Nat.div_add_mod ptr.toNat a.toNat
  have hr := Nat.mod_lt ptr.toNat hp
  have hle : ptr.toNat / a.toNat < q := by
    apply Nat.lt_of_mul_lt_mul_left (a := a.toNat)
    omega
  have : 2 ^ 64 - ptr.toNat + a.toNat = (a.toNat - ptr.toNat % a.toNat) + a.toNat * (q - ptr.toNat / a.toNat) := by
    rw [Nat.mul_sub, ← hq]
    have : a.toNat * (ptr.toNat / a.toNat) ≤ 2 ^ 64 := by omega
    omega
  rw [this, Nat.add_mul_mod_self_left]

theorem alignmentOffset_ok {ptr a : U64} (h : Pow2 a.toNat) :
    alignmentOffset ptr a = .ok ((a - ptr) &&& (a - 1)) := by
  have hp := h.pos
  have hne : a ≠ 0 := by rintro rfl; simp at hp
  unfold alignmentOffset
  rw [assert_true (by rw [(isPowerOfTwo_iff a).mpr h]; simpa using hne)]
  simp only [ok_bind, isPointerAligned, if_neg hne, pure_eq_ok]
  rw [assert_true]
  · rfl
  rw [beq_iff_eq]
  apply BitVec.eq_of_toNat_eq
  rw [BitVec.toNat_umod, BitVec.toNat_add, offset_toNat h, mod_dvd h.dvd_word]
  exact Nat.mod_eq_zero_of_dvd (pad_dvd hp)

theorem alignmentOffset_bad {ptr a : U64} (h : ¬ Pow2 a.toNat) : alignmentOffset ptr a = .error .assertion := by
  unfold alignmentOffset
  rw [assert_false]
  · rfl
  have : isPowerOfTwo a = false := by
    rw [← Bool.not_eq_true, isPowerOfTwo_iff]; exact h
  rw [this, Bool.and_false]

theorem alignmentOffset_inv {ptr a off : U64} (h : alignmentOffset ptr a = .ok off) :
    Pow2 a.toNat ∧ off.toNat = pad ptr.toNat a.toNat := by
  by_cases hp : Pow2 a.toNat
  · rw [alignmentOffset_ok hp] at h
    cases h
    exact ⟨hp, offset_toNat hp⟩
  · rw [alignmentOffset_bad hp] at h
    cases h

/-- A usable allocator over a real buffer. -/
structure Stack.Good (s : Stack) : Prop where
  p0 : 0 < s.p.toNat
  cap0 : 0 < s.cap.toNat
  cap62 : s.cap.toNat < 2 ^ 62
  top : s.p.toNat + s.cap.toNat < 2 ^ 64
  fill : s.sz.toNat ≤ s.cap.toNat

theorem Stack.Good.valid {s : Stack} (h : s.Good) : s.isValid = true := by
  have h1 := h.cap0
  have h2 := h.fill
  unfold Stack.isValid
  have : s.cap ≠ 0 := by rintro e; rw [e] at h1; simp at h1
  simp only [Bool.or_eq_true, Bool.and_eq_true, bne_iff_ne, decide_eq_true_iff, BitVec.le_def]
  exact Or.inr ⟨this, h2⟩

theorem Stack.Good.endPtr {s : Stack} (h : s.Good) : s.endPtr = .ok (s.p + s.sz) := by
  unfold Stack.endPtr
  rw [assert_true h.valid]
  rfl

theorem Stack.Good.end_toNat {s : Stack} (h : s.Good) : (s.p + s.sz).toNat = s.p.toNat + s.sz.toNat := by
  have := h.fill
  have := h.top
  rw [BitVec.toNat_add, Nat.mod_eq_of_lt (by omega)]

theorem isPointerAligned_ok {ptr a : U64} (h : 0 < a.toNat) : isPointerAligned ptr a = .ok (decide (a.toNat ∣ ptr.toNat)) := by
  have hne : a ≠ 0 := by rintro rfl; simp at h
  unfold isPointerAligned
  rw [if_neg hne]
  congr 1
  rw [Bool.eq_iff_iff, beq_iff_eq, decide_eq_true_iff, Nat.dvd_iff_mod_eq_zero]
  constructor
  · intro he
    have := congrArg BitVec.toNat he
    rwa [BitVec.toNat_umod] at this
  · intro he
    apply BitVec.eq_of_toNat_eq
    rw [BitVec.toNat_umod]; exact he

/-- What `allocate_bytes` does. -/
theorem allocate_spec {s : Stack} (h : s.Good) {size a : U64} (ha : Pow2 a.toNat) (ha62 : a.toNat ≤ 2 ^ 62)
    (h0 : size ≠ 0) (h62 : size.toNat < 2 ^ 62) :
    if s.cap.toNat < s.sz.toNat + pad (s.p.toNat + s.sz.toNat) a.toNat + size.toNat then
      s.allocate size a = .ok (.none, s)
    else ∃ r s', s.allocate size a = .ok (⟨r, size⟩, s') ∧ r.toNat = s.p.toNat + s.sz.toNat + pad (s.p.toNat + s.sz.toNat) a.toNat ∧
      s'.p = s.p ∧ s'.cap = s.cap ∧ s'.last = 1 ∧
      s'.sz.toNat = s.sz.toNat + pad (s.p.toNat + s.sz.toNat) a.toNat + size.toNat := by
  have hpos := ha.pos
  have hl := pad_lt (n := s.p.toNat + s.sz.toNat) hpos
  have hd := pad_dvd (n := s.p.toNat + s.sz.toNat) hpos
  have hoff := offset_toNat (ptr := s.p + s.sz) ha
  rw [h.end_toNat] at hoff
  have h1 := h.cap62
  have h2 := h.fill
  have h3 := h.top
  unfold Stack.allocate
  rw [if_neg h0, h.endPtr]
  simp only [ok_bind]
  rw [alignmentOffset_ok ha]
  simp only [ok_bind]
  generalize (a - (s.p + s.sz)) &&& (a - 1) = off at hoff ⊢
  generalize pad (s.p.toNat + s.sz.toNat) a.toNat = q at *
  have hsum : (s.sz + off + size).toNat = s.sz.toNat + q + size.toNat := by
    rw [BitVec.toNat_add, BitVec.toNat_add, hoff]; omega
  by_cases hc : s.cap.toNat < s.sz.toNat + q + size.toNat
  · rw [if_pos hc, if_pos (by rw [BitVec.lt_def, hsum]; exact hc)]
  · rw [if_neg hc, if_neg (by rw [BitVec.lt_def, hsum]; exact hc)]
    have hr : (s.p + s.sz + off).toNat = s.p.toNat + s.sz.toNat + q := by
      rw [BitVec.toNat_add, h.end_toNat, hoff, Nat.mod_eq_of_lt (by omega)]
    refine ⟨s.p + s.sz + off, { s with sz := s.sz + (off + size), last := 1 }, ?_, hr, rfl, rfl, rfl, ?_⟩
    · simp only [isPointerAligned_ok hpos, hr, hd, decide_true, ok_bind]
      rfl
    · show (s.sz + (off + size)).toNat = _
      rw [← BitVec.add_assoc]; exact hsum

/-- A run of `allocate_bytes` that does not fault had a power-of-two alignment or asked for nothing. -/
theorem allocate_pow2 {s s' : Stack} {size a : U64} {r : Block} (h0 : size ≠ 0) (e : s.allocate size a = .ok (r, s')) :
    Pow2 a.toNat := by
  unfold Stack.allocate at e
  rw [if_neg h0] at e
  cases he : s.endPtr with
  | error f => rw [he] at e; cases e
  | ok x =>
    rw [he] at e
    simp only [ok_bind] at e
    by_cases hp : Pow2 a.toNat
    · exact hp
    · rw [alignmentOffset_bad hp] at e; cases e

theorem allocate_zero (s : Stack) (a : U64) : s.allocate 0 a = .ok (.none, s) := by
  unfold Stack.allocate; rw [if_pos rfl]

/-- What `is_most_recent_allocation` answers for a block inside the used part of the buffer. -/
theorem isMostRecent_spec {s : Stack} (h : s.Good) {ptr size : U64}
    (hb : ptr.toNat + size.toNat ≤ s.p.toNat + s.sz.toNat) (hl : Pow2 s.last.toNat) :
    s.isMostRecent ptr size =
      .ok (decide (ptr.toNat + size.toNat + pad (ptr.toNat + size.toNat) s.last.toNat = s.p.toNat + s.sz.toNat)) := by
  have h1 := h.cap62
  have h2 := h.fill
  have h3 := h.top
  unfold Stack.isMostRecent
  simp only [alignmentOffset_ok hl, h.endPtr, ok_bind, pure_eq_ok]
  have hlt := pad_lt (n := ptr.toNat + size.toNat) hl.pos
  have he : (ptr + size).toNat = ptr.toNat + size.toNat := by rw [BitVec.toNat_add, Nat.mod_eq_of_lt (by omega)]
  have hoff := offset_toNat (ptr := ptr + size) hl
  rw [he] at hoff
  congr 1
  rw [Bool.eq_iff_iff, beq_iff_eq, decide_eq_true_iff, ← BitVec.toNat_inj, h.end_toNat, BitVec.toNat_add, hoff, he]
  have hd := pad_dvd (n := ptr.toNat + size.toNat) hl.pos
  have hw := pad_min (n := ptr.toNat + size.toNat) (m := 2 ^ 64) (by omega) hl.dvd_word
  have h4 := h.p0
  generalize pad (ptr.toNat + size.toNat) s.last.toNat = q at *
  -- no wrap: the padded end stays below 2^64 unless it is exactly 2^64, which the end of the buffer is not
  by_cases hc : ptr.toNat + size.toNat + q < 2 ^ 64
  · rw [Nat.mod_eq_of_lt hc]
  · rw [show ptr.toNat + size.toNat + q = 2 ^ 64 by omega, Nat.mod_self]
    omega

theorem isMostRecent_pow2 {s : Stack} {ptr size : U64} {b : Bool} (e : s.isMostRecent ptr size = .ok b) :
    Pow2 s.last.toNat := by
  unfold Stack.isMostRecent at e
  by_cases hp : Pow2 s.last.toNat
  · exact hp
  · dsimp only at e
    rw [alignmentOffset_bad hp] at e; cases e

theorem ne_zero_of_pos {v : U64} (h : 0 < v.toNat) : v ≠ 0 := by rintro rfl; simp at h

/-- What `free_bytes` does with a non-empty block inside the used part of the buffer. -/
theorem free_spec {s : Stack} (h : s.Good) {ptr size a : U64} (hlo : s.p.toNat ≤ ptr.toNat) (h0 : 0 < size.toNat)
    (hb : ptr.toNat + size.toNat ≤ s.p.toNat + s.sz.toNat) (hl : Pow2 s.last.toNat) :
    if ptr.toNat + size.toNat + pad (ptr.toNat + size.toNat) s.last.toNat = s.p.toNat + s.sz.toNat then
      s.free ptr size a = .ok { s with sz := ptr - s.p, last := a }
    else s.free ptr size a = .error .assertion := by
  have h1 := h.p0
  have h2 := h.top
  have h3 := h.fill
  have hp0 : ptr ≠ 0 := ne_zero_of_pos (by omega)
  have hs0 : size ≠ 0 := ne_zero_of_pos h0
  have hown : s.owns ptr = .ok true := by
    unfold Stack.owns
    have : (decide (s.p ≤ ptr) && decide (ptr < s.p + s.sz)) = true := by
      simp only [Bool.and_eq_true, decide_eq_true_iff, BitVec.le_def, BitVec.lt_def, h.end_toNat]
      omega
    rw [if_neg hp0, this]
    rfl
  unfold Stack.free
  rw [assert_true h.valid]
  simp only [ok_bind, Stack.freeOwned, if_neg hp0, hown, Stack.freeInOrder, if_neg (not_or.mpr ⟨hp0, hs0⟩),
    Stack.freeRecent, isMostRecent_spec h hb hl]
  rw [assert_true rfl]
  simp only [ok_bind]
  by_cases hc : ptr.toNat + size.toNat + pad (ptr.toNat + size.toNat) s.last.toNat = s.p.toNat + s.sz.toNat
  · rw [if_pos hc]
    simp only [hc, decide_true, alignmentOffset_ok hl, if_true]
    rw [assert_true rfl]
    simp only [ok_bind, pure_eq_ok]
    have hoff := offset_toNat (ptr := ptr + size) hl
    have he : (ptr + size).toNat = ptr.toNat + size.toNat := by rw [BitVec.toNat_add, Nat.mod_eq_of_lt (by omega)]
    rw [he] at hoff
    generalize (s.last - (ptr + size)) &&& (s.last - 1) = off at *
    rw [← hoff] at hc
    congr 2
    apply BitVec.eq_of_toNat_eq
    bv_omega
  · rw [if_neg hc]
    simp only [hc, decide_false]
    rfl

theorem free_pow2 {s s' : Stack} {ptr size a : U64} (hp : ptr ≠ 0) (hs : size ≠ 0) (e : s.free ptr size a = .ok s') :
    Pow2 s.last.toNat := by
  unfold Stack.free at e
  by_cases hl : Pow2 s.last.toNat
  · exact hl
  · exfalso
    simp only [Stack.freeInOrder, Stack.isMostRecent, alignmentOffset_bad hl, hp, hs, or_self, if_false, error_bind] at e
    cases h1 : assert s.isValid with
    | error f => rw [h1] at e; cases e
    | ok u =>
      rw [h1] at e
      cases h2 : s.freeOwned ptr with
      | error f => rw [h2] at e; cases e
      | ok o =>
        rw [h2] at e
        cases h3 : assert o with
        | error f => simp only [ok_bind] at e; rw [h3] at e; cases e
        | ok o => simp only [ok_bind] at e; rw [h3] at e; cases e

/-- `reallocate_bytes` when it considers the block the most recent one. -/
theorem reallocate_recent {s : Stack} (h : s.Good) (mem : List Byte) {ptr old new : U64} (a : U64)
    (ho : old.toNat ≤ s.sz.toNat) (hn : new.toNat < 2 ^ 62) (hr : s.isMostRecent ptr old = .ok true) :
    if s.cap.toNat < s.sz.toNat - old.toNat + new.toNat then
      s.reallocate mem ptr old new a = .ok (.none, s, mem)
    else ∃ s', s.reallocate mem ptr old new a = .ok (⟨ptr, new⟩, s', mem) ∧ s'.p = s.p ∧ s'.cap = s.cap ∧ s'.last = s.last ∧
      s'.sz.toNat = s.sz.toNat - old.toNat + new.toNat := by
  have h1 := h.cap62
  have h2 := h.fill
  unfold Stack.reallocate
  rw [assert_true h.valid, hr]
  simp only [ok_bind, if_true]
  have hsz : (s.sz + (new - old)).toNat = s.sz.toNat - old.toNat + new.toNat := by bv_omega
  by_cases hc : s.cap.toNat < s.sz.toNat - old.toNat + new.toNat
  · rw [if_pos hc, if_pos (by rw [BitVec.lt_def, hsz]; exact hc)]
  · rw [if_neg hc, if_neg (by rw [BitVec.lt_def, hsz]; exact hc)]
    exact ⟨_, rfl, rfl, rfl, rfl, hsz⟩

theorem memcpy_ok {mem : List Byte} {dst src n : Nat} (h1 : src + n ≤ dst) (h2 : dst + n ≤ mem.length) :
    memcpy mem dst src n = .ok (Num.splice mem dst ((mem.drop src).take n)) := by
  unfold memcpy
  rw [if_pos ⟨h2, by omega, Or.inr (Or.inr h1)⟩]

/-- `reallocate_bytes` when it does not consider the block the most recent one: a smaller size changes nothing; a larger
one takes a new block behind everything and copies the old bytes. -/
theorem reallocate_moved {s : Stack} (h : s.Good) {mem : List Byte} (hm : mem.length = s.cap.toNat) {ptr old new a : U64}
    (hlo : s.p.toNat ≤ ptr.toNat) (h0 : 0 < old.toNat) (hb : ptr.toNat + old.toNat ≤ s.p.toNat + s.sz.toNat)
    (ha : Pow2 a.toNat) (ha62 : a.toNat ≤ 2 ^ 62)
    (hn : new.toNat < 2 ^ 62) (hr : s.isMostRecent ptr old = .ok false) :
    if new.toNat < old.toNat then s.reallocate mem ptr old new a = .ok (⟨ptr, old⟩, s, mem)
    else if s.cap.toNat < s.sz.toNat + pad (s.p.toNat + s.sz.toNat) a.toNat + new.toNat then
      s.reallocate mem ptr old new a = .ok (.none, s, mem)
    else ∃ r s' mem', s.reallocate mem ptr old new a = .ok (⟨r, new⟩, s', mem') ∧
      r.toNat = s.p.toNat + s.sz.toNat + pad (s.p.toNat + s.sz.toNat) a.toNat ∧
      s'.p = s.p ∧ s'.cap = s.cap ∧ s'.last = 1 ∧
      s'.sz.toNat = s.sz.toNat + pad (s.p.toNat + s.sz.toNat) a.toNat + new.toNat ∧
      mem' = Num.splice mem (r.toNat - s.p.toNat) ((mem.drop (ptr.toNat - s.p.toNat)).take old.toNat) := by
  have h1 := h.p0
  have h2 := h.fill
  have h3 := h.top
  unfold Stack.reallocate
  rw [assert_true h.valid, hr]
  simp only [ok_bind, Bool.false_eq_true, if_false]
  by_cases hlt : new.toNat < old.toNat
  · rw [if_pos hlt, if_pos (by rw [BitVec.lt_def]; exact hlt)]
  · have hlt' : ¬ new < old := by rw [BitVec.lt_def]; exact hlt
    rw [if_neg hlt, if_neg hlt']
    have hs := allocate_spec h ha ha62 (size := new) (ne_zero_of_pos (by omega)) hn
    by_cases hc : s.cap.toNat < s.sz.toNat + pad (s.p.toNat + s.sz.toNat) a.toNat + new.toNat
    · rw [if_pos hc] at hs ⊢
      rw [hs]
      rfl
    · rw [if_neg hc] at hs ⊢
      obtain ⟨r, s', e, e1, e2, e3, e4, e5⟩ := hs
      rw [e]
      have hrok : (⟨r, new⟩ : Block).ok = true := by
        show (r != 0) = true
        rw [bne_iff_ne]
        exact ne_zero_of_pos (by omega)
      simp only [ok_bind, hrok, if_true]
      have hmin : (if old < new then old else new) = old := by
        split
        · rfl
        · rename_i hx
          rw [BitVec.lt_def] at hx
          exact BitVec.eq_of_toNat_eq (by omega)
      rw [hmin]
      have hd : (r - s.p).toNat = r.toNat - s.p.toNat := by bv_omega
      have hsr : (ptr - s.p).toNat = ptr.toNat - s.p.toNat := by bv_omega
      have hcopy : s.copyBlock mem r ptr old =
          .ok (Num.splice mem (r.toNat - s.p.toNat) ((mem.drop (ptr.toNat - s.p.toNat)).take old.toNat)) := by
        unfold Stack.copyBlock
        rw [if_neg (ne_zero_of_pos h0), hd, hsr]
        apply memcpy_ok
        · omega
        · omega
      rw [hcopy]
      exact ⟨r, s', _, rfl, e1, e2, e3, e4, e5, rfl⟩

end Tm.Alloc
