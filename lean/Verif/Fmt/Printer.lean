import Verif.Fmt.Number
/-! # The printer: appending text to a buffer of a fixed size and to one that grows -/
namespace Tm.Fmt
open Tm.Num Tm.Conv Tm.Dbl

/-- A printer that writes to the first `len` bytes of `buf` was given the text `out` so far. -/
structure Fixed (buf : List Byte) (len : Nat) (out : List Byte) (p : Printer) : Prop where
  grow : p.canGrow = false
  cap : p.capacity = len
  nec : p.necessary = out.length
  size : p.size ≤ len
  inside : len ≤ buf.length
  same : SameOutside buf p.data 0 len
  state : (p.ec = .ok ∧ p.size = out.length ∧ p.data = splice buf 0 out) ∨ (p.ec = .erange ∧ len < out.length)

/-- A printer that grows was given the text `out` so far. -/
structure Growing (out : List Byte) (p : Printer) : Prop where
  grow : p.canGrow = true
  ec : p.ec = .ok
  size : p.size = out.length
  cap : p.size ≤ p.capacity
  data : p.capacity ≤ p.data.length
  out : p.data.take p.size = out

/-- An allocator gives at least what it is asked for. -/
def AllocOk (alloc : Alloc) : Prop := ∀ n k b, alloc n k = some b → k ≤ b.length

/-- An allocator refuses some request. -/
def Refuses (alloc : Alloc) : Prop := ∃ n k, alloc n k = none

/-- The operation appends `t` in both kinds of printers. -/
structure Appends (alloc : Alloc) (t : List Byte) (op : Printer → C (Printer × Bool)) : Prop where
  fixed : ∀ buf len out p, Fixed buf len out p → ∃ p', op p = .ok (p', true) ∧ Fixed buf len (out ++ t) p'
  growing : AllocOk alloc → ∀ out p, Growing out p → (∃ p', op p = .ok (p', true) ∧ Growing (out ++ t) p') ∨
    (∃ p', op p = .ok (p', false) ∧ p'.ec = .enomem ∧ p'.data.take p'.size = out ∧ Refuses alloc)

theorem sameOutside_refl (buf : List Byte) (lo n : Nat) : SameOutside buf buf lo n := ⟨rfl, fun _ _ => rfl⟩

theorem sameOutside_splice {buf b t : List Byte} {len p : Nat} (h : SameOutside buf b 0 len) (hl : len ≤ buf.length) (hp : p + t.length ≤ len) :
    SameOutside buf (splice b p t) 0 len := by
  refine ⟨by rw [splice_length _ _ _ (by rw [h.1]; omega), h.1], fun i hi => ?_⟩
  rw [splice_get _ _ _ (by rw [h.1]; omega), if_neg (by omega)]
  exact h.2 i hi

theorem sameOutside_trans {a b c : List Byte} {len lo n : Nat} (h : SameOutside a b 0 len) (h' : SameOutside b c lo n) (hn : lo + n ≤ len) :
    SameOutside a c 0 len := by
  refine ⟨by rw [h'.1, h.1], fun i hi => ?_⟩
  rw [h'.2 i (by omega), h.2 i hi]

/-- The shape of the operations that make room first. -/
def withRoom (alloc : Alloc) (n : Nat) (by_ : Nat → Nat) (k : Printer → C (Printer × Bool)) (p : Printer) : C (Printer × Bool) := do
  let p := { p with necessary := p.necessary + n }
  let room ← remaining p
  if n > room ∧ !p.canGrow then .ok ({ p with ec := .erange }, true)
  else do
    let g ← growIf alloc (decide (n > room)) p (by_ room)
    if !g.2 then .ok (g.1, false) else k g.1

/-- The rest writes `t` at the end. -/
def Puts (t : List Byte) (k : Printer → C (Printer × Bool)) : Prop :=
  ∀ p : Printer, p.size + t.length ≤ p.capacity → p.capacity ≤ p.data.length →
    k p = .ok ({ p with data := splice p.data p.size t, size := p.size + t.length }, true)

theorem remaining_ok {p : Printer} (h : p.size ≤ p.capacity) : remaining p = .ok (p.capacity - p.size) := by
  rw [remaining, assert, if_pos (by simpa using h), ok_bind]

theorem fixed_put {buf out t : List Byte} {len : Nat} {p : Printer} (h : Fixed buf len out p) (hfit : p.size + t.length ≤ len) :
    Fixed buf len (out ++ t) { p with necessary := p.necessary + t.length, data := splice p.data p.size t, size := p.size + t.length } := by
  obtain ⟨h1, h2, h3, h4, h5, h6, h7⟩ := h
  refine ⟨h1, h2, by simp [h3], hfit, h5, sameOutside_splice h6 h5 hfit, ?_⟩
  rcases h7 with ⟨e1, e2, e3⟩ | ⟨e1, e2⟩
  · refine .inl ⟨e1, by simp [e2], ?_⟩
    dsimp only
    rw [e3, splice_after (by omega) (by omega)]
  · exact .inr ⟨e1, by simp; omega⟩

theorem fixed_full {buf out t : List Byte} {len : Nat} {p : Printer} (h : Fixed buf len out p) (hfit : len < out.length + t.length) :
    Fixed buf len (out ++ t) { p with necessary := p.necessary + t.length, ec := .erange } := by
  obtain ⟨h1, h2, h3, h4, h5, h6, h7⟩ := h
  exact ⟨h1, h2, by simp [h3], h4, h5, h6, .inr ⟨rfl, by simpa using hfit⟩⟩

theorem growing_put {out t : List Byte} {p : Printer} (h : Growing out p) (hfit : p.size + t.length ≤ p.capacity) (n : Nat) :
    Growing (out ++ t) { p with necessary := n, data := splice p.data p.size t, size := p.size + t.length } := by
  obtain ⟨h1, h2, h3, h4, h5, h6⟩ := h
  refine ⟨h1, h2, by simp [h3], hfit, ?_, ?_⟩
  · dsimp only; rw [splice_length _ _ _ (by omega)]; omega
  · dsimp only
    have e : (p.data.take p.size ++ t).length = p.size + t.length := by simp; omega
    rw [splice, ← e, List.take_left, h6]

theorem grow_spec {alloc : Alloc} (ha : AllocOk alloc) {out : List Byte} {p : Printer} (h : Growing out p) (by_ : Nat) :
    (∃ p', grow alloc p by_ = .ok (p', true) ∧ Growing out p' ∧ p.capacity + by_ ≤ p'.capacity ∧ p.capacity + 1 ≤ p'.capacity ∧
      p'.necessary = p.necessary) ∨
    (∃ p', grow alloc p by_ = .ok (p', false) ∧ p'.ec = .enomem ∧ p'.data.take p'.size = out ∧ Refuses alloc) := by
  obtain ⟨h1, h2, h3, h4, h5, h6⟩ := h
  rw [grow, assert, if_pos h1, ok_bind]
  dsimp only
  generalize hc : (if 3 * ((p.capacity + 2) / 2) < p.capacity + by_ then p.capacity + by_ else 3 * ((p.capacity + 2) / 2)) = c
  have hc1 : p.capacity + by_ ≤ c := by rw [← hc]; split <;> omega
  have hc2 : p.capacity + 1 ≤ c := by rw [← hc]; split <;> omega
  cases hb : alloc p.calls c with
  | none => exact .inr ⟨_, rfl, rfl, h6, ⟨_, _, hb⟩⟩
  | some b =>
    have hlen := ha _ _ _ hb
    dsimp only
    rw [if_pos (by omega)]
    have e : (p.data.take p.size).length = p.size := by simp; omega
    refine .inl ⟨_, rfl, ⟨h1, h2, h3, by dsimp only; omega, ?_, ?_⟩, by dsimp only; omega, by dsimp only; omega, rfl⟩
    · simp; omega
    · dsimp only
      rw [List.take_append_of_le_length (by omega), List.take_take, Nat.min_self, h6]

theorem withRoom_appends {alloc : Alloc} {t : List Byte} {by_ : Nat → Nat} {k : Printer → C (Printer × Bool)} (hk : Puts t k)
    (hby : ∀ room, room < t.length → t.length ≤ room + max 1 (by_ room)) : Appends alloc t (withRoom alloc t.length by_ k) := by
  constructor
  · intro buf len out p h
    have hsz := h.size
    have hcap := h.cap
    have hd : p.data.length = buf.length := h.same.1
    have hlen := h.inside
    rw [withRoom, remaining_ok (by dsimp only; omega), ok_bind]
    dsimp only
    by_cases hc : t.length > p.capacity - p.size
    · rw [if_pos ⟨hc, by simp [h.grow]⟩]
      refine ⟨_, rfl, fixed_full h ?_⟩
      rcases h.state with ⟨-, e, -⟩ | ⟨-, e⟩ <;> omega
    · rw [if_neg (fun x => hc x.1), growIf, if_neg (by simpa using hc), ok_bind]
      simp only [Bool.not_true, Bool.false_eq_true, if_false]
      rw [hk _ (by dsimp only; omega) (by dsimp only; omega)]
      exact ⟨_, rfl, fixed_put h (by omega)⟩
  · intro ha out p h
    have hcap := h.cap
    have hd := h.data
    rw [withRoom, remaining_ok (by dsimp only; omega), ok_bind]
    dsimp only
    rw [if_neg (by simp [h.grow])]
    have h' : Growing out { p with necessary := p.necessary + t.length } := ⟨h.grow, h.ec, h.size, h.cap, h.data, h.out⟩
    by_cases hc : t.length > p.capacity - p.size
    · rw [growIf, if_pos (by simpa using hc)]
      rcases grow_spec ha h' (by_ (p.capacity - p.size)) with ⟨p', e1, e2, e3, e4, e5⟩ | ⟨p', e1, e2⟩
      · rw [e1, ok_bind]
        dsimp only at e3 e4
        simp only [Bool.not_true, Bool.false_eq_true, if_false]
        have hroom : p'.size + t.length ≤ p'.capacity := by
          have := hby (p.capacity - p.size) (by omega)
          have := e2.size
          have := h.size
          omega
        rw [hk _ hroom e2.data]
        exact .inl ⟨_, rfl, growing_put e2 hroom _⟩
      · rw [e1, ok_bind]
        simp only [Bool.not_false, if_true]
        exact .inr ⟨p', rfl, e2⟩
    · rw [growIf, if_neg (by simpa using hc), ok_bind]
      simp only [Bool.not_true, Bool.false_eq_true, if_false]
      rw [hk _ (by dsimp only; omega) (by dsimp only; omega)]
      exact .inl ⟨_, rfl, growing_put h' (by dsimp only; omega) _⟩

/-! ## text, chars, integers, strings -/

theorem printText_appends (alloc : Alloc) (t : List Byte) : Appends alloc t (fun p => printText alloc p t) := by
  have e : (fun p => printText alloc p t) = withRoom alloc t.length (fun _ => t.length) (fun p => do
      let room ← remaining p
      let data ← memcpy p.data p.size (t.take room)
      .ok ({ p with data := data, size := p.size + min t.length room }, true)) := by
    funext p; rfl
  rw [e]
  refine withRoom_appends (fun p h1 h2 => ?_) (by omega)
  rw [remaining_ok (by omega), ok_bind, List.take_of_length_le (by omega), memcpy_spec _ _ _ (by omega), ok_bind, Nat.min_eq_left (by omega)]

theorem printChar_appends (alloc : Alloc) (c : Byte) : Appends alloc [c] (fun p => printChar alloc p c) := by
  have e : (fun p => printChar alloc p c) = withRoom alloc [c].length (fun _ => 0) (fun p => do
      let data ← wr p.data p.size c
      .ok ({ p with data := data, size := p.size + 1 }, true)) := by
    funext p
    have hz : ∀ room : Nat, (1 > room) = (room = 0) := fun room => by simp
    simp only [printChar, withRoom, List.length_singleton, hz]
  rw [e]
  refine withRoom_appends (fun p h1 h2 => ?_) (by simp)
  rw [wr_eq (by simp at h1; omega), ok_bind]
  rfl

theorem printUnsigned_appends (alloc : Alloc) {w : Nat} (hw : w = 32 ∨ w = 64) (v : BitVec w) {f : PrintFormat} {base : Nat} (hb : f.BaseOk base)
    (hp : f.OnePrefix) (negative : Bool) :
    Appends alloc (numberText f base negative v.toNat) (fun p => printUnsigned alloc p v f negative) := by
  have hsz : (sizesOf (numeral base v.toNat).length f negative).size = (numberText f base negative v.toNat).length := by
    rw [numberText, ← Num.text_length base (if base = 10 then false else f.lowercase), sizesOf_eq hp]
  have hen : ∀ g : Printer × Bool, g.2 = false → (∃ p n, growIf alloc true p n = .ok g) → decide (g.1.ec = .ok) = false := by
    rintro g h ⟨p, n, e⟩
    rw [growIf, if_pos rfl, grow] at e
    unfold assert at e
    split at e
    · rw [ok_bind] at e
      dsimp only at e
      split at e
      · injection e with e; rw [← e]; rfl
      · split at e
        · injection e with e; rw [← e] at h; simp at h
        · cases e
    · cases e
  have e : (fun p => printUnsigned alloc p v f negative) = withRoom alloc (numberText f base negative v.toNat).length
      (fun _ => (numberText f base negative v.toNat).length) (fun p => do
        let room ← remaining p
        let r ← formattedUnsigned p.data p.size room (sizesOf (numeral base v.toNat).length f negative) f v negative
        assert (decide (r.1.ec = .ok))
        .ok ({ p with data := r.2, size := p.size + r.1.size }, decide (r.1.ec = .ok))) := by
    funext p
    rw [printUnsigned, getPrintSizes_spec hw v hb, ok_bind]
    dsimp only
    rw [hsz, withRoom]
    dsimp only
    cases hr : remaining { p with necessary := p.necessary + (numberText f base negative v.toNat).length } with
    | error x => rfl
    | ok room =>
      rw [ok_bind, ok_bind]
      by_cases hc : (numberText f base negative v.toNat).length > room ∧ (!p.canGrow) = true
      · rw [if_pos hc, if_pos hc]
      · rw [if_neg hc, if_neg hc]
        cases hg : growIf alloc (decide ((numberText f base negative v.toNat).length > room))
            { p with necessary := p.necessary + (numberText f base negative v.toNat).length } (numberText f base negative v.toNat).length with
        | error x => rfl
        | ok g =>
          rw [ok_bind, ok_bind]
          by_cases h2 : g.2 = true
          · rw [if_neg (by simp [h2]), if_neg (by simp [h2])]
          · have h2 : g.2 = false := by simpa using h2
            rw [if_pos (by simp [h2]), if_pos (by simp [h2])]
            by_cases hlt : (numberText f base negative v.toNat).length > room
            · rw [hen g h2 ⟨_, _, by rw [show true = decide ((numberText f base negative v.toNat).length > room) from (decide_eq_true hlt).symm]; exact hg⟩]
            · rw [growIf, if_neg (by simpa using hlt)] at hg
              injection hg with hg
              rw [← hg] at h2
              simp at h2
  rw [e]
  refine withRoom_appends (fun p h1 h2 => ?_) (by omega)
  rw [remaining_ok (by omega), ok_bind, formattedUnsigned_spec hw v hb hp negative (by omega) (by omega), ok_bind]
  rfl

theorem printSigned_appends (alloc : Alloc) {w : Nat} (hw : w = 32 ∨ w = 64) (v : BitVec w) {f : PrintFormat} {base : Nat} (hb : f.BaseOk base)
    (hp : f.OnePrefix) (hmin : v ≠ BitVec.intMin w) :
    Appends alloc (numberText f base (decide (v.toInt < 0)) v.toInt.natAbs) (fun p => printSigned alloc p v f) := by
  by_cases hs : v.slt 0 = true
  · have hneg : v.toInt < 0 := by simpa [BitVec.slt] using hs
    have e : (-v).toNat = v.toInt.natAbs := by
      have h1 : (-v).toInt = -v.toInt := by
        rw [BitVec.toInt_neg]
        have h2 := BitVec.le_toInt v
        have h3 := BitVec.toInt_lt (x := v)
        have h4 : v.toInt ≠ -2 ^ (w - 1) := by
          intro hc
          apply hmin
          apply BitVec.eq_of_toInt_eq
          rw [hc, BitVec.toInt_intMin]
          rcases hw with rfl | rfl <;> decide
        rcases hw with rfl | rfl <;> (rw [Int.bmod_def]; simp only [Nat.reduceSub, Int.reducePow, Nat.reducePow] at *; omega)
      have h5 := BitVec.toInt_eq_toNat_cond (-v)
      rw [h1] at h5
      have := (-v).isLt
      split at h5 <;> omega
    have := printUnsigned_appends alloc hw (-v) hb hp true
    rw [e] at this
    simpa only [printSigned, hs, if_true, if_neg hmin, hneg, decide_true] using this
  · have hneg : ¬ v.toInt < 0 := by simpa [BitVec.slt] using hs
    have e : v.toNat = v.toInt.natAbs := by
      have h5 := BitVec.toInt_eq_toNat_cond v
      have := v.isLt
      split at h5 <;> omega
    have := printUnsigned_appends alloc hw v hb hp false
    rw [e] at this
    simpa only [printSigned, hs, if_false, hneg, decide_false, Bool.false_eq_true] using this

theorem printStringValue_appends (alloc : Alloc) (str : List Byte) {f : PrintFormat} (hw : f.width.toNat ≤ str.length) (hl : str.length < 2 ^ 31) :
    Appends alloc str (fun p => printStringValue alloc p str f) := by
  have hi : toInt32 str.length = str.length := by
    rw [toInt32, BitVec.toInt_eq_toNat_cond, BitVec.toNat_ofNat, Nat.mod_eq_of_lt (by omega), if_pos (by omega)]
  have e : ∀ p : Printer, p.ec ≠ .erange → printStringValue alloc p str f = withRoom alloc str.length (fun room => str.length - room) (fun p => do
      let room ← remaining p
      let r ← formattedString p.data p.size room f str str.length
      if r.1.ec = .ok then .ok ({ p with data := r.2, size := p.size + r.1.size }, true)
      else .ok ({ p with data := r.2, ec := r.1.ec }, false)) p := by
    intro p hp
    have e1 : (if f.width > 0 then (toInt32 str.length).toNat else str.length) = str.length := by rw [hi]; split <;> omega
    have e2 : (if f.width > 0 then str.length + (if f.width.toNat > str.length then f.width.toNat - str.length else 0) else str.length)
        = str.length := by split <;> (try split) <;> omega
    rw [printStringValue, if_neg (by rw [hi]; omega)]
    dsimp only
    rw [e1, e2, if_neg hp]
    rfl
  have key := withRoom_appends (alloc := alloc) (t := str) (by_ := fun room => str.length - room) (k := fun p => do
      let room ← remaining p
      let r ← formattedString p.data p.size room f str str.length
      if r.1.ec = .ok then .ok ({ p with data := r.2, size := p.size + r.1.size }, true)
      else .ok ({ p with data := r.2, ec := r.1.ec }, false)) (by
    intro p h1 h2
    dsimp only
    rw [remaining_ok (by omega), ok_bind, formattedString_spec hw (by omega), if_pos (by omega), ok_bind]
    rfl) (by intro room h; omega)
  constructor
  · intro buf len out p h
    by_cases hec : p.ec = .erange
    · have e1 : (if f.width > 0 then (toInt32 str.length).toNat else str.length) = str.length := by rw [hi]; split <;> omega
      have e2 : (if f.width > 0 then str.length + (if f.width.toNat > str.length then f.width.toNat - str.length else 0) else str.length)
          = str.length := by split <;> (try split) <;> omega
      rw [printStringValue, if_neg (by rw [hi]; omega)]
      dsimp only
      rw [e1, e2, if_pos hec]
      refine ⟨_, rfl, ?_⟩
      have hx : len < out.length := by
        rcases h.state with ⟨h1, -⟩ | ⟨-, h1⟩
        · rw [h1] at hec; cases hec
        · exact h1
      have := fixed_full (t := str) h (by omega)
      rw [← hec] at this
      exact this
    · rw [e p hec]; exact key.fixed buf len out p h
  · intro ha out p h
    rw [e p (by rw [h.ec]; decide)]
    exact key.growing ha out p h

end Tm.Fmt
