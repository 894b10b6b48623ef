import Verif.Uni.Bytes
import Verif.Uni.BytesSpec
import Verif.Uni.Props

/-! The conversion of bytes into a buffer of fixed size. -/

namespace Tm.Uni

open Tm.Num Tm.Str

/-- The stream after the text `T` was put out to the buffer `B`. -/
structure Wrote (B T : List Byte) (inv : Bool) (enc : Encoding) (o : Out) : Prop where
  fixed : o.canGrow = false
  need : o.necessary = T.length
  inv : o.invalid = inv
  enc : o.encoding = enc
  len : o.data.length = B.length
  fits : T.length ≤ B.length → o.ec = .ok ∧ o.size = T.length ∧ o.data = splice B 0 T
  full : B.length < T.length → o.ec = .erange ∧ o.size ≤ B.length

theorem Wrote.size_le {B T : List Byte} {inv : Bool} {enc : Encoding} {o : Out} (h : Wrote B T inv enc o) : o.size ≤ B.length := by
  by_cases hl : T.length ≤ B.length
  · have := (h.fits hl).2.1; omega
  · exact (h.full (by omega)).2

theorem Wrote.start (B : List Byte) (enc : Encoding) (o : Out) (h : o = { makeOut false B false 0 [] with encoding := enc }) : Wrote B [] false enc o := by
  subst h
  exact ⟨rfl, rfl, rfl, rfl, rfl, fun _ => ⟨rfl, rfl, by simp [splice_nil, makeOut]⟩, fun h => by simp at h⟩

theorem Wrote.mark {B T : List Byte} {inv : Bool} {enc : Encoding} {o : Out} (h : Wrote B T inv enc o) (inv' : Bool) :
    Wrote B T inv' enc { o with invalid := inv' } := ⟨h.fixed, h.need, rfl, h.enc, h.len, h.fits, h.full⟩

theorem Wrote.codepoint {B T : List Byte} {inv : Bool} {enc : Encoding} {o : Out} (h : Wrote B T inv enc o) {c : Nat} (hc : Scalar c) :
    ∃ o', appendCodepoint o c = .ok (true, o') ∧ Wrote B (T ++ utf8 c) inv enc o' := by
  have hs := h.size_le
  have hl := h.len
  have hp := utf8_pos c
  rw [appendCodepoint]
  dsimp only
  rw [utf8Encode_spec c hc _ _ _ (by omega), ok_bind]
  dsimp only
  by_cases hT : T.length ≤ B.length
  · obtain ⟨e1, e2, e3⟩ := h.fits hT
    rw [if_pos e1]
    by_cases hf : T.length + (utf8 c).length ≤ B.length
    · rw [if_pos (show (utf8 c).length ≤ o.data.length - o.size by omega), if_neg (show ¬ (utf8 c).length > o.data.length - o.size by omega)]
      refine ⟨_, rfl, h.fixed, by simp [h.need], h.inv, h.enc, ?_, fun _ => ⟨e1, by simp [e2], ?_⟩, fun hh => ?_⟩
      · show (splice o.data o.size (utf8 c)).length = _
        rw [splice_length _ _ _ (by omega), hl]
      · show splice o.data o.size (utf8 c) = _
        rw [e3, e2, splice0_splice _ _ _ hf]
      · simp at hh; omega
    · rw [if_neg (show ¬ (utf8 c).length ≤ o.data.length - o.size by omega), if_pos (show (utf8 c).length > o.data.length - o.size by omega),
        if_pos (by simp [h.fixed])]
      refine ⟨_, rfl, h.fixed, by simp [h.need], h.inv, h.enc, hl, fun hh => ?_, fun _ => ⟨rfl, hs⟩⟩
      simp at hh; omega
  · obtain ⟨e1, e2⟩ := h.full (by omega)
    rw [if_neg (by simp [e1])]
    refine ⟨_, rfl, h.fixed, by simp [h.need], h.inv, h.enc, ?_, fun hh => ?_, fun _ => ⟨e1, hs⟩⟩
    · dsimp only
      split
      · rw [splice_length _ _ _ (by omega), hl]
      · exact hl
    · simp at hh; omega

theorem Wrote.str {B T : List Byte} {inv : Bool} {enc : Encoding} {o : Out} (h : Wrote B T inv enc o) {s : List Byte} (hs0 : s ≠ []) :
    ∃ o', appendStr o s = .ok (true, o') ∧ Wrote B (T ++ s) inv enc o' := by
  have hs := h.size_le
  have hl := h.len
  have hp : 0 < s.length := List.length_pos_of_ne_nil hs0
  rw [appendStr, show decide (s.length > 0) = true by simpa using hp]
  rw [assert, if_pos rfl, ok_bind]
  dsimp only
  by_cases hT : T.length ≤ B.length
  · obtain ⟨e1, e2, e3⟩ := h.fits hT
    rw [if_pos e1]
    by_cases hf : T.length + s.length ≤ B.length
    · rw [if_neg (by omega), appendCopy, show decide (s.length ≤ o.data.length - o.size) = true by simp; omega, assert, if_pos rfl, ok_bind]
      dsimp only
      rw [copyTo_spec _ _ _ (by omega), ok_bind]
      refine ⟨_, rfl, h.fixed, by simp [h.need], h.inv, h.enc, ?_, fun _ => ⟨e1, by simp [e2], ?_⟩, fun hh => ?_⟩
      · show (splice o.data o.size s).length = _
        rw [splice_length _ _ _ (by omega), hl]
      · show splice o.data o.size s = _
        rw [e3, e2, splice0_splice _ _ _ hf]
      · simp at hh; omega
    · rw [if_pos (by omega), if_pos (by simp [h.fixed])]
      refine ⟨_, rfl, h.fixed, by simp [h.need], h.inv, h.enc, hl, fun hh => ?_, fun _ => ⟨rfl, hs⟩⟩
      simp at hh; omega
  · obtain ⟨e1, e2⟩ := h.full (by omega)
    rw [if_neg (by simp [e1])]
    refine ⟨_, rfl, h.fixed, by simp [h.need], h.inv, h.enc, hl, fun hh => ?_, fun _ => ⟨e1, hs⟩⟩
    simp at hh; omega

/-- How a loop reads its input. -/
inductive Run (unit : Nat) (read : List Byte → C (Nat × List Byte)) : List Byte → List (Option Nat) → List Byte → Prop where
  | stop {s : List Byte} : s.length < unit → Run unit read s [] s
  | char {s t r : List Byte} {c : Nat} {ps : List (Option Nat)} : unit ≤ s.length → read s = .ok (c, t) → t.length < s.length → Scalar c →
      Run unit read t ps r → Run unit read s (some c :: ps) r
  | bad {s t r : List Byte} {c : Nat} {ps : List (Option Nat)} : unit ≤ s.length → read s = .ok (c, t) → t.length < s.length → ¬ Scalar c →
      Run unit read t ps r → Run unit read s (none :: ps) r

/-- What is put out for an ill-formed unit. -/
def subst (v : Validate) (rep : List Byte) : List Byte := match v with | .replace => rep | _ => []

theorem render_cons (rep : List Byte) (p : Option Nat) (ps : List (Option Nat)) :
    render rep (p :: ps) = (match p with | some c => utf8 c | none => rep) ++ render rep ps := by
  rw [render, List.flatMap_cons]; rfl

theorem valid_false {c : Nat} (h : ¬ Scalar c) : isValidCodepoint c = false := by
  have := valid_iff c
  cases e : isValidCodepoint c
  · rfl
  · exact absurd (this.1 e) h

theorem convertLoop_run {unit : Nat} {read : List Byte → C (Nat × List Byte)} (v : Validate) (rep : List Byte) (hm : ModeOk v rep) {B : List Byte} {enc : Encoding}
    {s r : List Byte} {ps : List (Option Nat)} (hr : Run unit read s ps r) (hv : v = .error → none ∉ ps) :
    ∀ (fuel : Nat) (T : List Byte) (inv : Bool) (o : Out), s.length ≤ fuel → Wrote B T inv enc o →
      ∃ o', convertLoop unit read v rep fuel s o = .ok (.finished r o') ∧ Wrote B (T ++ render (subst v rep) ps) (inv || ps.contains none) enc o' := by
  induction hr with
  | stop h =>
    intro fuel T inv o hf ho
    refine ⟨o, ?_, by simpa [render] using ho⟩
    cases fuel <;> rw [convertLoop, if_neg (by omega)]
  | @char s t r c ps h1 h2 h3 hc _ ih =>
    intro fuel T inv o hf ho
    obtain ⟨fuel, rfl⟩ : ∃ k, fuel = k + 1 := ⟨fuel - 1, by omega⟩
    obtain ⟨o1, e1, w1⟩ := ho.codepoint hc
    obtain ⟨o2, e2, w2⟩ := ih (fun h => by have := hv h; simp at this; exact this) fuel (T ++ utf8 c) inv o1 (by omega) w1
    refine ⟨o2, ?_, ?_⟩
    · rw [convertLoop, if_pos (by omega), h2, ok_bind]
      dsimp only
      rw [valid_true hc, if_neg (by simp), e1, ok_bind]
      dsimp only
      rw [if_neg (by simp), e2]
    · rw [render_cons]
      simpa using w2
  | @bad s t r c ps h1 h2 h3 hc _ ih =>
    intro fuel T inv o hf ho
    obtain ⟨fuel, rfl⟩ : ∃ k, fuel = k + 1 := ⟨fuel - 1, by omega⟩
    have hve : v ≠ .error := fun h => by have := hv h; simp at this
    have ih := ih (fun h => absurd h hve) fuel
    rw [convertLoop, if_pos (by omega), h2, ok_bind]
    dsimp only
    rw [valid_false hc, if_pos (by simp)]
    cases v with
    | error => exact absurd rfl hve
    | skip =>
      obtain ⟨o2, e2, w2⟩ := ih T true _ (by omega) (ho.mark true)
      exact ⟨o2, e2, by simpa [render_cons, subst] using w2⟩
    | replace =>
      obtain ⟨o1, e1, w1⟩ := (ho.mark true).str (hm rfl)
      obtain ⟨o2, e2, w2⟩ := ih (T ++ rep) true o1 (by omega) w1
      refine ⟨o2, ?_, by simpa [render_cons, subst] using w2⟩
      dsimp only
      rw [e1, ok_bind]
      dsimp only
      rw [if_neg (by simp), e2]

theorem convertLoop_error {unit : Nat} {read : List Byte → C (Nat × List Byte)} (rep : List Byte) {B : List Byte} {enc : Encoding}
    {s r : List Byte} {ps : List (Option Nat)} (hr : Run unit read s ps r) (hn : none ∈ ps) :
    ∀ (fuel : Nat) (T : List Byte) (inv : Bool) (o : Out), s.length ≤ fuel → Wrote B T inv enc o →
      ∃ o', convertLoop unit read .error rep fuel s o = .ok (.returned o') ∧ o'.ec = .einval ∧ o'.invalid = true ∧ o'.size = 0 ∧ o'.encoding = enc := by
  induction hr with
  | stop h => cases hn
  | @char s t r c ps h1 h2 h3 hc _ ih =>
    intro fuel T inv o hf ho
    obtain ⟨fuel, rfl⟩ : ∃ k, fuel = k + 1 := ⟨fuel - 1, by omega⟩
    obtain ⟨o1, e1, w1⟩ := ho.codepoint hc
    obtain ⟨o2, e2, w2⟩ := ih (by simpa using hn) fuel (T ++ utf8 c) inv o1 (by omega) w1
    refine ⟨o2, ?_, w2⟩
    rw [convertLoop, if_pos (by omega), h2, ok_bind]
    dsimp only
    rw [valid_true hc, if_neg (by simp), e1, ok_bind]
    dsimp only
    rw [if_neg (by simp), e2]
  | @bad s t r c ps h1 h2 h3 hc _ ih =>
    intro fuel T inv o hf ho
    obtain ⟨fuel, rfl⟩ : ∃ k, fuel = k + 1 := ⟨fuel - 1, by omega⟩
    rw [convertLoop, if_pos (by omega), h2, ok_bind]
    dsimp only
    rw [valid_false hc, if_pos (by simp)]
    exact ⟨_, rfl, rfl, rfl, rfl, ho.enc⟩

/-- The result that a caller sees for the stream. -/
def Seen (T : List Byte) (nul : Bool) (inv : Bool) (enc : Encoding) (B : List Byte) (o : Out) : Prop :=
  let W := T ++ terminator utf8 nul
  o.encoding = enc ∧ o.invalid = inv ∧ o.data.length = B.length ∧
    (W.length ≤ B.length → o.ec = .ok ∧ o.size = T.length ∧ o.data = splice B 0 W) ∧
    (B.length < W.length → o.ec = .erange ∧ o.necessary = W.length)

theorem terminate_spec {B T : List Byte} {inv : Bool} {enc : Encoding} {o : Out} (h : Wrote B T inv enc o) (nul : Bool) :
    ∃ o', terminate o nul = .ok o' ∧ Seen T nul inv enc B o' := by
  cases nul with
  | false =>
    refine ⟨o, by rw [terminate, if_neg (by simp)], h.enc, h.inv, h.len, ?_, ?_⟩
    · intro hl
      simp only [terminator, Bool.false_eq_true, if_false, List.append_nil] at hl ⊢
      exact h.fits hl
    · intro hl
      simp only [terminator, Bool.false_eq_true, if_false, List.append_nil] at hl ⊢
      exact ⟨(h.full hl).1, h.need⟩
  | true =>
    have hec : o.ec = .ok ∨ o.ec = .erange := by
      by_cases hl : T.length ≤ B.length
      · exact Or.inl (h.fits hl).1
      · exact Or.inr (h.full (by omega)).1
    obtain ⟨o1, e1, w1⟩ := h.codepoint (c := 0) (by decide)
    refine ⟨{ o1 with size := decrement o1.size }, ?_, w1.enc, w1.inv, w1.len, ?_, ?_⟩
    · rw [terminate, if_pos ⟨rfl, hec⟩, e1, ok_bind]; rfl
    · intro hl
      simp only [terminator, if_true] at hl ⊢
      obtain ⟨h1, h2, h3⟩ := w1.fits hl
      refine ⟨h1, ?_, h3⟩
      rw [h2, decrement, if_neg (by simp [utf8_zero])]
      simp [utf8_zero]
    · intro hl
      simp only [terminator, if_true] at hl ⊢
      exact ⟨(w1.full hl).1, w1.need⟩

theorem modeOk_assert' {v : Validate} {rep : List Byte} (h : ModeOk v rep) : assert (v ≠ .replace || rep.length > 0) = .ok () := modeOk_assert h

/-- Running a conversion of 16 or 32 bit units. -/
theorem convertBytes_run {unit : Nat} {read : List Byte → C (Nat × List Byte)} {v : Validate} {rep : List Byte} (hm : ModeOk v rep) (nul : Bool)
    {B : List Byte} {enc : Encoding} {s r : List Byte} {ps : List (Option Nat)} (hr : Run unit read s ps r) {o : Out} (ho : Wrote B [] false enc o) :
    (v = .error ∧ none ∈ ps → ∃ o', convertBytes unit read s v rep nul o = .ok o' ∧ o'.ec = .einval ∧ o'.invalid = true ∧ o'.size = 0 ∧ o'.encoding = enc) ∧
    (¬ (v = .error ∧ none ∈ ps) → r ≠ [] → (render (subst v rep) ps).length ≤ B.length →
      ∃ o', convertBytes unit read s v rep nul o = .ok o' ∧ o'.ec = .einval ∧ o'.invalid = ps.contains none ∧ o'.size = 0 ∧ o'.encoding = enc) ∧
    (¬ (v = .error ∧ none ∈ ps) → (r = [] ∨ B.length < (render (subst v rep) ps).length) →
      ∃ o', convertBytes unit read s v rep nul o = .ok o' ∧ Seen (render (subst v rep) ps) nul (ps.contains none) enc B o') := by
  have ha : allocOut o (s.length + s.length / 2) = (true, o) := by rw [allocOut, if_neg (by simp [ho.fixed])]
  rw [convertBytes, modeOk_assert' hm, ok_bind]
  simp only [ha]
  rw [if_neg (by simp)]
  refine ⟨?_, ?_, ?_⟩
  · rintro ⟨rfl, hn⟩
    obtain ⟨o', e1, h1⟩ := convertLoop_error rep hr hn s.length [] false o (Nat.le_refl _) ho
    exact ⟨o', by rw [e1]; rfl, h1⟩
  · intro hv hr0 hl
    obtain ⟨o', e1, w1⟩ := convertLoop_run v rep hm hr (fun h hn => hv ⟨h, hn⟩) s.length [] false o (Nat.le_refl _) ho
    rw [List.nil_append] at w1
    obtain ⟨h1, _, _⟩ := w1.fits hl
    refine ⟨destroyOut { o' with ec := .einval }, ?_, ?_⟩
    · rw [e1, ok_bind, convertEnd, if_pos ⟨List.length_pos_of_ne_nil hr0, h1⟩]
    · exact ⟨rfl, by have := w1.inv; rwa [Bool.false_or] at this, rfl, w1.enc⟩
  · intro hv hr0
    obtain ⟨o', e1, w1⟩ := convertLoop_run v rep hm hr (fun h hn => hv ⟨h, hn⟩) s.length [] false o (Nat.le_refl _) ho
    rw [List.nil_append, Bool.false_or] at w1
    obtain ⟨o2, e2, w2⟩ := terminate_spec w1 nul
    refine ⟨o2, ?_, w2⟩
    rw [e1, ok_bind, convertEnd, if_neg, e2]
    rintro ⟨h1, h2⟩
    rcases hr0 with h | h
    · rw [h] at h1; simp at h1
    · rw [(w1.full h).1] at h2; simp at h2

/-! ### Reading units -/

theorem n16 (u : BitVec 16) : (BitVec.ofNat 8 (u.toNat / 256)).toNat = u.toNat / 256 ∧ (BitVec.ofNat 8 u.toNat).toNat = u.toNat % 256 := by
  have := u.isLt
  constructor
  · rw [BitVec.toNat_ofNat, Nat.mod_eq_of_lt (by omega)]
  · rw [BitVec.toNat_ofNat]

theorem join8 (a b : Nat) (h : b < 256) : b ||| a <<< 8 = a * 256 + b := by
  rw [Nat.or_comm, ← Nat.shiftLeft_add_eq_or_of_lt (by omega), Nat.shiftLeft_eq]

theorem u16be_be (u : BitVec 16) (t : List Byte) : u16be (be16 u ++ t) = .ok (u.toNat, t) := by
  obtain ⟨h1, h2⟩ := n16 u
  show (assert _ >>= _) = _
  rw [assert, if_pos (by simp [be16]), ok_bind]
  simp only [be16, rd, List.cons_append, List.nil_append, List.getElem?_cons_zero, List.getElem?_cons_succ, ok_bind, h1, h2]
  rw [join8 _ _ (by omega)]
  simp; omega

theorem u16le_le (u : BitVec 16) (t : List Byte) : u16le (le16 u ++ t) = .ok (u.toNat, t) := by
  obtain ⟨h1, h2⟩ := n16 u
  show (assert _ >>= _) = _
  rw [assert, if_pos (by simp [le16]), ok_bind]
  simp only [le16, rd, List.cons_append, List.nil_append, List.getElem?_cons_zero, List.getElem?_cons_succ, ok_bind, h1, h2]
  rw [join8 _ _ (by omega)]
  simp; omega

theorem join32 (a b c d : Nat) (hb : b < 256) (hc : c < 256) (hd : d < 256) :
    d ||| c <<< 8 ||| b <<< 16 ||| a <<< 24 = a * 16777216 + b * 65536 + c * 256 + d := by
  rw [join8 c d hd, Nat.or_comm (c * 256 + d), ← Nat.shiftLeft_add_eq_or_of_lt (by omega), Nat.or_comm _ (a <<< 24),
    ← Nat.shiftLeft_add_eq_or_of_lt (by rw [Nat.shiftLeft_eq]; omega), Nat.shiftLeft_eq, Nat.shiftLeft_eq]
  omega

theorem n32 (u : BitVec 32) (k : Nat) : (BitVec.ofNat 8 (u.toNat / k)).toNat = u.toNat / k % 256 := by rw [BitVec.toNat_ofNat]

theorem n32' (u : BitVec 32) : (BitVec.ofNat 8 u.toNat).toNat = u.toNat % 256 := by rw [BitVec.toNat_ofNat]

theorem u32be_be (u : BitVec 32) (t : List Byte) : u32be (be32 u ++ t) = .ok (u.toNat, t) := by
  have := u.isLt
  show (assert _ >>= _) = _
  rw [assert, if_pos (by simp [be32]), ok_bind]
  simp only [be32, rd, List.cons_append, List.nil_append, List.getElem?_cons_zero, List.getElem?_cons_succ, ok_bind, n32, n32']
  rw [join32 _ _ _ _ (by omega) (by omega) (by omega)]
  simp; omega

theorem u32le_le (u : BitVec 32) (t : List Byte) : u32le (le32 u ++ t) = .ok (u.toNat, t) := by
  have := u.isLt
  show (assert _ >>= _) = _
  rw [assert, if_pos (by simp [le32]), ok_bind]
  simp only [le32, rd, List.cons_append, List.nil_append, List.getElem?_cons_zero, List.getElem?_cons_succ, ok_bind, n32, n32']
  rw [join32 _ _ _ _ (by omega) (by omega) (by omega)]
  simp; omega

/-- A way to read units of the given size. -/
structure Reader {w : Nat} (n : Nat) (read : List Byte → C (Nat × List Byte)) (ser : BitVec w → List Byte) : Prop where
  len : ∀ u, (ser u).length = n
  pos : 0 < n
  read : ∀ u t, read (ser u ++ t) = .ok (u.toNat, t)

theorem reader16be : Reader 2 u16be be16 := ⟨fun _ => rfl, by omega, u16be_be⟩
theorem reader16le : Reader 2 u16le le16 := ⟨fun _ => rfl, by omega, u16le_le⟩
theorem reader32be : Reader 4 u32be be32 := ⟨fun _ => rfl, by omega, u32be_be⟩
theorem reader32le : Reader 4 u32le le32 := ⟨fun _ => rfl, by omega, u32le_le⟩

theorem run32 {read : List Byte → C (Nat × List Byte)} {ser : BitVec 32 → List Byte} (hr : Reader 4 read ser) {us : List (BitVec 32)} {ps : List (Option Nat)}
    (hp : Pieces utf32 us ps) (tail : List Byte) (ht : tail.length < 4) : Run 4 read (us.flatMap ser ++ tail) ps tail := by
  induction hp with
  | nil => exact .stop ht
  | @char c t ps hc _ ih =>
    have e : (utf32 c ++ t).flatMap ser ++ tail = ser (BitVec.ofNat 32 c) ++ (t.flatMap ser ++ tail) := by simp [utf32]
    have hl := hr.len (BitVec.ofNat 32 c)
    have hc' := scalar_le hc
    rw [e]
    refine .char (by simp [hl]) (t := t.flatMap ser ++ tail) ?_ (by simp [hl]) hc ih
    rw [hr.read, BitVec.toNat_ofNat, Nat.mod_eq_of_lt (by omega)]
  | @bad a t ps hb _ ih =>
    have hl := hr.len a
    rw [List.flatMap_cons, List.append_assoc]
    refine .bad (by simp [hl]) (hr.read _ _) (by simp [hl]) ?_ ih
    intro hc
    exact hb ⟨a.toNat, t, hc, by simp [utf32]⟩

/-- Every lead surrogate that has a unit after it is followed by a trail surrogate. -/
def LeadsPaired (us : List (BitVec 16)) : Prop :=
  ∀ l a b r, us = l ++ a :: b :: r → (0xD800 ≤ a.toNat ∧ a.toNat ≤ 0xDBFF) → 0xDC00 ≤ b.toNat ∧ b.toNat ≤ 0xDFFF

theorem LeadsPaired.tail {us l r : List (BitVec 16)} (h : LeadsPaired us) (e : us = l ++ r) : LeadsPaired r := by
  intro l' a b r' e'
  exact h (l ++ l') a b r' (by rw [e, e']; simp)

theorem run16 {read : List Byte → C (Nat × List Byte)} {ser : BitVec 16 → List Byte} (hr : Reader 2 read ser) {us : List (BitVec 16)} {ps : List (Option Nat)}
    (hp : Pieces utf16 us ps) (hl : LeadsPaired us) (tail : List Byte) (ht : tail.length < 2) : Run 2 (read16 read) (us.flatMap ser ++ tail) ps tail := by
  induction hp with
  | nil => exact .stop ht
  | @char c t ps hc _ ih =>
    have hmax := scalar_le hc
    have ih := ih (hl.tail rfl)
    by_cases h1 : c < 0x10000
    · have e : (utf16 c ++ t).flatMap ser ++ tail = ser (BitVec.ofNat 16 c) ++ (t.flatMap ser ++ tail) := by simp [utf16_1 h1]
      have hlen := hr.len (BitVec.ofNat 16 c)
      rw [e]
      refine .char (by simp [hlen]) (t := t.flatMap ser ++ tail) ?_ (by simp [hlen]) hc ih
      rw [read16, hr.read, ok_bind]
      dsimp only
      rw [b16 (by omega), if_neg (by unfold Scalar at hc; omega)]
    · have e : (utf16 c ++ t).flatMap ser ++ tail = ser (BitVec.ofNat 16 (0xD800 + (c - 0x10000) / 1024)) ++
          (ser (BitVec.ofNat 16 (0xDC00 + (c - 0x10000) % 1024)) ++ (t.flatMap ser ++ tail)) := by simp [utf16_2 (Nat.le_of_not_lt h1)]
      have hlen := hr.len
      rw [e]
      refine .char (by simp [hlen]) (t := t.flatMap ser ++ tail) ?_ (by simp [hlen]; omega) hc ih
      rw [read16, hr.read, ok_bind]
      dsimp only
      rw [b16 (by omega), if_pos (by omega), if_pos (by simp [hlen]), hr.read, ok_bind]
      dsimp only
      rw [b16 (by omega), if_pos (by omega), surr _ _ (by omega) (by omega)]
      rw [show 0x10000 + (0xD800 + (c - 0x10000) / 1024 - 0xD800) * 1024 + (0xDC00 + (c - 0x10000) % 1024 - 0xDC00) = c by omega]
  | @bad a t ps hb _ ih =>
    have ih := ih (hl.tail (l := [a]) rfl)
    have hlen := hr.len
    rw [List.flatMap_cons, List.append_assoc]
    have hns : ¬ Scalar a.toNat := fun hc => hb ⟨a.toNat, t, hc, by
      rw [utf16_1 (by have := a.isLt; omega)]; simp⟩
    by_cases hlead : 0xD800 ≤ a.toNat ∧ a.toNat ≤ 0xDBFF
    · have htn : t = [] := by
        cases t with
        | nil => rfl
        | cons b t =>
          exfalso
          have hb' := hl [] a b t rfl hlead
          have hin := a.isLt
          refine hb ⟨0x10000 + (a.toNat - 0xD800) * 1024 + (b.toNat - 0xDC00), t, ?_, ?_⟩
          · unfold Scalar; omega
          · rw [utf16_2 (by omega)]
            rw [← eq_b16 (b := a) (by omega), ← eq_b16 (b := b) (by omega)]; rfl
      subst htn
      refine .bad (by simp [hlen]) (t := tail) (c := invalidCodepoint) ?_ (by simp [hlen]) (by decide) (by simpa using ih)
      rw [List.flatMap_nil, List.nil_append, read16, hr.read, ok_bind]
      dsimp only
      rw [if_pos hlead, if_neg (by omega)]
    · refine .bad (by simp [hlen]) (t := t.flatMap ser ++ tail) ?_ (by simp [hlen]) hns ih
      rw [read16, hr.read, ok_bind]
      dsimp only
      rw [if_neg hlead]

/-! ### UTF-8 -/

theorem pieces_append {α : Type} {enc : Nat → List α} {cs : List Nat} (hcs : Scalars cs) {t : List α} {ps : List (Option Nat)} (h : Pieces enc t ps) :
    Pieces enc (encode enc cs ++ t) (cs.map some ++ ps) := by
  induction cs with
  | nil => simpa [encode] using h
  | cons c cs ih =>
    obtain ⟨h1, h2⟩ := scalars_cons.1 hcs
    rw [encode_cons, List.append_assoc]
    exact .char h1 (ih h2)

/-- There is only one way to read a string. -/
theorem pieces_unique {α : Type} {enc : Nat → List α} (hf : Form enc) {s : List α} {ps : List (Option Nat)} (h : Pieces enc s ps) :
    ∀ {qs : List (Option Nat)}, Pieces enc s qs → ps = qs := by
  induction h with
  | nil =>
    intro qs h
    generalize e : ([] : List α) = s at h
    cases h with
    | nil => rfl
    | @char c t ps hc _ =>
      have := hf.pos c
      have h0 := congrArg List.length e
      rw [List.length_append, List.length_nil] at h0; omega
    | bad => cases e
  | @char c t ps hc _ ih =>
    intro qs h
    generalize e : enc c ++ t = s at h
    cases h with
    | nil =>
      have := hf.pos c
      have h0 := congrArg List.length e
      rw [List.length_append, List.length_nil] at h0; omega
    | char hd h' =>
      obtain ⟨rfl, rfl⟩ := hf.uniq hc hd e
      rw [ih h']
    | bad hb _ => exact absurd ⟨c, t, hc, e.symm⟩ hb
  | @bad a t ps hb _ ih =>
    intro qs h
    generalize e : a :: t = s at h
    cases h with
    | nil => cases e
    | char hd h' => exact absurd ⟨_, _, hd, e⟩ hb
    | bad _ h' =>
      injection e with e1 e2
      subst e2
      rw [ih h']

/-- Every string can be read. -/
theorem pieces_total {α : Type} {enc : Nat → List α} (hf : Form enc) : ∀ (n : Nat) (s : List α), s.length ≤ n → ∃ ps, Pieces enc s ps := by
  intro n
  induction n with
  | zero => intro s h; rw [List.eq_nil_of_length_eq_zero (by omega : s.length = 0)]; exact ⟨[], .nil⟩
  | succ n ih =>
    intro s h
    cases s with
    | nil => exact ⟨[], .nil⟩
    | cons a s =>
      by_cases hs : ∃ c u, Scalar c ∧ a :: s = enc c ++ u
      · obtain ⟨c, u, hc, e⟩ := hs
        have h1 := hf.pos c
        have h0 := congrArg List.length e
        rw [List.length_append] at h0
        obtain ⟨ps, hp⟩ := ih u (by omega)
        exact ⟨_, by rw [e]; exact .char hc hp⟩
      · obtain ⟨ps, hp⟩ := ih s (by simp at h; omega)
        exact ⟨_, .bad hs hp⟩

theorem copyLoop_nil (v : Validate) (rep : List Byte) (fuel : Nat) (o : Out) : copyLoop v rep fuel [] o = .ok o := by
  cases fuel <;> rw [copyLoop, if_pos List.length_nil]

theorem render_map (rep : List Byte) (cs : List Nat) : render rep (cs.map some) = encode utf8 cs := by
  induction cs with
  | nil => rfl
  | cons c cs ih => rw [List.map_cons, render_cons, encode_cons, ih]

theorem render_append (rep : List Byte) (ps qs : List (Option Nat)) : render rep (ps ++ qs) = render rep ps ++ render rep qs := by
  simp [render]

theorem Wrote.range {B T : List Byte} {inv : Bool} {enc : Encoding} {o : Out} (h : Wrote B T inv enc o) (s : List Byte) :
    ∃ o', appendRange o s = .ok (true, o') ∧ Wrote B (T ++ s) inv enc o' := by
  rw [appendRange]
  by_cases h0 : s = []
  · subst h0
    exact ⟨o, by rw [if_neg (by simp)], by simpa using h⟩
  · rw [if_pos (List.length_pos_of_ne_nil h0)]
    exact h.str h0

theorem not_mem_map {cs : List Nat} : none ∉ cs.map some := by simp

theorem copyLoop_pieces {v : Validate} {rep : List Byte} (hm : ModeOk v rep) {B : List Byte} {enc : Encoding} :
    ∀ (fuel : Nat) (s T : List Byte) (inv : Bool) (o : Out), s.length ≤ fuel → Wrote B T inv enc o → ∃ ps, Pieces utf8 s ps ∧
      (v = .error ∧ none ∈ ps → ∃ o', copyLoop v rep fuel s o = .ok o' ∧ o'.ec = .einval ∧ o'.invalid = true ∧ o'.encoding = enc) ∧
      (¬ (v = .error ∧ none ∈ ps) → ∃ o', copyLoop v rep fuel s o = .ok o' ∧ Wrote B (T ++ render (subst v rep) ps) (inv || ps.contains none) enc o') := by
  intro fuel
  induction fuel with
  | zero =>
    intro s T inv o hl ho
    rw [List.eq_nil_of_length_eq_zero (by omega : s.length = 0)]
    refine ⟨[], .nil, fun h => by simp at h, fun _ => ⟨o, copyLoop_nil _ _ _ _, by simpa [render] using ho⟩⟩
  | succ fuel ih =>
    intro s T inv o hl ho
    by_cases h0 : s = []
    · subst h0
      refine ⟨[], .nil, fun h => by simp at h, fun _ => ⟨o, copyLoop_nil _ _ _ _, by simpa [render] using ho⟩⟩
    have hpos := List.length_pos_of_ne_nil h0
    obtain ⟨n, e1, hn, ⟨cs, hcs, hcse⟩, hmax⟩ := utf8ValidRange_spec s
    obtain ⟨o1, e2, w1⟩ := ho.range (s.take n)
    have hs : s = encode utf8 cs ++ s.drop n := by rw [← hcse, List.take_append_drop]
    rw [copyLoop, if_neg (by omega), e1, ok_bind, e2, ok_bind]
    dsimp only
    by_cases hall : n = s.length
    · have hd : s.drop n = [] := by rw [hall]; simp
      refine ⟨cs.map some, ?_, ?_, ?_⟩
      · have := pieces_append (enc := utf8) hcs .nil
        rw [List.append_nil, List.append_nil, ← hcse, hall, List.take_length] at this
        exact this
      · rintro ⟨_, h⟩; exact absurd h not_mem_map
      · intro _
        refine ⟨o1, by rw [if_neg (by simpa using hall), hd, copyLoop_nil], ?_⟩
        rw [render_map, ← hcse]
        simpa using w1
    · rw [if_pos (by simpa using hall)]
      obtain ⟨a, t, hat⟩ : ∃ a t, s.drop n = a :: t := by
        cases h : s.drop n with
        | nil => have := congrArg List.length h; rw [List.length_drop, List.length_nil] at this; omega
        | cons a t => exact ⟨a, t, rfl⟩
      have hbad : ¬ ∃ c u, Scalar c ∧ a :: t = utf8 c ++ u := by
        rintro ⟨c, u, hc, he⟩
        have hcl := utf8_pos c
        have hlen : s.length = n + ((utf8 c).length + u.length) := by
          have := congrArg List.length (hat.trans he)
          rw [List.length_drop, List.length_append] at this; omega
        have := hmax (n + (utf8 c).length) (by omega) ⟨cs ++ [c], ?_, ?_⟩
        · omega
        · intro x hx
          rcases List.mem_append.1 hx with h | h
          · exact hcs x h
          · rw [List.mem_singleton.1 h]; exact hc
        · rw [List.take_add, hat, he, List.take_left, hcse, encode_append]
          simp [encode]
      have htl : t.length ≤ fuel := by
        have := congrArg List.length hat
        rw [List.length_drop, List.length_cons] at this; omega
      rw [hat]
      simp only [List.drop_succ_cons, List.drop_zero]
      have hpc : ∀ ps, Pieces utf8 t ps → Pieces utf8 s (cs.map some ++ none :: ps) := by
        intro ps hp
        rw [hs, hat]
        exact pieces_append hcs (.bad hbad hp)
      cases v with
      | error =>
        obtain ⟨ps, hp⟩ := pieces_total form8 t.length t (Nat.le_refl _)
        refine ⟨_, hpc ps hp, fun _ => ⟨{ o1 with invalid := true, ec := .einval }, ?_, rfl, rfl, w1.enc⟩, fun h => ?_⟩
        · dsimp only; rw [copyLoop_nil]
        · exact absurd ⟨rfl, by simp⟩ h
      | skip =>
        obtain ⟨ps, hp, _, h2⟩ := ih t _ true _ htl (w1.mark true)
        refine ⟨_, hpc ps hp, fun h => by (cases h.1), fun _ => ?_⟩
        obtain ⟨o2, e3, w2⟩ := h2 (fun h => by cases h.1)
        refine ⟨o2, e3, ?_⟩
        rw [render_append, render_cons, render_map, ← hcse]
        simpa [subst] using w2
      | replace =>
        obtain ⟨o2, e3, w2⟩ := (w1.mark true).str (hm rfl)
        obtain ⟨ps, hp, _, h2⟩ := ih t _ true _ htl w2
        refine ⟨_, hpc ps hp, fun h => by (cases h.1), fun _ => ?_⟩
        obtain ⟨o3, e4, w3⟩ := h2 (fun h => by cases h.1)
        refine ⟨o3, ?_, ?_⟩
        · dsimp only; rw [e3, ok_bind]; exact e4
        · rw [render_append, render_cons, render_map, ← hcse]
          simpa [subst] using w3

end Tm.Uni
