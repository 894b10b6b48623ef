import Verif.Uni.Valid

/-! The transcoders, the append functions and counting. -/

namespace Tm.Uni

open Tm.Num Tm.Str

/-- What an encoder does. -/
def EncSpec {β : Type} (encode : Nat → List β → Nat → Nat → C (Nat × List β)) (enc : Nat → List β) : Prop :=
  ∀ c, Scalar c → ∀ buf p len, p + len ≤ buf.length →
    encode c buf p len = .ok ((enc c).length, if (enc c).length ≤ len then splice buf p (enc c) else buf)

theorem enc8 : EncSpec utf8Encode utf8 := utf8Encode_spec
theorem enc16 : EncSpec utf16Encode utf16 := utf16Encode_spec

/-- What an extraction function does, at least. -/
structure ExtSpec {α : Type} (extract : List α → C (Option (Nat × List α))) (enc : Nat → List α) : Prop where
  total : ∀ s, extract s = .ok none ∨ ∃ c t, extract s = .ok (some (c, t)) ∧ Scalar c ∧ t.length < s.length
  char : ∀ c t, Scalar c → extract (enc c ++ t) = .ok (some (c, t))
  empty : extract [] = .ok none

theorem ext8 : ExtSpec utf8Extract utf8 where
  total := fun s => by
    rcases utf8Extract_cases s with h | ⟨c, p, t, h, hc, rfl, hp, _⟩
    · exact Or.inl h
    · exact Or.inr ⟨c, t, h, hc, by simp; omega⟩
  char := fun c t hc => utf8Extract_utf8 c hc t
  empty := rfl

theorem ext16 : ExtSpec utf16Extract utf16 where
  total := fun s => by
    rcases utf16Extract_cases s with h | ⟨c, t, h, hc, rfl⟩
    · exact Or.inl h
    · exact Or.inr ⟨c, t, h, hc, by have := utf16_pos c; simp; omega⟩
  char := fun c t hc => utf16Extract_utf16 c hc t
  empty := rfl

/-- The text that is read from `s`, and whether an element had to be skipped. -/
inductive Reads {α : Type} (extract : List α → C (Option (Nat × List α))) (skip : Bool) : List α → List Nat → Bool → Prop where
  | nil : Reads extract skip [] [] false
  | char {s t : List α} {c : Nat} {cs : List Nat} {inv : Bool} : extract s = .ok (some (c, t)) → t.length < s.length → Scalar c →
      Reads extract skip t cs inv → Reads extract skip s (c :: cs) inv
  | drop {a : α} {s : List α} {cs : List Nat} {inv : Bool} : skip = true → extract (a :: s) = .ok none → Reads extract skip s cs inv →
      Reads extract skip (a :: s) cs true

/-- Reading `s` meets an element at which nothing can be extracted. -/
inductive Stuck {α : Type} (extract : List α → C (Option (Nat × List α))) : List α → Prop where
  | here {s : List α} : s ≠ [] → extract s = .ok none → Stuck extract s
  | char {s t : List α} {c : Nat} : extract s = .ok (some (c, t)) → t.length < s.length → Scalar c → Stuck extract t → Stuck extract s

theorem Reads.scalars {α : Type} {extract : List α → C (Option (Nat × List α))} {skip : Bool} {s : List α} {cs : List Nat} {inv : Bool}
    (h : Reads extract skip s cs inv) : Scalars cs := by
  induction h with
  | nil => simp [Scalars]
  | char _ _ hc _ ih => exact scalars_cons.2 ⟨hc, ih⟩
  | drop _ _ _ ih => exact ih

theorem reads_or_stuck {α : Type} {extract : List α → C (Option (Nat × List α))} {enc : Nat → List α} (h : ExtSpec extract enc) :
    ∀ (n : Nat) (s : List α), s.length ≤ n → (∃ cs, Reads extract false s cs false) ∨ Stuck extract s := by
  intro n
  induction n with
  | zero =>
    intro s hs
    rw [List.eq_nil_of_length_eq_zero (by omega : s.length = 0)]
    exact Or.inl ⟨[], .nil⟩
  | succ n ih =>
    intro s hs
    by_cases h0 : s = []
    · subst h0; exact Or.inl ⟨[], .nil⟩
    · rcases h.total s with h1 | ⟨c, t, h1, hc, hl⟩
      · exact Or.inr (.here h0 h1)
      · rcases ih t (by omega) with ⟨cs, h2⟩ | h2
        · exact Or.inl ⟨c :: cs, .char h1 hl hc h2⟩
        · exact Or.inr (.char h1 hl hc h2)

theorem reads_skip {α : Type} {extract : List α → C (Option (Nat × List α))} {enc : Nat → List α} (h : ExtSpec extract enc) :
    ∀ (n : Nat) (s : List α), s.length ≤ n → ∃ cs inv, Reads extract true s cs inv := by
  intro n
  induction n with
  | zero =>
    intro s hs
    rw [List.eq_nil_of_length_eq_zero (by omega : s.length = 0)]
    exact ⟨[], false, .nil⟩
  | succ n ih =>
    intro s hs
    match s with
    | [] => exact ⟨[], false, .nil⟩
    | a :: s =>
      rcases h.total (a :: s) with h1 | ⟨c, t, h1, hc, hl⟩
      · obtain ⟨cs, inv, h2⟩ := ih s (by simp at hs; omega)
        exact ⟨cs, true, .drop rfl h1 h2⟩
      · obtain ⟨cs, inv, h2⟩ := ih t (by omega)
        exact ⟨c :: cs, inv, .char h1 hl hc h2⟩

theorem reads_encode {α : Type} {extract : List α → C (Option (Nat × List α))} {enc : Nat → List α} (h : ExtSpec extract enc) (hf : Form enc)
    (skip : Bool) (cs : List Nat) (hcs : Scalars cs) : Reads extract skip (encode enc cs) cs false := by
  induction cs with
  | nil => exact .nil
  | cons c cs ih =>
    obtain ⟨h1, h2⟩ := scalars_cons.1 hcs
    rw [encode_cons]
    exact .char (h.char c _ h1) (by have := hf.pos c; simp; omega) h1 (ih h2)

/-- The state after the text `T` was put out to the buffer `B`. -/
def After {β : Type} (B T : List β) (inv : Bool) (st : TransState β) : Prop :=
  st.res = ⟨T.length, if T.length ≤ B.length then .ok else .erange, inv⟩ ∧ st.buf.length = B.length ∧
    (T.length ≤ B.length → st.buf = splice B 0 T ∧ st.pos = T.length ∧ st.len = B.length - T.length) ∧
    (B.length < T.length → st.pos = 0 ∧ st.len = 0)

theorem After.room {β : Type} {B T : List β} {inv : Bool} {st : TransState β} (h : After B T inv st) : st.pos + st.len ≤ st.buf.length := by
  obtain ⟨_, h1, h2, h3⟩ := h
  by_cases hl : T.length ≤ B.length
  · obtain ⟨_, e1, e2⟩ := h2 hl; omega
  · obtain ⟨e1, e2⟩ := h3 (by omega); omega

theorem splice0_splice {β : Type} (B T U : List β) (h : T.length + U.length ≤ B.length) :
    splice (splice B 0 T) T.length U = splice B 0 (T ++ U) := by
  have := splice_splice B 0 T U (by omega)
  simpa using this

/-- Putting out `U`. -/
theorem after_out {β : Type} {B T : List β} {inv : Bool} {st : TransState β} (h : After B T inv st) (U : List β) (hU : 0 < U.length) :
    After B (T ++ U) inv (transOut st (if U.length ≤ st.len then splice st.buf st.pos U else st.buf) U.length) := by
  have hr := h.room
  obtain ⟨h0, h1, h2, h3⟩ := h
  rw [transOut]
  by_cases hl : st.len < U.length
  · rw [if_pos hl, if_neg (by omega)]
    have hlong : B.length < T.length + U.length := by
      by_cases hT : T.length ≤ B.length
      · obtain ⟨_, e1, e2⟩ := h2 hT; omega
      · omega
    refine ⟨?_, h1, ?_, fun _ => ⟨rfl, rfl⟩⟩
    · rw [if_neg (by simp; omega), h0]; simp
    · intro hh; simp at hh; omega
  · rw [if_neg hl, if_pos (by omega)]
    have hT : T.length ≤ B.length := by
      rcases Nat.lt_or_ge B.length T.length with hT | hT
      · obtain ⟨e1, e2⟩ := h3 hT; omega
      · exact hT
    obtain ⟨e0, e1, e2⟩ := h2 hT
    have hfit : T.length + U.length ≤ B.length := by omega
    refine ⟨?_, ?_, ?_, ?_⟩
    · rw [if_pos (by simp; omega), h0, if_pos hT]; simp
    · rw [splice_length _ _ _ (by omega), h1]
    · intro _
      refine ⟨?_, ?_, ?_⟩
      · show splice st.buf st.pos U = _
        rw [e0, e1, splice0_splice _ _ _ hfit]
      · simp [e1]
      · simp [e2]; omega
    · intro hh; simp at hh; omega

theorem after_start {β : Type} (B : List β) : After B [] false ⟨⟨0, .ok, false⟩, B, 0, B.length⟩ :=
  ⟨by simp, rfl, fun _ => ⟨by simp [splice_nil], rfl, by simp⟩, fun h => by simp at h⟩

theorem After.inv {β : Type} {B T : List β} {inv : Bool} {st : TransState β} (h : After B T inv st) (inv' : Bool) :
    After B T inv' { st with res := { st.res with invalid := inv' } } := by
  obtain ⟨h0, h1, h2, h3⟩ := h
  exact ⟨by rw [h0], h1, h2, h3⟩

/-- The validation mode allows reading `s` in the given way. -/
theorem transLoop_reads {α β : Type} {extract : List α → C (Option (Nat × List α))} {encode' : Nat → List β → Nat → Nat → C (Nat × List β)}
    {enc : Nat → List β} (he : EncSpec encode' enc) (hf : Form enc) (v : Validate) (rep : List β) {skip : Bool} (hv : skip = true → v = .skip)
    {B : List β} {s : List α} {cs : List Nat} {inv : Bool} (hr : Reads extract skip s cs inv) :
    ∀ (fuel : Nat) (T : List β) (inv0 : Bool) (st : TransState β), s.length ≤ fuel → After B T inv0 st →
      ∃ st', transLoop extract encode' v rep fuel s st = .ok st' ∧ After B (T ++ encode enc cs) (inv0 || inv) st' := by
  induction hr with
  | nil =>
    intro fuel T inv0 st _ ha
    refine ⟨st, ?_, by simpa [encode_nil] using ha⟩
    cases fuel <;> rfl
  | @char s t c cs inv h1 hl hc _ ih =>
    intro fuel T inv0 st hfu ha
    obtain ⟨fuel, rfl⟩ : ∃ f, fuel = f + 1 := ⟨fuel - 1, by omega⟩
    have hout := after_out ha (enc c) (hf.pos c)
    obtain ⟨st', h2, h3⟩ := ih fuel (T ++ enc c) inv0 _ (by omega) hout
    refine ⟨st', ?_, by rwa [encode_cons, ← List.append_assoc]⟩
    rw [transLoop, if_neg (by omega), h1, ok_bind]
    dsimp only
    rw [he c hc _ _ _ ha.room, ok_bind]
    exact h2
  | @drop a s cs inv hs h1 _ ih =>
    intro fuel T inv0 st hfu ha
    obtain ⟨fuel, rfl⟩ : ∃ f, fuel = f + 1 := ⟨fuel - 1, by simp at hfu; omega⟩
    obtain ⟨st', h2, h3⟩ := ih fuel T true _ (by simp at hfu; omega) (ha.inv true)
    refine ⟨st', ?_, by simpa using h3⟩
    rw [transLoop, if_neg (by simp), h1, ok_bind, hv hs]
    dsimp only
    rw [hv hs] at h2
    exact h2

theorem transLoop_stuck {α β : Type} {extract : List α → C (Option (Nat × List α))} {encode' : Nat → List β → Nat → Nat → C (Nat × List β)}
    {enc : Nat → List β} (he : EncSpec encode' enc) (hf : Form enc) (rep : List β) {B : List β} {s : List α} (hr : Stuck extract s) :
    ∀ (fuel : Nat) (T : List β) (inv0 : Bool) (st : TransState β), s.length ≤ fuel → After B T inv0 st →
      ∃ st', transLoop extract encode' .error rep fuel s st = .ok st' ∧ st'.res.ec = .einval ∧ st'.res.invalid = true ∧
        st'.buf.length = B.length := by
  induction hr with
  | @here s hs h1 =>
    intro fuel T inv0 st hfu ha
    have hl : s.length ≠ 0 := by simpa using hs
    obtain ⟨fuel, rfl⟩ : ∃ f, fuel = f + 1 := ⟨fuel - 1, by omega⟩
    refine ⟨{ st with res := { st.res with invalid := true, ec := .einval } }, ?_, rfl, rfl, ha.2.1⟩
    rw [transLoop, if_neg hl, h1, ok_bind]
    cases fuel <;> rfl
  | @char s t c h1 hl hc _ ih =>
    intro fuel T inv0 st hfu ha
    obtain ⟨fuel, rfl⟩ : ∃ f, fuel = f + 1 := ⟨fuel - 1, by omega⟩
    have hout := after_out ha (enc c) (hf.pos c)
    obtain ⟨st', h2, h3⟩ := ih fuel (T ++ enc c) inv0 _ (by omega) hout
    refine ⟨st', ?_, h3⟩
    rw [transLoop, if_neg (by omega), h1, ok_bind]
    dsimp only
    rw [he c hc _ _ _ ha.room, ok_bind]
    exact h2

theorem copyTo_spec {α : Type} (t : List α) : ∀ (buf : List α) (p : Nat), p + t.length ≤ buf.length → copyTo buf p t = .ok (splice buf p t) := by
  induction t with
  | nil => intro buf p _; rw [copyTo, splice_nil]
  | cons x t ih =>
    intro buf p h
    simp only [List.length_cons] at h
    rw [copyTo, wr_one _ _ _ (by omega), ok_bind, ih _ _ (by rw [splice_length _ _ _ (by simp; omega)]; omega)]
    have := splice_splice buf p [x] t (by simp; omega)
    simp only [List.length_singleton, List.singleton_append] at this
    rw [this]

theorem transLoop_replace {α β : Type} {extract : List α → C (Option (Nat × List α))} {encode' : Nat → List β → Nat → Nat → C (Nat × List β)}
    {enc : Nat → List β} (he : EncSpec encode' enc) (hf : Form enc) (rep : List β) (hrep : 0 < rep.length) {B : List β} {s : List α}
    (hr : Stuck extract s) :
    ∀ (fuel : Nat) (T : List β) (inv0 : Bool) (st : TransState β), After B T inv0 st →
      transLoop extract encode' .replace rep fuel s st = .error .diverge := by
  induction hr with
  | @here s hs h1 =>
    intro fuel
    have hl : s.length ≠ 0 := by simpa using hs
    induction fuel with
    | zero => intro T inv0 st _; rw [transLoop, if_neg hl]
    | succ fuel ih =>
      intro T inv0 st ha
      rw [transLoop, if_neg hl, h1, ok_bind]
      dsimp only
      have ha' := ha.inv true
      have hout := after_out ha' rep hrep
      by_cases hlen : st.len < rep.length
      · rw [if_pos hlen]
        rw [if_neg (by show ¬ rep.length ≤ st.len; omega)] at hout
        exact ih _ _ _ hout
      · rw [if_neg hlen]
        rw [if_pos (by show rep.length ≤ st.len; omega)] at hout
        have := ha.room
        rw [copyTo_spec _ _ _ (by omega), ok_bind]
        exact ih _ _ _ hout
  | @char s t c h1 hl hc _ ih =>
    intro fuel T inv0 st ha
    cases fuel with
    | zero => rw [transLoop, if_neg (by omega)]
    | succ fuel =>
      have hout := after_out ha (enc c) (hf.pos c)
      rw [transLoop, if_neg (by omega), h1, ok_bind]
      dsimp only
      rw [he c hc _ _ _ ha.room, ok_bind]
      exact ih fuel _ _ _ hout

/-- The null terminator that is asked for. -/
def terminator {β : Type} (enc : Nat → List β) (nullterminate : Bool) : List β := if nullterminate then enc 0 else []

theorem transEnd_spec {β : Type} {encode' : Nat → List β → Nat → Nat → C (Nat × List β)}
    {enc : Nat → List β} (he : EncSpec encode' enc) (hf : Form enc) (nul : Bool) {B T : List β} {inv : Bool} {st : TransState β} (ha : After B T inv st) :
    ((T ++ terminator enc nul).length ≤ B.length →
      transEnd encode' nul st = .ok (⟨T.length, .ok, inv⟩, splice B 0 (T ++ terminator enc nul))) ∧
    (B.length < (T ++ terminator enc nul).length →
      ∃ B', transEnd encode' nul st = .ok (⟨(T ++ terminator enc nul).length, .erange, inv⟩, B') ∧ B'.length = B.length) := by
  have hz : Scalar 0 := by decide
  have hr := ha.room
  obtain ⟨h0, h1, h2, h3⟩ := ha
  cases nul with
  | false =>
    simp only [terminator, Bool.false_eq_true, if_false, List.append_nil]
    rw [transEnd, if_neg (by simp)]
    constructor
    · intro hl
      obtain ⟨e0, e1, e2⟩ := h2 hl
      rw [h0, if_pos hl, e0]
    · intro hl
      exact ⟨st.buf, by rw [h0, if_neg (by omega)], h1⟩
  | true =>
    simp only [terminator, if_true, List.length_append]
    have hc : (true = true) ∧ (st.res.ec = .ok ∨ st.res.ec = .erange) := by
      refine ⟨rfl, ?_⟩
      rw [h0]; dsimp only; split <;> simp
    rw [transEnd, if_pos hc, he 0 hz _ _ _ hr, ok_bind]
    dsimp only
    have hp := hf.pos 0
    constructor
    · intro hl
      obtain ⟨e0, e1, e2⟩ := h2 (by omega)
      rw [if_neg (by omega), if_pos (by omega), h0, if_pos (by omega), e0, e1, splice0_splice _ _ _ hl]
    · intro hl
      have hlen : st.len < (enc 0).length := by
        by_cases hT : T.length ≤ B.length
        · obtain ⟨e0, e1, e2⟩ := h2 hT; omega
        · obtain ⟨e1, e2⟩ := h3 (by omega); omega
      exact ⟨st.buf, by rw [if_pos hlen, if_neg (by omega), h0], h1⟩

/-! ### Appending -/

/-- Appending several code points. -/
def appendAll {α : Type} (encode : Nat → List α → Nat → Nat → C (Nat × List α)) : List Nat → OutStream α → C (OutStream α)
  | [], s => .ok s
  | c :: cs, s => do
    let (_, s) ← append encode c s
    appendAll encode cs s

/-! ### Counting -/

theorem countLoop_spec (cs : List Nat) (hcs : Scalars cs) : ∀ (fuel n : Nat), (encode utf8 cs).length < fuel →
    countLoop fuel (encode utf8 cs) n = .ok (n + cs.length) := by
  induction cs with
  | nil =>
    intro fuel n h
    obtain ⟨fuel, rfl⟩ : ∃ f, fuel = f + 1 := ⟨fuel - 1, by omega⟩
    rfl
  | cons c cs ih =>
    intro fuel n h
    obtain ⟨fuel, rfl⟩ : ∃ f, fuel = f + 1 := ⟨fuel - 1, by omega⟩
    obtain ⟨h1, h2⟩ := scalars_cons.1 hcs
    have hp := utf8_pos c
    rw [encode_cons] at h ⊢
    rw [countLoop, utf8Extract_utf8 c h1, ok_bind]
    simp only [List.length_append] at h
    dsimp only
    rw [ih h2 fuel (n + 1) (by omega), List.length_cons]
    congr 1; omega

theorem countLoop_total : ∀ (fuel : Nat) (s : List Byte) (n : Nat), s.length < fuel → ∃ m, countLoop fuel s n = .ok m ∧ m ≤ n + s.length := by
  intro fuel
  induction fuel with
  | zero => intro s n h; omega
  | succ fuel ih =>
    intro s n h
    rw [countLoop]
    rcases ext8.total s with h1 | ⟨c, t, h1, hc, hl⟩
    · rw [h1, ok_bind]; exact ⟨n, rfl, by omega⟩
    · rw [h1, ok_bind]
      obtain ⟨m, h2, h3⟩ := ih t (n + 1) (by omega)
      exact ⟨m, h2, by omega⟩

end Tm.Uni
