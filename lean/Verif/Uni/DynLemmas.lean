import Verif.Uni.Dynamic
import Verif.Uni.BytesProps

/-! The conversion of bytes into a block that grows. -/

namespace Tm.Uni

open Tm.Num Tm.Str

/-- The stream after the text `T` was put out to memory that grows; `A` is the list of the outcomes of the allocations. -/
structure Grew (A : List Bool) (T : List Byte) (inv : Bool) (enc : Encoding) (o : Out) : Prop where
  grow : o.canGrow = true
  ok : o.ec = .ok
  inv : o.invalid = inv
  enc : o.encoding = enc
  size : o.size = T.length
  fits : T.length ≤ o.data.length
  text : o.data.take T.length = T
  own : o.null = false → o.owns = true ∧ 0 < o.data.length
  nul : o.null = true → o.data = []
  sub : ∀ b ∈ o.allocs, b ∈ A

/-- The stream after memory ran out. -/
structure Failed (A : List Bool) (enc : Encoding) (o : Out) : Prop where
  ec : o.ec = .enomem
  null : o.null = true
  data : o.data = []
  size : o.size = 0
  enc : o.encoding = enc
  why : false ∈ A

theorem nextAlloc_eq (o : Out) : ∃ b as, nextAlloc o = (b, { o with allocs := as }) ∧ (∀ x ∈ as, x ∈ o.allocs) ∧ (b = false → false ∈ o.allocs) := by
  rw [nextAlloc]
  split
  · rename_i h; exact ⟨true, [], by rw [← h], by simp, by simp⟩
  · rename_i b bs h; exact ⟨b, bs, rfl, by rw [h]; exact fun x hx => List.mem_cons_of_mem _ hx, by rintro rfl; rw [h]; simp⟩

theorem grownCapacity_ge (c n : Nat) : c + n ≤ grownCapacity c n := by
  unfold grownCapacity; dsimp only; split <;> omega

theorem take_append_le {α : Type} {n : Nat} {a b : List α} (h : n ≤ a.length) : (a ++ b).take n = a.take n := by
  rw [List.take_append, show n - a.length = 0 by omega]; simp

theorem Grew.growOut {A : List Bool} {T : List Byte} {inv : Bool} {enc : Encoding} {o : Out} (h : Grew A T inv enc o) (n : Nat) (hn : o.data.length < o.size + n) :
    ∃ b o', growOut o n = .ok (b, o') ∧ (b = true → Grew A T inv enc o' ∧ T.length + n ≤ o'.data.length ∧ o'.necessary = o.necessary) ∧ (b = false → Failed A enc o') := by
  have hs := h.size
  have hf := h.fits
  have hge := grownCapacity_ge o.data.length n
  obtain ⟨b, as, e, hsub, hwhy⟩ := nextAlloc_eq o
  rw [Uni.growOut, h.grow, h.ok, show decide (o.size + n > o.data.length) = true by simpa using hn]
  simp only [assert, if_true, ok_bind, decide_true, e]
  cases hnull : o.null with
  | false =>
    obtain ⟨h1, h2⟩ := h.own hnull
    rw [h1, show decide (o.data.length > 0) = true by simpa using h2]
    simp only [Bool.not_false, and_self, if_true, ok_bind]
    cases b with
    | true =>
      refine ⟨true, _, rfl, fun _ => ⟨⟨h.grow, h.ok, h.inv, h.enc, h.size, ?_, ?_, fun _ => ⟨rfl, ?_⟩, fun hc => ?_, fun x hx => h.sub _ (hsub x hx)⟩, ?_, rfl⟩, fun hc => by (cases hc)⟩
      · simp; omega
      · dsimp only; rw [take_append_le hf]; exact h.text
      · simp; omega
      · simp at hc
      · simp; omega
    | false =>
      refine ⟨false, _, rfl, fun hc => by (cases hc), fun _ => ⟨rfl, rfl, rfl, rfl, h.enc, h.sub _ (hwhy rfl)⟩⟩
  | true =>
    have hd := h.nul hnull
    have hT : T = [] := by
      have := hf; rw [hd] at this; simpa using this
    subst hT
    simp only [Bool.not_true, Bool.false_eq_true, false_and, if_false]
    cases b with
    | true =>
      rw [if_pos rfl, if_neg (by rw [hs]; simp)]
      simp only [hd, List.length_nil, Nat.zero_add] at hge
      refine ⟨true, _, rfl, fun _ => ⟨⟨h.grow, h.ok, h.inv, h.enc, h.size, ?_, ?_, fun _ => ⟨rfl, ?_⟩, fun hc => ?_, fun x hx => h.sub _ (hsub x hx)⟩, ?_, rfl⟩, fun hc => by (cases hc)⟩
      · simp
      · simp
      · simp [hs, hd]; simp [hs, hd] at hn; omega
      · simp at hc
      · simp [hs, hd]; omega
    | false =>
      rw [if_neg (by simp)]
      refine ⟨false, _, rfl, fun hc => by (cases hc), fun _ => ⟨rfl, rfl, rfl, rfl, h.enc, h.sub _ (hwhy rfl)⟩⟩

theorem splice_take {α : Type} (B T U : List α) (ht : B.take T.length = T) :
    (splice B T.length U).take (T ++ U).length = T ++ U := by
  rw [splice, ht, List.take_left' rfl]

/-- Putting out a text that fits. -/
theorem Grew.put {A : List Bool} {T : List Byte} {inv : Bool} {enc : Encoding} {o : Out} (h : Grew A T inv enc o) (U : List Byte) (hU : U ≠ []) (hl : T.length + U.length ≤ o.data.length) (k : Nat) :
    Grew A (T ++ U) inv enc { o with data := splice o.data o.size U, size := o.size + U.length, necessary := k } := by
  have hp := List.length_pos_of_ne_nil hU
  have hs := h.size
  refine ⟨h.grow, h.ok, h.inv, h.enc, by simp [hs], ?_, ?_, ?_, ?_, h.sub⟩
  · dsimp only; rw [splice_length _ _ _ (by omega)]; simpa using hl
  · dsimp only; rw [hs, splice_take _ _ _ h.text]
  · intro hn
    refine ⟨(h.own hn).1, ?_⟩
    dsimp only; rw [splice_length _ _ _ (by omega)]; omega
  · intro hn
    have := h.nul hn
    rw [this, List.length_nil] at hl; omega

/-- Growing or failing. -/
def Next (A : List Bool) (T : List Byte) (inv : Bool) (enc : Encoding) (b : Bool) (o : Out) : Prop := (b = true → Grew A T inv enc o) ∧ (b = false → Failed A enc o)

theorem Grew.codepoint {A : List Bool} {T : List Byte} {inv : Bool} {enc : Encoding} {o : Out} (h : Grew A T inv enc o) {c : Nat} (hc : Scalar c) :
    ∃ b o', appendCodepoint o c = .ok (b, o') ∧ Next A (T ++ utf8 c) inv enc b o' := by
  have hs := h.size
  have hf := h.fits
  have hp := utf8_pos c
  have hne : utf8 c ≠ [] := by intro e; rw [e] at hp; simp at hp
  rw [appendCodepoint]
  dsimp only
  rw [utf8Encode_spec c hc _ _ _ (by omega), ok_bind]
  dsimp only
  rw [if_pos h.ok]
  by_cases hfit : T.length + (utf8 c).length ≤ o.data.length
  · rw [if_pos (show (utf8 c).length ≤ o.data.length - o.size by omega), if_neg (show ¬ (utf8 c).length > o.data.length - o.size by omega)]
    exact ⟨true, _, rfl, fun _ => h.put _ hne hfit _, fun hc => by (cases hc)⟩
  · rw [if_neg (show ¬ (utf8 c).length ≤ o.data.length - o.size by omega), if_pos (show (utf8 c).length > o.data.length - o.size by omega), if_neg (by simp [h.grow])]
    have h' : Grew A T inv enc { o with data := o.data, necessary := o.necessary + (utf8 c).length } := ⟨h.grow, h.ok, h.inv, h.enc, h.size, h.fits, h.text, h.own, h.nul, h.sub⟩
    obtain ⟨b, o1, e1, h1, h2⟩ := h'.growOut (utf8 c).length (by dsimp only; omega)
    rw [e1, ok_bind]
    dsimp only
    cases b with
    | false => exact ⟨false, o1, rfl, fun hc => by (cases hc), fun _ => h2 rfl⟩
    | true =>
      obtain ⟨h3, h4, h5⟩ := h1 rfl
      have hs3 := h3.size
      rw [if_neg (by simp), utf8Encode_spec c hc _ _ _ (by omega), ok_bind]
      dsimp only
      rw [if_pos (show (utf8 c).length ≤ o1.data.length - o1.size by omega), show decide ((utf8 c).length ≤ o1.data.length - o1.size) = true by simp; omega,
        assert, if_pos rfl, ok_bind]
      exact ⟨true, _, rfl, fun _ => h3.put _ hne h4 _, fun hc => by (cases hc)⟩

theorem Grew.str {A : List Bool} {T : List Byte} {inv : Bool} {enc : Encoding} {o : Out} (h : Grew A T inv enc o) {s : List Byte} (hs0 : s ≠ []) :
    ∃ b o', appendStr o s = .ok (b, o') ∧ Next A (T ++ s) inv enc b o' := by
  have hs := h.size
  have hf := h.fits
  have hp : 0 < s.length := List.length_pos_of_ne_nil hs0
  have copy : ∀ o1 : Out, Grew A T inv enc o1 → T.length + s.length ≤ o1.data.length → ∃ b o', appendCopy o1 s = .ok (b, o') ∧ Next A (T ++ s) inv enc b o' := by
    intro o1 h1 hl
    have hs1 := h1.size
    rw [appendCopy, show decide (s.length ≤ o1.data.length - o1.size) = true by simp; omega, assert, if_pos rfl, ok_bind, copyTo_spec _ _ _ (by omega), ok_bind]
    exact ⟨true, _, rfl, fun _ => h1.put _ hs0 hl _, fun hc => by (cases hc)⟩
  have h' : Grew A T inv enc { o with necessary := o.necessary + s.length } := ⟨h.grow, h.ok, h.inv, h.enc, h.size, h.fits, h.text, h.own, h.nul, h.sub⟩
  rw [appendStr, show decide (s.length > 0) = true by simpa using hp]
  rw [assert, if_pos rfl, ok_bind]
  dsimp only
  rw [if_pos h.ok]
  by_cases hfit : T.length + s.length ≤ o.data.length
  · rw [if_neg (by omega)]
    exact copy _ h' hfit
  · rw [if_pos (by omega), if_neg (by simp [h.grow])]
    obtain ⟨b, o1, e1, h1, h2⟩ := h'.growOut s.length (by dsimp only; omega)
    rw [e1, ok_bind]
    dsimp only
    cases b with
    | false => exact ⟨false, o1, rfl, fun hc => by (cases hc), fun _ => h2 rfl⟩
    | true =>
      obtain ⟨h3, h4, h5⟩ := h1 rfl
      rw [if_neg (by simp)]
      exact copy _ h3 h4

theorem Grew.mark {A : List Bool} {T : List Byte} {inv : Bool} {enc : Encoding} {o : Out} (h : Grew A T inv enc o) (inv' : Bool) : Grew A T inv' enc { o with invalid := inv' } :=
  ⟨h.grow, h.ok, rfl, h.enc, h.size, h.fits, h.text, h.own, h.nul, h.sub⟩

/-- How a loop may end. -/
def Ends (A : List Bool) (v : Validate) (rep : List Byte) (ps : List (Option Nat)) (T : List Byte) (inv : Bool) (enc : Encoding) (r : List Byte) (e : LoopEnd) : Prop :=
  (∃ o, e = .returned o ∧ Failed A enc o) ∨
  (v = .error ∧ none ∈ ps ∧ ∃ o, e = .returned o ∧ o.ec = .einval ∧ o.null = true ∧ o.data = [] ∧ o.size = 0 ∧ o.encoding = enc ∧ o.invalid = true) ∨
  (¬ (v = .error ∧ none ∈ ps) ∧ ∃ o, e = .finished r o ∧ Grew A (T ++ render (subst v rep) ps) (inv || ps.contains none) enc o)

theorem convertLoop_grew {A : List Bool} {unit : Nat} {read : List Byte → C (Nat × List Byte)} (v : Validate) (rep : List Byte) (hm : ModeOk v rep) {enc : Encoding}
    {s r : List Byte} {ps : List (Option Nat)} (hr : Run unit read s ps r) :
    ∀ (fuel : Nat) (T : List Byte) (inv : Bool) (o : Out), s.length ≤ fuel → Grew A T inv enc o → ∃ e, convertLoop unit read v rep fuel s o = .ok e ∧ Ends A v rep ps T inv enc r e := by
  induction hr with
  | stop h =>
    intro fuel T inv o hf ho
    refine ⟨.finished _ o, ?_, Or.inr (Or.inr ⟨by simp, o, rfl, by simpa [render] using ho⟩)⟩
    cases fuel <;> rw [convertLoop, if_neg (by omega)]
  | @char s t r c ps h1 h2 h3 hc _ ih =>
    intro fuel T inv o hf ho
    obtain ⟨fuel, rfl⟩ : ∃ k, fuel = k + 1 := ⟨fuel - 1, by omega⟩
    obtain ⟨b, o1, e1, w1, w2⟩ := ho.codepoint hc
    rw [convertLoop, if_pos (by omega), h2, ok_bind]
    dsimp only
    rw [valid_true hc, if_neg (by simp), e1, ok_bind]
    dsimp only
    cases b with
    | false => exact ⟨_, rfl, Or.inl ⟨o1, rfl, w2 rfl⟩⟩
    | true =>
      rw [if_neg (by simp)]
      obtain ⟨e, e2, h⟩ := ih fuel (T ++ utf8 c) inv o1 (by omega) (w1 rfl)
      refine ⟨e, e2, ?_⟩
      rcases h with h | ⟨h, h', h''⟩ | ⟨h, o2, h', h''⟩
      · exact Or.inl h
      · exact Or.inr (Or.inl ⟨h, by simp [h'], h''⟩)
      · refine Or.inr (Or.inr ⟨fun hh => h ⟨hh.1, by simpa using hh.2⟩, o2, h', ?_⟩)
        rw [render_cons]; simpa using h''
  | @bad s t r c ps h1 h2 h3 hc _ ih =>
    intro fuel T inv o hf ho
    obtain ⟨fuel, rfl⟩ : ∃ k, fuel = k + 1 := ⟨fuel - 1, by omega⟩
    have ih := ih fuel
    rw [convertLoop, if_pos (by omega), h2, ok_bind]
    dsimp only
    rw [valid_false hc, if_pos (by simp)]
    cases v with
    | error => exact ⟨_, rfl, Or.inr (Or.inl ⟨rfl, by simp, _, rfl, rfl, rfl, rfl, rfl, ho.enc, rfl⟩)⟩
    | skip =>
      obtain ⟨e, e2, h⟩ := ih T true _ (by omega) (ho.mark true)
      refine ⟨e, e2, ?_⟩
      rcases h with h | ⟨h, _⟩ | ⟨h, o2, h', h''⟩
      · exact Or.inl h
      · cases h
      · exact Or.inr (Or.inr ⟨fun hh => by (cases hh.1), o2, h', by simpa [render_cons, subst] using h''⟩)
    | replace =>
      obtain ⟨b, o1, e1, w1, w2⟩ := (ho.mark true).str (hm rfl)
      dsimp only
      rw [e1, ok_bind]
      dsimp only
      cases b with
      | false => exact ⟨_, rfl, Or.inl ⟨o1, rfl, w2 rfl⟩⟩
      | true =>
        rw [if_neg (by simp)]
        obtain ⟨e, e2, h⟩ := ih (T ++ rep) true o1 (by omega) (w1 rfl)
        refine ⟨e, e2, ?_⟩
        rcases h with h | ⟨h, _⟩ | ⟨h, o2, h', h''⟩
        · exact Or.inl h
        · cases h
        · exact Or.inr (Or.inr ⟨fun hh => by (cases hh.1), o2, h', by simpa [render_cons, subst] using h''⟩)

/-- The stream of a finished conversion: the text, followed by a terminator if asked for. -/
def Done (T : List Byte) (nul : Bool) (inv : Bool) (enc : Encoding) (o : Out) : Prop :=
  o.ec = .ok ∧ o.invalid = inv ∧ o.encoding = enc ∧ o.size = T.length ∧ (o.null = true → o.data = []) ∧
    o.data.take (T ++ terminator utf8 nul).length = T ++ terminator utf8 nul

theorem grew_terminate {A : List Bool} {T : List Byte} {inv : Bool} {enc : Encoding} {o : Out} (h : Grew A T inv enc o) (nul : Bool) :
    ∃ o', terminate o nul = .ok o' ∧ (Done T nul inv enc o' ∨ Failed A enc o') := by
  cases nul with
  | false =>
    refine ⟨o, by rw [terminate, if_neg (by simp)], Or.inl ⟨h.ok, h.inv, h.enc, h.size, h.nul, ?_⟩⟩
    simp only [terminator, Bool.false_eq_true, if_false, List.append_nil]
    exact h.text
  | true =>
    obtain ⟨b, o1, e1, w1, w2⟩ := h.codepoint (c := 0) (by decide)
    rw [terminate, if_pos ⟨rfl, Or.inl h.ok⟩, e1, ok_bind]
    cases b with
    | false => exact ⟨o1, rfl, Or.inr (w2 rfl)⟩
    | true =>
      have w := w1 rfl
      refine ⟨_, rfl, Or.inl ⟨w.ok, w.inv, w.enc, ?_, w.nul, ?_⟩⟩
      · have := w.size
        show decrement o1.size = _
        rw [this, decrement, if_neg (by simp [utf8_zero])]; simp [utf8_zero]
      · simp only [terminator, if_true]
        exact w.text

theorem convertBytes_grew {A : List Bool} {unit : Nat} {read : List Byte → C (Nat × List Byte)} {v : Validate} {rep : List Byte} (hm : ModeOk v rep) (nul : Bool)
    {enc : Encoding} {s : List Byte} {ps : List (Option Nat)} (hr : Run unit read s ps []) {o : Out} (ho : Grew A [] false enc o) (h0 : o.data = []) :
    ∃ o', convertBytes unit read s v rep nul o = .ok o' ∧
      (Failed A enc o' ∨ (v = .error ∧ none ∈ ps ∧ o'.ec = .einval ∧ o'.null = true ∧ o'.data = [] ∧ o'.size = 0 ∧ o'.encoding = enc ∧ o'.invalid = true) ∨
        (¬ (v = .error ∧ none ∈ ps) ∧ Done (render (subst v rep) ps) nul (ps.contains none) enc o')) := by
  have ha : ∃ b o1, allocOut o (s.length + s.length / 2) = (b, o1) ∧ (b = true → Grew A [] false enc o1) ∧ (b = false → Failed A enc o1) := by
    rw [allocOut]
    by_cases h : o.canGrow = true ∧ o.data.length < s.length + s.length / 2
    · rw [if_pos h]
      obtain ⟨b, as, e, hsub, hwhy⟩ := nextAlloc_eq o
      rw [e]
      cases b with
      | true =>
        refine ⟨true, _, rfl, fun _ => ⟨ho.grow, ho.ok, ho.inv, ho.enc, rfl, by simp, by simp, fun _ => ⟨rfl, ?_⟩, fun hc => by simp at hc, fun x hx => ho.sub _ (hsub x hx)⟩,
          fun hc => by (cases hc)⟩
        simp; have := h.2; simp [h0] at this; omega
      | false => exact ⟨false, _, rfl, fun hc => by (cases hc), fun _ => ⟨rfl, rfl, rfl, ho.size, ho.enc, ho.sub _ (hwhy rfl)⟩⟩
    · rw [if_neg h]
      exact ⟨true, o, rfl, fun _ => ho, fun hc => by (cases hc)⟩
  obtain ⟨b, o1, e1, w1, w2⟩ := ha
  rw [convertBytes, modeOk_assert' hm, ok_bind]
  simp only [e1]
  cases b with
  | false => exact ⟨o1, rfl, Or.inl (w2 rfl)⟩
  | true =>
    rw [if_neg (by simp)]
    obtain ⟨e, e2, h⟩ := convertLoop_grew v rep hm hr s.length [] false o1 (Nat.le_refl _) (w1 rfl)
    rw [e2, ok_bind]
    rcases h with ⟨o2, rfl, h⟩ | ⟨h, h', o2, rfl, h''⟩ | ⟨h, o2, rfl, h''⟩
    · exact ⟨o2, rfl, Or.inl h⟩
    · exact ⟨o2, rfl, Or.inr (Or.inl ⟨h, h', h''⟩)⟩
    · rw [List.nil_append, Bool.false_or] at h''
      rw [convertEnd, if_neg (by simp)]
      obtain ⟨o3, e3, h3⟩ := grew_terminate h'' nul
      refine ⟨o3, e3, ?_⟩
      rcases h3 with h3 | h3
      · exact Or.inr (Or.inr ⟨h, h3⟩)
      · exact Or.inl h3

/-- The model's way of reading a scheme. -/
def readOf : Scheme → List Byte → C (Nat × List Byte)
  | .utf8, s => .ok (0, s)
  | .utf16be, s => read16 u16be s
  | .utf16le, s => read16 u16le s
  | .utf32be, s => u32be s
  | .utf32le, s => u32le s

theorem wideOf {sch : Scheme} (h : sch ≠ .utf8) : Wide sch sch.width (readOf sch) := by
  cases sch with
  | utf8 => exact absurd rfl h
  | utf16be => exact wide16be
  | utf16le => exact wide16le
  | utf32be => exact wide32be
  | utf32le => exact wide32le

/-- The bytes `b`, declared as `e`, are converted by reading `s` in the scheme, and the encoding found is `enc`. -/
def Selected (b : List Byte) (e : Encoding) (sch : Scheme) (s : List Byte) (enc : Encoding) : Prop :=
  ∀ v rep nul (o : Out), ModeOk v rep → ∃ (o1 : Out) (f : Out → Bool) (g : Out → Out), (∀ o', o'.ec = .ok → f o' = true) ∧
    ((o1 = o ∧ g = fun o' => { o' with encoding := enc }) ∨ (o1 = { o with encoding := enc } ∧ g = id)) ∧
    convertInternal b e v rep nul o = (convertBytes sch.width (readOf sch) s v rep nul o1 >>= fun o' => .ok (f o', g o'))

theorem known_selected {sch : Scheme} {bom s : List Byte} {plain withBom : Encoding} {expected : Bool} (hs : s ≠ []) (v : Validate) (rep : List Byte) (nul : Bool) (o : Out) :
    convertKnown bom sch.width (readOf sch) plain withBom expected (bom ++ s) v rep nul o =
      (convertBytes sch.width (readOf sch) s v rep nul o >>= fun o' => .ok (decide (o'.ec = .ok), { o' with encoding := withBom })) := by
  rw [convertKnown, if_pos (hasBom_true hs), List.drop_left]

theorem selected_marked {sch : Scheme} (hsch : sch ≠ .utf8) {e : Encoding} (he : e = sch.plain ∨ e = sch.marked ∨ e = .unknown) {s : List Byte} (hs : s ≠ [])
    (hu : e = .unknown → sch = .utf16le → ¬ ∃ t, t ≠ [] ∧ s = 0 :: 0 :: t) : Selected (sch.mark ++ s) e sch s sch.marked := by
  intro v rep nul o hm
  have hi : sch.mark ++ s ≠ [] := by simp [hs]
  have no3 : ∀ (a b : Byte) (l t : List Byte), a ≠ b → ∀ x, a :: l ≠ b :: (t ++ x) := by
    intro a b l t h x e; injection e with e _; exact h e
  by_cases hun : e = .unknown
  · subst hun
    refine ⟨{ o with encoding := sch.marked }, fun _ => true, id, fun _ _ => rfl, Or.inr ⟨rfl, rfl⟩, convertInternal_start hi hm ?_⟩
    cases sch with
    | utf8 => exact absurd rfl hsch
    | utf16be =>
      have b1 : hasBom utf8Bom (Scheme.utf16be.mark ++ s) = false := hasBom_false (by rintro ⟨t, _, h⟩; exact no3 _ _ _ _ (by decide) _ h)
      have b2 : hasBom utf32beBom (Scheme.utf16be.mark ++ s) = false := hasBom_false (by rintro ⟨t, _, h⟩; exact no3 _ _ _ _ (by decide) _ h)
      have b3 : hasBom utf32leBom (Scheme.utf16be.mark ++ s) = false := hasBom_false (by rintro ⟨t, _, h⟩; exact no3 _ _ _ _ (by decide) _ h)
      have b4 : hasBom utf16beBom (Scheme.utf16be.mark ++ s) = true := hasBom_true hs
      simp only [convertUnknown, b1, b2, b3, b4, if_true, Bool.false_eq_true, if_false]
      rfl
    | utf16le =>
      have b1 : hasBom utf8Bom (Scheme.utf16le.mark ++ s) = false := hasBom_false (by rintro ⟨t, _, h⟩; exact no3 _ _ _ _ (by decide) _ h)
      have b2 : hasBom utf32beBom (Scheme.utf16le.mark ++ s) = false := hasBom_false (by rintro ⟨t, _, h⟩; exact no3 _ _ _ _ (by decide) _ h)
      have b3 : hasBom utf32leBom (Scheme.utf16le.mark ++ s) = false := hasBom_false (by
        rintro ⟨t, h0, h⟩
        refine hu rfl rfl ⟨t, h0, ?_⟩
        injection h with _ h; injection h)
      have b4 : hasBom utf16beBom (Scheme.utf16le.mark ++ s) = false := hasBom_false (by rintro ⟨t, _, h⟩; exact no3 _ _ _ _ (by decide) _ h)
      have b5 : hasBom utf16leBom (Scheme.utf16le.mark ++ s) = true := hasBom_true hs
      simp only [convertUnknown, b1, b2, b3, b4, b5, if_true, Bool.false_eq_true, if_false]
      rfl
    | utf32be =>
      have b1 : hasBom utf8Bom (Scheme.utf32be.mark ++ s) = false := hasBom_false (by rintro ⟨t, _, h⟩; exact no3 _ _ _ _ (by decide) _ h)
      have b2 : hasBom utf32beBom (Scheme.utf32be.mark ++ s) = true := hasBom_true hs
      simp only [convertUnknown, b1, b2, if_true, Bool.false_eq_true, if_false]
      rfl
    | utf32le =>
      have b1 : hasBom utf8Bom (Scheme.utf32le.mark ++ s) = false := hasBom_false (by rintro ⟨t, _, h⟩; exact no3 _ _ _ _ (by decide) _ h)
      have b2 : hasBom utf32beBom (Scheme.utf32le.mark ++ s) = false := hasBom_false (by rintro ⟨t, _, h⟩; exact no3 _ _ _ _ (by decide) _ h)
      have b3 : hasBom utf32leBom (Scheme.utf32le.mark ++ s) = true := hasBom_true hs
      simp only [convertUnknown, b1, b2, b3, if_true, Bool.false_eq_true, if_false]
      rfl
  · refine ⟨o, fun o' => decide (o'.ec = .ok), _, fun o' h => by simpa using h, Or.inl ⟨rfl, rfl⟩, convertInternal_start hi hm ?_⟩
    cases sch with
    | utf8 => exact absurd rfl hsch
    | utf16be =>
      rcases he with rfl | rfl | rfl
      · exact known_selected (sch := .utf16be) hs v rep nul o
      · exact known_selected (sch := .utf16be) hs v rep nul o
      · exact absurd rfl hun
    | utf16le =>
      rcases he with rfl | rfl | rfl
      · exact known_selected (sch := .utf16le) hs v rep nul o
      · exact known_selected (sch := .utf16le) hs v rep nul o
      · exact absurd rfl hun
    | utf32be =>
      rcases he with rfl | rfl | rfl
      · exact known_selected (sch := .utf32be) hs v rep nul o
      · exact known_selected (sch := .utf32be) hs v rep nul o
      · exact absurd rfl hun
    | utf32le =>
      rcases he with rfl | rfl | rfl
      · exact known_selected (sch := .utf32le) hs v rep nul o
      · exact known_selected (sch := .utf32le) hs v rep nul o
      · exact absurd rfl hun

theorem plain_selected {sch : Scheme} {bom s : List Byte} {plain withBom : Encoding} (hs : ¬ ∃ t, t ≠ [] ∧ s = bom ++ t) (v : Validate) (rep : List Byte) (nul : Bool) (o : Out) :
    convertKnown bom sch.width (readOf sch) plain withBom false s v rep nul o =
      (convertBytes sch.width (readOf sch) s v rep nul o >>= fun o' => .ok (decide (o'.ec = .ok), { o' with encoding := plain })) := by
  rw [convertKnown, hasBom_false hs, if_neg (by simp), if_neg (by simp)]

theorem selected_plain {sch : Scheme} (hsch : sch ≠ .utf8) {s : List Byte} (h0 : s ≠ []) (hs : ¬ ∃ t, t ≠ [] ∧ s = sch.mark ++ t) : Selected s sch.plain sch s sch.plain := by
  intro v rep nul o hm
  refine ⟨o, fun o' => decide (o'.ec = .ok), _, fun o' h => by simpa using h, Or.inl ⟨rfl, rfl⟩, convertInternal_start h0 hm ?_⟩
  cases sch with
  | utf8 => exact absurd rfl hsch
  | utf16be => exact plain_selected (sch := .utf16be) hs v rep nul o
  | utf16le => exact plain_selected (sch := .utf16le) hs v rep nul o
  | utf32be => exact plain_selected (sch := .utf32be) hs v rep nul o
  | utf32le => exact plain_selected (sch := .utf32le) hs v rep nul o

end Tm.Uni
