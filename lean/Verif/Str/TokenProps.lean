import Verif.Str.Tokens
import Verif.Str.SearchProps

/-! # Properties of the tokenizer (C46), of trimming (C47) and of the word functions (C56) -/

namespace Tm.Str

/-- Memory for the examples: `",a;;bc\0"` at 0, `",;\0"` at 7. -/
private def exMem : List Byte := [44, 97, 59, 59, 98, 99, 0, 44, 59, 0]

private theorem exText : ZStr exMem 0 [44, 97, 59, 59, 98, 99] := ⟨⟨_, rfl⟩, by decide⟩
private theorem exDelims : ZStr exMem 7 [44, 59] := ⟨⟨_, rfl⟩, by decide⟩

/-- C46: calling `tmsu_next_token` until it returns false, using every token it writes, gives exactly the pieces of the
string between the delimiters, in order; the iteration ends after at most one call per character and one more. -/
theorem C46_next_token {mem s d : List Byte} {p q : Nat} (hp : ZStr mem p s) (hq : ZStr mem q d) :
    ∃ toks, doTokens (fun cur => nextToken mem cur q) (s.length + 1) p = .ok toks ∧
      toks.map (tokText mem) = pieces d s := by
  have := doTokens_spec (mem := mem) (d := d) (hi := p + s.length) (step := fun cur => nextToken mem cur q)
    hp.range.2 (s.length + 1) p (by omega) (by omega) (fun c h1 h2 => nextToken_step hp hq h1 h2)
  rw [hp.slice] at this
  exact this

example : pieces [44, 59] [44, 97, 59, 59, 98, 99] = [[], [97], [], [98, 99]] := by decide
example : doTokens (fun cur => nextToken exMem cur 7) 7 0 = .ok [(0, 0), (1, 2), (3, 3), (4, 6)] := by decide +kernel
example := C46_next_token exText exDelims

/-- C46: the same for `tmsu_next_token_n`, for all ranges and non-empty sets of delimiters. -/
theorem C46_next_token_n_partial {mem : List Byte} {a b f fl : Nat} (h : Range mem a b) (hf : Range mem f fl) (hne : f ≠ fl) :
    ∃ toks, doTokens (fun cur => nextTokenN mem cur b f fl) (b - a + 1) a = .ok toks ∧
      toks.map (tokText mem) = pieces (slice mem f fl) (slice mem a b) :=
  doTokens_spec h.2 (b - a + 1) a h.1 (by omega) (fun c _ h2 => nextTokenN_step h.2 hf hne h2)

example : doTokens (fun cur => nextTokenN exMem cur 6 7 9) 7 0 = .ok [(0, 0), (1, 2), (3, 3), (4, 6)] := by decide +kernel
example := C46_next_token_n_partial (mem := exMem) (a := 0) (b := 6) (f := 7) (fl := 9) ⟨by decide, by decide⟩
  ⟨by decide, by decide⟩ (by decide)

/-- C46 fails for an empty set of delimiters: `tmsu_next_token_n` should give the text as the only piece, but cuts it into
empty tokens. -/
theorem C46_not_next_token_n_empty : ¬ ∀ (mem : List Byte) (a b f fl : Nat), Range mem a b → Range mem f fl →
    ∃ toks, doTokens (fun cur => nextTokenN mem cur b f fl) (b - a + 1) a = .ok toks ∧
      toks.map (tokText mem) = pieces (slice mem f fl) (slice mem a b) := by
  intro h
  obtain ⟨toks, ht, hp⟩ := h exMem 4 6 7 7 ⟨by decide, by decide⟩ ⟨by decide, by decide⟩
  have : doTokens (fun cur => nextTokenN exMem cur 6 7 7) (6 - 4 + 1) 4 = .ok [(4, 4), (5, 5), (6, 6)] := by decide +kernel
  rw [this] at ht
  cases ht
  revert hp
  decide

/-- C46 for the usual loop `while (tmsu_next_token(...))`, which uses a token only when the call returned true: all pieces
but the last. -/
theorem C46_while_next_token_partial {mem s d : List Byte} {p q : Nat} (hp : ZStr mem p s) (hq : ZStr mem q d) :
    ∃ toks, whileTokens (fun cur => nextToken mem cur q) (s.length + 1) p = .ok toks ∧
      toks.map (tokText mem) = (pieces d s).dropLast := by
  have := whileTokens_spec (mem := mem) (d := d) (hi := p + s.length) (step := fun cur => nextToken mem cur q)
    hp.range.2 (s.length + 1) p (by omega) (by omega) (fun c h1 h2 => nextToken_step hp hq h1 h2)
  rw [hp.slice] at this
  exact this

example : whileTokens (fun cur => nextToken exMem cur 7) 7 0 = .ok [(0, 0), (1, 2), (3, 3)] := by decide +kernel
example := C46_while_next_token_partial exText exDelims

/-- C46 fails for the loop `while (tmsu_next_token(...))`: the last piece is never used, for any string. -/
theorem C46_not_while_next_token {mem s d : List Byte} {p q : Nat} (hp : ZStr mem p s) (hq : ZStr mem q d) :
    ¬ ∃ toks, whileTokens (fun cur => nextToken mem cur q) (s.length + 1) p = .ok toks ∧
      toks.map (tokText mem) = pieces d s := by
  rintro ⟨toks, ht, hm⟩
  obtain ⟨toks', ht', hm'⟩ := C46_while_next_token_partial hp hq
  rw [ht] at ht'
  cases ht'
  rw [hm] at hm'
  have := congrArg List.length hm'
  rw [List.length_dropLast] at this
  have : 0 < (pieces d s).length := List.length_pos_iff.2 (pieces_ne_nil d s)
  omega

example := C46_not_while_next_token exText exDelims

/-- C46: the loop `while (tmsu_next_token_skip_empty(...))` gives exactly the non-empty pieces, and ends. -/
theorem C46_next_token_skip_empty {mem s d : List Byte} {p q : Nat} (hp : ZStr mem p s) (hq : ZStr mem q d) :
    ∃ toks, whileTokens (fun cur => nextTokenSkipEmpty mem cur q) (s.length + 1) p = .ok toks ∧
      toks.map (tokText mem) = (pieces d s).filter (· ≠ []) := by
  have := skipTokens_spec (mem := mem) (d := d) (hi := p + s.length) (step := fun cur => nextTokenSkipEmpty mem cur q)
    hp.range.2 (s.length + 1) p (by omega) (by omega) (fun c h1 h2 => nextTokenSkipEmpty_step hp hq h1 h2)
  rw [hp.slice] at this
  obtain ⟨toks, h1, h2⟩ := this
  refine ⟨toks, h1, ?_⟩
  rw [h2, nonEmpty]
  congr 1
  funext x
  cases x <;> simp

example : whileTokens (fun cur => nextTokenSkipEmpty exMem cur 7) 7 0 = .ok [(1, 2), (4, 6)] := by decide +kernel
example := C46_next_token_skip_empty exText exDelims

/-- C46: the same for `tmsu_next_token_skip_empty_n`, for all ranges and non-empty sets of delimiters. -/
theorem C46_next_token_skip_empty_n_partial {mem : List Byte} {a b f fl : Nat} (h : Range mem a b) (hf : Range mem f fl)
    (hne : f ≠ fl) : ∃ toks, whileTokens (fun cur => nextTokenSkipEmptyN mem cur b f fl) (b - a + 1) a = .ok toks ∧
      toks.map (tokText mem) = (pieces (slice mem f fl) (slice mem a b)).filter (· ≠ []) := by
  obtain ⟨toks, h1, h2⟩ := skipTokens_spec (mem := mem) (d := slice mem f fl) (hi := b)
    (step := fun cur => nextTokenSkipEmptyN mem cur b f fl) h.2 (b - a + 1) a h.1 (by omega)
    (fun c _ h2 => nextTokenSkipEmptyN_step h.2 hf hne h2)
  refine ⟨toks, h1, ?_⟩
  rw [h2, nonEmpty]
  congr 1
  funext x
  cases x <;> simp

example : whileTokens (fun cur => nextTokenSkipEmptyN exMem cur 6 7 9) 7 0 = .ok [(1, 2), (4, 6)] := by decide +kernel
example := C46_next_token_skip_empty_n_partial (mem := exMem) (a := 0) (b := 6) (f := 7) (fl := 9) ⟨by decide, by decide⟩
  ⟨by decide, by decide⟩ (by decide)

/-- C46 fails for an empty set of delimiters: the loop over `tmsu_next_token_skip_empty_n` never ends on a non-empty
text, however many rounds it gets. -/
theorem C46_not_skip_empty_n_empty {mem : List Byte} {a b : Nat} (h : a < b) (f fuel : Nat) :
    whileTokens (fun cur => nextTokenSkipEmptyN mem cur b f f) fuel a = .error .diverge :=
  whileTokens_stuck (step := fun cur => nextTokenSkipEmptyN mem cur b f f) (cur := a) (skipEmptyN_stuck h) fuel

example : whileTokens (fun cur => nextTokenSkipEmptyN exMem cur 6 7 7) 1000 0 = .error .diverge :=
  C46_not_skip_empty_n_empty (by decide) 7 1000

/-! ## Trimming -/

/-- Memory for the examples: `" \t a b \n"` at 0, the whitespace literal at 8, spaces at 15. -/
private def wsMem : List Byte := [32, 9, 32, 97, 32, 98, 32, 10, 32, 9, 10, 11, 12, 13, 0, 32, 32, 0]

private theorem wsLit : slice wsMem 8 14 = whitespace := rfl

theorem slice_all {mem : List Byte} {a r : Nat} {P : Byte → Prop} (h : ∀ i, a ≤ i → i < r → ByteAt mem P i) :
    ∀ c ∈ slice mem a r, P c := by
  intro c hc
  obtain ⟨i, h1, h2, h3⟩ := mem_slice.1 hc
  obtain ⟨x, hx, hP⟩ := h i h1 h2
  rw [h3] at hx
  cases hx
  exact hP

theorem byteAt_not {mem : List Byte} {P : Byte → Prop} {i : Nat} (hi : i < mem.length)
    (h : ¬ ByteAt mem (fun x => ¬ P x) i) : ByteAt mem P i := by
  rw [byteAt_iff hi] at h ⊢
  exact Classical.not_not.1 h

theorem slice_head {mem : List Byte} {r b : Nat} {P : Byte → Prop} (hb : b ≤ mem.length) (h : r < b → ByteAt mem P r) :
    ∀ c, (slice mem r b).head? = some c → P c := by
  intro c hc
  by_cases hr : r < b
  · rw [slice_cons hr hb, List.head?_cons, Option.some.injEq] at hc
    have := (byteAt_iff (by omega)).1 (h hr)
    rw [hc] at this
    exact this
  · have : slice mem r b = [] := List.eq_nil_of_length_eq_zero (by rw [length_slice hb]; omega)
    rw [this] at hc
    simp at hc

theorem slice_last {mem : List Byte} {a r : Nat} {P : Byte → Prop} (hr : r ≤ mem.length) (h : a < r → ByteAt mem P (r - 1)) :
    ∀ c, (slice mem a r).getLast? = some c → P c := by
  intro c hc
  by_cases har : a < r
  · rw [List.getLast?_eq_getElem?, length_slice hr, getElem?_slice, if_pos (by omega)] at hc
    obtain ⟨x, hx, hP⟩ := h har
    rw [show a + (r - a - 1) = r - 1 by omega, hx] at hc
    cases hc
    exact hP
  · have : slice mem a r = [] := List.eq_nil_of_length_eq_zero (by rw [length_slice hr]; omega)
    rw [this] at hc
    simp at hc

/-- Whitespace: a space, a horizontal or vertical tab, a line feed, a form feed or a carriage return. -/
def IsSpace (c : Byte) : Prop := c.toNat = 32 ∨ (9 ≤ c.toNat ∧ c.toNat ≤ 13)

theorem mem_whitespace {c : Byte} : c ∈ whitespace ↔ IsSpace c := by
  unfold whitespace IsSpace
  simp only [List.mem_cons, List.not_mem_nil, or_false]
  constructor
  · rintro (rfl | rfl | rfl | rfl | rfl | rfl) <;> decide
  · intro h
    simp only [← BitVec.toNat_inj]
    show c.toNat = 32 ∨ c.toNat = 9 ∨ c.toNat = 10 ∨ c.toNat = 11 ∨ c.toNat = 12 ∨ c.toNat = 13
    omega

/-- The text is `w` followed by `t`, `w` is whitespace and `t` does not start with whitespace. -/
def TrimmedLeft (text t : List Byte) : Prop :=
  ∃ w, text = w ++ t ∧ (∀ c ∈ w, IsSpace c) ∧ ∀ c, t.head? = some c → ¬ IsSpace c

/-- The text is `t` followed by `w`, `w` is whitespace and `t` does not end with whitespace. -/
def TrimmedRight (text t : List Byte) : Prop :=
  ∃ w, text = t ++ w ∧ (∀ c ∈ w, IsSpace c) ∧ ∀ c, t.getLast? = some c → ¬ IsSpace c

theorem trimmedLeft_intro {text t w : List Byte} (e : text = w ++ t) (h1 : ∀ c ∈ w, c ∈ whitespace)
    (h2 : ∀ c, t.head? = some c → c ∉ whitespace) : TrimmedLeft text t :=
  ⟨w, e, fun c hc => mem_whitespace.1 (h1 c hc), fun c hc hs => h2 c hc (mem_whitespace.2 hs)⟩

theorem trimmedRight_intro {text t w : List Byte} (e : text = t ++ w) (h1 : ∀ c ∈ w, c ∈ whitespace)
    (h2 : ∀ c, t.getLast? = some c → c ∉ whitespace) : TrimmedRight text t :=
  ⟨w, e, fun c hc => mem_whitespace.1 (h1 c hc), fun c hc hs => h2 c hc (mem_whitespace.2 hs)⟩

theorem slice_split {mem : List Byte} {a b c : Nat} (h1 : a ≤ b) (h2 : b ≤ c) :
    slice mem a c = slice mem a b ++ slice mem b c := by
  have e : c - a = (b - a) + (c - b) := by omega
  rw [slice, slice, slice, e, List.take_add, List.drop_drop, Nat.add_sub_cancel' h1]

theorem isFirst_bounds {P : Nat → Prop} {a b r : Nat} (hab : a ≤ b) (h : IsFirst P a b r) : a ≤ r ∧ r ≤ b ∧
    (r < b → P r) ∧ ∀ i, a ≤ i → i < r → ¬ P i := by
  rcases h with ⟨h1, h2, h3, h4⟩ | ⟨rfl, h2⟩
  · exact ⟨h1, by omega, fun _ => h3, h4⟩
  · exact ⟨hab, Nat.le_refl _, fun h => by omega, h2⟩

theorem trimmedLeft_of_isFirst {mem : List Byte} {a b r : Nat} (h : Range mem a b)
    (hr : IsFirst (ByteAt mem (· ∉ whitespace)) a b r) : TrimmedLeft (slice mem a b) (slice mem r b) := by
  have := h.2
  obtain ⟨h1, h2, h3, h4⟩ := isFirst_bounds h.1 hr
  exact trimmedLeft_intro (slice_split h1 h2) (slice_all (fun i hi hir => byteAt_not (by omega) (h4 i hi hir)))
    (slice_head h.2 h3)

/-- C47: `tmsu_trim_left_n` removes the leading whitespace and nothing else, for all ranges. `ws` is the address of the
library's whitespace literal. -/
theorem C47_trim_left_n {mem : List Byte} {ws a b : Nat} (h : Range mem a b) (hw : Range mem ws (ws + 6))
    (hws : slice mem ws (ws + 6) = whitespace) :
    ∃ r, trimLeftN mem ws a b = .ok r ∧ a ≤ r ∧ r ≤ b ∧ TrimmedLeft (slice mem a b) (slice mem r b) := by
  obtain ⟨r, hr, hf⟩ := C44_find_first_not_of_n h hw
  rw [hws] at hf
  obtain ⟨h1, h2, -⟩ := isFirst_bounds h.1 hf
  exact ⟨r, hr, h1, h2, trimmedLeft_of_isFirst h hf⟩

example : trimLeftN wsMem 8 0 8 = .ok 3 := rfl
example := C47_trim_left_n (mem := wsMem) (ws := 8) (a := 0) (b := 8) ⟨by decide, by decide⟩ ⟨by decide, by decide⟩ rfl

/-- C47: `tmsu_trim_left`, for all NUL-terminated strings. -/
theorem C47_trim_left {mem s : List Byte} {ws p : Nat} (hp : ZStr mem p s) (hw : ZStr mem ws whitespace) :
    ∃ r t, trimLeft mem ws p = .ok r ∧ ZStr mem r t ∧ TrimmedLeft s t := by
  obtain ⟨r, hr, hf⟩ := C44_find_first_not_of hp hw
  obtain ⟨h1, h2, -⟩ := isFirst_bounds hp.range.1 hf
  have hz := hp.drop (k := r - p) (by omega)
  rw [show p + (r - p) = r by omega] at hz
  refine ⟨r, _, hr, hz, ?_⟩
  have ht := trimmedLeft_of_isFirst hp.range hf
  have e := hz.slice
  rw [List.length_drop, show r + (s.length - (r - p)) = p + s.length by omega] at e
  rw [hp.slice, e] at ht
  exact ht

example : trimLeft wsMem 8 6 = .ok 14 := rfl
example : ∃ r t, trimLeft [32, 97, 0, 32, 9, 10, 11, 12, 13, 0] 3 0 = .ok r ∧ ZStr [32, 97, 0, 32, 9, 10, 11, 12, 13, 0] r t ∧
    TrimmedLeft [32, 97] t := C47_trim_left ⟨⟨_, rfl⟩, by decide⟩ ⟨⟨_, rfl⟩, by decide⟩

/-- C47: `tmsu_trim_right_n` removes the trailing whitespace and nothing else, for all ranges. -/
theorem C47_trim_right_n {mem : List Byte} {ws a b : Nat} (h : Range mem a b) (hw : Range mem ws (ws + 6))
    (hws : slice mem ws (ws + 6) = whitespace) :
    ∃ r, trimRightN mem ws a b = .ok r ∧ a ≤ r ∧ r ≤ b ∧ TrimmedRight (slice mem a b) (slice mem a r) := by
  have h1 := h.1; have h2 := h.2
  obtain ⟨r, hr, hf⟩ := C44_find_last_not_of_n_ex h hw none
  rw [hws] at hf
  rw [trimRightN, hr, ok_bind]
  rcases hf with ⟨k, rfl, hk1, hk2, hk3, hk4⟩ | ⟨rfl, hn⟩
  · refine ⟨k + 1, rfl, by omega, by omega, trimmedRight_intro (w := slice mem (k + 1) b) (slice_split (by omega) (by omega)) ?_ ?_⟩
    · exact slice_all (fun i hi hib => byteAt_not (by omega) (hk4 i (by omega) hib))
    · exact slice_last (by omega) (fun _ => hk3)
  · refine ⟨a, rfl, by omega, by omega, trimmedRight_intro (w := slice mem a b) (by rw [slice_self]; rfl) ?_ (by rw [slice_self]; simp)⟩
    exact slice_all (fun i hi hib => byteAt_not (by omega) (hn i hi hib))

example : trimRightN wsMem 8 0 8 = .ok 6 := rfl
example := C47_trim_right_n (mem := wsMem) (ws := 8) (a := 0) (b := 8) ⟨by decide, by decide⟩ ⟨by decide, by decide⟩ rfl

/-- C47, for a text that is empty or has a character other than whitespace: `tmsu_trim_n` removes the whitespace on both
sides and nothing else. -/
theorem C47_trim_n_partial {mem : List Byte} {ws a b : Nat} (h : Range mem a b) (hw : Range mem ws (ws + 6))
    (hws : slice mem ws (ws + 6) = whitespace) (hne : a = b ∨ ∃ c ∈ slice mem a b, ¬ IsSpace c) :
    ∃ l r, trimN mem ws a b = .ok (l, r) ∧ a ≤ l ∧ l ≤ r ∧ r ≤ b ∧ TrimmedLeft (slice mem a r) (slice mem l r) ∧
      TrimmedRight (slice mem l b) (slice mem l r) := by
  have h1 := h.1; have h2 := h.2
  obtain ⟨l, hl, hf⟩ := C44_find_first_not_of_n h hw
  obtain ⟨rr, hr, hg⟩ := C44_find_last_not_of_n_ex h hw none
  rw [hws] at hf hg
  have hl' : trimLeftN mem ws a b = .ok l := hl
  have hb := isFirst_bounds h1 hf
  rcases hne with rfl | ⟨c, hc, hcs⟩
  · obtain rfl : l = a := by omega
    rcases hg with ⟨k, _, hk1, hk2, _⟩ | ⟨rfl, _⟩
    · omega
    · refine ⟨l, l, ?_, by omega, by omega, by omega, ⟨[], by simp, by simp, by rw [slice_self]; simp⟩,
        ⟨[], by simp, by simp, by rw [slice_self]; simp⟩⟩
      rw [trimN, hl', ok_bind, trimRightN, hr]
      simp [assert]
  · have hcw : c ∉ whitespace := fun hm => hcs (mem_whitespace.1 hm)
    obtain ⟨i, hi1, hi2, hi3⟩ := mem_slice.1 hc
    have hci : ByteAt mem (· ∉ whitespace) i := ⟨c, hi3, hcw⟩
    have hli : l ≤ i := by
      rcases Nat.lt_or_ge i l with hlt | hge
      · exact absurd hci (hb.2.2.2 i hi1 hlt)
      · exact hge
    rcases hg with ⟨k, rfl, hk1, hk2, hk3, hk4⟩ | ⟨rfl, hn⟩
    · have hik : i ≤ k := by
        rcases Nat.lt_or_ge k i with hlt | hge
        · exact absurd hci (hk4 i hlt hi2)
        · exact hge
      refine ⟨l, k + 1, ?_, hb.1, by omega, by omega, ?_, ?_⟩
      · rw [trimN, hl', ok_bind, trimRightN, hr]
        simp only [ok_bind]
        rw [assert_ok (by simp; omega), ok_bind]
      · refine trimmedLeft_intro (slice_split hb.1 (by omega))
          (slice_all (fun j hj hjl => byteAt_not (by omega) (hb.2.2.2 j hj hjl))) ?_
        exact slice_head (by omega) (fun _ => hb.2.2.1 (by omega))
      · refine trimmedRight_intro (slice_split (by omega) (by omega))
          (slice_all (fun j hj hjb => byteAt_not (by omega) (hk4 j (by omega) hjb))) ?_
        exact slice_last (by omega) (fun _ => hk3)
    · exact absurd hci (hn i hi1 hi2)

example : trimN wsMem 8 0 8 = .ok (3, 6) := rfl
example := C47_trim_n_partial (mem := wsMem) (ws := 8) (a := 0) (b := 8) ⟨by decide, by decide⟩ ⟨by decide, by decide⟩ rfl
  (Or.inr ⟨97, by decide, by unfold IsSpace; decide⟩)

/-- C47 fails for `tmsu_trim_n` on a non-empty text of whitespace: the left end is moved to the right of the right end,
and the assertion of `tmsu_view_n` fails. -/
theorem C47_not_trim_n {mem : List Byte} {ws a b : Nat} (h : Range mem a b) (hw : Range mem ws (ws + 6))
    (hws : slice mem ws (ws + 6) = whitespace) (hab : a < b) (hall : ∀ c ∈ slice mem a b, IsSpace c) :
    trimN mem ws a b = .error .assertion := by
  have h1 := h.1; have h2 := h.2
  obtain ⟨l, hl, hf⟩ := C44_find_first_not_of_n h hw
  obtain ⟨rr, hr, hg⟩ := C44_find_last_not_of_n_ex h hw none
  rw [hws] at hf hg
  have hl' : trimLeftN mem ws a b = .ok l := hl
  have hno : ∀ i, a ≤ i → i < b → ¬ ByteAt mem (· ∉ whitespace) i := by
    rintro i hi hib ⟨x, hx, hxw⟩
    exact hxw (mem_whitespace.2 (hall x (mem_slice.2 ⟨i, hi, hib, hx⟩)))
  have hlb : l = b := by
    rcases hf with ⟨hf1, hf2, hf3, _⟩ | ⟨hf1, _⟩
    · exact absurd hf3 (hno l hf1 hf2)
    · exact hf1
  have hrn : rr = none := by
    rcases hg with ⟨k, _, hk1, hk2, hk3, _⟩ | ⟨hg1, _⟩
    · exact absurd hk3 (hno k hk1 hk2)
    · exact hg1
  subst hrn
  rw [trimN, hl', ok_bind, trimRightN, hr]
  simp only [ok_bind]
  rw [assert, if_neg (by simp; omega), error_bind]

example : trimN wsMem 8 15 17 = .error .assertion :=
  C47_not_trim_n ⟨by decide, by decide⟩ ⟨by decide, by decide⟩ rfl (by decide) (by unfold IsSpace; decide)

/-! ## Words -/

/-- C56, restricted to a non-empty set of separators: `tmsu_find_word_end_n_ex` skips the leading whitespace and returns the first
separator after it, or the end. -/
theorem C56_find_word_end_partial {mem : List Byte} {ws a b f fl : Nat} (h : Range mem a b) (hw : Range mem ws (ws + 6))
    (hws : slice mem ws (ws + 6) = whitespace) (hf : Range mem f fl) (hne : f ≠ fl) :
    ∃ l r, findWordEndNEx mem ws a b f fl = .ok r ∧ a ≤ l ∧ l ≤ r ∧ r ≤ b ∧
      TrimmedLeft (slice mem a b) (slice mem l b) ∧ (∀ c ∈ slice mem l r, c ∉ slice mem f fl) ∧
      (r < b → ByteAt mem (· ∈ slice mem f fl) r) := by
  have h2 := h.2
  obtain ⟨l, hl, hl1, hl2, ht⟩ := C47_trim_left_n h hw hws
  obtain ⟨r, hr, hfr⟩ := findFirstOfN_nonempty (mem := mem) (a := l) (b := b) ⟨hl2, h.2⟩ hf hne
  obtain ⟨h3, h4, h5, h6⟩ := isFirst_bounds hl2 hfr
  refine ⟨l, r, by rw [findWordEndNEx, hl, ok_bind, hr], hl1, h3, h4, ht, ?_, h5⟩
  refine slice_all (fun i hi hir => ?_)
  rw [byteAt_iff (by omega)]
  intro hm
  exact h6 i hi hir (by rw [byteAt_iff (by omega)]; exact hm)

example : findWordEndNEx wsMem 8 0 8 8 14 = .ok 4 := rfl
example := C56_find_word_end_partial (mem := wsMem) (ws := 8) (a := 0) (b := 8) (f := 8) (fl := 14) ⟨by decide, by decide⟩
  ⟨by decide, by decide⟩ rfl ⟨by decide, by decide⟩ (by decide)

/-- C56 fails for an empty set of separators: the result is the first character of the word, not the end of the text. -/
theorem C56_not_find_word_end_empty : ∃ mem ws a b f r, Range mem a b ∧ Range mem ws (ws + 6) ∧ slice mem ws (ws + 6) = whitespace ∧
    Range mem f f ∧ findWordEndNEx mem ws a b f f = .ok r ∧ r < b ∧ ¬ ByteAt mem (· ∈ slice mem f f) r :=
  ⟨wsMem, 8, 0, 8, 0, 3, ⟨by decide, by decide⟩, ⟨by decide, by decide⟩, wsLit, ⟨by decide, by decide⟩, rfl, by decide, by
    rw [byteAt_iff (by decide)]; decide⟩

/-- C56: `tmsu_find_word_start_n_ex` skips the trailing whitespace and returns the position after the last separator before
it, or the start. -/
theorem C56_find_word_start {mem : List Byte} {ws a b f fl : Nat} (h : Range mem a b) (hw : Range mem ws (ws + 6))
    (hws : slice mem ws (ws + 6) = whitespace) (hf : Range mem f fl) :
    ∃ l r, findWordStartNEx mem ws a b f fl = .ok r ∧ a ≤ r ∧ r ≤ l ∧ l ≤ b ∧
      TrimmedRight (slice mem a b) (slice mem a l) ∧ (∀ c ∈ slice mem r l, c ∉ slice mem f fl) ∧
      (a < r → ByteAt mem (· ∈ slice mem f fl) (r - 1)) := by
  have h2 := h.2
  obtain ⟨l, hl, hl1, hl2, ht⟩ := C47_trim_right_n h hw hws
  rw [findWordStartNEx, hl]
  simp only [ok_bind]
  by_cases hal : a = l
  · subst hal
    rw [if_neg (by simp)]
    exact ⟨a, a, rfl, by omega, by omega, hl2, ht, by rw [slice_self]; simp, by omega⟩
  · rw [if_pos hal]
    obtain ⟨r, hr, hg⟩ := C44_find_last_of_n_ex (mem := mem) (a := a) (b := l) ⟨hl1, by omega⟩ hf none
    rw [hr, ok_bind]
    rcases hg with ⟨k, rfl, hk1, hk2, hk3, hk4⟩ | ⟨rfl, hn⟩
    · refine ⟨l, k + 1, rfl, by omega, by omega, hl2, ht, ?_, fun _ => hk3⟩
      refine slice_all (fun i hi hir => ?_)
      rw [byteAt_iff (by omega)]
      intro hm
      exact hk4 i (by omega) hir (by rw [byteAt_iff (by omega)]; exact hm)
    · refine ⟨l, a, rfl, by omega, hl1, hl2, ht, ?_, by omega⟩
      refine slice_all (fun i hi hir => ?_)
      rw [byteAt_iff (by omega)]
      intro hm
      exact hn i hi hir (by rw [byteAt_iff (by omega)]; exact hm)

example : findWordStartNEx wsMem 8 0 8 8 14 = .ok 5 := rfl
example := C56_find_word_start (mem := wsMem) (ws := 8) (a := 0) (b := 8) (f := 8) (fl := 14) ⟨by decide, by decide⟩
  ⟨by decide, by decide⟩ rfl ⟨by decide, by decide⟩

end Tm.Str
