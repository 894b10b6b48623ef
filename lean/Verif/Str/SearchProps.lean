import Verif.Str.Unescaped
import Verif.Str.CaseLemmas

/-!
# Properties of the search functions (C44, C45)

`IsFirst P lo hi r` / `IsLast P lo hi notFound r` (see `Verif.Str.Spec`) say that `r` is the first / last position
of `[lo, hi)` with `P`, or `hi` / `notFound` if there is none.
-/

namespace Tm.Str

/-- Memory for the examples: `"abcabc\0"` at 0, `"bc\0"` at 7, `"\0"` at 10, `"xxaB\0"` at 11. -/
private def exMem : List Byte := [97, 98, 99, 97, 98, 99, 0, 98, 99, 0, 0, 120, 120, 97, 66, 0]

private theorem exText : ZStr exMem 0 [97, 98, 99, 97, 98, 99] := ⟨⟨_, rfl⟩, by decide⟩
private theorem exNeedle : ZStr exMem 7 [98, 99] := ⟨⟨_, rfl⟩, by decide⟩
private theorem exEmpty : ZStr exMem 10 [] := ⟨⟨_, rfl⟩, by decide⟩

/-! ## Single characters -/

/-- C44: `tmsu_find_char` returns the first position of the character, or the terminator. -/
theorem C44_find_char {mem s : List Byte} {p : Nat} (hp : ZStr mem p s) (c : Byte) :
    ∃ r, findChar mem p c = .ok r ∧ IsFirst (ByteAt mem (· = c)) p (p + s.length) r := findChar_spec c hp

example : findChar exMem 0 99 = .ok 2 := rfl
example : ∃ r, findChar exMem 0 99 = .ok r ∧ IsFirst (ByteAt exMem (· = 99)) 0 6 r := C44_find_char exText 99

/-- C44: `tmsu_find_char2` returns the first position of one of the two characters, or the terminator. -/
theorem C44_find_char2 {mem s : List Byte} {p : Nat} (hp : ZStr mem p s) (c d : Byte) :
    ∃ r, findChar2 mem p c d = .ok r ∧ IsFirst (ByteAt mem (fun x => x = c ∨ x = d)) p (p + s.length) r :=
  findChar2_spec c d hp

example : findChar2 exMem 0 99 98 = .ok 1 := rfl
example := C44_find_char2 exText 99 98

/-- C44: `tmsu_find_last_char` returns the last position of the character, or the terminator. -/
theorem C44_find_last_char {mem s : List Byte} {p : Nat} (hp : ZStr mem p s) (c : Byte) :
    ∃ r, findLastChar mem p c = .ok r ∧
      IsLast (ByteAt mem (· = c)) p (p + s.length) (some (p + s.length)) (some r) := by
  rw [findLastChar, strlen_eq hp, ok_bind, findLastCharN]
  exact findLastCharNEx_spec hp.range c _

example : findLastChar exMem 0 97 = .ok 3 := rfl
example := C44_find_last_char exText 97

/-- C44: `tmsu_find_char_n` on every range. -/
theorem C44_find_char_n {mem : List Byte} {a b : Nat} (h : Range mem a b) (c : Byte) :
    ∃ r, findCharN mem a b c = .ok r ∧ IsFirst (ByteAt mem (· = c)) a b r := findCharN_spec h c

example : findCharN exMem 1 6 97 = .ok 3 := rfl
example := C44_find_char_n (mem := exMem) (a := 1) (b := 6) ⟨by decide, by decide⟩ 97

/-- C44: `tmsu_find_char2_n` on every range. -/
theorem C44_find_char2_n {mem : List Byte} {a b : Nat} (h : Range mem a b) (c d : Byte) :
    ∃ r, findChar2N mem a b c d = .ok r ∧ IsFirst (ByteAt mem (fun x => x = c ∨ x = d)) a b r := findChar2N_spec h c d

example : findChar2N exMem 1 6 97 99 = .ok 2 := rfl
example := C44_find_char2_n (mem := exMem) (a := 1) (b := 6) ⟨by decide, by decide⟩ 97 99

/-- C44: `tmsu_find_last_char_n_ex` on every range, for every `not_found`. -/
theorem C44_find_last_char_n_ex {mem : List Byte} {a b : Nat} (h : Range mem a b) (c : Byte) (nf : Nat) :
    ∃ r, findLastCharNEx mem a b c nf = .ok r ∧ IsLast (ByteAt mem (· = c)) a b (some nf) (some r) :=
  findLastCharNEx_spec h c nf

/-- C44: `tmsu_find_last_char_n` on every range. -/
theorem C44_find_last_char_n {mem : List Byte} {a b : Nat} (h : Range mem a b) (c : Byte) :
    ∃ r, findLastCharN mem a b c = .ok r ∧ IsLast (ByteAt mem (· = c)) a b (some b) (some r) :=
  findLastCharNEx_spec h c b

example : findLastCharN exMem 0 6 98 = .ok 4 := rfl
example := C44_find_last_char_n (mem := exMem) (a := 0) (b := 6) ⟨by decide, by decide⟩ 98

/-- C44: `tmsu_find_char_ignore_case_ansi`. -/
theorem C44_find_char_ignore_case {mem s : List Byte} {p : Nat} (hp : ZStr mem p s) (c : Byte) :
    ∃ r, findCharIgnoreCase mem p c = .ok r ∧ IsFirst (ByteAt mem (SameLetter · c)) p (p + s.length) r :=
  findCharIgnoreCase_spec hp c

example : findCharIgnoreCase exMem 0 66 = .ok 1 := rfl
example := C44_find_char_ignore_case exText 66

/-- C44: `tmsu_find_char_ignore_case_ansi_n`. -/
theorem C44_find_char_ignore_case_n {mem : List Byte} {a b : Nat} (h : Range mem a b) (c : Byte) :
    ∃ r, findCharIgnoreCaseN mem a b c = .ok r ∧ IsFirst (ByteAt mem (SameLetter · c)) a b r :=
  findCharIgnoreCaseN_spec h c

example : findCharIgnoreCaseN exMem 2 6 66 = .ok 4 := rfl
example := C44_find_char_ignore_case_n (mem := exMem) (a := 2) (b := 6) ⟨by decide, by decide⟩ 66

/-! ## Texts -/

theorem occurs_nil {mem : List Byte} {b a : Nat} (h : a ≤ b) : Occurs mem b [] a := by
  refine ⟨by simpa using h, ?_⟩
  rw [List.length_nil, Nat.add_zero, slice_self]

theorem isFirst_start {P : Nat → Prop} {a b : Nat} (h : a ≤ b) (hp : P a) : IsFirst P a b a := by
  by_cases hab : a = b
  · subst hab
    exact Or.inr ⟨rfl, by intros; omega⟩
  · exact Or.inl ⟨Nat.le_refl _, by omega, hp, by intros; omega⟩

/-- C44: `tmsu_find_n` returns the first occurrence of the searched text, for all ranges (an empty text occurs at once). -/
theorem C44_find_n {mem : List Byte} {a b f fl : Nat} (h : Range mem a b) (hf : Range mem f fl) :
    ∃ r, findN mem a b f fl = .ok r ∧ IsFirst (Occurs mem b (slice mem f fl)) a b r := by
  obtain ⟨r, hr, h1, h2⟩ := findN_spec h hf
  refine ⟨r, hr, ?_⟩
  by_cases hff : f = fl
  · obtain rfl := h2 hff
    subst hff
    rw [slice_self]
    exact isFirst_start h.1 (occurs_nil h.1)
  · exact h1 (by have := hf.1; omega)

example : findN exMem 0 6 7 9 = .ok 1 := rfl
example : findN exMem 2 6 7 9 = .ok 4 := rfl
example := C44_find_n (mem := exMem) (a := 2) (b := 6) (f := 7) (fl := 9) ⟨by decide, by decide⟩ ⟨by decide, by decide⟩

/-- C44: `tmsu_find` returns the first occurrence of the searched text, for all NUL-terminated strings. -/
theorem C44_find {mem s d : List Byte} {p q : Nat} (hp : ZStr mem p s) (hq : ZStr mem q d) :
    ∃ r, findZ mem p q = .ok r ∧ IsFirst (Occurs mem (p + s.length) d) p (p + s.length) r := by
  obtain ⟨r, hr, h1, h2⟩ := findZ_spec hp hq
  refine ⟨r, hr, ?_⟩
  by_cases hd : d = []
  · obtain rfl := h2 hd
    subst hd
    exact isFirst_start (by omega) (occurs_nil (by omega))
  · exact h1 hd

example : findZ exMem 0 7 = .ok 1 := rfl
example := C44_find exText exNeedle

theorem occursIgnoreCase_nil {mem : List Byte} {b a : Nat} (h : a ≤ b) : OccursIgnoreCase mem b [] a :=
  ⟨by simpa using h, by intro k hk; simp at hk⟩

/-- C44: `tmsu_find_ignore_case_ansi_n`, for all ranges. -/
theorem C44_find_ignore_case_n {mem : List Byte} {a b f fl : Nat} (h : Range mem a b) (hf : Range mem f fl) :
    ∃ r, findIgnoreCaseN mem a b f fl = .ok r ∧ IsFirst (OccursIgnoreCase mem b (slice mem f fl)) a b r := by
  obtain ⟨r, hr, h1, h2⟩ := findIgnoreCaseN_spec h hf
  refine ⟨r, hr, ?_⟩
  by_cases hff : f = fl
  · obtain rfl := h2 hff
    subst hff
    rw [slice_self]
    exact isFirst_start h.1 (occursIgnoreCase_nil h.1)
  · exact h1 (by have := hf.1; omega)

example : findIgnoreCaseN exMem 1 6 13 15 = .ok 3 := by decide +kernel
example := C44_find_ignore_case_n (mem := exMem) (a := 1) (b := 6) (f := 13) (fl := 15) ⟨by decide, by decide⟩
  ⟨by decide, by decide⟩

/-- C44: `tmsu_find_ignore_case_ansi`, for all NUL-terminated strings. -/
theorem C44_find_ignore_case {mem s d : List Byte} {p q : Nat} (hp : ZStr mem p s) (hq : ZStr mem q d) :
    ∃ r, findIgnoreCase mem p q = .ok r ∧ IsFirst (OccursIgnoreCase mem (p + s.length) d) p (p + s.length) r := by
  rw [findIgnoreCase, strlen_eq hp, ok_bind, strlen_eq hq, ok_bind]
  have := C44_find_ignore_case_n hp.range hq.range
  rw [hq.slice] at this
  exact this

example : findIgnoreCase exMem 1 13 = .ok 3 := by decide +kernel
example := C44_find_ignore_case exText exNeedle

/-- C44: `tmsu_stristr` returns the first occurrence, or the null pointer (for a non-empty searched text). -/
theorem C44_stristr {mem s d : List Byte} {p q : Nat} (hp : ZStr mem p s) (hq : ZStr mem q d) (hd : d ≠ []) :
    ∃ r, stristr mem p q = .ok r ∧
      ((∃ k, r = some k ∧ p ≤ k ∧ k < p + s.length ∧ OccursIgnoreCase mem (p + s.length) d k ∧
          ∀ i, p ≤ i → i < k → ¬ OccursIgnoreCase mem (p + s.length) d i) ∨
        (r = none ∧ ∀ i, p ≤ i → ¬ OccursIgnoreCase mem (p + s.length) d i)) := by
  obtain ⟨r, hr, hf⟩ := C44_find_ignore_case hp hq
  rw [stristr, hr, ok_bind]
  rcases hf with ⟨h1, h2, h3, h4⟩ | ⟨rfl, h2⟩
  · have hg := hp.get (i := r - p) (by omega)
    rw [show p + (r - p) = r by omega] at hg
    rw [rd_of_get? hg, ok_bind, if_pos (hp.ne (by omega))]
    exact ⟨_, rfl, Or.inl ⟨r, rfl, h1, h2, h3, h4⟩⟩
  · rw [rd_of_get? hp.nul, ok_bind, if_neg (by simp)]
    refine ⟨_, rfl, Or.inr ⟨rfl, ?_⟩⟩
    intro i hi ho
    by_cases hlt : i < p + s.length
    · exact h2 i hi hlt ho
    · have h1 := ho.1
      have : 0 < d.length := List.length_pos_iff.2 hd
      omega

example : stristr exMem 0 7 = .ok (some 1) := by decide +kernel
example : stristr exMem 11 7 = .ok none := by decide +kernel
example := C44_stristr exText exNeedle (by decide)

/-- C44, restricted to a non-empty searched text: `tmsu_find_last_n_ex` returns the last occurrence. For an empty
searched text, which occurs everywhere, see `C44_not_find_last_empty`. -/
theorem C44_find_last_n_ex_partial {mem : List Byte} {a b f fl : Nat} (nf : Nat) (h : Range mem a b) (hf : Range mem f fl)
    (hne : f ≠ fl) : ∃ r, findLastNEx mem a b f fl nf = .ok r ∧
      IsLast (Occurs mem b (slice mem f fl)) a b (some nf) (some r) := by
  obtain ⟨r, hr, h1, _⟩ := findLastNEx_spec nf h hf
  exact ⟨r, hr, h1 (by have := hf.1; omega)⟩

/-- C44, restricted to a non-empty searched text: `tmsu_find_last_n`. -/
theorem C44_find_last_n_partial {mem : List Byte} {a b f fl : Nat} (h : Range mem a b) (hf : Range mem f fl)
    (hne : f ≠ fl) : ∃ r, findLastN mem a b f fl = .ok r ∧
      IsLast (Occurs mem b (slice mem f fl)) a b (some b) (some r) := C44_find_last_n_ex_partial b h hf hne

example : findLastN exMem 0 6 7 9 = .ok 4 := by decide +kernel
example := C44_find_last_n_partial (mem := exMem) (a := 0) (b := 6) (f := 7) (fl := 9) ⟨by decide, by decide⟩
  ⟨by decide, by decide⟩ (by decide)

/-- C44, restricted to a non-empty searched text: `tmsu_find_last`. -/
theorem C44_find_last_partial {mem s d : List Byte} {p q : Nat} (hp : ZStr mem p s) (hq : ZStr mem q d) (hd : d ≠ []) :
    ∃ r, findLastZ mem p q = .ok r ∧
      IsLast (Occurs mem (p + s.length) d) p (p + s.length) (some (p + s.length)) (some r) := by
  rw [findLastZ, strlen_eq hp, ok_bind, strlen_eq hq, ok_bind]
  have : 0 < d.length := List.length_pos_iff.2 hd
  have h := C44_find_last_n_partial hp.range hq.range (by omega)
  rw [hq.slice] at h
  exact h

example : findLastZ exMem 0 7 = .ok 4 := by decide +kernel
example := C44_find_last_partial exText exNeedle (by decide)

/-- C44 fails for an empty searched text: `tmsu_find_last_n` returns the first position of `"abcabc"`, although the empty
text also occurs later. -/
theorem C44_not_find_last_empty :
    ¬ ∀ (mem : List Byte) (a b f fl : Nat), Range mem a b → Range mem f fl →
      ∃ r, findLastN mem a b f fl = .ok r ∧ IsLast (Occurs mem b (slice mem f fl)) a b (some b) (some r) := by
  intro h
  obtain ⟨r, hr, hl⟩ := h exMem 0 6 7 7 ⟨by decide, by decide⟩ ⟨by decide, by decide⟩
  have : findLastN exMem 0 6 7 7 = .ok 0 := rfl
  rw [this] at hr
  cases hr
  rw [slice_self] at hl
  rcases hl with ⟨k, hk, _, _, _, h4⟩ | ⟨h1, _⟩
  · cases hk
    exact h4 1 (by omega) (by omega) (occurs_nil (by omega))
  · cases h1

/-! ## Sets of characters -/

/-- C44: `tmsu_find_first_of` returns the first position of a character of the set, or the terminator. -/
theorem C44_find_first_of {mem set s : List Byte} {q p : Nat} (hp : ZStr mem p s) (hq : ZStr mem q set) :
    ∃ r, findFirstOf mem p q = .ok r ∧ IsFirst (ByteAt mem (· ∈ set)) p (p + s.length) r := findFirstOf_spec hq hp

example : findFirstOf exMem 0 7 = .ok 1 := rfl
example := C44_find_first_of exText exNeedle

/-- C44: `tmsu_find_first_not_of` returns the first position of a character outside the set, or the terminator. -/
theorem C44_find_first_not_of {mem set s : List Byte} {q p : Nat} (hp : ZStr mem p s) (hq : ZStr mem q set) :
    ∃ r, findFirstNotOf mem p q = .ok r ∧ IsFirst (ByteAt mem (· ∉ set)) p (p + s.length) r := findFirstNotOf_spec hq hp

example : findFirstNotOf exMem 1 7 = .ok 3 := rfl
example := C44_find_first_not_of exText exNeedle

/-- C44: `tmsu_find_first_not_of_n`, for all ranges. -/
theorem C44_find_first_not_of_n {mem : List Byte} {a b f fl : Nat} (h : Range mem a b) (hf : Range mem f fl) :
    ∃ r, findFirstNotOfN mem a b f fl = .ok r ∧ IsFirst (ByteAt mem (· ∉ slice mem f fl)) a b r := by
  rw [findFirstNotOfN, assert_ok (by simpa using h.1), ok_bind, assert_ok (by simpa using hf.1), ok_bind,
    distance_ok hf.1, ok_bind]
  by_cases hff : fl - f = 0
  · rw [if_pos hff]
    obtain rfl : fl = f := by have := hf.1; omega
    refine ⟨a, rfl, ?_⟩
    rw [slice_self]
    by_cases hab : a = b
    · subst hab
      exact Or.inr ⟨rfl, by intros; omega⟩
    · refine isFirst_start h.1 ?_
      have := h.1; have := h.2
      rw [byteAt_iff (by omega)]; simp
  · rw [if_neg hff]
    obtain ⟨r, hr, hs⟩ := findFirstOfLoop_spec hf true (b - a) a (by have := h.1; have := h.2; omega)
    rw [Nat.add_sub_cancel' h.1] at hs
    exact ⟨r, hr, by simpa using hs⟩

example : findFirstNotOfN exMem 1 6 7 9 = .ok 3 := rfl
example := C44_find_first_not_of_n (mem := exMem) (a := 1) (b := 6) (f := 7) (fl := 9) ⟨by decide, by decide⟩
  ⟨by decide, by decide⟩

/-- C44, restricted to a non-empty set: `tmsu_find_first_of_n`. -/
theorem C44_find_first_of_n_partial {mem : List Byte} {a b f fl : Nat} (h : Range mem a b) (hf : Range mem f fl)
    (hne : f ≠ fl) : ∃ r, findFirstOfN mem a b f fl = .ok r ∧ IsFirst (ByteAt mem (· ∈ slice mem f fl)) a b r :=
  findFirstOfN_nonempty h hf hne

example : findFirstOfN exMem 3 6 7 9 = .ok 4 := rfl
example := C44_find_first_of_n_partial (mem := exMem) (a := 3) (b := 6) (f := 7) (fl := 9) ⟨by decide, by decide⟩
  ⟨by decide, by decide⟩ (by decide)

/-- C44 fails for an empty set: `tmsu_find_first_of_n` reports a match at the first position although no character is in
the set. -/
theorem C44_not_find_first_of_n_empty :
    ¬ ∀ (mem : List Byte) (a b f fl : Nat), Range mem a b → Range mem f fl →
      ∃ r, findFirstOfN mem a b f fl = .ok r ∧ IsFirst (ByteAt mem (· ∈ slice mem f fl)) a b r := by
  intro h
  obtain ⟨r, hr, hl⟩ := h exMem 0 6 7 7 ⟨by decide, by decide⟩ ⟨by decide, by decide⟩
  have : findFirstOfN exMem 0 6 7 7 = .ok 0 := rfl
  rw [this] at hr
  cases hr
  rw [slice_self] at hl
  rcases hl with ⟨_, _, h3, _⟩ | ⟨h1, _⟩
  · obtain ⟨x, _, hx⟩ := h3
    simp at hx
  · cases h1

theorem findLastOfLoop_isLast {mem : List Byte} {a b f fl : Nat} (h : Range mem a b) (hf : Range mem f fl) (stay : Bool)
    (nf : Option Nat) :
    ∃ n, findLastOfLoop mem a f (fl - f) stay (b - a) = .ok n ∧
      IsLast (ByteAt mem (fun x => ¬ (x ∈ slice mem f fl ↔ stay = true))) a b nf
        (if n = 0 then nf else some (a + n - 1)) := by
  have h1 := h.1; have h2 := h.2
  obtain ⟨k, hk, hle, hat, hno⟩ := findLastOfLoop_spec hf stay a (b - a) (by omega)
  refine ⟨k, hk, ?_⟩
  by_cases h0 : k = 0
  · rw [if_pos h0]
    exact Or.inr ⟨rfl, fun i hi hib => hno i (by omega) (by omega)⟩
  · rw [if_neg h0]
    exact Or.inl ⟨_, rfl, by omega, by omega, hat h0, fun i hi hib => hno i (by omega) (by omega)⟩

/-- C44: `tmsu_find_last_of_n_ex`, for all ranges and every `not_found` (`none` is the null pointer). -/
theorem C44_find_last_of_n_ex {mem : List Byte} {a b f fl : Nat} (h : Range mem a b) (hf : Range mem f fl)
    (nf : Option Nat) : ∃ r, findLastOfNEx mem a b f fl nf = .ok r ∧ IsLast (ByteAt mem (· ∈ slice mem f fl)) a b nf r := by
  rw [findLastOfNEx]
  by_cases hab : a = b
  · rw [if_pos hab]
    exact ⟨_, rfl, Or.inr ⟨rfl, by intros; omega⟩⟩
  · rw [if_neg hab, distance_ok hf.1, ok_bind]
    obtain ⟨n, hn, hl⟩ := findLastOfLoop_isLast h hf false nf
    rw [hn, ok_bind]
    refine ⟨if n = 0 then nf else some (a + n - 1), by split <;> rfl, ?_⟩
    simpa using hl

/-- C44: `tmsu_find_last_of_n`, for all ranges. -/
theorem C44_find_last_of_n {mem : List Byte} {a b f fl : Nat} (h : Range mem a b) (hf : Range mem f fl) :
    ∃ r, findLastOfN mem a b f fl = .ok r ∧ IsLast (ByteAt mem (· ∈ slice mem f fl)) a b (some b) r :=
  C44_find_last_of_n_ex h hf _

example : findLastOfN exMem 0 4 7 9 = .ok (some 2) := rfl
example : findLastOfN exMem 0 4 7 7 = .ok (some 4) := rfl
example := C44_find_last_of_n (mem := exMem) (a := 0) (b := 4) (f := 7) (fl := 9) ⟨by decide, by decide⟩
  ⟨by decide, by decide⟩

/-- C44: `tmsu_find_last_not_of_n_ex`, for all ranges and every `not_found`. -/
theorem C44_find_last_not_of_n_ex {mem : List Byte} {a b f fl : Nat} (h : Range mem a b) (hf : Range mem f fl)
    (nf : Option Nat) :
    ∃ r, findLastNotOfNEx mem a b f fl nf = .ok r ∧ IsLast (ByteAt mem (· ∉ slice mem f fl)) a b nf r := by
  rw [findLastNotOfNEx]
  by_cases hab : a = b
  · rw [if_pos hab]
    exact ⟨_, rfl, Or.inr ⟨rfl, by intros; omega⟩⟩
  · rw [if_neg hab, distance_ok hf.1, ok_bind]
    obtain ⟨n, hn, hl⟩ := findLastOfLoop_isLast h hf true nf
    rw [hn, ok_bind]
    refine ⟨if n = 0 then nf else some (a + n - 1), by split <;> rfl, ?_⟩
    simpa using hl

/-- C44: `tmsu_find_last_not_of_n`, for all ranges. -/
theorem C44_find_last_not_of_n {mem : List Byte} {a b f fl : Nat} (h : Range mem a b) (hf : Range mem f fl) :
    ∃ r, findLastNotOfN mem a b f fl = .ok r ∧ IsLast (ByteAt mem (· ∉ slice mem f fl)) a b (some b) r :=
  C44_find_last_not_of_n_ex h hf _

example : findLastNotOfN exMem 0 6 7 9 = .ok (some 3) := rfl
example := C44_find_last_not_of_n (mem := exMem) (a := 0) (b := 6) (f := 7) (fl := 9) ⟨by decide, by decide⟩
  ⟨by decide, by decide⟩

theorem findLastOfZ_isLast {mem s set : List Byte} {p q : Nat} (hp : ZStr mem p s) (hq : ZStr mem q set) (hs : s ≠ [])
    (stay : Bool) (hex : ∃ i, p ≤ i ∧ i < p + s.length ∧ ByteAt mem (fun x => ¬ (x ∈ set ↔ stay = true)) i) :
    ∃ r, findLastOfZLoop mem p q stay (s.length - 1) = .ok r ∧
      IsLast (ByteAt mem (fun x => ¬ (x ∈ set ↔ stay = true))) p (p + s.length) (some (p + s.length)) (some r) := by
  have hpos : 0 < s.length := List.length_pos_iff.2 hs
  obtain ⟨r, hr, hle, hat, hno⟩ := findLastOfZLoop_spec hp hq stay (s.length - 1) (by omega)
  refine ⟨p + r, hr, Or.inl ⟨_, rfl, by omega, by omega, ?_, fun i hi hib => hno i hi (by omega)⟩⟩
  by_cases h0 : r = 0
  · obtain ⟨i, h1, h2, h3⟩ := hex
    by_cases hi : i = p
    · rw [h0, Nat.add_zero, ← hi]; exact h3
    · exact absurd h3 (hno i (by omega) (by omega))
  · exact hat h0

/-- C44, restricted to strings that contain a character of the set: `tmsu_find_last_of`. -/
theorem C44_find_last_of_partial {mem s set : List Byte} {p q : Nat} (hp : ZStr mem p s) (hq : ZStr mem q set)
    (hex : ∃ x ∈ s, x ∈ set) : ∃ r, findLastOf mem p q = .ok r ∧
      IsLast (ByteAt mem (· ∈ set)) p (p + s.length) (some (p + s.length)) (some r) := by
  obtain ⟨x, hx, hxs⟩ := hex
  have hs : s ≠ [] := fun h => by rw [h] at hx; simp at hx
  have hpos : 0 < s.length := List.length_pos_iff.2 hs
  obtain ⟨i, hi, hix⟩ := List.mem_iff_getElem.1 hx
  rw [findLastOf, strlen_eq hp, ok_bind, if_neg (by omega)]
  have := findLastOfZ_isLast hp hq hs false ⟨p + i, by omega, by omega, x, by rw [hp.get hi, hix], by simp [hxs]⟩
  simpa using this

/-- C44, restricted to strings that contain a character outside the set: `tmsu_find_last_not_of`. -/
theorem C44_find_last_not_of_partial {mem s set : List Byte} {p q : Nat} (hp : ZStr mem p s) (hq : ZStr mem q set)
    (hex : ∃ x ∈ s, x ∉ set) : ∃ r, findLastNotOf mem p q = .ok r ∧
      IsLast (ByteAt mem (· ∉ set)) p (p + s.length) (some (p + s.length)) (some r) := by
  obtain ⟨x, hx, hxs⟩ := hex
  have hs : s ≠ [] := fun h => by rw [h] at hx; simp at hx
  have hpos : 0 < s.length := List.length_pos_iff.2 hs
  obtain ⟨i, hi, hix⟩ := List.mem_iff_getElem.1 hx
  rw [findLastNotOf, strlen_eq hp, ok_bind, if_neg (by omega)]
  have := findLastOfZ_isLast hp hq hs true ⟨p + i, by omega, by omega, x, by rw [hp.get hi, hix], by simp [hxs]⟩
  simpa using this

example : findLastOf exMem 0 7 = .ok 5 := rfl
example : findLastNotOf exMem 0 7 = .ok 3 := rfl
example := C44_find_last_of_partial exText exNeedle ⟨98, by decide, by decide⟩
example := C44_find_last_not_of_partial exText exNeedle ⟨97, by decide, by decide⟩

/-- C44 fails for `tmsu_find_last_of` when no character of the string is in the set: it returns the start of the string, not
the terminator as documented (and a match at the start cannot be told from no match). -/
theorem C44_not_find_last_of : ¬ ∀ (mem s set : List Byte) (p q : Nat), ZStr mem p s → ZStr mem q set → s ≠ [] →
    ∃ r, findLastOf mem p q = .ok r ∧
      IsLast (ByteAt mem (· ∈ set)) p (p + s.length) (some (p + s.length)) (some r) := by
  intro h
  obtain ⟨r, hr, hl⟩ := h exMem _ _ 0 10 exText exEmpty (by simp)
  have : findLastOf exMem 0 10 = .ok 0 := rfl
  rw [this] at hr
  cases hr
  rcases hl with ⟨k, hk, _, _, ⟨x, _, hx⟩, _⟩ | ⟨h1, _⟩
  · simp at hx
  · cases h1

/-- `tmsu_find_last_of` and `tmsu_find_last_not_of` leave the string when it is empty. -/
theorem C44_not_find_last_of_empty_string {mem : List Byte} {p : Nat} (hp : ZStr mem p []) (q : Nat) :
    findLastOf mem p q = .error .oob ∧ findLastNotOf mem p q = .error .oob := by
  rw [findLastOf, findLastNotOf, strlen_eq hp, ok_bind, ok_bind]
  exact ⟨if_pos rfl, if_pos rfl⟩

example : findLastOf exMem 10 7 = .error .oob := (C44_not_find_last_of_empty_string exEmpty 7).1

/-! ## Escaped characters -/

/-- Memory for the examples, with the backslash (92) as escape character: the text `\x\\x\\ ` at 0 (its first `x` is escaped,
its second is not) and the set `x\` at 9. -/
private def escMem : List Byte := [92, 120, 92, 92, 120, 92, 92, 32, 0, 120, 92, 0, 0]

private theorem escText : ZStr escMem 0 [92, 120, 92, 92, 120, 92, 92, 32] := ⟨⟨_, rfl⟩, by decide⟩
private theorem escSet : ZStr escMem 9 [120, 92] := ⟨⟨_, rfl⟩, by decide⟩

/-- C45: `tmsu_find_char_unescaped_n`, for all ranges, characters and escape characters. -/
theorem C45_find_char_unescaped_n {mem : List Byte} {a b : Nat} (h : Range mem a b) (c esc : Byte) :
    ∃ r, findCharUnescapedN mem a b c esc = .ok r ∧ IsFirst (UnescapedMatch mem a b [c] esc) a b r :=
  findCharUnescapedN_spec h c esc

example : findCharUnescapedN escMem 0 8 120 92 = .ok 4 := by decide +kernel
example := C45_find_char_unescaped_n (mem := escMem) (a := 0) (b := 8) ⟨by decide, by decide⟩ 120 92

/-- C45, restricted to a non-empty set: `tmsu_find_first_of_unescaped_n`. -/
theorem C45_find_first_of_unescaped_n_partial {mem : List Byte} {a b f fl : Nat} (h : Range mem a b) (hf : Range mem f fl)
    (hne : f ≠ fl) (esc : Byte) : ∃ r, findFirstOfUnescapedN mem a b f fl esc = .ok r ∧
      IsFirst (UnescapedMatch mem a b (slice mem f fl) esc) a b r := findFirstOfUnescapedN_spec h hf hne esc

example : findFirstOfUnescapedN escMem 2 8 9 11 92 = .ok 4 := by decide +kernel
example := C45_find_first_of_unescaped_n_partial (mem := escMem) (a := 2) (b := 8) (f := 9) (fl := 11)
  ⟨by decide, by decide⟩ ⟨by decide, by decide⟩ (by decide) 92

/-- C45 fails for an empty set: `tmsu_find_first_of_unescaped_n` reports a match at the first position. -/
theorem C45_not_first_of_empty : ¬ ∀ (mem : List Byte) (a b f fl : Nat) (esc : Byte), Range mem a b → Range mem f fl →
    ∃ r, findFirstOfUnescapedN mem a b f fl esc = .ok r ∧
      IsFirst (UnescapedMatch mem a b (slice mem f fl) esc) a b r := by
  intro h
  obtain ⟨r, hr, hl⟩ := h escMem 0 8 9 9 92 ⟨by decide, by decide⟩ ⟨by decide, by decide⟩
  have : findFirstOfUnescapedN escMem 0 8 9 9 92 = .ok 0 := rfl
  rw [this] at hr
  cases hr
  rw [slice_self] at hl
  rcases hl with ⟨_, _, ⟨⟨x, _, hx⟩, _⟩, _⟩ | ⟨h1, _⟩
  · simp at hx
  · cases h1

/-- C45, restricted to a non-empty string and a character other than NUL: `tmsu_find_char_unescaped`. -/
theorem C45_find_char_unescaped_partial {mem s : List Byte} {p : Nat} (hp : ZStr mem p s) (hs : s ≠ []) {c : Byte}
    (hc : c ≠ 0) (esc : Byte) : ∃ r, findCharUnescaped mem p c esc = .ok r ∧
      IsFirst (UnescapedMatch mem p (p + s.length) [c] esc) p (p + s.length) r := findCharUnescaped_spec hp hs hc esc

example : findCharUnescaped escMem 0 120 92 = .ok 4 := by decide +kernel
example := C45_find_char_unescaped_partial escText (by simp) (c := 120) (by decide) 92

/-- C45 fails for the empty string: `tmsu_find_char_unescaped` skips the terminator and goes on searching behind the
string (here it finds a character of the next object, or leaves the memory). -/
theorem C45_not_find_char_unescaped_empty :
    findCharUnescaped [0, 120, 0] 0 120 92 = .ok 1 ∧ findCharUnescaped [0] 0 120 92 = .error .oob := by
  constructor <;> decide +kernel

/-- C45, restricted to a non-empty set: `tmsu_find_first_of_unescaped`. -/
theorem C45_find_first_of_unescaped_partial {mem s set : List Byte} {p q : Nat} (hp : ZStr mem p s) (hq : ZStr mem q set)
    (hne : set ≠ []) (esc : Byte) : ∃ r, findFirstOfUnescaped mem p q esc = .ok r ∧
      IsFirst (UnescapedMatch mem p (p + s.length) set esc) p (p + s.length) r := findFirstOfUnescaped_spec hp hq hne esc

example : findFirstOfUnescaped escMem 2 9 92 = .ok 4 := by decide +kernel
example := C45_find_first_of_unescaped_partial escText escSet (by simp) 92

end Tm.Str
