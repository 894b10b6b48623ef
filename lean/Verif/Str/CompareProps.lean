import Verif.Str.PrefixLemmas

/-! # Properties of the comparisons (C48, C49, C50) -/

namespace Tm.Str

/-- Memory for the examples: `"abC\0"` at 0, `"abd\0"` at 4, `"ab\0"` at 8. -/
private def exMem : List Byte := [97, 98, 67, 0, 97, 98, 100, 0, 97, 98, 0]

private theorem exA : ZStr exMem 0 [97, 98, 67] := ⟨⟨_, rfl⟩, by decide⟩
private theorem exB : ZStr exMem 4 [97, 98, 100] := ⟨⟨_, rfl⟩, by decide⟩
private theorem exC : ZStr exMem 8 [97, 98] := ⟨⟨_, rfl⟩, by decide⟩

/-- C48: `tmsu_compare_n` is the lexicographic comparison of the unsigned bytes, for all pairs of ranges. -/
theorem C48_compare_n {mem : List Byte} {a al b bl : Nat} (ha : Range mem a al) (hb : Range mem b bl) :
    ∃ d, compareN mem a al b bl = .ok d ∧ Compares d (codes (slice mem a al)) (codes (slice mem b bl)) :=
  compareN_spec ha hb

example : compareN exMem 0 3 4 7 = .ok (-33) := rfl
example := C48_compare_n (mem := exMem) (a := 0) (al := 3) (b := 4) (bl := 7) ⟨by decide, by decide⟩ ⟨by decide, by decide⟩

/-- C48: `tmsu_compare`, for all NUL-terminated strings. -/
theorem C48_compare {mem s d : List Byte} {p q : Nat} (hp : ZStr mem p s) (hq : ZStr mem q d) :
    ∃ r, compareZ mem p q = .ok r ∧ Compares r (codes s) (codes d) := compareZ_spec hp hq

example : compareZ exMem 8 4 = .ok (-100) := rfl
example := C48_compare exA exB

theorem codes_inj {s d : List Byte} (h : codes s = codes d) : s = d := by
  refine List.map_injective_iff.2 ?_ h
  intro x y hxy
  exact byte_eq_iff.2 hxy

/-- C48: the order of `tmsu_compare_n` is total, antisymmetric and transitive; it calls two texts equal exactly if they are
equal. -/
theorem C48_compare_n_total_order {mem : List Byte} {a al b bl c cl : Nat} (ha : Range mem a al) (hb : Range mem b bl)
    (hc : Range mem c cl) :
    ∃ ab ba bc ac, compareN mem a al b bl = .ok ab ∧ compareN mem b bl a al = .ok ba ∧ compareN mem b bl c cl = .ok bc ∧
      compareN mem a al c cl = .ok ac ∧ (ab = 0 ↔ slice mem a al = slice mem b bl) ∧ (ab < 0 ↔ 0 < ba) ∧
      (ab < 0 → bc < 0 → ac < 0) ∧ (ab ≤ 0 → bc ≤ 0 → ac ≤ 0) := by
  obtain ⟨ab, hab, cab⟩ := compareN_spec ha hb
  obtain ⟨ba, hba, cba⟩ := compareN_spec hb ha
  obtain ⟨bc, hbc, cbc⟩ := compareN_spec hb hc
  obtain ⟨ac, hac, cac⟩ := compareN_spec ha hc
  refine ⟨ab, ba, bc, ac, hab, hba, hbc, hac, ?_, ?_, ?_, ?_⟩
  · rw [cab.2.1]
    exact ⟨codes_inj, fun h => by rw [h]⟩
  · rw [cab.1, cba.2.2]
  · rw [cab.1, cbc.1, cac.1]
    exact List.lt_trans
  · intro h1 h2
    rcases Int.lt_or_eq_of_le h1 with h1 | h1
    · rcases Int.lt_or_eq_of_le h2 with h2 | h2
      · rw [cab.1] at h1; rw [cbc.1] at h2
        exact Int.le_of_lt (cac.1.2 (List.lt_trans h1 h2))
      · rw [cab.1] at h1; rw [cbc.2.1] at h2
        exact Int.le_of_lt (cac.1.2 (h2 ▸ h1))
    · rw [cab.2.1] at h1
      rcases Int.lt_or_eq_of_le h2 with h2 | h2
      · rw [cbc.1] at h2
        exact Int.le_of_lt (cac.1.2 (h1 ▸ h2))
      · rw [cbc.2.1] at h2
        exact Int.le_of_eq (cac.2.1.2 (h1.trans h2))

example := C48_compare_n_total_order (mem := exMem) (a := 0) (al := 3) (b := 4) (bl := 7) (c := 8) (cl := 10)
  ⟨by decide, by decide⟩ ⟨by decide, by decide⟩ ⟨by decide, by decide⟩

/-- C48: `tmsu_equals_n` holds exactly for equal texts. -/
theorem C48_equals_n {mem : List Byte} {a al b bl : Nat} (ha : Range mem a al) (hb : Range mem b bl) :
    equalsN mem a al b bl = .ok (decide (slice mem a al = slice mem b bl)) := equalsN_spec ha hb

example : equalsN exMem 0 2 8 10 = .ok true := rfl
example := C48_equals_n (mem := exMem) (a := 0) (al := 2) (b := 8) (bl := 10) ⟨by decide, by decide⟩ ⟨by decide, by decide⟩

/-- C48: `tmsu_starts_with_n` holds exactly for prefixes. -/
theorem C48_starts_with_n {mem : List Byte} {a b f fl : Nat} (h : Range mem a b) (hf : Range mem f fl) :
    startsWithN mem a b f fl = .ok (decide (slice mem f fl <+: slice mem a b)) := startsWithN_spec h hf

/-- C48: `tmsu_ends_with_n` holds exactly for suffixes. -/
theorem C48_ends_with_n {mem : List Byte} {a b f fl : Nat} (h : Range mem a b) (hf : Range mem f fl) :
    endsWithN mem a b f fl = .ok (decide (slice mem f fl <:+ slice mem a b)) := endsWithN_spec h hf

/-- C48: `tmsu_starts_with` holds exactly for prefixes. -/
theorem C48_starts_with {mem s d : List Byte} {p q : Nat} (hp : ZStr mem p s) (hq : ZStr mem q d) :
    startsWith mem p q = .ok (decide (d <+: s)) := startsWith_spec hp hq

/-- C48: `tmsu_ends_with` holds exactly for suffixes. -/
theorem C48_ends_with {mem s d : List Byte} {p q : Nat} (hp : ZStr mem p s) (hq : ZStr mem q d) :
    endsWith mem p q = .ok (decide (d <:+ s)) := endsWith_spec hp hq

example : startsWith exMem 0 8 = .ok true ∧ startsWith exMem 8 0 = .ok false := ⟨C48_starts_with exA exC, C48_starts_with exC exA⟩
example : endsWith exMem 0 2 = .ok true ∧ endsWith exMem 0 8 = .ok false := ⟨rfl, C48_ends_with exA exC⟩
example : startsWithN exMem 0 3 8 10 = .ok true ∧ endsWithN exMem 0 3 8 10 = .ok false :=
  ⟨C48_starts_with_n ⟨by decide, by decide⟩ ⟨by decide, by decide⟩, C48_ends_with_n ⟨by decide, by decide⟩ ⟨by decide, by decide⟩⟩

/-! ## Ignoring case -/

/-- C50: `tmsu_compare_ignore_case_ansi_n` is the lexicographic comparison of the texts in capital letters. -/
theorem C50_compare_ignore_case_n {mem : List Byte} {a al b bl : Nat} (ha : Range mem a al) (hb : Range mem b bl) :
    ∃ d, compareIgnoreCaseN mem a al b bl = .ok d ∧
      Compares d (upperCodes (slice mem a al)) (upperCodes (slice mem b bl)) := compareIgnoreCaseN_spec ha hb

example : compareIgnoreCaseN exMem 0 3 4 7 = .ok (-1) := rfl
example := C50_compare_ignore_case_n (mem := exMem) (a := 0) (al := 3) (b := 4) (bl := 7) ⟨by decide, by decide⟩
  ⟨by decide, by decide⟩

/-- C50: `tmsu_stricmp` is the lexicographic comparison of the texts in capital letters. -/
theorem C50_stricmp {mem s d : List Byte} {p q : Nat} (hp : ZStr mem p s) (hq : ZStr mem q d) :
    ∃ r, stricmp mem p q = .ok r ∧ Compares r (upperCodes s) (upperCodes d) := stricmp_spec hp hq

example : stricmp exMem 0 4 = .ok (-1) := rfl
example := C50_stricmp exA exB

/-- C50: `tmsu_equals_ignore_case_ansi_n` holds exactly if the texts have the same letters up to case. -/
theorem C50_equals_ignore_case_n {mem : List Byte} {a al b bl : Nat} (ha : Range mem a al) (hb : Range mem b bl) :
    ∃ r, equalsIgnoreCaseN mem a al b bl = .ok r ∧
      (r = true ↔ List.Forall₂ SameLetter (slice mem a al) (slice mem b bl)) := by
  refine ⟨_, equalsIgnoreCaseN_spec ha hb, ?_⟩
  rw [decide_eq_true_iff, upperCodes_iff]

example : equalsIgnoreCaseN [97, 66, 65, 98] 0 2 2 4 = .ok true := rfl
example := C50_equals_ignore_case_n (mem := exMem) (a := 0) (al := 3) (b := 4) (bl := 7) ⟨by decide, by decide⟩
  ⟨by decide, by decide⟩

/-- C50: `tmsu_starts_with_ignore_case_ansi_n`. -/
theorem C50_starts_with_ignore_case_n {mem : List Byte} {a b f fl : Nat} (h : Range mem a b) (hf : Range mem f fl) :
    startsWithIgnoreCaseN mem a b f fl = .ok (decide (upperCodes (slice mem f fl) <+: upperCodes (slice mem a b))) :=
  startsWithIgnoreCaseN_spec h hf

/-- C50: `tmsu_ends_with_ignore_case_ansi_n`. -/
theorem C50_ends_with_ignore_case_n {mem : List Byte} {a b f fl : Nat} (h : Range mem a b) (hf : Range mem f fl) :
    endsWithIgnoreCaseN mem a b f fl = .ok (decide (upperCodes (slice mem f fl) <:+ upperCodes (slice mem a b))) :=
  endsWithIgnoreCaseN_spec h hf

/-- C50: `tmsu_ends_with_ignore_case_ansi`. -/
theorem C50_ends_with_ignore_case {mem s d : List Byte} {p q : Nat} (hp : ZStr mem p s) (hq : ZStr mem q d) :
    endsWithIgnoreCase mem p q = .ok (decide (upperCodes d <:+ upperCodes s)) := endsWithIgnoreCase_spec hp hq

example : endsWithIgnoreCase [97, 66, 99, 0, 98, 67, 0] 0 4 = .ok true := rfl
example : startsWithIgnoreCaseN [97, 66, 99, 65, 98] 0 3 3 5 = .ok true :=
  C50_starts_with_ignore_case_n ⟨by decide, by decide⟩ ⟨by decide, by decide⟩
example : endsWithIgnoreCaseN [97, 66, 99, 98, 67] 0 3 3 5 = .ok true :=
  C50_ends_with_ignore_case_n ⟨by decide, by decide⟩ ⟨by decide, by decide⟩
example := C50_ends_with_ignore_case exA exC

/-- C50: `tmsu_compare_ignore_case_ansi` (outside Windows) gives the comparison with the sign reversed: it is the opposite
order. Its zero is right. -/
theorem C50_compare_ignore_case_partial {mem s d : List Byte} {p q : Nat} (hp : ZStr mem p s) (hq : ZStr mem q d) :
    ∃ r, compareIgnoreCaseZ mem p q = .ok r ∧ Compares (-r) (upperCodes s) (upperCodes d) := compareIgnoreCaseZ_spec hp hq

example : compareIgnoreCaseZ exMem 0 4 = .ok 1 := rfl
example := C50_compare_ignore_case_partial exA exB

/-- C50 fails for `tmsu_compare_ignore_case_ansi`: the sign is wrong whenever the texts differ. -/
theorem C50_not_compare_ignore_case {mem s d : List Byte} {p q : Nat} (hp : ZStr mem p s) (hq : ZStr mem q d)
    (hne : upperCodes s ≠ upperCodes d) :
    ¬ ∃ r, compareIgnoreCaseZ mem p q = .ok r ∧ Compares r (upperCodes s) (upperCodes d) := by
  rintro ⟨r, hr, hc⟩
  obtain ⟨r', hr', hc'⟩ := compareIgnoreCaseZ_spec hp hq
  rw [hr] at hr'
  cases hr'
  have h0 : r ≠ 0 := fun h => hne (hc.2.1.1 h)
  by_cases hpos : 0 < r
  · have h1 := hc.2.2.1 hpos
    have h2 := hc'.1.1 (by omega)
    exact List.lt_irrefl _ (List.lt_trans h1 h2)
  · have h1 := hc.1.1 (by omega)
    have h2 := hc'.2.2.1 (by omega)
    exact List.lt_irrefl _ (List.lt_trans h1 h2)

example := C50_not_compare_ignore_case exA exB (by decide)

/-- C50, first part: `tmsu_strnicmp(a, b, n)` is zero if the texts agree, up to case, in the first `n + 1` characters. -/
theorem C50_strnicmp_agree_partial {mem s d : List Byte} {p q n : Nat} (hp : ZStr mem p s) (hq : ZStr mem q d)
    (hn : n < 2 ^ 64) (h : upperCodes (s.take (n + 1)) = upperCodes (d.take (n + 1))) :
    strnicmp mem p q (BitVec.ofNat 64 n) = .ok 0 := strnicmp_agree hp hq hn h

/-- C50, second part: `tmsu_strnicmp(a, b, n + 1)` compares the first `n + 1` characters rightly if there is a difference
in the first `n`. -/
theorem C50_strnicmp_differ_partial {mem s d : List Byte} {p q n : Nat} (hp : ZStr mem p s) (hq : ZStr mem q d)
    (hn : n + 1 < 2 ^ 64) (h : upperCodes (s.take n) ≠ upperCodes (d.take n)) :
    ∃ r, strnicmp mem p q (BitVec.ofNat 64 (n + 1)) = .ok r ∧
      Compares r (upperCodes (s.take (n + 1))) (upperCodes (d.take (n + 1))) := strnicmp_differ hp hq hn h

example : strnicmp exMem 0 4 1 = .ok 0 := C50_strnicmp_agree_partial exA exB (n := 1) (by decide) (by decide)
example := C50_strnicmp_differ_partial (n := 3) exA exC (by decide) (by decide)

/-- C50 fails for `tmsu_strnicmp` in both directions: it calls `"abC"` and `"abd"` equal in the first three characters,
and different in the first two. -/
theorem C50_not_strnicmp : strnicmp exMem 0 4 3 = .ok 0 ∧ strnicmp exMem 0 4 2 = .ok (-1) := by
  constructor <;> decide +kernel

/-- C50, what `tmsu_starts_with_ignore_case_ansi` decides: the last character of the searched text is never looked at. -/
theorem C50_starts_with_ignore_case_partial {mem s d : List Byte} {p q : Nat} (hp : ZStr mem p s) (hq : ZStr mem q d)
    (hn : d.length < 2 ^ 64) : startsWithIgnoreCase mem p q =
      .ok (decide (d.length ≤ s.length ∧ upperCodes (s.take (d.length - 1)) = upperCodes (d.take (d.length - 1)))) :=
  startsWithIgnoreCase_spec hp hq hn

example := C50_starts_with_ignore_case_partial exA exB (by decide)

/-- C50 fails for `tmsu_starts_with_ignore_case_ansi`: `"abC"` is said to start with `"abd"`. -/
theorem C50_not_starts_with_ignore_case : ¬ ∀ (mem s d : List Byte) (p q : Nat), ZStr mem p s → ZStr mem q d →
    startsWithIgnoreCase mem p q = .ok (decide (upperCodes d <+: upperCodes s)) := by
  intro h
  have h1 := h _ _ _ _ _ exA exB
  have h2 : startsWithIgnoreCase exMem 0 4 = .ok true := by decide +kernel
  rw [h2] at h1
  exact absurd h1 (by decide)

/-! ## The order for humans -/

/-- C49: `tmsu_human_compare_ansi_n` is antisymmetric: comparing the other way round gives the opposite number, or the same
fault, for all pairs of ranges. -/
theorem C49_antisymmetric {mem : List Byte} {a al b bl : Nat} (ha : Range mem a al) (hb : Range mem b bl) :
    humanCompareN mem b bl a al =
      match humanCompareN mem a al b bl with
      | .ok d => .ok (-d)
      | .error e => .error e := by
  rw [humanCompareN_anti ha hb]
  cases humanCompareN mem a al b bl <;> rfl

/-- Memory for the examples: `"1b"` at 0, `"001"` at 2, `"1aaa"` at 5, `"2147483648"` at 9. -/
private def huMem : List Byte :=
  [49, 98, 48, 48, 49, 49, 97, 97, 97, 50, 49, 52, 55, 52, 56, 51, 54, 52, 56]

example := C49_antisymmetric (mem := huMem) (a := 0) (al := 2) (b := 5) (bl := 9) ⟨by decide, by decide⟩ ⟨by decide, by decide⟩

/-- C49 fails: `tmsu_human_compare_ansi_n` is not transitive. It says `"1b" < "001"`, `"001" < "1aaa"` and
`"1aaa" < "1b"`. -/
theorem C49_not_transitive : ¬ ∀ (mem : List Byte) (a al b bl c cl : Nat), Range mem a al → Range mem b bl → Range mem c cl →
    ∀ ab bc ac, humanCompareN mem a al b bl = .ok ab → humanCompareN mem b bl c cl = .ok bc →
      humanCompareN mem a al c cl = .ok ac → ab < 0 → bc < 0 → ac < 0 := by
  intro h
  have := h huMem 0 2 2 5 5 9 ⟨by decide, by decide⟩ ⟨by decide, by decide⟩ ⟨by decide, by decide⟩ (-1) (-1) 1
    (by decide +kernel) (by decide +kernel) (by decide +kernel) (by decide) (by decide)
  exact absurd this (by decide)

/-- C49 fails: a number with a value of at least 2³¹ − 256 makes `tmsu_human_compare_ansi_n` overflow an `int`. -/
theorem C49_not_overflow : humanCompareN huMem 9 19 0 2 = .error .overflow := by decide +kernel

/-- C49, for texts whose numbers have no leading zeros and are small: `tmsu_human_compare_ansi_n` is the lexicographic
comparison of the ranks of the tokens. -/
theorem C49_human_compare_partial {mem : List Byte} {a al b bl : Nat} (ha : Range mem a al) (hb : Range mem b bl)
    (hza : NoLeadingZeros (slice mem a al)) (hzb : NoLeadingZeros (slice mem b bl))
    (hsa : SmallNumbers (slice mem a al)) (hsb : SmallNumbers (slice mem b bl)) :
    ∃ d, humanCompareN mem a al b bl = .ok d ∧
      Compares d (humanRanks (slice mem a al)) (humanRanks (slice mem b bl)) := humanCompareN_spec ha hb hza hzb hsa hsb

/-- C49, for texts whose numbers have no leading zeros and are small: the order is transitive. -/
theorem C49_transitive_partial {mem : List Byte} {a al b bl c cl : Nat} (ha : Range mem a al) (hb : Range mem b bl)
    (hc : Range mem c cl)
    (hz : NoLeadingZeros (slice mem a al) ∧ NoLeadingZeros (slice mem b bl) ∧ NoLeadingZeros (slice mem c cl))
    (hs : SmallNumbers (slice mem a al) ∧ SmallNumbers (slice mem b bl) ∧ SmallNumbers (slice mem c cl)) :
    ∃ ab bc ac, humanCompareN mem a al b bl = .ok ab ∧ humanCompareN mem b bl c cl = .ok bc ∧
      humanCompareN mem a al c cl = .ok ac ∧ (ab < 0 → bc < 0 → ac < 0) ∧ (ab = 0 → bc = 0 → ac = 0) := by
  obtain ⟨ab, hab, cab⟩ := humanCompareN_spec ha hb hz.1 hz.2.1 hs.1 hs.2.1
  obtain ⟨bc, hbc, cbc⟩ := humanCompareN_spec hb hc hz.2.1 hz.2.2 hs.2.1 hs.2.2
  obtain ⟨ac, hac, cac⟩ := humanCompareN_spec ha hc hz.1 hz.2.2 hs.1 hs.2.2
  refine ⟨ab, bc, ac, hab, hbc, hac, ?_, ?_⟩
  · rw [cab.1, cbc.1, cac.1]
    exact List.lt_trans
  · rw [cab.2.1, cbc.2.1, cac.2.1]
    exact Eq.trans

/-- `"a12"` at 0, `"A9b"` at 3. -/
private def okMem : List Byte := [97, 49, 50, 65, 57, 98]

example : humanCompareN okMem 0 3 3 6 = .ok 3 := by decide +kernel
example : humanRanks [97, 49, 50] = [65, 268] ∧ humanRanks [65, 57, 98] = [65, 265, 66] := by decide
example := C49_human_compare_partial (mem := okMem) (a := 0) (al := 3) (b := 3) (bl := 6) ⟨by decide, by decide⟩
  ⟨by decide, by decide⟩ (by unfold NoLeadingZeros; decide) (by unfold NoLeadingZeros; decide)
  (by unfold SmallNumbers; decide) (by unfold SmallNumbers; decide)
example := C49_transitive_partial (mem := okMem) (a := 0) (al := 3) (b := 3) (bl := 6) (c := 0) (cl := 2)
  ⟨by decide, by decide⟩ ⟨by decide, by decide⟩ ⟨by decide, by decide⟩
  ⟨by unfold NoLeadingZeros; decide, by unfold NoLeadingZeros; decide, by unfold NoLeadingZeros; decide⟩
  ⟨by unfold SmallNumbers; decide, by unfold SmallNumbers; decide, by unfold SmallNumbers; decide⟩

end Tm.Str
