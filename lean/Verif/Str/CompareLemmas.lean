import Verif.Str.CaseLemmas

/-! # Lemmas about the comparison functions -/

namespace Tm.Str

theorem Compares.symm {r : Int} {x y : List Nat} (h : Compares r x y) : Compares (-r) y x := by
  obtain ⟨h1, h2, h3⟩ := h
  exact ⟨by rw [← h3]; omega, by rw [eq_comm (a := y), ← h2]; omega, by rw [← h1]; omega⟩

theorem compares_nil_nil : Compares 0 [] [] := by simp [Compares]

theorem compares_nil_cons (r : Int) (h : r < 0) (y : Nat) (ys : List Nat) : Compares r [] (y :: ys) := by
  refine ⟨by simp [h], by simp; omega, by simp; omega⟩

theorem compares_cons_nil (r : Int) (h : 0 < r) (y : Nat) (ys : List Nat) : Compares r (y :: ys) [] := by
  refine ⟨by simp; omega, by simp; omega, by simp [h]⟩

theorem compares_diff {x y : Nat} (h : x ≠ y) (xs ys : List Nat) : Compares ((x : Int) - y) (x :: xs) (y :: ys) := by
  refine ⟨?_, ?_, ?_⟩
  · rw [List.cons_lt_cons_iff]; omega
  · rw [List.cons_eq_cons]; omega
  · rw [List.cons_lt_cons_iff]; omega

theorem compares_cons {r : Int} (x : Nat) {xs ys : List Nat} (h : Compares r xs ys) : Compares r (x :: xs) (x :: ys) := by
  obtain ⟨h1, h2, h3⟩ := h
  refine ⟨?_, ?_, ?_⟩
  · rw [List.cons_lt_cons_iff, h1]; simp
  · rw [List.cons_eq_cons, h2]; simp
  · rw [List.cons_lt_cons_iff, h3]; simp

/-- `memcmp` and the loop of `tmsu_compare_ignore_case_ansi_n`, for the keys `f` of the characters. -/
def cmpL (f : Byte → Nat) (mem : List Byte) : Nat → Nat → Nat → C Int
  | _, _, 0 => .ok 0
  | a, b, n + 1 => do
    let x ← rd mem a
    let y ← rd mem b
    if f x ≠ f y then .ok ((f x : Int) - f y) else cmpL f mem (a + 1) (b + 1) n

theorem memcmp_eq (mem : List Byte) : ∀ n a b, memcmp mem a b n = cmpL (·.toNat) mem a b n
  | 0, _, _ => rfl
  | n + 1, a, b => by
    rw [memcmp, cmpL]
    simp only [memcmp_eq mem n, Ne, byte_eq_iff]

theorem upperCode_eq (c : Byte) : upperCode c = (toupper c).toNat := by rw [toNat_toupper, upperCode]

theorem compareIgnoreCaseL_eq (mem : List Byte) : ∀ n a b, compareIgnoreCaseL mem a b n = cmpL upperCode mem a b n
  | 0, _, _ => rfl
  | n + 1, a, b => by
    rw [compareIgnoreCaseL, cmpL]
    have : ∀ x y : Byte, (((toupper x).toNat : Int) - (toupper y).toNat ≠ 0) ↔ (upperCode x ≠ upperCode y) := by
      intro x y; rw [upperCode_eq, upperCode_eq]; omega
    simp only [compareIgnoreCaseL_eq mem n, this]
    simp only [upperCode_eq]

theorem cmpL_self (f : Byte → Nat) (mem : List Byte) : ∀ n a, a + n ≤ mem.length → cmpL f mem a a n = .ok 0
  | 0, _, _ => rfl
  | n + 1, a, h => by
    rw [cmpL, rd_ok (by omega), ok_bind, ok_bind, if_neg (by simp), cmpL_self f mem n (a + 1) (by omega)]

theorem cmpL_spec (f : Byte → Nat) (mem : List Byte) : ∀ n a al b bl, Range mem a al → Range mem b bl →
    n = min (al - a) (bl - b) →
    ∃ d, cmpL f mem a b n = .ok d ∧
      Compares (if d ≠ 0 then d else compareLen (al - a) (bl - b)) ((slice mem a al).map f) ((slice mem b bl).map f)
  | 0, a, al, b, bl, ha, hb, hn => by
    refine ⟨0, rfl, ?_⟩
    rw [if_neg (by simp)]
    obtain ⟨ha1, ha2⟩ := ha
    obtain ⟨hb1, hb2⟩ := hb
    by_cases h1 : al - a = 0
    · obtain rfl : al = a := by omega
      rw [slice_self]
      by_cases h2 : bl - b = 0
      · obtain rfl : bl = b := by omega
        rw [slice_self, h1, h2]
        exact compares_nil_nil
      · rw [slice_cons (a := b) (by omega) hb2]
        refine compares_nil_cons _ ?_ _ _
        rw [compareLen, if_neg (by omega), if_pos (by omega)]; omega
    · have h2 : bl - b = 0 := by omega
      obtain rfl : bl = b := by omega
      rw [slice_self, slice_cons (a := a) (by omega) ha2]
      refine compares_cons_nil _ ?_ _ _
      rw [compareLen, if_pos (by omega)]; omega
  | n + 1, a, al, b, bl, ha, hb, hn => by
    obtain ⟨ha1, ha2⟩ := ha
    obtain ⟨hb1, hb2⟩ := hb
    rw [cmpL, rd_ok (by omega), ok_bind, rd_ok (by omega), ok_bind, slice_cons (a := a) (by omega) ha2,
      slice_cons (a := b) (by omega) hb2, List.map_cons, List.map_cons]
    by_cases hx : f (mem[a]'(by omega)) = f (mem[b]'(by omega))
    · rw [if_neg (by simpa using hx), hx]
      obtain ⟨d, hd, hs⟩ := cmpL_spec f mem n (a + 1) al (b + 1) bl ⟨by omega, ha2⟩ ⟨by omega, hb2⟩ (by omega)
      refine ⟨d, hd, compares_cons _ ?_⟩
      have : compareLen (al - a) (bl - b) = compareLen (al - (a + 1)) (bl - (b + 1)) := by
        have e1 : (al - a > bl - b) ↔ (al - (a + 1) > bl - (b + 1)) := by omega
        have e2 : (al - a < bl - b) ↔ (al - (a + 1) < bl - (b + 1)) := by omega
        simp only [compareLen, e1, e2]
      rw [this]
      exact hs
    · rw [if_pos hx]
      refine ⟨_, rfl, ?_⟩
      rw [if_pos (by omega)]
      exact compares_diff hx _ _

theorem compareEmpty_eq {a b : Nat} (h : a = 0 ∨ b = 0) : compareEmpty a b = compareLen a b := by
  rw [compareEmpty, compareLen]
  split <;> split <;> (try split) <;> (try split) <;> omega

theorem compare_core (f : Byte → Nat) {mem : List Byte} {a al b bl : Nat} (ha : Range mem a al) (hb : Range mem b bl) :
    ∃ d, (if al - a = 0 ∨ bl - b = 0 then Except.ok (compareEmpty (al - a) (bl - b))
        else if a = b then .ok (compareLen (al - a) (bl - b))
        else (do
          let d ← cmpL f mem a b (if al - a < bl - b then al - a else bl - b)
          if d ≠ 0 then .ok d else .ok (compareLen (al - a) (bl - b)) : C Int)) = .ok d ∧
      Compares d ((slice mem a al).map f) ((slice mem b bl).map f) := by
  have e : (if al - a < bl - b then al - a else bl - b) = min (al - a) (bl - b) := by split <;> omega
  rw [e]
  obtain ⟨d, hd, hs⟩ := cmpL_spec f mem _ a al b bl ha hb rfl
  by_cases h0 : al - a = 0 ∨ bl - b = 0
  · rw [if_pos h0]
    have : min (al - a) (bl - b) = 0 := by omega
    rw [this, cmpL] at hd
    cases hd
    refine ⟨_, rfl, ?_⟩
    rw [compareEmpty_eq h0]
    simpa using hs
  · rw [if_neg h0]
    by_cases hab : a = b
    · rw [if_pos hab]
      subst hab
      have := ha.1
      have := ha.2
      have := hb.2
      rw [cmpL_self f mem _ a (by omega)] at hd
      cases hd
      refine ⟨_, rfl, ?_⟩
      simpa using hs
    · rw [if_neg hab, hd, ok_bind]
      by_cases hz : d ≠ 0
      · rw [if_pos hz] at hs ⊢
        exact ⟨d, rfl, hs⟩
      · rw [if_neg hz] at hs ⊢
        exact ⟨_, rfl, hs⟩

theorem compareN_spec {mem : List Byte} {a al b bl : Nat} (ha : Range mem a al) (hb : Range mem b bl) :
    ∃ d, compareN mem a al b bl = .ok d ∧ Compares d (codes (slice mem a al)) (codes (slice mem b bl)) := by
  rw [compareN, assert_ok (by simpa using ha.1), ok_bind, assert_ok (by simpa using hb.1), ok_bind, distance_ok ha.1,
    ok_bind, distance_ok hb.1, ok_bind]
  simp only [memcmp_eq]
  exact compare_core _ ha hb

theorem compareIgnoreCaseN_spec {mem : List Byte} {a al b bl : Nat} (ha : Range mem a al) (hb : Range mem b bl) :
    ∃ d, compareIgnoreCaseN mem a al b bl = .ok d ∧
      Compares d (upperCodes (slice mem a al)) (upperCodes (slice mem b bl)) := by
  rw [compareIgnoreCaseN, assert_ok (by simpa using ha.1), ok_bind, assert_ok (by simpa using hb.1), ok_bind,
    distance_ok ha.1, ok_bind, distance_ok hb.1, ok_bind]
  simp only [compareIgnoreCaseL_eq]
  exact compare_core _ ha hb

/-! ## NUL-terminated strings -/

theorem byte0 : (0 : Byte).toNat = 0 := rfl

theorem toNat_pos {x : Byte} (h : x ≠ 0) : 0 < x.toNat := by
  rw [Ne, byte_eq_iff, byte0] at h; omega

theorem strcmpL_spec : ∀ (s d t t' : List Byte), 0 ∉ s → 0 ∉ d →
    ∃ r, strcmpL (s ++ 0 :: t) (d ++ 0 :: t') = .ok r ∧ Compares r (codes s) (codes d)
  | [], [], t, t', _, _ => ⟨0, by simp [strcmpL], compares_nil_nil⟩
  | [], y :: d, t, t', _, hd => by
    rw [List.mem_cons, not_or] at hd
    have := toNat_pos (fun h => hd.1 (Eq.symm h))
    refine ⟨_, by rw [List.nil_append, List.cons_append, strcmpL, if_pos hd.1], compares_nil_cons _ ?_ _ _⟩
    rw [byte0]; omega
  | x :: s, [], t, t', hs, _ => by
    rw [List.mem_cons, not_or] at hs
    have := toNat_pos (fun h => hs.1 (Eq.symm h))
    refine ⟨_, by rw [List.nil_append, List.cons_append, strcmpL, if_pos (fun h => hs.1 h.symm)],
      compares_cons_nil _ ?_ _ _⟩
    rw [byte0]; omega
  | x :: s, y :: d, t, t', hs, hd => by
    rw [List.mem_cons, not_or] at hs hd
    rw [List.cons_append, List.cons_append, strcmpL]
    by_cases hx : x = y
    · rw [if_neg (by simpa using hx), if_neg (fun h => hs.1 h.symm)]
      obtain ⟨r, hr, hc⟩ := strcmpL_spec s d t t' hs.2 hd.2
      exact ⟨r, hr, by rw [hx]; exact compares_cons _ hc⟩
    · rw [if_pos hx]
      exact ⟨_, rfl, compares_diff (fun h => hx (byte_eq_iff.2 h)) _ _⟩

theorem upper0 : upperCode 0 = 0 := rfl

theorem upper_pos {x : Byte} (h : x ≠ 0) : 0 < upperCode x := by
  have := toNat_pos h
  rw [upperCode]; split <;> omega

theorem stricmpL_spec : ∀ (s d t t' : List Byte), 0 ∉ s → 0 ∉ d →
    ∃ r, stricmpL (s ++ 0 :: t) (d ++ 0 :: t') = .ok r ∧ Compares r (upperCodes s) (upperCodes d)
  | [], [], t, t', _, _ => ⟨0, by simp [stricmpL], compares_nil_nil⟩
  | [], y :: d, t, t', _, hd => by
    rw [List.mem_cons, not_or] at hd
    have := upper_pos (fun h => hd.1 (Eq.symm h))
    refine ⟨_, by rw [List.nil_append, List.cons_append, stricmpL, if_neg (by simp)], compares_nil_cons _ ?_ _ _⟩
    rw [← upperCode_eq, ← upperCode_eq, upper0]; omega
  | x :: s, [], t, t', hs, _ => by
    rw [List.mem_cons, not_or] at hs
    have := upper_pos (fun h => hs.1 (Eq.symm h))
    refine ⟨_, by rw [List.nil_append, List.cons_append, stricmpL, if_neg (by simp)], compares_cons_nil _ ?_ _ _⟩
    rw [← upperCode_eq, ← upperCode_eq, upper0]; omega
  | x :: s, y :: d, t, t', hs, hd => by
    rw [List.mem_cons, not_or] at hs hd
    rw [List.cons_append, List.cons_append, stricmpL, if_pos ⟨fun h => hs.1 h.symm, fun h => hd.1 h.symm⟩]
    by_cases hx : toupper x = toupper y
    · rw [if_neg (by simpa using hx)]
      obtain ⟨r, hr, hc⟩ := stricmpL_spec s d t t' hs.2 hd.2
      refine ⟨r, hr, ?_⟩
      have : upperCode x = upperCode y := by rw [upperCode_eq, upperCode_eq, hx]
      rw [upperCodes, upperCodes, List.map_cons, List.map_cons, this]
      exact compares_cons _ hc
    · rw [if_pos hx]
      refine ⟨_, rfl, ?_⟩
      rw [← upperCode_eq, ← upperCode_eq]
      refine compares_diff (fun h => hx (byte_eq_iff.2 ?_)) _ _
      rw [← upperCode_eq, ← upperCode_eq, h]

theorem compareIgnoreCaseZL_eq : ∀ (s d t t' : List Byte), 0 ∉ s → 0 ∉ d →
    ∃ r, stricmpL (s ++ 0 :: t) (d ++ 0 :: t') = .ok r ∧ compareIgnoreCaseZL (s ++ 0 :: t) (d ++ 0 :: t') = .ok (-r)
  | [], [], t, t', _, _ => ⟨0, by simp [stricmpL], by simp [compareIgnoreCaseZL]⟩
  | [], y :: d, t, t', _, hd => by
    refine ⟨_, by rw [List.nil_append, List.cons_append, stricmpL, if_neg (by simp)], ?_⟩
    rw [List.nil_append, List.cons_append, compareIgnoreCaseZL, if_neg (by simp)]
    congr 1; omega
  | x :: s, [], t, t', hs, _ => by
    refine ⟨_, by rw [List.nil_append, List.cons_append, stricmpL, if_neg (by simp)], ?_⟩
    rw [List.nil_append, List.cons_append, compareIgnoreCaseZL, if_neg (by simp)]
    congr 1; omega
  | x :: s, y :: d, t, t', hs, hd => by
    rw [List.mem_cons, not_or] at hs hd
    rw [List.cons_append, List.cons_append, stricmpL, if_pos ⟨fun h => hs.1 h.symm, fun h => hd.1 h.symm⟩,
      compareIgnoreCaseZL]
    by_cases hx : toupper x = toupper y
    · rw [if_neg (by simpa using hx), if_pos ⟨fun h => hs.1 h.symm, fun h => hd.1 h.symm, hx⟩]
      exact compareIgnoreCaseZL_eq s d t t' hs.2 hd.2
    · rw [if_pos hx, if_neg (fun h => hx h.2.2)]
      exact ⟨_, rfl, by congr 1; omega⟩

theorem compareZ_spec {mem s d : List Byte} {p q : Nat} (hp : ZStr mem p s) (hq : ZStr mem q d) :
    ∃ r, compareZ mem p q = .ok r ∧ Compares r (codes s) (codes d) := by
  obtain ⟨⟨t, ht⟩, h0⟩ := hp
  obtain ⟨⟨t', ht'⟩, h0'⟩ := hq
  rw [compareZ, strcmp, ht, ht']
  exact strcmpL_spec s d t t' h0 h0'

theorem stricmp_spec {mem s d : List Byte} {p q : Nat} (hp : ZStr mem p s) (hq : ZStr mem q d) :
    ∃ r, stricmp mem p q = .ok r ∧ Compares r (upperCodes s) (upperCodes d) := by
  obtain ⟨⟨t, ht⟩, h0⟩ := hp
  obtain ⟨⟨t', ht'⟩, h0'⟩ := hq
  rw [stricmp, ht, ht']
  exact stricmpL_spec s d t t' h0 h0'

theorem compareIgnoreCaseZ_spec {mem s d : List Byte} {p q : Nat} (hp : ZStr mem p s) (hq : ZStr mem q d) :
    ∃ r, compareIgnoreCaseZ mem p q = .ok r ∧ Compares (-r) (upperCodes s) (upperCodes d) := by
  obtain ⟨⟨t, ht⟩, h0⟩ := hp
  obtain ⟨⟨t', ht'⟩, h0'⟩ := hq
  rw [compareIgnoreCaseZ, ht, ht']
  obtain ⟨r, hr, hr'⟩ := compareIgnoreCaseZL_eq s d t t' h0 h0'
  obtain ⟨r2, hr2, hc⟩ := stricmpL_spec s d t t' h0 h0'
  rw [hr] at hr2
  cases hr2
  exact ⟨-r, hr', by rw [Int.neg_neg]; exact hc⟩

/-! ## Equality, prefixes and suffixes -/

theorem equalsN_spec {mem : List Byte} {a al b bl : Nat} (ha : Range mem a al) (hb : Range mem b bl) :
    equalsN mem a al b bl = .ok (decide (slice mem a al = slice mem b bl)) := by
  have := ha.1; have := ha.2; have := hb.1; have := hb.2
  rw [equalsN, distance_ok ha.1, ok_bind, distance_ok hb.1, ok_bind]
  by_cases h : al - a = bl - b
  · rw [if_neg (by simpa using h)]
    obtain ⟨r, hr, hs⟩ := memcmp_spec mem (al - a) a b (by omega) (by omega)
    rw [hr, ok_bind]
    rw [show a + (al - a) = al by omega, show b + (al - a) = bl by omega] at hs
    congr 1
    exact decide_eq_decide.2 hs
  · rw [if_pos h]
    congr 1
    symm
    rw [decide_eq_false_iff_not]
    intro he
    have := congrArg List.length he
    rw [length_slice ha.2, length_slice hb.2] at this
    exact h this

theorem startsWithN_spec {mem : List Byte} {a b f fl : Nat} (h : Range mem a b) (hf : Range mem f fl) :
    startsWithN mem a b f fl = .ok (decide (slice mem f fl <+: slice mem a b)) := by
  have := h.1; have := h.2; have := hf.1; have := hf.2
  rw [startsWithN, assert_ok (by simpa using h.1), ok_bind, assert_ok (by simpa using hf.1), ok_bind, distance_ok h.1,
    ok_bind, distance_ok hf.1, ok_bind]
  have key : slice mem f fl <+: slice mem a b ↔ (fl - f ≤ b - a ∧ slice mem a (a + (fl - f)) = slice mem f fl) := by
    rw [List.prefix_iff_eq_take, length_slice hf.2, slice, slice, slice, List.take_take]
    constructor
    · intro h
      have hl : fl - f ≤ b - a := by
        have := congrArg List.length h
        simp only [List.length_take, List.length_drop] at this
        omega
      refine ⟨hl, ?_⟩
      rw [h]; congr 1; omega
    · rintro ⟨h1, h2⟩
      rw [← h2]; congr 1; omega
  by_cases hl : b - a < fl - f
  · rw [if_pos hl]
    congr 1; symm; rw [decide_eq_false_iff_not, key]; omega
  · rw [if_neg hl]
    obtain ⟨r, hr, hs⟩ := memcmp_spec mem (fl - f) a f (by omega) (by omega)
    rw [hr, ok_bind]
    congr 1
    refine decide_eq_decide.2 ?_
    rw [hs, key, show f + (fl - f) = fl by omega]
    simp; intros; omega

theorem endsWithN_spec {mem : List Byte} {a b f fl : Nat} (h : Range mem a b) (hf : Range mem f fl) :
    endsWithN mem a b f fl = .ok (decide (slice mem f fl <:+ slice mem a b)) := by
  have := h.1; have := h.2; have := hf.1; have := hf.2
  rw [endsWithN, assert_ok (by simpa using h.1), ok_bind, assert_ok (by simpa using hf.1), ok_bind, distance_ok h.1,
    ok_bind, distance_ok hf.1, ok_bind]
  have key : slice mem f fl <:+ slice mem a b ↔ (fl - f ≤ b - a ∧ slice mem (b - (fl - f)) b = slice mem f fl) := by
    rw [List.suffix_iff_eq_drop, length_slice hf.2, length_slice h.2]
    constructor
    · intro h'
      have hl : fl - f ≤ b - a := by
        have := congrArg List.length h'
        rw [length_slice hf.2, List.length_drop, length_slice h.2] at this
        omega
      refine ⟨hl, ?_⟩
      rw [h', slice, slice, List.drop_take, List.drop_drop]
      congr 1
      · omega
      · congr 1; omega
    · rintro ⟨h1, h2⟩
      rw [← h2, slice, slice, List.drop_take, List.drop_drop]
      congr 1
      · omega
      · congr 1; omega
  by_cases hl : b - a < fl - f
  · rw [if_pos hl]
    congr 1; symm; rw [decide_eq_false_iff_not, key]; omega
  · rw [if_neg hl]
    obtain ⟨r, hr, hs⟩ := memcmp_spec mem (fl - f) (b - (fl - f)) f (by omega) (by omega)
    rw [hr, ok_bind]
    congr 1
    refine decide_eq_decide.2 ?_
    rw [hs, key, show f + (fl - f) = fl by omega, show b - (fl - f) + (fl - f) = b by omega]
    simp; intros; omega

end Tm.Str
