import Verif.Str.HumanLemmas

/-! # Lemmas about the case-insensitive comparisons -/

namespace Tm.Str

theorem upper_toNat_eq {x y : Byte} : toupper x = toupper y ↔ upperCode x = upperCode y := by
  rw [byte_eq_iff, upperCode_eq, upperCode_eq]

theorem ofNat64_pred {n : Nat} : BitVec.ofNat 64 (n + 1) - 1 = BitVec.ofNat 64 n := by
  apply BitVec.eq_of_toNat_eq
  have h1 : (1 : BitVec 64).toNat = 1 := rfl
  rw [BitVec.toNat_sub, h1]
  simp only [BitVec.toNat_ofNat]
  omega

theorem ofNat64_zero {n : Nat} (h : n < 2 ^ 64) : BitVec.ofNat 64 n = 0 ↔ n = 0 := by
  constructor
  · intro he
    have := congrArg BitVec.toNat he
    simp only [BitVec.toNat_ofNat] at this
    rw [Nat.mod_eq_of_lt h] at this
    simpa using this
  · rintro rfl; rfl

theorem strnicmpEnd_zero (x y : Byte) : strnicmpEnd x y (BitVec.ofNat 64 0) = .ok 0 := rfl

theorem strnicmpEnd_pos (x y : Byte) {n : Nat} (h : n + 1 < 2 ^ 64) :
    strnicmpEnd x y (BitVec.ofNat 64 (n + 1)) = .ok ((upperCode x : Int) - upperCode y) := by
  rw [strnicmpEnd, if_neg (fun h' => by have := (ofNat64_zero h).1 h'; omega), upperCode_eq, upperCode_eq]

/-- `tmsu_strnicmp` when the characters agree one further than asked for. -/
theorem strnicmpL_agree : ∀ (n : Nat) (s d t t' : List Byte), 0 ∉ s → 0 ∉ d → n < 2 ^ 64 →
    upperCodes (s.take (n + 1)) = upperCodes (d.take (n + 1)) →
    strnicmpL (s ++ 0 :: t) (d ++ 0 :: t') (BitVec.ofNat 64 n) = .ok 0
  | n, [], [], t, t', _, _, _, _ => by
    rw [List.nil_append, List.nil_append, strnicmpL, if_neg (by simp), strnicmpEnd]; simp
  | n, [], y :: d, t, t', _, _, _, h => by simp [upperCodes] at h
  | n, x :: s, [], t, t', _, _, _, h => by simp [upperCodes] at h
  | n, x :: s, y :: d, t, t', hs, hd, hn, h => by
    rw [List.mem_cons, not_or] at hs hd
    rw [List.take_succ_cons, List.take_succ_cons, upperCodes, upperCodes, List.map_cons, List.map_cons,
      List.cons_eq_cons] at h
    rw [List.cons_append, List.cons_append, strnicmpL, if_pos ⟨fun h => hs.1 h.symm, fun h => hd.1 h.symm⟩]
    cases n with
    | zero =>
      rw [if_pos (show BitVec.ofNat 64 0 = 0 from rfl), strnicmpEnd, upper_toNat_eq.2 h.1]
      simp
    | succ n =>
      rw [if_neg (fun h' => by have := (ofNat64_zero hn).1 h'; omega), if_neg (by simpa using upper_toNat_eq.2 h.1),
        ofNat64_pred]
      exact strnicmpL_agree n s d t t' hs.2 hd.2 (by omega) h.2

/-- `tmsu_strnicmp` when there is a difference before the last of the characters asked for. -/
theorem strnicmpL_differ : ∀ (n : Nat) (s d t t' : List Byte), 0 ∉ s → 0 ∉ d → n + 1 < 2 ^ 64 →
    upperCodes (s.take n) ≠ upperCodes (d.take n) →
    ∃ r, strnicmpL (s ++ 0 :: t) (d ++ 0 :: t') (BitVec.ofNat 64 (n + 1)) = .ok r ∧
      Compares r (upperCodes (s.take (n + 1))) (upperCodes (d.take (n + 1)))
  | 0, _, _, t, t', _, _, _, h => by simp at h
  | n + 1, [], [], t, t', _, _, _, h => by simp at h
  | n + 1, [], y :: d, t, t', _, hd, hn, h => by
    rw [List.mem_cons, not_or] at hd
    have := upper_pos (fun h => hd.1 (Eq.symm h))
    refine ⟨_, by rw [List.nil_append, List.cons_append, strnicmpL, if_neg (by simp), strnicmpEnd_pos _ _ hn], ?_⟩
    exact compares_nil_cons _ (by rw [upper0]; omega) _ _
  | n + 1, x :: s, [], t, t', hs, _, hn, h => by
    rw [List.mem_cons, not_or] at hs
    have := upper_pos (fun h => hs.1 (Eq.symm h))
    refine ⟨_, by rw [List.nil_append, List.cons_append, strnicmpL, if_neg (by simp), strnicmpEnd_pos _ _ hn], ?_⟩
    exact compares_cons_nil _ (by rw [upper0]; omega) _ _
  | n + 1, x :: s, y :: d, t, t', hs, hd, hn, h => by
    rw [List.mem_cons, not_or] at hs hd
    rw [List.cons_append, List.cons_append, strnicmpL, if_pos ⟨fun h => hs.1 h.symm, fun h => hd.1 h.symm⟩,
      if_neg (fun h' => by have := (ofNat64_zero hn).1 h'; omega), ofNat64_pred]
    by_cases hx : upperCode x = upperCode y
    · rw [if_neg (by simpa using upper_toNat_eq.2 hx)]
      rw [List.take_succ_cons, List.take_succ_cons, upperCodes, upperCodes, List.map_cons, List.map_cons, hx, Ne,
        List.cons_eq_cons] at h
      obtain ⟨r, hr, hc⟩ := strnicmpL_differ n s d t t' hs.2 hd.2 (by omega) (fun h' => h ⟨rfl, h'⟩)
      refine ⟨r, hr, ?_⟩
      rw [List.take_succ_cons, List.take_succ_cons, upperCodes, upperCodes, List.map_cons, List.map_cons, hx]
      exact compares_cons _ hc
    · rw [if_pos (fun h' => hx (upper_toNat_eq.1 h')), strnicmpEnd_pos _ _ (by omega)]
      exact ⟨_, rfl, compares_diff hx _ _⟩

/-- `tmsu_strnicmp` with the length of the second text. -/
theorem strnicmpL_prefix : ∀ (d s t t' : List Byte), 0 ∉ s → 0 ∉ d → d.length < 2 ^ 64 →
    ∃ r, strnicmpL (s ++ 0 :: t) (d ++ 0 :: t') (BitVec.ofNat 64 d.length) = .ok r ∧
      (r = 0 ↔ (d.length ≤ s.length ∧ upperCodes (s.take (d.length - 1)) = upperCodes (d.take (d.length - 1))))
  | [], s, t, t', _, _, _ => by
    refine ⟨0, ?_, by simp⟩
    cases s <;> simp [strnicmpL, strnicmpEnd]
  | y :: d, [], t, t', _, hd, hn => by
    rw [List.mem_cons, not_or] at hd
    have := upper_pos (fun h => hd.1 (Eq.symm h))
    rw [List.length_cons] at hn ⊢
    refine ⟨_, by rw [List.nil_append, List.cons_append, strnicmpL, if_neg (by simp), strnicmpEnd_pos _ _ hn], ?_⟩
    rw [upper0]
    simp
    omega
  | y :: d, x :: s, t, t', hs, hd, hn => by
    rw [List.mem_cons, not_or] at hs hd
    rw [List.length_cons] at hn ⊢
    rw [List.cons_append, List.cons_append, strnicmpL, if_pos ⟨fun h => hs.1 h.symm, fun h => hd.1 h.symm⟩,
      if_neg (fun h' => by have := (ofNat64_zero hn).1 h'; omega), ofNat64_pred, List.length_cons]
    by_cases hx : upperCode x = upperCode y
    · rw [if_neg (by simpa using upper_toNat_eq.2 hx)]
      obtain ⟨r, hr, hc⟩ := strnicmpL_prefix d s t t' hs.2 hd.2 (by omega)
      refine ⟨r, hr, ?_⟩
      rw [hc]
      cases d with
      | nil => simp
      | cons z d =>
        simp only [List.length_cons, Nat.add_sub_cancel, List.take_succ_cons, upperCodes, List.map_cons,
          List.cons_eq_cons, hx, true_and]
        simp
    · rw [if_pos (fun h' => hx (upper_toNat_eq.1 h'))]
      cases d with
      | nil => exact ⟨0, rfl, by simp⟩
      | cons z d =>
        rw [List.length_cons] at hn ⊢
        rw [strnicmpEnd_pos _ _ (by omega)]
        refine ⟨_, rfl, ?_⟩
        simp only [List.length_cons, Nat.add_sub_cancel, List.take_succ_cons, upperCodes, List.map_cons,
          List.cons_eq_cons, hx, false_and, and_false, iff_false]
        omega

theorem strnicmp_agree {mem s d : List Byte} {p q n : Nat} (hp : ZStr mem p s) (hq : ZStr mem q d) (hn : n < 2 ^ 64)
    (h : upperCodes (s.take (n + 1)) = upperCodes (d.take (n + 1))) :
    strnicmp mem p q (BitVec.ofNat 64 n) = .ok 0 := by
  obtain ⟨⟨t, ht⟩, h0⟩ := hp
  obtain ⟨⟨t', ht'⟩, h0'⟩ := hq
  rw [strnicmp, ht, ht']
  exact strnicmpL_agree n s d t t' h0 h0' hn h

theorem strnicmp_differ {mem s d : List Byte} {p q n : Nat} (hp : ZStr mem p s) (hq : ZStr mem q d) (hn : n + 1 < 2 ^ 64)
    (h : upperCodes (s.take n) ≠ upperCodes (d.take n)) :
    ∃ r, strnicmp mem p q (BitVec.ofNat 64 (n + 1)) = .ok r ∧
      Compares r (upperCodes (s.take (n + 1))) (upperCodes (d.take (n + 1))) := by
  obtain ⟨⟨t, ht⟩, h0⟩ := hp
  obtain ⟨⟨t', ht'⟩, h0'⟩ := hq
  rw [strnicmp, ht, ht']
  exact strnicmpL_differ n s d t t' h0 h0' hn h

theorem startsWithIgnoreCase_spec {mem s d : List Byte} {p q : Nat} (hp : ZStr mem p s) (hq : ZStr mem q d)
    (hn : d.length < 2 ^ 64) : startsWithIgnoreCase mem p q =
      .ok (decide (d.length ≤ s.length ∧ upperCodes (s.take (d.length - 1)) = upperCodes (d.take (d.length - 1)))) := by
  rw [startsWithIgnoreCase, strlen_eq hq, ok_bind]
  obtain ⟨⟨t, ht⟩, h0⟩ := hp
  obtain ⟨⟨t', ht'⟩, h0'⟩ := hq
  rw [strnicmp, ht, ht']
  obtain ⟨r, hr, hc⟩ := strnicmpL_prefix d s t t' h0 h0' hn
  rw [hr, ok_bind]
  congr 1
  exact decide_eq_decide.2 hc

/-! ## The forms with ranges -/

theorem upperCodes_iff {s d : List Byte} : upperCodes s = upperCodes d ↔ List.Forall₂ SameLetter s d := by
  induction s generalizing d with
  | nil => cases d <;> simp [upperCodes]
  | cons x s ih =>
    cases d with
    | nil => simp [upperCodes]
    | cons y d =>
      rw [List.forall₂_cons, ← ih, ← toupper_eq_iff, upper_toNat_eq]
      simp [upperCodes]

theorem equalsIgnoreCaseL_spec (mem : List Byte) : ∀ n a b, a + n ≤ mem.length → b + n ≤ mem.length →
    equalsIgnoreCaseL mem a b n =
      .ok (decide (upperCodes (slice mem a (a + n)) = upperCodes (slice mem b (b + n))))
  | 0, a, b, _, _ => by simp [equalsIgnoreCaseL, slice_self]
  | n + 1, a, b, ha, hb => by
    have e1 : a + (n + 1) = a + 1 + n := by omega
    have e2 : b + (n + 1) = b + 1 + n := by omega
    rw [equalsIgnoreCaseL, rd_ok (by omega), ok_bind, rd_ok (by omega), ok_bind, e1, e2,
      slice_cons (a := a) (by omega) (by omega), slice_cons (a := b) (by omega) (by omega), upperCodes, upperCodes,
      List.map_cons, List.map_cons]
    by_cases hx : toupper (mem[a]'(by omega)) = toupper (mem[b]'(by omega))
    · rw [if_neg (by simpa using hx), equalsIgnoreCaseL_spec mem n (a + 1) (b + 1) (by omega) (by omega),
        upper_toNat_eq.1 hx]
      congr 1
      refine decide_eq_decide.2 ?_
      rw [List.cons_eq_cons]
      simp [upperCodes]
    · rw [if_pos hx]
      congr 1
      symm
      rw [decide_eq_false_iff_not, List.cons_eq_cons]
      intro h
      exact hx (upper_toNat_eq.2 h.1)

theorem equalsIgnoreCaseN_spec {mem : List Byte} {a al b bl : Nat} (ha : Range mem a al) (hb : Range mem b bl) :
    equalsIgnoreCaseN mem a al b bl = .ok (decide (upperCodes (slice mem a al) = upperCodes (slice mem b bl))) := by
  have := ha.1; have := ha.2; have := hb.1; have := hb.2
  rw [equalsIgnoreCaseN, distance_ok ha.1, ok_bind, distance_ok hb.1, ok_bind]
  by_cases h : al - a = bl - b
  · rw [if_neg (by simpa using h), equalsIgnoreCaseL_spec mem _ a b (by omega) (by omega),
      show b + (al - a) = bl by omega, Nat.add_sub_cancel' ha.1]
  · rw [if_pos h]
    congr 1
    symm
    rw [decide_eq_false_iff_not]
    intro he
    have := congrArg List.length he
    rw [upperCodes, upperCodes, List.length_map, List.length_map, length_slice ha.2, length_slice hb.2] at this
    exact h this

theorem startsWithIgnoreCaseN_spec {mem : List Byte} {a b f fl : Nat} (h : Range mem a b) (hf : Range mem f fl) :
    startsWithIgnoreCaseN mem a b f fl =
      .ok (decide (upperCodes (slice mem f fl) <+: upperCodes (slice mem a b))) := by
  have h1 := h.1; have h2 := h.2; have h3 := hf.1; have h4 := hf.2
  rw [startsWithIgnoreCaseN, assert_ok (by simpa using h.1), ok_bind, assert_ok (by simpa using hf.1), ok_bind,
    distance_ok h.1, ok_bind, distance_ok hf.1, ok_bind]
  by_cases hl : b - a < fl - f
  · rw [if_pos hl]
    congr 1; symm; rw [decide_eq_false_iff_not]
    intro hp
    have := hp.length_le
    rw [upperCodes, upperCodes, List.length_map, List.length_map, length_slice h2, length_slice h4] at this
    omega
  · rw [if_neg hl]
    obtain ⟨r, hr, hs⟩ := compareIgnoreCaseN_spec (mem := mem) (a := a) (al := a + (fl - f)) (b := f) (bl := fl)
      ⟨by omega, by omega⟩ hf
    rw [hr, ok_bind]
    congr 1
    refine decide_eq_decide.2 ?_
    rw [hs.2.1, slice_append (mem := mem) (a := a) (b := a + (fl - f)) (c := b) (by omega) (by omega), upperCodes,
      upperCodes, upperCodes, List.map_append]
    constructor
    · intro he; rw [he]; exact List.prefix_append _ _
    · intro hp
      have hl1 : (List.map upperCode (slice mem f fl)).length = (List.map upperCode (slice mem a (a + (fl - f)))).length := by
        rw [List.length_map, List.length_map, length_slice h4, length_slice (by omega)]; omega
      exact ((List.prefix_of_prefix_length_le hp (List.prefix_append _ _) (Nat.le_of_eq hl1)).eq_of_length hl1).symm

theorem endsWithIgnoreCaseN_spec {mem : List Byte} {a b f fl : Nat} (h : Range mem a b) (hf : Range mem f fl) :
    endsWithIgnoreCaseN mem a b f fl =
      .ok (decide (upperCodes (slice mem f fl) <:+ upperCodes (slice mem a b))) := by
  have h1 := h.1; have h2 := h.2; have h3 := hf.1; have h4 := hf.2
  rw [endsWithIgnoreCaseN, assert_ok (by simpa using h.1), ok_bind, assert_ok (by simpa using hf.1), ok_bind,
    distance_ok h.1, ok_bind, distance_ok hf.1, ok_bind]
  by_cases hl : b - a < fl - f
  · rw [if_pos hl]
    congr 1; symm; rw [decide_eq_false_iff_not]
    intro hp
    have := hp.length_le
    rw [upperCodes, upperCodes, List.length_map, List.length_map, length_slice h2, length_slice h4] at this
    omega
  · rw [if_neg hl]
    obtain ⟨r, hr, hs⟩ := compareIgnoreCaseN_spec (mem := mem) (a := b - (fl - f)) (al := b) (b := f) (bl := fl)
      ⟨by omega, by omega⟩ hf
    rw [hr, ok_bind]
    congr 1
    refine decide_eq_decide.2 ?_
    rw [hs.2.1, slice_append (mem := mem) (a := a) (b := b - (fl - f)) (c := b) (by omega) (by omega), upperCodes,
      upperCodes, upperCodes, List.map_append]
    constructor
    · intro he; rw [he]; exact List.suffix_append _ _
    · intro hp
      have hl1 : (List.map upperCode (slice mem f fl)).length = (List.map upperCode (slice mem (b - (fl - f)) b)).length := by
        rw [List.length_map, List.length_map, length_slice h4, length_slice (by omega)]; omega
      exact ((List.suffix_of_suffix_length_le hp (List.suffix_append _ _) (Nat.le_of_eq hl1)).eq_of_length hl1).symm

theorem endsWith_spec {mem s d : List Byte} {p q : Nat} (hp : ZStr mem p s) (hq : ZStr mem q d) :
    endsWith mem p q = .ok (decide (d <:+ s)) := by
  rw [endsWith, strlen_eq hp, ok_bind, strlen_eq hq, ok_bind, endsWithN_spec hp.range hq.range, hp.slice, hq.slice]

theorem endsWithIgnoreCase_spec {mem s d : List Byte} {p q : Nat} (hp : ZStr mem p s) (hq : ZStr mem q d) :
    endsWithIgnoreCase mem p q = .ok (decide (upperCodes d <:+ upperCodes s)) := by
  rw [endsWithIgnoreCase, strlen_eq hp, ok_bind, strlen_eq hq, ok_bind, endsWithIgnoreCaseN_spec hp.range hq.range,
    hp.slice, hq.slice]

theorem startsWith_spec {mem s d : List Byte} {p q : Nat} (hp : ZStr mem p s) (hq : ZStr mem q d) :
    startsWith mem p q = .ok (decide (d <+: s)) := by
  rw [startsWith, strlen_eq hq, ok_bind]
  obtain ⟨r, hr, hs⟩ := strncmp_spec hp hq
  rw [hr, ok_bind]
  congr 1
  exact decide_eq_decide.2 hs

end Tm.Str
