import Verif.Str.CompareLemmas
import Verif.Num.Lemmas

/-! # Lemmas about `tmsu_human_compare_ansi_n` -/

namespace Tm.Str

theorem isdigit_eq (c : Byte) : isdigit c = isDigit c := rfl

theorem humanTokens_ne_nil {s : List Byte} : ∀ t ∈ humanTokens s, t ≠ [] := by
  induction s with
  | nil => simp [humanTokens]
  | cons x xs ih =>
    rw [humanTokens]
    split
    · rename_i y t ts h
      rw [h] at ih
      split
      · intro u hu
        rw [List.mem_cons] at hu
        rcases hu with rfl | hu
        · simp
        · exact ih u (List.mem_cons_of_mem _ hu)
      · intro u hu
        rw [List.mem_cons] at hu
        rcases hu with rfl | hu
        · simp
        · exact ih u hu
    · intro u hu
      rw [List.mem_cons] at hu
      rcases hu with rfl | hu
      · simp
      · exact ih u hu

theorem humanTokens_head {x : Byte} {xs : List Byte} : ∃ t ts, humanTokens (x :: xs) = (x :: t) :: ts := by
  rw [humanTokens]
  split
  · split
    · exact ⟨_, _, rfl⟩
    · exact ⟨_, _, rfl⟩
  · exact ⟨_, _, rfl⟩

theorem humanTokens_single {x : Byte} {xs : List Byte} (h : isDigit x = false ∨ xs = [] ∨ ∃ y ys, xs = y :: ys ∧ isDigit y = false) :
    humanTokens (x :: xs) = [x] :: humanTokens xs := by
  rw [humanTokens]
  split
  · rename_i y t ts he
    rw [if_neg, he]
    rcases h with h | h | ⟨z, zs, h, hz⟩
    · simp [h]
    · subst h; simp [humanTokens] at he
    · subst h
      obtain ⟨t', ts', h'⟩ := humanTokens_head (x := z) (xs := zs)
      rw [he] at h'
      cases h'
      simp [hz]
  · rfl

theorem humanTokens_number : ∀ {ds rest : List Byte}, ds ≠ [] → (∀ c ∈ ds, isDigit c = true) →
    (∀ c, rest.head? = some c → isDigit c = false) → humanTokens (ds ++ rest) = ds :: humanTokens rest
  | [], _, h, _, _ => absurd rfl h
  | [x], rest, _, _, hr => by
    refine humanTokens_single (Or.inr ?_)
    cases rest with
    | nil => exact Or.inl rfl
    | cons y ys => exact Or.inr ⟨y, ys, rfl, hr y rfl⟩
  | x :: y :: ds, rest, _, hd, hr => by
    have ih := humanTokens_number (ds := y :: ds) (rest := rest) (by simp)
      (fun c hc => hd c (List.mem_cons_of_mem _ hc)) hr
    rw [List.cons_append, humanTokens, ih]
    simp only
    rw [if_pos ⟨hd x (by simp), hd y (by simp)⟩]

theorem toInt32_ok {v : Int} (h0 : 0 ≤ v) (h : v ≤ 2147483647) : toInt32 v = .ok v := by
  rw [toInt32, if_pos ⟨by omega, h⟩]

theorem toInt32_over {v : Int} (h : 2147483647 < v) : toInt32 v = .error .overflow := by
  rw [toInt32, if_neg (by omega)]

theorem numVal_cons (d : Nat) (ds : List Nat) : Num.numVal 10 (d :: ds) = d * 10 ^ ds.length + Num.numVal 10 ds := by
  have := Num.numVal_append 10 [d] ds
  rw [List.singleton_append] at this
  rw [this]; simp [Num.numVal]

/-- Digit values of a text. -/
abbrev digs (s : List Byte) : List Nat := s.map (fun c => c.toNat - 48)

theorem isDigit_iff {c : Byte} : isDigit c = true ↔ 48 ≤ c.toNat ∧ c.toNat ≤ 57 := by simp [isDigit]

theorem humanDigits_spec (mem : List Byte) : ∀ n p (r : Nat), p + n ≤ mem.length →
    ∃ k, k ≤ n ∧ (∀ c ∈ slice mem p (p + k), isDigit c = true) ∧
      (k < n → ∃ c, mem[p + k]? = some c ∧ isDigit c = false) ∧
      (r * 10 ^ k + Num.numVal 10 (digs (slice mem p (p + k))) ≤ 2147483647 →
        humanDigits mem r p n = .ok (((r * 10 ^ k + Num.numVal 10 (digs (slice mem p (p + k))) : Nat) : Int), p + k)) ∧
      (2147483647 < r * 10 ^ k + Num.numVal 10 (digs (slice mem p (p + k))) → r ≤ 2147483647 →
        humanDigits mem r p n = .error .overflow)
  | 0, p, r, _ => by
    refine ⟨0, by omega, ?_, by omega, ?_, ?_⟩
    · rw [Nat.add_zero, slice_self]; simp
    · rw [Nat.add_zero, slice_self]; simp [humanDigits, Num.numVal]
    · rw [Nat.add_zero, slice_self]; simp [Num.numVal]; omega
  | n + 1, p, r, h => by
    rw [humanDigits, rd_ok (by omega), ok_bind, isdigit_eq]
    by_cases hd : isDigit (mem[p]'(by omega)) = true
    · rw [if_pos hd]
      have hd' := isDigit_iff.1 hd
      obtain ⟨k, hk, h1, h2, h3, h4⟩ := humanDigits_spec mem n (p + 1) (r * 10 + ((mem[p]'(by omega)).toNat - 48)) (by omega)
      have e1 : p + (k + 1) = p + 1 + k := by omega
      have key : r * 10 ^ (k + 1) + Num.numVal 10 (digs (slice mem p (p + 1 + k))) =
          (r * 10 + ((mem[p]'(by omega)).toNat - 48)) * 10 ^ k + Num.numVal 10 (digs (slice mem (p + 1) (p + 1 + k))) := by
        rw [slice_cons (a := p) (by omega) (by omega), digs, List.map_cons, numVal_cons, List.length_map,
          length_slice (by omega), show p + 1 + k - (p + 1) = k by omega]
        ring
      have hp : 1 ≤ 10 ^ k := Nat.one_le_two_pow.trans (Nat.pow_le_pow_left (by omega) k)
      have hle : r * 10 + ((mem[p]'(by omega)).toNat - 48) ≤
          (r * 10 + ((mem[p]'(by omega)).toNat - 48)) * 10 ^ k := Nat.le_mul_of_pos_right _ hp
      refine ⟨k + 1, by omega, ?_, ?_, ?_, ?_⟩
      · rw [e1, slice_cons (a := p) (by omega) (by omega)]
        intro c hc
        rw [List.mem_cons] at hc
        rcases hc with rfl | hc
        · exact hd
        · exact h1 c hc
      · intro hlt
        rw [e1]; exact h2 (by omega)
      · rw [e1, key]
        intro hv
        have e2 : ((r : Int) * 10) + (((mem[p]'(by omega)).toNat : Int) - 48) =
            ((r * 10 + ((mem[p]'(by omega)).toNat - 48) : Nat) : Int) := by omega
        rw [toInt32_ok (by omega) (by omega), ok_bind, e2, toInt32_ok (by omega) (by omega), ok_bind]
        exact h3 hv
      · rw [e1, key]
        intro hv hr
        by_cases ho : r * 10 ≤ 2147483647
        · have e2 : ((r : Int) * 10) + (((mem[p]'(by omega)).toNat : Int) - 48) =
            ((r * 10 + ((mem[p]'(by omega)).toNat - 48) : Nat) : Int) := by omega
          rw [toInt32_ok (by omega) (by omega), ok_bind, e2]
          by_cases ho2 : r * 10 + ((mem[p]'(by omega)).toNat - 48) ≤ 2147483647
          · rw [toInt32_ok (by omega) (by omega), ok_bind]
            exact h4 hv ho2
          · rw [toInt32_over (by omega), error_bind]
        · rw [toInt32_over (by omega), error_bind]
    · rw [if_neg hd]
      refine ⟨0, by omega, ?_, ?_, ?_, ?_⟩
      · rw [Nat.add_zero, slice_self]; simp
      · intro _
        exact ⟨_, List.getElem?_eq_getElem (by omega), by simpa using hd⟩
      · rw [Nat.add_zero, slice_self]; simp [Num.numVal]
      · rw [Nat.add_zero, slice_self]; simp [Num.numVal]

theorem slice_append {mem : List Byte} {a b c : Nat} (h1 : a ≤ b) (h2 : b ≤ c) :
    slice mem a c = slice mem a b ++ slice mem b c := by
  have e : c - a = (b - a) + (c - b) := by omega
  rw [slice, slice, slice, e, List.take_add, List.drop_drop, Nat.add_sub_cancel' h1]

theorem upperCode_lt (c : Byte) : upperCode c < 256 := by
  have := c.isLt
  rw [upperCode]; split <;> omega

theorem slice_one {mem : List Byte} {a : Nat} (h : a < mem.length) : slice mem a (a + 1) = [mem[a]] := by
  rw [slice_cons (by omega) (by omega), slice_self]

theorem humanParse_spec {mem : List Byte} {p last : Nat} (h : p < last) (hl : last ≤ mem.length) :
    ∃ q, p < q ∧ q ≤ last ∧
      humanTokens (slice mem p last) = slice mem p q :: humanTokens (slice mem q last) ∧
      ((tokenRank (slice mem p q) ≤ 2147483647 → humanParse mem p last = .ok ((tokenRank (slice mem p q) : Int), q)) ∧
       (2147483647 < tokenRank (slice mem p q) → humanParse mem p last = .error .overflow)) := by
  rw [humanParse, assert_ok (by simp; omega), ok_bind, rd_ok (by omega), ok_bind, isdigit_eq]
  by_cases hd : isDigit (mem[p]'(by omega)) = false
  · refine ⟨p + 1, by omega, by omega, ?_, ?_⟩
    · rw [slice_cons (a := p) (b := last) h hl, slice_one (by omega)]
      exact humanTokens_single (Or.inl hd)
    · have hr : tokenRank (slice mem p (p + 1)) = upperCode (mem[p]'(by omega)) := by
        rw [slice_one (by omega), tokenRank]; simp [hd]
      rw [hr, if_pos hd, upperCode_eq]
      have := upperCode_lt (mem[p]'(by omega))
      rw [upperCode_eq] at this
      exact ⟨fun _ => rfl, fun _ => by omega⟩
  · rw [if_neg hd]
    have hd' : isDigit (mem[p]'(by omega)) = true := by simpa using hd
    obtain ⟨k, hk, h1, h2, h3, h4⟩ := humanDigits_spec mem (last - p) p 0 (by omega)
    have hk0 : k ≠ 0 := by
      rintro rfl
      obtain ⟨c, hc, hc'⟩ := h2 (by omega)
      rw [Nat.add_zero, List.getElem?_eq_getElem (by omega)] at hc
      cases hc
      rw [hd'] at hc'; cases hc'
    have hlen : (slice mem p (p + k)).length = k := by rw [length_slice (by omega)]; omega
    have hne : slice mem p (p + k) ≠ [] := by
      intro he; rw [he] at hlen; simp at hlen; omega
    have hr : tokenRank (slice mem p (p + k)) = 256 + Num.numVal 10 (digs (slice mem p (p + k))) := by
      rw [slice_cons (a := p) (by omega) (by omega), tokenRank]
      rw [if_pos hd']
    refine ⟨p + k, by omega, by omega, ?_, ?_⟩
    · rw [slice_append (b := p + k) (by omega) (by omega)]
      refine humanTokens_number hne h1 ?_
      intro c hc
      by_cases hkl : p + k < last
      · obtain ⟨c', hc', hc''⟩ := h2 (by omega)
        rw [slice_cons (a := p + k) (by omega) (by omega), List.head?_cons] at hc
        rw [List.getElem?_eq_getElem (by omega)] at hc'
        rw [Option.some.injEq] at hc hc'
        rw [← hc, hc']; exact hc''
      · rw [show p + k = last by omega, slice_self] at hc
        simp at hc
    · rw [hr]
      rw [Nat.zero_mul, Nat.zero_add] at h3 h4
      have e : ((0 : Nat) : Int) = 0 := rfl
      rw [e] at h3 h4
      refine ⟨?_, ?_⟩
      · intro hv
        rw [h3 (by omega), ok_bind]
        show (toInt32 _ >>= fun r => _) = _
        rw [toInt32_ok (by omega) (by omega), ok_bind]
        congr 2; omega
      · intro hv
        by_cases hv' : 2147483647 < Num.numVal 10 (digs (slice mem p (p + k)))
        · rw [h4 hv' (by omega), error_bind]
        · rw [h3 (by omega), ok_bind]
          show (toInt32 _ >>= fun r => _) = _
          rw [toInt32_over (by omega), error_bind]

/-! ## Antisymmetry -/

/-- The result of a comparison with the sign reversed. -/
def negC : C Int → C Int
  | .ok d => .ok (-d)
  | .error e => .error e

theorem humanParse_total {mem : List Byte} {p last : Nat} (h : p < last) (hl : last ≤ mem.length) :
    humanParse mem p last = .error .overflow ∨
      ∃ (r : Nat) (q : Nat), r ≤ 2147483647 ∧ p < q ∧ q ≤ last ∧ humanParse mem p last = .ok ((r : Int), q) := by
  obtain ⟨q, h1, h2, _, h4, h5⟩ := humanParse_spec h hl
  by_cases hv : tokenRank (slice mem p q) ≤ 2147483647
  · exact Or.inr ⟨_, q, hv, h1, h2, h4 hv⟩
  · exact Or.inl (h5 (by omega))

theorem humanLoop_anti {mem : List Byte} {al bl : Nat} (hal : al ≤ mem.length) (hbl : bl ≤ mem.length) :
    ∀ fuel fuel' a b, a ≤ al → b ≤ bl → al - a < fuel → bl - b < fuel' →
      humanLoop mem bl al fuel' b a = negC (humanLoop mem al bl fuel a b)
  | 0, _, _, _, _, _, h, _ => by omega
  | _, 0, _, _, _, _, _, h => by omega
  | fuel + 1, fuel' + 1, a, b, ha, hb, h1, h2 => by
    rw [humanLoop, humanLoop]
    by_cases he : a ≠ al ∧ b ≠ bl
    · rw [if_pos he, if_pos he.symm]
      rcases humanParse_total (mem := mem) (p := a) (last := al) (by omega) hal with hx | ⟨x, qa, hx0, hx1, hx2, hx⟩
      · rw [hx, error_bind]
        rcases humanParse_total (mem := mem) (p := b) (last := bl) (by omega) hbl with hy | ⟨y, qb, hy0, hy1, hy2, hy⟩
        · rw [hy, error_bind]; rfl
        · rw [hy, ok_bind]; rfl
      · rcases humanParse_total (mem := mem) (p := b) (last := bl) (by omega) hbl with hy | ⟨y, qb, hy0, hy1, hy2, hy⟩
        · rw [hy, error_bind, hx, ok_bind]; rfl
        · rw [hx, hy, ok_bind, ok_bind]
          show (toInt32 ((y : Int) - x) >>= fun diff => _) = negC (toInt32 ((x : Int) - y) >>= fun diff => _)
          have t1 : toInt32 ((y : Int) - x) = .ok ((y : Int) - x) := by rw [toInt32, if_pos (by omega)]
          have t2 : toInt32 ((x : Int) - y) = .ok ((x : Int) - y) := by rw [toInt32, if_pos (by omega)]
          rw [t1, t2, ok_bind, ok_bind]
          by_cases hxy : x = y
          · rw [if_neg (by omega), if_neg (by omega)]
            exact humanLoop_anti hal hbl fuel fuel' qa qb hx2 hy2 (by omega) (by omega)
          · rw [if_pos (by omega), if_pos (by omega), negC]
            congr 1; omega
    · rw [if_neg he, if_neg (fun h => he h.symm), negC]
      rfl

theorem compareLen_neg (a b : Nat) : compareLen b a = - compareLen a b := by
  rw [compareLen, compareLen]
  split <;> split <;> omega

theorem compareEmpty_neg (a b : Nat) : compareEmpty b a = - compareEmpty a b := by
  rw [compareEmpty, compareEmpty]; omega

theorem humanCompareN_anti {mem : List Byte} {a al b bl : Nat} (ha : Range mem a al) (hb : Range mem b bl) :
    humanCompareN mem b bl a al = negC (humanCompareN mem a al b bl) := by
  rw [humanCompareN, humanCompareN, assert_ok (b := decide (a ≤ al)) (by simpa using ha.1),
    assert_ok (b := decide (b ≤ bl)) (by simpa using hb.1)]
  simp only [ok_bind, distance_ok ha.1, distance_ok hb.1]
  by_cases h0 : al - a = 0 ∨ bl - b = 0
  · rw [if_pos h0, if_pos h0.symm, negC, compareEmpty_neg]
  · rw [if_neg h0, if_neg (fun h => h0 h.symm)]
    by_cases hab : a = b
    · rw [if_pos hab, if_pos hab.symm, negC, compareLen_neg]
    · rw [if_neg hab, if_neg (fun h => hab h.symm),
        humanLoop_anti ha.2 hb.2 (al - a + 1) (bl - b + 1) a b ha.1 hb.1 (by omega) (by omega)]
      cases humanLoop mem al bl (al - a + 1) a b with
      | error e => rfl
      | ok d =>
        rw [negC, ok_bind, ok_bind]
        by_cases hd : d = 0
        · rw [if_neg (by omega), if_neg (by omega), negC, compareLen_neg]
        · rw [if_pos (by omega), if_pos hd, negC]

/-! ## Numbers without leading zeros -/

theorem tokenRank_number {x : Byte} {t : List Byte} (h : isDigit x = true) :
    tokenRank (x :: t) = 256 + Num.numVal 10 (digs (x :: t)) := by rw [tokenRank, if_pos h]

theorem tokenRank_other {x : Byte} {t : List Byte} (h : isDigit x = false) : tokenRank (x :: t) = upperCode x := by
  rw [tokenRank, if_neg (by simp [h])]

/-- What the tokens of a text look like. -/
theorem humanTokens_shape {s : List Byte} : ∀ t ∈ humanTokens s,
    (∃ x, t = [x] ∧ isDigit x = false) ∨ (t ≠ [] ∧ ∀ c ∈ t, isDigit c = true) := by
  induction s with
  | nil => simp [humanTokens]
  | cons x xs ih =>
    have single : ∀ ts, (∀ t ∈ ts, (∃ x, t = [x] ∧ isDigit x = false) ∨ (t ≠ [] ∧ ∀ c ∈ t, isDigit c = true)) →
        ∀ t ∈ [x] :: ts, (∃ x, t = [x] ∧ isDigit x = false) ∨ (t ≠ [] ∧ ∀ c ∈ t, isDigit c = true) := by
      intro ts hts t ht
      rw [List.mem_cons] at ht
      rcases ht with rfl | ht
      · by_cases hx : isDigit x = true
        · right; simp [hx]
        · left; exact ⟨x, rfl, by simpa using hx⟩
      · exact hts t ht
    rw [humanTokens]
    split
    · rename_i y t ts h
      rw [h] at ih
      split
      · rename_i hc
        intro u hu
        rw [List.mem_cons] at hu
        rcases hu with rfl | hu
        · right
          refine ⟨by simp, ?_⟩
          have := ih (y :: t) (by simp)
          rcases this with ⟨z, hz, hz'⟩ | ⟨_, h2⟩
          · cases hz
            rw [hc.2] at hz'; cases hz'
          · intro c hc'
            rw [List.mem_cons] at hc'
            rcases hc' with rfl | hc'
            · exact hc.1
            · exact h2 c hc'
        · exact ih u (List.mem_cons_of_mem _ hu)
      · exact single _ ih
    · exact single _ ih

theorem digs_canonical {t : List Byte} (hne : t ≠ []) (hd : ∀ c ∈ t, isDigit c = true)
    (hz : t.head? = some 48 → t = [48]) : Num.Canonical 10 (Num.numVal 10 (digs t)) (digs t) := by
  refine ⟨rfl, ?_, ?_, ?_⟩
  · intro d hd'
    rw [List.mem_map] at hd'
    obtain ⟨c, hc, rfl⟩ := hd'
    have := isDigit_iff.1 (hd c hc)
    omega
  · simpa using hne
  · intro h0
    cases t with
    | nil => exact absurd rfl hne
    | cons x xs =>
      simp only [digs, List.map_cons, List.head?_cons, Option.some.injEq] at h0
      have := isDigit_iff.1 (hd x (by simp))
      have hx : x = 48 := byte_eq_iff.2 (by show x.toNat = 48; omega)
      subst hx
      rw [hz rfl]
      rfl

theorem token_length_eq {t u : List Byte}
    (ht : (∃ x, t = [x] ∧ isDigit x = false) ∨ (t ≠ [] ∧ ∀ c ∈ t, isDigit c = true))
    (hu : (∃ x, u = [x] ∧ isDigit x = false) ∨ (u ≠ [] ∧ ∀ c ∈ u, isDigit c = true))
    (htz : t.head? = some 48 → t = [48]) (huz : u.head? = some 48 → u = [48])
    (h : tokenRank t = tokenRank u) : t.length = u.length := by
  have num : ∀ t : List Byte, t ≠ [] → (∀ c ∈ t, isDigit c = true) → tokenRank t = 256 + Num.numVal 10 (digs t) := by
    intro t hne hd
    cases t with
    | nil => exact absurd rfl hne
    | cons x xs => exact tokenRank_number (hd x (by simp))
  rcases ht with ⟨x, rfl, hx⟩ | ⟨htn, htd⟩
  · rcases hu with ⟨y, rfl, hy⟩ | ⟨hun, hud⟩
    · rfl
    · rw [tokenRank_other hx, num u hun hud] at h
      have := upperCode_lt x
      omega
  · rcases hu with ⟨y, rfl, hy⟩ | ⟨hun, hud⟩
    · rw [tokenRank_other hy, num t htn htd] at h
      have := upperCode_lt y
      omega
    · rw [num t htn htd, num u hun hud] at h
      have h' : Num.numVal 10 (digs t) = Num.numVal 10 (digs u) := by omega
      have c1 := Num.canonical_unique (by omega) (digs_canonical htn htd htz)
      have c2 := Num.canonical_unique (by omega) (digs_canonical hun hud huz)
      rw [h', ← c2] at c1
      have := congrArg List.length c1
      simpa using this

theorem humanLoop_spec {mem : List Byte} {al bl : Nat} (hal : al ≤ mem.length) (hbl : bl ≤ mem.length) :
    ∀ fuel a b, a ≤ al → b ≤ bl → al - a < fuel →
      NoLeadingZeros (slice mem a al) → NoLeadingZeros (slice mem b bl) →
      SmallNumbers (slice mem a al) → SmallNumbers (slice mem b bl) →
      ∃ d, humanLoop mem al bl fuel a b = .ok d ∧
        Compares (if d ≠ 0 then d else compareLen (al - a) (bl - b)) (humanRanks (slice mem a al)) (humanRanks (slice mem b bl))
  | 0, _, _, _, _, h, _, _, _, _ => by omega
  | fuel + 1, a, b, ha, hb, hf, hza, hzb, hsa, hsb => by
    rw [humanLoop]
    by_cases he : a ≠ al ∧ b ≠ bl
    · rw [if_pos he]
      obtain ⟨qa, ha1, ha2, hta, hpa, _⟩ := humanParse_spec (mem := mem) (p := a) (last := al) (by omega) hal
      obtain ⟨qb, hb1, hb2, htb, hpb, _⟩ := humanParse_spec (mem := mem) (p := b) (last := bl) (by omega) hbl
      have hma : slice mem a qa ∈ humanTokens (slice mem a al) := by rw [hta]; simp
      have hmb : slice mem b qb ∈ humanTokens (slice mem b bl) := by rw [htb]; simp
      have sa := hsa _ hma
      have sb := hsb _ hmb
      rw [hpa sa, hpb sb]
      simp only [ok_bind]
      rw [toInt32, if_pos (by omega), ok_bind]
      rw [humanRanks, humanRanks, hta, htb, List.map_cons, List.map_cons]
      by_cases hr : tokenRank (slice mem a qa) = tokenRank (slice mem b qb)
      · rw [if_neg (by omega), hr]
        have hlen := token_length_eq (humanTokens_shape _ hma) (humanTokens_shape _ hmb) (hza _ hma) (hzb _ hmb) hr
        rw [length_slice (by omega), length_slice (by omega)] at hlen
        have sub_a : ∀ t ∈ humanTokens (slice mem qa al), t ∈ humanTokens (slice mem a al) := by
          intro t ht; rw [hta]; exact List.mem_cons_of_mem _ ht
        have sub_b : ∀ t ∈ humanTokens (slice mem qb bl), t ∈ humanTokens (slice mem b bl) := by
          intro t ht; rw [htb]; exact List.mem_cons_of_mem _ ht
        obtain ⟨d, hd, hc⟩ := humanLoop_spec hal hbl fuel qa qb ha2 hb2 (by omega) (fun t ht => hza t (sub_a t ht))
          (fun t ht => hzb t (sub_b t ht)) (fun t ht => hsa t (sub_a t ht)) (fun t ht => hsb t (sub_b t ht))
        refine ⟨d, hd, compares_cons _ ?_⟩
        have : compareLen (al - a) (bl - b) = compareLen (al - qa) (bl - qb) := by
          have e1 : (al - a > bl - b) ↔ (al - qa > bl - qb) := by omega
          have e2 : (al - a < bl - b) ↔ (al - qa < bl - qb) := by omega
          simp only [compareLen, e1, e2]
        rw [this]
        exact hc
      · rw [if_pos (by omega)]
        refine ⟨_, rfl, ?_⟩
        rw [if_pos (by omega)]
        exact compares_diff hr _ _
    · rw [if_neg he]
      refine ⟨0, rfl, ?_⟩
      rw [if_neg (by simp)]
      by_cases h1 : a = al
      · subst h1
        rw [slice_self]
        by_cases h2 : b = bl
        · subst h2
          rw [slice_self, Nat.sub_self, Nat.sub_self]
          exact compares_nil_nil
        · rw [slice_cons (a := b) (by omega) hbl]
          obtain ⟨t, ts, ht⟩ := humanTokens_head (x := mem[b]'(by omega)) (xs := slice mem (b + 1) bl)
          rw [humanRanks, humanRanks, ht]
          refine compares_nil_cons _ ?_ _ _
          rw [compareLen, if_neg (by omega), if_pos (by omega)]; omega
      · have h2 : b = bl := by
          by_cases h2 : b = bl
          · exact h2
          · exact absurd ⟨h1, h2⟩ he
        subst h2
        rw [slice_self, slice_cons (a := a) (by omega) hal]
        obtain ⟨t, ts, ht⟩ := humanTokens_head (x := mem[a]'(by omega)) (xs := slice mem (a + 1) al)
        rw [humanRanks, humanRanks, ht]
        refine compares_cons_nil _ ?_ _ _
        rw [compareLen, if_pos (by omega)]; omega

theorem Compares.lt {x y : List Nat} (h : x < y) {r : Int} (hr : r < 0) : Compares r x y := by
  refine ⟨by simp [hr, h], ?_, ?_⟩
  · constructor
    · intro h0; omega
    · rintro rfl; exact absurd h (List.lt_irrefl x)
  · constructor
    · intro h0; omega
    · intro h'; exact absurd (List.lt_trans h h') (List.lt_irrefl x)

theorem takeWhile_split (p : Byte → Bool) (s : List Byte) : ∃ ds rest, s = ds ++ rest ∧ (∀ c ∈ ds, p c = true) ∧
    (∀ c, rest.head? = some c → p c = false) := by
  induction s with
  | nil => exact ⟨[], [], rfl, by simp, by simp⟩
  | cons x xs ih =>
    by_cases hx : p x = true
    · obtain ⟨ds, rest, h1, h2, h3⟩ := ih
      refine ⟨x :: ds, rest, by rw [h1]; rfl, ?_, h3⟩
      intro c hc
      rw [List.mem_cons] at hc
      rcases hc with rfl | hc
      · exact hx
      · exact h2 c hc
    · refine ⟨[], x :: xs, rfl, by simp, ?_⟩
      intro c hc
      rw [List.head?_cons, Option.some.injEq] at hc
      rw [← hc]; simpa using hx

theorem humanRanks_prefix : ∀ (n : Nat) (s u : List Byte), s.length ≤ n → u ≠ [] → NoLeadingZeros (s ++ u) →
    humanRanks s < humanRanks (s ++ u)
  | _, [], u, _, hu, _ => by
    cases u with
    | nil => exact absurd rfl hu
    | cons y ys =>
      obtain ⟨t, ts, ht⟩ := humanTokens_head (x := y) (xs := ys)
      rw [List.nil_append, humanRanks, humanRanks, ht, humanTokens]
      exact List.nil_lt_cons _ _
  | 0, x :: xs, u, h, _, _ => by simp at h
  | n + 1, x :: xs, u, hn, hu, hz => by
    rw [List.length_cons] at hn
    by_cases hx : isDigit x = false
    · rw [List.cons_append] at hz ⊢
      have e := humanTokens_single (x := x) (xs := xs ++ u) (Or.inl hx)
      rw [humanRanks, humanRanks, e, humanTokens_single (Or.inl hx), List.map_cons, List.map_cons,
        List.cons_lt_cons_iff]
      right
      refine ⟨rfl, humanRanks_prefix n xs u (by omega) hu ?_⟩
      intro t ht
      exact hz t (by rw [e]; exact List.mem_cons_of_mem _ ht)
    · have hx' : isDigit x = true := by simpa using hx
      obtain ⟨ds, rest, he, hd, hr⟩ := takeWhile_split isDigit (x :: xs)
      have hds : ds ≠ [] := by
        rintro rfl
        rw [List.nil_append] at he
        have := hr x (by rw [← he]; rfl)
        rw [hx'] at this; cases this
      have hlen : ds.length + rest.length = xs.length + 1 := by
        have := congrArg List.length he
        rw [List.length_cons, List.length_append] at this
        omega
      have hpos : 0 < ds.length := List.length_pos_iff.2 hds
      rw [he] at hz ⊢
      by_cases hrest : rest = []
      · subst hrest
        rw [List.append_nil] at hz ⊢
        have t1 : humanTokens ds = [ds] := by
          have := humanTokens_number (rest := []) hds hd (by simp)
          rw [List.append_nil] at this
          rw [this]; rfl
        obtain ⟨es, rest', he', hd', hr'⟩ := takeWhile_split isDigit u
        subst he'
        rw [← List.append_assoc] at hz ⊢
        have t2 : humanTokens (ds ++ es ++ rest') = (ds ++ es) :: humanTokens rest' := by
          refine humanTokens_number (by simp [hds]) ?_ hr'
          intro c hc
          rw [List.mem_append] at hc
          exact hc.elim (hd c) (hd' c)
        rw [humanRanks, humanRanks, t1, t2, List.map_cons, List.map_cons, List.map_nil, List.cons_lt_cons_iff]
        by_cases hes : es = []
        · subst hes
          rw [List.append_nil]
          right
          refine ⟨rfl, ?_⟩
          cases rest' with
          | nil => exact absurd rfl hu
          | cons y ys =>
            obtain ⟨t, ts, ht⟩ := humanTokens_head (x := y) (xs := ys)
            rw [ht]
            exact List.nil_lt_cons _ _
        · left
          have hzz := hz (ds ++ es) (by rw [t2]; simp)
          obtain ⟨d, ds', rfl⟩ : ∃ d ds', ds = d :: ds' := by
            cases ds with
            | nil => exact absurd rfl hds
            | cons d ds' => exact ⟨d, ds', rfl⟩
          have hdd := hd d (by simp)
          have hd48 := isDigit_iff.1 hdd
          have hpe : 0 < es.length := List.length_pos_iff.2 hes
          have hne : d.toNat ≠ 48 := by
            intro h48
            have : d = 48 := byte_eq_iff.2 h48
            subst this
            have := congrArg List.length (hzz rfl)
            rw [List.length_append, List.length_cons, List.length_singleton] at this
            omega
          rw [List.cons_append, tokenRank_number hdd, tokenRank_number hdd, ← List.cons_append, digs, digs,
            List.map_append, Num.numVal_append, List.length_map]
          have h1 : 1 ≤ Num.numVal 10 (List.map (fun c : Byte => c.toNat - 48) (d :: ds')) := by
            rw [List.map_cons, numVal_cons]
            have : 1 ≤ (d.toNat - 48) * 10 ^ (List.map (fun c : Byte => c.toNat - 48) ds').length :=
              Nat.mul_pos (by omega) (Nat.pow_pos (by omega))
            omega
          have h2 : 10 ≤ 10 ^ es.length := by
            calc 10 = 10 ^ 1 := rfl
              _ ≤ 10 ^ es.length := Nat.pow_le_pow_right (by omega) hpe
          generalize Num.numVal 10 (List.map (fun c : Byte => c.toNat - 48) (d :: ds')) = v at *
          generalize 10 ^ es.length = w at *
          have : v * 10 ≤ v * w := Nat.mul_le_mul_left _ h2
          omega
      · have hr2 : ∀ c, (rest ++ u).head? = some c → isDigit c = false := by
          cases rest with
          | nil => exact absurd rfl hrest
          | cons y ys => exact hr
        have t1 := humanTokens_number hds hd hr
        have t2 := humanTokens_number hds hd hr2
        rw [List.append_assoc] at hz ⊢
        rw [humanRanks, humanRanks, t1, t2, List.map_cons, List.map_cons, List.cons_lt_cons_iff]
        right
        refine ⟨rfl, humanRanks_prefix n rest u (by omega) hu ?_⟩
        intro t ht
        exact hz t (by rw [t2]; exact List.mem_cons_of_mem _ ht)

theorem humanCompareN_spec {mem : List Byte} {a al b bl : Nat} (ha : Range mem a al) (hb : Range mem b bl)
    (hza : NoLeadingZeros (slice mem a al)) (hzb : NoLeadingZeros (slice mem b bl))
    (hsa : SmallNumbers (slice mem a al)) (hsb : SmallNumbers (slice mem b bl)) :
    ∃ d, humanCompareN mem a al b bl = .ok d ∧
      Compares d (humanRanks (slice mem a al)) (humanRanks (slice mem b bl)) := by
  rw [humanCompareN, assert_ok (by simpa using ha.1), ok_bind, assert_ok (by simpa using hb.1), ok_bind,
    distance_ok ha.1, ok_bind, distance_ok hb.1, ok_bind]
  have ha1 := ha.1; have ha2 := ha.2; have hb1 := hb.1; have hb2 := hb.2
  by_cases h0 : al - a = 0 ∨ bl - b = 0
  · rw [if_pos h0]
    refine ⟨_, rfl, ?_⟩
    rw [compareEmpty_eq h0]
    obtain ⟨d, hd, hc⟩ := humanLoop_spec ha2 hb2 (al - a + 1) a b ha1 hb1 (by omega) hza hzb hsa hsb
    rw [humanLoop, if_neg (by omega)] at hd
    cases hd
    simpa using hc
  · rw [if_neg h0]
    by_cases hab : a = b
    · rw [if_pos hab]
      subst hab
      refine ⟨_, rfl, ?_⟩
      by_cases h1 : al < bl
      · have e := slice_append (mem := mem) (a := a) (b := al) (c := bl) ha1 (by omega)
        rw [e] at hzb ⊢
        refine Compares.lt (humanRanks_prefix _ _ _ (Nat.le_refl _) ?_ hzb) ?_
        · rw [slice_cons (a := al) h1 hb2]; simp
        · rw [compareLen, if_neg (by omega), if_pos (by omega)]; omega
      · by_cases h2 : bl < al
        · have e := slice_append (mem := mem) (a := a) (b := bl) (c := al) hb1 (by omega)
          rw [e] at hza ⊢
          have := (Compares.lt (r := -1) (humanRanks_prefix _ _ _ (Nat.le_refl _) (by rw [slice_cons (a := bl) h2 ha2]; simp) hza)
            (by omega)).symm
          rw [compareLen, if_pos (by omega)]
          exact this
        · obtain rfl : al = bl := by omega
          rw [compareLen, if_neg (by omega), if_neg (by omega)]
          exact ⟨by simp, by simp, by simp⟩
    · rw [if_neg hab]
      obtain ⟨d, hd, hc⟩ := humanLoop_spec ha2 hb2 (al - a + 1) a b ha1 hb1 (by omega) hza hzb hsa hsb
      rw [hd, ok_bind]
      by_cases hz : d ≠ 0
      · rw [if_pos hz] at hc ⊢
        exact ⟨d, rfl, hc⟩
      · rw [if_neg hz] at hc ⊢
        exact ⟨_, rfl, hc⟩

end Tm.Str
