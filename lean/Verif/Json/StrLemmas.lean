import Verif.Json.Model
import Verif.Json.Spec
import Verif.Uni.Lemmas

/-! # Strings: finding the closing quotation mark and checking escapes -/

namespace Tm.Json

open Tm Spec Uni

/-! ### The closing quotation mark -/

/-- Reads a string from left to right: the position of the first quotation mark that does not belong to an escape. -/
def scan : List Byte → Option Nat
  | [] => none
  | c :: t =>
    if c = 0x22 then some 0
    else if c = 0x5C then
      match t with
      | [] => none
      | _ :: t' => (scan t').map (· + 2)
    else (scan t).map (· + 1)

theorem slashes_append (s t : List Byte) : ∀ n, n ≤ s.length → slashesBefore (s ++ t) n = slashesBefore s n
  | 0, _ => rfl
  | n + 1, h => by
    rw [slashesBefore, slashesBefore, List.getElem?_append_left (by omega), slashes_append s t n (by omega)]

theorem slashes_snoc (s : List Byte) (c : Byte) :
    slashesBefore (s ++ [c]) (s.length + 1) = if c = 0x5C then slashesBefore s s.length + 1 else 0 := by
  rw [slashesBefore, slashes_append _ _ _ (Nat.le_refl _)]
  simp

/-- Position `n` of `s` holds an unescaped quotation mark. -/
def Unesc (s : List Byte) (n : Nat) : Prop := s[n]? = some 0x22 ∧ isUnescaped s n = true

theorem scan_spec : ∀ (m : Nat) (t pre : List Byte), t.length ≤ m → slashesBefore pre pre.length % 2 = 0 →
    match scan t with
    | none => ∀ n, pre.length ≤ n → ¬ Unesc (pre ++ t) n
    | some p => Unesc (pre ++ t) (pre.length + p) ∧ ∀ n, pre.length ≤ n → n < pre.length + p → ¬ Unesc (pre ++ t) n := by
  intro m
  induction m with
  | zero =>
    intro t pre ht hpre
    have : t = [] := List.length_eq_zero_iff.mp (by omega)
    subst this
    rw [scan]
    intro n hn h
    have := h.1
    simp at this
    have := (List.getElem?_eq_some_iff.mp this).1
    omega
  | succ m ih =>
    intro t pre ht hpre
    match t, ht with
    | [], _ =>
      rw [scan]
      intro n hn h
      have := h.1
      simp at this
      have := (List.getElem?_eq_some_iff.mp this).1
      omega
    | c :: t, ht =>
      unfold scan
      by_cases hc : c = 0x22
      · rw [if_pos hc]
        subst hc
        refine ⟨⟨by simp, ?_⟩, fun n h1 h2 => by omega⟩
        rw [isUnescaped, Nat.add_zero, slashes_append _ _ _ (Nat.le_refl _)]
        simpa using hpre
      · rw [if_neg hc]
        by_cases hb : c = 0x5C
        · rw [if_pos hb]
          subst hb
          match t, ht with
          | [], _ =>
            intro n hn h
            have h1 := h.1
            by_cases e : n = pre.length
            · subst e
              simp at h1
            · rw [List.getElem?_append_right hn] at h1
              have := (List.getElem?_eq_some_iff.mp h1).1
              simp at this
              omega
          | x :: t', ht =>
            have e1 : pre ++ 0x5C :: x :: t' = (pre ++ [0x5C]) ++ (x :: t') := by simp
            have e2 : pre ++ 0x5C :: x :: t' = (pre ++ [0x5C] ++ [x]) ++ t' := by simp
            have hs1 : slashesBefore (pre ++ [0x5C]) (pre.length + 1) = slashesBefore pre pre.length + 1 := by
              rw [slashes_snoc]; rfl
            have hs2 : slashesBefore (pre ++ [0x5C] ++ [x]) (pre ++ [0x5C] ++ [x]).length % 2 = 0 := by
              have : (pre ++ [(0x5C : Byte)] ++ [x]).length = (pre ++ [(0x5C : Byte)]).length + 1 := by simp
              rw [this, slashes_snoc]
              split
              · rw [show (pre ++ [(0x5C : Byte)]).length = pre.length + 1 by simp, hs1]; omega
              · rfl
            have hlow : ∀ n, pre.length ≤ n → n < pre.length + 2 → ¬ Unesc (pre ++ 0x5C :: x :: t') n := by
              intro n h1 h2 h
              by_cases e : n = pre.length
              · subst e
                have := h.1
                simp at this
              · have en : n = pre.length + 1 := by omega
                have := h.2
                rw [en, e1, isUnescaped, slashes_append _ _ _ (by simp), hs1] at this
                simp at this
                omega
            have := ih t' (pre ++ [0x5C] ++ [x]) (by simp at ht; omega) hs2
            rw [← e2] at this
            have hl : (pre ++ [(0x5C : Byte)] ++ [x]).length = pre.length + 2 := by simp
            rw [hl] at this
            cases hsc : scan t' with
            | none =>
              rw [hsc] at this
              simp only [hsc, Option.map_none]
              intro n hn h
              by_cases h2 : n < pre.length + 2
              · exact hlow n hn h2 h
              · exact this n (by omega) h
            | some p =>
              rw [hsc] at this
              simp only [hsc, Option.map_some]
              refine ⟨by rw [show pre.length + (p + 2) = pre.length + 2 + p by omega]; exact this.1, ?_⟩
              intro n hn h3 h
              by_cases h2 : n < pre.length + 2
              · exact hlow n hn h2 h
              · exact this.2 n (by omega) (by omega) h
        · rw [if_neg hb]
          have e1 : pre ++ c :: t = (pre ++ [c]) ++ t := by simp
          have hs : slashesBefore (pre ++ [c]) (pre ++ [c]).length % 2 = 0 := by
            rw [show (pre ++ [c]).length = pre.length + 1 by simp, slashes_snoc, if_neg hb]
          have := ih t (pre ++ [c]) (by simp at ht; omega) hs
          rw [← e1] at this
          have hl : (pre ++ [c]).length = pre.length + 1 := by simp
          rw [hl] at this
          have hlow : ¬ Unesc (pre ++ c :: t) pre.length := by
            intro h
            have := h.1
            simp at this
            exact hc this
          cases hsc : scan t with
          | none =>
            rw [hsc] at this
            simp only [Option.map_none]
            intro n hn h
            by_cases h2 : n = pre.length
            · exact hlow (h2 ▸ h)
            · exact this n (by omega) h
          | some p =>
            rw [hsc] at this
            simp only [Option.map_some]
            refine ⟨by rw [show pre.length + (p + 1) = pre.length + 1 + p by omega]; exact this.1, ?_⟩
            intro n hn h3 h
            by_cases h2 : n = pre.length
            · exact hlow (h2 ▸ h)
            · exact this.2 n (by omega) (by omega) h

theorem memchr_none {s : List Byte} {c : Byte} : memchr s c = none ↔ ∀ n : Nat, s[n]? ≠ some c := by
  rw [memchr, List.findIdx?_eq_none_iff]
  constructor
  · intro h n hn
    have := h c (List.mem_of_getElem? hn)
    simp at this
  · intro h x hx
    obtain ⟨n, hn, e⟩ := List.getElem_of_mem hx
    have := h n
    rw [List.getElem?_eq_getElem hn, e] at this
    simpa using this

theorem memchr_some {s : List Byte} {c : Byte} {i : Nat} :
    memchr s c = some i ↔ s[i]? = some c ∧ ∀ n : Nat, n < i → s[n]? ≠ some c := by
  rw [memchr, List.findIdx?_eq_some_iff_getElem]
  constructor
  · rintro ⟨h, h1, h2⟩
    refine ⟨by rw [List.getElem?_eq_getElem h]; simpa using h1, fun n hn e => ?_⟩
    have := h2 n hn
    rw [List.getElem?_eq_getElem (by omega)] at e
    simp at e
    simp [e] at this
  · rintro ⟨h1, h2⟩
    obtain ⟨h, e⟩ := List.getElem?_eq_some_iff.mp h1
    refine ⟨h, by simpa using e, fun n hn => ?_⟩
    have := h2 n hn
    rw [List.getElem?_eq_getElem (by omega)] at this
    simpa using this

theorem findLoop_spec (s : List Byte) : ∀ (fuel pos : Nat), 0 < fuel → s.length < fuel + pos →
    ∃ r, findLoop s 0x22 fuel pos = .ok r ∧
      match r with
      | none => ∀ n, pos < n → ¬ Unesc s n
      | some p => pos < p ∧ Unesc s p ∧ ∀ n, pos < n → n < p → ¬ Unesc s n := by
  intro fuel
  induction fuel with
  | zero => intro pos h; omega
  | succ fuel ih =>
    intro pos _ h
    rw [findLoop]
    cases hm : memchr (s.drop (pos + 1)) 0x22 with
    | none =>
      refine ⟨none, rfl, fun n hn hu => ?_⟩
      have := memchr_none.mp hm (n - (pos + 1))
      rw [List.getElem?_drop, show pos + 1 + (n - (pos + 1)) = n by omega] at this
      exact this hu.1
    | some i =>
      obtain ⟨h1, h2⟩ := memchr_some.mp hm
      rw [List.getElem?_drop] at h1
      have hlow : ∀ n, pos < n → n < pos + 1 + i → ¬ Unesc s n := by
        intro n hn hn2 hu
        have := h2 (n - (pos + 1)) (by omega)
        rw [List.getElem?_drop, show pos + 1 + (n - (pos + 1)) = n by omega] at this
        exact this hu.1
      simp only
      by_cases hu : isUnescaped s (pos + 1 + i) = true
      · rw [if_pos hu]
        exact ⟨_, rfl, by omega, ⟨h1, hu⟩, hlow⟩
      · rw [if_neg hu]
        obtain ⟨r, e, hr⟩ := ih (pos + 1 + i) (by have := (List.getElem?_eq_some_iff.mp h1).1; omega) (by omega)
        refine ⟨r, e, ?_⟩
        cases r with
        | none =>
          intro n hn
          simp only at hr
          rcases Nat.lt_trichotomy n (pos + 1 + i) with h3 | h3 | h3
          · exact hlow n hn h3
          · exact fun h => hu (h3 ▸ h.2)
          · exact hr n h3
        | some p =>
          simp only at hr
          refine ⟨by omega, hr.2.1, fun n hn hn2 => ?_⟩
          rcases Nat.lt_trichotomy n (pos + 1 + i) with h3 | h3 | h3
          · exact hlow n hn h3
          · exact fun h => hu (h3 ▸ h.2)
          · exact hr.2.2 n h3 hn2

/-- `tmj_find_char_unescaped` finds what reading from left to right finds. -/
theorem findUnescaped_eq (s : List Byte) : findUnescaped s 0x22 = .ok (scan s) := by
  have hs := scan_spec s.length s [] (Nat.le_refl _) rfl
  simp only [List.nil_append, List.length_nil, Nat.zero_le, Nat.zero_add, forall_true_left] at hs
  unfold findUnescaped
  cases s with
  | nil => rfl
  | cons b t =>
    simp only
    by_cases hb : b = 0x22
    · rw [if_pos hb]
      unfold scan
      rw [if_pos hb]
    · rw [if_neg hb]
      have h0 : ¬ Unesc (b :: t) 0 := fun h => hb (by simpa using h.1)
      obtain ⟨r, e, hr⟩ := findLoop_spec (b :: t) ((b :: t).length + 1) 0 (by omega) (by omega)
      rw [e]
      congr 1
      cases r with
      | none =>
        cases hsc : scan (b :: t) with
        | none => rfl
        | some p =>
          rw [hsc] at hs
          exfalso
          rcases Nat.eq_zero_or_pos p with h | h
          · exact h0 (h ▸ hs.1)
          · exact hr p h hs.1
      | some q =>
        simp only at hr
        cases hsc : scan (b :: t) with
        | none =>
          rw [hsc] at hs
          exact absurd hr.2.1 (hs q)
        | some p =>
          rw [hsc] at hs
          congr 1
          rcases Nat.lt_trichotomy q p with h | h | h
          · exact absurd hr.2.1 (hs.2 q h)
          · exact h
          · rcases Nat.eq_zero_or_pos p with h' | h'
            · exact absurd (h' ▸ hs.1) h0
            · exact absurd hs.1 (hr.2.2 p h' h)

theorem scan_lt : ∀ (m : Nat) (s : List Byte) (p : Nat), s.length ≤ m → scan s = some p → p < s.length ∧ s[p]? = some 0x22 := by
  intro m s p _ h
  have hs := scan_spec s.length s [] (Nat.le_refl _) rfl
  rw [h] at hs
  simp only [List.nil_append, List.length_nil, Nat.zero_add] at hs
  exact ⟨(List.getElem?_eq_some_iff.mp hs.1.1).1, hs.1.1⟩

/-! ### Escapes -/

theorem hex_byte : ∀ b : Byte, (isXDigit b = true ∧ hexDigit b = some (digitValue b) ∧ digitValue b < 16 ∧ b ≠ 0x22 ∧ b ≠ 0x5C) ∨
    (isXDigit b = false ∧ hexDigit b = none) := by decide +kernel

theorem hexDigit_some {b : Byte} {w : Nat} (h : hexDigit b = some w) :
    isXDigit b = true ∧ digitValue b = w ∧ w < 16 ∧ b ≠ 0x22 ∧ b ≠ 0x5C := by
  rcases hex_byte b with h1 | h1
  · rw [h1.2.1] at h
    cases h
    exact ⟨h1.1, rfl, h1.2.2⟩
  · rw [h1.2] at h; cases h

theorem isXDigit_true {b : Byte} (h : isXDigit b = true) : hexDigit b = some (digitValue b) := by
  rcases hex_byte b with h1 | h1
  · exact h1.2.1
  · rw [h1.1] at h; cases h

theorem quad_some {s t : List Byte} {n : Nat} : quad s = some (n, t) ↔ ∃ h, Hex4 h n ∧ s = h ++ t := by
  constructor
  · intro h
    unfold quad at h
    split at h
    · rename_i a b c d t'
      split at h
      · rename_i hx
        simp only [Bool.and_eq_true] at hx
        simp only [Option.some.injEq, Prod.mk.injEq] at h
        refine ⟨[a, b, c, d], ⟨a, b, c, d, _, _, _, _, rfl, isXDigit_true hx.1.1.1, isXDigit_true hx.1.1.2, isXDigit_true hx.1.2,
          isXDigit_true hx.2, by omega⟩, by rw [← h.2]; rfl⟩
      · cases h
    · cases h
  · rintro ⟨_, ⟨a, b, c, d, w, x, y, z, rfl, ha, hb, hc, hd, hn⟩, rfl⟩
    have ha := hexDigit_some ha
    have hb := hexDigit_some hb
    have hc := hexDigit_some hc
    have hd := hexDigit_some hd
    simp only [quad, List.cons_append, List.nil_append]
    rw [if_pos (by simp [ha.1, hb.1, hc.1, hd.1]), ha.2.1, hb.2.1, hc.2.1, hd.2.1]
    congr 2
    omega

theorem hex4_length {h : List Byte} {n : Nat} (hh : Hex4 h n) : h.length = 4 := by
  obtain ⟨_, _, _, _, _, _, _, _, rfl, _⟩ := hh
  rfl

theorem hex4_lt {h : List Byte} {n : Nat} (hh : Hex4 h n) : n < 65536 := by
  obtain ⟨_, _, _, _, _, _, _, _, rfl, ha, hb, hc, hd, hn⟩ := hh
  have ha := hexDigit_some ha
  have hb := hexDigit_some hb
  have hc := hexDigit_some hc
  have hd := hexDigit_some hd
  omega

theorem scan_plain {c : Byte} {t : List Byte} (h1 : c ≠ 0x22) (h2 : c ≠ 0x5C) : scan (c :: t) = (scan t).map (· + 1) := by
  conv => lhs; unfold scan
  rw [if_neg h1, if_neg h2]

theorem scan_esc {c : Byte} {t : List Byte} : scan (0x5C :: c :: t) = (scan t).map (· + 2) := by
  conv => lhs; unfold scan
  rw [if_neg (by decide), if_pos rfl]

theorem scan_hex4 {h : List Byte} {n : Nat} (hh : Hex4 h n) (t : List Byte) : scan (h ++ t) = (scan t).map (· + 4) := by
  obtain ⟨a, b, c, d, _, _, _, _, rfl, ha, hb, hc, hd, hn⟩ := hh
  have ha := (hexDigit_some ha).2.2.2
  have hb := (hexDigit_some hb).2.2.2
  have hc := (hexDigit_some hc).2.2.2
  have hd := (hexDigit_some hd).2.2.2
  simp only [List.cons_append, List.nil_append]
  rw [scan_plain ha.1 ha.2, scan_plain hb.1 hb.2, scan_plain hc.1 hc.2, scan_plain hd.1 hd.2]
  cases scan t <;> simp

theorem validCodepoint_iff {c : Nat} : validCodepoint c = true ↔ Scalar c := by
  simp only [validCodepoint, Scalar, Bool.and_eq_true, Bool.or_eq_true, decide_eq_true_eq]
  omega

theorem hex4_unique {h : List Byte} {n m : Nat} (h1 : Hex4 h n) (h2 : Hex4 h m) : n = m := by
  obtain ⟨_, _, _, _, _, _, _, _, rfl, ha, hb, hc, hd, hn⟩ := h1
  obtain ⟨_, _, _, _, _, _, _, _, e, ha', hb', hc', hd', hn'⟩ := h2
  simp only [List.cons.injEq, and_true] at e
  obtain ⟨rfl, rfl, rfl, rfl⟩ := e
  rw [ha] at ha'
  rw [hb] at hb'
  rw [hc] at hc'
  rw [hd] at hd'
  cases ha'; cases hb'; cases hc'; cases hd'
  omega

/-- What an escape `\u` stands for. -/
theorem getCodepoint_some {w : List Byte} {adv cp : Nat} : getCodepoint w = some (adv, cp) ↔
    (∃ h t, w = h ++ t ∧ Hex4 h cp ∧ Scalar cp ∧ adv = 4) ∨
    (∃ h1 h2 n1 n2 t, w = h1 ++ 0x5C :: 0x75 :: (h2 ++ t) ∧ Hex4 h1 n1 ∧ Hex4 h2 n2 ∧ 0xD800 ≤ n1 ∧ n1 < 0xDC00 ∧
      0xDC00 ≤ n2 ∧ n2 < 0xE000 ∧ cp = 0x10000 + (n1 - 0xD800) * 0x400 + (n2 - 0xDC00) ∧ adv = 10) := by
  constructor
  · intro h
    unfold getCodepoint at h
    split at h
    · cases h
    · rename_i lead t hq
      obtain ⟨h1, hh1, rfl⟩ := quad_some.mp hq
      split at h
      · rename_i hl
        simp only [Bool.and_eq_true, decide_eq_true_eq] at hl
        split at h
        · rename_i b u t'
          split at h
          · rename_i hbu
            simp only [Bool.and_eq_true, decide_eq_true_eq] at hbu
            split at h
            · cases h
            · rename_i trail t'' hq2
              obtain ⟨h2, hh2, rfl⟩ := quad_some.mp hq2
              split at h
              · rename_i ht
                simp only [Bool.and_eq_true, decide_eq_true_eq] at ht
                simp only at h
                split at h
                · simp only [Option.some.injEq, Prod.mk.injEq] at h
                  right
                  refine ⟨h1, h2, lead, trail, t'', by rw [hbu.1, hbu.2], hh1, hh2, hl.1, by omega, ht.1, by omega, ?_, h.1.symm⟩
                  rw [← h.2]
                  omega
                · cases h
              · cases h
          · cases h
        · cases h
      · split at h
        · rename_i hv
          simp only [Option.some.injEq, Prod.mk.injEq] at h
          left
          exact ⟨h1, t, rfl, h.2 ▸ hh1, h.2 ▸ validCodepoint_iff.mp hv, h.1.symm⟩
        · cases h
  · rintro (⟨h, t, rfl, hh, hs, rfl⟩ | ⟨h1, h2, n1, n2, t, rfl, hh1, hh2, hl1, hl2, ht1, ht2, hcp, rfl⟩)
    · unfold getCodepoint
      rw [quad_some.mpr ⟨h, hh, rfl⟩]
      simp only
      rw [if_neg (by simp only [Scalar] at hs; simp only [Bool.and_eq_true, decide_eq_true_eq]; omega),
        if_pos (validCodepoint_iff.mpr hs)]
    · unfold getCodepoint
      rw [quad_some.mpr ⟨h1, hh1, rfl⟩]
      simp only
      rw [if_pos (by simp only [Bool.and_eq_true, decide_eq_true_eq]; omega)]
      rw [if_pos (by decide), quad_some.mpr ⟨h2, hh2, rfl⟩]
      simp only
      rw [if_pos (by simp only [Bool.and_eq_true, decide_eq_true_eq]; omega)]
      have e : (n1 * 1024 + n2 + (0x10000 + 2 ^ 32 - 0xD800 * 1024 + 2 ^ 32 - 0xDC00)) % 2 ^ 32 =
          0x10000 + (n1 - 0xD800) * 0x400 + (n2 - 0xDC00) := by omega
      rw [e, if_pos (validCodepoint_iff.mpr (by simp only [Scalar]; omega)), hcp]

theorem getCodepoint_scalar {w : List Byte} {adv cp : Nat} (h : getCodepoint w = some (adv, cp)) : Scalar cp := by
  rcases getCodepoint_some.mp h with ⟨_, _, _, _, h, _⟩ | ⟨_, _, n1, n2, _, _, h1, h2, _, _, _, _, hcp, _⟩
  · exact h
  · simp only [Scalar]; omega

theorem getCodepoint_adv {w : List Byte} {adv cp : Nat} (h : getCodepoint w = some (adv, cp)) :
    0 < adv ∧ adv ≤ w.length ∧ ∀ t, scan (w ++ t) = (scan (w.drop adv ++ t)).map (· + adv) := by
  rcases getCodepoint_some.mp h with ⟨h, t, rfl, hh, _, rfl⟩ | ⟨h1, h2, n1, n2, t, rfl, hh1, hh2, _, _, _, _, _, rfl⟩
  · refine ⟨by omega, by rw [List.length_append, hex4_length hh]; omega, fun t' => ?_⟩
    rw [← hex4_length hh, List.drop_left, List.append_assoc, scan_hex4 hh]
    rw [hex4_length hh]
  · have l1 := hex4_length hh1
    have l2 := hex4_length hh2
    refine ⟨by omega, by simp only [List.length_append, List.length_cons]; omega, fun t' => ?_⟩
    have e : (h1 ++ 0x5C :: 0x75 :: (h2 ++ t)).drop 10 = t := by
      rw [show h1 ++ 0x5C :: 0x75 :: (h2 ++ t) = (h1 ++ [0x5C, 0x75] ++ h2) ++ t by simp,
        show (10 : Nat) = (h1 ++ [0x5C, 0x75] ++ h2).length by simp; omega, List.drop_left]
    rw [e, List.append_assoc, scan_hex4 hh1, List.cons_append, List.cons_append, scan_esc, List.append_assoc, scan_hex4 hh2]
    cases scan (t ++ t') <;> simp

/-- After `\u`, a string goes on after the escape. -/
theorem body_unicode {w : List Byte} {adv cp : Nat} (h : getCodepoint w = some (adv, cp)) (text : List Byte) :
    Body (0x5C :: 0x75 :: w) text ↔ ∃ text', Body (w.drop adv) text' ∧ text = utf8 cp ++ text' := by
  constructor
  · intro hb
    generalize e : (0x5C :: 0x75 :: w : List Byte) = s at hb
    cases hb with
    | nil => cases e
    | plain h1 h2 h3 hb =>
      simp only [List.cons.injEq] at e
      exact absurd e.1.symm h3
    | short hm hb =>
      simp only [List.cons.injEq] at e
      obtain ⟨_, rfl, rfl⟩ := e
      simp [shortEscapes, chr] at hm
    | @unicode h' n raw text' hh hs hb =>
      simp only [List.cons.injEq] at e
      obtain ⟨_, _, rfl⟩ := e
      have : getCodepoint (h' ++ raw) = some (4, n) := getCodepoint_some.mpr (Or.inl ⟨h', raw, rfl, hh, hs, rfl⟩)
      rw [this] at h
      simp only [Option.some.injEq, Prod.mk.injEq] at h
      obtain ⟨rfl, rfl⟩ := h
      exact ⟨text', by rw [← hex4_length hh, List.drop_left]; exact hb, rfl⟩
    | @pair h1 h2 n1 n2 raw text' hh1 hh2 a1 a2 a3 a4 hb =>
      simp only [List.cons.injEq] at e
      obtain ⟨_, _, rfl⟩ := e
      have : getCodepoint (h1 ++ 0x5C :: 0x75 :: (h2 ++ raw)) = some (10, 0x10000 + (n1 - 0xD800) * 0x400 + (n2 - 0xDC00)) :=
        getCodepoint_some.mpr (Or.inr ⟨h1, h2, n1, n2, raw, rfl, hh1, hh2, a1, a2, a3, a4, rfl, rfl⟩)
      have h' : getCodepoint (h1 ++ 0x5C :: 0x75 :: (h2 ++ raw)) = some (adv, cp) := h
      rw [this] at h'
      simp only [Option.some.injEq, Prod.mk.injEq] at h'
      obtain ⟨rfl, rfl⟩ := h'
      refine ⟨text', ?_, rfl⟩
      have l1 := hex4_length hh1
      have l2 := hex4_length hh2
      have e : (h1 ++ chr '\\' :: chr 'u' :: (h2 ++ raw)).drop 10 = raw := by
        rw [show h1 ++ chr '\\' :: chr 'u' :: (h2 ++ raw) = (h1 ++ [chr '\\', chr 'u'] ++ h2) ++ raw by simp,
          show (10 : Nat) = (h1 ++ [chr '\\', chr 'u'] ++ h2).length by simp; omega, List.drop_left]
      rw [e]
      exact hb
  · rintro ⟨text', hb, rfl⟩
    rcases getCodepoint_some.mp h with ⟨h, t, rfl, hh, hs, rfl⟩ | ⟨h1, h2, n1, n2, t, rfl, hh1, hh2, a1, a2, a3, a4, hcp, rfl⟩
    · rw [← hex4_length hh, List.drop_left] at hb
      exact Body.unicode hh hs hb
    · have l1 := hex4_length hh1
      have l2 := hex4_length hh2
      have e : (h1 ++ 0x5C :: 0x75 :: (h2 ++ t)).drop 10 = t := by
        rw [show h1 ++ 0x5C :: 0x75 :: (h2 ++ t) = (h1 ++ [0x5C, 0x75] ++ h2) ++ t by simp,
          show (10 : Nat) = (h1 ++ [0x5C, 0x75] ++ h2).length by simp; omega, List.drop_left]
      rw [e] at hb
      rw [hcp]
      exact Body.pair hh1 hh2 a1 a2 a3 a4 hb

/-- `\u` without a scalar value is in no string. -/
theorem body_unicode_none {w : List Byte} (h : getCodepoint w = none) (text : List Byte) : ¬ Body (0x5C :: 0x75 :: w) text := by
  intro hb
  generalize e : (0x5C :: 0x75 :: w : List Byte) = s at hb
  cases hb with
  | nil => cases e
  | plain h1 h2 h3 hb =>
    simp only [List.cons.injEq] at e
    exact absurd e.1.symm h3
  | short hm hb =>
    simp only [List.cons.injEq] at e
    obtain ⟨_, rfl, rfl⟩ := e
    simp [shortEscapes, chr] at hm
  | @unicode h' n raw text' hh hs hb =>
    simp only [List.cons.injEq] at e
    obtain ⟨_, _, rfl⟩ := e
    have : getCodepoint (h' ++ raw) = some (4, n) := getCodepoint_some.mpr (Or.inl ⟨h', raw, rfl, hh, hs, rfl⟩)
    rw [this] at h
    cases h
  | @pair h1 h2 n1 n2 raw text' hh1 hh2 a1 a2 a3 a4 hb =>
    simp only [List.cons.injEq] at e
    obtain ⟨_, _, rfl⟩ := e
    have : getCodepoint (h1 ++ 0x5C :: 0x75 :: (h2 ++ raw)) = some (10, 0x10000 + (n1 - 0xD800) * 0x400 + (n2 - 0xDC00)) :=
      getCodepoint_some.mpr (Or.inr ⟨h1, h2, n1, n2, raw, rfl, hh1, hh2, a1, a2, a3, a4, rfl, rfl⟩)
    have h' : getCodepoint (h1 ++ 0x5C :: 0x75 :: (h2 ++ raw)) = none := h
    rw [this] at h'
    cases h'

/-- What a short escape stands for. -/
def shortByte (e : Byte) : Byte :=
  if e = 0x62 then 0x08 else if e = 0x66 then 0x0C else if e = 0x6E then 0x0A
    else if e = 0x72 then 0x0D else if e = 0x74 then 0x09 else e

theorem short_mem : ∀ e b : Byte, (e, b) ∈ shortEscapes ↔ (escapeAllowed e 0x22 = true ∧ e ≠ 0x75 ∧ b = shortByte e) := by
  intro e b
  simp only [shortEscapes, chr, escapeAllowed, shortByte, List.mem_cons, Prod.mk.injEq, List.not_mem_nil, or_false]
  constructor
  · rintro (⟨rfl, rfl⟩ | ⟨rfl, rfl⟩ | ⟨rfl, rfl⟩ | ⟨rfl, rfl⟩ | ⟨rfl, rfl⟩ | ⟨rfl, rfl⟩ | ⟨rfl, rfl⟩ | ⟨rfl, rfl⟩) <;> decide
  · rintro ⟨h, h2, rfl⟩
    simp at h
    rcases h with (((((((h | h) | h) | h) | h) | h) | h) | h) | h
    · simp_all
    all_goals first | exact absurd h h2 | (subst h; decide)

theorem body_short {e : Byte} {raw : List Byte} (h : escapeAllowed e 0x22 = true) (hu : e ≠ 0x75) (text : List Byte) :
    Body (0x5C :: e :: raw) text ↔ ∃ text', Body raw text' ∧ text = shortByte e :: text' := by
  constructor
  · intro hb
    generalize e' : (0x5C :: e :: raw : List Byte) = s at hb
    cases hb with
    | nil => cases e'
    | plain h1 h2 h3 hb =>
      simp only [List.cons.injEq] at e'
      exact absurd e'.1.symm h3
    | @short e2 b raw' text' hm hb =>
      simp only [List.cons.injEq] at e'
      obtain ⟨_, rfl, rfl⟩ := e'
      exact ⟨text', hb, by rw [((short_mem _ _).mp hm).2.2]⟩
    | unicode hh hs hb =>
      simp only [List.cons.injEq] at e'
      exact absurd e'.2.1 hu
    | pair hh1 hh2 a1 a2 a3 a4 hb =>
      simp only [List.cons.injEq] at e'
      exact absurd e'.2.1 hu
  · rintro ⟨text', hb, rfl⟩
    exact Body.short ((short_mem _ _).mpr ⟨h, hu, rfl⟩) hb

theorem body_escape_bad {e : Byte} {raw : List Byte} (h : escapeAllowed e 0x22 = false) (text : List Byte) :
    ¬ Body (0x5C :: e :: raw) text := by
  intro hb
  generalize e' : (0x5C :: e :: raw : List Byte) = s at hb
  cases hb with
  | nil => cases e'
  | plain h1 h2 h3 hb =>
    simp only [List.cons.injEq] at e'
    exact absurd e'.1.symm h3
  | @short e2 b raw' text' hm hb =>
    simp only [List.cons.injEq] at e'
    obtain ⟨_, rfl, rfl⟩ := e'
    rw [((short_mem _ _).mp hm).1] at h
    cases h
  | unicode hh hs hb =>
    simp only [List.cons.injEq] at e'
    obtain ⟨_, rfl, rfl⟩ := e'
    exact absurd h (by decide)
  | pair hh1 hh2 a1 a2 a3 a4 hb =>
    simp only [List.cons.injEq] at e'
    obtain ⟨_, rfl, rfl⟩ := e'
    exact absurd h (by decide)

theorem body_plain {c : Byte} {raw : List Byte} (h1 : c ≠ 0x22) (h2 : c ≠ 0x5C) (text : List Byte) :
    Body (c :: raw) text ↔ 0x20 ≤ c.toNat ∧ ∃ text', Body raw text' ∧ text = c :: text' := by
  constructor
  · intro hb
    generalize e' : (c :: raw : List Byte) = s at hb
    cases hb with
    | nil => cases e'
    | @plain b raw' text' h1 _ _ hb =>
      simp only [List.cons.injEq] at e'
      obtain ⟨rfl, rfl⟩ := e'
      exact ⟨h1, text', hb, rfl⟩
    | short hm hb =>
      simp only [List.cons.injEq] at e'
      exact absurd e'.1 h2
    | unicode hh hs hb =>
      simp only [List.cons.injEq] at e'
      exact absurd e'.1 h2
    | pair hh1 hh2 a1 a2 a3 a4 hb =>
      simp only [List.cons.injEq] at e'
      exact absurd e'.1 h2
  · rintro ⟨h, text', hb, rfl⟩
    exact Body.plain h h1 h2 hb

/-- The check of a string, once its end is known. -/
theorem validLoop_spec : ∀ (m : Nat) (s : List Byte) (p fuel : Nat), s.length ≤ m → scan s = some p → p < fuel →
    ∃ b, validLoop 0x22 fuel s p = .ok b ∧ (b = true ↔ ∃ text, Body (s.take p) text) := by
  intro m
  induction m with
  | zero =>
    intro s p fuel hs h
    have : s = [] := List.length_eq_zero_iff.mp (by omega)
    subst this
    cases h
  | succ m ih =>
    intro s p fuel hs h hf
    obtain ⟨fuel, rfl⟩ : ∃ k, fuel = k + 1 := ⟨fuel - 1, by omega⟩
    match s, hs, h with
    | [], _, h => cases h
    | c :: t, hs, h =>
      by_cases hq : c = 0x22
      · subst hq
        have : p = 0 := by
          unfold scan at h
          rw [if_pos rfl] at h
          cases h
          rfl
        subst this
        exact ⟨true, by unfold validLoop; rfl, by simp; exact ⟨[], Body.nil⟩⟩
      · by_cases hb : c = 0x5C
        · subst hb
          match t, hs, h with
          | [], _, h =>
            unfold scan at h
            rw [if_neg (by decide), if_pos rfl] at h
            cases h
          | e :: t, hs, h =>
            rw [scan_esc] at h
            cases hsc : scan t with
            | none => rw [hsc] at h; cases h
            | some p' =>
              rw [hsc] at h
              simp only [Option.map_some, Option.some.injEq] at h
              subst h
              have hpl := (scan_lt _ t p' (Nat.le_refl _) hsc).1
              unfold validLoop
              simp only
              rw [if_neg (by decide)]
              simp only [if_true]
              have et : (0x5C :: e :: t : List Byte).take (p' + 2) = 0x5C :: e :: t.take p' := by simp
              rw [et]
              by_cases ha : escapeAllowed e 0x22 = true
              · rw [if_pos ha]
                by_cases hu : e = 0x75
                · subst hu
                  rw [if_pos rfl, if_neg (by omega)]
                  simp only [Nat.add_sub_cancel]
                  cases hg : getCodepoint (t.take p') with
                  | none =>
                    exact ⟨false, rfl, by simp; exact fun text => body_unicode_none hg text⟩
                  | some x =>
                    obtain ⟨adv, cp⟩ := x
                    obtain ⟨g1, g2, g3⟩ := getCodepoint_adv hg
                    have hle : adv ≤ p' := by simp at g2; omega
                    have hsc2 : scan (t.drop adv) = some (p' - adv) := by
                      have := g3 (t.drop p')
                      rw [List.take_append_drop, ← List.drop_append_of_le_length (by simp; omega), List.take_append_drop, hsc] at this
                      cases h2 : scan (t.drop adv) with
                      | none => rw [h2] at this; cases this
                      | some q =>
                        rw [h2] at this
                        simp only [Option.map_some, Option.some.injEq] at this
                        congr 1
                        omega
                    obtain ⟨b, e1, e2⟩ := ih (t.drop adv) (p' - adv) fuel (by simp at hs ⊢; omega) hsc2 (by omega)
                    refine ⟨b, e1, e2.trans ?_⟩
                    have hd : (t.take p').drop adv = (t.drop adv).take (p' - adv) := by rw [List.drop_take]
                    constructor
                    · rintro ⟨text, hx⟩
                      exact ⟨_, (body_unicode hg _).mpr ⟨text, hd ▸ hx, rfl⟩⟩
                    · rintro ⟨text, hx⟩
                      obtain ⟨text', hx', _⟩ := (body_unicode hg _).mp hx
                      exact ⟨text', hd ▸ hx'⟩
                · rw [if_neg hu]
                  simp only [Nat.add_sub_cancel]
                  obtain ⟨b, e1, e2⟩ := ih t p' fuel (by simp at hs; omega) hsc (by omega)
                  refine ⟨b, e1, e2.trans ?_⟩
                  constructor
                  · rintro ⟨text, hx⟩
                    exact ⟨_, (body_short ha hu _).mpr ⟨text, hx, rfl⟩⟩
                  · rintro ⟨text, hx⟩
                    obtain ⟨text', hx', _⟩ := (body_short ha hu _).mp hx
                    exact ⟨text', hx'⟩
              · rw [if_neg ha]
                exact ⟨false, rfl, by simp; exact fun text => body_escape_bad (by simpa using ha) text⟩
        · rw [scan_plain hq hb] at h
          cases hsc : scan t with
          | none => rw [hsc] at h; cases h
          | some p' =>
            rw [hsc] at h
            simp only [Option.map_some, Option.some.injEq] at h
            subst h
            unfold validLoop
            have et : (c :: t).take (p' + 1) = c :: t.take p' := by simp
            rw [et]
            by_cases hc : c.toNat < 32
            · rw [if_pos hc]
              refine ⟨false, rfl, by simp; intro text hx; have := ((body_plain hq hb _).mp hx).1; omega⟩
            · rw [if_neg hc, if_neg hb]
              obtain ⟨b, e1, e2⟩ := ih t p' fuel (by simp at hs; omega) hsc (by omega)
              refine ⟨b, e1, e2.trans ?_⟩
              constructor
              · rintro ⟨text, hx⟩
                exact ⟨_, (body_plain hq hb _).mpr ⟨by omega, text, hx, rfl⟩⟩
              · rintro ⟨text, hx⟩
                obtain ⟨_, text', hx', _⟩ := (body_plain hq hb _).mp hx
                exact ⟨text', hx'⟩

/-- A string ends where its characters end. -/
theorem scan_body {raw text : List Byte} (h : Body raw text) (k : List Byte) : scan (raw ++ 0x22 :: k) = some raw.length := by
  induction h with
  | nil => unfold scan; rfl
  | plain h1 h2 h3 _ ih =>
    rw [List.cons_append, scan_plain h2 h3, ih]
    rfl
  | short hm _ ih =>
    rw [List.cons_append, List.cons_append, show chr '\\' = 0x5C from rfl, scan_esc, ih]
    rfl
  | unicode hh hs _ ih =>
    rw [List.cons_append, List.cons_append, show chr '\\' = 0x5C from rfl, scan_esc, List.append_assoc, scan_hex4 hh, ih]
    simp [hex4_length hh]
    omega
  | pair hh1 hh2 _ _ _ _ _ ih =>
    rw [List.cons_append, List.cons_append, show chr '\\' = 0x5C from rfl, scan_esc, List.append_assoc, scan_hex4 hh1,
      List.cons_append, List.cons_append, scan_esc, List.append_assoc, scan_hex4 hh2, ih]
    simp [hex4_length hh1, hex4_length hh2]
    omega

/-- Reading a string of the grammar. -/
theorem readQuoted_ok {r : Reader} {raw text k : List Byte} (hr : r.rest = quoted raw ++ k) (hb : Body raw text) :
    readQuotedString r = .ok (true,
      { r with rest := k, cur := ⟨false, raw ++ 0x22 :: k, raw.length⟩, column := r.column + raw.length + 1 }) := by
  have hr' : r.rest = 0x22 :: (raw ++ 0x22 :: k) := by rw [hr]; simp [quoted, chr]
  unfold readQuotedString
  rw [hr']
  dsimp only
  rw [show assert (decide ((0x22 : Byte) = 0x27) || decide ((0x22 : Byte) = 0x22)) = .ok () from rfl, ok_bind, findUnescaped_eq,
    scan_body hb, ok_bind]
  simp only
  obtain ⟨b, e1, e2⟩ := validLoop_spec _ (raw ++ 0x22 :: k) raw.length (raw.length + 1) (Nat.le_refl _) (scan_body hb k) (by omega)
  rw [List.take_left] at e2
  rw [e1, e2.mpr ⟨text, hb⟩, ok_bind, if_pos rfl]
  congr 4
  rw [show raw ++ 0x22 :: k = (raw ++ [0x22]) ++ k by simp, show raw.length + 1 = (raw ++ [(0x22 : Byte)]).length by simp,
    List.drop_left]

/-- Reading a string, in general. -/
theorem readQuoted_inv {r : Reader} {body : List Byte} (hr : r.rest = 0x22 :: body) :
    (∃ raw text k, body = raw ++ 0x22 :: k ∧ Body raw text ∧ readQuotedString r = .ok (true,
      { r with rest := k, cur := ⟨false, raw ++ 0x22 :: k, raw.length⟩, column := r.column + raw.length + 1 })) ∨
    (∃ r' pre, readQuotedString r = .ok (false, r') ∧ r.rest = pre ++ r'.rest ∧ pre ≠ [] ∧ r'.err ≠ .ok ∧ r'.last = r.last ∧
      r'.root = r.root) := by
  unfold readQuotedString
  rw [hr]
  dsimp only
  rw [show assert (decide ((0x22 : Byte) = 0x27) || decide ((0x22 : Byte) = 0x22)) = .ok () from rfl, ok_bind, findUnescaped_eq,
    ok_bind]
  cases hsc : scan body with
  | none =>
    right
    exact ⟨_, 0x22 :: body, rfl, by simp, by simp, by simp, rfl, rfl⟩
  | some p =>
    simp only
    obtain ⟨hp, hp2⟩ := scan_lt _ body p (Nat.le_refl _) hsc
    obtain ⟨b, e1, e2⟩ := validLoop_spec _ body p (p + 1) (Nat.le_refl _) hsc (by omega)
    rw [e1, ok_bind]
    have hd : body.drop p = 0x22 :: body.drop (p + 1) := by
      rw [List.drop_eq_getElem_cons hp]
      congr 1
      rw [List.getElem?_eq_getElem hp] at hp2
      exact Option.some.inj hp2
    cases b with
    | true =>
      left
      obtain ⟨text, hb⟩ := e2.mp rfl
      refine ⟨body.take p, text, body.drop (p + 1), by rw [← hd, List.take_append_drop], hb, ?_⟩
      rw [if_pos rfl, ← hd, List.take_append_drop, List.length_take, Nat.min_eq_left (by omega)]
    | false =>
      right
      rw [if_neg (by decide)]
      refine ⟨_, 0x22 :: body.take (p + 1), rfl, by simp, by simp, by simp, rfl, rfl⟩

end Tm.Json
