import Verif.Json.StrLemmas
import Verif.Json.DocSpec
import Verif.Uni.Lemmas

/-! # Unescaping strings -/

namespace Tm.Json

open Tm Spec Uni

theorem utf8Encode_eq {cp : Nat} (h : Scalar cp) : Json.utf8Encode cp = utf8 cp := by
  have hmax := scalar_le h
  have ho : Json.octet = Uni.octet := rfl
  unfold Json.utf8Encode
  rw [ho]
  by_cases h1 : cp < 0x80
  · rw [if_pos h1, utf8_1 h1, octet00 (by omega)]
  rw [if_neg h1]
  by_cases h2 : cp < 0x800
  · rw [if_pos h2, utf8_2 (by omega) h2, and3F, shr6, octetC0 (by omega), octet80 (by omega)]
  rw [if_neg h2]
  by_cases h3 : cp < 0x10000
  · rw [if_pos h3, utf8_3 (by omega) h3, and3F, and3F, shr6, shr12, show cp / 64 % 256 % 64 = cp / 64 % 64 by omega,
      octetE0 (by omega), octet80 (by omega), octet80 (by omega)]
  · rw [if_neg h3, utf8_4 (by omega), and3F, and3F, and3F, and7, shr6, shr12, shr18,
      show cp / 64 % 256 % 64 = cp / 64 % 64 by omega, show cp / 4096 % 256 % 64 = cp / 4096 % 64 by omega,
      show cp / 262144 % 256 % 8 = cp / 262144 by omega, octetF0 (by omega), octet80 (by omega), octet80 (by omega), octet80 (by omega)]

theorem Spec.Body.append {p pt s st : List Byte} (hp : Body p pt) (hs : Body s st) : Body (p ++ s) (pt ++ st) := by
  induction hp with
  | nil => exact hs
  | plain h1 h2 h3 _ ih => exact Body.plain h1 h2 h3 ih
  | short h1 _ ih => exact Body.short h1 ih
  | unicode h1 h2 _ ih =>
    rw [List.cons_append, List.cons_append, List.append_assoc, List.append_assoc]
    exact Body.unicode h1 h2 ih
  | pair h1 h2 a1 a2 a3 a4 _ ih =>
    rw [List.cons_append, List.cons_append, List.append_assoc, List.cons_append, List.cons_append, List.append_assoc,
      List.append_assoc]
    exact Body.pair h1 h2 a1 a2 a3 a4 ih

/-- The characters before the first backslash. -/
theorem body_prefix : ∀ (pl u text : List Byte), (∀ b ∈ pl, b ≠ 0x5C) → Body (pl ++ u) text →
    ∃ text', Body u text' ∧ text = pl ++ text' ∧ Body pl pl := by
  intro pl
  induction pl with
  | nil => exact fun u text _ h => ⟨text, h, rfl, Body.nil⟩
  | cons c pl ih =>
    intro u text hn hb
    have h2 : c ≠ 0x5C := hn c (by simp)
    have h1 : c ≠ 0x22 := by
      rintro rfl
      generalize e' : ((0x22 : Byte) :: pl ++ u) = s at hb
      cases hb with
      | nil => cases e'
      | plain _ h _ _ =>
        simp only [List.cons_append, List.cons.injEq] at e'
        exact h e'.1.symm
      | short => simp only [List.cons_append, List.cons.injEq] at e'; exact absurd e'.1 (by decide)
      | unicode => simp only [List.cons_append, List.cons.injEq] at e'; exact absurd e'.1 (by decide)
      | pair => simp only [List.cons_append, List.cons.injEq] at e'; exact absurd e'.1 (by decide)
    obtain ⟨h3, text', hb', rfl⟩ := (body_plain h1 h2 text).mp hb
    obtain ⟨t2, hb2, rfl, hp⟩ := ih u text' (fun b hb => hn b (by simp [hb])) hb'
    exact ⟨t2, hb2, rfl, Body.plain h3 h1 h2 hp⟩

/-- The first backslash. -/
theorem memchr_split (s : List Byte) : (memchr s 0x5C = none ∧ ∀ b ∈ s, b ≠ 0x5C) ∨
    (∃ pl u, s = pl ++ 0x5C :: u ∧ (∀ b ∈ pl, b ≠ 0x5C) ∧ memchr s 0x5C = some pl.length) := by
  cases h : memchr s 0x5C with
  | none =>
    refine Or.inl ⟨rfl, fun b hb e => ?_⟩
    obtain ⟨n, hn, e'⟩ := List.getElem_of_mem hb
    exact memchr_none.mp h n (by rw [List.getElem?_eq_getElem hn, e', e])
  | some i =>
    obtain ⟨h1, h2⟩ := memchr_some.mp h
    obtain ⟨hi, e⟩ := List.getElem?_eq_some_iff.mp h1
    refine Or.inr ⟨s.take i, s.drop (i + 1), ?_, ?_, ?_⟩
    · rw [← e, ← List.drop_eq_getElem_cons hi, List.take_append_drop]
    · intro b hb e'
      obtain ⟨n, hn, e2⟩ := List.getElem_of_mem hb
      rw [List.length_take] at hn
      rw [List.getElem_take] at e2
      exact h2 n (by omega) (by rw [List.getElem?_eq_getElem (by omega), e2, e'])
    · rw [List.length_take, Nat.min_eq_left (by omega)]

theorem EndsInEscape.append {p t s : List Byte} (hp : Body p t) (h : EndsInEscape s) : EndsInEscape (p ++ s) := by
  obtain ⟨p', t', e, hb, rfl⟩ := h
  exact ⟨p ++ p', t ++ t', e, hp.append hb, by simp⟩

theorem put_ok {cap : Nat} {out bs : List Byte} (h : out.length + bs.length ≤ cap) : put cap out bs = .ok (out ++ bs) := if_pos h

theorem copyRest_ok {cap rem : Nat} {first out : List Byte} (h1 : out.length + first.length ≤ cap) (h2 : first.length ≤ rem) :
    copyRest cap first out rem = .ok (out ++ first) := by
  unfold copyRest
  by_cases h : first = []
  · rw [if_neg (by simp [h]), h, List.append_nil]
  · have : 0 < rem := Nat.lt_of_lt_of_le (List.length_pos_iff.mpr h) h2
    rw [if_pos (by simp [h, this]), List.take_of_length_le h2, put_ok h1]

theorem utf8_short {w : List Byte} {adv cp : Nat} (h : getCodepoint w = some (adv, cp)) : (utf8 cp).length + 1 ≤ adv := by
  rcases getCodepoint_some.mp h with ⟨g, t, rfl, hh, _, rfl⟩ | ⟨h1, h2, n1, n2, t, rfl, hh1, hh2, _, _, _, _, _, rfl⟩
  · have := hex4_lt hh
    unfold utf8
    split
    · simp
    · split
      · simp
      · simp
  · have := utf8_le4 cp
    omega

theorem body_of_codepoint {w : List Byte} {adv cp : Nat} (h : getCodepoint w = some (adv, cp)) :
    ∃ x, w = x ++ w.drop adv ∧ x.length = adv ∧ Body (0x5C :: 0x75 :: x) (utf8 cp) := by
  rcases getCodepoint_some.mp h with ⟨g, t, rfl, hh, hs, rfl⟩ | ⟨h1, h2, n1, n2, t, rfl, hh1, hh2, b1, b2, b3, b4, hcp, rfl⟩
  · refine ⟨g, by rw [← hex4_length hh, List.drop_left], hex4_length hh, ?_⟩
    have := Body.unicode hh hs Body.nil
    rw [List.append_nil, List.append_nil] at this
    exact this
  · have l1 := hex4_length hh1
    have l2 := hex4_length hh2
    refine ⟨h1 ++ 0x5C :: 0x75 :: h2, ?_, by simp [l1, l2], ?_⟩
    · have e : (h1 ++ 0x5C :: 0x75 :: (h2 ++ t)).drop 10 = t := by
        rw [show h1 ++ 0x5C :: 0x75 :: (h2 ++ t) = (h1 ++ [0x5C, 0x75] ++ h2) ++ t by simp,
          show (10 : Nat) = (h1 ++ [0x5C, 0x75] ++ h2).length by simp; omega, List.drop_left]
      rw [e]; simp
    · have := Body.pair hh1 hh2 b1 b2 b3 b4 Body.nil
      rw [hcp]
      rw [List.append_nil, List.append_nil] at this
      exact this

theorem copyLoop_ok (cap : Nat) : ∀ (fuel : Nat) (first text out : List Byte) (rem : Nat), Body first text → first.length < fuel →
    out.length + first.length ≤ cap → first.length ≤ rem →
    ∃ res, copyLoop cap fuel first out rem = .ok res ∧ res.length ≤ out.length + first.length ∧
      (¬ EndsInEscape first → res = out ++ text) := by
  intro fuel
  induction fuel with
  | zero => intro first text out rem _ h; omega
  | succ fuel ih =>
    intro first text out rem hb hf hc hr
    rw [copyLoop]
    rcases memchr_split first with ⟨e, hn⟩ | ⟨pl, u, rfl, hn, e⟩
    · rw [e]
      dsimp only
      refine ⟨_, copyRest_ok hc hr, by simp, fun _ => ?_⟩
      obtain ⟨t', hb', rfl, _⟩ := body_prefix first [] text hn (by simpa using hb)
      generalize e' : ([] : List Byte) = s at hb'
      cases hb' <;> first | (cases e'; done) | simp
    · rw [e]
      dsimp only
      simp only [List.length_append, List.length_cons] at hf hc hr ⊢
      rw [if_neg (by omega), List.take_left, List.take_of_length_le (by omega), put_ok (by omega), ok_bind]
      have hdrop : (pl ++ 0x5C :: u).drop (pl.length + 1) = u := by
        rw [show pl ++ 0x5C :: u = (pl ++ [0x5C]) ++ u by simp, show pl.length + 1 = (pl ++ [(0x5C : Byte)]).length by simp,
          List.drop_left]
      rw [hdrop]
      obtain ⟨text', hb', rfl, hpl⟩ := body_prefix pl _ text hn hb
      match u, hb' with
      | [], hb' =>
        exfalso
        generalize e' : ([0x5C] : List Byte) = s at hb'
        cases hb' with
        | nil => cases e'
        | plain _ _ h _ => simp only [List.cons.injEq] at e'; exact h e'.1.symm
        | short => simp at e'
        | unicode => simp at e'
        | pair => simp at e'
      | [x], _ =>
        dsimp only
        refine ⟨_, copyRest_ok (by simp at hf hc hr ⊢; omega) (by simp at hf hc hr ⊢; omega), by simp, fun h => ?_⟩
        exact absurd ⟨pl, pl, x, hpl, rfl⟩ h
      | x :: y :: t, hb' =>
        dsimp only
        simp only [List.length_cons] at hf hc hr ⊢
        by_cases hx : escapeAllowed x 0x22 = true
        · rw [if_neg (by rintro rfl; exact absurd hx (by decide))]
          by_cases hu : x = 0x75
          · rw [if_pos hu]
            subst hu
            cases hg : getCodepoint (y :: t) with
            | none => exact absurd hb' (body_unicode_none hg _)
            | some g =>
              obtain ⟨adv, cp⟩ := g
              dsimp only
              have hs := getCodepoint_scalar hg
              have hlen := utf8_short hg
              obtain ⟨z, hz, hzl, hzb⟩ := body_of_codepoint hg
              obtain ⟨t2, hb2, rfl⟩ := (body_unicode hg text').mp hb'
              have hadv := (getCodepoint_adv hg).2.1
              simp only [List.length_cons] at hadv
              rw [utf8Encode_eq hs, if_neg (by omega), put_ok (by rw [List.length_append]; omega), ok_bind]
              obtain ⟨res, e1, h1, h2⟩ := ih ((y :: t).drop adv) t2 (out ++ pl ++ utf8 cp) (rem - pl.length - (utf8 cp).length) hb2
                (by rw [List.length_drop, List.length_cons]; omega)
                (by simp only [List.length_append, List.length_drop, List.length_cons]; omega)
                (by rw [List.length_drop, List.length_cons]; omega)
              refine ⟨res, e1, ?_, fun h => ?_⟩
              · simp only [List.length_append, List.length_drop, List.length_cons] at h1; omega
              · rw [h2]
                · simp
                · intro hE
                  apply h
                  rw [hz, show pl ++ 0x5C :: 0x75 :: (z ++ (y :: t).drop adv) = (pl ++ 0x5C :: 0x75 :: z) ++ (y :: t).drop adv by simp]
                  exact EndsInEscape.append (hpl.append hzb) hE
          · rw [if_neg hu]
            have hsb : (if x = 0x62 then (0x08 : Byte) else if x = 0x66 then 0x0C else if x = 0x6E then 0x0A
              else if x = 0x72 then 0x0D else if x = 0x74 then 0x09 else x) = shortByte x := rfl
            rw [hsb]
            obtain ⟨t2, hb2, rfl⟩ := (body_short hx hu text').mp hb'
            rw [put_ok (by simp; omega), ok_bind]
            obtain ⟨res, e1, h1, h2⟩ := ih (y :: t) t2 (out ++ pl ++ [shortByte x]) (rem - pl.length) hb2
              (by simp; omega) (by simp; omega) (by simp; omega)
            refine ⟨res, e1, ?_, fun h => ?_⟩
            · simp at h1; omega
            · rw [h2]
              · simp
              · intro hE
                apply h
                rw [show pl ++ 0x5C :: x :: y :: t = (pl ++ [0x5C, x]) ++ (y :: t) by simp]
                exact EndsInEscape.append (hpl.append ((body_short hx hu _).mpr ⟨[], Body.nil, rfl⟩)) hE
        · exact absurd hb' (body_escape_bad (by simpa using hx) _)

/-- Unescaping a string of the grammar into a buffer that is as large as the string. -/
theorem copyUnescaped_ok {raw text : List Byte} (hb : Body raw text) {size : Nat} (hs : raw.length ≤ size) :
    ∃ res, copyUnescaped raw size = .ok res ∧ res.length ≤ raw.length ∧ (¬ EndsInEscape raw → res = text) := by
  unfold copyUnescaped
  by_cases h : (raw = [] || size = 0) = true
  · rw [if_pos h]
    have : raw = [] := by
      simp at h
      rcases h with h | h
      · exact h
      · exact List.length_eq_zero_iff.mp (by omega)
    subst this
    refine ⟨[], rfl, by simp, fun _ => ?_⟩
    generalize e : ([] : List Byte) = s at hb
    cases hb <;> first | (cases e; done) | rfl
  · rw [if_neg h]
    obtain ⟨res, e, h1, h2⟩ := copyLoop_ok size (raw.length + 1) raw text [] size hb (by omega) (by simpa using hs) hs
    exact ⟨res, e, by simpa using h1, by simpa using h2⟩

end Tm.Json
