import Verif.Dbl.ScanLemmas

/-! # Numbers as they are written and the parts of a text -/

namespace Tm.Dbl
open Tm.Conv Tm.Num

theorem text_eq (n : Number) : n.text = signText n.negative ++ (mantText n.whole n.fraction ++ exponentText n.exponent) := by
  unfold Number.text signText mantText
  simp only [List.append_assoc]

theorem text_length (n : Number) : n.text.length = frontSize n.negative n.whole n.fraction + (exponentText n.exponent).length := by
  rw [text_eq, List.length_append, List.length_append, frontSize, Nat.add_assoc]

theorem mantText_head {I : List Nat} {Fr : Option (List Nat)} (h : I ++ Fr.getD [] ≠ []) (hd : ∀ d ∈ I ++ Fr.getD [], d < 10) (more : List Byte) :
    ∃ c w, mantText I Fr ++ more = c :: w ∧ (isdigit c = true ∨ c = 46) := by
  cases I with
  | cons d I => exact ⟨digitChar false d, _, by simp only [mantText, digitsText, List.map_cons, List.cons_append]; rfl, Or.inl (isdigit_digitChar (hd d (by simp)))⟩
  | nil =>
    cases Fr with
    | none => exact absurd rfl h
    | some D => exact ⟨46, _, by simp only [mantText, digitsText, List.map_nil, List.nil_append, fractionText, List.cons_append]; rfl, Or.inr rfl⟩

theorem exponentText_head {ex : Option (Byte × Option Byte × List Nat)} (h : ∀ l sg ds, ex = some (l, sg, ds) → GoodExp l sg ds) (hne : ex ≠ none)
    (more : List Byte) : ∃ c w, exponentText ex ++ more = c :: w ∧ isdigit c = false ∧ c ≠ 46 := by
  cases ex with
  | none => exact absurd rfl hne
  | some x =>
    obtain ⟨l, sg, ds⟩ := x
    have hg := h _ _ _ rfl
    refine ⟨l, _, by simp only [exponentText, List.cons_append]; rfl, ?_⟩
    rcases hg.1 with rfl | rfl <;> decide

theorem goodExp {n : Number} (h : n.Ok) : ∀ l sg ds, n.exponent = some (l, sg, ds) → GoodExp l sg ds := fun l sg ds he => h.exponent l sg ds he

/-- The longest number of a text and the parts that the code finds. -/
theorem longest_parts {s : List Byte} {n : Number} (h : Longest s n) :
    ∃ s0 rest behind, s = signText n.negative ++ s0 ∧ (n.negative = false → s0.head? ≠ some 45) ∧
      Shape s0 n.whole n.fraction rest ∧ ExpShape rest n.exponent behind := by
  obtain ⟨hok, ⟨behind, hs⟩, hmax⟩ := h
  have hex := goodExp hok
  have hdig : ∀ d ∈ n.whole ++ n.fraction.getD [], d < 10 := hok.digits
  rw [text_eq, List.append_assoc, List.append_assoc] at hs
  refine ⟨mantText n.whole n.fraction ++ (exponentText n.exponent ++ behind), exponentText n.exponent ++ behind, behind, hs.symm, ?_,
    ⟨rfl, hdig, ?_, ?_⟩, ⟨rfl, hex, ?_, ?_⟩⟩
  · intro _ hc
    obtain ⟨c, w, hw, hcd⟩ := mantText_head (I := n.whole) (Fr := n.fraction) hok.nonempty hdig (exponentText n.exponent ++ behind)
    rw [hw] at hc
    have : c = 45 := by simpa using hc
    subst this
    rcases hcd with h | h
    · exact absurd h (by decide)
    · exact absurd h (by decide)
  · by_cases hne : n.exponent = none
    · intro c hc
      by_contra hd
      have hd : isdigit c = true := by simpa using hd
      rw [hne] at hc hs
      obtain ⟨w, rfl⟩ : ∃ w, behind = c :: w := by
        cases behind with
        | nil => simp [exponentText] at hc
        | cons b w => exact ⟨w, by have : b = c := by simpa [exponentText] using hc
                                   rw [this]⟩
      obtain ⟨h10, hch⟩ := digitChar_of_isdigit hd
      -- the digit belongs to the number
      cases hf : n.fraction with
      | none =>
        rw [hf] at hs
        have := hmax { n with whole := n.whole ++ [c.toNat - 48] } ⟨by
          intro d hdm
          simp only [Number.digits, Number.fractionDigits, hf, Option.getD_none, List.append_nil, List.mem_append, List.mem_singleton] at hdm
          rcases hdm with hdm | rfl
          · exact hdig d (by simp [hdm])
          · exact h10, by simp [Number.digits], fun l sg ds he => hok.exponent l sg ds he⟩ ⟨w, by
            rw [← hs]
            simp [Number.text, signText, mantText, digitsText, hf, fractionText, hne, exponentText, hch]⟩
        simp [Number.text, digitsText, hf, fractionText, hne, exponentText] at this
      | some D =>
        rw [hf] at hs
        have := hmax { n with fraction := some (D ++ [c.toNat - 48]) } ⟨by
          intro d hdm
          simp only [Number.digits, Number.fractionDigits, Option.getD_some, List.mem_append, List.mem_singleton] at hdm
          rcases hdm with hdm | hdm | rfl
          · exact hdig d (by simp [hdm])
          · exact hdig d (by simp [hf, hdm])
          · exact h10, by simp [Number.digits, Number.fractionDigits], fun l sg ds he => hok.exponent l sg ds he⟩ ⟨w, by
            rw [← hs]
            simp [Number.text, signText, mantText, digitsText, fractionText, hne, exponentText, hch]⟩
        simp [Number.text, digitsText, hf, fractionText, hne, exponentText] at this
    · obtain ⟨c, w, hw, h1, h2⟩ := exponentText_head hex hne behind
      rw [hw]
      intro c' hc'
      have : c = c' := by simpa using hc'
      rw [← this]; exact h1
  · intro hf
    by_cases hne : n.exponent = none
    · intro hc
      rw [hne] at hc hs
      obtain ⟨w, rfl⟩ : ∃ w, behind = 46 :: w := by
        cases behind with
        | nil => simp [exponentText] at hc
        | cons b w => exact ⟨w, by have : b = 46 := by simpa [exponentText] using hc
                                   rw [this]⟩
      rw [hf] at hs
      have := hmax { n with fraction := some [] } ⟨by
        intro d hdm
        simp only [Number.digits, Number.fractionDigits, Option.getD_some, List.append_nil] at hdm
        exact hdig d (by simp [hdm]), by
          have := hok.nonempty
          simpa [Number.digits, Number.fractionDigits, hf] using this, fun l sg ds he => hok.exponent l sg ds he⟩ ⟨w, by
            rw [← hs]
            simp [Number.text, signText, mantText, digitsText, fractionText, hne, exponentText]⟩
      simp [Number.text, digitsText, hf, fractionText, hne, exponentText] at this
    · obtain ⟨c, w, hw, h1, h2⟩ := exponentText_head hex hne behind
      rw [hw]
      intro hc
      exact h2 (by simpa using hc)
  · intro hne c hc
    by_contra hd
    have hd : isdigit c = true := by simpa using hd
    obtain ⟨w, rfl⟩ : ∃ w, behind = c :: w := by
      cases behind with
      | nil => cases hc
      | cons b w => exact ⟨w, by have : b = c := by simpa using hc
                                 rw [this]⟩
    obtain ⟨h10, hch⟩ := digitChar_of_isdigit hd
    cases he : n.exponent with
    | none => exact hne he
    | some x =>
      obtain ⟨l, sg, ds⟩ := x
      have hg := hex _ _ _ he
      rw [he] at hs
      have := hmax { n with exponent := some (l, sg, ds ++ [c.toNat - 48]) } ⟨hok.digits, hok.nonempty, by
        intro l' sg' ds' he'
        cases he'
        refine ⟨hg.1, hg.2.1, by simp, fun d hdm => ?_⟩
        rcases List.mem_append.mp hdm with hdm | hdm
        · exact hg.2.2.2 d hdm
        · rw [List.mem_singleton.mp hdm]; exact h10⟩ ⟨w, by
          rw [← hs]
          simp [Number.text, signText, mantText, digitsText, exponentText, hch]⟩
      simp [Number.text, digitsText, he, exponentText] at this
  · intro hne l sg ds hg hp
    rw [hne] at hp hs
    obtain ⟨w, hw⟩ := hp
    have := hmax { n with exponent := some (l, sg, ds) } ⟨hok.digits, hok.nonempty, by
        intro l' sg' ds' he'
        cases he'
        exact hg⟩ ⟨w, by
          rw [← hs, ← hw]
          simp [Number.text, signText, mantText]⟩
    simp [Number.text, hne, exponentText] at this

/-- The scanner on a text with its longest number. -/
theorem scan_number {s : List Byte} (hz : (0 : Byte) ∉ s) {n : Number} (h : Longest s n) (t : List Byte) (out : Option Double) :
    ∃ (s0 rest : List Byte) (en : Bool), Shape s0 n.whole n.fraction rest ∧ (∀ l sg ds, n.exponent = some (l, sg, ds) → en = decide (sg = some 0x2D)) ∧
      scanDouble (some (s ++ 0 :: t)) out = finish (frontSize n.negative n.whole n.fraction) (s0 ++ 0 :: t) n.negative
        (n.whole.length, (n.fraction.getD []).length) out (outcome n.exponent en) := by
  obtain ⟨s0, rest, behind, rfl, h1, h2, h3⟩ := longest_parts h
  have hne : ¬ (n.whole = [] ∧ n.fraction = none) := by
    rintro ⟨hw, hf⟩
    exact h.1.nonempty (by simp [Number.digits, Number.fractionDigits, hw, hf])
  obtain ⟨en, he, hs⟩ := scan_parts h1 h2 h3 (fun hc => hz (by rw [h2.eq]; exact List.mem_append_right _ (List.mem_append_right _ hc))) hne t out
  exact ⟨s0, rest, en, h2, he, hs⟩

theorem outcome_good {n : Number} {en : Bool} (h : n.exponentSize ≤ 511) (he : ∀ l sg ds, n.exponent = some (l, sg, ds) → en = decide (sg = some 0x2D)) :
    outcome n.exponent en = .go (exponentText n.exponent).length en n.exponentSize ∧
      n.exponentValue = if en then -(n.exponentSize : Int) else n.exponentSize := by
  unfold Number.exponentSize Number.exponentValue at *
  cases hx : n.exponent with
  | none => simp [outcome, exponentText]
  | some x =>
    obtain ⟨l, sg, ds⟩ := x
    rw [hx] at h he
    have := he _ _ _ rfl
    subst this
    simp only [outcome] at *
    rw [if_pos h]
    refine ⟨rfl, ?_⟩
    by_cases hs : sg = some 0x2D
    · simp [hs]
    · simp [hs]

/-- Moving the decimal point does not change the number. -/
theorem adjust_value (I D : List Nat) (en : Bool) (e : Nat) :
    ((numVal 10 ((I ++ D).take (adjust I.length D.length en e).1.toNat) : ℚ) +
      numVal 10 ((I ++ D).drop (adjust I.length D.length en e).1.toNat) / 10 ^ (adjust I.length D.length en e).2.1.toNat) *
        10 ^ (adjust I.length D.length en e).2.2 =
    ((numVal 10 I : ℚ) + numVal 10 D / 10 ^ D.length) * 10 ^ (if en then -(e : Int) else (e : Int)) := by
  obtain ⟨h1, h2, h3, _, h5, _⟩ := adjust_sum I.length D.length en e (by omega)
  generalize adjust I.length D.length en e = A at *
  obtain ⟨i, f, x⟩ := A
  simp only at *
  have hi : (i.toNat : Int) = i := Int.toNat_of_nonneg h1
  have hf : (f.toNat : Int) = f := Int.toNat_of_nonneg h2
  have hall : numVal 10 ((I ++ D).take i.toNat) * 10 ^ f.toNat + numVal 10 ((I ++ D).drop i.toNat) = numVal 10 I * 10 ^ D.length + numVal 10 D := by
    rw [← numVal_append I D]
    conv_rhs => rw [← List.take_append_drop i.toNat (I ++ D)]
    rw [numVal_append]
    congr 3
    rw [List.length_drop, List.length_append]
    omega
  have hallq : (numVal 10 ((I ++ D).take i.toNat) : ℚ) * 10 ^ f.toNat + numVal 10 ((I ++ D).drop i.toNat) =
      (numVal 10 I : ℚ) * 10 ^ D.length + numVal 10 D := by exact_mod_cast hall
  rw [h5]
  have hp1 : (10 : ℚ) ^ f.toNat ≠ 0 := by positivity
  have hp2 : (10 : ℚ) ^ D.length ≠ 0 := by positivity
  have e1 : (numVal 10 ((I ++ D).take i.toNat) : ℚ) + numVal 10 ((I ++ D).drop i.toNat) / 10 ^ f.toNat =
      ((numVal 10 I : ℚ) * 10 ^ D.length + numVal 10 D) / 10 ^ f.toNat := by
    rw [← hallq, add_div, mul_div_cancel_right₀ _ hp1]
  have e2 : (numVal 10 I : ℚ) + numVal 10 D / 10 ^ D.length = ((numVal 10 I : ℚ) * 10 ^ D.length + numVal 10 D) / 10 ^ D.length := by
    rw [add_div, mul_div_cancel_right₀ _ hp2]
  rw [e1, e2]
  generalize (numVal 10 I : ℚ) * 10 ^ D.length + numVal 10 D = v
  rw [div_mul_eq_mul_div, div_mul_eq_mul_div, div_eq_div_iff hp1 hp2, mul_assoc, mul_assoc]
  congr 1
  rw [← zpow_natCast, ← zpow_natCast, ← zpow_add₀ (by norm_num), ← zpow_add₀ (by norm_num)]
  congr 1
  omega

theorem longest_exists {s : List Byte} (h : ∃ n : Number, n.Ok ∧ n.text <+: s) : ∃ n, Longest s n := by
  obtain ⟨n, hn, hp⟩ := h
  induction hk : s.length - n.text.length using Nat.strongRecOn generalizing n with
  | _ k ih =>
    by_cases hc : ∃ n' : Number, n'.Ok ∧ n'.text <+: s ∧ n.text.length < n'.text.length
    · obtain ⟨n', h1, h2, h3⟩ := hc
      have := h2.length_le
      exact ih (s.length - n'.text.length) (by omega) n' h1 h2 rfl
    · refine ⟨n, hn, hp, fun n' h1 h2 => ?_⟩
      by_contra h3
      exact hc ⟨n', h1, h2, by omega⟩

end Tm.Dbl
