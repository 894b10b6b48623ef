import Verif.Dbl.PrintSign
/-! What is printed as a `Number`. -/
namespace Tm.Dbl
open Tm.Conv Tm.Num

/-- The digits of a number with zeroes in front. -/
def paddedDigits (w d : Nat) : List Nat := List.replicate (w - (numeral 10 d).length) 0 ++ numeral 10 d

theorem padded_eq (w d : Nat) : padded w d = digitsText (paddedDigits w d) := by
  rw [padded, digitsText, paddedDigits, List.map_append, List.map_replicate, text_length]
  rfl

theorem replicate_val (k : Nat) : numVal 10 (List.replicate k 0) = 0 := by
  induction k with
  | zero => rfl
  | succ k ih => rw [List.replicate_succ', numVal_snoc, ih]

theorem paddedDigits_val (w d : Nat) : numVal 10 (paddedDigits w d) = d := by
  rw [paddedDigits, Num.numVal_append, replicate_val, numVal_numeral 10 d (by decide)]
  omega

theorem paddedDigits_length {w d : Nat} (hw : 0 < w) (h : d < 10 ^ w) : (paddedDigits w d).length = w := by
  have := (numeral_length_le_iff 10 d w (by decide) hw).mpr h
  rw [paddedDigits, List.length_append, List.length_replicate]
  omega

theorem paddedDigits_length_le {w d : Nat} (h : d ≤ 10 ^ w) : (paddedDigits w d).length ≤ w + 1 := by
  have := (numeral_length_le_iff 10 d (w + 1) (by decide) (by omega)).mpr (by rw [Nat.pow_succ]; have : 0 < 10 ^ w := Nat.pow_pos (by decide); omega)
  rw [paddedDigits, List.length_append, List.length_replicate]
  omega

theorem paddedDigits_lt (w d : Nat) : ∀ x ∈ paddedDigits w d, x < 10 := by
  intro x hx
  rw [paddedDigits, List.mem_append] at hx
  rcases hx with hx | hx
  · rw [(List.mem_replicate.mp hx).2]; decide
  · exact (numeral_canonical 10 d (by decide)).2.1 x hx

theorem numeral_last (d : Nat) : (numeral 10 d).getLast? = some (d % 10) := by
  rcases Nat.lt_or_ge d 10 with h | h
  · rw [numeral_lt h, Nat.mod_eq_of_lt h]; rfl
  · rw [numeral_ge (by decide) h]; simp

theorem paddedDigits_last (w d : Nat) : (paddedDigits w d).getLast? = some (d % 10) := by
  rw [paddedDigits, List.getLast?_append, numeral_last]; rfl

theorem paddedDigits_ne (w d : Nat) : paddedDigits w d ≠ [] := by
  rw [paddedDigits]
  have := numeral_length_pos 10 d (by decide)
  intro h
  rw [List.append_eq_nil_iff] at h
  rw [h.2] at this
  simp at this

theorem zeroes_text (k : Nat) : List.replicate k (48 : Byte) = digitsText (List.replicate k 0) := by
  rw [digitsText, List.map_replicate]; rfl

/-- The fraction as it is printed. -/
theorem fractionOf_any {p d : Nat} {trailing keepShort : Bool} (hp : p ≤ 14) (hd : d ≤ 10 ^ p) :
    ∃ fr : Option (List Nat), fractionOf p d trailing keepShort = fractionText fr ∧ (∀ x ∈ fr.getD [], x < 10) ∧ (fr.getD []).length ≤ 15 := by
  have hd64 : d < 2 ^ 64 := by
    have : 10 ^ p ≤ 10 ^ 14 := Nat.pow_le_pow_right (by norm_num) hp
    omega
  rw [fractionOf]
  by_cases h0 : p = 0
  · rw [if_pos h0]
    exact ⟨none, rfl, by simp, by simp⟩
  rw [if_neg h0]
  by_cases hd0 : d ≠ 0
  · rw [if_pos hd0]
    by_cases hk : keepShort = true
    · rw [if_pos hk]
      obtain ⟨d', w', h1, h2, h3, h4, h5⟩ := trim_eq 65 (d := d) (w := p) (by omega) hd (by omega) hd64
      rw [h1]
      have hle : d' ≤ 10 ^ w' := by
        have e : 10 ^ p = 10 ^ w' * 10 ^ (p - w') := by rw [← Nat.pow_add]; congr 1; omega
        rw [h3, e] at hd
        exact Nat.le_of_mul_le_mul_right hd (Nat.pow_pos (by decide))
      cases w' with
      | zero => exact ⟨some [0], rfl, by simp, by simp⟩
      | succ w =>
        have : d' ≤ d := by rw [h3]; exact Nat.le_mul_of_pos_right _ (Nat.pow_pos (by decide))
        refine ⟨some (paddedDigits (w + 1) d'), ?_, paddedDigits_lt _ _, ?_⟩
        · simp only [fractionText]
          rw [BitVec.toNat_ofNat, Nat.mod_eq_of_lt (by omega), padded_eq]
        · have := paddedDigits_length_le hle
          simp only [Option.getD_some]
          omega
    · rw [if_neg hk]
      refine ⟨some (paddedDigits p d), by rw [padded_eq]; rfl, paddedDigits_lt _ _, ?_⟩
      have := paddedDigits_length_le hd
      simp only [Option.getD_some]
      omega
  · rw [if_neg hd0]
    by_cases ht : trailing = true
    · rw [if_pos ht]
      by_cases hk : keepShort = true
      · rw [if_pos hk]
        exact ⟨some [0], rfl, by simp, by simp⟩
      · rw [if_neg hk]
        refine ⟨some (List.replicate p 0), by rw [zeroes_text]; rfl, fun x hx => by rw [(List.mem_replicate.mp hx).2]; decide, ?_⟩
        simp
        omega
    · rw [if_neg ht]
      exact ⟨none, rfl, by simp, by simp⟩

theorem fractionOf_shape {d : Nat} {flags : BitVec 32} {precision : Int} (hd : d < 10 ^ decimals flags precision) (h0 : decimals flags precision ≠ 0) :
    ∃ fr : Option (List Nat), fractionOf (decimals flags precision) d (trailingOf flags precision) (short flags precision) = fractionText fr ∧
      (∀ x ∈ fr.getD [], x < 10) ∧ FractionShape flags precision fr ∧ (fr.getD []).length ≤ decimals flags precision ∧
      (numVal 10 (fr.getD []) : ℚ) / 10 ^ (fr.getD []).length = d / 10 ^ decimals flags precision := by
  have hp := decimals_le (flags := flags) (precision := precision)
  have hd64 : d < 2 ^ 64 := by
    have : 10 ^ decimals flags precision ≤ 10 ^ 14 := Nat.pow_le_pow_right (by norm_num) hp
    omega
  rw [fractionOf, if_neg h0]
  by_cases hd0 : d ≠ 0
  · rw [if_pos hd0]
    by_cases hk : short flags precision = true
    · rw [if_pos hk]
      have h14 : decimals flags precision = 14 := by rw [decimals, if_pos hk]
      obtain ⟨d', w', h1, h2, h3, h4, h5⟩ := trim_eq 65 (d := d) (w := decimals flags precision) (by omega) hd.le (by omega) hd64
      rw [h1]
      have hlt : d' < 10 ^ w' := by
        have e : 10 ^ decimals flags precision = 10 ^ w' * 10 ^ (decimals flags precision - w') := by rw [← Nat.pow_add]; congr 1; omega
        rw [h3, e] at hd
        exact Nat.lt_of_mul_lt_mul_right hd
      cases w' with
      | zero => simp at hlt; omega
      | succ w =>
        have : d' ≤ d := by rw [h3]; exact Nat.le_mul_of_pos_right _ (Nat.pow_pos (by decide))
        have hl := paddedDigits_length (w := w + 1) (d := d') (by omega) hlt
        refine ⟨some (paddedDigits (w + 1) d'), ?_, paddedDigits_lt _ _, ?_, ?_, ?_⟩
        · simp only [fractionText]
          rw [BitVec.toNat_ofNat, Nat.mod_eq_of_lt (by omega), padded_eq]
        · rw [FractionShape, if_pos hk]
          refine .inr ⟨_, rfl, paddedDigits_ne _ _, by omega, ?_⟩
          rw [paddedDigits_last]
          simpa using h4
        · simp only [Option.getD_some]; omega
        · simp only [Option.getD_some]
          rw [hl, paddedDigits_val, h3]
          push_cast
          have e : (10 : ℚ) ^ decimals flags precision = 10 ^ (w + 1) * 10 ^ (decimals flags precision - (w + 1)) := by
            rw [← pow_add]; congr 1; omega
          rw [e]
          field_simp
    · rw [if_neg hk]
      have hl := paddedDigits_length (by omega) hd
      refine ⟨some (paddedDigits (decimals flags precision) d), by rw [padded_eq]; rfl, paddedDigits_lt _ _, ?_, ?_, ?_⟩
      · rw [FractionShape, if_neg hk, if_neg h0]
        exact ⟨_, rfl, hl⟩
      · simp only [Option.getD_some]; omega
      · simp only [Option.getD_some]
        rw [hl, paddedDigits_val]
  · have hd0' : d = 0 := by omega
    subst hd0'
    rw [if_neg hd0, trailingOf]
    by_cases hk : short flags precision = true
    · rw [if_pos hk]
      have h14 : decimals flags precision = 14 := by rw [decimals, if_pos hk]
      by_cases ht : flags.getLsbD 4 = true
      · rw [if_pos ht, if_pos hk]
        refine ⟨some [0], rfl, by simp, ?_, by simp; omega, by simp [numVal]⟩
        rw [FractionShape, if_pos hk, if_pos ht]
        exact .inl rfl
      · rw [if_neg ht]
        refine ⟨none, rfl, by simp, ?_, by simp, by simp [numVal]⟩
        rw [FractionShape, if_pos hk, if_neg ht]
        exact .inl rfl
    · rw [if_neg hk, if_pos rfl, if_neg hk]
      refine ⟨some (List.replicate (decimals flags precision) 0), by rw [zeroes_text]; rfl,
        fun x hx => by rw [(List.mem_replicate.mp hx).2]; decide, ?_, by simp, ?_⟩
      · rw [FractionShape, if_neg hk, if_neg h0]
        exact ⟨_, rfl, by simp⟩
      · simp [replicate_val]

theorem fractionOf_zero {flags : BitVec 32} {precision : Int} :
    fractionOf (decimals flags precision) 0 (trailingOf flags precision) (short flags precision) = zeroFraction flags precision := by
  rw [fractionOf, zeroFraction, trailingOf]
  by_cases hk : short flags precision = true
  · have h14 : decimals flags precision = 14 := by rw [decimals, if_pos hk]
    simp [hk, h14]
  · simp [hk]

theorem signOf_eq {flags : BitVec 32} {negative : Bool} {q : ℚ} :
    signOf flags (negative, .fin q) = if hasMinus flags negative q then [0x2D] else [] := by
  rw [signOf, hasMinus]
  have : (decide (F.fin q ≠ .fin 0)) = decide (q ≠ 0) := by simp
  simp only [this]
  cases negative <;> cases flags.getLsbD 7 <;> cases decide (q ≠ 0) <;> simp

/-- A whole number and a fraction. -/
theorem number_text {negative : Bool} {n : Nat} {fr : Option (List Nat)} :
    (Number.mk negative (numeral 10 n) fr none).text = (if negative then [0x2D] else []) ++ text 10 false n ++ fractionText fr := by
  simp [Number.text, exponentText, digitsText, Num.text]

theorem number_ok {negative : Bool} {n : Nat} {fr : Option (List Nat)} (h : ∀ x ∈ fr.getD [], x < 10) :
    (Number.mk negative (numeral 10 n) fr none).Ok := by
  refine ⟨?_, ?_, by simp⟩
  · intro d hd
    rw [Number.digits, List.mem_append] at hd
    rcases hd with hd | hd
    · exact (numeral_canonical 10 n (by decide)).2.1 d hd
    · exact h d hd
  · rw [Number.digits]
    have := numeral_length_pos 10 n (by decide)
    intro h
    rw [List.append_eq_nil_iff] at h
    have h := h.1
    simp only at h
    rw [h] at this
    simp at this

theorem number_value {negative : Bool} {n : Nat} {fr : Option (List Nat)} :
    (Number.mk negative (numeral 10 n) fr none).value = n + (numVal 10 (fr.getD []) : ℚ) / 10 ^ (fr.getD []).length := by
  simp [Number.value, Number.fractionDigits, Number.exponentValue, numVal_numeral 10 n (by decide)]

theorem text_ne (n : Nat) (s : List Byte) : text 10 false n ++ s ≠ [] := by
  have := text_pos 10 n (by decide) false
  intro h
  rw [List.append_eq_nil_iff] at h
  rw [h.1] at this
  simp at this

/-- From what is printed for a number without its sign. -/
theorem printDouble_fin {buf : List Byte} {dest maxlen : Nat} {q : ℚ} {negative : Bool} {flags : BitVec 32} {precision : Int} {n : Nat}
    {s : List Byte} (hroom : dest + maxlen ≤ buf.length)
    (h : ∀ t : List Byte, t.length < maxlen → Printed buf dest maxlen (t ++ text 10 false n ++ s)
      (printFinite maxlen (st buf dest maxlen t) (.fin q) flags precision)) :
    Printed buf dest maxlen ((if hasMinus flags negative q then [0x2D] else []) ++ text 10 false n ++ s)
      (printDouble buf dest maxlen (negative, .fin q) flags precision) := by
  have := printDouble_sign (value := (negative, .fin q)) (flags := flags) (precision := precision) hroom (text_ne n s) (fun t ht => by
    rw [printUnsigned, ← List.append_assoc]
    exact h t ht)
  rw [signOf_eq, ← List.append_assoc] at this
  exact this

end Tm.Dbl
