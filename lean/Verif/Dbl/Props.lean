import Verif.Dbl.NumberLemmas

/-!
# Reading floating point numbers: the properties

C166 – C170.
-/

namespace Tm.Dbl
open Tm.Conv Tm.Num

/-- A text. -/
def bytes (s : String) : List Byte := s.toList.map fun c => BitVec.ofNat 8 c.toNat

/-! ## C166: which text is read -/

/-- A text that begins with a number begins with a longest one. -/
theorem C166_longest_exists {s : List Byte} (h : ∃ n : Number, n.Ok ∧ n.text <+: s) : ∃ n, Longest s n := longest_exists h

/-- Missing: a dot without digits (see `C166_not_dot`). A string that does not begin with a number is refused and nothing is written. -/
theorem C166_none_partial {s : List Byte} (t : List Byte) (hd : ¬ LoneDot s) (hn : ∀ n : Number, n.Ok → ¬ n.text <+: s) (out : Option Double) :
    scanDouble (some (s ++ 0 :: t)) out = .ok (⟨0, .einval⟩, out) := by
  obtain ⟨neg, s0, rfl, hs⟩ := signed_exists s
  obtain ⟨I, Fr, rest, h⟩ := shape_exists s0
  rw [scan_front hs h]
  by_cases hc : I = [] ∧ Fr = none
  · rw [if_pos hc]
  · exfalso
    by_cases he : I ++ Fr.getD [] = []
    · obtain ⟨rfl, h2⟩ := List.append_eq_nil_iff.mp he
      cases Fr with
      | none => exact hc ⟨rfl, rfl⟩
      | some D =>
        have : D = [] := h2
        subst this
        refine hd ⟨rest, ?_, ?_⟩
        · rw [h.eq]
          cases neg with
          | true => right; simp [signText, mantText, digitsText, fractionText]
          | false => left; simp [signText, mantText, digitsText, fractionText]
        · intro c hc d hd
          have := h.noDigit c hc
          have hd2 := hd.2
          simp only [upperCode, lowerCode, if_pos hd.1] at hd2
          have h10 := hd.1
          simp only [isdigit, Bool.and_eq_false_iff, decide_eq_false_iff_not] at this
          omega
    · refine hn ⟨neg, I, Fr, none⟩ ⟨h.digits, he, by simp⟩ ⟨rest, ?_⟩
      rw [text_eq, h.eq]
      simp [exponentText]

/-- Without an output, the longest number is read, and its size returned. -/
theorem C166_size {s : List Byte} (hz : (0 : Byte) ∉ s) {n : Number} (h : Longest s n) (he : n.exponentSize ≤ 511) (t : List Byte) :
    scanDouble (some (s ++ 0 :: t)) none = .ok (⟨n.text.length, .ok⟩, none) := by
  obtain ⟨s0, rest, en, hsh, hen, hs⟩ := scan_number hz h t none
  rw [hs, (outcome_good he hen).1, text_length]
  rfl

theorem adjust_limits {n : Number} {en : Bool} (he : n.exponentSize ≤ 510) (hd : n.digits.length ≤ 511) :
    (adjust n.whole.length (n.fraction.getD []).length en n.exponentSize).2.1.toNat ≤ 511 ∧
      (adjust n.whole.length (n.fraction.getD []).length en n.exponentSize).2.2 < 511 ∧
      (adjust n.whole.length (n.fraction.getD []).length en n.exponentSize).2.2.natAbs ≤ 511 := by
  obtain ⟨h1, h2, h3, h4, _, _⟩ := adjust_sum n.whole.length (n.fraction.getD []).length en n.exponentSize (by omega)
  have hl : n.digits.length = n.whole.length + (n.fraction.getD []).length := List.length_append
  generalize adjust n.whole.length (n.fraction.getD []).length en n.exponentSize = A at *
  omega

/-- Missing: numbers with more than 511 digits and exponents of 511 (see C170). The longest number is read, its size returned, and a number
with its sign is written. -/
theorem C166_accepts_partial {s : List Byte} (hz : (0 : Byte) ∉ s) {n : Number} (h : Longest s n) (he : n.exponentSize ≤ 510)
    (hd : n.digits.length ≤ 511) (t : List Byte) (o : Double) :
    ∃ v, scanDouble (some (s ++ 0 :: t)) (some o) = .ok (⟨n.text.length, .ok⟩, some (n.negative, v)) := by
  obtain ⟨s0, rest, en, hsh, hen, hs⟩ := scan_number hz h t (some o)
  obtain ⟨a, b, _, _, hm, _⟩ := output_shape hsh en n.exponentSize (by omega)
  obtain ⟨l1, l2, l3⟩ := adjust_limits (en := en) he hd
  obtain ⟨r, hr⟩ := combineParts_ok a b l1 l2 l3
  refine ⟨r, ?_⟩
  rw [hs, (outcome_good (by omega) hen).1, text_length]
  simp only [finish, output]
  rw [hm, hr]
  rfl

/-- A number whose exponent is above 511 is refused: its size is returned with an error and nothing is written. -/
theorem C166_range {s : List Byte} (hz : (0 : Byte) ∉ s) {n : Number} (h : Longest s n) (he : 511 < n.exponentSize) (t : List Byte)
    (out : Option Double) :
    scanDouble (some (s ++ 0 :: t)) out =
      .ok (⟨n.text.length, if n.exponentSize < 2 ^ 31 then .eoverflow else .erange⟩, out) := by
  obtain ⟨s0, rest, en, hsh, hen, hs⟩ := scan_number hz h t out
  rw [hs, text_length]
  unfold Number.exponentSize at *
  cases hx : n.exponent with
  | none => rw [hx] at he; simp at he
  | some x =>
    obtain ⟨l, sg, ds⟩ := x
    rw [hx] at he
    simp only [outcome] at *
    rw [if_neg (by omega)]
    rfl

/-- A dot alone is no number, but it is accepted as one. -/
theorem C166_not_dot : (∀ n : Number, n.Ok → ¬ n.text <+: bytes ".") ∧
    scanDouble (some (bytes "." ++ [0])) none = .ok (⟨1, .ok⟩, none) := by
  refine ⟨fun n hn hp => ?_, by decide +kernel⟩
  have h1 := hp.length_le
  have hl : (bytes ".").length = 1 := by decide
  rw [hl, text_length, frontSize, mantText_length] at h1
  have h2 : 0 < n.whole.length + (n.fraction.getD []).length := by
    have := List.length_pos_of_ne_nil hn.nonempty
    rwa [Number.digits, Number.fractionDigits, List.length_append] at this
  -- a digit is the only char, so the text is a digit
  have hd := hn.digits
  cases hf : n.fraction with
  | some D => rw [hf] at h1 h2; simp at h1 h2; have : n.whole.length = 0 := by omega
              omega
  | none =>
    rw [hf] at h1 h2
    cases hw : n.whole with
    | nil => rw [hw] at h2; simp at h2
    | cons d ds =>
      rw [hw] at h1
      simp at h1
      have hneg : signText n.negative = [] := List.length_eq_zero_iff.mp (by omega)
      rw [text_eq, hneg, hw] at hp
      obtain ⟨w, hw'⟩ := hp
      simp only [List.nil_append, mantText, digitsText, List.map_cons, List.cons_append] at hw'
      have hb : bytes "." = [46] := by decide
      rw [hb] at hw'
      have hd10 := hd d (by simp [Number.digits, hw])
      have := isdigit_digitChar hd10
      rw [(List.cons.inj hw').1] at this
      exact absurd this (by decide)

/-- The number that "-12.5e+3" stands for. -/
def sample : Number := ⟨true, [1, 2], some [5], some (0x65, some 0x2B, [3])⟩

theorem sample_ok : sample.Ok := by
  refine ⟨by decide, by decide, ?_⟩
  rintro l sg ds h
  cases h
  exact ⟨Or.inl rfl, Or.inr (Or.inl rfl), by decide, by decide⟩

/-- A number is the longest one of a text if the text ends with it. -/
theorem longest_self {n : Number} (h : n.Ok) : Longest n.text n := ⟨h, List.prefix_refl _, fun _ _ hp => hp.length_le⟩

example : sample.text = bytes "-12.5e+3" := by decide
example : ∃ v, scanDouble (some (bytes "-12.5e+3" ++ [0])) (some (false, .nan)) = .ok (⟨8, .ok⟩, some (true, v)) :=
  C166_accepts_partial (s := sample.text) (by decide) (longest_self sample_ok) (by decide) (by decide) [] _
example : ¬ LoneDot (bytes "e5") ∧ scanDouble (some (bytes "e5" ++ [0])) none = .ok (⟨0, .einval⟩, none) := by
  refine ⟨?_, by decide +kernel⟩
  rintro ⟨r, h | h, _⟩ <;> exact absurd (List.cons.inj h).1 (by decide)

/-! ## C167: the number that is read -/

theorem adjust_zero (i f : Nat) (en : Bool) : adjust i f en ((0 : Nat) : Int) = ((i : Int), (f : Int), (0 : Int)) := by
  unfold adjust
  cases en with
  | true =>
    simp only [if_true]
    split
    · simp
    · rw [show i = 0 by omega]; simp
  | false =>
    simp only [Bool.false_eq_true, if_false]
    split
    · simp
    · rw [show f = 0 by omega]; simp

/-- Missing: more than 18 digits in front of or behind the dot, or together if there is an exponent, great exponents, and numbers below one with a
positive exponent (see the `C167_not_` theorems). The number that is written differs from the one that the text stands for by at most 10^-14 of it, and
it has its sign. -/
theorem C167_value_partial {s : List Byte} (hz : (0 : Byte) ∉ s) {n : Number} (h : Longest s n)
    (hd : n.digits.length ≤ 18 ∨ (n.exponent = none ∧ numVal 10 n.whole < 10 ^ 18 ∧ n.fractionDigits.length ≤ 18))
    (he : n.exponentSize ≤ 285) (hp : n.exponentValue ≤ 0 ∨ n.fractionDigits = [] ∨ ∃ d ∈ n.whole, d ≠ 0) (t : List Byte) (o : Double) :
    ∃ r, scanDouble (some (s ++ 0 :: t)) (some o) = .ok (⟨n.text.length, .ok⟩, some (n.negative, .fin r)) ∧
      |r - n.value| ≤ n.value / 10 ^ 14 := by
  obtain ⟨s0, rest, en, hsh, hen, hs⟩ := scan_number hz h t (some o)
  obtain ⟨a, b, ha, hb, hm, hval⟩ := output_shape hsh en n.exponentSize (by omega)
  obtain ⟨ho1, ho2⟩ := outcome_good (n := n) (by omega) hen
  obtain ⟨h1, h2, h3, h4, h5, _⟩ := adjust_sum n.whole.length (n.fraction.getD []).length en n.exponentSize (by omega)
  have hl : n.digits.length = n.whole.length + (n.fraction.getD []).length := List.length_append
  have hv := adjust_value n.whole (n.fraction.getD []) en n.exponentSize
  generalize hA : adjust n.whole.length (n.fraction.getD []).length en n.exponentSize = A at *
  have hdig : ∀ d ∈ n.whole ++ n.fraction.getD [], d < 10 := h.1.digits
  have hgood : en = true ∨ (n.exponentSize : Int) = 0 ∨ n.fraction.getD [] = [] ∨ ∃ d ∈ n.whole, d ≠ 0 := by
    rcases hp with hp | hp | hp
    · rw [ho2] at hp
      cases en with
      | true => exact Or.inl rfl
      | false => simp only [Bool.false_eq_true, if_false] at hp; right; left; omega
    · exact Or.inr (Or.inr (Or.inl hp))
    · exact Or.inr (Or.inr (Or.inr hp))
  obtain ⟨h18, hf18⟩ : numVal 10 ((n.whole ++ n.fraction.getD []).take A.1.toNat) < 10 ^ 18 ∧ A.2.1.toNat ≤ 18 := by
    rcases hd with hd | ⟨hx, hw, hf⟩
    · refine ⟨lt_of_lt_of_le (numVal_lt (fun d hd => hdig d (List.mem_of_mem_take hd))) (Nat.pow_le_pow_right (by norm_num) ?_), by omega⟩
      rw [List.length_take, List.length_append]
      omega
    · have he0 : n.exponentSize = 0 := by unfold Number.exponentSize; rw [hx]
      rw [he0, adjust_zero] at hA
      subst hA
      rw [Number.fractionDigits] at hf
      exact ⟨by rw [Int.toNat_natCast, List.take_left]; exact hw, by omega⟩
  obtain ⟨rfl, rfl⟩ := hval hgood h18 hf18
  have hbf : numVal 10 ((n.whole ++ n.fraction.getD []).drop A.1.toNat) < 10 ^ A.2.1.toNat := by
    refine lt_of_lt_of_le (numVal_lt (fun d hd => hdig d (List.mem_of_mem_drop hd))) (Nat.pow_le_pow_right (by norm_num) ?_)
    rw [List.length_drop, List.length_append]
    omega
  obtain ⟨r, hr1, hr2⟩ := combineParts_rel (e := A.2.2) h18 hf18 hbf (by omega)
  rw [hv, ← ho2] at hr2
  obtain ⟨q, rfl, hq⟩ := rel_error hr2
  refine ⟨q, ?_, hq⟩
  rw [hs, ho1, text_length]
  simp only [finish, output, hA]
  rw [hm, hr1]
  rfl

/-- "0.5e1" is five, but zero is written. -/
theorem C167_not_below_one : (Number.mk false [0] (some [5]) (some (0x65, none, [1]))).text = bytes "0.5e1" ∧
    (Number.mk false [0] (some [5]) (some (0x65, none, [1]))).value = 5 ∧
    scanDouble (some (bytes "0.5e1" ++ [0])) (some (false, .nan)) = .ok (⟨5, .ok⟩, some (false, .fin 0)) := by
  refine ⟨by decide, by norm_num [Number.value, Number.fractionDigits, Number.exponentValue, numVal]; decide, by decide +kernel⟩

/-- "1000000000000000000" is 10^18, but 10^17 is written. -/
theorem C167_not_nineteen_digits : (Number.mk false (1 :: List.replicate 18 0) none none).text = bytes "1000000000000000000" ∧
    (Number.mk false (1 :: List.replicate 18 0) none none).value = 10 ^ 18 ∧
    scanDouble (some (bytes "1000000000000000000" ++ [0])) (some (false, .nan)) = .ok (⟨19, .ok⟩, some (false, .fin (10 ^ 17))) := by
  refine ⟨by decide, by norm_num [Number.value, Number.fractionDigits, Number.exponentValue, numVal, List.replicate], by decide +kernel⟩

/-- "0.1000000000000000000" is a tenth, but a hundredth is written. -/
theorem C167_not_long_fraction : (Number.mk false [0] (some (1 :: List.replicate 18 0)) none).text = bytes "0.1000000000000000000" ∧
    (Number.mk false [0] (some (1 :: List.replicate 18 0)) none).value = 1 / 10 ∧
    ∃ r, scanDouble (some (bytes "0.1000000000000000000" ++ [0])) (some (false, .nan)) = .ok (⟨21, .ok⟩, some (false, .fin r)) ∧
      r < 101 / 10000 := by
  refine ⟨by decide, by norm_num [Number.value, Number.fractionDigits, Number.exponentValue, numVal, List.replicate],
    5764607523034235 / 576460752303423488, by decide +kernel, by norm_num⟩

/-- "0e400" is zero, but it is read as no number at all. -/
theorem C167_not_zero : (Number.mk false [0] none (some (0x65, none, [4, 0, 0]))).text = bytes "0e400" ∧
    (Number.mk false [0] none (some (0x65, none, [4, 0, 0]))).value = 0 ∧
    scanDouble (some (bytes "0e400" ++ [0])) (some (false, .fin 1)) = .ok (⟨5, .ok⟩, some (false, .nan)) := by
  refine ⟨by decide, by norm_num [Number.value, Number.fractionDigits, Number.exponentValue, numVal], by decide +kernel⟩

example : sample.value = 12500 ∧ ∃ r, scanDouble (some (bytes "-12.5e+3" ++ [0])) (some (false, .nan)) = .ok (⟨8, .ok⟩, some (true, .fin r)) ∧
    |r - sample.value| ≤ sample.value / 10 ^ 14 :=
  ⟨by norm_num [sample, Number.value, Number.fractionDigits, Number.exponentValue, numVal]; decide,
    C167_value_partial (s := sample.text) (by decide) (longest_self sample_ok) (.inl (by decide)) (by decide) (Or.inr (Or.inr ⟨1, by decide, by decide⟩)) [] _⟩

/-! ## C168: whole numbers -/

/-- Whole numbers up to 2^53 are read exactly. -/
theorem C168_integers {s : List Byte} (hz : (0 : Byte) ∉ s) {n : Number} (h : Longest s n) (hf : n.fraction = none) (hx : n.exponent = none)
    (hv : numVal 10 n.whole ≤ 2 ^ 53) (t : List Byte) (o : Double) :
    scanDouble (some (s ++ 0 :: t)) (some o) = .ok (⟨n.text.length, .ok⟩, some (n.negative, .fin (numVal 10 n.whole : Nat))) := by
  obtain ⟨s0, rest, en, hsh, hen, hs⟩ := scan_number hz h t (some o)
  have he : n.exponentSize = 0 := by unfold Number.exponentSize; rw [hx]
  obtain ⟨a, b, ha, hb, hm, hval⟩ := output_shape hsh en n.exponentSize (by omega)
  obtain ⟨ho1, ho2⟩ := outcome_good (n := n) (by omega) hen
  have hA : adjust n.whole.length (n.fraction.getD []).length en n.exponentSize = ((n.whole.length : Int), (0 : Int), (0 : Int)) := by
    rw [he, hf]
    unfold adjust
    have hpos : 0 < n.whole.length := by
      have := List.length_pos_of_ne_nil h.1.nonempty
      simpa [Number.digits, Number.fractionDigits, hf] using this
    cases en with
    | true => simp [hpos]
    | false => simp
  simp only [hA] at hval hm
  simp only [hf, Option.getD_none, List.append_nil] at hval
  simp only [Int.toNat_natCast, List.take_length, List.drop_length, Int.toNat_zero] at hval hm
  obtain ⟨rfl, rfl⟩ := hval (by simp) (lt_of_le_of_lt hv (by norm_num)) (by omega)
  rw [hs, ho1, text_length]
  simp only [finish, output, hf, Option.getD_none, List.length_nil]
  rw [hf] at hA
  simp only [Option.getD_none, List.length_nil] at hA
  rw [hA]
  simp only [Int.toNat_natCast, Int.toNat_zero]
  rw [hm, show numVal 10 [] = 0 from rfl, combineParts_nat hv]
  rfl

example : scanDouble (some (bytes "-0009007199254740992" ++ [0])) (some (false, .nan)) =
    .ok (⟨20, .ok⟩, some (true, .fin 9007199254740992)) :=
  C168_integers (s := (Number.mk true [0, 0, 0, 9, 0, 0, 7, 1, 9, 9, 2, 5, 4, 7, 4, 0, 9, 9, 2] none none).text) (by decide)
    (longest_self ⟨by decide, by decide, by simp⟩) rfl rfl (by decide) [] _

/-! ## C169: text with a length -/

/-- A text that is given with its length is read like the string that consists of the same chars, whatever these are and whatever lies
behind them. -/
theorem C169_length (s t t' : List Byte) (out : Option Double) :
    scanDoubleN (some (s ++ t)) s.length out = scanDouble (some (s ++ 0 :: t')) out := scan_agree s t t' out

/-- Null pointers are no numbers. -/
theorem C169_null (out : Option Double) :
    scanDouble none out = .ok (⟨0, .einval⟩, out) ∧ scanDoubleN none 0 out = .ok (⟨0, .einval⟩, out) := ⟨rfl, rfl⟩

example : scanDoubleN (some (bytes "12.5e3")) 4 none = .ok (⟨4, .ok⟩, none) := by
  have := C169_length (bytes "12.5") (bytes "e3") [] none
  have h1 : bytes "12.5" ++ bytes "e3" = bytes "12.5e3" := by decide
  rw [h1] at this
  rw [show (4 : Nat) = (bytes "12.5").length by decide, this]
  decide +kernel

/-! ## C170: memory -/

/-- Missing: a dot without digits, more than 511 digits, and exponents of 511 (see the `C170_not_` theorems). Reading a string never reads
outside of it, never overflows and fails no assertion. -/
theorem C170_safe_partial {s : List Byte} (hz : (0 : Byte) ∉ s) (hd : ¬ LoneDot s)
    (h : ∀ n, Longest s n → n.digits.length ≤ 511 ∧ n.exponentSize ≠ 511) (t : List Byte) (out : Option Double) :
    ∃ r, scanDouble (some (s ++ 0 :: t)) out = .ok r := by
  by_cases hn : ∃ n : Number, n.Ok ∧ n.text <+: s
  · obtain ⟨n, hl⟩ := longest_exists hn
    obtain ⟨h1, h2⟩ := h n hl
    by_cases he : 511 < n.exponentSize
    · exact ⟨_, C166_range hz hl he t out⟩
    · cases out with
      | none => exact ⟨_, C166_size hz hl (by omega) t⟩
      | some o =>
        obtain ⟨v, hv⟩ := C166_accepts_partial hz hl (by omega) h1 t o
        exact ⟨_, hv⟩
  · exact ⟨_, C166_none_partial t hd (fun n h1 h2 => hn ⟨n, h1, h2⟩) out⟩

/-- Without an output, nothing can go wrong, whatever the string is. -/
theorem C170_safe_null (s t : List Byte) : ∃ r, scanDouble (some (s ++ 0 :: t)) none = .ok r := by
  obtain ⟨neg, s0, rfl, hs⟩ := signed_exists s
  obtain ⟨I, Fr, rest, h⟩ := shape_exists s0
  rw [scan_front hs h]
  by_cases hc : I = [] ∧ Fr = none
  · rw [if_pos hc]; exact ⟨_, rfl⟩
  · rw [if_neg hc]
    obtain ⟨a, b, hab, hz⟩ := split_nul rest
    have hr : rest ++ 0 :: t = a ++ 0 :: (b ++ t) := by
      rw [show rest ++ 0 :: t = rest ++ [0] ++ t by simp, hab]; simp
    rw [hr]
    obtain ⟨ex, behind, rfl, h1, h2, h3⟩ := expShape_exists a
    have hx : ∃ x, exponentZ (exponentText ex ++ behind ++ 0 :: (b ++ t)) = .ok x := by
      cases ex with
      | none =>
        obtain ⟨b', hb'⟩ := exponentZ_none (b ++ t) (h3 rfl)
        exact ⟨_, hb'⟩
      | some x =>
        obtain ⟨letter, sign, ds⟩ := x
        exact ⟨_, exponentZ_some (h1 _ _ _ rfl) behind (b ++ t) (h2 (by simp)) (fun hc => hz (List.mem_append_right _ hc))⟩
    obtain ⟨x, hx⟩ := hx
    rw [hx, ok_bind]
    cases x with
    | stop n ec => exact ⟨_, rfl⟩
    | go n en e => exact ⟨_, rfl⟩

/-- The exponent 511 is accepted and then fails an assertion. -/
theorem C170_not_assertion : scanDouble (some (bytes "1e511" ++ [0])) (some (false, .nan)) = .error .assertion := by decide +kernel

/-- A fraction with 512 digits leads to a read behind the table of powers. -/
theorem C170_not_table : scanDouble (some (bytes "0." ++ List.replicate 512 0x31 ++ [0])) (some (false, .nan)) = .error .oob := by decide +kernel

example : ∃ r, scanDouble (some (bytes "-12.5e+3" ++ [0])) (some (false, .nan)) = .ok r := by
  obtain ⟨v, hv⟩ := C166_accepts_partial (s := sample.text) (by decide) (longest_self sample_ok) (by decide) (by decide) [] (false, .nan)
  exact ⟨_, hv⟩

end Tm.Dbl
