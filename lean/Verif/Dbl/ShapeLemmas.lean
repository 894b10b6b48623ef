import Verif.Dbl.ValueLemmas
import Verif.Conv.ScanLemmas

/-! # The parts of a text -/

namespace Tm.Dbl
open Tm.Conv Tm.Num

/-- The text does not begin with a digit. -/
def NoDigit (s : List Byte) : Prop := ∀ c, s.head? = some c → isdigit c = false

theorem digitChar_toNat {d : Nat} (h : d < 10) : (digitChar false d).toNat = 48 + d := by
  unfold digitChar
  simp only [Bool.false_eq_true, if_false, upperCode, if_pos h, BitVec.toNat_ofNat]
  omega

theorem isdigit_digitChar {d : Nat} (h : d < 10) : isdigit (digitChar false d) = true := by
  rw [isdigit_iff, digitChar_toNat h]; omega

theorem digitChar_of_isdigit {c : Byte} (h : isdigit c = true) : c.toNat - 48 < 10 ∧ digitChar false (c.toNat - 48) = c := by
  have := isdigit_iff.mp h
  refine ⟨by omega, ?_⟩
  apply BitVec.eq_of_toNat_eq
  rw [digitChar_toNat (by omega)]
  omega

theorem span_digits (s : List Byte) : ∃ ds rest, s = digitsText ds ++ rest ∧ (∀ d ∈ ds, d < 10) ∧ NoDigit rest := by
  induction s with
  | nil => exact ⟨[], [], rfl, by simp, by simp [NoDigit]⟩
  | cons c s ih =>
    cases hc : isdigit c with
    | false => exact ⟨[], c :: s, rfl, by simp, by simpa [NoDigit] using hc⟩
    | true =>
      obtain ⟨ds, rest, rfl, h1, h2⟩ := ih
      obtain ⟨h3, h4⟩ := digitChar_of_isdigit hc
      refine ⟨(c.toNat - 48) :: ds, rest, ?_, ?_, h2⟩
      · simp [digitsText, h4]
      · intro d hd
        rcases List.mem_cons.mp hd with rfl | hd
        · exact h3
        · exact h1 d hd

theorem digs_digitsText {ds : List Nat} (h : ∀ d ∈ ds, d < 10) : digs (digitsText ds) = ds := by
  induction ds with
  | nil => rfl
  | cons d ds ih =>
    have hd := h d List.mem_cons_self
    rw [digitsText, List.map_cons, digs_cons_digit (isdigit_digitChar hd), digitChar_toNat hd]
    have := ih (fun d hd => h d (List.mem_cons_of_mem _ hd))
    rw [digitsText] at this
    rw [this]
    congr 1
    omega

theorem mem_digitsText {ds : List Nat} (h : ∀ d ∈ ds, d < 10) {c : Byte} (hc : c ∈ digitsText ds) : isdigit c = true := by
  obtain ⟨d, hd, rfl⟩ := List.mem_map.mp hc
  exact isdigit_digitChar (h d hd)

theorem dot_notin {ds : List Nat} (h : ∀ d ∈ ds, d < 10) : (46 : Byte) ∉ digitsText ds :=
  fun hc => absurd (mem_digitsText h hc) (by decide)

/-- The chars of integer and fractional part. -/
def mantText (I : List Nat) (Fr : Option (List Nat)) : List Byte := digitsText I ++ fractionText Fr

theorem walk_mant {I : List Nat} {Fr : Option (List Nat)} (h : ∀ d ∈ I ++ Fr.getD [], d < 10) :
    Walk (mantText I Fr) ∧ digs (mantText I Fr) = I ++ Fr.getD [] := by
  have hI : ∀ d ∈ I, d < 10 := fun d hd => h d (by simp [hd])
  unfold mantText
  cases Fr with
  | none =>
    rw [fractionText, List.append_nil, Option.getD_none, List.append_nil]
    refine ⟨⟨fun c hc => Or.inl (mem_digitsText hI hc), ?_⟩, digs_digitsText hI⟩
    rw [List.count_eq_zero_of_not_mem (dot_notin hI)]
    omega
  | some D =>
    have hD : ∀ d ∈ D, d < 10 := fun d hd => h d (by simp [hd])
    rw [fractionText, Option.getD_some]
    refine ⟨⟨fun c hc => ?_, ?_⟩, ?_⟩
    · rcases List.mem_append.mp hc with hc | hc
      · exact Or.inl (mem_digitsText hI hc)
      · rcases List.mem_cons.mp hc with rfl | hc
        · exact Or.inr rfl
        · exact Or.inl (mem_digitsText hD hc)
    · rw [List.count_append, List.count_cons_self, List.count_eq_zero_of_not_mem (dot_notin hI), List.count_eq_zero_of_not_mem (dot_notin hD)]
    · rw [digs_append, digs_digitsText hI]
      have : digs (0x2E :: digitsText D) = D := by
        have := digs_cons_dot (w := digitsText D)
        rw [digs_digitsText hD] at this
        exact this
      rw [this]

theorem mantissaZ_digits {ds : List Nat} (h : ∀ d ∈ ds, d < 10) (rest : List Byte) (n : Nat) (dot : Option Nat) :
    mantissaZ (digitsText ds ++ rest) n dot = mantissaZ rest (n + ds.length) dot := by
  induction ds generalizing n with
  | nil => rfl
  | cons d ds ih =>
    have hd := isdigit_digitChar (h d List.mem_cons_self)
    have hne : digitChar false d ≠ 46 := by intro hc; rw [hc] at hd; exact absurd hd (by decide)
    rw [digitsText, List.map_cons, List.cons_append, mantissaZ, if_neg (fun hc => hne hc.1), if_pos hd]
    have := ih (fun d hd => h d (List.mem_cons_of_mem _ hd)) (n + 1)
    rw [digitsText] at this
    rw [this, List.length_cons]
    congr 1
    omega

theorem digitsText_length (ds : List Nat) : (digitsText ds).length = ds.length := by simp [digitsText]

theorem mantissaN_digits {ds : List Nat} (h : ∀ d ∈ ds, d < 10) (rest : List Byte) (len n : Nat) (dot : Option Nat) :
    mantissaN (digitsText ds ++ rest) (ds.length + len) n dot = mantissaN rest len (n + ds.length) dot := by
  induction ds generalizing n with
  | nil => rw [List.length_nil, Nat.zero_add]; rfl
  | cons d ds ih =>
    have hd := isdigit_digitChar (h d List.mem_cons_self)
    have hne : digitChar false d ≠ 46 := by intro hc; rw [hc] at hd; exact absurd hd (by decide)
    rw [List.length_cons, show ds.length + 1 + len = (ds.length + len) + 1 by omega]
    rw [digitsText, List.map_cons, List.cons_append, mantissaN, if_neg (fun hc => hne hc.1), if_pos hd]
    have := ih (fun d hd => h d (List.mem_cons_of_mem _ hd)) (n + 1)
    rw [digitsText] at this
    rw [this]
    congr 1
    omega

/-- A text is integer part, fractional part and rest. -/
structure Shape (s : List Byte) (I : List Nat) (Fr : Option (List Nat)) (rest : List Byte) : Prop where
  eq : s = mantText I Fr ++ rest
  digits : ∀ d ∈ I ++ Fr.getD [], d < 10
  noDigit : NoDigit rest
  noDot : Fr = none → rest.head? ≠ some 46

theorem shape_exists (s : List Byte) : ∃ I Fr rest, Shape s I Fr rest := by
  obtain ⟨I, r, rfl, h1, h2⟩ := span_digits s
  by_cases hd : r.head? = some 46
  · cases r with
    | nil => cases hd
    | cons c r =>
      have : c = 46 := by simpa using hd
      subst this
      obtain ⟨D, rest, rfl, h3, h4⟩ := span_digits r
      refine ⟨I, some D, rest, ?_, ?_, h4, by simp⟩
      · simp [mantText, fractionText]
      · intro d hd
        rcases List.mem_append.mp hd with hd | hd
        · exact h1 d hd
        · exact h3 d hd
  · refine ⟨I, none, r, by simp [mantText, fractionText], ?_, h2, fun _ => hd⟩
    intro d hd
    exact h1 d (by simpa using hd)

theorem mantissaZ_stop {rest : List Byte} (t : List Byte) (n : Nat) (dot : Option Nat) (h1 : NoDigit rest) (h2 : dot = none → rest.head? ≠ some 46) :
    mantissaZ (rest ++ 0 :: t) n dot = .ok (n, dot) := by
  cases rest with
  | nil =>
    rw [List.nil_append, mantissaZ, if_neg (by rintro ⟨h, _⟩; exact absurd h (by decide)), if_neg (by decide)]
  | cons c r =>
    rw [List.cons_append, mantissaZ, if_neg, if_neg]
    · rw [h1 c rfl]; decide
    · rintro ⟨rfl, hd⟩; exact h2 hd rfl

theorem mantissaN_stop {rest : List Byte} (t : List Byte) (n : Nat) (dot : Option Nat) (h1 : NoDigit rest) (h2 : dot = none → rest.head? ≠ some 46) :
    mantissaN (rest ++ t) rest.length n dot = .ok (n, dot) := by
  cases rest with
  | nil => rw [List.length_nil, mantissaN]
  | cons c r =>
    rw [List.cons_append, List.length_cons, mantissaN, if_neg, if_neg]
    · rw [h1 c rfl]; decide
    · rintro ⟨rfl, hd⟩; exact h2 hd rfl

theorem mantText_length (I : List Nat) (Fr : Option (List Nat)) :
    (mantText I Fr).length = I.length + (match Fr with | none => 0 | some D => D.length + 1) := by
  cases Fr <;> simp [mantText, fractionText, digitsText_length]

theorem mantissaZ_shape {s : List Byte} {I : List Nat} {Fr : Option (List Nat)} {rest : List Byte} (h : Shape s I Fr rest) (t : List Byte) :
    mantissaZ (s ++ 0 :: t) 0 none = .ok ((mantText I Fr).length, Fr.map fun _ => I.length) := by
  obtain ⟨rfl, hd, h1, h2⟩ := h
  rw [mantText_length]
  unfold mantText
  rw [List.append_assoc, List.append_assoc, mantissaZ_digits (fun d hd' => hd d (by simp [hd']))]
  cases Fr with
  | none => simp only [fractionText, List.nil_append]; rw [mantissaZ_stop t _ _ h1 (fun _ => h2 rfl)]; simp
  | some D =>
    simp only [fractionText, List.cons_append]
    rw [mantissaZ, if_pos ⟨rfl, rfl⟩, mantissaZ_digits (fun d hd' => hd d (by simp [hd'])), mantissaZ_stop t _ _ h1 (by simp)]
    simp only [Option.map_some]
    congr 2
    · omega
    · simp

theorem mantissaN_shape {s : List Byte} {I : List Nat} {Fr : Option (List Nat)} {rest : List Byte} (h : Shape s I Fr rest) (t : List Byte) :
    mantissaN (s ++ t) s.length 0 none = .ok ((mantText I Fr).length, Fr.map fun _ => I.length) := by
  obtain ⟨rfl, hd, h1, h2⟩ := h
  rw [List.length_append, mantText_length]
  unfold mantText
  rw [List.append_assoc, List.append_assoc]
  cases Fr with
  | none =>
    simp only [fractionText, List.nil_append, Nat.add_zero]
    rw [mantissaN_digits (fun d hd' => hd d (by simp [hd'])), mantissaN_stop t _ _ h1 (fun _ => h2 rfl)]
    simp
  | some D =>
    simp only [fractionText, List.cons_append]
    rw [show I.length + (D.length + 1) + rest.length = I.length + ((D.length + rest.length) + 1) by omega,
      mantissaN_digits (fun d hd' => hd d (by simp [hd'])), mantissaN, if_pos ⟨rfl, rfl⟩,
      mantissaN_digits (fun d hd' => hd d (by simp [hd'])), mantissaN_stop t _ _ h1 (by simp)]
    simp only [Option.map_some]
    congr 2
    · omega
    · simp

theorem lengths_shape (I : List Nat) (Fr : Option (List Nat)) :
    lengths (mantText I Fr).length (Fr.map fun _ => I.length) =
      if I = [] ∧ Fr = none then none else some (I.length, (Fr.getD []).length) := by
  rw [mantText_length]
  cases Fr with
  | none => cases I <;> simp [lengths]
  | some D => simp [lengths]; omega

/-- Moving the decimal point keeps all digits. -/
theorem adjust_sum (i f : Nat) (en : Bool) (e : Int) (he : 0 ≤ e) :
    0 ≤ (adjust i f en e).1 ∧ 0 ≤ (adjust i f en e).2.1 ∧ (adjust i f en e).1 + (adjust i f en e).2.1 = i + f ∧
      ((adjust i f en e).2.2.natAbs : Int) ≤ e ∧
      (if en then -e else e) = (adjust i f en e).2.2 + ((adjust i f en e).1 - i) ∧
      (en = true ∨ e = 0 ∨ f = 0 → (adjust i f en e).1 ≤ i) := by
  unfold adjust
  cases en with
  | true =>
    simp only [if_true]
    by_cases h : e < i
    · rw [if_pos h]; simp only; omega
    · rw [if_neg h]; simp only; omega
  | false =>
    simp only [Bool.false_eq_true, if_false]
    by_cases h : e < f
    · rw [if_pos h]; simp only
      refine ⟨by omega, by omega, by omega, by omega, by omega, ?_⟩
      rintro (h | h | h)
      · exact absurd h (by simp)
      · omega
      · omega
    · rw [if_neg h]; simp only
      refine ⟨by omega, by omega, by omega, by omega, by omega, ?_⟩
      rintro (h | h | h)
      · exact absurd h (by simp)
      · omega
      · omega

theorem adjust_small (i f : Nat) (en : Bool) (e : Int) (he : 0 ≤ e) :
    0 ≤ (adjust i f en e).2.2 ∨ en = true := by
  unfold adjust
  cases en with
  | true => right; rfl
  | false =>
    left
    simp only [Bool.false_eq_true, if_false]
    by_cases h : e < f
    · rw [if_pos h]
    · rw [if_neg h]; simp only; omega

theorem output_shape {s : List Byte} {I : List Nat} {Fr : Option (List Nat)} {rest : List Byte} (h : Shape s I Fr rest) (en : Bool) (e : Int)
    (he : 0 ≤ e) : ∃ a b : Nat, a < 10 ^ 18 ∧ b < 10 ^ 18 ∧
      (∀ t, magnitude (s ++ t) (adjust I.length (Fr.getD []).length en e).1.toNat (adjust I.length (Fr.getD []).length en e).2.1.toNat
          (adjust I.length (Fr.getD []).length en e).2.2 =
        combineParts a b (adjust I.length (Fr.getD []).length en e).2.1.toNat (adjust I.length (Fr.getD []).length en e).2.2) ∧
      ((en = true ∨ e = 0 ∨ Fr.getD [] = [] ∨ ∃ d ∈ I, d ≠ 0) →
        numVal 10 ((I ++ Fr.getD []).take (adjust I.length (Fr.getD []).length en e).1.toNat) < 10 ^ 18 →
        (adjust I.length (Fr.getD []).length en e).2.1.toNat ≤ 18 →
        a = numVal 10 ((I ++ Fr.getD []).take (adjust I.length (Fr.getD []).length en e).1.toNat) ∧
        b = numVal 10 ((I ++ Fr.getD []).drop (adjust I.length (Fr.getD []).length en e).1.toNat)) := by
  obtain ⟨h1, h2, h3, h4, h5, h6⟩ := adjust_sum I.length (Fr.getD []).length en e he
  obtain ⟨hw, hg⟩ := walk_mant h.digits
  generalize adjust I.length (Fr.getD []).length en e = A at *
  obtain ⟨a, b, ha, hb, hm, hp⟩ := magnitude_walk hw A.1.toNat A.2.1.toNat (by rw [hg, List.length_append]; omega) A.2.2
  refine ⟨a, b, ha, hb, fun t => ?_, fun hgood h18 hf18 => ?_⟩
  · rw [h.eq, List.append_assoc]; exact hm _
  · rw [hg] at hp
    refine hp ?_ h18 hf18
    have hI : ∀ d ∈ I, d < 10 := fun d hd => h.digits d (by simp [hd])
    by_cases hc : A.1 ≤ I.length
    · left
      unfold mantText
      rw [List.take_append_of_le_length (by rw [digitsText_length]; omega)]
      exact fun hm => dot_notin hI (List.mem_of_mem_take hm)
    · right
      have : ∃ d ∈ I, d ≠ 0 := by
        rcases hgood with hg | hg | hg | hg
        · exact absurd (h6 (Or.inl hg)) hc
        · exact absurd (h6 (Or.inr (Or.inl hg))) hc
        · exact absurd (h6 (Or.inr (Or.inr (by rw [hg]; rfl)))) hc
        · exact hg
      obtain ⟨d, hd, hd0⟩ := this
      obtain ⟨x, y, rfl⟩ := List.append_of_mem hd
      refine ⟨digitsText x, digitChar false d, digitsText y ++ fractionText Fr, by simp [mantText, digitsText],
        dot_notin (fun d hd => hI d (by simp [hd])), ?_, ?_, ?_⟩
      · intro hc
        have := digitChar_toNat (hI d (by simp))
        rw [hc] at this
        simp at this
        omega
      · intro hc
        have := digitChar_toNat (hI d (by simp))
        rw [hc] at this
        simp at this
        omega
      · rw [digitsText_length]
        simp only [List.length_append, List.length_cons] at hc
        omega

/-! ## The exponent -/

/-- A well-formed exponent. -/
def GoodExp (letter : Byte) (sign : Option Byte) (ds : List Nat) : Prop :=
  (letter = 0x65 ∨ letter = 0x45) ∧ (sign = none ∨ sign = some 0x2B ∨ sign = some 0x2D) ∧ ds ≠ [] ∧ ∀ d ∈ ds, d < 10

/-- What follows integer and fractional part. -/
structure ExpShape (rest : List Byte) (ex : Option (Byte × Option Byte × List Nat)) (behind : List Byte) : Prop where
  eq : rest = exponentText ex ++ behind
  good : ∀ letter sign ds, ex = some (letter, sign, ds) → GoodExp letter sign ds
  longest : ex ≠ none → NoDigit behind
  none : ex = none → ∀ letter sign ds, GoodExp letter sign ds → ¬ exponentText (some (letter, sign, ds)) <+: rest

theorem exponentZ_some {letter : Byte} {sign : Option Byte} {ds : List Nat} (h : GoodExp letter sign ds) (behind t : List Byte)
    (hb : NoDigit behind) (hz : (0 : Byte) ∉ behind) :
    exponentZ (exponentText (some (letter, sign, ds)) ++ behind ++ 0 :: t) =
      .ok (exponentResult (1 + sign.toList.length) (decide (sign = some 0x2D)) (signedResult 32 10 false ds (some 0))) := by
  obtain ⟨h1, h2, h3, h4⟩ := h
  have hnz : (0 : Byte) ∉ digitsText ds := fun hc => absurd (mem_digitsText h4 hc) (by decide)
  have hscan : scanI 32 .strict (some (digitsText ds ++ behind ++ 0 :: t)) (some 0) 10 = .ok (signedResult 32 10 false ds (some 0)) := by
    refine scanI_spec (w := 32) (by norm_num) (base := 10) (by norm_num) (by norm_num) (digitsText ds ++ behind) t ?_ false ds ?_ (some 0) .strict ?_
    · intro hc
      rcases List.mem_append.mp hc with hc | hc
      · exact hnz hc
      · exact hz hc
    · unfold StartsWithSigned
      simp only [Bool.false_eq_true, if_false]
      refine ⟨?_, digitsText ds, behind, rfl, ?_, ?_⟩
      · cases ds with
        | nil => exact absurd rfl h3
        | cons d ds =>
          simp only [digitsText, List.map_cons, List.cons_append, List.head?_cons]
          intro hc
          have hd := digitChar_toNat (h4 d List.mem_cons_self)
          rw [Option.some.inj hc] at hd
          simp at hd
          omega
      · unfold digitsText
        clear hnz h3
        induction ds with
        | nil => exact List.Forall₂.nil
        | cons d ds ih =>
          refine List.Forall₂.cons ⟨h4 d List.mem_cons_self, Or.inl ?_⟩ (ih (fun d hd => h4 d (List.mem_cons_of_mem _ hd)))
          rw [digitChar_toNat (h4 d List.mem_cons_self), upperCode, if_pos (h4 d List.mem_cons_self)]
      · intro c hc d hd
        have := hb c hc
        have hd2 := hd.2
        simp only [upperCode, lowerCode, if_pos hd.1] at hd2
        have h10 := hd.1
        simp only [isdigit, Bool.and_eq_false_iff, decide_eq_false_iff_not] at this
        omega
    · right; left
      unfold signedValue
      simp
  cases ds with
  | nil => exact absurd rfl h3
  | cons d ds =>
    have hdd := isdigit_digitChar (h4 d List.mem_cons_self)
    have hsg : digitChar false d ≠ 45 ∧ digitChar false d ≠ 43 := by
      constructor <;> (intro hc; rw [hc] at hdd; exact absurd hdd (by decide))
    have hl : letter = 101 ∨ letter = 69 := h1
    unfold exponentZ
    have h2' : sign = none ∨ ∃ sg, sign = some sg ∧ (sg = 45 ∨ sg = 43) := by
      rcases h2 with h | h | h
      · exact Or.inl h
      · exact Or.inr ⟨_, h, Or.inr rfl⟩
      · exact Or.inr ⟨_, h, Or.inl rfl⟩
    clear h2
    rcases h2' with rfl | ⟨sg, rfl, hc⟩
    · simp only [exponentText, Option.toList_none, List.nil_append, digitsText, List.map_cons, List.cons_append, rd, List.getElem?_cons_zero,
        ok_bind, List.getElem?_cons_succ, if_pos hl, if_neg (not_or.mpr hsg), hdd, if_true, List.drop_succ_cons, List.drop_zero]
      simp only [digitsText, List.map_cons, List.cons_append] at hscan
      rw [hscan]
      have : decide (digitChar false d = 45) = false := by simp only [decide_eq_false_iff_not]; exact hsg.1
      rw [ok_bind, this]
      rfl
    · simp only [exponentText, Option.toList_some, List.nil_append, digitsText, List.map_cons, List.cons_append, rd, List.getElem?_cons_zero,
        ok_bind, List.getElem?_cons_succ, if_pos hl]
      simp only [digitsText, List.map_cons, List.cons_append] at hscan
      simp only [if_pos hc, List.getElem?_cons_zero, List.getElem?_cons_succ, ok_bind, hdd, if_true, List.drop_succ_cons, List.drop_zero]
      rw [hscan, ok_bind]
      have : decide (some sg = some (0x2D : Byte)) = decide (sg = 45) := by simp
      rw [this]
      rfl

theorem digit_exp {c : Byte} (h : isdigit c = true) : digitsText [c.toNat - 48] = [c] ∧ ∀ d ∈ [c.toNat - 48], d < 10 := by
  obtain ⟨h1, h2⟩ := digitChar_of_isdigit h
  exact ⟨by simp [digitsText, h2], by simpa using h1⟩

theorem exponentZ_none {rest : List Byte} (t : List Byte)
    (h : ∀ letter sign ds, GoodExp letter sign ds → ¬ exponentText (some (letter, sign, ds)) <+: rest) :
    ∃ b, exponentZ (rest ++ 0 :: t) = .ok (.go 0 b 0) := by
  unfold exponentZ
  cases rest with
  | nil =>
    refine ⟨false, ?_⟩
    simp only [List.nil_append, rd, List.getElem?_cons_zero, ok_bind]
    rw [if_neg (by decide)]
  | cons c rest =>
    simp only [List.cons_append, rd, List.getElem?_cons_zero, ok_bind]
    by_cases hc : c = 101 ∨ c = 69
    · rw [if_pos hc]
      cases rest with
      | nil =>
        refine ⟨false, ?_⟩
        simp only [List.nil_append, List.getElem?_cons_zero, List.getElem?_cons_succ, ok_bind]
        have h1 : ¬ ((0 : Byte) = 45 ∨ (0 : Byte) = 43) := by decide
        simp only [if_neg h1, List.getElem?_cons_zero, List.getElem?_cons_succ, ok_bind]
        rfl
      | cons s rest =>
        simp only [List.cons_append, List.getElem?_cons_zero, List.getElem?_cons_succ, ok_bind]
        refine ⟨decide (s = 45), ?_⟩
        by_cases hs : s = 45 ∨ s = 43
        · simp only [if_pos hs, List.getElem?_cons_succ]
          cases rest with
          | nil =>
            simp only [List.nil_append, List.getElem?_cons_zero, ok_bind]
            rfl
          | cons d rest =>
            simp only [List.cons_append, List.getElem?_cons_zero, ok_bind]
            have hd : isdigit d = false := by
              by_contra hd
              have hd : isdigit d = true := by simpa using hd
              obtain ⟨h1, h2⟩ := digit_exp hd
              refine h c (some s) [d.toNat - 48] ⟨hc, ?_, by simp, h2⟩ ?_
              · rcases hs with rfl | rfl
                · exact Or.inr (Or.inr rfl)
                · exact Or.inr (Or.inl rfl)
              · rw [exponentText, h1]; exact ⟨rest, by simp⟩
            simp only [hd, Bool.false_eq_true, if_false]
        · simp only [if_neg hs, List.getElem?_cons_zero, List.getElem?_cons_succ, ok_bind]
          have hd : isdigit s = false := by
            by_contra hd
            have hd : isdigit s = true := by simpa using hd
            obtain ⟨h1, h2⟩ := digit_exp hd
            refine h c none [s.toNat - 48] ⟨hc, Or.inl rfl, by simp, h2⟩ ?_
            rw [exponentText, h1]; exact ⟨rest, by simp⟩
          simp only [hd, Bool.false_eq_true, if_false]
    · exact ⟨false, by rw [if_neg hc]⟩

end Tm.Dbl
