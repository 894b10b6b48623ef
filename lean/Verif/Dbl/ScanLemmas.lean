import Verif.Dbl.ShapeLemmas

/-! # The scanners -/

namespace Tm.Dbl
open Tm.Conv Tm.Num

/-- The minus sign. -/
def signText (neg : Bool) : List Byte := if neg then [0x2D] else []

theorem signed_exists (s : List Byte) : ∃ neg s0, s = signText neg ++ s0 ∧ (neg = false → s0.head? ≠ some 45) := by
  by_cases h : s.head? = some 45
  · cases s with
    | nil => cases h
    | cons c s =>
      have : c = 45 := by simpa using h
      subst this
      exact ⟨true, s, rfl, by simp⟩
  · exact ⟨false, s, rfl, fun _ => h⟩

/-- The chars in front of the exponent. -/
def frontSize (neg : Bool) (I : List Nat) (Fr : Option (List Nat)) : Nat := (signText neg).length + (mantText I Fr).length

theorem scan_front {neg : Bool} {s0 : List Byte} {I : List Nat} {Fr : Option (List Nat)} {rest : List Byte} (hs : neg = false → s0.head? ≠ some 45)
    (h : Shape s0 I Fr rest) (t : List Byte) (out : Option Double) :
    scanDouble (some (signText neg ++ s0 ++ 0 :: t)) out =
      if I = [] ∧ Fr = none then .ok (⟨0, .einval⟩, out)
      else (do
        let x ← exponentZ (rest ++ 0 :: t)
        finish (frontSize neg I Fr) (s0 ++ 0 :: t) neg (I.length, (Fr.getD []).length) out x) := by
  have hm := mantissaZ_shape h t
  have hl := lengths_shape I Fr
  have hd : (s0 ++ 0 :: t).drop (mantText I Fr).length = rest ++ 0 :: t := by
    rw [h.eq, List.append_assoc, List.drop_left]
  cases neg with
  | true =>
    simp only [scanDouble, signText, if_true, List.cons_append, List.nil_append, rd, List.getElem?_cons_zero, ok_bind]
    have e1 : (0x2D : Byte) = 45 := rfl
    simp only [e1, if_true, List.drop_succ_cons, List.drop_zero, hm, ok_bind, hl, decide_true]
    by_cases hc : I = [] ∧ Fr = none
    · rw [if_pos hc]; simp only [if_pos hc]
    · rw [if_neg hc]
      simp only [if_neg hc]
      rw [Nat.add_comm 1, List.drop_succ_cons, hd]
      unfold frontSize
      simp only [signText, if_true, List.length_cons, List.length_nil, Nat.add_comm]
  | false =>
    have hne : ∃ c w, s0 ++ 0 :: t = c :: w ∧ c ≠ 45 := by
      cases s0 with
      | nil => exact ⟨0, t, rfl, by decide⟩
      | cons c w => exact ⟨c, w ++ 0 :: t, rfl, fun hc => hs rfl (by rw [hc]; rfl)⟩
    obtain ⟨c, w, hw, hc45⟩ := hne
    simp only [scanDouble, signText, Bool.false_eq_true, if_false, List.nil_append]
    rw [hw] at hm hd ⊢
    simp only [rd, List.getElem?_cons_zero, ok_bind, if_neg hc45, List.drop_zero, hm, hl]
    have hdc : decide (c = 45) = false := by simp only [decide_eq_false_iff_not]; exact hc45
    by_cases hc : I = [] ∧ Fr = none
    · rw [if_pos hc]; simp only [if_pos hc]
    · rw [if_neg hc]
      simp only [if_neg hc, Nat.zero_add]
      rw [hd, hdc]
      unfold frontSize
      simp [signText]

theorem scanN_front {neg : Bool} {s0 : List Byte} {I : List Nat} {Fr : Option (List Nat)} {rest : List Byte} (hs : neg = false → s0.head? ≠ some 45)
    (h : Shape s0 I Fr rest) (t : List Byte) (out : Option Double) :
    scanDoubleN (some (signText neg ++ s0 ++ t)) (signText neg ++ s0).length out =
      if I = [] ∧ Fr = none then .ok (⟨0, .einval⟩, out)
      else (do
        let x ← exponentN (rest ++ t) rest.length
        finish (frontSize neg I Fr) (s0 ++ t) neg (I.length, (Fr.getD []).length) out x) := by
  have hm := mantissaN_shape h t
  have hl := lengths_shape I Fr
  have hd : (s0 ++ t).drop (mantText I Fr).length = rest ++ t := by
    rw [h.eq, List.append_assoc, List.drop_left]
  have hlen : s0.length - (mantText I Fr).length = rest.length := by
    have := congrArg List.length h.eq
    rw [List.length_append] at this
    omega
  unfold scanDoubleN
  have ha : assert ((some (signText neg ++ s0 ++ t)).isSome || decide ((signText neg ++ s0).length = 0)) = .ok () := by
    simp [assert]
  rw [ha, ok_bind]
  cases neg with
  | true =>
    rw [if_neg (by simp [signText])]
    simp only [signText, if_true, List.cons_append, List.nil_append, rd, List.getElem?_cons_zero, ok_bind, Option.getD_some, List.length_cons]
    have e1 : (0x2D : Byte) = 45 := rfl
    simp only [e1, if_true, List.drop_succ_cons, List.drop_zero, Nat.add_sub_cancel, hm, ok_bind, hl, decide_true]
    by_cases hc : I = [] ∧ Fr = none
    · rw [if_pos hc]; simp only [if_pos hc]
    · rw [if_neg hc]
      simp only [if_neg hc]
      rw [Nat.add_comm 1, List.drop_succ_cons, hd, hlen]
      unfold frontSize
      simp only [signText, if_true, List.length_cons, List.length_nil, Nat.add_comm]
  | false =>
    cases s0 with
    | nil =>
      have h0 := h.eq
      have : mantText I Fr = [] := (List.append_eq_nil_iff.mp h0.symm).1
      have hc : I = [] ∧ Fr = none := by
        unfold mantText at this
        obtain ⟨h1, h2⟩ := List.append_eq_nil_iff.mp this
        refine ⟨by simpa [digitsText] using h1, ?_⟩
        cases Fr with
        | none => rfl
        | some D => simp [fractionText] at h2
      rw [if_pos (by simp [signText]), if_pos hc]
    | cons c w =>
      have hc45 : c ≠ 45 := fun hc => hs rfl (by rw [hc]; rfl)
      rw [if_neg (by simp [signText])]
      simp only [signText, Bool.false_eq_true, if_false, List.nil_append]
      simp only [List.cons_append] at hm hd ⊢
      simp only [rd, List.getElem?_cons_zero, ok_bind, if_neg hc45, List.drop_zero, Option.getD_some, Nat.sub_zero, hm, hl]
      have hdc : decide (c = 45) = false := by simp only [decide_eq_false_iff_not]; exact hc45
      by_cases hc : I = [] ∧ Fr = none
      · rw [if_pos hc]; simp only [if_pos hc]
      · rw [if_neg hc]
        simp only [if_neg hc, Nat.zero_add]
        rw [hd, hdc, hlen]
        unfold frontSize
        simp [signText]

/-! ## Both scanners agree -/

theorem digitLoop_agree {S : Type} (step : Nat → S → Option S) (s t t' : List Byte) (n : Nat) (x : S) :
    digitLoopN step (s ++ t) s.length n x = digitLoopZ step (s ++ 0 :: t') n x := by
  induction s generalizing n x with
  | nil => simp [digitLoopN, digitLoopZ]
  | cons c s ih =>
    rw [List.cons_append, List.cons_append, List.length_cons, digitLoopN, digitLoopZ]
    by_cases hc : c = 0
    · subst hc
      rw [if_pos rfl]
      rfl
    · rw [if_neg hc]
      cases charDigit c with
      | none => rfl
      | some d =>
        simp only
        cases step d x with
        | none => rfl
        | some y => exact ih _ _

theorem scanI_agree (s t t' : List Byte) (hs : s ≠ []) (out : Option (BitVec 32)) :
    scanIN 32 .strict (some (s ++ t)) s.length out 10 = scanI 32 .strict (some (s ++ 0 :: t')) out 10 := by
  cases s with
  | nil => exact absurd rfl hs
  | cons c s =>
    have e1 := digitLoop_agree (scanStep (BitVec.ofInt 32 10) (BitVec.intMin 32 / BitVec.ofInt 32 10) (BitVec.intMin 32 % BitVec.ofInt 32 10))
      s t t' 1 (0, false)
    have e2 := digitLoop_agree (scanStep (BitVec.ofInt 32 10) (BitVec.intMax 32 / BitVec.ofInt 32 10) (BitVec.intMax 32 % BitVec.ofInt 32 10))
      (c :: s) t t' 0 (0, false)
    unfold scanIN scanI
    have ha : assert ((some (c :: s ++ t)).isSome || decide ((c :: s).length = 0)) = .ok () := by simp [assert]
    rw [ha, ok_bind]
    simp only [if_neg (show ¬ (c :: s).length = 0 by simp), Option.getD_some, List.cons_append, rd, List.getElem?_cons_zero, ok_bind]
    by_cases hc : c = 45
    · subst hc
      simp only [decide_true, if_true, List.tail_cons, List.length_cons, Nat.add_sub_cancel]
      rw [e1]
    · have : decide (c = 45) = false := by simp only [decide_eq_false_iff_not]; exact hc
      simp only [this, Bool.false_eq_true, if_false]
      simp only [List.cons_append] at e2
      rw [e2]

theorem exponent_agree (s t t' : List Byte) : exponentN (s ++ t) s.length = exponentZ (s ++ 0 :: t') := by
  have hp : ∀ (i : Nat) (a : List Byte) (c : Byte) (b : List Byte), i < a.length → a[i]? = some c → peek (a ++ b) a.length i = .ok (some c) := by
    intro i a c b h1 h2
    rw [peek, if_pos h1, rd, List.getElem?_append_left h1, h2]
    rfl
  have hn : ∀ (i : Nat) (a : List Byte) (n : Nat), n ≤ i → peek a n i = .ok none := by
    intro i a n h
    rw [peek, if_neg (by omega)]
  unfold exponentN exponentZ
  cases s with
  | nil =>
    rw [hn _ _ _ (by simp), ok_bind, if_neg (by simp)]
    simp only [List.nil_append, rd, List.getElem?_cons_zero, ok_bind]
    rw [if_neg (by decide)]
  | cons c s =>
    rw [hp 0 (c :: s) c t (by simp) rfl, ok_bind]
    simp only [List.cons_append, rd, List.getElem?_cons_zero, ok_bind, Option.some.injEq]
    by_cases hc : c = 101 ∨ c = 69
    · rw [if_pos hc, if_pos hc]
      cases s with
      | nil =>
        have h1 : ¬ ((0 : Byte) = 45 ∨ (0 : Byte) = 43) := by decide
        simp only [List.nil_append, List.length_cons, List.length_nil,
          hn 1 (c :: t) (0 + 1) (by omega), ok_bind, List.getElem?_cons_succ, List.getElem?_cons_zero, if_neg h1]
        rfl
      | cons d s =>
        have h1 := hp 1 (c :: d :: s) d t (by simp) rfl
        simp only [List.cons_append, List.length_cons] at h1 ⊢
        rw [h1]
        simp only [ok_bind, List.getElem?_cons_succ, List.getElem?_cons_zero, Option.some.injEq]
        by_cases hd : d = 45 ∨ d = 43
        · simp only [if_pos hd]
          cases s with
          | nil =>
            rw [hn _ _ _ (by simp)]
            simp only [ok_bind, List.nil_append, List.getElem?_cons_succ, List.getElem?_cons_zero]
            rfl
          | cons f s =>
            have h2 := hp 2 (c :: d :: f :: s) f t (by simp) rfl
            simp only [List.cons_append, List.length_cons] at h2 ⊢
            rw [h2]
            simp only [ok_bind, List.getElem?_cons_succ, List.getElem?_cons_zero, Option.any_some, List.drop_succ_cons, List.drop_zero]
            have h3 := scanI_agree (f :: s) t t' (by simp) (some 0)
            simp only [List.cons_append, List.length_cons] at h3
            rw [show s.length + 1 + 1 + 1 - 2 = s.length + 1 by omega, h3]
        · simp only [if_neg hd]
          rw [h1]
          simp only [ok_bind, List.getElem?_cons_succ, List.getElem?_cons_zero, Option.any_some, List.drop_succ_cons, List.drop_zero]
          have h3 := scanI_agree (d :: s) t t' (by simp) (some 0)
          simp only [List.cons_append, List.length_cons] at h3
          rw [show s.length + 1 + 1 - 1 = s.length + 1 by omega, h3]
    · rw [if_neg hc, if_neg hc]

theorem expShape_exists (rest : List Byte) : ∃ ex behind, ExpShape rest ex behind := by
  by_cases h : ∃ letter sign ds, GoodExp letter sign ds ∧ exponentText (some (letter, sign, ds)) <+: rest
  · obtain ⟨letter, sign, ds, ⟨h1, h2, h3, h4⟩, more, rfl⟩ := h
    obtain ⟨ds2, behind, rfl, h5, h6⟩ := span_digits more
    refine ⟨some (letter, sign, ds ++ ds2), behind, ?_, ?_, fun _ => h6, by simp⟩
    · simp [exponentText, digitsText]
    · intro l s d he
      cases he
      refine ⟨h1, h2, by simp [h3], fun d hd => ?_⟩
      rcases List.mem_append.mp hd with hd | hd
      · exact h4 d hd
      · exact h5 d hd
  · refine ⟨none, rest, rfl, by simp, by simp, fun _ letter sign ds hg hp => h ⟨letter, sign, ds, hg, hp⟩⟩

/-- The outcome for an exponent. -/
theorem exponentResult_signed (k : Nat) (neg : Bool) {ds : List Nat} (hd : ds ≠ []) :
    exponentResult k neg (signedResult 32 10 false ds (some 0)) =
      if numVal 10 ds ≤ 511 then .go (k + ds.length) neg (numVal 10 ds)
      else .stop (k + ds.length) (if numVal 10 ds < 2 ^ 31 then .eoverflow else .erange) := by
  unfold exponentResult signedResult signedValue
  simp only [if_neg hd, Bool.false_eq_true, if_false, Nat.zero_add]
  generalize numVal 10 ds = v
  by_cases h : (v : Int) < 2 ^ 31
  · have hc : (-2 ^ (32 - 1) : Int) ≤ v ∧ (v : Int) < 2 ^ (32 - 1) := ⟨by omega, by omega⟩
    simp only [if_pos hc, ne_eq, not_true, if_false, Option.map_some, Option.getD_some]
    have hv : (BitVec.ofInt 32 (v : Int)).toInt = v := by
      rw [BitVec.toInt_ofInt]
      simp only [Int.bmod]
      omega
    rw [hv]
    by_cases h5 : v ≤ 511
    · rw [if_pos h5, if_neg (by omega)]
    · rw [if_neg h5, if_pos (by omega), if_pos (by omega)]
  · have hc : ¬ ((-2 ^ (32 - 1) : Int) ≤ v ∧ (v : Int) < 2 ^ (32 - 1)) := by norm_num; omega
    simp only [if_neg hc]
    rw [if_pos (by decide), if_neg (by omega), if_neg (by omega)]

theorem split_nul (s : List Byte) : ∃ a b, s ++ [0] = a ++ 0 :: b ∧ (0 : Byte) ∉ a := by
  induction s with
  | nil => exact ⟨[], [], rfl, by simp⟩
  | cons c s ih =>
    by_cases hc : c = 0
    · exact ⟨[], s ++ [0], by rw [hc]; rfl, by simp⟩
    · obtain ⟨a, b, h1, h2⟩ := ih
      refine ⟨c :: a, b, by rw [List.cons_append, h1]; rfl, ?_⟩
      simp only [List.mem_cons, not_or]
      exact ⟨fun h => hc h.symm, h2⟩

theorem exponentZ_nonneg (s t : List Byte) {n : Nat} {en : Bool} {e : Int} (h : exponentZ (s ++ 0 :: t) = .ok (.go n en e)) : 0 ≤ e := by
  obtain ⟨a, b, hab, hz⟩ := split_nul s
  have hs : s ++ 0 :: t = a ++ 0 :: (b ++ t) := by
    rw [show s ++ 0 :: t = s ++ [0] ++ t by simp, hab]; simp
  rw [hs] at h
  obtain ⟨ex, behind, rfl, h1, h2, h3⟩ := expShape_exists a
  cases ex with
  | none =>
    obtain ⟨b', hb'⟩ := exponentZ_none (b ++ t) (h3 rfl)
    rw [hb'] at h
    cases h
    omega
  | some x =>
    obtain ⟨letter, sign, ds⟩ := x
    have hg := h1 _ _ _ rfl
    rw [exponentZ_some hg behind (b ++ t) (h2 (by simp)) (fun hc => hz (List.mem_append_right _ hc)), exponentResult_signed _ _ hg.2.2.1] at h
    split at h
    · cases h; omega
    · cases h

theorem output_agree {s0 : List Byte} {I : List Nat} {Fr : Option (List Nat)} {rest : List Byte} (h : Shape s0 I Fr rest) (t t' : List Byte) (neg en : Bool)
    (e : Int) (he : 0 ≤ e) (out : Option Double) :
    output (s0 ++ t) neg (I.length, (Fr.getD []).length) en e out = output (s0 ++ t') neg (I.length, (Fr.getD []).length) en e out := by
  cases out with
  | none => rfl
  | some o =>
    obtain ⟨a, b, _, _, hm, _⟩ := output_shape h en e he
    simp only [output]
    rw [hm t, hm t']

theorem scan_agree (s t t' : List Byte) (out : Option Double) :
    scanDoubleN (some (s ++ t)) s.length out = scanDouble (some (s ++ 0 :: t')) out := by
  obtain ⟨neg, s0, rfl, hs⟩ := signed_exists s
  obtain ⟨I, Fr, rest, h⟩ := shape_exists s0
  rw [scanN_front hs h, scan_front hs h, exponent_agree rest t t']
  by_cases hc : I = [] ∧ Fr = none
  · rw [if_pos hc, if_pos hc]
  · rw [if_neg hc, if_neg hc]
    cases hx : exponentZ (rest ++ 0 :: t') with
    | error f => rfl
    | ok x =>
      rw [ok_bind, ok_bind]
      cases x with
      | stop n ec => rfl
      | go n en e =>
        simp only [finish]
        rw [output_agree h t (0 :: t') neg en e (exponentZ_nonneg rest t' hx)]

/-- What an exponent leads to. -/
def outcome (ex : Option (Byte × Option Byte × List Nat)) (en : Bool) : Expo :=
  match ex with
  | none => .go 0 en 0
  | some (l, sg, ds) =>
    if numVal 10 ds ≤ 511 then .go (exponentText (some (l, sg, ds))).length en (numVal 10 ds)
    else .stop (exponentText (some (l, sg, ds))).length (if numVal 10 ds < 2 ^ 31 then .eoverflow else .erange)

/-- The scanner on a text that was taken apart. -/
theorem scan_parts {neg : Bool} {s0 : List Byte} {I : List Nat} {Fr : Option (List Nat)} {rest : List Byte}
    {ex : Option (Byte × Option Byte × List Nat)} {behind : List Byte} (hs : neg = false → s0.head? ≠ some 45)
    (h : Shape s0 I Fr rest) (hx : ExpShape rest ex behind) (hz : (0 : Byte) ∉ rest) (hne : ¬ (I = [] ∧ Fr = none)) (t : List Byte) (out : Option Double) :
    ∃ en : Bool, (∀ l sg ds, ex = some (l, sg, ds) → en = decide (sg = some 0x2D)) ∧
    scanDouble (some (signText neg ++ s0 ++ 0 :: t)) out =
      finish (frontSize neg I Fr) (s0 ++ 0 :: t) neg (I.length, (Fr.getD []).length) out (outcome ex en) := by
  rw [scan_front hs h, if_neg hne]
  cases ex with
  | none =>
    obtain ⟨b, hb⟩ := exponentZ_none t (hx.none rfl)
    rw [hb]
    exact ⟨b, by simp, rfl⟩
  | some x =>
    obtain ⟨letter, sign, ds⟩ := x
    have hg := hx.good _ _ _ rfl
    refine ⟨decide (sign = some 0x2D), by rintro l sg d he; cases he; rfl, ?_⟩
    have he := hx.eq
    rw [he] at hz ⊢
    rw [exponentZ_some hg behind t (hx.longest (by simp)) (fun hc => hz (List.mem_append_right _ hc)), exponentResult_signed _ _ hg.2.2.1, ok_bind]
    have hlen : (exponentText (some (letter, sign, ds))).length = 1 + sign.toList.length + ds.length := by
      simp [exponentText, digitsText_length]; omega
    simp only [outcome, hlen]

end Tm.Dbl
