import Verif.U128.TextModel
import Verif.U128.TextSpec
import Verif.U128.Div
import Verif.Conv.ScanLemmas
import Verif.Conv.PrintLemmas
import Verif.Conv.Checked
namespace Tm.U128
open Tm.Conv Tm.Num

theorem toNat_max : max.toNat = 2 ^ 128 - 1 := rfl

theorem ubase_toNat {base : Nat} (hb' : base ≤ 36) : (BitVec.ofInt 64 (base : Int)).toNat = base := by
  rw [BitVec.ofInt_natCast, BitVec.toNat_ofNat, Nat.mod_eq_of_lt (by omega)]

theorem low_of_small (v : U128) (h : v.toNat < 2 ^ 64) : v.low.toNat = v.toNat := by
  have := v.low.isLt
  simp only [U128.toNat] at h ⊢; omega

theorem scanStep_ok (base : Nat) (hb : 2 ≤ base) (hb' : base ≤ 36) (q r : U128)
    (hq : q.toNat = max.toNat / base) (hr : r.toNat = max.toNat % base) :
    StepOk base max.toNat (fun s : U128 × Bool => s.1.toNat) (fun s => s.2)
      (scanStep (BitVec.ofInt 64 base) q r.low) := by
  have hub := ubase_toNat hb'
  have hrl : r.low.toNat = max.toNat % base := by
    rw [← hr]; apply low_of_small
    rw [hr]; have := Nat.mod_lt max.toNat (show 0 < base by omega); omega
  constructor
  · intro d s hd h
    have hdn : (BitVec.ofNat 64 d).toNat = d := by rw [BitVec.toNat_ofNat, Nat.mod_eq_of_lt (by omega)]
    simp only [scanStep]
    rw [if_pos]
    rw [BitVec.le_def, hub, hdn]; exact h
  · intro d s hd hle
    have hdn : (BitVec.ofNat 64 d).toNat = d := by rw [BitVec.toNat_ofNat, Nat.mod_eq_of_lt (by omega)]
    have heq : (s.1 = q) ↔ s.1.toNat = max.toNat / base := by
      rw [← hq]; exact ⟨fun h => by rw [h], toNat_inj⟩
    simp only [scanStep]
    rw [if_neg (by rw [BitVec.le_def, hub, hdn]; omega)]
    simp only [Bool.or_eq_true, Bool.and_eq_true, decide_eq_true_eq, BitVec.lt_def, gt_spec, eq_spec, hrl, hq, heq,
      hdn, or_assoc, gt_iff_lt]
    split
    · exact ⟨_, rfl, rfl⟩
    · rename_i hc
      refine ⟨_, rfl, ?_, ?_⟩
      · simpa using fun h => hc (Or.inl h)
      · have hlt : s.1.toNat * base + d ≤ max.toNat := by
          simp only [not_or, not_and] at hc
          have hdm := Nat.div_add_mod max.toNat base
          rcases Nat.lt_or_ge s.1.toNat (max.toNat / base) with h4 | h4
          · have : (s.1.toNat + 1) * base ≤ (max.toNat / base) * base := Nat.mul_le_mul_right _ h4
            have e : (s.1.toNat + 1) * base = s.1.toNat * base + base := by ring
            rw [Nat.mul_comm] at hdm
            omega
          · have h5 : s.1.toNat = max.toNat / base := by omega
            have := hc.2.2 h5
            rw [h5, Nat.mul_comm]; omega
        rw [toNat_max] at hlt
        rw [addU64_eq, toNat_add, mulU64_eq, toNat_mul, toNat_makeLow, toNat_makeLow, hub, hdn,
          Nat.mod_eq_of_lt (a := s.1.toNat * base) (by omega), Nat.mod_eq_of_lt (by omega)]

theorem finishScan_good {base : Nat} {ds : List Nat} {v : U128} {re : Bool}
    (hg : Good base max.toNat ds v.toNat re) (out : Option U128) :
    finishScan out ds.length v re = u128Result base ds out := by
  rw [finishScan, u128Result]
  rw [toNat_max] at hg
  simp only [List.length_eq_zero_iff]
  split
  · rfl
  · rcases hg with ⟨h1, h2, h3⟩ | ⟨h1, h2⟩
    · have h4 : numVal base ds < 2 ^ 128 := by omega
      have h5 : ofNat (numVal base ds) = v := by
        apply toNat_inj; rw [toNat_ofNat, Nat.mod_eq_of_lt h4, h2]
      rw [if_pos h4, h1, h5]
      simp
    · have h4 : ¬ numVal base ds < 2 ^ 128 := by omega
      rw [if_neg h4, h1]; simp

theorem scanU128N_spec {base : Nat} (hb : 2 ≤ base) (hb' : base ≤ 36) (s tail : List Byte)
    (ds : List Nat) (h : StartsWithNumeral base s ds) (out : Option U128) :
    scanU128N (some (s ++ tail)) s.length out base = .ok (u128Result base ds out) := by
  have hub := ubase_toNat hb'
  obtain ⟨q, r, hd, hq, hr⟩ := divmodU64_spec max (BitVec.ofInt 64 base) (by omega)
  rw [hub] at hq hr
  obtain ⟨cs, rest, rfl, h2, h3⟩ := h
  rw [scanU128N, assert, if_pos (baseOk_nat hb hb'), ok_bind]
  split
  · rename_i h0
    have : cs = [] := by simp at h0; exact h0.1
    subst this; cases h2
    simp [u128Result]
  · obtain ⟨s', h4, h5⟩ := loopN_spec hb hb' (scanStep_ok base hb hb' q r hq hr) tail cs rest ds h2 h3 []
      (zero, false) (by simpa [toNat_zero] using good_nil _ _) 0
    simp only [Option.getD_some]
    rw [hd, ok_bind, h4, ok_bind]
    simp only [List.nil_append, Nat.zero_add] at h5 ⊢
    rw [finishScan_good h5]

theorem scanU128_spec {base : Nat} (hb : 2 ≤ base) (hb' : base ≤ 36) (s tail : List Byte)
    (hz : (0 : Byte) ∉ s) (ds : List Nat) (h : StartsWithNumeral base s ds) (out : Option U128) :
    scanU128 (some (s ++ 0 :: tail)) out base = .ok (u128Result base ds out) := by
  have hub := ubase_toNat hb'
  obtain ⟨q, r, hd, hq, hr⟩ := divmodU64_spec max (BitVec.ofInt 64 base) (by omega)
  rw [hub] at hq hr
  obtain ⟨cs, rest, rfl, h2, h3⟩ := h
  rw [scanU128, assert, if_pos (baseOk_nat hb hb'), ok_bind]
  obtain ⟨s', h4, h5⟩ := loopZ_spec hb hb' (scanStep_ok base hb hb' q r hq hr) tail cs rest ds h2 h3 hz []
    (zero, false) (by simpa [toNat_zero] using good_nil _ _) 0
  simp only
  rw [hd, ok_bind, h4, ok_bind]
  simp only [List.nil_append, Nat.zero_add] at h5 ⊢
  rw [finishScan_good h5]

theorem digitsCountLoop_spec (p1 p2 p3 p4 : BitVec 64) (base : Nat) (hb : 2 ≤ base)
    (h1 : p1.toNat = base) (h2 : p2.toNat = base ^ 2) (h3 : p3.toNat = base ^ 3) (h4 : p4.toNat = base ^ 4)
    (fuel : Nat) (v : U128) (h : v.toNat < 2 ^ fuel) (r : Nat) :
    digitsCountLoop p1 p2 p3 p4 (fuel + 1) v r = .ok (r + (numeral base v.toNat).length - 1) := by
  have hb12 : base < base ^ 2 := by rw [Nat.pow_two]; exact lt_mul_of_one_lt_left (by omega) (by omega)
  have hb23 : base ^ 2 ≤ base ^ 3 := Nat.pow_le_pow_right (by omega) (by omega)
  have hb34 : base ^ 3 ≤ base ^ 4 := Nat.pow_le_pow_right (by omega) (by omega)
  have hb4 : 2 ≤ base ^ 4 := by omega
  have hp4 : base ^ 4 < 2 ^ 64 := by rw [← h4]; exact p4.isLt
  have hcond : ∀ v : U128, (v.high = 0 ∧ v.low < p4) ↔ v.toNat < base ^ 4 := by
    intro v
    have hl := v.low.isLt
    have hz : BitVec.toNat (0 : BitVec 64) = 0 := rfl
    rw [BitVec.lt_def, h4, ← BitVec.toNat_inj, hz, U128.toNat]; omega
  have hlow : ∀ v : U128, v.toNat < base ^ 4 → v.low.toNat = v.toNat := fun v h => low_of_small v (by omega)
  have hend : ∀ (v : U128) (r : Nat), v.toNat < base ^ 4 →
      (r + (decide (v.low ≥ p1)).toNat + (decide (v.low ≥ p2)).toNat + (decide (v.low ≥ p3)).toNat)
        = r + (numeral base v.toNat).length - 1 := by
    intro v r hlt
    simp only [ge_iff_le, BitVec.le_def, h1, h2, h3, hlow v hlt]
    by_cases a1 : base ≤ v.toNat
    · by_cases a2 : base ^ 2 ≤ v.toNat
      · by_cases a3 : base ^ 3 ≤ v.toNat
        · rw [numeral_len_eq (k := 4) hb (by decide) (by omega) (Or.inr (by simpa using a3))]
          simp only [a1, a2, a3, decide_true, Bool.toNat_true]; omega
        · rw [numeral_len_eq (k := 3) hb (by decide) (by omega) (Or.inr (by simpa using a2))]
          simp only [a1, a2, a3, decide_true, decide_false, Bool.toNat_true, Bool.toNat_false]; omega
      · have a3 : ¬ base ^ 3 ≤ v.toNat := by omega
        rw [numeral_len_eq (k := 2) hb (by decide) (by omega) (Or.inr (by simpa using a1))]
        simp only [a1, a2, a3, decide_true, decide_false, Bool.toNat_true, Bool.toNat_false]; omega
    · have a3 : ¬ base ^ 3 ≤ v.toNat := by omega
      have a2 : ¬ base ^ 2 ≤ v.toNat := by omega
      rw [numeral_len_eq (k := 1) hb (by decide) (by rw [Nat.pow_one]; omega) (Or.inl rfl)]
      simp only [a1, a2, a3, decide_false, Bool.toNat_false]; omega
  induction fuel generalizing v r with
  | zero =>
    have h0 : v.toNat = 0 := by simpa using h
    have hlt : v.toNat < base ^ 4 := by omega
    rw [digitsCountLoop, if_pos ((hcond v).2 hlt), hend v r hlt]
  | succ fuel ih =>
    rw [digitsCountLoop]
    by_cases hlt : v.toNat < base ^ 4
    · rw [if_pos ((hcond v).2 hlt), hend v r hlt]
    · rw [if_neg (fun h => hlt ((hcond v).1 h))]
      obtain ⟨q, m, hd, hq, hm⟩ := divmodU64_spec v p4 (by omega)
      rw [h4] at hq
      have hlt2 : v.toNat / base ^ 4 ≤ v.toNat / 2 := Nat.div_le_div_left hb4 (by decide)
      rw [Nat.pow_succ] at h
      have h6 := numeral_length_pos base (v.toNat / base ^ 4) hb
      rw [hd, ok_bind, ih _ (by rw [hq]; omega), hq, numeral_len_div (n := v.toNat) hb 4 (by omega)]
      congr 1; omega

theorem digitsCount_spec (v : U128) (base : Nat) (hb : 2 ≤ base) (hb' : base ≤ 36) :
    digitsCount v base = .ok (numeral base v.toNat).length := by
  have hok := baseOk_nat hb hb'
  have h1 := ubase_toNat hb'
  rw [digitsCount, assert, if_pos hok, ok_bind]
  have e2 : base ^ 2 ≤ 36 ^ 2 := Nat.pow_le_pow_left hb' 2
  have e3 : base ^ 3 ≤ 36 ^ 3 := Nat.pow_le_pow_left hb' 3
  have e4 : base ^ 4 ≤ 36 ^ 4 := Nat.pow_le_pow_left hb' 4
  have h2 : (BitVec.ofInt 64 (base : Int) * BitVec.ofInt 64 (base : Int)).toNat = base ^ 2 := by
    rw [BitVec.toNat_mul, h1, ← Nat.pow_two, Nat.mod_eq_of_lt (by omega)]
  have h3 : (BitVec.ofInt 64 (base : Int) * BitVec.ofInt 64 (base : Int) * BitVec.ofInt 64 (base : Int)).toNat = base ^ 3 := by
    rw [BitVec.toNat_mul, h2, h1, ← Nat.pow_succ, Nat.mod_eq_of_lt (by simp only [Nat.succ_eq_add_one, Nat.reduceAdd]; omega)]
  have h4 : (BitVec.ofInt 64 (base : Int) * BitVec.ofInt 64 (base : Int) * BitVec.ofInt 64 (base : Int)
      * BitVec.ofInt 64 (base : Int)).toNat = base ^ 4 := by
    rw [BitVec.toNat_mul, h3, h1, ← Nat.pow_succ, Nat.mod_eq_of_lt (by simp only [Nat.succ_eq_add_one, Nat.reduceAdd]; omega)]
  simp only
  rw [digitsCountLoop_spec _ _ _ _ base hb h1 h2 h3 h4 128 v (toNat_lt v)]
  congr 1; omega

theorem mod_low {base : Nat} (hb : 2 ≤ base) (hb' : base ≤ 36) (m : U128) (v : Nat) (hm : m.toNat = v % base) :
    m.low.toNat = v % base := by
  have := Nat.mod_lt v (show 0 < base by omega)
  rw [low_of_small m (by omega), hm]

theorem printLoop_spec (lower : Bool) (base : Nat) (hb : 2 ≤ base) (hb' : base ≤ 36) (checked : Bool)
    (buf : List Byte) (dest : Nat) (fuel : Nat) (v : U128)
    (hf : v.toNat < 2 ^ fuel) (t : List Byte) (hroom : dest + (text base lower v.toNat).length + t.length ≤ buf.length) :
    ∃ q : U128, q.toNat = 0 ∧
    printLoop checked (table lower) (BitVec.ofInt 64 base) (fuel + 1) v ((dest : Int) + (text base lower v.toNat).length - 1)
      (text base lower v.toNat).length (splice buf (dest + (text base lower v.toNat).length) t)
      = .ok (q, 0, splice buf dest (text base lower v.toNat ++ t)) := by
  have hub := ubase_toNat hb'
  have htl : tableLower.length = 36 := rfl
  induction fuel generalizing v t with
  | zero =>
    have h0 : v.toNat = 0 := by simpa using hf
    obtain ⟨q, m, hd, hq, hm⟩ := divmodU64_spec v (BitVec.ofInt 64 base) (by omega)
    rw [hub, h0, Nat.zero_div] at hq
    rw [hub, h0] at hm
    have hml := mod_low hb hb' m 0 hm
    rw [Nat.zero_mod] at hml
    rw [h0, text_lt (by omega)] at hroom ⊢
    simp only [List.length_singleton] at hroom ⊢
    refine ⟨q, hq, ?_⟩
    rw [printLoop, hd, ok_bind]
    simp only
    rw [hml, assert, if_pos (by simp [htl]), ok_bind, rd_table _ _ (by decide), ok_bind,
      wrI_splice buf dest t _ (by omega) (by omega) (by omega), ok_bind, if_neg (by rw [isNotZero_spec]; simp)]
    rfl
  | succ fuel ih =>
    obtain ⟨q, m, hd, hq, hm⟩ := divmodU64_spec v (BitVec.ofInt 64 base) (by omega)
    rw [hub] at hq hm
    have hml := mod_low hb hb' m _ hm
    have hmb : v.toNat % base < base := Nat.mod_lt _ (by omega)
    by_cases hlt : v.toNat < base
    · rw [Nat.div_eq_of_lt hlt] at hq
      rw [text_lt hlt] at hroom ⊢
      simp only [List.length_singleton] at hroom ⊢
      refine ⟨q, hq, ?_⟩
      rw [printLoop, hd, ok_bind]
      simp only
      rw [hml, assert, if_pos (by rw [htl]; simp; right; omega), ok_bind, rd_table _ _ (by omega), ok_bind,
        wrI_splice buf dest t _ (by omega) (by omega) (by omega), ok_bind, if_neg (by rw [isNotZero_spec, hq]; simp),
        Nat.mod_eq_of_lt hlt]
      rfl
    · have e := text_ge hb (Nat.le_of_not_lt hlt) lower
      have el : (text base lower v.toNat).length = (text base lower (v.toNat / base)).length + 1 := by rw [e]; simp
      have hqp : 0 < v.toNat / base := Nat.div_pos (by omega) (by omega)
      have htp := text_pos base (v.toNat / base) hb lower
      have hle : v.toNat / base ≤ v.toNat / 2 := Nat.div_le_div_left hb (by decide)
      have hlen : dest + (text base lower (v.toNat / base)).length + 1 + t.length ≤ buf.length := by omega
      have hf' : q.toNat < 2 ^ fuel := by rw [hq]; rw [Nat.pow_succ] at hf; omega
      obtain ⟨q', h0, this⟩ := ih q hf' (digitChar lower (v.toNat % base) :: t) (by rw [hq]; simp; omega)
      refine ⟨q', h0, ?_⟩
      rw [printLoop, hd, ok_bind]
      simp only
      rw [hml, assert, if_pos (by rw [htl]; simp; right; omega), ok_bind, rd_table _ _ (by omega), ok_bind, el]
      rw [show dest + ((text base lower (v.toNat / base)).length + 1) = dest + (text base lower (v.toNat / base)).length + 1 by omega]
      rw [wrI_splice buf (dest + (text base lower (v.toNat / base)).length) t _ (by omega) (by omega) hlen, ok_bind]
      rw [if_pos ⟨by rw [isNotZero_spec, hq]; simp; omega, by omega⟩]
      rw [hq] at this
      rw [e, List.append_assoc, List.singleton_append, ← this]
      congr 1; omega

theorem printU128W_spec (lower : Bool) (base : Nat) (hb : 2 ≤ base) (hb' : base ≤ 36)
    (buf : List Byte) (dest maxlen : Nat) (v : U128) (hroom : dest + maxlen ≤ buf.length) (checked : Bool) :
    printU128Body checked buf dest maxlen (numeral base v.toNat).length v base lower
      = .ok (printResult buf dest maxlen (text base lower v.toNat)) := by
  have hpos := text_pos base v.toNat hb lower
  rw [← text_length base lower, printU128Body, printResult]
  by_cases hfit : (text base lower v.toNat).length ≤ maxlen
  · rw [if_pos hfit]
    have hz0 : v.toNat = 0 → (text base lower v.toNat).length = 1 := by
      intro h; rw [h, text_lt (by omega)]; rfl
    rw [if_neg (by
      rw [isZero_spec]; simp only [decide_eq_true_eq, not_or, not_and]
      exact ⟨by omega, by omega, fun h => by simpa using hz0 h⟩)]
    by_cases h0 : v.toNat = 0
    · rw [if_pos (by rw [isZero_spec]; simpa using h0)]
      rw [h0, text_lt (by omega)] at hfit ⊢
      simp only [List.length_singleton] at hfit ⊢
      have := wrI_splice buf dest (q := dest + 1) (i := (dest : Int) + (1 : Nat) - 1) [] 48 rfl (by omega) (by simp; omega)
      rw [splice_nil] at this
      rw [this, ok_bind]
      have : digitChar lower 0 = 48 := by cases lower <;> rfl
      rw [this]
    · rw [if_neg (by rw [isZero_spec]; simpa using h0)]
      obtain ⟨q, hq, this⟩ := printLoop_spec lower base hb hb' checked buf dest 128 v (toNat_lt v) [] (by simp; omega)
      rw [splice_nil, List.append_nil] at this
      rw [this, ok_bind]
      simp only
      rw [if_neg (by rw [isNotZero_spec, hq]; simp)]
  · rw [if_neg hfit, if_pos (Or.inl (by omega))]

theorem printU128_spec (lower : Bool) (base : Nat) (hb : 2 ≤ base) (hb' : base ≤ 36)
    (buf : List Byte) (dest maxlen : Nat) (v : U128) (hroom : dest + maxlen ≤ buf.length) :
    printU128 buf dest maxlen v base lower = .ok (printResult buf dest maxlen (text base lower v.toNat)) := by
  have hpos := numeral_length_pos base v.toNat hb
  rw [printU128, digitsCount_spec v base hb hb', ok_bind, printU128W, assert, if_pos (baseOk_nat hb hb'), ok_bind,
    assert, if_pos (by simpa using hpos), ok_bind, digitsCount_spec v base hb hb', ok_bind, assert, if_pos (by simp), ok_bind,
    printU128W_spec lower base hb hb' buf dest maxlen v hroom]

/-! any width, assertions compiled out -/

theorem printLoop_safe (lower : Bool) (base : Nat) (hb : 2 ≤ base) (hb' : base ≤ 36)
    (dest maxlen fuel : Nat) (v : U128) (hf : v.toNat < 2 ^ fuel) (hv : v.toNat ≠ 0)
    (width : Nat) (hwp : 0 < width) (hwid : width ≤ maxlen) (buf : List Byte) (hroom : dest + maxlen ≤ buf.length) :
    ∃ (v' : U128) (width' : Nat) (buf' : List Byte),
      printLoop false (table lower) (BitVec.ofInt 64 base) (fuel + 1) v ((dest : Int) + width - 1) width buf
        = .ok (v', width', buf') ∧ SameOutside buf buf' dest maxlen ∧
      (width < (text base lower v.toNat).length → v'.toNat ≠ 0 ∧ width' = 0) := by
  have hub := ubase_toNat hb'
  induction fuel generalizing v width buf with
  | zero => have h0 : v.toNat = 0 := by simpa using hf
            exact absurd h0 hv
  | succ fuel ih =>
    obtain ⟨q, m, hd, hq, hm⟩ := divmodU64_spec v (BitVec.ofInt 64 base) (by omega)
    rw [hub] at hq hm
    have hml := mod_low hb hb' m _ hm
    have hmb : v.toNat % base < base := Nat.mod_lt _ (by omega)
    obtain ⟨b1, e1, s1⟩ := wrI_same (buf := buf) (lo := dest) (n := maxlen) (i := (dest : Int) + width - 1)
      (digitChar lower (v.toNat % base)) (by omega) (by omega) hroom
    rw [printLoop, hd, ok_bind]
    simp only
    rw [hml, assert, if_pos (by simp), ok_bind, rd_table _ _ (by omega), ok_bind, e1, ok_bind]
    by_cases hc : q.toNat ≠ 0 ∧ width - 1 > 0
    · rw [if_pos ⟨by rw [isNotZero_spec]; simpa using hc.1, hc.2⟩]
      have hge : base ≤ v.toNat := by
        by_contra hlt
        exact hc.1 (by rw [hq]; exact Nat.div_eq_of_lt (by omega))
      have hle : v.toNat / base ≤ v.toNat / 2 := Nat.div_le_div_left hb (by decide)
      obtain ⟨v', w', b', h1, h2, h3⟩ := ih q (by rw [hq]; rw [Nat.pow_succ] at hf; omega) hc.1
        (width - 1) (by omega) (by omega) b1 (by rw [s1.1]; exact hroom)
      refine ⟨v', w', b', ?_, s1.trans h2, ?_⟩
      · rw [← h1]; congr 1; omega
      · intro hlt
        apply h3
        rw [text_ge hb hge] at hlt
        simp only [List.length_append, List.length_singleton] at hlt
        rw [hq]; omega
    · rw [if_neg (fun h => hc ⟨by simpa [isNotZero_spec] using h.1, h.2⟩)]
      refine ⟨_, _, b1, rfl, s1, ?_⟩
      intro hlt
      have hge : base ≤ v.toNat := by
        by_contra h
        rw [text_lt (by omega)] at hlt
        simp at hlt; omega
      have hnz : q.toNat ≠ 0 := by rw [hq]; have := Nat.div_pos hge (by omega); omega
      refine ⟨hnz, ?_⟩
      by_contra h
      exact hc ⟨hnz, by omega⟩

theorem printU128Body_safe (lower : Bool) (base : Nat) (hb : 2 ≤ base) (hb' : base ≤ 36)
    (buf : List Byte) (dest maxlen width : Nat) (v : U128) (hroom : dest + maxlen ≤ buf.length) :
    ∃ r buf', printU128Body false buf dest maxlen width v base lower = .ok (r, buf') ∧ SameOutside buf buf' dest maxlen ∧
      r.size ≤ maxlen ∧ (width < (text base lower v.toNat).length → r = ⟨maxlen, .eoverflow⟩) := by
  rw [printU128Body]
  split
  · exact ⟨_, buf, rfl, .refl _ _ _, Nat.le_refl _, fun _ => rfl⟩
  · rename_i hc
    simp only [not_or, not_and] at hc
    by_cases h0 : v.toNat = 0
    · rw [if_pos (by rw [isZero_spec]; simpa using h0)]
      obtain ⟨b1, e1, s1⟩ := wrI_same (buf := buf) (lo := dest) (n := maxlen) (i := (dest : Int) + width - 1)
        48 (by omega) (by omega) hroom
      rw [e1, ok_bind]
      refine ⟨_, b1, rfl, s1, by simp; omega, ?_⟩
      rw [h0, text_lt (by omega)]; simp; omega
    · rw [if_neg (by rw [isZero_spec]; simpa using h0)]
      obtain ⟨v', w', b', h1, h2, h3⟩ := printLoop_safe lower base hb hb' dest maxlen 128 v (toNat_lt v) h0 width (by omega)
        (by omega) buf hroom
      rw [h1, ok_bind]
      simp only
      split
      · exact ⟨_, b', rfl, h2, Nat.le_refl _, fun _ => rfl⟩
      · rename_i hcc
        refine ⟨_, b', rfl, h2, by simp; omega, fun hlt => absurd (h3 hlt) ?_⟩
        intro h; exact hcc ⟨by rw [isNotZero_spec]; simpa using h.1, h.2⟩

end Tm.U128
