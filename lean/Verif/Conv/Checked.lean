import Verif.Conv.SignedHex
namespace Tm.Conv
open Tm.Num

theorem SameOutside.refl (buf : List Byte) (lo n : Nat) : SameOutside buf buf lo n := ⟨rfl, fun _ _ => rfl⟩

theorem SameOutside.trans {a b c : List Byte} {lo n : Nat} (h1 : SameOutside a b lo n) (h2 : SameOutside b c lo n) :
    SameOutside a c lo n := ⟨h2.1.trans h1.1, fun i hi => (h2.2 i hi).trans (h1.2 i hi)⟩

theorem SameOutside.mono {a b : List Byte} {lo n m : Nat} (h1 : SameOutside a b lo n) (h : n ≤ m) :
    SameOutside a b lo m := ⟨h1.1, fun i hi => h1.2 i (by omega)⟩

theorem wrI_same {buf : List Byte} {lo n : Nat} {i : Int} (v : Byte) (h1 : (lo : Int) ≤ i) (h2 : i < lo + n)
    (h3 : lo + n ≤ buf.length) : ∃ buf', wrI buf i v = .ok buf' ∧ SameOutside buf buf' lo n := by
  rw [wrI, if_pos (by omega), wr, if_pos (by omega)]
  refine ⟨_, rfl, by simp, ?_⟩
  intro j hj
  rw [List.getElem?_set, if_neg (by omega)]

theorem splice_same (buf t : List Byte) (lo n : Nat) (h : t.length ≤ n) (h2 : lo + n ≤ buf.length) :
    SameOutside buf (splice buf lo t) lo n := by
  refine ⟨splice_length _ _ _ (by omega), fun i hi => ?_⟩
  rw [splice_get _ _ _ (by omega), if_neg (by omega)]

/-! ### decimal -/

theorem text10_len_ge (n : Nat) (h : 100 ≤ n) : (text 10 false n).length = (text 10 false (n / 10 / 10)).length + 2 := by
  rw [text_two (by decide) (by omega)]; simp

theorem text10_len2 (n : Nat) (h : 10 ≤ n) (h2 : n < 100) : (text 10 false n).length = 2 := by
  rw [text_ge (by decide) h, text_lt (by omega)]; rfl

/-- Whatever the width, the loop stays in bounds and keeps the difference between width and digit count. -/
theorem printDecLoopC_safe {w : Nat} (hw : 7 ≤ w) (dest maxlen fuel : Nat) (v : BitVec w) (hf : v.toNat < 2 ^ fuel)
    (width : Nat) (hwid : width ≤ maxlen) (buf : List Byte) (hroom : dest + maxlen ≤ buf.length) :
    ∃ (v' : BitVec w) (width' : Nat) (buf' : List Byte), printDecLoopC (fuel + 1) v ((dest : Int) + width - 1) width buf
        = .ok (v', (dest : Int) + width' - 1, width', buf') ∧ SameOutside buf buf' dest maxlen ∧ width' ≤ maxlen ∧
      (v'.toNat < 100 ∨ width' < 2) ∧
      width' + (text 10 false v.toNat).length = width + (text 10 false v'.toNat).length := by
  have h100 := toNat_lit100 hw
  induction fuel generalizing v width buf with
  | zero =>
    have h0 : v.toNat = 0 := by simpa using hf
    refine ⟨v, width, buf, ?_, .refl _ _ _, hwid, by omega, rfl⟩
    rw [printDecLoopC, if_neg]
    rw [ge_iff_le, BitVec.le_def, h100]; omega
  | succ fuel ih =>
    rw [printDecLoopC]
    by_cases hge : 100 ≤ v.toNat ∧ 2 ≤ width
    · rw [if_pos (by rw [ge_iff_le, BitVec.le_def, h100]; exact hge)]
      have hm : (v % 100).toNat < 100 := by rw [BitVec.toNat_umod, h100]; omega
      have hq : (v / 100).toNat = v.toNat / 10 / 10 := by rw [BitVec.toNat_udiv, h100]; omega
      have hd := rd_double _ hm
      obtain ⟨b1, e1, s1⟩ := wrI_same (buf := buf) (lo := dest) (n := maxlen) (i := (dest : Int) + width - 1)
        (digitChar false ((v % 100).toNat % 10)) (by omega) (by omega) hroom
      obtain ⟨b2, e2, s2⟩ := wrI_same (buf := b1) (lo := dest) (n := maxlen) (i := (dest : Int) + width - 1 - 1)
        (digitChar false ((v % 100).toNat / 10)) (by omega) (by omega) (by rw [s1.1]; exact hroom)
      simp only
      rw [(doubleIdx _ hm).2, (doubleIdx _ hm).1, hd.1, hd.2, ok_bind, e1, ok_bind, ok_bind, e2, ok_bind]
      obtain ⟨v', w', b', h1, h2, h3, h4, h5⟩ := ih (v / 100) (by rw [hq]; rw [Nat.pow_succ] at hf; omega) (width - 2)
        (by omega) b2 (by rw [s2.1, s1.1]; exact hroom)
      refine ⟨v', w', b', ?_, (s1.trans s2).trans h2, h3, h4, ?_⟩
      · rw [← h1]; congr 1; omega
      · rw [hq] at h5
        have := text10_len_ge v.toNat hge.1
        omega
    · rw [if_neg (by rw [ge_iff_le, BitVec.le_def, h100]; exact hge)]
      exact ⟨v, width, buf, rfl, .refl _ _ _, hwid, by omega, rfl⟩

/-- With the right width the checked loop does what the unchecked one does. -/
theorem printDecLoopC_eq {w : Nat} (hw : 7 ≤ w) (fuel : Nat) (v : BitVec w) (p : Int) (buf : List Byte)
    (r : BitVec w × Int × List Byte) (h : printDecLoop fuel v p buf = .ok r) :
    printDecLoopC fuel v p (text 10 false v.toNat).length buf = .ok (r.1, r.2.1, (text 10 false r.1.toNat).length, r.2.2) := by
  have h100 := toNat_lit100 hw
  induction fuel generalizing v p buf with
  | zero => rw [printDecLoop] at h; cases h
  | succ fuel ih =>
    rw [printDecLoop] at h
    rw [printDecLoopC]
    by_cases hge : 100 ≤ v.toNat
    · have hlen := text10_len_ge v.toNat hge
      have hc : v ≥ 100 := by rw [ge_iff_le, BitVec.le_def, h100]; exact hge
      rw [if_pos hc] at h
      rw [if_pos ⟨hc, by omega⟩]
      have hm : (v % 100).toNat < 100 := by rw [BitVec.toNat_umod, h100]; omega
      have hq : (v / 100).toNat = v.toNat / 10 / 10 := by rw [BitVec.toNat_udiv, h100]; omega
      have hd := rd_double _ hm
      simp only at h ⊢
      rw [assert, if_pos (idx_lt _ hm), ok_bind] at h
      rw [(doubleIdx _ hm).2, (doubleIdx _ hm).1, hd.1, hd.2, ok_bind] at h ⊢
      cases h1 : wrI buf p (digitChar false ((v % 100).toNat % 10)) with
      | error e => rw [h1] at h; cases h
      | ok b1 =>
        rw [h1, ok_bind, ok_bind] at h
        rw [ok_bind, ok_bind]
        cases h2 : wrI b1 (p - 1) (digitChar false ((v % 100).toNat / 10)) with
        | error e => rw [h2] at h; cases h
        | ok b2 =>
          rw [h2, ok_bind] at h
          rw [ok_bind, ← ih _ _ _ h, hq]
          congr 1; omega
    · have hc : ¬ v ≥ 100 := by rw [ge_iff_le, BitVec.le_def, h100]; exact hge
      rw [if_neg hc] at h
      rw [if_neg (fun h => hc h.1)]
      cases h; rfl

/-- `print_decimal_*_w` with checked width: exact for every width. -/
theorem printDecWC_spec {w : Nat} (hw : 7 ≤ w) (buf : List Byte) (dest maxlen width : Nat) (v : BitVec w)
    (hroom : dest + maxlen ≤ buf.length) :
    (width = (text 10 false v.toNat).length →
      printDecWC buf dest maxlen width v = .ok (printResult buf dest maxlen (text 10 false v.toNat))) ∧
    (width ≠ (text 10 false v.toNat).length → ∃ buf', printDecWC buf dest maxlen width v = .ok (⟨maxlen, .eoverflow⟩, buf') ∧
      SameOutside buf buf' dest maxlen) := by
  have h10 : ∀ x : BitVec w, (x < 10) ↔ x.toNat < 10 := fun x => by rw [BitVec.lt_def, toNat_lit10 hw]
  have h10' : ∀ x : BitVec w, (x ≥ 10) ↔ 10 ≤ x.toNat := fun x => by rw [ge_iff_le, BitVec.le_def, toNat_lit10 hw]
  constructor
  · rintro rfl
    rw [printDecWC, printResult]
    split
    · rw [if_neg (by omega)]
    · rename_i hfit
      have hfit' : (text 10 false v.toNat).length ≤ maxlen := by omega
      rw [if_pos hfit']
      obtain ⟨v', t', h1, h2, h3, h4⟩ := printDecLoop_spec hw buf dest w v v.isLt [] (by simp; omega)
      rw [splice_nil] at h1
      have h1 := printDecLoopC_eq hw _ _ _ _ _ h1
      simp only at h1
      rw [h1, ok_bind]
      simp only [List.append_nil] at h4
      simp only [h10, h10']
      by_cases hlt : v'.toNat < 10
      · rw [text_lt hlt] at h3 h4 ⊢
        simp only [List.length_singleton] at h3 ⊢
        rw [if_neg (by omega), if_pos hlt]
        rw [wrI_splice buf dest _ _ (by omega) (by omega) (by omega), ok_bind, digit_byte v' hlt, ← h4]
        rfl
      · have e := text_ge (base := 10) (n := v'.toNat) (by decide) (by omega) false
        rw [text_lt (base := 10) (n := v'.toNat / 10) (by omega)] at e
        simp only [List.singleton_append] at e
        have hd := rd_double v'.toNat h2
        rw [e] at h3 h4 ⊢
        simp only [List.length_cons, List.length_nil] at h3 ⊢
        rw [if_neg (by omega), if_neg hlt,
          (doubleIdx _ h2).2, (doubleIdx _ h2).1, hd.1, hd.2, ok_bind,
          wrI_splice buf (dest + 1) _ _ (by omega) (by omega) (by omega), ok_bind, ok_bind,
          wrI_splice buf dest _ _ (by omega) (by omega) (by simp; omega), ok_bind, ← h4]
        rfl
  · intro hne
    rw [printDecWC]
    split
    · exact ⟨buf, rfl, .refl _ _ _⟩
    · obtain ⟨v', w', b', h1, h2, h3, h4, h5⟩ := printDecLoopC_safe hw dest maxlen w v v.isLt width (by omega) buf hroom
      rw [h1, ok_bind]
      simp only [h10, h10']
      rw [if_pos]
      · exact ⟨b', rfl, h2⟩
      · by_cases hlt : v'.toNat < 10
        · left
          rw [text_lt hlt] at h5
          simp only [List.length_singleton] at h5
          omega
        · right
          refine ⟨by omega, ?_⟩
          rcases h4 with h4 | h4
          · have := text10_len2 v'.toNat (by omega) h4
            omega
          · omega

/-! ### hexadecimal -/

theorem hexRest_len_ge (lower : Bool) (n : Nat) (h : 16 ≤ n) :
    (hexRest lower n).length = (hexRest lower (n / 16 / 16)).length + 2 := by
  rw [hexRest, if_neg (by omega), hexRest]
  split
  · rw [text_ge (by decide) h, text_lt (by omega)]; rfl
  · rw [text_two (by decide) (by omega)]; simp

theorem printHexLoopC_safe {w : Nat} (hw : 7 ≤ w) (lower : Bool) (dest maxlen fuel : Nat) (v : BitVec w) (hf : v.toNat < 2 ^ fuel)
    (width : Nat) (hwid : width ≤ maxlen) (buf : List Byte) (hroom : dest + maxlen ≤ buf.length) :
    ∃ (v' : BitVec w) (width' : Nat) (buf' : List Byte), printHexLoopC (table lower) (fuel + 1) v ((dest : Int) + width - 1) width buf
        = .ok (v', (dest : Int) + width' - 1, width', buf') ∧ SameOutside buf buf' dest maxlen ∧ width' ≤ maxlen ∧
      (v'.toNat < 16 ∨ width' < 2) ∧
      width' + (hexRest lower v.toNat).length = width + (hexRest lower v'.toNat).length := by
  have h16 := toNat_lit16 hw
  induction fuel generalizing v width buf with
  | zero =>
    have h0 : v.toNat = 0 := by simpa using hf
    refine ⟨v, width, buf, ?_, .refl _ _ _, hwid, by omega, rfl⟩
    rw [printHexLoopC, if_neg]
    rw [ge_iff_le, BitVec.le_def, h16]; omega
  | succ fuel ih =>
    rw [printHexLoopC]
    by_cases hge : 16 ≤ v.toNat ∧ 2 ≤ width
    · rw [if_pos (by rw [ge_iff_le, BitVec.le_def, h16]; exact hge)]
      have hs4 : (v >>> 4).toNat = v.toNat / 16 := by rw [BitVec.toNat_ushiftRight, Nat.shiftRight_eq_div_pow]
      have hs8 : (v >>> 8).toNat = v.toNat / 16 / 16 := by
        rw [BitVec.toNat_ushiftRight, Nat.shiftRight_eq_div_pow]; omega
      obtain ⟨b1, e1, s1⟩ := wrI_same (buf := buf) (lo := dest) (n := maxlen) (i := (dest : Int) + width - 1)
        (digitChar lower (v.toNat % 16)) (by omega) (by omega) hroom
      obtain ⟨b2, e2, s2⟩ := wrI_same (buf := b1) (lo := dest) (n := maxlen) (i := (dest : Int) + width - 1 - 1)
        (digitChar lower (v.toNat / 16 % 16)) (by omega) (by omega) (by rw [s1.1]; exact hroom)
      rw [toNat_and15 hw, toNat_and15 hw, hs4, rd_table _ _ (by omega), ok_bind, e1, ok_bind,
        rd_table _ _ (by omega), ok_bind, e2, ok_bind]
      obtain ⟨v', w', b', h1, h2, h3, h4, h5⟩ := ih (v >>> 8) (by rw [hs8]; rw [Nat.pow_succ] at hf; omega) (width - 2)
        (by omega) b2 (by rw [s2.1, s1.1]; exact hroom)
      refine ⟨v', w', b', ?_, (s1.trans s2).trans h2, h3, h4, ?_⟩
      · rw [← h1]; congr 1; omega
      · rw [hs8] at h5
        have := hexRest_len_ge lower v.toNat hge.1
        omega
    · rw [if_neg (by rw [ge_iff_le, BitVec.le_def, h16]; exact hge)]
      exact ⟨v, width, buf, rfl, .refl _ _ _, hwid, by omega, rfl⟩

theorem toNat_lit15 {w : Nat} (hw : 7 ≤ w) : BitVec.toNat (0x0F : BitVec w) = 15 := by
  have hp : 128 ≤ 2 ^ w := Nat.pow_le_pow_right (show 0 < 2 by decide) hw
  show BitVec.toNat (BitVec.ofNat w 15) = 15
  rw [BitVec.toNat_ofNat, Nat.mod_eq_of_lt (by omega)]

/-- `print_hex_*_w` with checked width: safe unless the width is 0 and the value is 0; too small a width is an overflow. -/
theorem printHexWC_safe {w : Nat} (hw : 7 ≤ w) (lower : Bool) (buf : List Byte) (dest maxlen width : Nat) (v : BitVec w)
    (hroom : dest + maxlen ≤ buf.length) (h00 : width ≠ 0 ∨ v.toNat ≠ 0) :
    ∃ r buf', printHexWC buf dest maxlen width v lower = .ok (r, buf') ∧ SameOutside buf buf' dest maxlen ∧ r.size ≤ maxlen ∧
      (width < (text 16 lower v.toNat).length → r = ⟨maxlen, .eoverflow⟩) := by
  rw [printHexWC]
  split
  · exact ⟨_, buf, rfl, .refl _ _ _, Nat.le_refl _, fun _ => rfl⟩
  · rename_i hfit
    by_cases h0 : v = 0
    · rw [if_pos h0]
      have h0' : v.toNat = 0 := by rw [h0]; simp
      rw [wr, if_pos (by omega), ok_bind]
      refine ⟨_, _, rfl, ⟨by simp, fun i hi => ?_⟩, by simp; omega, ?_⟩
      · rw [List.getElem?_set, if_neg (by omega)]
      · rw [h0', text_lt (by decide)]; simp; omega
    · rw [if_neg h0]
      have h0' : v.toNat ≠ 0 := by intro h; apply h0; apply BitVec.eq_of_toNat_eq; rw [h]; simp
      obtain ⟨v', w', b', h1, h2, h3, h4, h5⟩ := printHexLoopC_safe hw lower dest maxlen w v v.isLt width (by omega) buf hroom
      have hx : hexRest lower v.toNat = text 16 lower v.toNat := by rw [hexRest, if_neg h0']
      rw [hx] at h5
      simp only
      rw [h1, ok_bind]
      have hz : (BitVec.toNat (0 : BitVec w)) = 0 := by simp
      simp only [gt_iff_lt, BitVec.lt_def, BitVec.le_def, toNat_lit15 hw, hz]
      split
      · exact ⟨_, b', rfl, h2, Nat.le_refl _, fun _ => rfl⟩
      · rename_i hcond
        have h15 : v'.toNat < 16 := by omega
        split
        · rename_i hne
          have hne' : v'.toNat ≠ 0 := by intro h; apply hne; apply BitVec.eq_of_toNat_eq; rw [h]; simp
          have hw1 : w' = 1 := by
            by_contra hcc; exact hcond (Or.inl ⟨by omega, by omega, hcc⟩)
          obtain ⟨b1, e1, s1⟩ := wrI_same (buf := b') (lo := dest) (n := maxlen) (i := (dest : Int) + w' - 1)
            (digitChar lower (v'.toNat % 16)) (by omega) (by omega) (by rw [h2.1]; exact hroom)
          rw [toNat_and15 hw, rd_table _ _ (by omega), ok_bind, e1, ok_bind]
          refine ⟨_, b1, rfl, h2.trans s1, by simp; omega, ?_⟩
          intro hlt
          rw [hexRest, if_neg hne', text_lt h15] at h5
          simp only [List.length_singleton] at h5
          omega
        · rename_i he
          refine ⟨_, b', rfl, h2, by simp; omega, ?_⟩
          intro hlt
          have he' : v'.toNat = 0 := by
            simp only [ne_eq, Decidable.not_not] at he; rw [he]; simp
          rw [he', hexRest, if_pos rfl] at h5
          simp only [List.length_nil] at h5
          omega

/-! ### any base -/

theorem printLoopC_safe {w : Nat} (lower : Bool) (base : Nat) (hb : 2 ≤ base) (hb' : base ≤ 36) (ub : BitVec w)
    (hub : ub.toNat = base) (dest maxlen fuel : Nat) (v : BitVec w) (hf : v.toNat < 2 ^ fuel) (hv : v.toNat ≠ 0)
    (width : Nat) (hwp : 0 < width) (hwid : width ≤ maxlen) (buf : List Byte) (hroom : dest + maxlen ≤ buf.length) :
    ∃ v' width' buf', printLoopC (table lower) ub (fuel + 1) v ((dest : Int) + width - 1) width buf
        = .ok (v', width', buf') ∧ SameOutside buf buf' dest maxlen ∧
      (width < (text base lower v.toNat).length → v' ≠ 0 ∧ width' = 0) := by
  induction fuel generalizing v width buf with
  | zero => have h0 : v.toNat = 0 := by simpa using hf
            exact absurd h0 hv
  | succ fuel ih =>
    have hq : (v / ub).toNat = v.toNat / base := by rw [BitVec.toNat_udiv, hub]
    have hm : (v % ub).toNat = v.toNat % base := by rw [BitVec.toNat_umod, hub]
    have hml : v.toNat % base < base := Nat.mod_lt _ (by omega)
    obtain ⟨b1, e1, s1⟩ := wrI_same (buf := buf) (lo := dest) (n := maxlen) (i := (dest : Int) + width - 1)
      (digitChar lower (v.toNat % base)) (by omega) (by omega) hroom
    rw [printLoopC, hm, rd_table _ _ (by omega), ok_bind, e1, ok_bind]
    simp only
    have hzero : (v / ub ≠ 0) ↔ v.toNat / base ≠ 0 := by
      rw [← hq]
      constructor
      · intro h h2; apply h; apply BitVec.eq_of_toNat_eq; rw [h2]; simp
      · intro h h2; apply h; rw [h2]; simp
    by_cases hc : v / ub ≠ 0 ∧ width - 1 > 0
    · rw [if_pos hc]
      have hge : base ≤ v.toNat := by
        by_contra hlt
        exact (hzero.1 hc.1) (Nat.div_eq_of_lt (by omega))
      have hle : v.toNat / base ≤ v.toNat / 2 := Nat.div_le_div_left hb (by decide)
      obtain ⟨v', w', b', h1, h2, h3⟩ := ih (v / ub) (by rw [hq]; rw [Nat.pow_succ] at hf; omega)
        (by rw [hq]; exact hzero.1 hc.1) (width - 1) (by omega) (by omega) b1 (by rw [s1.1]; exact hroom)
      refine ⟨v', w', b', ?_, s1.trans h2, ?_⟩
      · rw [← h1]; congr 1; omega
      · intro hlt
        apply h3
        rw [text_ge hb hge] at hlt
        simp only [List.length_append, List.length_singleton] at hlt
        rw [hq]; omega
    · rw [if_neg hc]
      refine ⟨_, _, b1, rfl, s1, ?_⟩
      intro hlt
      have hge : base ≤ v.toNat := by
        by_contra h
        rw [text_lt (by omega)] at hlt
        simp at hlt; omega
      have hnz : v / ub ≠ 0 := hzero.2 (by have := Nat.div_pos hge (by omega); omega)
      refine ⟨hnz, ?_⟩
      by_contra h
      exact hc ⟨hnz, by omega⟩

theorem printUWC_safe {w : Nat} (hw : 32 ≤ w) (lower : Bool) (base : Nat) (hb : 2 ≤ base) (hb' : base ≤ 36)
    (buf : List Byte) (dest maxlen width : Nat) (v : BitVec w) (hroom : dest + maxlen ≤ buf.length) :
    ∃ r buf', printUWC buf dest maxlen width v base lower = .ok (r, buf') ∧ SameOutside buf buf' dest maxlen ∧
      r.size ≤ maxlen ∧ (width < (text base lower v.toNat).length → r = ⟨maxlen, .eoverflow⟩) := by
  have hp : 2 ^ 32 ≤ 2 ^ w := Nat.pow_le_pow_right (by decide) hw
  have hub : (BitVec.ofInt w (base : Int)).toNat = base := by
    rw [BitVec.ofInt_natCast, BitVec.toNat_ofNat, Nat.mod_eq_of_lt (by omega)]
  rw [printUWC]
  split
  · exact ⟨_, buf, rfl, .refl _ _ _, Nat.le_refl _, fun _ => rfl⟩
  · rename_i hc
    by_cases h0 : v = 0
    · rw [if_pos h0]
      have h0' : v.toNat = 0 := by rw [h0]; simp
      obtain ⟨b1, e1, s1⟩ := wrI_same (buf := buf) (lo := dest) (n := maxlen) (i := (dest : Int) + width - 1)
        48 (by omega) (by omega) hroom
      rw [e1, ok_bind]
      refine ⟨_, b1, rfl, s1, by simp; omega, ?_⟩
      rw [h0', text_lt (by omega)]; simp; omega
    · rw [if_neg h0]
      have h0' : v.toNat ≠ 0 := by intro h; apply h0; apply BitVec.eq_of_toNat_eq; rw [h]; simp
      obtain ⟨v', w', b', h1, h2, h3⟩ := printLoopC_safe lower base hb hb' _ hub dest maxlen w v v.isLt h0' width (by omega)
        (by omega) buf hroom
      rw [h1, ok_bind]
      simp only
      split
      · exact ⟨_, b', rfl, h2, Nat.le_refl _, fun _ => rfl⟩
      · rename_i hcc
        exact ⟨_, b', rfl, h2, by simp; omega, fun hlt => absurd (h3 hlt) hcc⟩

end Tm.Conv
