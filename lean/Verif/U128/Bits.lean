import Verif.U128.Lemmas
namespace Tm.U128

theorem testBit_toNat (v : U128) (i : Nat) :
    v.toNat.testBit i = if i < 64 then v.low.getLsbD i else v.high.getLsbD (i - 64) := by
  rw [U128.toNat, Nat.add_comm, Nat.testBit_two_pow_mul_add _ v.low.isLt]
  rfl

theorem testBit_ge (v : U128) (i : Nat) (h : 128 ≤ i) : v.toNat.testBit i = false := by
  apply Nat.testBit_lt_two_pow
  exact Nat.lt_of_lt_of_le (toNat_lt v) (Nat.pow_le_pow_right (by omega) h)

theorem one_shl (k i : Nat) : ((1#64) <<< k).getLsbD i = decide (i < 64 ∧ i = k) := by
  rw [BitVec.getLsbD_shiftLeft, BitVec.getLsbD_one, Bool.eq_iff_iff]
  simp; omega

theorem lt128 (n : BitVec 64) : (n < 128) ↔ n.toNat < 128 := by simp [BitVec.lt_def]
theorem ge64 (n : BitVec 64) : (n ≥ 64) ↔ 64 ≤ n.toNat := by simp [BitVec.le_def]
theorem eq0 (n : BitVec 64) : n = 0 ↔ n.toNat = 0 := by
  rw [← BitVec.toNat_inj]; simp

theorem sub64 (n : BitVec 64) (h : 64 ≤ n.toNat) : (n - 64).toNat = n.toNat - 64 := by
  have := n.isLt; rw [BitVec.toNat_sub]; simp; omega
theorem rsub64 (n : BitVec 64) (h : n.toNat ≤ 64) : (64 - n).toNat = 64 - n.toNat := by
  have := n.isLt; rw [BitVec.toNat_sub]; simp; omega

theorem shlU64_spec (v : U128) (n : BitVec 64) (h : n.toNat < 128) :
    ∃ r, shlU64 v n = .ok r ∧ r.toNat = (v.toNat * 2 ^ n.toNat) % 2 ^ 128 := by
  have hv := toNat_lt v
  unfold shlU64
  simp only [assert, lt128, h, decide_true, if_true, eq0, ge64]
  by_cases h0 : n.toNat = 0
  · refine ⟨v, by simp [h0], by rw [h0]; simp; omega⟩
  by_cases h1 : 64 ≤ n.toNat
  · refine ⟨⟨0, v.low <<< (n.toNat - 64)⟩, ?_, ?_⟩
    · simp only [h0, h1, if_true, if_false, sub64 n h1, shl, show n.toNat - 64 < 64 by omega]; rfl
    · apply Nat.eq_of_testBit_eq; intro i
      rw [testBit_toNat, Nat.testBit_mod_two_pow, Nat.testBit_mul_two_pow, testBit_toNat]
      by_cases hi : i < 64
      · have : ¬ n.toNat ≤ i := by omega
        simp [hi, this]
      · simp [hi]
        by_cases a : n.toNat ≤ i
        · simp [a]
          by_cases b : i < 128
          · have : i - n.toNat < 64 := by omega
            have e : i - 64 - (n.toNat - 64) = i - n.toNat := by omega
            simp [b, this, e, show i - 64 < 64 by omega, show ¬ i - 64 < n.toNat - 64 by omega]
          · simp [b, show ¬ i - 64 < 64 by omega]
        · simp [a, show i - 64 < n.toNat - 64 by omega]
  · refine ⟨⟨v.low <<< n.toNat, (v.high <<< n.toNat) ||| (v.low >>> (64 - n.toNat))⟩, ?_, ?_⟩
    · simp only [h0, h1, if_true, if_false, rsub64 n (by omega), shl, shr, show n.toNat < 64 by omega, show 64 - n.toNat < 64 by omega]; rfl
    · apply Nat.eq_of_testBit_eq; intro i
      rw [testBit_toNat, Nat.testBit_mod_two_pow, Nat.testBit_mul_two_pow, testBit_toNat]
      by_cases hi : i < 64
      · simp [hi, show i < 128 by omega]
        by_cases a : n.toNat ≤ i
        · simp [a, show ¬ i < n.toNat by omega, show i - n.toNat < 64 by omega]
        · simp [a, show i < n.toNat by omega]
      · by_cases b : i < 128
        · simp [hi, b, show n.toNat ≤ i by omega, show i - 64 < 64 by omega]
          by_cases c : i - n.toNat < 64
          · simp [c, show i - 64 < n.toNat by omega, show 64 - n.toNat + (i-64) = i - n.toNat by omega]
          · simp [-BitVec.getLsbD_eq_getElem, c, show ¬ i - 64 < n.toNat by omega, show  (i-64 - n.toNat) = i - n.toNat - 64 by omega]
            rw [BitVec.getLsbD_of_ge v.low (64 - n.toNat + (i - 64)) (by omega)]; simp [BitVec.getLsbD_eq_getElem (x := v.high) (show i - n.toNat - 64 < 64 by omega)]
        · simp [hi, b]
          constructor
          · omega
          · have : 64 ≤ 64 - n.toNat + (i - 64) := by omega
            simp [BitVec.getLsbD_of_ge _ _ this]

theorem shrU64_spec (v : U128) (n : BitVec 64) (h : n.toNat < 128) :
    ∃ r, shrU64 v n = .ok r ∧ r.toNat = v.toNat / 2 ^ n.toNat := by
  unfold shrU64
  simp only [assert, lt128, h, decide_true, if_true, eq0, ge64]
  by_cases h0 : n.toNat = 0
  · exact ⟨v, by simp [h0], by rw [h0]; simp⟩
  by_cases h1 : 64 ≤ n.toNat
  · refine ⟨⟨v.high >>> (n.toNat - 64), 0⟩, ?_, ?_⟩
    · simp only [h0, h1, if_true, if_false, sub64 n h1, shr, show n.toNat - 64 < 64 by omega]; rfl
    · apply Nat.eq_of_testBit_eq; intro i
      rw [testBit_toNat, Nat.testBit_div_two_pow, testBit_toNat]
      simp only [show ¬ i + n.toNat < 64 by omega, if_false]
      by_cases hi : i < 64
      · simp [hi, show n.toNat - 64 + i = i + n.toNat - 64 by omega]
      · simp [hi, BitVec.getLsbD_of_ge v.high (i + n.toNat - 64) (by omega)]
  · refine ⟨⟨(v.low >>> n.toNat) ||| (v.high <<< (64 - n.toNat)), v.high >>> n.toNat⟩, ?_, ?_⟩
    · simp only [h0, h1, if_true, if_false, rsub64 n (by omega), shl, shr, show n.toNat < 64 by omega, show 64 - n.toNat < 64 by omega]; rfl
    · apply Nat.eq_of_testBit_eq; intro i
      rw [testBit_toNat, Nat.testBit_div_two_pow, testBit_toNat]
      by_cases hi : i < 64
      · simp [hi]
        by_cases c : i + n.toNat < 64
        · simp [c, show i < 64 - n.toNat by omega, Nat.add_comm]
        · simp [-BitVec.getLsbD_eq_getElem, c, show ¬ i < 64 - n.toNat by omega, show i - (64 - n.toNat) = i + n.toNat - 64 by omega,
            BitVec.getLsbD_of_ge v.low (n.toNat + i) (by omega)]
          rw [BitVec.getLsbD_eq_getElem]
      · simp [hi, show ¬ i + n.toNat < 64 by omega, show n.toNat + (i - 64) = i + n.toNat - 64 by omega]

theorem isBitSet_spec (v : U128) (n : BitVec 64) (h : n.toNat < 128) :
    isBitSet v n = .ok (v.toNat.testBit n.toNat) := by
  have key : ∀ (x : BitVec 64) (k : Nat), k < 64 → decide (x &&& ((1#64) <<< k) ≠ 0) = x.getLsbD k := by
    intro x k hk
    by_cases hb : x.getLsbD k
    · rw [hb]; simp only [decide_eq_true_eq]
      intro e
      have := congrArg (fun y => y.getLsbD k) e
      simp [-BitVec.getLsbD_eq_getElem, hb, hk] at this
    · simp only [Bool.not_eq_true] at hb
      rw [hb]; simp only [decide_eq_false_iff_not, Decidable.not_not]
      apply BitVec.eq_of_getLsbD_eq
      intro i hi
      by_cases e : i = k
      · subst e; simp [-BitVec.getLsbD_eq_getElem, hb]
      · simp [-BitVec.getLsbD_eq_getElem]; intros; omega
  unfold isBitSet
  simp only [assert, lt128, h, decide_true, if_true, ge64]
  rw [testBit_toNat]
  by_cases h1 : 64 ≤ n.toNat
  · simp only [h1, if_true, sub64 n h1, shl, show n.toNat - 64 < 64 by omega, show ¬ n.toNat < 64 by omega, if_false]
    show Except.ok _ = _
    congr 1
    exact key _ _ (by omega)
  · simp only [h1, if_false, shl, show n.toNat < 64 by omega, if_true]
    show Except.ok _ = _
    congr 1
    exact key _ _ (by omega)

theorem setBit_spec (v : U128) (n : BitVec 64) (h : n.toNat < 128) :
    ∃ r, setBit v n = .ok r ∧ ∀ i, r.toNat.testBit i = (v.toNat.testBit i || decide (i = n.toNat)) := by
  unfold setBit
  simp only [ge64]
  by_cases h1 : 64 ≤ n.toNat
  · refine ⟨{ v with high := v.high ||| ((1#64) <<< (n.toNat - 64)) }, ?_, ?_⟩
    · simp only [h1, if_true, sub64 n h1, shl, show n.toNat - 64 < 64 by omega]; rfl
    · intro i
      rw [testBit_toNat, testBit_toNat]
      by_cases hi : i < 64
      · simp [hi]; omega
      · simp [-BitVec.getLsbD_eq_getElem, hi]; congr 1; rw [Bool.eq_iff_iff]; simp; omega
  · refine ⟨{ v with low := v.low ||| ((1#64) <<< n.toNat) }, ?_, ?_⟩
    · simp only [h1, if_false, shl, show n.toNat < 64 by omega, if_true]; rfl
    · intro i
      rw [testBit_toNat, testBit_toNat]
      by_cases hi : i < 64
      · simp [-BitVec.getLsbD_eq_getElem, hi]; congr 1; rw [Bool.eq_iff_iff]; simp; omega
      · simp [hi]; omega

theorem makeBitmask_spec (n : BitVec 64) (h : n.toNat < 128) :
    ∃ r, makeBitmask n = .ok r ∧ r.toNat = 2 ^ n.toNat := by
  unfold makeBitmask
  simp only [assert, lt128, h, decide_true, if_true, ge64]
  by_cases h1 : 64 ≤ n.toNat
  · refine ⟨⟨0, (1#64) <<< (n.toNat - 64)⟩, ?_, ?_⟩
    · simp only [h1, if_true, sub64 n h1, shl, show n.toNat - 64 < 64 by omega]; rfl
    · apply Nat.eq_of_testBit_eq; intro i
      rw [testBit_toNat, Nat.testBit_two_pow]
      by_cases hi : i < 64
      · simp [hi]; omega
      · simp [-BitVec.getLsbD_eq_getElem, hi]; rw [Bool.eq_iff_iff]; simp; omega
  · refine ⟨⟨(1#64) <<< n.toNat, 0⟩, ?_, ?_⟩
    · simp only [h1, if_false, shl, show n.toNat < 64 by omega, if_true]; rfl
    · apply Nat.eq_of_testBit_eq; intro i
      rw [testBit_toNat, Nat.testBit_two_pow]
      by_cases hi : i < 64
      · simp [-BitVec.getLsbD_eq_getElem, hi]; rw [Bool.eq_iff_iff]; simp; omega
      · simp [hi]; omega

end Tm.U128
