import Verif.U128.Scan
/-! Binary long division. -/
namespace Tm.U128

theorem lt_spec (a b : U128) : lt a b = decide (a.toNat < b.toNat) := by
  have h1 := a.low.isLt; have h2 := b.low.isLt
  unfold lt U128.toNat
  rw [Bool.eq_iff_iff]
  by_cases h : a.high = b.high
  · simp only [h, if_true, BitVec.lt_def, decide_eq_true_eq]; omega
  · have : a.high.toNat ≠ b.high.toNat := fun e => h (BitVec.eq_of_toNat_eq e)
    simp only [h, if_false, BitVec.lt_def, decide_eq_true_eq]; omega
theorem lte_spec (a b : U128) : lte a b = decide (a.toNat ≤ b.toNat) := by
  have h1 := a.low.isLt; have h2 := b.low.isLt
  unfold lte U128.toNat
  rw [Bool.eq_iff_iff]
  by_cases h : a.high = b.high
  · simp only [h, if_true, BitVec.le_def, decide_eq_true_eq]; omega
  · have : a.high.toNat ≠ b.high.toNat := fun e => h (BitVec.eq_of_toNat_eq e)
    simp only [h, if_false, BitVec.lt_def, decide_eq_true_eq]; omega
theorem gt_spec (a b : U128) : gt a b = decide (a.toNat > b.toNat) := by
  have : gt a b = lt b a := by
    simp only [gt, lt, eq_comm, gt_iff_lt]
  rw [this, lt_spec]
theorem gte_spec (a b : U128) : gte a b = decide (a.toNat ≥ b.toNat) := by
  have : gte a b = lte b a := by
    simp only [gte, lte, eq_comm, gt_iff_lt, ge_iff_le]
  rw [this, lte_spec]
theorem eq_spec (a b : U128) : eq a b = decide (a = b) := by
  cases a; cases b; simp [eq, U128.mk.injEq]
theorem isNotZero_spec (a : U128) : isNotZero a = decide (a.toNat ≠ 0) := by
  have h1 := a.low.isLt
  rw [Bool.eq_iff_iff]
  simp only [isNotZero, Bool.or_eq_true, decide_eq_true_eq, ne0_64]
  unfold U128.toNat; omega
theorem isZero_spec (a : U128) : isZero a = decide (a.toNat = 0) := by
  have h1 := a.low.isLt
  rw [Bool.eq_iff_iff]
  simp only [isZero, Bool.and_eq_true, decide_eq_true_eq, eq0]
  unfold U128.toNat; omega

/-- `x << 1` written on halves. -/
theorem toNat_shl1 (m : U128) (h : 2 * m.toNat < 2 ^ 128) :
    (shl1 m).toNat = 2 * m.toNat := by
  have hl := m.low.isLt; have hh := m.high.isLt
  unfold shl1
  unfold U128.toNat at *
  simp only [BitVec.toNat_or, BitVec.toNat_shiftLeft, BitVec.toNat_ushiftRight, Nat.shiftLeft_eq, Nat.shiftRight_eq_div_pow]
  have e : m.high.toNat * 2 ^ 1 % 2 ^ 64 = (m.high.toNat % 2 ^ 63) <<< 1 := by rw [Nat.shiftLeft_eq]; omega
  have : m.low.toNat / 2 ^ 63 < 2 ^ 1 := by omega
  rw [e, ← Nat.shiftLeft_add_eq_or_of_lt this, Nat.shiftLeft_eq]
  omega

/-- Setting the lowest bit of an even number adds the bit. -/
theorem toNat_orBit (m : U128) (b : Bool) (h : m.toNat % 2 = 0) :
    ({ m with low := m.low ||| b2u b } : U128).toNat = m.toNat + b.toNat := by
  have hl := m.low.isLt
  unfold U128.toNat at *
  simp only [BitVec.toNat_or]
  rw [toNat_b2u (by decide)]
  obtain ⟨k, hk⟩ : ∃ k, m.low.toNat = k <<< 1 := ⟨m.low.toNat / 2, by rw [Nat.shiftLeft_eq]; omega⟩
  have hb : b.toNat < 2 ^ 1 := by cases b <;> decide
  rw [hk, ← Nat.shiftLeft_add_eq_or_of_lt hb]; omega

theorem setBit_add (v : U128) (i : Nat) (hi : i < 128) (h : v.toNat % 2 ^ (i + 1) = 0) :
    ∃ r, setBit v (BitVec.ofNat 64 i) = .ok r ∧ r.toNat = v.toNat + 2 ^ i := by
  have hn : (BitVec.ofNat 64 i).toNat = i := by simp; omega
  obtain ⟨r, hr, hb⟩ := setBit_spec v (BitVec.ofNat 64 i) (by rw [hn]; exact hi)
  refine ⟨r, hr, ?_⟩
  obtain ⟨q, hq⟩ : ∃ q, v.toNat = 2 ^ i * (2 * q) := by
    have := Nat.div_add_mod v.toNat (2 ^ (i + 1))
    refine ⟨v.toNat / 2 ^ (i + 1), ?_⟩
    rw [← Nat.mul_assoc, ← Nat.pow_succ, Nat.succ_eq_add_one]; omega
  have e1 : v.toNat + 2 ^ i = 2 ^ i * (2 * q + 1) := by rw [hq]; ring
  rw [hn] at hb
  apply Nat.eq_of_testBit_eq; intro j
  rw [hb j, e1, hq, Nat.testBit_two_pow_mul, Nat.testBit_two_pow_mul]
  by_cases c : i ≤ j
  · obtain ⟨d, rfl⟩ : ∃ d, j = i + d := ⟨j - i, by omega⟩
    simp only [Nat.le_add_right, decide_true, Bool.true_and, Nat.add_sub_cancel_left]
    cases d with
    | zero => simp
    | succ d =>
      simp only [Nat.testBit_add_one]
      have : (2 * q + 1) / 2 = 2 * q / 2 := by omega
      rw [this]; simp
  · simp [c]; omega

/-- Common invariant step. -/
theorem div_step (L R q r i : Nat) (h : L / 2 ^ (i + 1) = q * R + r) :
    L / 2 ^ i = 2 * q * R + (2 * r + (L.testBit i).toNat) := by
  have e : L / 2 ^ (i + 1) = L / 2 ^ i / 2 := by rw [Nat.pow_succ, Nat.div_div_eq_div_mul]
  have hb : (L.testBit i).toNat = L / 2 ^ i % 2 := by
    rw [Nat.testBit_eq_decide_div_mod_eq]
    rcases Nat.mod_two_eq_zero_or_one (L / 2 ^ i) with c | c <;> simp [c]
  rw [hb]
  have : 2 * q * R = 2 * (q * R) := by ring
  omega

theorem body_common (lhs : U128) (R : Nat) (i : Nat) (hi : i < 128) (q r : Nat) (div mod : U128)
    (hr : r < R) (h : lhs.toNat / 2 ^ (i + 1) = q * R + r)
    (hd : div.toNat = q * 2 ^ (i + 1)) (hm : mod.toNat = 2 * r)
    (run : C (U128 × U128))
    (hrun : run = (do
      let bit ← isBitSet lhs (BitVec.ofNat 64 i)
      let mod := { mod with low := mod.low ||| b2u bit }
      if mod.toNat ≥ R then
        let div ← setBit div (BitVec.ofNat 64 i)
        return (div, ofNat (mod.toNat - R))
      else return (div, mod))) :
    ∃ d m q', run = .ok (d, m) ∧ d.toNat = q' * 2 ^ i ∧
      lhs.toNat / 2 ^ i = q' * R + m.toNat ∧ m.toNat < R := by
  have hn : (BitVec.ofNat 64 i).toNat = i := by simp; omega
  rw [hrun, isBitSet_spec _ _ (by rw [hn]; exact hi), hn, ok_bind]
  have hs := div_step _ _ _ _ _ h
  have hmod := toNat_orBit mod (lhs.toNat.testBit i) (by omega)
  have hmlt := toNat_lt { mod with low := mod.low ||| b2u (lhs.toNat.testBit i) }
  have hb : (lhs.toNat.testBit i).toNat ≤ 1 := by cases lhs.toNat.testBit i <;> decide
  simp only
  rw [hm] at hmod
  rw [hmod] at hmlt ⊢
  by_cases c : R ≤ 2 * r + (lhs.toNat.testBit i).toNat
  · obtain ⟨d, hd1, hd2⟩ := setBit_add div i hi (by rw [hd]; exact Nat.mul_mod_left _ _)
    refine ⟨d, ofNat (2 * r + (lhs.toNat.testBit i).toNat - R), 2 * q + 1, ?_, ?_, ?_, ?_⟩
    · simp [c, hd1]
    · rw [hd2, hd, Nat.pow_succ]; ring
    · rw [toNat_ofNat, Nat.mod_eq_of_lt (by omega), hs, Nat.add_mul]; omega
    · rw [toNat_ofNat, Nat.mod_eq_of_lt (by omega)]; omega
  · refine ⟨div, { mod with low := mod.low ||| b2u (lhs.toNat.testBit i) }, 2 * q, by simp [c], ?_, ?_, ?_⟩
    · rw [hd, Nat.pow_succ]; ring
    · rw [hmod, hs]
    · rw [hmod]; omega

theorem divmodBody_spec (lhs rhs : U128) (i : Nat) (hi : i < 128) (q r : Nat) (div mod : U128)
    (hr : r < rhs.toNat) (h : lhs.toNat / 2 ^ (i + 1) = q * rhs.toNat + r)
    (hd : div.toNat = q * 2 ^ (i + 1)) (hm : mod.toNat = 2 * r) :
    ∃ d m q', divmodBody lhs rhs i div mod = .ok (d, m) ∧ d.toNat = q' * 2 ^ i ∧
      lhs.toNat / 2 ^ i = q' * rhs.toNat + m.toNat ∧ m.toNat < rhs.toNat := by
  apply body_common lhs rhs.toNat i hi q r div mod hr h hd hm
  unfold divmodBody
  congr 1; funext bit
  simp only [gte_spec, decide_eq_true_eq]
  split
  · rename_i c
    congr 1; funext d
    simp only [pure_eq_ok]
    congr 2
    apply toNat_inj
    have h1 := toNat_lt { mod with low := mod.low ||| b2u bit }
    have h2 := toNat_lt rhs
    rw [toNat_sub, toNat_ofNat]; omega
  · rfl

theorem divmodU64Body_spec (lhs : U128) (rhs : BitVec 64) (i : Nat) (hi : i < 128) (q r : Nat) (div mod : U128)
    (hr : r < rhs.toNat) (h : lhs.toNat / 2 ^ (i + 1) = q * rhs.toNat + r)
    (hd : div.toNat = q * 2 ^ (i + 1)) (hm : mod.toNat = 2 * r) :
    ∃ d m q', divmodU64Body lhs rhs i div mod = .ok (d, m) ∧ d.toNat = q' * 2 ^ i ∧
      lhs.toNat / 2 ^ i = q' * rhs.toNat + m.toNat ∧ m.toNat < rhs.toNat := by
  apply body_common lhs rhs.toNat i hi q r div mod hr h hd hm
  unfold divmodU64Body
  congr 1; funext bit
  have hcond : ∀ m : U128, (decide (m.high ≠ 0) || decide (m.low ≥ rhs)) = true ↔ m.toNat ≥ rhs.toNat := by
    intro m
    have := rhs.isLt; have := m.low.isLt
    simp only [Bool.or_eq_true, decide_eq_true_eq, ne0_64, ge_iff_le, BitVec.le_def, U128.toNat]; omega
  have hc := hcond { mod with low := mod.low ||| b2u bit }
  simp only at hc ⊢
  split
  · rename_i c
    rw [if_pos (hc.1 c)]
    congr 1; funext d
    simp only [pure_eq_ok]
    congr 2
    apply toNat_inj
    have h1 := toNat_lt { mod with low := mod.low ||| b2u bit }
    have h2 := rhs.isLt
    have h3 := hc.1 c
    rw [subU64_eq, toNat_sub, toNat_makeLow, toNat_ofNat]; omega
  · rename_i c
    rw [if_neg (fun e => c (hc.2 e))]

theorem two_mod_lt (L R q m i : Nat) (hL : L < 2 ^ 128) (h : L / 2 ^ (i + 1) = q * R + m) : 2 * m < 2 ^ 128 := by
  have h1 : m ≤ L / 2 ^ (i + 1) := by omega
  have h2 : L / 2 ^ (i + 1) ≤ L / 2 := by
    apply Nat.div_le_div_left _ (by omega)
    rw [Nat.pow_succ]; have := Nat.two_pow_pos i; omega
  omega

theorem divmodLoop_spec (lhs rhs : U128) (i : Nat) (hi : i < 128) (q r : Nat) (div mod : U128)
    (hr : r < rhs.toNat) (h : lhs.toNat / 2 ^ (i + 1) = q * rhs.toNat + r)
    (hd : div.toNat = q * 2 ^ (i + 1)) (hm : mod.toNat = 2 * r) :
    ∃ d m, divmodLoop lhs rhs i div mod = .ok (d, m) ∧
      lhs.toNat = d.toNat * rhs.toNat + m.toNat ∧ m.toNat < rhs.toNat := by
  induction i generalizing q r div mod with
  | zero =>
    obtain ⟨d, m, q', h1, h2, h3, h4⟩ := divmodBody_spec lhs rhs 0 hi q r div mod hr h hd hm
    refine ⟨d, m, h1, ?_, h4⟩
    simp at h2 h3; rw [h2]; exact h3
  | succ i ih =>
    obtain ⟨d, m, q', h1, h2, h3, h4⟩ := divmodBody_spec lhs rhs (i + 1) hi q r div mod hr h hd hm
    have := two_mod_lt _ _ _ _ _ (toNat_lt lhs) h3
    obtain ⟨d', m', e1, e2, e3⟩ := ih (by omega) q' m.toNat d (shl1 m) h4 h3 h2 (toNat_shl1 m this)
    exact ⟨d', m', by simp only [divmodLoop, h1, ok_bind]; exact e1, e2, e3⟩

theorem divmodU64Loop_spec (lhs : U128) (rhs : BitVec 64) (i : Nat) (hi : i < 128) (q r : Nat) (div mod : U128)
    (hr : r < rhs.toNat) (h : lhs.toNat / 2 ^ (i + 1) = q * rhs.toNat + r)
    (hd : div.toNat = q * 2 ^ (i + 1)) (hm : mod.toNat = 2 * r) :
    ∃ d m, divmodU64Loop lhs rhs i div mod = .ok (d, m) ∧
      lhs.toNat = d.toNat * rhs.toNat + m.toNat ∧ m.toNat < rhs.toNat := by
  induction i generalizing q r div mod with
  | zero =>
    obtain ⟨d, m, q', h1, h2, h3, h4⟩ := divmodU64Body_spec lhs rhs 0 hi q r div mod hr h hd hm
    refine ⟨d, m, h1, ?_, h4⟩
    simp at h2 h3; rw [h2]; exact h3
  | succ i ih =>
    obtain ⟨d, m, q', h1, h2, h3, h4⟩ := divmodU64Body_spec lhs rhs (i + 1) hi q r div mod hr h hd hm
    have := two_mod_lt _ _ _ _ _ (toNat_lt lhs) h3
    obtain ⟨d', m', e1, e2, e3⟩ := ih (by omega) q' m.toNat d (shl1 m) h4 h3 h2 (toNat_shl1 m this)
    exact ⟨d', m', by simp only [divmodU64Loop, h1, ok_bind]; exact e1, e2, e3⟩

theorem toNat_zero : zero.toNat = 0 := rfl
theorem toNat_one : one.toNat = 1 := rfl

theorem div_unique {a b q r : Nat} (h : a = q * b + r) (hr : r < b) : q = a / b ∧ r = a % b := by
  subst h
  constructor
  · rw [Nat.add_comm, Nat.add_mul_div_right _ _ (by omega), Nat.div_eq_of_lt hr]; omega
  · rw [Nat.add_comm, Nat.add_mul_mod_self_right, Nat.mod_eq_of_lt hr]

theorem by_two (lhs : U128) :
    ∃ d, shr128 lhs one = .ok d ∧ d.toNat = lhs.toNat / 2 ∧
      isBitSet lhs 0 = .ok (lhs.toNat.testBit 0) ∧
      (⟨b2u (lhs.toNat.testBit 0), 0⟩ : U128).toNat = lhs.toNat % 2 := by
  obtain ⟨d, h1, h2⟩ := shrU64_spec lhs 1 (by decide)
  refine ⟨d, ?_, by simpa using h2, isBitSet_spec lhs 0 (by decide), ?_⟩
  · unfold shr128; rw [show (assert (decide (one.high = 0) && decide (one.low < 128))) = .ok () from by decide, ok_bind]
    exact h1
  · rw [U128.toNat, toNat_b2u (by decide), Nat.testBit_zero]
    rcases Nat.mod_two_eq_zero_or_one lhs.toNat with c | c <;> simp [c]

theorem divmod_spec (lhs rhs : U128) (h : rhs.toNat ≠ 0) :
    ∃ d m, divmod lhs rhs = .ok (d, m) ∧ d.toNat = lhs.toNat / rhs.toNat ∧ m.toNat = lhs.toNat % rhs.toNat := by
  unfold divmod
  rw [isNotZero_spec, assert, if_pos (by simpa using h), ok_bind]
  by_cases c1 : (decide (rhs.high = 0) && decide (rhs.low = 2)) = true
  · obtain ⟨d, e1, e2, e3, e4⟩ := by_two lhs
    have hr : rhs.toNat = 2 := by
      simp at c1
      rw [U128.toNat, c1.1, c1.2]; rfl
    rw [if_pos c1, e1, ok_bind, e3, ok_bind, hr]
    exact ⟨d, _, rfl, e2, e4⟩
  rw [if_neg c1, eq_spec]
  by_cases c2 : lhs = rhs
  · rw [if_pos (by simpa using c2), c2]
    refine ⟨one, zero, rfl, ?_, ?_⟩
    · rw [toNat_one, Nat.div_self (by omega)]
    · rw [toNat_zero, Nat.mod_self]
  rw [if_neg (by simpa using c2), lt_spec]
  by_cases c3 : lhs.toNat < rhs.toNat
  · rw [if_pos (by simpa using c3)]
    exact ⟨zero, lhs, rfl, by rw [toNat_zero, Nat.div_eq_of_lt c3], by rw [Nat.mod_eq_of_lt c3]⟩
  rw [if_neg (by simpa using c3)]
  obtain ⟨i, hi⟩ := exists_highest lhs.toNat (by omega)
  have hi128 : i < 128 := (Nat.pow_lt_pow_iff_right (a := 2) (by omega)).1 (Nat.lt_of_le_of_lt hi.1 (toNat_lt lhs))
  rw [fls_spec lhs i hi, ok_bind]
  obtain ⟨d, m, e1, e2, e3⟩ := divmodLoop_spec lhs rhs i hi128 0 0 zero zero (by omega)
    (by rw [Nat.div_eq_of_lt hi.2]; simp) (by simp [toNat_zero]) (by simp [toNat_zero])
  obtain ⟨u1, u2⟩ := div_unique e2 e3
  exact ⟨d, m, e1, u1, u2⟩

theorem divmodU64_spec (lhs : U128) (rhs : BitVec 64) (h : rhs.toNat ≠ 0) :
    ∃ d m, divmodU64 lhs rhs = .ok (d, m) ∧ d.toNat = lhs.toNat / rhs.toNat ∧ m.toNat = lhs.toNat % rhs.toNat := by
  unfold divmodU64
  rw [assert, if_pos (by simpa [ne0_64] using (ne0_64 rhs).2 h), ok_bind]
  by_cases c1 : rhs = 2
  · obtain ⟨d, e1, e2, e3, e4⟩ := by_two lhs
    have hr : rhs.toNat = 2 := by rw [c1]; rfl
    rw [if_pos c1, e1, ok_bind, e3, ok_bind, hr]
    exact ⟨d, _, rfl, e2, e4⟩
  rw [if_neg c1]
  have hh : lhs.high = 0 ↔ lhs.high.toNat = 0 := eq0 _
  by_cases c2 : (decide (lhs.high = 0) && decide (lhs.low = rhs)) = true
  · rw [if_pos c2]
    simp at c2
    have e : lhs.toNat = rhs.toNat := by rw [U128.toNat, c2.1, c2.2]; simp
    refine ⟨one, zero, rfl, ?_, ?_⟩
    · rw [toNat_one, e, Nat.div_self (by omega)]
    · rw [toNat_zero, e, Nat.mod_self]
  rw [if_neg c2]
  by_cases c3 : (decide (lhs.high = 0) && decide (lhs.low < rhs)) = true
  · rw [if_pos c3]
    simp only [Bool.and_eq_true, decide_eq_true_eq, BitVec.lt_def] at c3
    have e : lhs.toNat < rhs.toNat := by rw [U128.toNat, c3.1]; simpa using c3.2
    exact ⟨zero, lhs, rfl, by rw [toNat_zero, Nat.div_eq_of_lt e], by rw [Nat.mod_eq_of_lt e]⟩
  rw [if_neg c3]
  have hge : rhs.toNat ≤ lhs.toNat := by
    simp only [Bool.and_eq_true, decide_eq_true_eq, BitVec.lt_def, hh] at c3
    have := rhs.isLt; unfold U128.toNat; omega
  obtain ⟨i, hi⟩ := exists_highest lhs.toNat (by omega)
  have hi128 : i < 128 := (Nat.pow_lt_pow_iff_right (a := 2) (by omega)).1 (Nat.lt_of_le_of_lt hi.1 (toNat_lt lhs))
  rw [fls_spec lhs i hi, ok_bind]
  obtain ⟨d, m, e1, e2, e3⟩ := divmodU64Loop_spec lhs rhs i hi128 0 0 zero zero (by omega)
    (by rw [Nat.div_eq_of_lt hi.2]; simp) (by simp [toNat_zero]) (by simp [toNat_zero])
  obtain ⟨u1, u2⟩ := div_unique e2 e3
  exact ⟨d, m, e1, u1, u2⟩

end Tm.U128
