import Verif.U128.FloatModel
import Verif.U128.FloatSpec
import Verif.U128.Scan
import Verif.U128.Div
import Mathlib.Tactic.Ring
import Mathlib.Tactic.FieldSimp
import Mathlib.Tactic.Positivity
import Mathlib.Data.Nat.Bitwise
namespace Tm.U128

/-! ## rounding of a normalised number -/

/-- `v` scaled so that bit 127 is the highest one. -/
structure Normal (P D v s N : Nat) : Prop where
  hP : 1 < P
  hD : 0 < D
  sum : P + D = 128
  hs : s ≤ 127
  hN : N = v * 2 ^ (127 - s)
  lo : 2 ^ 127 ≤ N
  hi : N < 2 ^ 128

theorem Normal.pow {P D v s N : Nat} (h : Normal P D v s N) : 2 ^ 127 = 2 ^ (P - 1) * 2 ^ D := by
  rw [← Nat.pow_add]; congr 1; have := h.hP; have := h.sum; omega

theorem Normal.lo' {P D v s N : Nat} (h : Normal P D v s N) : 2 ^ (P - 1) ≤ N / 2 ^ D := by
  rw [Nat.le_div_iff_mul_le (by positivity), ← h.pow]; exact h.lo

theorem Normal.hi' {P D v s N : Nat} (h : Normal P D v s N) : N / 2 ^ D < 2 ^ P := by
  rw [Nat.div_lt_iff_lt_mul (by positivity), ← Nat.pow_add, h.sum]; exact h.hi

theorem Normal.small {P D v s N : Nat} (h : Normal P D v s N) {m k : Nat} (hm : m < 2 ^ P) (hk : k < D) :
    m * 2 ^ k < 2 ^ 127 := by
  calc m * 2 ^ k < 2 ^ P * 2 ^ k := Nat.mul_lt_mul_of_pos_right hm (by positivity)
    _ = 2 ^ (P + k) := by rw [Nat.pow_add]
    _ ≤ 2 ^ 127 := Nat.pow_le_pow_right (by decide) (by have := h.sum; omega)

theorem Normal.down {P D v s N : Nat} (h : Normal P D v s N) {m k : Nat} (hm : m < 2 ^ P) (hle : m * 2 ^ k ≤ N) :
    m * 2 ^ k ≤ N / 2 ^ D * 2 ^ D := by
  rcases Nat.lt_or_ge k D with hk | hk
  · have h1 := h.small hm hk
    have h2 := Nat.mul_le_mul_right (2 ^ D) h.lo'
    rw [← h.pow] at h2; omega
  · obtain ⟨j, rfl⟩ := Nat.exists_eq_add_of_le hk
    have e : m * 2 ^ (D + j) = m * 2 ^ j * 2 ^ D := by rw [Nat.pow_add]; ring
    rw [e] at hle ⊢
    exact Nat.mul_le_mul_right _ ((Nat.le_div_iff_mul_le (by positivity)).2 hle)

theorem Normal.up {P D v s N : Nat} (h : Normal P D v s N) {m k : Nat} (hm : m < 2 ^ P) (hle : N ≤ m * 2 ^ k)
    (hr : N % 2 ^ D ≠ 0) : (N / 2 ^ D + 1) * 2 ^ D ≤ m * 2 ^ k := by
  rcases Nat.lt_or_ge k D with hk | hk
  · have h1 := h.small hm hk
    have := h.lo; omega
  · obtain ⟨j, rfl⟩ := Nat.exists_eq_add_of_le hk
    have e : m * 2 ^ (D + j) = m * 2 ^ j * 2 ^ D := by rw [Nat.pow_add]; ring
    rw [e] at hle ⊢
    apply Nat.mul_le_mul_right
    by_contra hc
    have h1 : m * 2 ^ j * 2 ^ D ≤ N / 2 ^ D * 2 ^ D := Nat.mul_le_mul_right _ (by omega)
    have h2 := Nat.div_add_mod N (2 ^ D)
    rw [Nat.mul_comm] at h2
    omega

/-- The result of rounding up or down, before scaling, is a natural number after scaling. -/
theorem Normal.result {P D v s N : Nat} (h : Normal P D v s N) (u : Nat) (hu : u = 0 ∨ N % 2 ^ D ≠ 0 ∨ P - 1 ≤ s) :
    ∃ r, r * 2 ^ (127 - s) = (N / 2 ^ D + u) * 2 ^ D := by
  have hs := h.hs; have hsum := h.sum; have hP := h.hP
  rcases Nat.le_total (127 - s) D with hle | hle
  · refine ⟨(N / 2 ^ D + u) * 2 ^ (D - (127 - s)), ?_⟩
    rw [Nat.mul_assoc, ← Nat.pow_add]; congr 2; omega
  · have e : N = v * 2 ^ (127 - s - D) * 2 ^ D := by
      rw [Nat.mul_assoc, ← Nat.pow_add, h.hN]; congr 2; omega
    have hr : N % 2 ^ D = 0 := by rw [e]; exact Nat.mul_mod_left _ _
    by_cases hu0 : u = 0
    · refine ⟨v, ?_⟩
      have h2 := Nat.div_add_mod N (2 ^ D)
      rw [hr, Nat.mul_comm] at h2
      rw [hu0, ← h.hN, Nat.add_zero]; omega
    · refine ⟨(N / 2 ^ D + u) * 2 ^ (D - (127 - s)), ?_⟩
      rw [Nat.mul_assoc, ← Nat.pow_add]; congr 2; omega

theorem repr_scale {P r : Nat} (j : Nat) (h : Repr P r) : ∃ m k, m < 2 ^ P ∧ r * 2 ^ j = m * 2 ^ k := by
  obtain ⟨m, k, hm, rfl⟩ := h
  exact ⟨m, k + j, hm, by rw [Nat.mul_assoc, ← Nat.pow_add]⟩

theorem Normal.repr {P D v s N : Nat} (h : Normal P D v s N) {u r : Nat} (hu : u ≤ 1)
    (hr : r * 2 ^ (127 - s) = (N / 2 ^ D + u) * 2 ^ D) : Repr P r := by
  have hhi := h.hi'
  have hs := h.hs; have hsum := h.sum; have hP := h.hP
  rcases Nat.le_total (127 - s) D with hle | hle
  · have e : r = (N / 2 ^ D + u) * 2 ^ (D - (127 - s)) := by
      apply Nat.eq_of_mul_eq_mul_right (show 0 < 2 ^ (127 - s) by positivity)
      rw [hr, Nat.mul_assoc, ← Nat.pow_add]; congr 2; omega
    rcases Nat.lt_or_ge (N / 2 ^ D + u) (2 ^ P) with hlt | hge
    · exact ⟨_, _, hlt, e⟩
    · refine ⟨1, P + (D - (127 - s)), Nat.one_lt_two_pow (by omega), ?_⟩
      rw [e, show N / 2 ^ D + u = 2 ^ P by omega, Nat.pow_add, Nat.one_mul]
  · have h1 : r * 2 ^ (127 - s) ≤ 2 ^ P * 2 ^ D := by
      rw [hr]; exact Nat.mul_le_mul_right _ (by omega)
    rw [← Nat.pow_add, hsum] at h1
    have h2 : r * 2 ^ (127 - s) ≤ 2 ^ (s + 1) * 2 ^ (127 - s) := by
      rw [← Nat.pow_add, show s + 1 + (127 - s) = 128 by omega]; exact h1
    have h3 := Nat.le_of_mul_le_mul_right h2 (by positivity)
    have h4 : 2 ^ (s + 1) ≤ 2 ^ P := Nat.pow_le_pow_right (by decide) (by omega)
    rcases Nat.lt_or_ge r (2 ^ P) with h5 | h5
    · exact ⟨r, 0, h5, by simp⟩
    · exact ⟨1, P, Nat.one_lt_two_pow (by omega), by omega⟩

theorem Normal.roundDown {P D v s N : Nat} (h : Normal P D v s N) {r : Nat}
    (hr : r * 2 ^ (127 - s) = (N / 2 ^ D + 0) * 2 ^ D) : IsRoundDown P v r := by
  have hc : 0 < 2 ^ (127 - s) := by positivity
  have hdm := Nat.div_mul_le_self N (2 ^ D)
  refine ⟨h.repr (by omega) hr, ?_, ?_⟩
  · apply Nat.le_of_mul_le_mul_right _ hc
    rw [hr, ← h.hN]; simpa using hdm
  · intro r' h1 h2
    apply Nat.le_of_mul_le_mul_right _ hc
    obtain ⟨m, k, hm, e⟩ := repr_scale (127 - s) h1
    rw [hr, e]
    apply h.down hm
    rw [← e, h.hN]; exact Nat.mul_le_mul_right _ h2

theorem Normal.roundUp {P D v s N : Nat} (h : Normal P D v s N) {r u : Nat}
    (hu : u = if N % 2 ^ D = 0 then 0 else 1)
    (hr : r * 2 ^ (127 - s) = (N / 2 ^ D + u) * 2 ^ D) : IsRoundUp P v r := by
  have hc : 0 < 2 ^ (127 - s) := by positivity
  have hdm := Nat.div_add_mod N (2 ^ D)
  have hml := Nat.mod_lt N (show 0 < 2 ^ D by positivity)
  rw [Nat.mul_comm] at hdm
  have e1 : (N / 2 ^ D + u) * 2 ^ D = N / 2 ^ D * 2 ^ D + u * 2 ^ D := Nat.add_mul _ _ _
  refine ⟨h.repr (by rw [hu]; split <;> omega) hr, ?_, ?_⟩
  · apply Nat.le_of_mul_le_mul_right _ hc
    rw [hr, ← h.hN, e1, hu]
    split <;> omega
  · intro r' h1 h2
    apply Nat.le_of_mul_le_mul_right _ hc
    obtain ⟨m, k, hm, e⟩ := repr_scale (127 - s) h1
    have hle : N ≤ m * 2 ^ k := by rw [← e, h.hN]; exact Nat.mul_le_mul_right _ h2
    rw [hr, e, hu]
    split
    · rw [Nat.add_zero]; omega
    · rename_i hne; exact h.up hm hle hne

theorem dist_mul (a b c : Nat) : dist (a * c) (b * c) = dist a b * c := by
  simp only [dist, Nat.add_mul, Nat.sub_mul]

theorem Normal.nearest {P D v s N : Nat} (h : Normal P D v s N) {r u : Nat}
    (hu : u = if 2 ^ (D - 1) < N % 2 ^ D ∨ (N % 2 ^ D = 2 ^ (D - 1) ∧ N / 2 ^ D % 2 = 1) then 1 else 0)
    (hr : r * 2 ^ (127 - s) = (N / 2 ^ D + u) * 2 ^ D) : IsNearestEven P v r := by
  have hc : 0 < 2 ^ (127 - s) := by positivity
  have hs := h.hs; have hsum := h.sum; have hP := h.hP; have hD := h.hD
  have hdm := Nat.div_add_mod N (2 ^ D)
  have hml := Nat.mod_lt N (show 0 < 2 ^ D by positivity)
  rw [Nat.mul_comm] at hdm
  have hhalf : 2 ^ D = 2 * 2 ^ (D - 1) := by rw [← Nat.pow_succ']; congr 1; omega
  have hhp : 0 < 2 ^ (D - 1) := by positivity
  have e1 : (N / 2 ^ D + u) * 2 ^ D = N / 2 ^ D * 2 ^ D + u * 2 ^ D := Nat.add_mul _ _ _
  have hu1 : u ≤ 1 := by rw [hu]; split <;> omega
  -- the distances of the two candidates and of all others
  have key : ∀ R' m k, m < 2 ^ P → R' = m * 2 ^ k →
      dist N ((N / 2 ^ D + u) * 2 ^ D) ≤ dist N R' ∧
      (R' ≠ (N / 2 ^ D + u) * 2 ^ D → dist N R' = dist N ((N / 2 ^ D + u) * 2 ^ D) →
        (N / 2 ^ D + u) % 2 = 0 ∧ N % 2 ^ D ≠ 0) := by
    intro R' m k hm hR
    have hd : R' ≤ N → R' ≤ N / 2 ^ D * 2 ^ D := fun hle => by rw [hR] at hle ⊢; exact h.down hm hle
    have hup : N ≤ R' → N % 2 ^ D ≠ 0 → N / 2 ^ D * 2 ^ D + 2 ^ D ≤ R' := fun hle hne => by
      have := h.up hm (hR ▸ hle) hne
      rw [Nat.add_mul, Nat.one_mul] at this; rw [hR]; exact this
    rw [e1]
    generalize N / 2 ^ D * 2 ^ D = A at *
    generalize N / 2 ^ D = M at *
    generalize N % 2 ^ D = rem at *
    generalize 2 ^ (D - 1) = H at *
    generalize 2 ^ D = T at *
    by_cases hcond : H < rem ∨ (rem = H ∧ M % 2 = 1)
    · rw [if_pos hcond] at hu
      subst hu
      rw [Nat.one_mul]
      unfold dist
      by_cases hle : R' ≤ N
      · have := hd hle; omega
      · have := hup (by omega) (by omega); omega
    · rw [if_neg hcond] at hu
      subst hu
      rw [Nat.zero_mul]
      unfold dist
      by_cases hle : R' ≤ N
      · have := hd hle; omega
      · by_cases h0 : rem = 0
        · omega
        · have := hup (by omega) h0; omega
  refine ⟨h.repr hu1 hr, ?_, ?_⟩
  · intro r' h1
    obtain ⟨m, k, hm, e⟩ := repr_scale (127 - s) h1
    apply Nat.le_of_mul_le_mul_right _ hc
    rw [← dist_mul, ← dist_mul, hr, ← h.hN]
    exact (key _ m k hm e).1
  · intro r' h1 hne hd
    obtain ⟨m, k, hm, e⟩ := repr_scale (127 - s) h1
    have h2 := (key _ m k hm e).2 (by
      rw [← hr]; intro hh; exact hne (Nat.eq_of_mul_eq_mul_right hc hh)) (by
      rw [← hr, h.hN, dist_mul, dist_mul, hd])
    have hlt : 127 - s ≤ D := by
      by_contra hgt
      apply h2.2
      have : N = v * 2 ^ (127 - s - D) * 2 ^ D := by
        rw [Nat.mul_assoc, ← Nat.pow_add, h.hN]; congr 2; omega
      rw [this]; exact Nat.mul_mod_left _ _
    have e : r = (N / 2 ^ D + u) * 2 ^ (D - (127 - s)) := by
      apply Nat.eq_of_mul_eq_mul_right hc
      rw [hr, Nat.mul_assoc, ← Nat.pow_add]; congr 2; omega
    have hlo := h.lo'
    have hhi := h.hi'
    rcases Nat.lt_or_ge (N / 2 ^ D + u) (2 ^ P) with hl | hg
    · exact ⟨_, _, e, h2.1, by omega, hl⟩
    · have hp : 2 ^ P = 2 ^ (P - 1) * 2 := by rw [← Nat.pow_succ]; congr 1; omega
      refine ⟨2 ^ (P - 1), D - (127 - s) + 1, ?_, ?_, Nat.le_refl _, Nat.pow_lt_pow_right (by decide) (by omega)⟩
      · rw [e, show N / 2 ^ D + u = 2 ^ P by omega, hp, Nat.pow_succ]; ring
      · have : 2 ^ (P - 1) = 2 ^ (P - 2) * 2 := by rw [← Nat.pow_succ]; congr 1; omega
        rw [this]; exact Nat.mul_mod_left _ _

/-! ## the bit pattern -/

theorem ieee_natural (p w : Nat) (s F r : Nat) (hF : F < 2 ^ p) (hs : 2 ^ (w - 1) - 1 + s < 2 ^ w)
    (hs0 : 0 < 2 ^ (w - 1) - 1 + s) (hr : r * 2 ^ p = (2 ^ p + F) * 2 ^ s) :
    ieee p w ((2 ^ (w - 1) - 1 + s) * 2 ^ p + F) = r := by
  have hp : 0 < 2 ^ p := by positivity
  have hw1 : 0 < 2 ^ (w - 1) := by positivity
  have e1 : ((2 ^ (w - 1) - 1 + s) * 2 ^ p + F) % 2 ^ p = F := by
    rw [Nat.mul_comm, Nat.mul_add_mod, Nat.mod_eq_of_lt hF]
  have e2 : ((2 ^ (w - 1) - 1 + s) * 2 ^ p + F) / 2 ^ p = 2 ^ (w - 1) - 1 + s := by
    rw [Nat.mul_comm, Nat.mul_add_div hp, Nat.div_eq_of_lt hF, Nat.add_zero]
  have e3 : ((2 ^ (w - 1) - 1 + s) * 2 ^ p + F) / 2 ^ (p + w) = 0 := by
    rw [Nat.pow_add, ← Nat.div_div_eq_div_mul, e2, Nat.div_eq_of_lt hs]
  simp only [ieee, e1, e2, e3, if_true, one_mul]
  rw [Nat.mod_eq_of_lt hs, if_neg (by omega)]
  have e4 : (((2 ^ (w - 1) - 1 + s : ℕ) : ℤ) - (2 ^ (w - 1) - 1) - p) = (s : ℤ) - p := by
    push_cast [Nat.cast_sub hw1]; ring
  rw [e4, zpow_sub₀ (by norm_num), zpow_natCast, zpow_natCast]
  have h2 : ((r * 2 ^ p : ℕ) : ℚ) = (((2 ^ p + F) * 2 ^ s : ℕ) : ℚ) := by rw [hr]
  push_cast at h2 ⊢
  field_simp
  linarith

/-! ## the code -/

theorem and_low_ne (x : BitVec 64) (k : Nat) (hk : k ≤ 64) : (x &&& BitVec.ofNat 64 (2 ^ k - 1) ≠ 0) ↔ x.toNat % 2 ^ k ≠ 0 := by
  have h2 : 2 ^ k ≤ 2 ^ 64 := Nat.pow_le_pow_right (by decide) hk
  have hz : BitVec.toNat (0 : BitVec 64) = 0 := rfl
  rw [ne_eq, ← BitVec.toNat_inj, BitVec.toNat_and, BitVec.toNat_ofNat, Nat.mod_eq_of_lt (by omega : 2 ^ k - 1 < 2 ^ 64),
    Nat.and_two_pow_sub_one_eq_mod, hz]

theorem and_bit_ne {w : Nat} (x : BitVec w) (k : Nat) (hk : k < w) :
    (x &&& BitVec.ofNat w (2 ^ k) ≠ 0) ↔ x.toNat / 2 ^ k % 2 = 1 := by
  have h2 : 2 ^ k < 2 ^ w := Nat.pow_lt_pow_right (by decide) hk
  have hz : BitVec.toNat (0 : BitVec w) = 0 := by simp
  rw [ne_eq, ← BitVec.toNat_inj, BitVec.toNat_and, BitVec.toNat_ofNat, Nat.mod_eq_of_lt h2,
    Nat.and_two_pow, hz, Nat.testBit_eq_decide_div_mod_eq]
  have : 0 < 2 ^ k := by positivity
  by_cases h : x.toNat / 2 ^ k % 2 = 1
  · simp [h]
  · simp [h]

theorem bv_or_ne {w : Nat} (a b : BitVec w) : a ||| b ≠ 0 ↔ a ≠ 0 ∨ b ≠ 0 := by
  have h : (a ||| b = 0) ↔ a = 0 ∧ b = 0 := BitVec.or_eq_zero_iff
  rw [ne_eq, h]; tauto

theorem mask17 (x : BitVec 64) : (x &&& 0x17FFFFFFFFF ≠ 0) ↔ x.toNat % 2 ^ 39 ≠ 0 ∨ x.toNat / 2 ^ 40 % 2 = 1 := by
  rw [← and_low_ne x 39 (by decide), ← and_bit_ne x 40 (by decide), ← bv_or_ne, ← BitVec.and_or_distrib_left]
  rfl

theorem maskBFF (x : BitVec 64) : (x &&& 0xBFF ≠ 0) ↔ x.toNat % 2 ^ 10 ≠ 0 ∨ x.toNat / 2 ^ 11 % 2 = 1 := by
  rw [← and_low_ne x 10 (by decide), ← and_bit_ne x 11 (by decide), ← bv_or_ne, ← BitVec.and_or_distrib_left]
  rfl

theorem ne0 (x : BitVec 64) : x ≠ 0 ↔ x.toNat ≠ 0 := by
  rw [ne_eq, ← BitVec.toNat_inj]; rfl

/-- When `tmi_to_float_rm` rounds up, in terms of the normalised number. -/
def floatUp (N : Nat) : RoundMode → Prop
  | .nearest => 2 ^ 103 < N % 2 ^ 104 ∨ (N % 2 ^ 104 = 2 ^ 103 ∧ N / 2 ^ 104 % 2 = 1)
  | .upward => N % 2 ^ 105 ≠ 0
  | .truncate => False

/-- When `tmi_to_double_rm` rounds up, in terms of the normalised number. -/
def doubleUp (N : Nat) : RoundMode → Prop
  | .nearest => 2 ^ 74 < N % 2 ^ 75 ∨ (N % 2 ^ 75 = 2 ^ 74 ∧ N / 2 ^ 75 % 2 = 1)
  | .upward => N % 2 ^ 75 ≠ 0
  | .truncate => False

theorem toNat_top32 (h : BitVec 64) : ((h >>> 32).setWidth 32).toNat = h.toNat / 2 ^ 32 := by
  have := h.isLt
  rw [BitVec.toNat_setWidth, BitVec.toNat_ushiftRight, Nat.shiftRight_eq_div_pow, Nat.mod_eq_of_lt (by omega)]

theorem floatRoundUp_spec (n : U128) (mode : RoundMode) :
    floatRoundUp n ((n.high >>> 32).setWidth 32) mode = true ↔ floatUp n.toNat mode := by
  have h1 := n.low.isLt
  have h2 := n.high.isLt
  cases mode with
  | nearest =>
    have hg := and_bit_ne ((n.high >>> 32).setWidth 32) 7 (by decide)
    rw [toNat_top32] at hg
    have hg' : ((n.high >>> 32).setWidth 32 &&& 0x80 ≠ 0) ↔ n.high.toNat / 2 ^ 32 / 2 ^ 7 % 2 = 1 := hg
    simp only [floatRoundUp, floatUp]
    by_cases hc : n.high.toNat / 2 ^ 32 / 2 ^ 7 % 2 = 1
    · rw [if_pos (hg'.2 hc)]
      rw [Bool.or_eq_true, decide_eq_true_eq, decide_eq_true_eq, mask17, ne0]
      unfold U128.toNat
      generalize n.low.toNat = l at *
      generalize n.high.toNat = h at *
      omega
    · rw [if_neg (fun h => hc (hg'.1 h))]
      simp only [Bool.false_eq_true, false_iff]
      unfold U128.toNat
      generalize n.low.toNat = l at *
      generalize n.high.toNat = h at *
      omega
  | upward =>
    have hm : (n.high &&& 0x1FFFFFFFFFF ≠ 0) ↔ n.high.toNat % 2 ^ 41 ≠ 0 := and_low_ne n.high 41 (by decide)
    simp only [floatRoundUp, floatUp, Bool.or_eq_true, decide_eq_true_eq, hm, ne0]
    unfold U128.toNat
    generalize n.low.toNat = l at *
    generalize n.high.toNat = h at *
    omega
  | truncate => simp [floatRoundUp, floatUp]

theorem doubleRoundUp_spec (n : U128) (mode : RoundMode) :
    doubleRoundUp n n.high mode = true ↔ doubleUp n.toNat mode := by
  have h1 := n.low.isLt
  have h2 := n.high.isLt
  cases mode with
  | nearest =>
    have hg : (n.high &&& 0x400 ≠ 0) ↔ n.high.toNat / 2 ^ 10 % 2 = 1 := and_bit_ne n.high 10 (by decide)
    simp only [doubleRoundUp, doubleUp]
    by_cases hc : n.high.toNat / 2 ^ 10 % 2 = 1
    · rw [if_pos (hg.2 hc)]
      rw [Bool.or_eq_true, decide_eq_true_eq, decide_eq_true_eq, maskBFF, ne0]
      unfold U128.toNat
      generalize n.low.toNat = l at *
      generalize n.high.toNat = h at *
      omega
    · rw [if_neg (fun h => hc (hg.1 h))]
      simp only [Bool.false_eq_true, false_iff]
      unfold U128.toNat
      generalize n.low.toNat = l at *
      generalize n.high.toNat = h at *
      omega
  | upward =>
    have hm : (n.high &&& 0x7FF ≠ 0) ↔ n.high.toNat % 2 ^ 11 ≠ 0 := and_low_ne n.high 11 (by decide)
    simp only [doubleRoundUp, doubleUp, Bool.or_eq_true, decide_eq_true_eq, hm, ne0]
    unfold U128.toNat
    generalize n.low.toNat = l at *
    generalize n.high.toNat = h at *
    omega
  | truncate => simp [doubleRoundUp, doubleUp]

theorem normalize_spec (v : U128) (s : Nat) (h : IsHighestBit v.toNat s) :
    s ≤ 127 ∧ ∃ n, shlU64 v (127 - BitVec.ofNat 64 s) = .ok n ∧ n.toNat = v.toNat * 2 ^ (127 - s) ∧
      2 ^ 127 ≤ n.toNat := by
  have hv := toNat_lt v
  have hs : s ≤ 127 := by
    by_contra hc
    have : 2 ^ 128 ≤ 2 ^ s := Nat.pow_le_pow_right (by decide) (by omega)
    have := h.1; omega
  refine ⟨hs, ?_⟩
  have ha : (127 - BitVec.ofNat 64 s).toNat = 127 - s := by
    have e : BitVec.toNat (127 : BitVec 64) = 127 := rfl
    rw [BitVec.toNat_sub, BitVec.toNat_ofNat, Nat.mod_eq_of_lt (by omega : s < 2 ^ 64), e]; omega
  obtain ⟨n, h1, h2⟩ := shlU64_spec v (127 - BitVec.ofNat 64 s) (by omega)
  rw [ha] at h2
  have hlt : v.toNat * 2 ^ (127 - s) < 2 ^ 128 := by
    calc v.toNat * 2 ^ (127 - s) < 2 ^ (s + 1) * 2 ^ (127 - s) := Nat.mul_lt_mul_of_pos_right h.2 (by positivity)
      _ = 2 ^ 128 := by rw [← Nat.pow_add]; congr 1; omega
  have hge : 2 ^ 127 ≤ v.toNat * 2 ^ (127 - s) := by
    calc 2 ^ 127 = 2 ^ s * 2 ^ (127 - s) := by rw [← Nat.pow_add]; congr 1; omega
      _ ≤ _ := Nat.mul_le_mul_right _ h.1
  rw [Nat.mod_eq_of_lt hlt] at h2
  exact ⟨n, h1, h2, by rw [h2]; exact hge⟩

theorem normal_float (v : U128) (s : Nat) (h : IsHighestBit v.toNat s) (P D : Nat) (hP : 1 < P) (hD : 0 < D) (hs : P + D = 128) :
    Normal P D v.toNat s (v.toNat * 2 ^ (127 - s)) := by
  obtain ⟨h1, n, _, h2, h3⟩ := normalize_spec v s h
  have := toNat_lt n
  exact ⟨hP, hD, hs, h1, rfl, by omega, by omega⟩

open Classical in
theorem toFloatRm_spec (v : U128) (mode : RoundMode) (s : Nat) (h : IsHighestBit v.toNat s) :
    ∃ b, toFloatRm v mode = .ok b ∧ b.toNat = (127 + s) * 2 ^ 23 +
      (v.toNat * 2 ^ (127 - s) / 2 ^ 104 + if floatUp (v.toNat * 2 ^ (127 - s)) mode then 1 else 0) % 2 ^ 23 := by
  obtain ⟨hs, n, hn, hN, hlo⟩ := normalize_spec v s h
  have hnz : ¬ isZero v = true := by
    rw [isZero_spec]; have := h.1; have : 0 < 2 ^ s := by positivity
    simp; omega
  have e0 : BitVec.toNat (127 : BitVec 32) = 127 := rfl
  have he : (127 + BitVec.ofNat 32 s : BitVec 32).toNat = 127 + s := by
    rw [BitVec.toNat_add, BitVec.toNat_ofNat, e0]; omega
  have hge : ¬ (127 + BitVec.ofNat 32 s : BitVec 32) ≥ 256 := by
    have e : BitVec.toNat (256 : BitVec 32) = 256 := rfl
    rw [ge_iff_le, BitVec.le_def, he, e]; omega
  rw [toFloatRm, if_neg hnz, fls_spec v s h, ok_bind, hn, ok_bind]
  simp only
  rw [if_neg hge]
  refine ⟨_, rfl, ?_⟩
  rw [← hN]
  have hu : ((if floatRoundUp n ((n.high >>> 32).setWidth 32) mode then 1 else 0 : BitVec 32)).toNat
      = if floatUp n.toNat mode then 1 else 0 := by
    by_cases hc : floatUp n.toNat mode
    · rw [if_pos hc, if_pos ((floatRoundUp_spec n mode).2 hc)]; rfl
    · rw [if_neg hc, if_neg (fun hh => hc ((floatRoundUp_spec n mode).1 hh))]; rfl
  have hh := n.high.isLt
  have hl := n.low.isLt
  have hM : n.toNat / 2 ^ 104 = n.high.toNat / 2 ^ 40 := by unfold U128.toNat; omega
  have hmask : BitVec.toNat (0x7FFFFF : BitVec 32) = 2 ^ 23 - 1 := rfl
  rw [BitVec.toNat_or, BitVec.toNat_shiftLeft, he, BitVec.toNat_and, hmask, Nat.and_two_pow_sub_one_eq_mod, BitVec.toNat_add,
    BitVec.toNat_ushiftRight, toNat_top32, Nat.shiftRight_eq_div_pow, hu, hM, Nat.shiftLeft_eq]
  rw [Nat.div_div_eq_div_mul, ← Nat.pow_add]
  have hu1 : (if floatUp n.toNat mode then 1 else 0) ≤ 1 := by split <;> omega
  generalize (if floatUp n.toNat mode then 1 else 0) = u at *
  rw [Nat.mod_eq_of_lt (by omega : (127 + s) * 2 ^ 23 < 2 ^ 32), Nat.mod_eq_of_lt (b := 2 ^ 32) (by omega),
    ← Nat.shiftLeft_eq, ← Nat.shiftLeft_add_eq_or_of_lt (Nat.mod_lt _ (by positivity)), Nat.shiftLeft_eq]

open Classical in
theorem toDoubleRm_spec (v : U128) (mode : RoundMode) (s : Nat) (h : IsHighestBit v.toNat s) :
    ∃ b, toDoubleRm v mode = .ok b ∧ b.toNat = (1023 + s) * 2 ^ 52 +
      (v.toNat * 2 ^ (127 - s) / 2 ^ 75 + if doubleUp (v.toNat * 2 ^ (127 - s)) mode then 1 else 0) % 2 ^ 52 := by
  obtain ⟨hs, n, hn, hN, hlo⟩ := normalize_spec v s h
  have hnz : ¬ isZero v = true := by
    rw [isZero_spec]; have := h.1; have : 0 < 2 ^ s := by positivity
    simp; omega
  have e0 : BitVec.toNat (1023 : BitVec 64) = 1023 := rfl
  have he : (1023 + BitVec.ofNat 64 s : BitVec 64).toNat = 1023 + s := by
    rw [BitVec.toNat_add, BitVec.toNat_ofNat, e0]; omega
  have hge : ¬ (1023 + BitVec.ofNat 64 s : BitVec 64) ≥ 2048 := by
    have e : BitVec.toNat (2048 : BitVec 64) = 2048 := rfl
    rw [ge_iff_le, BitVec.le_def, he, e]; omega
  rw [toDoubleRm, if_neg hnz, fls_spec v s h, ok_bind, hn, ok_bind]
  simp only
  rw [if_neg hge]
  refine ⟨_, rfl, ?_⟩
  rw [← hN]
  have hu : ((if doubleRoundUp n n.high mode then 1 else 0 : BitVec 64)).toNat = if doubleUp n.toNat mode then 1 else 0 := by
    by_cases hc : doubleUp n.toNat mode
    · rw [if_pos hc, if_pos ((doubleRoundUp_spec n mode).2 hc)]; rfl
    · rw [if_neg hc, if_neg (fun hh => hc ((doubleRoundUp_spec n mode).1 hh))]; rfl
  have hh := n.high.isLt
  have hl := n.low.isLt
  have hM : n.toNat / 2 ^ 75 = n.high.toNat / 2 ^ 11 := by unfold U128.toNat; omega
  have hmask : BitVec.toNat (0xFFFFFFFFFFFFF : BitVec 64) = 2 ^ 52 - 1 := rfl
  rw [BitVec.toNat_or, BitVec.toNat_shiftLeft, he, BitVec.toNat_and, hmask, Nat.and_two_pow_sub_one_eq_mod, BitVec.toNat_add,
    BitVec.toNat_ushiftRight, Nat.shiftRight_eq_div_pow, hu, hM, Nat.shiftLeft_eq]
  have hu1 : (if doubleUp n.toNat mode then 1 else 0) ≤ 1 := by split <;> omega
  generalize (if doubleUp n.toNat mode then 1 else 0) = u at *
  rw [Nat.mod_eq_of_lt (by omega : (1023 + s) * 2 ^ 52 < 2 ^ 64), Nat.mod_eq_of_lt (b := 2 ^ 64) (by omega),
    ← Nat.shiftLeft_eq, ← Nat.shiftLeft_add_eq_or_of_lt (Nat.mod_lt _ (by positivity)), Nat.shiftLeft_eq]

/-- The number the computed bit pattern represents. -/
theorem Normal.value {p D v s N w : Nat} (h : Normal (p + 1) D v s N) {u r : Nat} (hu : u ≤ 1)
    (hw : 2 ^ (w - 1) - 1 + s < 2 ^ w) (hw0 : 0 < 2 ^ (w - 1) - 1 + s)
    (hr : r * 2 ^ (127 - s) = (N / 2 ^ D + u) * 2 ^ D) :
    (r < 2 ^ (s + 1) → ieee p w ((2 ^ (w - 1) - 1 + s) * 2 ^ p + (N / 2 ^ D + u) % 2 ^ p) = r) ∧
    (¬ r < 2 ^ (s + 1) → r = 2 ^ (s + 1) ∧
      ieee p w ((2 ^ (w - 1) - 1 + s) * 2 ^ p + (N / 2 ^ D + u) % 2 ^ p) = ((2 ^ s : ℕ) : ℚ)) := by
  have hlo := h.lo'
  have hhi := h.hi'
  have hs := h.hs; have hsum := h.sum
  simp only [Nat.add_sub_cancel] at hlo
  have hpp : 2 ^ (p + 1) = 2 * 2 ^ p := by rw [Nat.pow_succ]; ring
  have hpos : 0 < 2 ^ p := by positivity
  have e128 : 2 ^ (s + 1) * 2 ^ (127 - s) = 2 ^ (p + 1) * 2 ^ D := by
    rw [← Nat.pow_add, ← Nat.pow_add]; congr 1; omega
  have hiff : r < 2 ^ (s + 1) ↔ N / 2 ^ D + u < 2 ^ (p + 1) := by
    rw [← Nat.mul_lt_mul_right (show 0 < 2 ^ (127 - s) by positivity), hr, e128,
      Nat.mul_lt_mul_right (show 0 < 2 ^ D by positivity)]
  constructor
  · intro hlt
    rw [hiff] at hlt
    have e : (N / 2 ^ D + u) % 2 ^ p = N / 2 ^ D + u - 2 ^ p := by
      rw [Nat.mod_eq_sub_mod (by omega), Nat.mod_eq_of_lt (by omega)]
    rw [e]
    apply ieee_natural _ _ _ _ _ (by omega) hw hw0
    rw [show 2 ^ p + (N / 2 ^ D + u - 2 ^ p) = N / 2 ^ D + u by omega]
    apply Nat.eq_of_mul_eq_mul_right (show 0 < 2 ^ (127 - s) by positivity)
    rw [Nat.mul_right_comm, hr, Nat.mul_assoc, Nat.mul_assoc, ← Nat.pow_add, ← Nat.pow_add]
    congr 2; omega
  · intro hge
    rw [hiff] at hge
    have e : N / 2 ^ D + u = 2 ^ (p + 1) := by omega
    constructor
    · apply Nat.eq_of_mul_eq_mul_right (show 0 < 2 ^ (127 - s) by positivity)
      rw [hr, e, e128]
    · rw [e, hpp, Nat.mul_mod_left]
      apply ieee_natural _ _ _ _ _ (by omega) hw hw0
      rw [Nat.add_zero]; ring

theorem ieee_zero (p w : Nat) : ieee p w 0 = 0 := by
  have : 0 / 2 ^ p % 2 ^ w = 0 := by simp
  simp [ieee]

theorem field_of {p w e F : Nat} (hF : F < 2 ^ p) (he : e < 2 ^ w) : (e * 2 ^ p + F) / 2 ^ p % 2 ^ w = e := by
  rw [Nat.mul_comm, Nat.mul_add_div (by positivity), Nat.div_eq_of_lt hF, Nat.add_zero, Nat.mod_eq_of_lt he]

/-! ## uniqueness of the specified roundings -/

theorem roundDown_unique {P v a b : Nat} (ha : IsRoundDown P v a) (hb : IsRoundDown P v b) : a = b :=
  Nat.le_antisymm (hb.2.2 _ ha.1 ha.2.1) (ha.2.2 _ hb.1 hb.2.1)

theorem roundUp_unique {P v a b : Nat} (ha : IsRoundUp P v a) (hb : IsRoundUp P v b) : a = b :=
  Nat.le_antisymm (ha.2.2 _ hb.1 hb.2.1) (hb.2.2 _ ha.1 ha.2.1)

/-- Two neighbouring candidates with even last digit have another representable number between them. -/
theorem even_gap {P : Nat} (hP : 1 < P) {m k m' k' : Nat} (hm : m % 2 = 0) (hm' : m' % 2 = 0)
    (h1 : 2 ^ (P - 1) ≤ m) (h2 : m < 2 ^ P) (h2' : m' < 2 ^ P)
    (hlt : m * 2 ^ k < m' * 2 ^ k') : ∃ c, Repr P c ∧ m * 2 ^ k < c ∧ c < m' * 2 ^ k' := by
  have hPP : 2 ^ P = 2 * 2 ^ (P - 1) := by rw [← Nat.pow_succ']; congr 1; omega
  have hP2 : 2 ^ (P - 1) % 2 = 0 := by
    have : 2 ^ (P - 1) = 2 ^ (P - 2) * 2 := by rw [← Nat.pow_succ]; congr 1; omega
    rw [this]; exact Nat.mul_mod_left _ _
  refine ⟨(m + 1) * 2 ^ k, ⟨m + 1, k, by omega, rfl⟩, Nat.mul_lt_mul_of_pos_right (by omega) (by positivity), ?_⟩
  rcases Nat.lt_or_ge k' k with hk | hk
  · exfalso
    obtain ⟨j, rfl⟩ := Nat.exists_eq_add_of_lt hk
    have e : m * 2 ^ (k' + j + 1) = m * 2 * 2 ^ j * 2 ^ k' := by rw [Nat.pow_succ, Nat.pow_add]; ring
    rw [e] at hlt
    have h3 := Nat.lt_of_mul_lt_mul_right hlt
    have h4 : 1 ≤ 2 ^ j := Nat.one_le_two_pow
    have h5 : m * 2 * 1 ≤ m * 2 * 2 ^ j := Nat.mul_le_mul_left _ h4
    omega
  · obtain ⟨j, rfl⟩ := Nat.exists_eq_add_of_le hk
    have e : m' * 2 ^ (k + j) = m' * 2 ^ j * 2 ^ k := by rw [Nat.pow_add]; ring
    rw [e] at hlt ⊢
    have h3 := Nat.lt_of_mul_lt_mul_right hlt
    apply Nat.mul_lt_mul_of_pos_right _ (by positivity)
    cases j with
    | zero => simp only [Nat.pow_zero, Nat.mul_one] at *; omega
    | succ j =>
      have e2 : m' * 2 ^ (j + 1) = 2 * (m' * 2 ^ j) := by rw [Nat.pow_succ]; ring
      rw [e2] at h3 ⊢
      omega

theorem nearest_unique {P v a b : Nat} (hP : 1 < P) (ha : IsNearestEven P v a) (hb : IsNearestEven P v b) : a = b := by
  by_contra hne
  have h1 : dist v a = dist v b := Nat.le_antisymm (ha.2.1 _ hb.1) (hb.2.1 _ ha.1)
  obtain ⟨m, k, e, hm, hl, hh⟩ := ha.2.2 b hb.1 (Ne.symm hne) h1.symm
  obtain ⟨m', k', e', hm', hl', hh'⟩ := hb.2.2 a ha.1 hne h1
  rcases Nat.lt_or_gt_of_ne hne with hlt | hlt
  · obtain ⟨c, hc, h3, h4⟩ := even_gap hP (k := k) (k' := k') hm hm' hl hh hh' (by rw [← e, ← e']; exact hlt)
    rw [← e] at h3; rw [← e'] at h4
    have := ha.2.1 c hc
    unfold dist at *; omega
  · obtain ⟨c, hc, h3, h4⟩ := even_gap hP (k := k') (k' := k) hm' hm hl' hh' hh (by rw [← e, ← e']; exact hlt)
    rw [← e] at h4; rw [← e'] at h3
    have := ha.2.1 c hc
    unfold dist at *; omega

/-! ## representable numbers -/

theorem roundDown_repr {P v : Nat} (h : Repr P v) : IsRoundDown P v v := ⟨h, Nat.le_refl _, fun _ _ h => h⟩
theorem roundUp_repr {P v : Nat} (h : Repr P v) : IsRoundUp P v v := ⟨h, Nat.le_refl _, fun _ _ h => h⟩
theorem nearest_repr {P v : Nat} (h : Repr P v) : IsNearestEven P v v :=
  ⟨h, fun r' _ => by unfold dist; omega, fun r' _ hne hd => by unfold dist at hd; omega⟩

theorem Normal.repr_rem {P D v s N Q : Nat} (h : Normal P D v s N) (hv : Repr Q v) (hQ : Q ≤ P) :
    N % 2 ^ (D + (P - Q)) = 0 := by
  obtain ⟨m, k, hm, e⟩ := repr_scale (127 - s) hv
  rw [← h.hN] at e
  have hk : D + (P - Q) ≤ k := by
    by_contra hc
    have h1 : m * 2 ^ k < 2 ^ Q * 2 ^ k := Nat.mul_lt_mul_of_pos_right hm (by positivity)
    rw [← Nat.pow_add] at h1
    have h2 : 2 ^ (Q + k) ≤ 2 ^ 127 := Nat.pow_le_pow_right (by decide) (by have := h.sum; omega)
    have := h.lo; omega
  rw [e, ← Nat.sub_add_cancel hk, Nat.pow_add, ← Nat.mul_assoc]
  exact Nat.mul_mod_left _ _

theorem Normal.rem_repr {P D v s N : Nat} (h : Normal P D v s N) (hr : N % 2 ^ D = 0) : Repr P v := by
  have hdm := Nat.div_add_mod N (2 ^ D)
  rw [hr, Nat.mul_comm] at hdm
  exact h.repr (u := 0) (by omega) (by rw [← h.hN, Nat.add_zero]; omega)

end Tm.U128
