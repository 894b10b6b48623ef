import Verif.U128.Scan
/-! Parallel population count: the three masked steps act on each byte independently. -/
namespace Tm.U128

def mask (c : Nat) : Nat → Nat
  | 0 => 0
  | n + 1 => c + 256 * mask c n

theorem mask_succ (c n : Nat) : mask c (n + 1) = c + 256 * mask c n := rfl

def stepA (n v : Nat) : Nat := v - ((v >>> 1) &&& mask 0x55 n)
def stepB (n v : Nat) : Nat := (v &&& mask 0x33 n) + ((v >>> 2) &&& mask 0x33 n)
def stepC (n v : Nat) : Nat := (v + v >>> 4) &&& mask 0x0F n
def byteA (l : Nat) : Nat := l - ((l >>> 1) &&& 0x55)
def byteB (l : Nat) : Nat := (l &&& 0x33) + ((l >>> 2) &&& 0x33)
def byteC (l : Nat) : Nat := (l + l >>> 4) &&& 0x0F

theorem and_split (l h a b : Nat) (hl : l < 256) (ha : a < 256) :
    (l + 256 * h) &&& (a + 256 * b) = (l &&& a) + 256 * (h &&& b) := by
  have e1 : l + 256 * h = 2 ^ 8 * h + l := by omega
  have e2 : a + 256 * b = 2 ^ 8 * b + a := by omega
  have hla : l &&& a < 2 ^ 8 := Nat.and_lt_two_pow _ ha
  have e3 : (l &&& a) + 256 * (h &&& b) = 2 ^ 8 * (h &&& b) + (l &&& a) := by omega
  rw [e1, e2, e3]
  apply Nat.eq_of_testBit_eq; intro i
  rw [Nat.testBit_and, Nat.testBit_two_pow_mul_add _ hl, Nat.testBit_two_pow_mul_add _ ha,
    Nat.testBit_two_pow_mul_add _ hla]
  split <;> simp [Nat.testBit_and]

theorem byteA_facts : ∀ l : Fin 256, ((l.val >>> 1) &&& 0x55) ≤ l.val ∧
    (((l.val >>> 1) + 128) &&& 0x55) = ((l.val >>> 1) &&& 0x55) ∧ byteA l.val < 256 := by decide +kernel
theorem byteB_facts : ∀ l : Fin 256, ∀ r : Fin 4,
    (((l.val >>> 2) + 64 * r.val) &&& 0x33) = ((l.val >>> 2) &&& 0x33) ∧ byteB l.val < 256 ∧
    byteB (byteA l.val) % 16 ≤ 4 ∧ byteB (byteA l.val) / 16 ≤ 4 ∧ byteB (byteA l.val) < 256 := by decide +kernel
theorem byteC_facts : ∀ l : Fin 256, ∀ r : Fin 16, ((l.val + (l.val >>> 4) + 16 * r.val) % 256 &&& 0x0F) = byteC l.val := by
  decide +kernel
theorem bytes_ok : ∀ l : Fin 256, byteC (byteB (byteA l.val)) = bitCount 8 l.val := by decide +kernel

theorem stepA_succ (n l h : Nat) (hl : l < 256) :
    stepA (n + 1) (l + 256 * h) = byteA l + 256 * stepA n h := by
  have f := byteA_facts ⟨l, hl⟩
  simp only at f
  unfold stepA byteA
  rw [mask_succ]
  have e : (l + 256 * h) >>> 1 = ((l >>> 1) + 128 * (h % 2)) + 256 * (h >>> 1) := by
    simp only [Nat.shiftRight_eq_div_pow]; omega
  have hb : (l >>> 1) + 128 * (h % 2) < 256 := by simp only [Nat.shiftRight_eq_div_pow]; omega
  rw [e, and_split _ _ _ _ hb (by omega)]
  have e2 : ((l >>> 1) + 128 * (h % 2)) &&& 0x55 = (l >>> 1) &&& 0x55 := by
    rcases Nat.mod_two_eq_zero_or_one h with c | c <;> rw [c]
    · rfl
    · exact f.2.1
  rw [e2]
  have h3 : (h >>> 1) &&& mask 0x55 n ≤ h := Nat.le_trans Nat.and_le_left (by simp only [Nat.shiftRight_eq_div_pow]; omega)
  have h4 := f.1
  omega

theorem stepB_succ (n l h : Nat) (hl : l < 256) :
    stepB (n + 1) (l + 256 * h) = byteB l + 256 * stepB n h := by
  have f := byteB_facts ⟨l, hl⟩ ⟨h % 4, by omega⟩
  simp only at f
  unfold stepB byteB
  rw [mask_succ]
  have e : (l + 256 * h) >>> 2 = ((l >>> 2) + 64 * (h % 4)) + 256 * (h >>> 2) := by
    simp only [Nat.shiftRight_eq_div_pow]; omega
  have hb : (l >>> 2) + 64 * (h % 4) < 256 := by simp only [Nat.shiftRight_eq_div_pow]; omega
  rw [e, and_split _ _ _ _ hb (by omega), and_split _ _ _ _ hl (by omega), f.1]
  omega

theorem stepC_succ (n l h : Nat) (hl : l < 256) (h1 : l / 16 ≤ 4) (h2 : h % 16 ≤ 4) :
    stepC (n + 1) (l + 256 * h) = byteC l + 256 * stepC n h := by
  have f := byteC_facts ⟨l, hl⟩ ⟨h % 16, by omega⟩
  simp only at f
  unfold stepC
  rw [mask_succ]
  have e : l + 256 * h + (l + 256 * h) >>> 4 = (l + l >>> 4 + 16 * (h % 16)) % 256 + 256 * (h + h >>> 4) := by
    simp only [Nat.shiftRight_eq_div_pow]; omega
  rw [e, and_split _ _ _ _ (by omega) (by omega), f]

/-- All three steps. -/
def steps (n v : Nat) : Nat := stepC n (stepB n (stepA n v))

theorem step_low (n v : Nat) (hv : v < 256 ^ n) : stepB n (stepA n v) % 16 ≤ 4 := by
  cases n with
  | zero => simp at hv; subst hv; simp [stepA, stepB, mask]
  | succ n =>
    obtain ⟨l, h, hl, rfl⟩ : ∃ l h, l < 256 ∧ v = l + 256 * h := ⟨v % 256, v / 256, by omega, by omega⟩
    have f := byteB_facts ⟨l, hl⟩ 0
    rw [stepA_succ _ _ _ hl, stepB_succ _ _ _ (byteA_facts ⟨l, hl⟩).2.2]
    simp only at f ⊢; omega

theorem steps_succ (n l h : Nat) (hl : l < 256) (hh : h < 256 ^ n) :
    steps (n + 1) (l + 256 * h) = bitCount 8 l + 256 * steps n h := by
  have f := byteB_facts ⟨l, hl⟩ 0
  simp only at f
  unfold steps
  rw [stepA_succ _ _ _ hl, stepB_succ _ _ _ (byteA_facts ⟨l, hl⟩).2.2,
    stepC_succ _ _ _ f.2.2.2.2 f.2.2.2.1 (step_low n h hh), bytes_ok ⟨l, hl⟩]

theorem bitCount_split (w a l h : Nat) (hl : l < 2 ^ a) :
    bitCount (a + w) (l + 2 ^ a * h) = bitCount a l + bitCount w h := by
  induction a generalizing l with
  | zero => have : l = 0 := by omega
            subst this; simp [bitCount]
  | succ a ih =>
    have e : a + 1 + w = (a + w) + 1 := by omega
    have e2 : (l + 2 ^ (a + 1) * h) = l + 2 * (2 ^ a * h) := by rw [Nat.pow_succ]; ring
    rw [e, bitCount, bitCount, e2]
    have e3 : (l + 2 * (2 ^ a * h)) / 2 = l / 2 + 2 ^ a * h := by omega
    have e4 : (l + 2 * (2 ^ a * h)) % 2 = l % 2 := by omega
    rw [e3, e4, ih (l / 2) (by rw [Nat.pow_succ] at hl; omega)]
    omega

theorem bitCount_le (w n : Nat) : bitCount w n ≤ w := by
  induction w generalizing n with
  | zero => simp [bitCount]
  | succ w ih => have := ih (n / 2); simp only [bitCount]; omega

theorem top24 (A S K : Nat) (h1 : A < 2 ^ 24) (h2 : S < 256) : (A + 2 ^ 24 * S + 2 ^ 32 * K) % 2 ^ 32 / 2 ^ 24 = S := by
  omega
theorem top56 (A S K : Nat) (h1 : A < 2 ^ 56) (h2 : S < 256) : (A + 2 ^ 56 * S + 2 ^ 64 * K) % 2 ^ 64 / 2 ^ 56 = S := by
  omega

theorem popcountU32_spec (v : BitVec 32) : popcountU32 v = bitCount 32 v.toNat := by
  have hlt := v.isLt
  generalize hx : v.toNat = x at hlt
  have key : popcountU32 v = (steps 4 x * 0x01010101) % 2 ^ 32 / 2 ^ 24 := by
    have hA : (v - ((v >>> 1) &&& 0x55555555)).toNat = stepA 4 x := by
      have hm : BitVec.toNat (0x55555555 : BitVec 32) = mask 0x55 4 := rfl
      have hle : (x >>> 1) &&& mask 0x55 4 ≤ x :=
        Nat.le_trans Nat.and_le_left (by simp only [Nat.shiftRight_eq_div_pow]; omega)
      rw [BitVec.toNat_sub, BitVec.toNat_and, BitVec.toNat_ushiftRight, hm, hx, stepA]
      omega
    have hAx : stepA 4 x ≤ x := by unfold stepA; omega
    generalize hw : v - ((v >>> 1) &&& 0x55555555) = w at hA
    have hB : ((w &&& (0x33333333 : BitVec 32)) + ((w >>> 2) &&& (0x33333333 : BitVec 32))).toNat = stepB 4 (stepA 4 x) := by
      have hm : BitVec.toNat (0x33333333 : BitVec 32) = mask 0x33 4 := rfl
      rw [BitVec.toNat_add, BitVec.toNat_and, BitVec.toNat_and, BitVec.toNat_ushiftRight, hm, hA, stepB]
      apply Nat.mod_eq_of_lt
      have b1 : stepA 4 x &&& mask 0x33 4 ≤ mask 0x33 4 := Nat.and_le_right
      have b2 : stepA 4 x >>> 2 &&& mask 0x33 4 ≤ mask 0x33 4 := Nat.and_le_right
      have : mask 0x33 4 = 0x33333333 := rfl
      omega
    generalize hu : (w &&& (0x33333333 : BitVec 32)) + ((w >>> 2) &&& (0x33333333 : BitVec 32)) = u at hB
    have hBle : stepB 4 (stepA 4 x) ≤ 2 * 0x33333333 := by
      have b1 : stepA 4 x &&& mask 0x33 4 ≤ mask 0x33 4 := Nat.and_le_right
      have b2 : stepA 4 x >>> 2 &&& mask 0x33 4 ≤ mask 0x33 4 := Nat.and_le_right
      have : mask 0x33 4 = 0x33333333 := rfl
      unfold stepB; omega
    have hC : ((u + (u >>> 4)) &&& 0x0F0F0F0F).toNat = steps 4 x := by
      have hm : BitVec.toNat (0x0F0F0F0F : BitVec 32) = mask 0x0F 4 := rfl
      rw [BitVec.toNat_and, BitVec.toNat_add, BitVec.toNat_ushiftRight, hm, hB, steps, stepC]
      congr 1
      apply Nat.mod_eq_of_lt
      simp only [Nat.shiftRight_eq_div_pow]
      omega
    unfold popcountU32
    simp only [hw, hu]
    rw [BitVec.toNat_ushiftRight, BitVec.toNat_mul, hC, Nat.shiftRight_eq_div_pow]
    rfl
  rw [key]
  obtain ⟨l0, h0, hl0, rfl⟩ : ∃ l h, l < 256 ∧ x = l + 256 * h := ⟨x % 256, x / 256, by omega, by omega⟩
  obtain ⟨l1, h1, hl1, rfl⟩ : ∃ l h, l < 256 ∧ h0 = l + 256 * h := ⟨h0 % 256, h0 / 256, by omega, by omega⟩
  obtain ⟨l2, l3, hl2, rfl⟩ : ∃ l h, l < 256 ∧ h1 = l + 256 * h := ⟨h1 % 256, h1 / 256, by omega, by omega⟩
  have hl3 : l3 < 256 := by omega
  rw [steps_succ 3 l0 _ hl0 (by omega), steps_succ 2 l1 _ hl1 (by omega), steps_succ 1 l2 _ hl2 (by omega)]
  have s3 := steps_succ 0 l3 0 hl3 (by omega)
  have z : steps 0 0 = 0 := by simp [steps, stepA, stepB, stepC, mask]
  rw [z] at s3
  simp only [Nat.mul_zero, Nat.add_zero] at s3
  rw [s3]
  have c1 := bitCount_split 24 8 l0 (l1 + 256 * (l2 + 256 * l3)) (by omega)
  have c2 := bitCount_split 16 8 l1 (l2 + 256 * l3) (by omega)
  have c3 := bitCount_split 8 8 l2 l3 (by omega)
  simp only [Nat.reduceAdd, Nat.reducePow] at c1 c2 c3
  rw [c1, c2, c3]
  have b0 := bitCount_le 8 l0; have b1 := bitCount_le 8 l1; have b2 := bitCount_le 8 l2; have b3 := bitCount_le 8 l3
  generalize bitCount 8 l0 = p0 at *
  generalize bitCount 8 l1 = p1 at *
  generalize bitCount 8 l2 = p2 at *
  generalize bitCount 8 l3 = p3 at *
  clear c1 c2 c3 s3 z key hx hlt
  have e : (p0 + 256 * (p1 + 256 * (p2 + 256 * p3))) * 0x01010101 =
      (p0 + 256 * (p0 + p1) + 65536 * (p0 + p1 + p2)) + 2 ^ 24 * (p0 + (p1 + (p2 + p3))) +
      2 ^ 32 * ((p1 + p2 + p3) + 256 * (p2 + p3) + 65536 * p3) := by ring
  have q1 : p0 + 256 * (p0 + p1) + 65536 * (p0 + p1 + p2) < 2 ^ 24 := by omega
  have q2 : p0 + (p1 + (p2 + p3)) < 256 := by omega
  rw [e]
  exact top24 _ _ _ q1 q2

theorem popcountU64_spec (v : BitVec 64) : popcountU64 v = bitCount 64 v.toNat := by
  have hlt := v.isLt
  generalize hx : v.toNat = x at hlt
  have key : popcountU64 v = (steps 8 x * 0x0101010101010101) % 2 ^ 64 / 2 ^ 56 := by
    have hA : (v - ((v >>> 1) &&& 0x5555555555555555)).toNat = stepA 8 x := by
      have hm : BitVec.toNat (0x5555555555555555 : BitVec 64) = mask 0x55 8 := rfl
      have hle : (x >>> 1) &&& mask 0x55 8 ≤ x :=
        Nat.le_trans Nat.and_le_left (by simp only [Nat.shiftRight_eq_div_pow]; omega)
      rw [BitVec.toNat_sub, BitVec.toNat_and, BitVec.toNat_ushiftRight, hm, hx, stepA]
      omega
    have hAx : stepA 8 x ≤ x := by unfold stepA; omega
    generalize hw : v - ((v >>> 1) &&& 0x5555555555555555) = w at hA
    have hB : ((w &&& (0x3333333333333333 : BitVec 64)) + ((w >>> 2) &&& (0x3333333333333333 : BitVec 64))).toNat = stepB 8 (stepA 8 x) := by
      have hm : BitVec.toNat (0x3333333333333333 : BitVec 64) = mask 0x33 8 := rfl
      rw [BitVec.toNat_add, BitVec.toNat_and, BitVec.toNat_and, BitVec.toNat_ushiftRight, hm, hA, stepB]
      apply Nat.mod_eq_of_lt
      have b1 : stepA 8 x &&& mask 0x33 8 ≤ mask 0x33 8 := Nat.and_le_right
      have b2 : stepA 8 x >>> 2 &&& mask 0x33 8 ≤ mask 0x33 8 := Nat.and_le_right
      have : mask 0x33 8 = 0x3333333333333333 := rfl
      omega
    generalize hu : (w &&& (0x3333333333333333 : BitVec 64)) + ((w >>> 2) &&& (0x3333333333333333 : BitVec 64)) = u at hB
    have hBle : stepB 8 (stepA 8 x) ≤ 2 * 0x3333333333333333 := by
      have b1 : stepA 8 x &&& mask 0x33 8 ≤ mask 0x33 8 := Nat.and_le_right
      have b2 : stepA 8 x >>> 2 &&& mask 0x33 8 ≤ mask 0x33 8 := Nat.and_le_right
      have : mask 0x33 8 = 0x3333333333333333 := rfl
      unfold stepB; omega
    have hC : ((u + (u >>> 4)) &&& 0x0F0F0F0F0F0F0F0F).toNat = steps 8 x := by
      have hm : BitVec.toNat (0x0F0F0F0F0F0F0F0F : BitVec 64) = mask 0x0F 8 := rfl
      rw [BitVec.toNat_and, BitVec.toNat_add, BitVec.toNat_ushiftRight, hm, hB, steps, stepC]
      congr 1
      apply Nat.mod_eq_of_lt
      simp only [Nat.shiftRight_eq_div_pow]
      omega
    unfold popcountU64
    simp only [hw, hu]
    rw [BitVec.toNat_ushiftRight, BitVec.toNat_mul, hC, Nat.shiftRight_eq_div_pow]
    rfl
  rw [key]
  obtain ⟨l0, h0, hl0, rfl⟩ : ∃ l h, l < 256 ∧ x = l + 256 * h := ⟨x % 256, x / 256, by omega, by omega⟩
  obtain ⟨l1, h1, hl1, rfl⟩ : ∃ l h, l < 256 ∧ h0 = l + 256 * h := ⟨h0 % 256, h0 / 256, by omega, by omega⟩
  obtain ⟨l2, h2, hl2, rfl⟩ : ∃ l h, l < 256 ∧ h1 = l + 256 * h := ⟨h1 % 256, h1 / 256, by omega, by omega⟩
  obtain ⟨l3, h3, hl3, rfl⟩ : ∃ l h, l < 256 ∧ h2 = l + 256 * h := ⟨h2 % 256, h2 / 256, by omega, by omega⟩
  obtain ⟨l4, h4, hl4, rfl⟩ : ∃ l h, l < 256 ∧ h3 = l + 256 * h := ⟨h3 % 256, h3 / 256, by omega, by omega⟩
  obtain ⟨l5, h5, hl5, rfl⟩ : ∃ l h, l < 256 ∧ h4 = l + 256 * h := ⟨h4 % 256, h4 / 256, by omega, by omega⟩
  obtain ⟨l6, l7, hl6, rfl⟩ : ∃ l h, l < 256 ∧ h5 = l + 256 * h := ⟨h5 % 256, h5 / 256, by omega, by omega⟩
  have hl7 : l7 < 256 := by omega
  rw [steps_succ 7 l0 _ hl0 (by omega), steps_succ 6 l1 _ hl1 (by omega), steps_succ 5 l2 _ hl2 (by omega),
    steps_succ 4 l3 _ hl3 (by omega), steps_succ 3 l4 _ hl4 (by omega), steps_succ 2 l5 _ hl5 (by omega),
    steps_succ 1 l6 _ hl6 (by omega)]
  have s3 := steps_succ 0 l7 0 hl7 (by omega)
  have z : steps 0 0 = 0 := by simp [steps, stepA, stepB, stepC, mask]
  rw [z] at s3
  simp only [Nat.mul_zero, Nat.add_zero] at s3
  rw [s3]
  have c1 := bitCount_split 56 8 l0 (l1 + 256 * (l2 + 256 * (l3 + 256 * (l4 + 256 * (l5 + 256 * (l6 + 256 * l7)))))) (by omega)
  have c2 := bitCount_split 48 8 l1 (l2 + 256 * (l3 + 256 * (l4 + 256 * (l5 + 256 * (l6 + 256 * l7))))) (by omega)
  have c3 := bitCount_split 40 8 l2 (l3 + 256 * (l4 + 256 * (l5 + 256 * (l6 + 256 * l7)))) (by omega)
  have c4 := bitCount_split 32 8 l3 (l4 + 256 * (l5 + 256 * (l6 + 256 * l7))) (by omega)
  have c5 := bitCount_split 24 8 l4 (l5 + 256 * (l6 + 256 * l7)) (by omega)
  have c6 := bitCount_split 16 8 l5 (l6 + 256 * l7) (by omega)
  have c7 := bitCount_split 8 8 l6 l7 (by omega)
  simp only [Nat.reduceAdd, Nat.reducePow] at c1 c2 c3 c4 c5 c6 c7
  rw [c1, c2, c3, c4, c5, c6, c7]
  have b0 := bitCount_le 8 l0; have b1 := bitCount_le 8 l1; have b2 := bitCount_le 8 l2; have b3 := bitCount_le 8 l3
  have b4 := bitCount_le 8 l4; have b5 := bitCount_le 8 l5; have b6 := bitCount_le 8 l6; have b7 := bitCount_le 8 l7
  generalize bitCount 8 l0 = p0 at *
  generalize bitCount 8 l1 = p1 at *
  generalize bitCount 8 l2 = p2 at *
  generalize bitCount 8 l3 = p3 at *
  generalize bitCount 8 l4 = p4 at *
  generalize bitCount 8 l5 = p5 at *
  generalize bitCount 8 l6 = p6 at *
  generalize bitCount 8 l7 = p7 at *
  clear c1 c2 c3 c4 c5 c6 c7 s3 z key hx
  clear hlt hl0 hl1 hl2 hl3 hl4 hl5 hl6 hl7
  have e : (p0 + 256 * (p1 + 256 * (p2 + 256 * (p3 + 256 * (p4 + 256 * (p5 + 256 * (p6 + 256 * p7))))))) * 0x0101010101010101 =
      (p0 + 256 * (p0 + p1) + 256 ^ 2 * (p0 + p1 + p2) + 256 ^ 3 * (p0 + p1 + p2 + p3) + 256 ^ 4 * (p0 + p1 + p2 + p3 + p4)
        + 256 ^ 5 * (p0 + p1 + p2 + p3 + p4 + p5) + 256 ^ 6 * (p0 + p1 + p2 + p3 + p4 + p5 + p6))
      + 2 ^ 56 * (p0 + (p1 + (p2 + (p3 + (p4 + (p5 + (p6 + p7))))))) +
      2 ^ 64 * ((p1 + p2 + p3 + p4 + p5 + p6 + p7) + 256 * (p2 + p3 + p4 + p5 + p6 + p7) + 256 ^ 2 * (p3 + p4 + p5 + p6 + p7)
        + 256 ^ 3 * (p4 + p5 + p6 + p7) + 256 ^ 4 * (p5 + p6 + p7) + 256 ^ 5 * (p6 + p7) + 256 ^ 6 * p7) := by ring
  have q1 : p0 + 256 * (p0 + p1) + 256 ^ 2 * (p0 + p1 + p2) + 256 ^ 3 * (p0 + p1 + p2 + p3) + 256 ^ 4 * (p0 + p1 + p2 + p3 + p4)
        + 256 ^ 5 * (p0 + p1 + p2 + p3 + p4 + p5) + 256 ^ 6 * (p0 + p1 + p2 + p3 + p4 + p5 + p6) < 2 ^ 56 := by omega
  have q2 : p0 + (p1 + (p2 + (p3 + (p4 + (p5 + (p6 + p7)))))) < 256 := by omega
  rw [e]
  exact top56 _ _ _ q1 q2

theorem popcount_spec (v : U128) : popcount v = bitCount 128 v.toNat := by
  have := bitCount_split 64 64 v.low.toNat v.high.toNat v.low.isLt
  rw [popcount, popcountU64_spec, popcountU64_spec, U128.toNat]
  exact this.symm

end Tm.U128
