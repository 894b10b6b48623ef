import Verif.Uni.Model
import Verif.Uni.Spec
import Verif.Str.CodecLemmas

/-! Facts about one code point: masks and shifts as arithmetic, encoding, extraction, validation. -/

namespace Tm.Uni

open Tm.Num Tm.Str

theorem valid_iff (c : Nat) : isValidCodepoint c = true ↔ Scalar c := by
  simp only [isValidCodepoint, Scalar, Bool.and_eq_true, Bool.or_eq_true, decide_eq_true_eq]; omega

theorem valid_true {c : Nat} (h : Scalar c) : isValidCodepoint c = true := (valid_iff c).2 h

theorem scalar_le {c : Nat} (h : Scalar c) : c ≤ 0x10FFFF := by unfold Scalar at h; omega

/-! ### Masks -/

theorem shr3 (n : Nat) : n >>> 3 = n / 8 := by rw [Nat.shiftRight_eq_div_pow]
theorem shr4 (n : Nat) : n >>> 4 = n / 16 := by rw [Nat.shiftRight_eq_div_pow]
theorem shr5 (n : Nat) : n >>> 5 = n / 32 := by rw [Nat.shiftRight_eq_div_pow]
theorem shr6 (n : Nat) : n >>> 6 = n / 64 := by rw [Nat.shiftRight_eq_div_pow]
theorem shr10 (n : Nat) : n >>> 10 = n / 1024 := by rw [Nat.shiftRight_eq_div_pow]
theorem shr12 (n : Nat) : n >>> 12 = n / 4096 := by rw [Nat.shiftRight_eq_div_pow]
theorem shr18 (n : Nat) : n >>> 18 = n / 262144 := by rw [Nat.shiftRight_eq_div_pow]
theorem and7 (n : Nat) : n &&& 0x7 = n % 8 := Nat.and_two_pow_sub_one_eq_mod n 3
theorem andF (n : Nat) : n &&& 0xF = n % 16 := Nat.and_two_pow_sub_one_eq_mod n 4
theorem and1F (n : Nat) : n &&& 0x1F = n % 32 := Nat.and_two_pow_sub_one_eq_mod n 5
theorem and3F (n : Nat) : n &&& 0x3F = n % 64 := Nat.and_two_pow_sub_one_eq_mod n 6
theorem and3FF (n : Nat) : n &&& 0x3FF = n % 1024 := Nat.and_two_pow_sub_one_eq_mod n 10

theorem maskC0 : ∀ n : Nat, n < 256 → (n &&& 0xC0 = 0x80 ↔ 0x80 ≤ n ∧ n < 0xC0) := by decide +kernel
theorem maskE0 : ∀ n : Nat, n < 256 → (n &&& 0xE0 = 0xC0 ↔ 0xC0 ≤ n ∧ n < 0xE0) := by decide +kernel
theorem maskE0' : ∀ n : Nat, n < 256 → (n &&& 0xE0 = 0x80 ↔ 0x80 ≤ n ∧ n < 0xA0) := by decide +kernel
theorem maskFE : ∀ n : Nat, n < 256 → (n &&& 0xFE = 0xC0 ↔ 0xC0 ≤ n ∧ n < 0xC2) := by decide +kernel
theorem maskF0 : ∀ n : Nat, n < 256 → (n &&& 0xF0 = 0xE0 ↔ 0xE0 ≤ n ∧ n < 0xF0) := by decide +kernel
theorem maskF8 : ∀ n : Nat, n < 256 → (n &&& 0xF8 = 0xF0 ↔ 0xF0 ≤ n ∧ n < 0xF8) := by decide +kernel

/-- `base | v` when the bits do not overlap. -/
theorem octet_eq (k b v : Nat) (hv : v < 2 ^ k) (hb : v < 256) : octet (b * 2 ^ k) v = BitVec.ofNat 8 (b * 2 ^ k + v) := by
  rw [octet, Nat.mod_eq_of_lt hb, ← shl_or k hv, Nat.shiftLeft_eq]

theorem octetC0 {v : Nat} (hv : v < 32) : octet 0xC0 v = BitVec.ofNat 8 (0xC0 + v) := octet_eq 5 6 v hv (by omega)
theorem octetE0 {v : Nat} (hv : v < 16) : octet 0xE0 v = BitVec.ofNat 8 (0xE0 + v) := octet_eq 4 14 v hv (by omega)
theorem octetF0 {v : Nat} (hv : v < 8) : octet 0xF0 v = BitVec.ofNat 8 (0xF0 + v) := octet_eq 3 30 v hv (by omega)
theorem octet80 {v : Nat} (hv : v < 64) : octet 0x80 v = BitVec.ofNat 8 (0x80 + v) := octet_eq 6 2 v hv (by omega)
theorem octet00 {v : Nat} (hv : v < 256) : octet 0 v = BitVec.ofNat 8 v := by rw [octet, Nat.mod_eq_of_lt hv, Nat.zero_or]

theorem b8 {n : Nat} (h : n < 256) : (BitVec.ofNat 8 n).toNat = n := by rw [BitVec.toNat_ofNat, Nat.mod_eq_of_lt h]
theorem b16 {n : Nat} (h : n < 65536) : (BitVec.ofNat 16 n).toNat = n := by rw [BitVec.toNat_ofNat, Nat.mod_eq_of_lt h]
theorem lt8 (b : Byte) : b.toNat < 256 := b.isLt
theorem lt16 (b : BitVec 16) : b.toNat < 65536 := b.isLt

theorem eq_b8 {b : Byte} {n : Nat} (h : b.toNat = n) : b = BitVec.ofNat 8 n := by subst h; simp
theorem eq_b16 {b : BitVec 16} {n : Nat} (h : b.toNat = n) : b = BitVec.ofNat 16 n := by subst h; simp

/-! ### The four forms -/

theorem utf8_1 {c : Nat} (h : c < 0x80) : utf8 c = [BitVec.ofNat 8 c] := by rw [utf8, if_pos h]
theorem utf8_2 {c : Nat} (h1 : 0x80 ≤ c) (h : c < 0x800) : utf8 c = [BitVec.ofNat 8 (0xC0 + c / 64), BitVec.ofNat 8 (0x80 + c % 64)] := by
  rw [utf8, if_neg (by omega), if_pos h]
theorem utf8_3 {c : Nat} (h1 : 0x800 ≤ c) (h : c < 0x10000) :
    utf8 c = [BitVec.ofNat 8 (0xE0 + c / 4096), BitVec.ofNat 8 (0x80 + c / 64 % 64), BitVec.ofNat 8 (0x80 + c % 64)] := by
  rw [utf8, if_neg (by omega), if_neg (by omega), if_pos h]
theorem utf8_4 {c : Nat} (h1 : 0x10000 ≤ c) :
    utf8 c = [BitVec.ofNat 8 (0xF0 + c / 262144), BitVec.ofNat 8 (0x80 + c / 4096 % 64), BitVec.ofNat 8 (0x80 + c / 64 % 64),
      BitVec.ofNat 8 (0x80 + c % 64)] := by
  rw [utf8, if_neg (by omega), if_neg (by omega), if_neg (by omega)]

theorem utf16_1 {c : Nat} (h : c < 0x10000) : utf16 c = [BitVec.ofNat 16 c] := by rw [utf16, if_pos h]
theorem utf16_2 {c : Nat} (h : 0x10000 ≤ c) :
    utf16 c = [BitVec.ofNat 16 (0xD800 + (c - 0x10000) / 1024), BitVec.ofNat 16 (0xDC00 + (c - 0x10000) % 1024)] := by
  rw [utf16, if_neg (by omega)]

theorem utf8_pos (c : Nat) : 0 < (utf8 c).length := by unfold utf8; split <;> [skip; split <;> [skip; split]] <;> simp
theorem utf8_le4 (c : Nat) : (utf8 c).length ≤ 4 := by unfold utf8; split <;> [skip; split <;> [skip; split]] <;> simp
theorem utf16_pos (c : Nat) : 0 < (utf16 c).length := by unfold utf16; split <;> simp

/-! ### Encoding -/

theorem snoc1 {α : Type} (buf : List α) (p : Nat) (a b : α) (h : p + 2 ≤ buf.length) :
    wr (splice buf p [a]) (p + 1) b = .ok (splice buf p [a, b]) := wr_splice_snoc buf p [a] b (by simpa using h)
theorem snoc2 {α : Type} (buf : List α) (p : Nat) (a b c : α) (h : p + 3 ≤ buf.length) :
    wr (splice buf p [a, b]) (p + 2) c = .ok (splice buf p [a, b, c]) := wr_splice_snoc buf p [a, b] c (by simpa using h)
theorem snoc3 {α : Type} (buf : List α) (p : Nat) (a b c d : α) (h : p + 4 ≤ buf.length) :
    wr (splice buf p [a, b, c]) (p + 3) d = .ok (splice buf p [a, b, c, d]) := wr_splice_snoc buf p [a, b, c] d (by simpa using h)

theorem bind_ok {α β : Type} {x : C α} {a : α} {f : α → C β} (h : x = .ok a) : (x >>= f) = f a := by rw [h]; rfl

theorem utf8Encode_spec (c : Nat) (hc : Scalar c) (buf : List Byte) (p len : Nat) (hp : p + len ≤ buf.length) :
    utf8Encode c buf p len = .ok ((utf8 c).length, if (utf8 c).length ≤ len then splice buf p (utf8 c) else buf) := by
  have hmax := scalar_le hc
  rw [utf8Encode, valid_true hc, assert, if_pos rfl, ok_bind]
  by_cases h1 : c < 0x80
  · rw [if_pos h1, utf8_1 h1]
    by_cases hl : len < 1
    · rw [if_pos hl, if_neg (by simp; omega)]; rfl
    · rw [if_neg hl, if_pos (by simp; omega), wr_one _ _ _ (by omega), ok_bind, octet00 (by omega)]; rfl
  · rw [if_neg h1]
    by_cases h2 : c < 0x800
    · rw [if_pos h2, utf8_2 (by omega) h2]
      by_cases hl : len < 2
      · rw [if_pos hl, if_neg (by simp; omega)]; rfl
      · rw [if_neg hl, if_pos (by simp; omega), and3F, shr6, octetC0 (by omega), octet80 (by omega)]
        rw [wr_one _ _ _ (by omega), ok_bind, snoc1 _ _ _ _ (by omega), ok_bind]; rfl
    · rw [if_neg h2]
      by_cases h3 : c < 0x10000
      · rw [if_pos h3, utf8_3 (by omega) h3]
        by_cases hl : len < 3
        · rw [if_pos hl, if_neg (by simp; omega)]; rfl
        · rw [if_neg hl, if_pos (by simp; omega), and3F, and3F, shr6, shr12, show c / 64 % 256 % 64 = c / 64 % 64 by omega,
            octetE0 (by omega), octet80 (by omega), octet80 (by omega)]
          rw [wr_one _ _ _ (by omega), ok_bind, snoc1 _ _ _ _ (by omega), ok_bind, snoc2 _ _ _ _ _ (by omega), ok_bind]; rfl
      · rw [if_neg h3, utf8_4 (by omega)]
        by_cases hl : len < 4
        · rw [if_pos hl, if_neg (by simp; omega)]; rfl
        · rw [if_neg hl, if_pos (by simp; omega), and3F, and3F, and3F, and7, shr6, shr12, shr18,
            show c / 64 % 256 % 64 = c / 64 % 64 by omega, show c / 4096 % 256 % 64 = c / 4096 % 64 by omega,
            show c / 262144 % 256 % 8 = c / 262144 by omega, octetF0 (by omega), octet80 (by omega), octet80 (by omega), octet80 (by omega)]
          rw [wr_one _ _ _ (by omega), ok_bind, snoc1 _ _ _ _ (by omega), ok_bind, snoc2 _ _ _ _ _ (by omega), ok_bind, snoc3 _ _ _ _ _ _ (by omega), ok_bind]; rfl

theorem utf16Encode_spec (c : Nat) (hc : Scalar c) (buf : List Unit16) (p len : Nat) (hp : p + len ≤ buf.length) :
    utf16Encode c buf p len = .ok ((utf16 c).length, if (utf16 c).length ≤ len then splice buf p (utf16 c) else buf) := by
  have hmax := scalar_le hc
  rw [utf16Encode, valid_true hc, assert, if_pos rfl, ok_bind]
  by_cases h1 : c ≤ 0xFFFF
  · rw [if_pos h1, utf16_1 (by omega)]
    by_cases hl : len < 1
    · rw [if_pos hl, if_neg (by simp; omega)]; rfl
    · rw [if_neg hl, if_pos (by simp; omega), wr_one _ _ _ (by omega), ok_bind]; rfl
  · rw [if_neg h1, utf16_2 (by omega)]
    by_cases hl : len < 2
    · rw [if_pos hl, if_neg (by simp; omega)]; rfl
    · rw [if_neg hl, if_pos (by simp; omega)]
      dsimp only
      rw [and3FF, shr10, Nat.mod_eq_of_lt (b := 2 ^ 16) (by omega),
        Nat.mod_eq_of_lt (b := 2 ^ 16) (by omega)]
      rw [wr_one _ _ _ (by omega), ok_bind, snoc1 _ _ _ _ (by omega), ok_bind]; rfl

/-! ### Extraction -/

theorem or2 (a b : Nat) : ((a &&& 0x1F) <<< 6) ||| (b &&& 0x3F) = a % 32 * 64 + b % 64 := by
  rw [and1F, and3F, shl_or 6 (by omega)]; rfl
theorem or3 (a b d : Nat) : ((a &&& 0xF) <<< 12) ||| ((b &&& 0x3F) <<< 6) ||| (d &&& 0x3F) = a % 16 * 4096 + b % 64 * 64 + d % 64 := by
  rw [andF, and3F, and3F, Nat.or_assoc, shl_or 6 (by omega), shl_or 12 (by omega)]; omega
theorem or4 (a b d e : Nat) :
    ((a &&& 0x7) <<< 18) ||| ((b &&& 0x3F) <<< 12) ||| ((d &&& 0x3F) <<< 6) ||| (e &&& 0x3F)
      = a % 8 * 262144 + b % 64 * 4096 + d % 64 * 64 + e % 64 := by
  rw [and7, and3F, and3F, and3F, Nat.or_assoc, Nat.or_assoc, shl_or 6 (by omega), shl_or 12 (by omega), shl_or 18 (by omega)]; omega

theorem utf8Raw_nil : utf8Raw [] = .ok (invalidCodepoint, 0) := rfl
theorem utf8Raw_1 (a : Byte) (t : List Byte) (h : a.toNat < 0x80) : utf8Raw (a :: t) = .ok (a.toNat, 1) := by
  rw [utf8Raw, if_pos (by simp)]; simp only [rd, List.getElem?_cons_zero, ok_bind]; rw [if_pos h]
theorem utf8Raw_2 (a b : Byte) (t : List Byte) (h : 0xC0 ≤ a.toNat ∧ a.toNat < 0xE0) :
    utf8Raw (a :: b :: t) = .ok (a.toNat % 32 * 64 + b.toNat % 64, 2) := by
  rw [utf8Raw, if_pos (by simp)]
  simp only [rd, List.getElem?_cons_zero, List.getElem?_cons_succ, ok_bind, or2, shr5]
  rw [if_neg (by omega), if_pos (by omega), if_pos (by simp)]
theorem utf8Raw_3 (a b d : Byte) (t : List Byte) (h : 0xE0 ≤ a.toNat ∧ a.toNat < 0xF0) :
    utf8Raw (a :: b :: d :: t) = .ok (a.toNat % 16 * 4096 + b.toNat % 64 * 64 + d.toNat % 64, 3) := by
  rw [utf8Raw, if_pos (by simp)]
  simp only [rd, List.getElem?_cons_zero, List.getElem?_cons_succ, ok_bind, or3, shr5, shr4]
  rw [if_neg (by omega), if_neg (by omega), if_pos (by omega), if_pos (by simp)]
theorem utf8Raw_4 (a b d e : Byte) (t : List Byte) (h : 0xF0 ≤ a.toNat ∧ a.toNat < 0xF8) :
    utf8Raw (a :: b :: d :: e :: t) = .ok (a.toNat % 8 * 262144 + b.toNat % 64 * 4096 + d.toNat % 64 * 64 + e.toNat % 64, 4) := by
  rw [utf8Raw, if_pos (by simp)]
  simp only [rd, List.getElem?_cons_zero, List.getElem?_cons_succ, ok_bind, or4, shr5, shr4, shr3]
  rw [if_neg (by omega), if_neg (by omega), if_neg (by omega), if_pos (by omega), if_pos (by simp)]

/-- In all other cases nothing is extracted. -/
theorem utf8Raw_cases (s : List Byte) :
    utf8Raw s = .ok (invalidCodepoint, 0) ∨
    (∃ a t, s = a :: t ∧ a.toNat < 0x80) ∨
    (∃ a b t, s = a :: b :: t ∧ 0xC0 ≤ a.toNat ∧ a.toNat < 0xE0) ∨
    (∃ a b d t, s = a :: b :: d :: t ∧ 0xE0 ≤ a.toNat ∧ a.toNat < 0xF0) ∨
    (∃ a b d e t, s = a :: b :: d :: e :: t ∧ 0xF0 ≤ a.toNat ∧ a.toNat < 0xF8) := by
  match s with
  | [] => exact Or.inl rfl
  | a :: s =>
    by_cases h1 : a.toNat < 0x80
    · exact Or.inr (Or.inl ⟨a, s, rfl, h1⟩)
    by_cases h2 : 0xC0 ≤ a.toNat ∧ a.toNat < 0xE0
    · match s with
      | [] =>
        left; rw [utf8Raw, if_pos (by simp)]; simp only [rd, List.getElem?_cons_zero, ok_bind, shr5]
        rw [if_neg h1, if_pos (by omega), if_neg (by simp)]
      | b :: s => exact Or.inr (Or.inr (Or.inl ⟨a, b, s, rfl, h2⟩))
    by_cases h3 : 0xE0 ≤ a.toNat ∧ a.toNat < 0xF0
    · match s with
      | [] =>
        left; rw [utf8Raw, if_pos (by simp)]; simp only [rd, List.getElem?_cons_zero, ok_bind, shr5, shr4]
        rw [if_neg h1, if_neg (by omega), if_pos (by omega), if_neg (by simp)]
      | [b] =>
        left; rw [utf8Raw, if_pos (by simp)]; simp only [rd, List.getElem?_cons_zero, ok_bind, shr5, shr4]
        rw [if_neg h1, if_neg (by omega), if_pos (by omega), if_neg (by simp)]
      | b :: d :: s => exact Or.inr (Or.inr (Or.inr (Or.inl ⟨a, b, d, s, rfl, h3⟩)))
    by_cases h4 : 0xF0 ≤ a.toNat ∧ a.toNat < 0xF8
    · match s with
      | [] =>
        left; rw [utf8Raw, if_pos (by simp)]; simp only [rd, List.getElem?_cons_zero, ok_bind, shr5, shr4, shr3]
        rw [if_neg h1, if_neg (by omega), if_neg (by omega), if_pos (by omega), if_neg (by simp)]
      | [b] =>
        left; rw [utf8Raw, if_pos (by simp)]; simp only [rd, List.getElem?_cons_zero, ok_bind, shr5, shr4, shr3]
        rw [if_neg h1, if_neg (by omega), if_neg (by omega), if_pos (by omega), if_neg (by simp)]
      | [b, d] =>
        left; rw [utf8Raw, if_pos (by simp)]; simp only [rd, List.getElem?_cons_zero, ok_bind, shr5, shr4, shr3]
        rw [if_neg h1, if_neg (by omega), if_neg (by omega), if_pos (by omega), if_neg (by simp)]
      | b :: d :: e :: s => exact Or.inr (Or.inr (Or.inr (Or.inr ⟨a, b, d, e, s, rfl, h4⟩)))
    · left; rw [utf8Raw, if_pos (by simp)]; simp only [rd, List.getElem?_cons_zero, ok_bind, shr5, shr4, shr3]
      rw [if_neg h1, if_neg (by omega), if_neg (by omega), if_neg (by omega)]

theorem utf8Raw_utf8 (c : Nat) (hc : Scalar c) (t : List Byte) : utf8Raw (utf8 c ++ t) = .ok (c, (utf8 c).length) := by
  have hmax := scalar_le hc
  by_cases h1 : c < 0x80
  · rw [utf8_1 h1]
    have e : (BitVec.ofNat 8 c).toNat = c := b8 (by omega)
    show utf8Raw (_ :: t) = _
    rw [utf8Raw_1 _ _ (by omega), e]; rfl
  by_cases h2 : c < 0x800
  · rw [utf8_2 (by omega) h2]
    have e := b8 (n := 0xC0 + c / 64) (by omega)
    have e' := b8 (n := 0x80 + c % 64) (by omega)
    show utf8Raw (_ :: _ :: t) = _
    rw [utf8Raw_2 _ _ _ (by omega), e, e']
    exact congrArg (fun n => Except.ok (n, 2)) (by omega)
  by_cases h3 : c < 0x10000
  · rw [utf8_3 (by omega) h3]
    have e := b8 (n := 0xE0 + c / 4096) (by omega)
    have e' := b8 (n := 0x80 + c / 64 % 64) (by omega)
    have e'' := b8 (n := 0x80 + c % 64) (by omega)
    show utf8Raw (_ :: _ :: _ :: t) = _
    rw [utf8Raw_3 _ _ _ _ (by omega), e, e', e'']
    exact congrArg (fun n => Except.ok (n, 3)) (by omega)
  · rw [utf8_4 (by omega)]
    have e := b8 (n := 0xF0 + c / 262144) (by omega)
    have e' := b8 (n := 0x80 + c / 4096 % 64) (by omega)
    have e'' := b8 (n := 0x80 + c / 64 % 64) (by omega)
    have e''' := b8 (n := 0x80 + c % 64) (by omega)
    show utf8Raw (_ :: _ :: _ :: _ :: t) = _
    rw [utf8Raw_4 _ _ _ _ _ (by omega), e, e', e'', e''']
    exact congrArg (fun n => Except.ok (n, 4)) (by omega)

theorem utf8Extract_utf8 (c : Nat) (hc : Scalar c) (t : List Byte) : utf8Extract (utf8 c ++ t) = .ok (some (c, t)) := by
  rw [utf8Extract, utf8Raw_utf8 c hc, ok_bind]
  simp only [valid_true hc, if_true, List.drop_left]

/-- What `tmu_utf8_extract` can return. -/
theorem utf8Extract_cases (s : List Byte) :
    utf8Extract s = .ok none ∨ ∃ c p t, utf8Extract s = .ok (some (c, t)) ∧ Scalar c ∧ s = p ++ t ∧ 1 ≤ p.length ∧ p.length ≤ 4 ∧
      (p = utf8 c ∨ (utf8 c).length < p.length ∨ ∃ b ∈ p.tail, ¬ Continuation b) := by
  rw [utf8Extract]
  rcases utf8Raw_cases s with h | ⟨a, t, rfl, h⟩ | ⟨a, b, t, rfl, h⟩ | ⟨a, b, d, t, rfl, h⟩ | ⟨a, b, d, e, t, rfl, h⟩
  · left; rw [h, ok_bind]; rfl
  · rw [utf8Raw_1 _ _ h, ok_bind]
    dsimp only
    by_cases hv : isValidCodepoint a.toNat = true
    · right
      rw [if_pos hv]
      refine ⟨_, [a], t, rfl, (valid_iff _).1 hv, rfl, by simp, by simp, Or.inl ?_⟩
      rw [utf8_1 h]; simp
    · left; rw [if_neg hv]
  · rw [utf8Raw_2 _ _ _ h, ok_bind]
    dsimp only
    generalize hc : a.toNat % 32 * 64 + b.toNat % 64 = c
    by_cases hv : isValidCodepoint c = true
    · right
      rw [if_pos hv]
      refine ⟨_, [a, b], t, rfl, (valid_iff _).1 hv, rfl, by simp, by simp, ?_⟩
      by_cases hb : 0x80 ≤ b.toNat ∧ b.toNat < 0xC0
      · by_cases h1 : c < 0x80
        · exact Or.inr (Or.inl (by rw [utf8_1 h1]; simp))
        · left
          rw [utf8_2 (by omega) (by omega), ← eq_b8 (b := a) (by omega), ← eq_b8 (b := b) (by omega)]
      · exact Or.inr (Or.inr ⟨b, by simp, hb⟩)
    · left; rw [if_neg hv]
  · rw [utf8Raw_3 _ _ _ _ h, ok_bind]
    dsimp only
    generalize hc : a.toNat % 16 * 4096 + b.toNat % 64 * 64 + d.toNat % 64 = c
    by_cases hv : isValidCodepoint c = true
    · right
      rw [if_pos hv]
      refine ⟨_, [a, b, d], t, rfl, (valid_iff _).1 hv, rfl, by simp, by simp, ?_⟩
      by_cases hb : 0x80 ≤ b.toNat ∧ b.toNat < 0xC0
      · by_cases hd : 0x80 ≤ d.toNat ∧ d.toNat < 0xC0
        · by_cases h1 : c < 0x80
          · exact Or.inr (Or.inl (by rw [utf8_1 h1]; simp))
          by_cases h2 : c < 0x800
          · exact Or.inr (Or.inl (by rw [utf8_2 (by omega) h2]; simp))
          · left
            rw [utf8_3 (by omega) (by omega), ← eq_b8 (b := a) (by omega), ← eq_b8 (b := b) (by omega), ← eq_b8 (b := d) (by omega)]
        · exact Or.inr (Or.inr ⟨d, by simp, hd⟩)
      · exact Or.inr (Or.inr ⟨b, by simp, hb⟩)
    · left; rw [if_neg hv]
  · rw [utf8Raw_4 _ _ _ _ _ h, ok_bind]
    dsimp only
    generalize hc : a.toNat % 8 * 262144 + b.toNat % 64 * 4096 + d.toNat % 64 * 64 + e.toNat % 64 = c
    by_cases hv : isValidCodepoint c = true
    · right
      rw [if_pos hv]
      refine ⟨_, [a, b, d, e], t, rfl, (valid_iff _).1 hv, rfl, by simp, by simp, ?_⟩
      by_cases hb : 0x80 ≤ b.toNat ∧ b.toNat < 0xC0
      · by_cases hd : 0x80 ≤ d.toNat ∧ d.toNat < 0xC0
        · by_cases he : 0x80 ≤ e.toNat ∧ e.toNat < 0xC0
          · by_cases h1 : c < 0x80
            · exact Or.inr (Or.inl (by rw [utf8_1 h1]; simp))
            by_cases h2 : c < 0x800
            · exact Or.inr (Or.inl (by rw [utf8_2 (by omega) h2]; simp))
            by_cases h3 : c < 0x10000
            · exact Or.inr (Or.inl (by rw [utf8_3 (by omega) h3]; simp))
            · left
              rw [utf8_4 (by omega), ← eq_b8 (b := a) (by omega), ← eq_b8 (b := b) (by omega), ← eq_b8 (b := d) (by omega),
                ← eq_b8 (b := e) (by omega)]
          · exact Or.inr (Or.inr ⟨e, by simp, he⟩)
        · exact Or.inr (Or.inr ⟨d, by simp, hd⟩)
      · exact Or.inr (Or.inr ⟨b, by simp, hb⟩)
    · left; rw [if_neg hv]

theorem surr (a b : Nat) (ha : 0xD800 ≤ a ∧ a ≤ 0xDBFF) (hb : 0xDC00 ≤ b ∧ b ≤ 0xDFFF) :
    (a <<< 10 + b + surrogateOffset) % 2 ^ 32 = 0x10000 + (a - 0xD800) * 1024 + (b - 0xDC00) := by
  rw [Nat.shiftLeft_eq, surrogateOffset]; omega

theorem utf16Raw_2 (a b : Unit16) (t : List Unit16) (ha : 0xD800 ≤ a.toNat ∧ a.toNat ≤ 0xDBFF) :
    utf16Raw (a :: b :: t) =
      if 0xDC00 ≤ b.toNat ∧ b.toNat ≤ 0xDFFF then .ok (0x10000 + (a.toNat - 0xD800) * 1024 + (b.toNat - 0xDC00), 2)
      else .ok (invalidCodepoint, 2) := by
  rw [utf16Raw, if_pos (by simp)]
  simp only [rd, List.getElem?_cons_zero, List.getElem?_cons_succ, ok_bind]
  rw [if_pos ha, if_pos (by simp)]
  by_cases hb : b.toNat ≥ 0xDC00 ∧ b.toNat ≤ 0xDFFF
  · rw [if_pos hb, if_pos hb, surr _ _ ha hb]
  · rw [if_neg hb, if_neg hb]

theorem utf16Raw_1 (a : Unit16) (t : List Unit16) (ha : ¬ (0xD800 ≤ a.toNat ∧ a.toNat ≤ 0xDBFF)) :
    utf16Raw (a :: t) = .ok (a.toNat, 1) := by
  rw [utf16Raw, if_pos (by simp)]
  simp only [rd, List.getElem?_cons_zero, ok_bind]
  rw [if_neg ha]

theorem utf16Raw_lone (a : Unit16) (ha : 0xD800 ≤ a.toNat ∧ a.toNat ≤ 0xDBFF) :
    utf16Raw [a] = .ok (invalidCodepoint, 1) := by
  rw [utf16Raw, if_pos (by simp)]
  simp only [rd, List.getElem?_cons_zero, ok_bind]
  rw [if_pos ha, if_neg (by simp)]

theorem utf16Extract_utf16 (c : Nat) (hc : Scalar c) (t : List Unit16) : utf16Extract (utf16 c ++ t) = .ok (some (c, t)) := by
  have hmax := scalar_le hc
  rw [utf16Extract]
  by_cases h1 : c < 0x10000
  · rw [utf16_1 h1]
    have e := b16 (n := c) (by omega)
    show (utf16Raw (_ :: t) >>= _) = _
    rw [utf16Raw_1 _ _ (by rw [e]; unfold Scalar at hc; omega), e, ok_bind]
    simp only [valid_true hc, if_true]; rfl
  · rw [utf16_2 (by omega)]
    have e := b16 (n := 0xD800 + (c - 0x10000) / 1024) (by omega)
    have e' := b16 (n := 0xDC00 + (c - 0x10000) % 1024) (by omega)
    show (utf16Raw (_ :: _ :: t) >>= _) = _
    rw [utf16Raw_2 _ _ _ (by omega), if_pos (by omega), e, e', ok_bind,
      show 0x10000 + (0xD800 + (c - 0x10000) / 1024 - 0xD800) * 1024 + (0xDC00 + (c - 0x10000) % 1024 - 0xDC00) = c by omega]
    simp only [valid_true hc, if_true]; rfl

/-- `tmu_utf16_extract` accepts exactly the encodings of scalar values. -/
theorem utf16Extract_cases (s : List Unit16) :
    utf16Extract s = .ok none ∨ ∃ c t, utf16Extract s = .ok (some (c, t)) ∧ Scalar c ∧ s = utf16 c ++ t := by
  rw [utf16Extract]
  match s with
  | [] => exact Or.inl rfl
  | a :: s =>
    by_cases ha : 0xD800 ≤ a.toNat ∧ a.toNat ≤ 0xDBFF
    · match s with
      | [] => left; rw [utf16Raw_lone _ ha, ok_bind]; rfl
      | b :: s =>
        rw [utf16Raw_2 _ _ _ ha]
        by_cases hb : 0xDC00 ≤ b.toNat ∧ b.toNat ≤ 0xDFFF
        · right
          rw [if_pos hb, ok_bind]
          dsimp only
          generalize hc : 0x10000 + (a.toNat - 0xD800) * 1024 + (b.toNat - 0xDC00) = c
          have hs : Scalar c := by unfold Scalar; omega
          rw [if_pos (valid_true hs)]
          refine ⟨_, s, rfl, hs, ?_⟩
          rw [utf16_2 (by omega), ← eq_b16 (b := a) (by omega), ← eq_b16 (b := b) (by omega)]; rfl
        · left; rw [if_neg hb, ok_bind]; rfl
    · rw [utf16Raw_1 _ _ ha, ok_bind]
      dsimp only
      by_cases hv : isValidCodepoint a.toNat = true
      · right
        rw [if_pos hv]
        refine ⟨_, s, rfl, (valid_iff _).1 hv, ?_⟩
        have := lt16 a
        rw [utf16_1 (by omega)]; simp
      · left; rw [if_neg hv]

end Tm.Uni
