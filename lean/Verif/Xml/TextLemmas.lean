import Verif.Xml.Model
import Verif.Xml.Spec

namespace Tm.Xml

open Tm.Uni (utf8 encode Scalar)

theorem validXml_iff {c : Nat} : validXml c = true ↔ XmlChar c := by
  unfold validXml XmlChar
  simp only [Bool.or_eq_true, Bool.and_eq_true, decide_eq_true_eq]
  omega

theorem validCp_iff {c : Nat} : validCp c = true ↔ Scalar c := by
  unfold validCp Scalar
  simp only [Bool.or_eq_true, Bool.and_eq_true, decide_eq_true_eq]
  omega

theorem XmlChar.scalar {c : Nat} (h : XmlChar c) : Scalar c := by
  unfold XmlChar at h; unfold Scalar; omega

private theorem or_add (k : Nat) (hk : k < 64) : (0x80 : BitVec 8) ||| BitVec.ofNat 8 k = BitVec.ofNat 8 (0x80 + k) := by
  have : ∀ x : Fin 64, (0x80 : BitVec 8) ||| BitVec.ofNat 8 x.1 = BitVec.ofNat 8 (0x80 + x.1) := by decide
  exact this ⟨k, hk⟩

private theorem or_add2 (k : Nat) (hk : k < 32) : (0xC0 : BitVec 8) ||| BitVec.ofNat 8 k = BitVec.ofNat 8 (0xC0 + k) := by
  have : ∀ x : Fin 32, (0xC0 : BitVec 8) ||| BitVec.ofNat 8 x.1 = BitVec.ofNat 8 (0xC0 + x.1) := by decide
  exact this ⟨k, hk⟩

private theorem or_add3 (k : Nat) (hk : k < 16) : (0xE0 : BitVec 8) ||| BitVec.ofNat 8 k = BitVec.ofNat 8 (0xE0 + k) := by
  have : ∀ x : Fin 16, (0xE0 : BitVec 8) ||| BitVec.ofNat 8 x.1 = BitVec.ofNat 8 (0xE0 + x.1) := by decide
  exact this ⟨k, hk⟩

private theorem or_add4 (k : Nat) (hk : k < 8) : (0xF0 : BitVec 8) ||| BitVec.ofNat 8 k = BitVec.ofNat 8 (0xF0 + k) := by
  have : ∀ x : Fin 8, (0xF0 : BitVec 8) ||| BitVec.ofNat 8 x.1 = BitVec.ofNat 8 (0xF0 + x.1) := by decide
  exact this ⟨k, hk⟩

private theorem and_mod (k : Nat) : BitVec.ofNat 8 k &&& 0x3F = BitVec.ofNat 8 (k % 64) := by
  apply BitVec.eq_of_toNat_eq
  simp only [BitVec.toNat_and, BitVec.toNat_ofNat]
  have := Nat.and_two_pow_sub_one_eq_mod (k % 2 ^ 8) 6
  rw [show BitVec.toNat (63 : BitVec 8) = 2 ^ 6 - 1 from rfl, this]
  omega

private theorem and_mod8 (k : Nat) : BitVec.ofNat 8 k &&& 0x7 = BitVec.ofNat 8 (k % 8) := by
  apply BitVec.eq_of_toNat_eq
  simp only [BitVec.toNat_and, BitVec.toNat_ofNat]
  have := Nat.and_two_pow_sub_one_eq_mod (k % 2 ^ 8) 3
  rw [show BitVec.toNat (7 : BitVec 8) = 2 ^ 3 - 1 from rfl, this]
  omega

theorem encodeCp_eq {c : Nat} (h : Scalar c) : encodeCp c = utf8 c := by
  have hc : c < 2097152 := by unfold Scalar at h; omega
  unfold encodeCp utf8
  simp only [Nat.shiftRight_eq_div_pow, and_mod, and_mod8]
  split
  · rfl
  · split
    · rw [or_add2 _ (by omega), or_add _ (by omega)]
    · split
      · rw [or_add3 _ (by omega), or_add _ (by omega), or_add _ (by omega)]
      · rw [or_add4 _ (by omega), or_add _ (by omega), or_add _ (by omega), or_add _ (by omega)]
        rw [show c / 2 ^ 18 % 8 = c / 262144 by omega]

theorem decodeOne_utf8 {c : Nat} (h : Scalar c) (s : List Byte) : decodeOne (utf8 c ++ s) = (c, s) := by
  have hc : c ≤ 0x10FFFF := by unfold Scalar at h; omega
  unfold utf8
  split
  · have e : (BitVec.ofNat 8 c).toNat = c := by simp only [BitVec.toNat_ofNat]; omega
    simp only [List.cons_append, List.nil_append, decodeOne, e]
    rw [if_pos (by omega)]
  · split
    · have e : (BitVec.ofNat 8 (0xC0 + c / 64)).toNat = 0xC0 + c / 64 := by simp only [BitVec.toNat_ofNat]; omega
      have e1 : (BitVec.ofNat 8 (0x80 + c % 64)).toNat = 0x80 + c % 64 := by simp only [BitVec.toNat_ofNat]; omega
      simp only [List.cons_append, List.nil_append, decodeOne, e, e1, Nat.shiftRight_eq_div_pow]
      rw [if_neg (by omega), if_pos (by omega)]
      congr 1; omega
    · split
      · have e : (BitVec.ofNat 8 (0xE0 + c / 4096)).toNat = 0xE0 + c / 4096 := by simp only [BitVec.toNat_ofNat]; omega
        have e1 : (BitVec.ofNat 8 (0x80 + c / 64 % 64)).toNat = 0x80 + c / 64 % 64 := by
          simp only [BitVec.toNat_ofNat]; omega
        have e2 : (BitVec.ofNat 8 (0x80 + c % 64)).toNat = 0x80 + c % 64 := by simp only [BitVec.toNat_ofNat]; omega
        simp only [List.cons_append, List.nil_append, decodeOne, e, e1, e2, Nat.shiftRight_eq_div_pow]
        rw [if_neg (by omega), if_neg (by omega), if_pos (by omega)]
        congr 1; omega
      · have e : (BitVec.ofNat 8 (0xF0 + c / 262144)).toNat = 0xF0 + c / 262144 := by
          simp only [BitVec.toNat_ofNat]; omega
        have e0 : (BitVec.ofNat 8 (0x80 + c / 4096 % 64)).toNat = 0x80 + c / 4096 % 64 := by
          simp only [BitVec.toNat_ofNat]; omega
        have e1 : (BitVec.ofNat 8 (0x80 + c / 64 % 64)).toNat = 0x80 + c / 64 % 64 := by
          simp only [BitVec.toNat_ofNat]; omega
        have e2 : (BitVec.ofNat 8 (0x80 + c % 64)).toNat = 0x80 + c % 64 := by simp only [BitVec.toNat_ofNat]; omega
        simp only [List.cons_append, List.nil_append, decodeOne, e, e0, e1, e2, Nat.shiftRight_eq_div_pow]
        rw [if_neg (by omega), if_neg (by omega), if_neg (by omega), if_pos (by omega)]
        congr 1; omega

theorem extract_utf8 {c : Nat} (h : Scalar c) (s : List Byte) : extract (utf8 c ++ s) = some (c, s) := by
  unfold extract
  rw [decodeOne_utf8 h, if_pos (validCp_iff.mpr h)]

theorem extract_nil : extract [] = none := by decide

/-- What is extracted is a proper suffix. -/
theorem extract_suffix {s : List Byte} {cp : Nat} {cur : List Byte} (h : extract s = some (cp, cur)) :
    ∃ p, p ≠ [] ∧ s = p ++ cur := by
  unfold extract at h
  split at h
  · rename_i hv
    cases hd : decodeOne s with
    | mk a b =>
      rw [hd] at h hv
      cases h
      unfold decodeOne at hd
      have hne : (0xFFFFFFFF : Nat) ≠ cp := by
        intro e; subst e; exact absurd hv (show ¬ validCp 0xFFFFFFFF = true by decide)
      split at hd
      · cases hd; exact absurd rfl hne
      · rename_i b0 r
        split at hd
        · cases hd; exact ⟨[b0], by simp, rfl⟩
        · split at hd
          · split at hd
            · rename_i b1 r'
              cases hd; exact ⟨[b0, b1], by simp, rfl⟩
            · cases hd; exact absurd rfl hne
          · split at hd
            · split at hd
              · rename_i b1 b2 r'
                cases hd; exact ⟨[b0, b1, b2], by simp, rfl⟩
              · cases hd; exact absurd rfl hne
            · split at hd
              · split at hd
                · rename_i b1 b2 b3 r'
                  cases hd; exact ⟨[b0, b1, b2, b3], by simp, rfl⟩
                · cases hd; exact absurd rfl hne
              · cases hd; exact absurd rfl hne
  · cases h

theorem extract_lt {s : List Byte} {cp : Nat} {cur : List Byte} (h : extract s = some (cp, cur)) :
    cur.length < s.length := by
  obtain ⟨p, hp, rfl⟩ := extract_suffix h
  have := List.length_pos_iff.mpr hp
  simp only [List.length_append]; omega

theorem extract_scalar {s : List Byte} {cp : Nat} {cur : List Byte} (h : extract s = some (cp, cur)) : Scalar cp := by
  unfold extract at h
  split at h
  · rename_i hv; cases hd : decodeOne s; rw [hd] at h hv; cases h; exact validCp_iff.mp hv
  · cases h

theorem utf8_ascii {c : Nat} (h : c < 0x80) : utf8 c = [BitVec.ofNat 8 c] := by
  unfold utf8; rw [if_pos h]

theorem extract_ascii {b : Byte} (h : b.toNat < 0x80) (s : List Byte) : extract (b :: s) = some (b.toNat, s) := by
  have hs : Scalar b.toNat := by unfold Scalar; omega
  have := extract_utf8 hs s
  rw [utf8_ascii h] at this
  simpa using this

end Tm.Xml
