import Verif.Json.Value
import Verif.Json.ValueSpec
import Mathlib.Tactic.Ring
import Mathlib.Tactic.Linarith

/-!
# Conversion of numbers: lemmas
-/

namespace Tm.Json

open Tm Spec

theorem digitIn_ten {c : Byte} (h : Digit c) : digitIn 10 c = some (c.toNat - 0x30) := by
  obtain ⟨h1, h2⟩ := h
  have a : (0x30 ≤ c.toNat && c.toNat ≤ 0x39) = true := by simp [h1, h2]
  unfold digitIn
  simp only [a, if_true]
  rw [if_pos (by omega)]

theorem digitsIn_ten : ∀ (s : List Byte) (n : Nat), (∀ b ∈ s, Digit b) →
    digitsIn 10 n s = s.foldl (fun n d => 10 * n + (d.toNat - 0x30)) n
  | [], _, _ => rfl
  | c :: t, n, h => by
    rw [digitsIn, digitIn_ten (h c (by simp))]
    dsimp only
    rw [digitsIn_ten t _ (fun b hb => h b (by simp [hb])), List.foldl_cons, Nat.mul_comm n 10]

theorem digitIn_hex {c : Byte} {d : Nat} (h : hexDigit c = some d) : digitIn 16 c = some d := by
  revert d
  revert c
  decide +kernel

theorem digitsIn_hex : ∀ (s : List Byte) (n : Nat), (∀ b ∈ s, (hexDigit b).isSome) →
    digitsIn 16 n s = s.foldl (fun n d => 16 * n + (hexDigit d).getD 0) n
  | [], _, _ => rfl
  | c :: t, n, h => by
    obtain ⟨d, hd⟩ := Option.isSome_iff_exists.1 (h c (by simp))
    rw [digitsIn, digitIn_hex hd]
    dsimp only
    rw [digitsIn_hex t _ (fun b hb => h b (by simp [hb])), List.foldl_cons, Nat.mul_comm n 16, hd]
    rfl

/-! ### Sizes -/

theorem decimal_foldl : ∀ (s : List Byte) (n : Nat), 10 ^ s.length * n ≤ s.foldl (fun n d => 10 * n + (d.toNat - 0x30)) n
  | [], n => by simp
  | c :: t, n => by
    rw [List.foldl_cons, List.length_cons]
    refine Nat.le_trans ?_ (decimal_foldl t _)
    rw [Nat.pow_succ, Nat.mul_assoc]
    exact Nat.mul_le_mul_left _ (by omega)

theorem decimal_large {i : List Byte} (h : IntPart i) (k : Nat) (hk : k + 1 < i.length) : 10 ^ k ≤ decimal i := by
  rcases h with rfl | ⟨⟨_, hd⟩, hz⟩
  · simp at hk
  · match i, hk with
    | c :: t, hk =>
      have hc := hd c (by simp)
      have : c ≠ chr '0' := by simpa using hz
      have hn : c.toNat ≠ 0x30 := by
        intro e
        exact this (BitVec.eq_of_toNat_eq e)
      unfold decimal
      rw [List.foldl_cons]
      refine Nat.le_trans ?_ (decimal_foldl t _)
      have h1 : 1 ≤ 10 * 0 + (c.toNat - 48) := by have := hc.1; omega
      refine Nat.le_trans ?_ (Nat.mul_le_mul_left _ h1)
      rw [Nat.mul_one]
      refine Nat.pow_le_pow_right (by decide) ?_
      rw [List.length_cons] at hk
      omega

theorem intPart_digits {i : List Byte} (h : IntPart i) : i ≠ [] ∧ ∀ b ∈ i, Digit b := by
  rcases h with rfl | ⟨h, _⟩
  · exact ⟨by decide, by decide⟩
  · exact h

theorem decimal_zero {i : List Byte} (h : IntPart i) (z : decimal i = 0) : i = [chr '0'] := by
  rcases h with rfl | ⟨⟨hn, hd⟩, hz⟩
  · rfl
  · exfalso
    match i, hn with
    | c :: t, _ =>
      have hc := hd c (by simp)
      have : c ≠ chr '0' := by simpa using hz
      have hn : c.toNat ≠ 0x30 := by
        intro e
        exact this (BitVec.eq_of_toNat_eq e)
      unfold decimal at z
      rw [List.foldl_cons] at z
      have h2 := decimal_foldl t (10 * 0 + (c.toNat - 48))
      rw [z] at h2
      have h3 : 0 < 10 ^ t.length * (10 * 0 + (c.toNat - 48)) :=
        Nat.mul_pos (Nat.pow_pos (by decide)) (by have := hc.1; omega)
      omega

/-! ### `strtol` -/

theorem digit_plain {c : Byte} (h : Digit c) : isSpace c = false ∧ c ≠ 0x2D ∧ c ≠ 0x2B := by
  revert h
  revert c
  decide +kernel

theorem hex_plain {c : Byte} (h : (hexDigit c).isSome) : isSpace c = false ∧ c ≠ 0x2D ∧ c ≠ 0x2B ∧ c ≠ 0x78 ∧ c ≠ 0x58 := by
  revert h
  revert c
  decide +kernel

theorem skipPrefix_ten (s : List Byte) : skipPrefix 10 s = s := by
  unfold skipPrefix
  split
  · simp
  · rfl

theorem signAndValue_digits {i : List Byte} (hd : ∀ b ∈ i, Digit b) : signAndValue 10 i = (false, decimal i) := by
  match i with
  | [] => rfl
  | c :: t =>
    have hp := digit_plain (hd c (by simp))
    unfold signAndValue
    rw [List.dropWhile_cons, if_neg (by simp [hp.1])]
    dsimp only
    rw [if_neg hp.2.1, if_neg hp.2.2, skipPrefix_ten, digitsIn_ten _ _ hd]
    rfl

theorem signAndValue_minus {i : List Byte} (hd : ∀ b ∈ i, Digit b) : signAndValue 10 (chr '-' :: i) = (true, decimal i) := by
  unfold signAndValue
  rw [List.dropWhile_cons, if_neg (by decide)]
  dsimp only
  rw [if_pos (by decide), skipPrefix_ten, digitsIn_ten _ _ hd]
  rfl

theorem skipPrefix_hex {s : List Byte} (h : ∀ b ∈ s, (hexDigit b).isSome) : skipPrefix 16 s = s := by
  unfold skipPrefix
  split
  · rename_i a x d t
    have := hex_plain (h x (by simp))
    rw [if_neg]
    simp
    rintro _ (e | e)
    · exact absurd e this.2.2.2.1
    · exact absurd e this.2.2.2.2
  · rfl

theorem signAndValue_hex {i : List Byte} (hd : ∀ b ∈ i, (hexDigit b).isSome) : signAndValue 16 i = (false, hexadecimal i) := by
  match i with
  | [] => rfl
  | c :: t =>
    have hp := hex_plain (hd c (by simp))
    unfold signAndValue
    rw [List.dropWhile_cons, if_neg (by simp [hp.1])]
    dsimp only
    rw [if_neg hp.2.1, if_neg hp.2.2.1, skipPrefix_hex hd, digitsIn_hex _ _ hd]
    rfl

theorem strtol_integer {m i : List Byte} (hm : m = [] ∨ m = [chr '-']) (hd : ∀ b ∈ i, Digit b) :
    strtol 10 (m ++ i) = if -2 ^ 63 ≤ integer m i ∧ integer m i < 2 ^ 63 then some (integer m i) else none := by
  unfold strtol
  rcases hm with rfl | rfl
  · rw [List.nil_append, signAndValue_digits hd]
    simp [integer]
  · rw [List.singleton_append, signAndValue_minus hd]
    simp [integer]

theorem strtoul_digits {i : List Byte} (hd : ∀ b ∈ i, Digit b) :
    strtoul 10 i = if decimal i < 2 ^ 64 then some (decimal i : Int) else none := by
  unfold strtoul
  rw [signAndValue_digits hd]
  simp

/-! ### Texts -/

theorem digits_no_hex {i : List Byte} (hd : ∀ b ∈ i, Digit b) : hexPrefix i = false := by
  match i with
  | [] => rfl
  | [_] => rfl
  | a :: x :: t =>
    have hx := hd x (by simp)
    have : x ≠ 0x78 ∧ x ≠ 0x58 := by
      revert hx
      generalize x = y
      revert y
      decide +kernel
    simp [hexPrefix]
    exact fun _ => this

theorem minus_no_hex (i : List Byte) : hexPrefix (chr '-' :: i) = false := by
  match i with
  | [] => rfl
  | a :: t => simp [hexPrefix, chr]

theorem integer_no_hex {m i : List Byte} (hm : m = [] ∨ m = [chr '-']) (hd : ∀ b ∈ i, Digit b) : hexPrefix (m ++ i) = false := by
  rcases hm with rfl | rfl
  · exact digits_no_hex hd
  · exact minus_no_hex i

theorem view_length {v : View} {t : List Byte} (h : v.text = .ok t) : v.size = t.length := by
  unfold View.text at h
  grind

/-- A value that is written as a text is read by the function for texts. -/
theorem written_get {v : JVal} {t : List Byte} (h : Written v t) :
    ∃ view, view.text = .ok t ∧ ∀ {α : Type} (f : View → α → C α) (old : α), getWith f v old = f view old := by
  rcases h with h | h
  · generalize e : Json.num t = j at h
    cases h with
    | num hn hs =>
      rename_i view m i f x
      cases e
      refine ⟨view, hs.2, fun g old => ?_⟩
      unfold kind
      split <;> [split; skip] <;> rfl
    | _ => cases e
  · generalize e : Json.str t = j at h
    cases h with
    | str hs =>
      rename_i view _
      cases e
      exact ⟨view, hs.2, fun g old => rfl⟩
    | _ => cases e

end Tm.Json
