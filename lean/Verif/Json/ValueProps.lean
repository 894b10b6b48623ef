import Verif.Json.PointerSpec

/-!
# Properties of values of a document
-/

namespace Tm.Json

open Tm Spec

/-! ### C110: integers of 64 bits -/

theorem toSigned_integer {w most : Nat} {view : View} {m i : List Byte} (hv : view.text = .ok (m ++ i)) (hm : m = [] ∨ m = [chr '-'])
    (hi : IntPart i) (old : BitVec w) :
    toSigned w most view old = .ok (if (m ++ i).length ≤ most ∧ -2 ^ 63 ≤ integer m i ∧ integer m i < 2 ^ 63
      then BitVec.ofInt w (integer m i) else old) := by
  obtain ⟨hn, hd⟩ := intPart_digits hi
  unfold toSigned
  rw [if_neg, hv, ok_bind]
  · unfold convert
    rw [if_neg (by simp [integer_no_hex hm hd])]
    unfold toNumber
    simp only [if_true]
    rw [strtol_integer hm hd]
    by_cases a : (m ++ i).length > most
    · rw [if_pos a, if_neg (by omega)]
    · rw [if_neg a]
      by_cases b : -2 ^ 63 ≤ integer m i ∧ integer m i < 2 ^ 63
      · rw [if_pos b, if_pos ⟨by omega, b⟩]
      · rw [if_neg b, if_neg (fun x => b x.2)]
  · rw [view_length hv]
    have : i.length ≠ 0 := fun e => hn (List.length_eq_zero_iff.1 e)
    rw [List.length_append]
    omega

theorem integer_long {m i : List Byte} (hm : m = [] ∨ m = [chr '-']) (hi : IntPart i) (k : Nat) (hl : k + 2 < (m ++ i).length) :
    integer m i ≤ -10 ^ k ∨ 10 ^ k ≤ integer m i := by
  have h2 : (m ++ i).length ≤ i.length + 1 := by rcases hm with rfl | rfl <;> simp
  have h3 : 10 ^ k ≤ decimal i := decimal_large hi k (by omega)
  have h4 : ((10 ^ k : Nat) : Int) ≤ decimal i := by exact_mod_cast h3
  push_cast at h4
  unfold integer
  split
  · right; omega
  · left; omega

/-- **C110.** `jsonGetInt64` of a value that is written as an integer, as a number or a string, gives the integer if it is
representable, and the default value if it is not. -/
theorem C110_signed (v : JVal) (m i : List Byte) (old : BitVec 64) (hn : Number m i [] []) (hv : Written v (m ++ i)) :
    ∃ r, getInt64 v old = .ok r ∧ (-2 ^ 63 ≤ integer m i ∧ integer m i < 2 ^ 63 → r.toInt = integer m i) ∧
      (¬ (-2 ^ 63 ≤ integer m i ∧ integer m i < 2 ^ 63) → r = old) := by
  obtain ⟨view, ht, hg⟩ := written_get hv
  refine ⟨_, (hg _ _).trans (toSigned_integer ht hn.1 hn.2.1 old), ?_, ?_⟩
  · intro h
    have hl : (m ++ i).length ≤ 64 := by
      by_contra hl
      have := integer_long hn.1 hn.2.1 62 (by omega)
      omega
    rw [if_pos ⟨hl, h⟩, BitVec.toInt_ofInt, Int.bmod_def]
    obtain ⟨h1, h2⟩ := h
    norm_num at *
    omega
  · intro h
    rw [if_neg (fun x => h x.2)]

theorem toUnsigned_integer {w most : Nat} {view : View} {m i : List Byte} (hv : view.text = .ok (m ++ i)) (hm : m = [] ∨ m = [chr '-'])
    (hi : IntPart i) (old : BitVec w) :
    toUnsigned w most view old = .ok (if m = [] then
      (if i.length ≤ most ∧ decimal i < 2 ^ 64 then BitVec.ofInt w (decimal i) else old)
      else if decimal i = 0 then 0 else old) := by
  obtain ⟨hn, hd⟩ := intPart_digits hi
  unfold toUnsigned
  rw [if_neg, hv, ok_bind]
  · rcases hm with rfl | rfl
    · rw [List.nil_append, if_pos rfl, if_neg]
      · unfold convert
        rw [if_neg (by simp [digits_no_hex hd])]
        unfold toNumber
        rw [if_neg (c := false = true) (by simp), strtoul_digits hd]
        by_cases a : i.length > most
        · rw [if_pos a, if_neg (by omega)]
        · rw [if_neg a]
          by_cases b : decimal i < 2 ^ 64
          · rw [if_pos b, if_pos ⟨by omega, b⟩]
          · rw [if_neg b, if_neg (fun x => b x.2)]
      · match i, hn with
        | c :: t, _ =>
          have := (digit_plain (hd c (by simp))).2.1
          simpa using this
    · rw [if_pos (c := ([chr '-'] ++ i).head? = some 45) rfl, if_neg (c := [chr '-'] = []) (by simp)]
      by_cases z : decimal i = 0
      · rw [if_pos z, decimal_zero hi z, if_pos (by decide)]
      · rw [if_neg z, if_neg]
        intro e
        apply z
        have : i = [0x30] := (List.cons.inj e).2
        rw [this]
        decide
  · rw [view_length hv]
    have : i.length ≠ 0 := fun e => hn (List.length_eq_zero_iff.1 e)
    rw [List.length_append]
    omega

/-- **C110.** The same for `jsonGetUInt64`. -/
theorem C110_unsigned (v : JVal) (m i : List Byte) (old : BitVec 64) (hn : Number m i [] []) (hv : Written v (m ++ i)) :
    ∃ r, getUInt64 v old = .ok r ∧ (0 ≤ integer m i ∧ integer m i < 2 ^ 64 → (r.toNat : Int) = integer m i) ∧
      (¬ (0 ≤ integer m i ∧ integer m i < 2 ^ 64) → r = old) := by
  obtain ⟨view, ht, hg⟩ := written_get hv
  refine ⟨_, (hg _ _).trans (toUnsigned_integer ht hn.1 hn.2.1 old), ?_, ?_⟩
  · intro h
    by_cases hm : m = []
    · subst hm
      have hl : i.length ≤ 64 := by
        by_contra hl
        have := integer_long hn.1 hn.2.1 62 (by simp; omega)
        omega
      have hd : decimal i < 2 ^ 64 := by have := h.2; simp [integer] at this; exact_mod_cast this
      rw [if_pos rfl, if_pos ⟨hl, hd⟩]
      simp only [integer, if_true, BitVec.ofInt_natCast, BitVec.toNat_ofNat]
      rw [Nat.mod_eq_of_lt hd]
    · rw [if_neg hm]
      have h1 := h.1
      simp only [integer, hm, if_false] at h1 ⊢
      have h2 : decimal i = 0 := by omega
      rw [if_pos h2, h2]
      rfl
  · intro h
    by_cases hm : m = []
    · subst hm
      rw [if_pos rfl, if_neg]
      rintro ⟨_, hd⟩
      apply h
      simp only [integer, if_true]
      exact ⟨by omega, by exact_mod_cast hd⟩
    · rw [if_neg hm, if_neg]
      intro z
      apply h
      simp [integer, hm, z]

/-- A value that is written as a text. -/
theorem written_witness (text : List Byte) : Written (.scalar .string ⟨false, text, text.length⟩) text :=
  Or.inr (.str ⟨rfl, by simp [View.text]⟩)

example : Number (ascii "-") (ascii "9223372036854775808") [] [] ∧
    Written (.scalar .int ⟨false, ascii "-9223372036854775808, 1", 20⟩) (ascii "-" ++ ascii "9223372036854775808") ∧
    (integer (ascii "-") (ascii "9223372036854775808") = -2 ^ 63) ∧
    getInt64 (.scalar .int ⟨false, ascii "-9223372036854775808, 1", 20⟩) 5 = .ok 0x8000000000000000 := by
  have hn : Number (ascii "-") (ascii "9223372036854775808") [] [] :=
    ⟨Or.inr (by decide), Or.inr ⟨⟨by decide, by decide⟩, by decide⟩, Or.inl rfl, Or.inl rfl⟩
  refine ⟨hn, Or.inl ?_, by decide +kernel, by decide +kernel⟩
  have := MeansBy.num (R := ⟨Shows, Shows, Shows⟩) (v := ⟨false, ascii "-9223372036854775808, 1", 20⟩) hn ⟨rfl, by decide +kernel⟩
  simp only [List.append_nil] at this
  exact this

/-! ### C111: integers of 32 bits -/

/-- **C111 does not hold.** Numbers that need more than 32 bits are cut, instead of giving the default value. -/
theorem C111_not_range : ∃ i, IntPart i ∧ ¬ integer [] i < 2 ^ 32 ∧
    ∀ v, Written v ([] ++ i) → getInt v 7 = .ok 0 ∧ getUInt v 7 = .ok 0 := by
  have hi : IntPart (ascii "4294967296") := Or.inr ⟨⟨by decide, by decide⟩, by decide⟩
  refine ⟨ascii "4294967296", hi, by decide +kernel, ?_⟩
  intro v hv
  obtain ⟨view, ht, hg⟩ := written_get hv
  unfold getInt getUInt
  rw [hg, hg, toSigned_integer ht (Or.inl rfl) hi, toUnsigned_integer ht (Or.inl rfl) hi]
  decide +kernel

example : Written (.scalar .string ⟨false, ascii "4294967296", 10⟩) ([] ++ ascii "4294967296") := written_witness _

/-- **C111, in part.** `jsonGetInt` gives the integer if it is representable in 32 bits, and the default value if it is not representable
in 64 bits. Missing: the default value for integers in between, see `C111_not_range`. -/
theorem C111_signed_partial (v : JVal) (m i : List Byte) (old : BitVec 32) (hn : Number m i [] []) (hv : Written v (m ++ i)) :
    ∃ r, getInt v old = .ok r ∧ (-2 ^ 31 ≤ integer m i ∧ integer m i < 2 ^ 31 → r.toInt = integer m i) ∧
      (¬ (-2 ^ 63 ≤ integer m i ∧ integer m i < 2 ^ 63) → r = old) := by
  obtain ⟨view, ht, hg⟩ := written_get hv
  refine ⟨_, (hg _ _).trans (toSigned_integer ht hn.1 hn.2.1 old), ?_, ?_⟩
  · intro h
    have hl : (m ++ i).length ≤ 32 := by
      by_contra hl
      have := integer_long hn.1 hn.2.1 30 (by omega)
      omega
    rw [if_pos ⟨hl, by omega, by omega⟩, BitVec.toInt_ofInt, Int.bmod_def]
    obtain ⟨h1, h2⟩ := h
    norm_num at *
    omega
  · intro h
    rw [if_neg (fun x => h x.2)]

/-- **C111, in part.** `jsonGetUInt` gives the integer if it is representable in 32 bits, and the default value if it is negative or not
representable in 64 bits. -/
theorem C111_unsigned_partial (v : JVal) (m i : List Byte) (old : BitVec 32) (hn : Number m i [] []) (hv : Written v (m ++ i)) :
    ∃ r, getUInt v old = .ok r ∧ (0 ≤ integer m i ∧ integer m i < 2 ^ 32 → (r.toNat : Int) = integer m i) ∧
      (¬ (0 ≤ integer m i ∧ integer m i < 2 ^ 64) → r = old) := by
  obtain ⟨view, ht, hg⟩ := written_get hv
  refine ⟨_, (hg _ _).trans (toUnsigned_integer ht hn.1 hn.2.1 old), ?_, ?_⟩
  · intro h
    by_cases hm : m = []
    · subst hm
      have hl : i.length ≤ 32 := by
        by_contra hl
        have := integer_long hn.1 hn.2.1 30 (by simp; omega)
        omega
      have hd : decimal i < 2 ^ 32 := by have := h.2; simp [integer] at this; exact_mod_cast this
      rw [if_pos rfl, if_pos ⟨hl, by omega⟩]
      simp only [integer, if_true, BitVec.ofInt_natCast, BitVec.toNat_ofNat]
      rw [Nat.mod_eq_of_lt hd]
    · rw [if_neg hm]
      have h1 := h.1
      simp only [integer, hm, if_false] at h1 ⊢
      have h2 : decimal i = 0 := by omega
      rw [if_pos h2, h2]
      rfl
  · intro h
    by_cases hm : m = []
    · subst hm
      rw [if_pos rfl, if_neg]
      rintro ⟨_, hd⟩
      apply h
      simp only [integer, if_true]
      exact ⟨by omega, by exact_mod_cast hd⟩
    · rw [if_neg hm, if_neg]
      intro z
      apply h
      simp [integer, hm, z]

example : Number [] (ascii "4294967295") [] [] ∧ Written (.scalar .string ⟨false, ascii "4294967295", 10⟩) ([] ++ ascii "4294967295") ∧
    integer [] (ascii "4294967295") = 2 ^ 32 - 1 :=
  ⟨⟨Or.inl rfl, Or.inr ⟨⟨by decide, by decide⟩, by decide⟩, Or.inl rfl, Or.inl rfl⟩, written_witness _, by decide +kernel⟩

/-! ### C112: hexadecimal numbers -/

/-- **C112 does not hold.** The value of a hexadecimal number is not its value: the last two digits are lost. -/
theorem C112_not_value : ∃ ds, (∀ b ∈ ds, (hexDigit b).isSome) ∧ hexadecimal ds = 0x12FF ∧
    ∀ v, Written v (chr '0' :: chr 'x' :: ds) →
      getInt v 7 = .ok 0x12 ∧ getUInt v 7 = .ok 0x12 ∧ getInt64 v 7 = .ok 0x12 ∧ getUInt64 v 7 = .ok 0x12 := by
  refine ⟨ascii "12FF", by decide +kernel, by decide +kernel, ?_⟩
  intro v hv
  obtain ⟨view, ht, hg⟩ := written_get hv
  have hs := view_length ht
  unfold getInt getUInt getInt64 getUInt64
  rw [hg, hg, hg, hg]
  unfold toSigned toUnsigned
  rw [ht, hs]
  decide +kernel

/-- **C112 does not hold.** A hexadecimal number of one digit fails an assertion. -/
theorem C112_not_faultless (d : Byte) (v : JVal) (hv : Written v [chr '0', chr 'x', d]) (a : BitVec 32) (b : BitVec 64) :
    getInt v a = .error .assertion ∧ getUInt v a = .error .assertion ∧ getInt64 v b = .error .assertion ∧
      getUInt64 v b = .error .assertion := by
  obtain ⟨view, ht, hg⟩ := written_get hv
  have hs := view_length ht
  unfold getInt getUInt getInt64 getUInt64
  rw [hg, hg, hg, hg]
  unfold toSigned toUnsigned
  rw [ht, hs]
  exact ⟨rfl, rfl, rfl, rfl⟩

example : Written (.scalar .string ⟨false, ascii "0xF", 3⟩) [chr '0', chr 'x', 0x46] := written_witness _

/-- **C112, in part.** What holds of hexadecimal numbers of at least two digits: the result is the value of the digits without the last
two, if it is representable and these are at most 64 digits. Missing: the last two digits, see `C112_not_value`. -/
theorem C112_cut_partial (v : JVal) (x : Byte) (ds : List Byte) (p q : Byte) (old : BitVec 64) (hx : x = chr 'x' ∨ x = chr 'X')
    (hd : ∀ b ∈ ds, (hexDigit b).isSome) (hl : ds.length ≤ 64) (hr : hexadecimal ds < 2 ^ 63)
    (hv : Written v (chr '0' :: x :: (ds ++ [p, q]))) :
    getInt64 v old = .ok (BitVec.ofNat 64 (hexadecimal ds)) ∧ getUInt64 v old = .ok (BitVec.ofNat 64 (hexadecimal ds)) := by
  obtain ⟨view, ht, hg⟩ := written_get hv
  have hs := view_length ht
  have hh : hexPrefix (chr '0' :: x :: (ds ++ [p, q])) = true := by
    rcases hx with rfl | rfl <;> rfl
  have key : ∀ s : Bool, convert 64 64 s (chr '0' :: x :: (ds ++ [p, q])) old = .ok (BitVec.ofNat 64 (hexadecimal ds)) := by
    intro s
    unfold convert
    rw [if_pos hh, if_neg (by simp), show assert _ = .ok () from by simp [assert], ok_bind]
    have e : (List.drop 2 (chr '0' :: x :: (ds ++ [p, q]))).take ((chr '0' :: x :: (ds ++ [p, q])).length - 4) = ds := by
      simp
    rw [e]
    unfold toNumber
    rw [if_neg (by omega)]
    have h1 : strtol 16 ds = some (hexadecimal ds : Int) := by
      unfold strtol
      rw [signAndValue_hex hd]
      dsimp only
      rw [if_neg (c := false = true) (by simp), if_pos]
      simp only [Bool.and_eq_true, decide_eq_true_eq]
      exact ⟨by omega, by exact_mod_cast hr⟩
    have h2 : strtoul 16 ds = some (hexadecimal ds : Int) := by
      unfold strtoul
      rw [signAndValue_hex hd]
      dsimp only
      rw [if_pos (by omega)]
      rfl
    rw [h1, h2, ite_self]
    simp
  unfold getInt64 getUInt64
  rw [hg, hg]
  unfold toSigned toUnsigned
  rw [hs, if_neg (by simp), if_neg (by simp), ht, ok_bind, ok_bind, if_neg (by simp [chr])]
  exact ⟨key true, key false⟩

example : Written (.scalar .string ⟨false, ascii "0x7FFFFFFFFFFFFFFF00", 20⟩)
      (chr '0' :: chr 'x' :: (ascii "7FFFFFFFFFFFFFFF" ++ [0x30, 0x30])) ∧ hexadecimal (ascii "7FFFFFFFFFFFFFFF") = 2 ^ 63 - 1 :=
  ⟨written_witness _, by decide +kernel⟩

/-! ### C113: booleans -/

theorem small_eq (s : List Byte) : s.map toLower = s.map small := by
  congr 1
  funext b
  simp [toLower, small]

/-- **C113.** `jsonGetBool` of a value that is written as a text gives true if the text is `1` or `true` in large or small letters, false
if it is `0` or `false`, and the default value otherwise. -/
theorem C113_written (v : JVal) (text : List Byte) (old : Bool) (hv : Written v text) :
    ∃ r, getBool v old = .ok r ∧
      (text = ascii "1" ∨ text.map small = ascii "true" → r = true) ∧
      (text = ascii "0" ∨ text.map small = ascii "false" → r = false) ∧
      (¬ (text = ascii "1" ∨ text.map small = ascii "true") → ¬ (text = ascii "0" ∨ text.map small = ascii "false") → r = old) := by
  obtain ⟨view, ht, hg⟩ := written_get hv
  have hs := view_length ht
  have e1 : ascii "1" = [0x31] := by decide
  have e0 : ascii "0" = [0x30] := by decide
  have et : ascii "true" = kwTrue := by decide
  have ef : ascii "false" = kwFalse := by decide
  rw [e1, e0, et, ef]
  unfold getBool
  rw [hg]
  unfold toBool
  rw [hs, ht]
  simp only [equalsIgnoreCase, small_eq]
  by_cases h0 : text.length = 0
  · rw [if_pos h0]
    have := List.length_eq_zero_iff.1 h0
    subst this
    exact ⟨old, rfl, by simp [kwTrue], by simp [kwFalse], fun _ _ => rfl⟩
  · rw [if_neg h0, ok_bind]
    by_cases h1 : text.length = 1
    · rw [if_pos h1]
      match text, h1 with
      | [c], _ =>
        refine ⟨_, rfl, ?_, ?_, ?_⟩
        · rintro (h | h)
          · rw [h]; rfl
          · simp [kwTrue] at h
        · rintro (h | h)
          · rw [h]; rfl
          · simp [kwFalse] at h
        · intro ha hb
          rw [if_neg (fun h => hb (Or.inl h)), if_neg (fun h => ha (Or.inl h))]
    · rw [if_neg h1]
      have n1 : text ≠ [0x31] := fun h => h1 (by rw [h]; rfl)
      have n0 : text ≠ [0x30] := fun h => h1 (by rw [h]; rfl)
      by_cases a : text.map small = kwTrue
      · have la : text.length = kwTrue.length := by rw [← a]; simp
        rw [if_pos (by simp [a, la])]
        refine ⟨true, rfl, fun _ => rfl, ?_, fun h => absurd (Or.inr a) h⟩
        rintro (h | h)
        · exact absurd h n0
        · rw [a] at h; exact absurd h (by decide)
      · rw [if_neg (by simp [a])]
        by_cases b : text.map small = kwFalse
        · have lb : text.length = kwFalse.length := by rw [← b]; simp
          rw [if_pos (by simp [b, lb])]
          refine ⟨false, rfl, ?_, fun _ => rfl, fun _ h => absurd (Or.inr b) h⟩
          rintro (h | h)
          · exact absurd h n1
          · exact absurd h a
        · rw [if_neg (by simp [b])]
          exact ⟨old, rfl, fun h => (h.elim n1 a).elim, fun h => (h.elim n0 b).elim, fun _ _ => rfl⟩

/-- **C113.** `jsonGetBool` of a boolean gives its value; `jsonGetBool` and the functions for integers give the default value for null,
objects and arrays. -/
theorem C113_types (v : JVal) (j : Json) (old : Bool) (a : BitVec 32) (b : BitVec 64) (hv : Means v j) :
    (∀ c, j = .bool c → getBool v old = .ok c) ∧
    ((j = .null ∨ (∃ items, j = .arr items) ∨ (∃ members, j = .obj members)) →
      getBool v old = .ok old ∧ getInt v a = .ok a ∧ getUInt v a = .ok a ∧ getInt64 v b = .ok b ∧ getUInt64 v b = .ok b) := by
  constructor
  · rintro c rfl
    cases hv with
    | bool _ hs =>
      rename_i view
      change toBool view old = _
      have hl := view_length hs.2
      unfold toBool
      rw [hl, hs.2]
      cases c <;> rfl
  · rintro (rfl | ⟨items, rfl⟩ | ⟨members, rfl⟩) <;> cases hv <;> exact ⟨rfl, rfl, rfl, rfl, rfl⟩

example : Written (.scalar .string ⟨false, ascii "TrUe", 4⟩) (ascii "TrUe") ∧ (ascii "TrUe").map small = ascii "true" ∧
    Means (.scalar .bool ⟨false, ascii "false", 5⟩) (.bool false) ∧ Means (.array []) (.arr []) :=
  ⟨written_witness _, by decide +kernel, .bool false ⟨rfl, by decide⟩, .arr .nil⟩

/-! ### C114 and C115: members -/

/-- **C114.** Whatever names have been looked up before in an object, starting from any state of the cache within the object, a lookup
finds a member that has the name, and finds none only if no member has the name. -/
theorem C114_lookups (members : List (View × JVal)) (names : List (List Byte))
    (hn : List.Forall₂ (fun m t => m.1.text = .ok t) members names) :
    ∀ (wanted : List (List Byte)) (last : Nat), last ≤ members.length →
      ∃ rs, lookups members wanted last = .ok rs ∧ rs.length = wanted.length ∧
        ∀ (k : Nat) name r, wanted[k]? = some name → rs[k]? = some r →
          (∀ i, r = some i → names[i]? = some name) ∧ (r = none → name ∉ names)
  | [], last, _ => ⟨[], rfl, rfl, by simp⟩
  | w :: ws, last, hl => by
    have hlen := named_length hn
    rw [hlen] at hl
    obtain ⟨rs, h1, h2, h3⟩ := C114_lookups members names hn ws ((foundFrom names w last).getD last)
      (by rw [hlen]; exact queryMember_room hl)
    refine ⟨foundFrom names w last :: rs, ?_, by simp [h2], ?_⟩
    · rw [lookups, queryMember_eq hn w last (by omega), ok_bind]
      dsimp only
      rw [h1]
      rfl
    · intro k name r hk hr
      match k with
      | 0 =>
        simp at hk hr
        subst hk hr
        exact ⟨fun i e => foundFrom_some e, foundFrom_none⟩
      | k + 1 => exact h3 k name r hk hr

/-- **C114.** The same for the value that `jsonGetMember` returns: in an object of a document it is the value of a member with that name,
or null without a text if there is none. The cache stays within the object. -/
theorem C114_value (members : List (View × JVal)) (ms : List (List Byte × Json)) (h : Means (.object members) (.obj ms)) (name : List Byte)
    (last : Nat) (hl : last ≤ members.length) :
    ∃ v k, getMember members name last = .ok (v, k) ∧ k ≤ members.length ∧
      ((∃ m ∈ ms, m.1 = name ∧ Means v m.2) ∨ ((∀ m ∈ ms, m.1 ≠ name) ∧ v = .scalar .null ⟨true, [], 0⟩)) := by
  cases h with
  | obj hf hg =>
    have hn := named_shows (R := ⟨Shows, Shows, Shows⟩) (fun v t h => h.2) hf
    have hlen := named_length hn
    unfold getMember
    rw [queryMember_eq hn name last hl, ok_bind]
    dsimp only
    rw [hlen] at hl
    have hroom := queryMember_room (name := name) hl
    cases e : foundFrom (ms.map (·.1)) name last with
    | none =>
      refine ⟨_, _, rfl, by rw [hlen]; exact hl, Or.inr ⟨?_, rfl⟩⟩
      intro m hm hname
      exact foundFrom_none e (List.mem_map.2 ⟨m, hm, hname⟩)
    | some i =>
      have hs := foundFrom_some e
      have hi := (List.getElem?_eq_some_iff.1 hs).1
      rw [← hlen] at hi
      dsimp only
      rw [List.getElem?_eq_getElem hi]
      refine ⟨_, _, rfl, Nat.le_of_lt hi, Or.inl ?_⟩
      rcases forall2_get hg i with ⟨e1, _⟩ | ⟨x, y, e1, e2, e3⟩
      · rw [List.getElem?_map, List.getElem?_eq_getElem hi] at e1
        cases e1
      · rw [List.getElem?_map, List.getElem?_eq_getElem hi] at e1
        cases e1
        rw [List.getElem?_map] at e2 hs
        obtain ⟨p, hp, rfl⟩ := Option.map_eq_some_iff.1 e2
        rw [hp] at hs
        exact ⟨p, List.mem_of_getElem? hp, by simpa using hs, e3⟩

/-- A view of a text. -/
def viewOf (s : String) : View := ⟨false, ascii s, (ascii s).length⟩

theorem viewOf_shows (s : String) : Shows (viewOf s) (ascii s) := ⟨rfl, by simp [View.text, viewOf]⟩

/-- An object `{"a": null, "b": true, "a": false}`. -/
def twoAs : List (View × JVal) :=
  [(viewOf "a", .scalar .null (viewOf "null")), (viewOf "b", .scalar .bool (viewOf "true")), (viewOf "a", .scalar .bool (viewOf "false"))]

theorem twoAs_means : Means (.object twoAs) (.obj [(ascii "a", .null), (ascii "b", .bool true), (ascii "a", .bool false)]) :=
  .obj (.cons (viewOf_shows _) (.cons (viewOf_shows _) (.cons (viewOf_shows _) .nil)))
    (.cons (.null (viewOf_shows _)) (.cons (.bool true (viewOf_shows _)) (.cons (.bool false (viewOf_shows _)) .nil)))

example : List.Forall₂ (fun m t => m.1.text = .ok t) twoAs [ascii "a", ascii "b", ascii "a"] ∧ 3 ≤ twoAs.length ∧
    lookups twoAs [ascii "b", ascii "c", ascii "a"] 3 = .ok [some 1, none, some 2] :=
  ⟨.cons (by decide) (.cons (by decide) (.cons (by decide) .nil)), by decide, by decide +kernel⟩

/-- **C115 does not hold.** In an object with two members of the same name, looking up another member changes which of the two is
found. -/
theorem C115_not_history : lookups twoAs [ascii "a"] 0 = .ok [some 0] ∧
    lookups twoAs [ascii "b", ascii "a"] 0 = .ok [some 1, some 2] := by decide +kernel

/-- **C115, in part.** If the names are distinct, each lookup finds the member with the name, independently of earlier lookups. Missing:
objects in which two members have the same name, see `C115_not_history`. -/
theorem C115_history_partial (members : List (View × JVal)) (names : List (List Byte))
    (hn : List.Forall₂ (fun m t => m.1.text = .ok t) members names) (hd : names.Nodup) :
    ∀ (wanted : List (List Byte)) (last : Nat), last ≤ members.length →
      lookups members wanted last = .ok (wanted.map fun name => names.findIdx? fun t => t = name)
  | [], _, _ => rfl
  | w :: ws, last, hl => by
    have hlen := named_length hn
    rw [lookups, queryMember_eq hn w last hl, ok_bind]
    dsimp only
    rw [hlen] at hl
    rw [C115_history_partial members names hn hd ws _ (by rw [hlen]; exact queryMember_room hl), ok_bind, foundFrom_distinct hd]
    rfl

example : [ascii "a", ascii "b"].Nodup ∧
    List.Forall₂ (fun m t => m.1.text = .ok t) (twoAs.take 2) [ascii "a", ascii "b"] :=
  ⟨by decide, .cons (by decide) (.cons (by decide) .nil)⟩

/-! ### C116: what JSON pointers refer to -/

/-- **C116, in part.** A JSON pointer, also in the representation of fragment identifiers, gives the value it refers to, or null without
a text if it refers to nothing. Missing, each with a counterexample below: tokens that start with a digit and are no array index below
2^64, objects with names that start with a digit, and digits, `~` and `/` that are percent-encoded. Texts that are not JSON pointers are
in `C116_not_pointer`. Names with a NUL cannot be written in a pointer. Memory is granted, or the pointer is short. -/
theorem C116_refers_partial (junk : Byte) (h : Vec.Heap) (v : JVal) (j : Json) (text : List Byte) (ts : List (List Byte)) (hv : Means v j)
    (hp : Denotes (fun b => ¬ Digit b ∧ b ≠ chr '~' ∧ b ≠ chr '/') text ts) (h0 : ∀ t ∈ ts, ∀ b ∈ t, b ≠ 0)
    (ht : ∀ t ∈ ts, StartsWithDigit t → Index t ∧ decimal t < 2 ^ 64) (hj : ∀ n, HasName n j → ¬ StartsWithDigit n)
    (mem : (∀ k, h.ok k = true) ∨ text.length ≤ 64) :
    ∃ h' r, resolve junk h v text = .ok (h', r) ∧
      (∀ j', evaluate j ts = some j' → Means r j') ∧ (evaluate j ts = none → r = .scalar .null ⟨true, [], 0⟩) := by
  have key : ∀ (f : Bool) (segs : List (List Byte)), List.Forall₂ (Enc f) ts segs → ((∀ k, h.ok k = true) ∨ (joined segs).length ≤ 64) →
      ∃ h' b' r, follow junk f h ⟨.sbo, List.replicate 64 junk⟩ v (joined segs) = .ok (h', b', r) ∧ BufOk h.live h' b' ∧
        (∀ j', evaluate j ts = some j' → Means (r.getD nil) j') ∧ (evaluate j ts = none → r.getD nil = nil) := by
    intro f segs hes mem
    unfold follow
    cases hes with
    | nil =>
      refine ⟨h, _, some v, rfl, start_ok junk h, ?_, ?_⟩
      · intro j' e
        simp [evaluate] at e
        rw [← e]
        exact hv
      · intro e
        simp [evaluate] at e
    | cons he hes =>
      rename_i t seg ts' segs'
      have hjn : joined (seg :: segs') = 0x2F :: (seg ++ joined segs') := by simp [joined]
      rw [hjn, List.dropWhile_cons, if_neg (by simp)]
      dsimp only
      obtain ⟨h', b', r, w1, w2, w3⟩ := walk_means (L := h.live) junk f (R := ⟨Shows, Shows, Shows⟩) (fun v t h => h.2) ts' segs' t seg
        ((seg ++ joined segs').length + 1) h ⟨.sbo, List.replicate 64 junk⟩ v j (start_ok junk h) hv he hes h0 ht hj
        (mem.imp id (fun x s hs => by
          have := joined_length _ s hs
          omega)) (by omega)
      refine ⟨h', b', r, w1, w2, ?_, ?_⟩
      · intro j' e
        rcases w3 with ⟨j'', u, e1, rfl, e3⟩ | ⟨e1, _⟩
        · rw [e1] at e
          cases e
          exact e3
        · rw [e1] at e
          cases e
      · intro e
        rcases w3 with ⟨j'', u, e1, rfl, e3⟩ | ⟨_, e2⟩
        · rw [e1] at e
          cases e
        · exact e2
  unfold resolve
  rcases hp with rfl | ⟨s, hs, rfl⟩
  · obtain ⟨segs, hes, e⟩ := pointer_plain ts
    rw [e] at mem ⊢
    have hh : (joined segs).head? ≠ some 0x23 := by
      cases segs <;> simp [joined]
    obtain ⟨h', b', r, w1, w2, w3, w4⟩ := key false segs hes mem
    simp only [hh, decide_false, Bool.false_eq_true, if_false]
    rw [w1, ok_bind]
    dsimp only
    obtain ⟨h'', f1, f2⟩ := free_ok w2
    rw [f1, ok_bind]
    exact ⟨h'', _, rfl, w3, w4⟩
  · obtain ⟨segs, hes, rfl⟩ := pointer_percent ts hs
    have hh : (chr '#' :: joined segs).head? = some 0x23 := rfl
    obtain ⟨h', b', r, w1, w2, w3, w4⟩ := key true segs hes (mem.imp id (fun x => by simp at x; omega))
    simp only [hh, decide_true, if_true, List.tail_cons]
    rw [w1, ok_bind]
    dsimp only
    obtain ⟨h'', f1, f2⟩ := free_ok w2
    rw [f1, ok_bind]
    exact ⟨h'', _, rfl, w3, w4⟩

/-- Memory in which nothing is allocated, and all requests are granted. -/
def someHeap : Vec.Heap := ⟨0, [], fun _ => true⟩

/-- The value `{"a/b": [null, true], "m~n": false}`. -/
def sample : JVal :=
  .object [(viewOf "a/b", .array [.scalar .null (viewOf "null"), .scalar .bool (viewOf "true")]), (viewOf "m~n", .scalar .bool (viewOf "false"))]

/-- What it means. -/
def sampleMeaning : Json := .obj [(ascii "a/b", .arr [.null, .bool true]), (ascii "m~n", .bool false)]

theorem sample_means : Means sample sampleMeaning :=
  .obj (.cons (viewOf_shows _) (.cons (viewOf_shows _) .nil))
    (.cons (.arr (.cons (.null (viewOf_shows _)) (.cons (.bool true (viewOf_shows _)) .nil))) (.cons (.bool false (viewOf_shows _)) .nil))

/-- The conditions are met by the pointer `/a~1b/1` and the fragment identifier `#/m~0%6E`. -/
example : Means sample sampleMeaning ∧ pointerText [ascii "a/b", ascii "1"] = ascii "/a~1b/1" ∧
    evaluate sampleMeaning [ascii "a/b", ascii "1"] = some (.bool true) ∧
    resolve 0xCC someHeap sample (ascii "/a~1b/1") = .ok (someHeap, .scalar .bool (viewOf "true")) ∧
    Denotes (fun b => ¬ Digit b ∧ b ≠ chr '~' ∧ b ≠ chr '/') (ascii "#/m~0%6E") [ascii "m~n"] ∧
    (∀ n, HasName n sampleMeaning → ¬ StartsWithDigit n) := by
  refine ⟨sample_means, by decide, ?_, ?_, Or.inr ⟨ascii "/m~0%6E", ?_, rfl⟩, ?_⟩
  · simp only [sampleMeaning, evaluate]
    rfl
  · rfl
  · exact .plain (by decide) (.plain (by decide) (.plain (by decide) (.plain (by decide)
      (.encoded (m := 6) (n := 14) (by decide) (by decide) (by decide) .nil))))
  · intro n hn
    cases hn with
    | here hm e =>
      simp at hm
      rcases hm with rfl | rfl <;> subst e <;> rintro ⟨b, hb, hd⟩ <;> simp [ascii] at hb <;> subst hb <;> revert hd <;> decide
    | member hm hn =>
      simp at hm
      rcases hm with rfl | rfl
      · cases hn with
        | item hj hn =>
          simp at hj
          rcases hj with rfl | rfl <;> cases hn
      · cases hn

/-- **C116 does not hold.** A member whose name starts with a digit is not found. -/
theorem C116_not_digits : Means (.object [(viewOf "1st", .scalar .null (viewOf "null"))]) (.obj [(ascii "1st", .null)]) ∧
    evaluate (.obj [(ascii "1st", .null)]) [ascii "1st"] = some .null ∧
    resolve 0xCC someHeap (.object [(viewOf "1st", .scalar .null (viewOf "null"))]) (pointerText [ascii "1st"]) = .ok (someHeap, nil) :=
  ⟨.obj (.cons (viewOf_shows _) .nil) (.cons (.null (viewOf_shows _)) .nil), rfl, rfl⟩

/-- An array `[null, true]`. -/
def pair : JVal := .array [.scalar .null (viewOf "null"), .scalar .bool (viewOf "true")]

/-- **C116 does not hold.** An index of 2^64 or more gives the first element; so does one of more than 64 digits. Indices with leading
zeros, and digits followed by other characters, are accepted. -/
theorem C116_not_index : Means pair (.arr [.null, .bool true]) ∧
    (∀ t ∈ [ascii "18446744073709551616", chr '1' :: List.replicate 64 (chr '0'), ascii "01", ascii "1x"],
      evaluate (.arr [.null, .bool true]) [t] = none) ∧
    resolve 0xCC someHeap pair (ascii "/18446744073709551616") = .ok (someHeap, .scalar .null (viewOf "null")) ∧
    resolve 0xCC someHeap pair (chr '/' :: chr '1' :: List.replicate 64 (chr '0')) = .ok (someHeap, .scalar .null (viewOf "null")) ∧
    resolve 0xCC someHeap pair (ascii "/01") = .ok (someHeap, .scalar .bool (viewOf "true")) ∧
    resolve 0xCC someHeap pair (ascii "/1x") = .ok (someHeap, .scalar .bool (viewOf "true")) := by
  refine ⟨.arr (.cons (.null (viewOf_shows _)) (.cons (.bool true (viewOf_shows _)) .nil)), ?_, rfl, rfl, rfl, rfl⟩
  have hz : ∀ (d : Nat) (t : List Byte), 2 ≤ decimal t → evaluate (.arr [.null, .bool true]) [t] = none := by
    intro d t h
    have : ([Json.null, Json.bool true])[decimal t]? = none := by
      rw [List.getElem?_eq_none_iff]
      simpa using h
    simp only [evaluate, this]
    split <;> rfl
  have hn : ∀ t : List Byte, ¬ Index t → evaluate (.arr [.null, .bool true]) [t] = none := by
    intro t h
    simp only [evaluate, h, if_false]
  intro t ht
  simp only [List.mem_cons, List.not_mem_nil, or_false] at ht
  rcases ht with rfl | rfl | rfl | rfl
  · exact hz 0 _ (by decide +kernel)
  · exact hz 0 _ (by decide +kernel)
  · exact hn _ (by decide +kernel)
  · exact hn _ (by decide +kernel)

/-- **C116 does not hold.** A percent-encoded `~` or `/` is not treated like the character. -/
theorem C116_not_percent : Means sample sampleMeaning ∧
    Denotes (fun _ => True) (ascii "#/m%7E0n") [ascii "m~n"] ∧ evaluate sampleMeaning [ascii "m~n"] = some (.bool false) ∧
    resolve 0xCC someHeap sample (ascii "#/m%7E0n") = .ok (someHeap, nil) ∧
    Denotes (fun _ => True) (ascii "#/a%2Fb") [ascii "a", ascii "b"] ∧ evaluate sampleMeaning [ascii "a", ascii "b"] = none ∧
    resolve 0xCC someHeap sample (ascii "#/a%2Fb") = .ok (someHeap, pair) := by
  refine ⟨sample_means, Or.inr ⟨ascii "/m%7E0n", ?_, rfl⟩, rfl, rfl, Or.inr ⟨ascii "/a%2Fb", ?_, rfl⟩, rfl, rfl⟩
  · exact .plain (by decide) (.plain (by decide) (.encoded (m := 7) (n := 14) (by decide) (by decide) trivial
      (.plain (by decide) (.plain (by decide) .nil))))
  · exact .plain (by decide) (.plain (by decide) (.encoded (m := 2) (n := 15) (by decide) (by decide) trivial
      (.plain (by decide) .nil)))

theorem pointer_starts {ts : List (List Byte)} : ∀ c t, pointerText ts = c :: t → c = chr '/' := by
  intro c t h
  cases ts with
  | nil => simp [pointerText] at h
  | cons t' ts => simp [pointerText] at h; exact h.1.symm

/-- **C116 does not hold.** A text that is not a JSON pointer may give a value: what precedes the first slash is ignored. -/
theorem C116_not_pointer (v : JVal) : (∀ ts, ¬ Denotes (fun _ => True) (ascii "foo") ts) ∧
    resolve 0xCC someHeap v (ascii "foo") = .ok (someHeap, v) := by
  refine ⟨?_, rfl⟩
  rintro ts (h | ⟨s, _, h⟩)
  · exact absurd (pointer_starts _ _ h.symm) (by decide)
  · exact absurd (List.cons.inj h).1 (by decide)

/-! ### C117: JSON pointers are safe -/

/-- **C117.** For every value of a document, every text and every pattern of failing allocations: no fault, all memory is released, and
the result is null without a text or the value or a part of it. `R` stands for how the document shows names and strings; names can be
read. -/
theorem C117_safe (junk : Byte) (h : Vec.Heap) (v : JVal) (j : Json) (text : List Byte) (R : Shown)
    (hR : ∀ v t, R.name v t → Readable v) (hv : MeansBy R v j) :
    ∃ h' r, resolve junk h v text = .ok (h', r) ∧ h'.live = h.live ∧ (r = .scalar .null ⟨true, [], 0⟩ ∨ PartOf r v) := by
  have hw : ∀ w, PartOf w v → Whole w := by
    intro w hi
    obtain ⟨j', hj⟩ := inside_means hv hi
    exact means_whole (fun v t h => (hR v t h).2) hj
  have key : ∀ (f : Bool) (s : List Byte),
      ∃ h' b' r, follow junk f h ⟨.sbo, List.replicate 64 junk⟩ v s = .ok (h', b', r) ∧ BufOk h.live h' b' ∧
        ∀ w, r = some w → w = nil ∨ PartOf w v := by
    intro f s
    unfold follow
    cases hs : s.dropWhile (· ≠ 0x2F) with
    | nil =>
      refine ⟨h, _, some v, rfl, start_ok junk h, ?_⟩
      intro w e
      cases e
      exact Or.inr .self
    | cons c t =>
      exact walk_safe junk f hw (t.length + 1) h _ v t (start_ok junk h) (Or.inr .self) (by omega)
  unfold resolve
  obtain ⟨h', b', r, w1, w2, w3⟩ := key (decide (text.head? = some 0x23)) (if text.head? = some 0x23 then text.tail else text)
  simp only [decide_eq_true_eq]
  rw [w1, ok_bind]
  dsimp only
  obtain ⟨h'', f1, f2⟩ := free_ok w2
  rw [f1, ok_bind]
  refine ⟨h'', _, rfl, f2, ?_⟩
  match r, w3 with
  | none, _ => exact Or.inl rfl
  | some w, w3 => exact w3 w rfl

example : MeansBy ⟨Shows, Shows, Shows⟩ sample sampleMeaning ∧ (∀ v t, Shows v t → Readable v) ∧
    resolve 0xCC ⟨0, [7], fun _ => false⟩ sample (chr '/' :: List.replicate 100 (chr 'a')) = .ok (⟨1, [7], fun _ => false⟩, nil) ∧
    resolve 0xCC ⟨0, [], fun _ => true⟩ sample (ascii "#/%4") = .ok (⟨0, [], fun _ => true⟩, nil) :=
  ⟨sample_means, fun v t h => ⟨h.1, t, h.2⟩, rfl, rfl⟩

end Tm.Json
