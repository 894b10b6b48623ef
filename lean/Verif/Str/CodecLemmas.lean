import Verif.Str.Codec
import Verif.Str.CodecSpec
import Verif.Str.FindZ
import Verif.Num.Lemmas

namespace Tm.Str

open Tm.Num

/-! ### Writing into a buffer -/

theorem splice_splice {α : Type} (buf : List α) (p : Nat) (s t : List α) (h : p + s.length + t.length ≤ buf.length) :
    splice (splice buf p s) (p + s.length) t = splice buf p (s ++ t) := by
  apply List.ext_getElem?
  intro i
  have hl := splice_length buf p s (by omega)
  rw [splice_get _ _ _ (by omega), splice_get _ _ _ (by omega), splice_get _ _ _ (by rw [List.length_append]; omega)]
  rw [List.length_append, List.getElem?_append]
  by_cases h1 : p ≤ i ∧ i < p + s.length
  · rw [if_neg (by omega), if_pos h1, if_pos (by omega), if_pos (by omega)]
  · by_cases h2 : p + s.length ≤ i ∧ i < p + s.length + t.length
    · rw [if_pos h2, if_pos (by omega), if_neg (by omega)]
      congr 1; omega
    · rw [if_neg h2, if_neg h1, if_neg (by omega)]

theorem wr_one {α : Type} (buf : List α) (p : Nat) (v : α) (h : p < buf.length) : wr buf p v = .ok (splice buf p [v]) := by
  have := wr_splice_snoc buf p [] v (by simp; omega)
  rw [splice_nil] at this
  simpa using this

theorem wr_len {α : Type} (buf : List α) (p : Nat) (v : α) (h : p < buf.length) :
    ∃ o, wr buf p v = .ok o ∧ o.length = buf.length := ⟨_, by rw [wr, if_pos h], by simp⟩

theorem putGuarded_len (buf : List Byte) (p : Nat) (v : Byte) : ∃ o, putGuarded buf p v = .ok o ∧ o.length = buf.length := by
  rw [putGuarded]
  by_cases h : p + 1 < buf.length
  · rw [if_pos h]; exact wr_len _ _ _ (by omega)
  · rw [if_neg h]; exact ⟨_, rfl, rfl⟩

theorem putGuarded_one (buf : List Byte) (p : Nat) (v : Byte) (h : p + 1 < buf.length) :
    putGuarded buf p v = .ok (splice buf p [v]) := by rw [putGuarded, if_pos h, wr_one _ _ _ (by omega)]

theorem putGuarded_snoc (buf : List Byte) (p q : Nat) (t : List Byte) (v : Byte) (hq : q = p + t.length) (h : q + 1 < buf.length) :
    putGuarded (splice buf p t) q v = .ok (splice buf p (t ++ [v])) := by
  subst hq
  rw [putGuarded, if_pos (by rw [splice_length _ _ _ (by omega)]; omega), wr_splice_snoc _ _ _ _ (by omega)]

theorem wr_snoc' (buf : List Byte) (p q : Nat) (t : List Byte) (v : Byte) (hq : q = p + t.length) (h : q < buf.length) :
    wr (splice buf p t) q v = .ok (splice buf p (t ++ [v])) := by
  subst hq
  rw [wr_splice_snoc _ _ _ _ (by omega)]

/-! ### Bits of a group -/

theorem shl_or {x y : Nat} (k : Nat) (h : y < 2 ^ k) : (x <<< k) ||| y = x * 2 ^ k + y := by
  rw [← Nat.shiftLeft_add_eq_or_of_lt h, Nat.shiftLeft_eq]

theorem enc0 (a : Nat) : a >>> 2 = a / 4 := by rw [Nat.shiftRight_eq_div_pow]
theorem enc1 (a b : Nat) (hb : b < 256) : ((a &&& 3) <<< 4) ||| (b >>> 4) = a % 4 * 16 + b / 16 := by
  rw [Nat.shiftRight_eq_div_pow, shl_or 4 (by omega), show (3 : Nat) = 2 ^ 2 - 1 from rfl, Nat.and_two_pow_sub_one_eq_mod]
  rfl
theorem enc2 (b c : Nat) (hc : c < 256) : ((b &&& 15) <<< 2) ||| (c >>> 6) = b % 16 * 4 + c / 64 := by
  rw [Nat.shiftRight_eq_div_pow, shl_or 2 (by omega), show (15 : Nat) = 2 ^ 4 - 1 from rfl, Nat.and_two_pow_sub_one_eq_mod]
  rfl
theorem enc2' (b : Nat) : ((b &&& 15) <<< 2) = b % 16 * 4 := by
  rw [Nat.shiftLeft_eq, show (15 : Nat) = 2 ^ 4 - 1 from rfl, Nat.and_two_pow_sub_one_eq_mod]
theorem enc3 (c : Nat) : c &&& 63 = c % 64 := by
  rw [show (63 : Nat) = 2 ^ 6 - 1 from rfl, Nat.and_two_pow_sub_one_eq_mod]

theorem byte0_eq {v0 v1 : Nat} (h1 : v1 < 64) : b64Byte0 v0 v1 = BitVec.ofNat 8 (v0 * 4 + v1 / 16) := by
  rw [b64Byte0, Nat.shiftRight_eq_div_pow, shl_or 2 (by omega)]
  rfl
theorem byte1_eq {v1 v2 : Nat} (h2 : v2 < 64) : b64Byte1 v1 v2 = BitVec.ofNat 8 (v1 % 16 * 16 + v2 / 4) := by
  rw [b64Byte1, show (240 : Nat) = 15 <<< 4 from rfl, ← Nat.shiftLeft_and_distrib, Nat.shiftRight_eq_div_pow,
    shl_or 4 (by omega), show (15 : Nat) = 2 ^ 4 - 1 from rfl, Nat.and_two_pow_sub_one_eq_mod]
  rfl
theorem byte2_eq {v2 v3 : Nat} (h3 : v3 < 64) : b64Byte2 v2 v3 = BitVec.ofNat 8 (v2 % 4 * 64 + v3) := by
  rw [b64Byte2, show (192 : Nat) = 3 <<< 6 from rfl, ← Nat.shiftLeft_and_distrib, 
    shl_or 6 (by omega), show (3 : Nat) = 2 ^ 2 - 1 from rfl, Nat.and_two_pow_sub_one_eq_mod]
  rfl

theorem ofNat_toNat8 (x : Byte) (n : Nat) (h : n = x.toNat) : BitVec.ofNat 8 n = x := by subst h; simp

/-! ### The tables -/

/-- The character table `chars` holds the alphabet. -/
structure Table (chars : List Byte) (α : Nat → Byte) : Prop where
  get : ∀ i < 64, rd chars i = .ok (α i)
  val : ∀ i < 64, b64Value chars (α i) = .ok i
  any : ∀ c, ∃ r, b64Value chars c = .ok r ∧ r ≤ 64
  pad : b64Value chars 61 = .ok 64
  inv : ∀ c r, b64Value chars c = .ok r → r < 64 → c = α r

theorem value_any {chars s : List Byte} (h : ZStr chars 0 s) (c : Byte) : ∃ r, b64Value chars c = .ok r ∧ r ≤ s.length := by
  obtain ⟨r, hr, hs⟩ := findChar_spec c h
  refine ⟨r, hr, ?_⟩
  rcases hs with ⟨h1, h2, _⟩ | ⟨rfl, _⟩ <;> omega

theorem value_inv {chars s : List Byte} (h : ZStr chars 0 s) (hs : s.length = 64) {c a : Byte} {r : Nat}
    (hv : b64Value chars c = .ok r) (hr : r < 64) (ha : r < 64 → rd chars r = .ok a) : c = a := by
  obtain ⟨r', hr', hf⟩ := findChar_spec c h
  rw [b64Value, hr'] at hv
  cases hv
  rcases hf with ⟨_, _, ⟨x, hx, rfl⟩, _⟩ | ⟨rfl, _⟩
  · have := ha hr
    rw [rd, hx] at this
    cases this; rfl
  · omega

theorem table64 : Table base64Chars (b64Alphabet 43 47) where
  get := by decide
  val := by decide
  any c := value_any (s := base64Chars.dropLast) ⟨⟨[], rfl⟩, by decide⟩ c
  pad := by decide
  inv := fun c r h hr => value_inv (s := base64Chars.dropLast) ⟨⟨[], rfl⟩, by decide⟩ (by decide) h hr (by clear h; revert r; decide)

theorem tableUrl : Table base64urlChars (b64Alphabet 45 95) where
  get := by decide
  val := by decide
  any c := value_any (s := base64urlChars.dropLast) ⟨⟨[], rfl⟩, by decide⟩ c
  pad := by decide
  inv := fun c r h hr => value_inv (s := base64urlChars.dropLast) ⟨⟨[], rfl⟩, by decide⟩ (by decide) h hr (by clear h; revert r; decide)

/-! ### Encoding -/

/-- The loop followed by the tail. -/
def b64Enc (chars : List Byte) (pad : Bool) (input out : List Byte) (oi : Nat) : C (Nat × List Byte) := do
  let (oi, out, rest) ← b64EncLoop chars input out oi
  match rest with
  | [] => .ok (oi, out)
  | [x] => b64EncTail chars pad x.toNat 0 false out oi
  | [x, y] => b64EncTail chars pad x.toNat y.toNat true out oi
  | _ => .error .assertion

theorem b64EncodeChars_eq (chars : List Byte) (pad : Bool) (input out : List Byte) :
    b64EncodeChars chars pad input out = b64Enc chars pad input out 0 := rfl

variable {chars : List Byte} {α : Nat → Byte}

theorem b64Enc_step_write (ht : Table chars α) (pad : Bool) (x y z : Byte) (rest out : List Byte) (oi : Nat)
    (h : oi + 4 < out.length) :
    b64Enc chars pad (x :: y :: z :: rest) out oi =
      b64Enc chars pad rest (splice out oi ((sextets (x.toNat * 65536 + y.toNat * 256 + z.toNat)).map α)) (oi + 4) := by
  have hx := x.isLt
  have hy := y.isLt
  have hz := z.isLt
  rw [b64Enc, b64EncLoop]
  simp only [enc0, enc1 _ _ hy, enc2 _ _ hz, enc3]
  rw [assert_ok (b := decide (x.toNat / 4 < 64)) (by simp; omega),
    assert_ok (b := decide (x.toNat % 4 * 16 + y.toNat / 16 < 64)) (by simp; omega),
    assert_ok (b := decide (y.toNat % 16 * 4 + z.toNat / 64 < 64)) (by simp; omega),
    assert_ok (b := decide (z.toNat % 64 < 64)) (by simp; omega)]
  simp only [ok_bind]
  rw [if_pos h, ht.get _ (by omega), ht.get _ (by omega), ht.get _ (by omega), ht.get _ (by omega)]
  simp only [ok_bind]
  rw [wr_one _ _ _ (by omega), ok_bind, wr_snoc' _ _ _ _ _ (by simp) (by omega), ok_bind,
    wr_snoc' _ _ _ _ _ (by simp) (by omega), ok_bind, wr_snoc' _ _ _ _ _ (by simp) (by omega), ok_bind]
  have e : (sextets (x.toNat * 65536 + y.toNat * 256 + z.toNat)).map α =
      [α (x.toNat / 4)] ++ [α (x.toNat % 4 * 16 + y.toNat / 16)] ++ [α (y.toNat % 16 * 4 + z.toNat / 64)] ++ [α (z.toNat % 64)] := by
    have e0 : (x.toNat * 65536 + y.toNat * 256 + z.toNat) / 2 ^ 18 % 64 = x.toNat / 4 := by omega
    have e1 : (x.toNat * 65536 + y.toNat * 256 + z.toNat) / 2 ^ 12 % 64 = x.toNat % 4 * 16 + y.toNat / 16 := by omega
    have e2 : (x.toNat * 65536 + y.toNat * 256 + z.toNat) / 2 ^ 6 % 64 = y.toNat % 16 * 4 + z.toNat / 64 := by omega
    have e3 : (x.toNat * 65536 + y.toNat * 256 + z.toNat) % 64 = z.toNat % 64 := by omega
    rw [sextets, e0, e1, e2, e3]
    rfl
  rw [e, b64Enc]

theorem b64Enc_step_skip (pad : Bool) (x y z : Byte) (rest out : List Byte) (oi : Nat)
    (h : ¬ oi + 4 < out.length) :
    b64Enc chars pad (x :: y :: z :: rest) out oi = b64Enc chars pad rest out (oi + 4) := by
  have hx := x.isLt
  have hy := y.isLt
  have hz := z.isLt
  rw [b64Enc, b64EncLoop]
  simp only [enc0, enc1 _ _ hy, enc2 _ _ hz, enc3]
  rw [assert_ok (b := decide (x.toNat / 4 < 64)) (by simp; omega),
    assert_ok (b := decide (x.toNat % 4 * 16 + y.toNat / 16 < 64)) (by simp; omega),
    assert_ok (b := decide (y.toNat % 16 * 4 + z.toNat / 64 < 64)) (by simp; omega),
    assert_ok (b := decide (z.toNat % 64 < 64)) (by simp; omega)]
  simp only [ok_bind]
  rw [if_neg h, b64Enc]

/-- What follows the reading of the characters in the tail. -/
def b64TailOut (pad two : Bool) (c0 c1 c2 : Byte) (out : List Byte) (oi : Nat) : C (Nat × List Byte) := do
  let (out, oi) ←
    if oi + 2 < out.length then do
      let out ← wr out oi c0
      let out ← wr out (oi + 1) c1
      .ok (out, oi + 2)
    else (.ok (out, oi) : C (List Byte × Nat))
  let (out, oi) ←
    if two then do
      let out ← putGuarded out oi c2
      .ok (out, oi + 1)
    else if pad then do
      let out ← putGuarded out oi 61
      .ok (out, oi + 1)
    else (.ok (out, oi) : C (List Byte × Nat))
  if pad then do
    let out ← putGuarded out oi 61
    .ok (oi + 1, out)
  else .ok (oi, out)

theorem b64EncTail_eq (ht : Table chars α) (pad : Bool) {a b : Nat} (ha : a < 256) (hb : b < 256) (two : Bool)
    (out : List Byte) (oi : Nat) :
    b64EncTail chars pad a b two out oi =
      b64TailOut pad two (α (a / 4)) (α (a % 4 * 16 + b / 16)) (α (b % 16 * 4)) out oi := by
  rw [b64EncTail]
  simp only [enc0, enc1 _ _ hb, enc2']
  rw [assert_ok (b := decide (a / 4 < 64)) (by simp; omega),
    assert_ok (b := decide (a % 4 * 16 + b / 16 < 64)) (by simp; omega),
    assert_ok (b := decide (b % 16 * 4 < 64)) (by simp; omega)]
  simp only [ok_bind]
  rw [ht.get _ (by omega), ht.get _ (by omega), ht.get _ (by omega)]
  rfl

/-- The characters of the tail. -/
def tailText (pad two : Bool) (c0 c1 c2 : Byte) : List Byte :=
  [c0, c1] ++ (if two then [c2] else if pad then [61] else []) ++ (if pad then [61] else [])

theorem b64TailOut_full (pad two : Bool) (c0 c1 c2 : Byte) (out : List Byte) (oi : Nat)
    (h : oi + (tailText pad two c0 c1 c2).length < out.length) :
    b64TailOut pad two c0 c1 c2 out oi = .ok (oi + (tailText pad two c0 c1 c2).length, splice out oi (tailText pad two c0 c1 c2)) := by
  have h2 : oi + 2 < out.length := by
    simp only [tailText, List.length_append, List.length_cons, List.length_nil] at h; omega
  rw [b64TailOut, if_pos h2, wr_one _ _ _ (by omega), ok_bind, wr_snoc' _ _ _ _ _ (by simp) (by omega)]
  simp only [ok_bind]
  cases two <;> cases pad <;> simp only [tailText, Bool.false_eq_true, if_false, if_true, ok_bind, List.length_append, List.length_cons,
    List.length_nil, List.append_nil] at h ⊢ <;>
    (try rw [putGuarded_snoc _ _ _ _ _ (by simp) (by omega)]) <;> (try simp only [ok_bind]) <;>
    (try rw [putGuarded_snoc _ _ _ _ _ (by simp) (by omega)]) <;> (try simp only [ok_bind]) <;> rfl

theorem b64TailOut_len (pad two : Bool) (c0 c1 c2 : Byte) (out : List Byte) (oi : Nat) :
    ∃ o, o.length = out.length ∧ b64TailOut pad two c0 c1 c2 out oi =
      .ok (if oi + 2 < out.length then oi + (tailText pad two c0 c1 c2).length else oi + (tailText pad two c0 c1 c2).length - 2, o) := by
  rw [b64TailOut]
  by_cases h : oi + 2 < out.length
  · rw [if_pos h, if_pos h]
    obtain ⟨o1, e1, l1⟩ := wr_len out oi c0 (by omega)
    obtain ⟨o2, e2, l2⟩ := wr_len o1 (oi + 1) c1 (by omega)
    rw [e1, ok_bind, e2]
    simp only [ok_bind]
    cases two <;> cases pad <;> simp only [tailText, Bool.false_eq_true, if_false, if_true, ok_bind]
    · exact ⟨o2, by omega, rfl⟩
    · obtain ⟨o3, e3, l3⟩ := putGuarded_len o2 (oi + 2) 61
      obtain ⟨o4, e4, l4⟩ := putGuarded_len o3 (oi + 2 + 1) 61
      rw [e3]; simp only [ok_bind]; rw [e4]; exact ⟨o4, by omega, rfl⟩
    · obtain ⟨o3, e3, l3⟩ := putGuarded_len o2 (oi + 2) c2
      rw [e3]; exact ⟨o3, by omega, rfl⟩
    · obtain ⟨o3, e3, l3⟩ := putGuarded_len o2 (oi + 2) c2
      obtain ⟨o4, e4, l4⟩ := putGuarded_len o3 (oi + 2 + 1) 61
      rw [e3]; simp only [ok_bind]; rw [e4]; exact ⟨o4, by omega, rfl⟩
  · rw [if_neg h, if_neg h]
    simp only [ok_bind]
    cases two <;> cases pad <;> simp only [tailText, Bool.false_eq_true, if_false, if_true, ok_bind]
    · exact ⟨out, rfl, rfl⟩
    · obtain ⟨o3, e3, l3⟩ := putGuarded_len out oi 61
      obtain ⟨o4, e4, l4⟩ := putGuarded_len o3 (oi + 1) 61
      rw [e3]; simp only [ok_bind]; rw [e4]; exact ⟨o4, by omega, rfl⟩
    · obtain ⟨o3, e3, l3⟩ := putGuarded_len out oi c2
      rw [e3]; exact ⟨o3, by omega, rfl⟩
    · obtain ⟨o3, e3, l3⟩ := putGuarded_len out oi c2
      obtain ⟨o4, e4, l4⟩ := putGuarded_len o3 (oi + 1) 61
      rw [e3]; simp only [ok_bind]; rw [e4]; exact ⟨o4, by omega, rfl⟩

theorem rfc_two (pad : Bool) (x y : Byte) : rfc4648 α pad [x, y] =
    tailText pad true (α (x.toNat / 4)) (α (x.toNat % 4 * 16 + y.toNat / 16)) (α (y.toNat % 16 * 4)) := by
  have hx := x.isLt
  have hy := y.isLt
  have e0 : (x.toNat * 65536 + y.toNat * 256) / 2 ^ 18 % 64 = x.toNat / 4 := by omega
  have e1 : (x.toNat * 65536 + y.toNat * 256) / 2 ^ 12 % 64 = x.toNat % 4 * 16 + y.toNat / 16 := by omega
  have e2 : (x.toNat * 65536 + y.toNat * 256) / 2 ^ 6 % 64 = y.toNat % 16 * 4 := by omega
  rw [rfc4648, sextets, tailText, e0, e1, e2]
  simp

theorem rfc_one (pad : Bool) (x : Byte) : rfc4648 α pad [x] =
    tailText pad false (α (x.toNat / 4)) (α (x.toNat % 4 * 16 + 0 / 16)) (α (0 % 16 * 4)) := by
  have hx := x.isLt
  have e0 : (x.toNat * 65536) / 2 ^ 18 % 64 = x.toNat / 4 := by omega
  have e1 : (x.toNat * 65536) / 2 ^ 12 % 64 = x.toNat % 4 * 16 := by omega
  rw [rfc4648, sextets, tailText, e0, e1]
  cases pad <;> simp

theorem rfc_three (pad : Bool) (x y z : Byte) (rest : List Byte) : rfc4648 α pad (x :: y :: z :: rest) =
    (sextets (x.toNat * 65536 + y.toNat * 256 + z.toNat)).map α ++ rfc4648 α pad rest := by rw [rfc4648]

theorem sextets_length (n : Nat) : ((sextets n).map α).length = 4 := rfl

theorem b64Enc_full (ht : Table chars α) (pad : Bool) : ∀ (input out : List Byte) (oi : Nat),
    oi + (rfc4648 α pad input).length < out.length →
    b64Enc chars pad input out oi = .ok (oi + (rfc4648 α pad input).length, splice out oi (rfc4648 α pad input))
  | [], out, oi, _ => by rw [rfc4648, splice_nil]; rfl
  | [x], out, oi, h => by
    rw [rfc_one] at h ⊢
    rw [← b64TailOut_full _ _ _ _ _ _ _ h, ← b64EncTail_eq ht pad x.isLt (by omega)]; rfl
  | [x, y], out, oi, h => by
    rw [rfc_two] at h ⊢
    rw [← b64TailOut_full _ _ _ _ _ _ _ h, ← b64EncTail_eq ht pad x.isLt y.isLt]; rfl
  | x :: y :: z :: rest, out, oi, h => by
    rw [rfc_three, List.length_append, sextets_length] at h ⊢
    rw [b64Enc_step_write ht pad x y z rest out oi (by omega),
      b64Enc_full ht pad rest _ _ (by rw [splice_length _ _ _ (by rw [sextets_length]; omega)]; omega)]
    have := splice_splice out oi ((sextets (x.toNat * 65536 + y.toNat * 256 + z.toNat)).map α) (rfc4648 α pad rest)
      (by rw [sextets_length]; omega)
    rw [sextets_length] at this
    rw [this, Nat.add_assoc]

theorem b64Enc_len (ht : Table chars α) (pad : Bool) : ∀ (input out : List Byte) (oi : Nat),
    ∃ o, o.length = out.length ∧ b64Enc chars pad input out oi =
      .ok (if input.length % 3 = 0 ∨ oi + 4 * (input.length / 3) + 2 < out.length then oi + (rfc4648 α pad input).length
        else oi + (rfc4648 α pad input).length - 2, o)
  | [], out, oi => ⟨out, rfl, by rw [rfc4648, if_pos (by simp)]; rfl⟩
  | [x], out, oi => by
    obtain ⟨o, hl, he⟩ := b64TailOut_len pad false (α (x.toNat / 4)) (α (x.toNat % 4 * 16 + 0 / 16)) (α (0 % 16 * 4)) out oi
    refine ⟨o, hl, ?_⟩
    rw [← b64EncTail_eq ht pad x.isLt (by omega), ← rfc_one] at he
    have e : ([x].length % 3 = 0 ∨ oi + 4 * ([x].length / 3) + 2 < out.length) ↔ oi + 2 < out.length := by simp
    rw [if_congr e rfl rfl, ← he]; rfl
  | [x, y], out, oi => by
    obtain ⟨o, hl, he⟩ := b64TailOut_len pad true (α (x.toNat / 4)) (α (x.toNat % 4 * 16 + y.toNat / 16)) (α (y.toNat % 16 * 4)) out oi
    refine ⟨o, hl, ?_⟩
    rw [← b64EncTail_eq ht pad x.isLt y.isLt, ← rfc_two] at he
    have e : ([x, y].length % 3 = 0 ∨ oi + 4 * ([x, y].length / 3) + 2 < out.length) ↔ oi + 2 < out.length := by simp
    rw [if_congr e rfl rfl, ← he]; rfl
  | x :: y :: z :: rest, out, oi => by
    rw [rfc_three, List.length_append, sextets_length]
    have key : ∀ n r : Nat, (if (x :: y :: z :: rest).length % 3 = 0 ∨ oi + 4 * ((x :: y :: z :: rest).length / 3) + 2 < n then oi + (4 + r)
        else oi + (4 + r) - 2) = (if rest.length % 3 = 0 ∨ oi + 4 + 4 * (rest.length / 3) + 2 < n then oi + 4 + r else oi + 4 + r - 2) := by
      intro n r
      have e : ((x :: y :: z :: rest).length % 3 = 0 ∨ oi + 4 * ((x :: y :: z :: rest).length / 3) + 2 < n) ↔
          (rest.length % 3 = 0 ∨ oi + 4 + 4 * (rest.length / 3) + 2 < n) := by
        simp only [List.length_cons]; omega
      rw [if_congr e rfl rfl, Nat.add_assoc oi 4 r]
    rw [key]
    by_cases h : oi + 4 < out.length
    · rw [b64Enc_step_write ht pad x y z rest out oi h]
      have hl := splice_length out oi ((sextets (x.toNat * 65536 + y.toNat * 256 + z.toNat)).map α) (by rw [sextets_length]; omega)
      obtain ⟨o, ho, he⟩ := b64Enc_len ht pad rest (splice out oi ((sextets (x.toNat * 65536 + y.toNat * 256 + z.toNat)).map α)) (oi + 4)
      rw [hl] at ho he
      exact ⟨o, ho, he⟩
    · rw [b64Enc_step_skip pad x y z rest out oi h]
      exact b64Enc_len ht pad rest out (oi + 4)

end Tm.Str
