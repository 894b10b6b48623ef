import Verif.Str.CodecLemmas
import Mathlib.Tactic.IntervalCases

namespace Tm.Str

open Tm.Num

/-! ### Truncated writing -/

/-- The buffer after writing the text at `p` as far as it fits. -/
def spliceT (buf : List Byte) (p : Nat) (t : List Byte) : List Byte := splice buf p (t.take (buf.length - p))

theorem spliceT_length (buf : List Byte) (p : Nat) (t : List Byte) : (spliceT buf p t).length = buf.length := by
  by_cases h : p ≤ buf.length
  · exact splice_length _ _ _ (by rw [List.length_take]; omega)
  · rw [spliceT, show buf.length - p = 0 by omega, List.take_zero, splice_nil]

theorem spliceT_fit (buf : List Byte) (p : Nat) (t : List Byte) (h : p + t.length ≤ buf.length) : spliceT buf p t = splice buf p t := by
  rw [spliceT, List.take_of_length_le (by omega)]

theorem spliceT_out (buf : List Byte) (p : Nat) (t : List Byte) (h : buf.length ≤ p) : spliceT buf p t = buf := by
  rw [spliceT, show buf.length - p = 0 by omega, List.take_zero, splice_nil]

theorem spliceT_nil (buf : List Byte) (p : Nat) : spliceT buf p [] = buf := by rw [spliceT, List.take_nil, splice_nil]

theorem spliceT_get (buf : List Byte) (p : Nat) (t : List Byte) (i : Nat) :
    (spliceT buf p t)[i]? = if p ≤ i ∧ i < p + t.length ∧ i < buf.length then t[i - p]? else buf[i]? := by
  by_cases h : p ≤ buf.length
  · rw [spliceT, splice_get _ _ _ (by rw [List.length_take]; omega), List.length_take]
    by_cases h1 : p ≤ i ∧ i < p + t.length ∧ i < buf.length
    · rw [if_pos h1, if_pos (by omega), List.getElem?_take, if_pos (by omega)]
    · rw [if_neg h1, if_neg (by omega)]
  · rw [spliceT_out _ _ _ (by omega), if_neg (by omega)]

theorem spliceT_spliceT (buf : List Byte) (p : Nat) (s t : List Byte) :
    spliceT (spliceT buf p s) (p + s.length) t = spliceT buf p (s ++ t) := by
  apply List.ext_getElem?
  intro i
  rw [spliceT_get, spliceT_get, spliceT_get, spliceT_length, List.length_append, List.getElem?_append]
  by_cases h1 : p ≤ i ∧ i < p + s.length ∧ i < buf.length
  · rw [if_neg (by omega), if_pos h1, if_pos (by omega), if_pos (by omega)]
  · by_cases h2 : p + s.length ≤ i ∧ i < p + s.length + t.length ∧ i < buf.length
    · rw [if_pos h2, if_pos (by omega), if_neg (by omega)]
      congr 1; omega
    · rw [if_neg h2, if_neg h1, if_neg (by omega)]

theorem putIf_eq (buf : List Byte) (p : Nat) (v : Byte) : putIf buf p v = .ok (spliceT buf p [v]) := by
  rw [putIf]
  by_cases h : p < buf.length
  · rw [if_pos h, wr_one _ _ _ h, spliceT_fit _ _ _ (by simp; omega)]
  · rw [if_neg h, spliceT_out _ _ _ (by omega)]

theorem putIf_snoc (buf : List Byte) (p q : Nat) (t : List Byte) (v : Byte) (hq : q = p + t.length) :
    putIf (spliceT buf p t) q v = .ok (spliceT buf p (t ++ [v])) := by
  subst hq; rw [putIf_eq, spliceT_spliceT]

/-! ### Character classes -/

theorem urlPlain_iff (c : Byte) : urlPlain c.toNat = true ↔ Unreserved c := by
  have e1 : c = 45 ↔ c.toNat = 45 := ⟨fun h => by rw [h]; rfl, fun h => BitVec.eq_of_toNat_eq h⟩
  have e2 : c = 95 ↔ c.toNat = 95 := ⟨fun h => by rw [h]; rfl, fun h => BitVec.eq_of_toNat_eq h⟩
  have e3 : c = 46 ↔ c.toNat = 46 := ⟨fun h => by rw [h]; rfl, fun h => BitVec.eq_of_toNat_eq h⟩
  rw [Unreserved, e1, e2, e3, urlPlain]
  simp only [Bool.or_eq_true, Bool.and_eq_true, decide_eq_true_eq, beq_iff_eq]
  omega

theorem urlHex_eq {l : Nat} (h : l < 16) : BitVec.ofNat 8 (urlHex l) = upperHex l := by
  interval_cases l <;> rfl

theorem urlUnhex_some (c : Byte) (v : Nat) : urlUnhex c.toNat = some v ↔ Hex c v := by
  rw [urlUnhex, Hex]
  generalize c.toNat = n
  by_cases h1 : 48 ≤ n ∧ n ≤ 57
  · rw [if_pos h1, Option.some.injEq]; omega
  rw [if_neg h1]
  by_cases h2 : 65 ≤ n ∧ n ≤ 70
  · rw [if_pos h2, Option.some.injEq]; omega
  rw [if_neg h2]
  by_cases h3 : 97 ≤ n ∧ n ≤ 102
  · rw [if_pos h3, Option.some.injEq]; omega
  rw [if_neg h3]
  simp only [reduceCtorEq, false_iff]; omega

theorem hex_lt {c : Byte} {v : Nat} (h : Hex c v) : v < 16 := by rcases h with h | h <;> omega

theorem upperHex_hex {n : Nat} (h : n < 16) : Hex (upperHex n) n := by
  interval_cases n <;> (rw [← urlUnhex_some]; rfl)

/-! ### Encoding -/

/-- The text of one byte. -/
def percentByte (c : Byte) : List Byte :=
  if Unreserved c then [c] else [37, upperHex (c.toNat / 16), upperHex (c.toNat % 16)]

theorem percentText_cons (c : Byte) (r : List Byte) : percentText (c :: r) = percentByte c ++ percentText r := rfl

theorem urlEncLoop_spec : ∀ (input out : List Byte) (oi : Nat),
    urlEncLoop input out oi = .ok (oi + (percentText input).length, spliceT out oi (percentText input))
  | [], out, oi => by rw [urlEncLoop, percentText, List.flatMap_nil, spliceT_nil]; rfl
  | x :: rest, out, oi => by
    rw [urlEncLoop, percentText_cons]
    by_cases hp : urlPlain x.toNat = true
    · rw [if_pos hp, putIf_eq, ok_bind, urlEncLoop_spec rest, percentByte, if_pos ((urlPlain_iff x).1 hp)]
      have := spliceT_spliceT out oi [x] (percentText rest)
      rw [show oi + [x].length = oi + 1 from rfl] at this
      rw [show BitVec.ofNat 8 x.toNat = x by simp, this, List.length_append, show [x].length = 1 from rfl, Nat.add_assoc]
    · rw [if_neg hp]
      have hx := x.isLt
      have e1 : (x.toNat >>> 4) &&& 15 = x.toNat / 16 := by
        rw [Nat.shiftRight_eq_div_pow, show (15 : Nat) = 2 ^ 4 - 1 from rfl, Nat.and_two_pow_sub_one_eq_mod]; omega
      have e2 : x.toNat &&& 15 = x.toNat % 16 := by
        rw [show (15 : Nat) = 2 ^ 4 - 1 from rfl, Nat.and_two_pow_sub_one_eq_mod]
      simp only [e1, e2, urlHex_eq (show x.toNat / 16 < 16 by omega), urlHex_eq (show x.toNat % 16 < 16 by omega)]
      rw [putIf_eq, ok_bind, putIf_snoc _ _ _ _ _ (by simp), ok_bind, putIf_snoc _ _ _ _ _ (by simp), ok_bind,
        urlEncLoop_spec rest, percentByte, if_neg (fun h => hp ((urlPlain_iff x).2 h))]
      have := spliceT_spliceT out oi [37, upperHex (x.toNat / 16), upperHex (x.toNat % 16)] (percentText rest)
      rw [show oi + [(37 : Byte), upperHex (x.toNat / 16), upperHex (x.toNat % 16)].length = oi + 3 from rfl] at this
      rw [← this, List.length_append, show [(37 : Byte), upperHex (x.toNat / 16), upperHex (x.toNat % 16)].length = 3 from rfl,
        Nat.add_assoc]
      rfl

/-! ### Decoding -/

theorem percentDecodes_self : ∀ (b : List Byte), PercentDecodes (percentText b) b
  | [] => .nil
  | x :: rest => by
    rw [percentText_cons, percentByte]
    by_cases h : Unreserved x
    · rw [if_pos h]; exact .plain h (percentDecodes_self rest)
    · rw [if_neg h]
      have hx := x.isLt
      have := PercentDecodes.escape (upperHex_hex (n := x.toNat / 16) (by omega)) (upperHex_hex (n := x.toNat % 16) (by omega))
        (percentDecodes_self rest)
      rwa [show BitVec.ofNat 8 (16 * (x.toNat / 16) + x.toNat % 16) = x by rw [Nat.div_add_mod]; simp] at this

theorem not_unreserved_pct : ¬ Unreserved 37 := by decide

theorem urlDec_value {x y : Nat} (hy : y < 16) : (x <<< 4) ||| y = 16 * x + y := by
  rw [shl_or 4 (by omega)]; omega

theorem urlDecLoop_good {text bytes : List Byte} (h : PercentDecodes text bytes) : ∀ (out : List Byte) (oi : Nat),
    urlDecLoop text out oi = .ok (oi + bytes.length, spliceT out oi bytes) := by
  induction h with
  | nil => intro out oi; rw [urlDecLoop, spliceT_nil]; rfl
  | @plain c text bytes hc _ ih =>
    intro out oi
    rw [urlDecLoop.eq_def]
    simp only []
    rw [if_pos ((urlPlain_iff c).2 hc), putIf_eq, ok_bind, ih]
    have := spliceT_spliceT out oi [c] bytes
    rw [show oi + [c].length = oi + 1 from rfl] at this
    rw [show BitVec.ofNat 8 c.toNat = c by simp, this, List.length_cons]
    congr 2; omega
  | @escape hh ll x y text bytes h1 h2 _ ih =>
    intro out oi
    rw [urlDecLoop.eq_def]
    simp only []
    rw [if_neg (fun h => not_unreserved_pct ((urlPlain_iff 37).1 h)), if_pos (show (37 : Byte).toNat = 37 from rfl)]
    simp only [(urlUnhex_some _ _).2 h1, (urlUnhex_some _ _).2 h2]
    rw [urlDec_value (hex_lt h2), putIf_eq, ok_bind, ih]
    have := spliceT_spliceT out oi [BitVec.ofNat 8 (16 * x + y)] bytes
    rw [show oi + [BitVec.ofNat 8 (16 * x + y)].length = oi + 1 from rfl] at this
    rw [this, List.length_cons]
    congr 2; omega

theorem urlDecLoop_bad : ∀ (n : Nat) (text : List Byte), text.length ≤ n → (¬ ∃ bytes, PercentDecodes text bytes) →
    ∀ (out : List Byte) (oi : Nat), ∃ o, o.length = out.length ∧ urlDecLoop text out oi = .ok (0, o)
  | _, [], _, h => absurd ⟨[], .nil⟩ h
  | 0, c :: text, hn, _ => by simp at hn
  | n + 1, c :: text, hn, h => by
    intro out oi
    rw [urlDecLoop.eq_def]
    simp only []
    simp only [List.length_cons] at hn
    by_cases hp : urlPlain c.toNat = true
    · rw [if_pos hp, putIf_eq, ok_bind]
      obtain ⟨o, ho, he⟩ := urlDecLoop_bad n text (by omega) (fun ⟨b, hb⟩ => h ⟨_, .plain ((urlPlain_iff c).1 hp) hb⟩)
        (spliceT out oi [BitVec.ofNat 8 c.toNat]) (oi + 1)
      exact ⟨o, by rw [ho, spliceT_length], he⟩
    rw [if_neg hp]
    by_cases h37 : c.toNat = 37
    · rw [if_pos h37]
      have hc : c = 37 := BitVec.eq_of_toNat_eq h37
      match text with
      | [] => exact ⟨out, rfl, rfl⟩
      | [_] => exact ⟨out, rfl, rfl⟩
      | l :: r :: rest =>
        simp only []
        cases hl : urlUnhex l.toNat with
        | none => exact ⟨out, rfl, rfl⟩
        | some x =>
          cases hr : urlUnhex r.toNat with
          | none => exact ⟨out, rfl, rfl⟩
          | some y =>
            simp only []
            rw [putIf_eq, ok_bind]
            simp only [List.length_cons] at hn
            obtain ⟨o, ho, he⟩ := urlDecLoop_bad n rest (by omega)
              (fun ⟨b, hb⟩ => h ⟨_, by rw [hc]; exact .escape ((urlUnhex_some _ _).1 hl) ((urlUnhex_some _ _).1 hr) hb⟩)
              (spliceT out oi [BitVec.ofNat 8 ((x <<< 4) ||| y)]) (oi + 1)
            exact ⟨o, by rw [ho, spliceT_length], he⟩
    · rw [if_neg h37]
      exact ⟨out, rfl, rfl⟩

/-! ### Reversal and search from the end -/

theorem strnrevLoop_spec : ∀ (fuel : Nat) (a m b : List Byte) (i j : Nat), i = a.length → j + 1 = a.length + m.length → m.length ≤ fuel + 0 →
    0 < fuel → strnrevLoop fuel (a ++ m ++ b) i j = .ok (a ++ m.reverse ++ b)
  | 0, _, _, _, _, _, _, _, _, h => absurd h (by omega)
  | fuel + 1, a, [], b, i, j, hi, hj, _, _ => by
    rw [strnrevLoop, if_neg (by simp at hj; omega)]; rfl
  | fuel + 1, a, [x], b, i, j, hi, hj, _, _ => by
    rw [strnrevLoop, if_neg (by simp at hj; omega)]; rfl
  | fuel + 1, a, x :: y :: m, b, i, j, hi, hj, hf, _ => by
    obtain ⟨m', z, hm⟩ : ∃ m' z, y :: m = m' ++ [z] := ⟨_, _, (List.dropLast_append_getLast (l := y :: m) (by simp)).symm⟩
    rw [hm] at hj hf ⊢
    simp only [List.length_cons, List.length_append, List.length_nil] at hj hf
    subst hi
    have hj' : j = a.length + 1 + m'.length := by omega
    subst hj'
    rw [strnrevLoop, if_pos (by omega)]
    have r1 : rd (a ++ x :: (m' ++ [z]) ++ b) a.length = .ok x := by simp [rd]
    have e : a ++ x :: (m' ++ [z]) ++ b = (a ++ x :: m') ++ z :: b := by simp
    have r2 : rd (a ++ x :: (m' ++ [z]) ++ b) (a.length + 1 + m'.length) = .ok z := by
      have : a.length + 1 + m'.length = (a ++ x :: m').length := by simp; omega
      rw [e, rd, this]; simp
    have w1 : wr (a ++ x :: (m' ++ [z]) ++ b) a.length z = .ok (a ++ z :: (m' ++ [z]) ++ b) := by
      rw [wr, if_pos (by simp)]; simp
    have e2 : a ++ z :: (m' ++ [z]) ++ b = (a ++ z :: m') ++ z :: b := by simp
    have w2 : wr (a ++ z :: (m' ++ [z]) ++ b) (a.length + 1 + m'.length) x = .ok ((a ++ [z]) ++ m' ++ (x :: b)) := by
      have : a.length + 1 + m'.length = (a ++ z :: m').length := by simp; omega
      rw [e2, wr, if_pos (by simp; omega), this]; simp
    rw [r1, ok_bind, r2, ok_bind, w1, ok_bind, w2, ok_bind]
    by_cases hm' : m' = []
    · subst hm'
      match fuel with
      | 0 => simp at hf
      | fuel + 1 =>
      rw [strnrevLoop, if_neg (by simp)]; simp
    · have : 0 < m'.length := List.length_pos_iff.2 hm'
      rw [strnrevLoop_spec fuel (a ++ [z]) m' (x :: b) _ _ (by simp) (by simp; omega) (by omega) (by omega)]
      simp

theorem strnrev_spec (s b : List Byte) : strnrev (s ++ b) s.length = .ok (s.reverse ++ b) := by
  rw [strnrev]
  by_cases h : s.length = 0
  · rw [if_pos h, List.length_eq_zero_iff.1 h]; rfl
  · rw [if_neg h]
    have := strnrevLoop_spec s.length [] s b 0 (s.length - 1) rfl (by simp; omega) (by omega) (by omega)
    simpa using this

theorem memrchr_spec {mem : List Byte} {a b : Nat} (h : Range mem a b) (c : Byte) :
    ∃ r, memrchr mem a c (b - a) = .ok r ∧ IsLast (ByteAt mem (· = c)) a b none r := by
  have key : ∀ n, a + n ≤ b → ∃ r, memrchrLoop mem a c n = .ok r ∧ IsLast (ByteAt mem (· = c)) a (a + n) none r := by
    intro n
    induction n with
    | zero => intro _; exact ⟨none, rfl, .inr ⟨rfl, by intros; omega⟩⟩
    | succ n ih =>
      intro hn
      obtain ⟨r, hr, hs⟩ := ih (by omega)
      have hlt : a + n < mem.length := by have := h.2; omega
      have hg : mem[a + n]? = some mem[a + n] := List.getElem?_eq_getElem hlt
      rw [memrchrLoop, show rd mem (a + n) = .ok mem[a + n] by rw [rd, hg], ok_bind]
      by_cases hx : mem[a + n] = c
      · rw [if_pos hx]
        exact ⟨_, rfl, .inl ⟨a + n, rfl, by omega, by omega, ⟨_, hg, hx⟩, by intros; omega⟩⟩
      · rw [if_neg hx]
        have hno : ¬ ByteAt mem (· = c) (a + n) := by
          rintro ⟨y, hy, hyc⟩
          rw [hg] at hy; cases hy; exact hx hyc
        refine ⟨r, hr, ?_⟩
        rcases hs with ⟨k, rfl, h1, h2, h3, h4⟩ | ⟨rfl, h4⟩
        · refine .inl ⟨k, rfl, h1, by omega, h3, fun i hi hi' => ?_⟩
          by_cases he : i = a + n
          · rw [he]; exact hno
          · exact h4 i hi (by omega)
        · refine .inr ⟨rfl, fun i hi hi' => ?_⟩
          by_cases he : i = a + n
          · rw [he]; exact hno
          · exact h4 i hi (by omega)
  obtain ⟨r, hr, hs⟩ := key (b - a) (by have := h.1; omega)
  rw [show a + (b - a) = b by have := h.1; omega] at hs
  exact ⟨r, hr, hs⟩

end Tm.Str
