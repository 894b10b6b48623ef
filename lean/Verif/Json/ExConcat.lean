import Verif.Json.ExComments

/-! # Strings in several parts -/

namespace Tm.Json

open Tm Tm.Json.Spec

/-! ### C236: the token -/

/-- A part of a string that needs no escapes between the quotation marks `q`. -/
def Part (q : Byte) (p : List Byte) : Prop := q ∉ p ∧ chr '\\' ∉ p ∧ ∀ b ∈ p, 0x20 ≤ b.toNat

/-- Parts in quotation marks, one directly behind the other. -/
def adjacent (q : Byte) : List (List Byte) → List Byte
  | [] => []
  | p :: ps => q :: (p ++ q :: adjacent q ps)

theorem concatLoop_ok (q : Byte) (hq : q = 0x22 ∨ q = 0x27) (c : Byte) (tail : List Byte) (hc : c ≠ q) : ∀ (ps : List (List Byte)) (p : List Byte) (fuel : Nat) (r : Reader) (v : View) (b y : List Byte),
    (∀ p' ∈ p :: ps, Part q p') → Ws b → ps.length + 1 ≤ fuel → r.rest = b ++ adjacent q (p :: ps) ++ c :: tail → v.data = y ++ r.rest →
    ∃ r' v', concatLoop q fuel r v = .ok (r', v') ∧ r'.rest = c :: tail ∧ r'.vtype = .concatString ∧ r'.err = r.err ∧ r'.last = r.last ∧ v'.null = v.null ∧ v'.data = v.data ∧
      v'.size = v.data.length - tail.length - 2 := by
  intro ps
  induction ps with
  | nil =>
    intro p fuel r v b y hp hb hf hr hv
    obtain ⟨fuel, rfl⟩ : ∃ n, fuel = n + 1 := ⟨fuel - 1, by simp at hf; omega⟩
    have hr' : r.rest = b ++ q :: (p ++ q :: (c :: tail)) := by rw [hr]; simp [adjacent]
    have hs := skipWhitespace_eq hr' hb (show NoWs (q :: (p ++ q :: (c :: tail))) by
      intro d hd
      injection hd with hd
      rw [← hd]
      rcases hq with rfl | rfl <;> rfl)
    obtain ⟨h1, h2, h3⟩ := hp p (by simp)
    rw [concatLoop]
    dsimp only
    rw [hs]
    dsimp only
    rw [if_pos rfl, readQuoted_plain hq hs h1 h2 h3, ok_bind]
    dsimp only
    rw [if_pos rfl, peek]
    dsimp only
    rw [ok_bind, if_neg hc]
    refine ⟨_, _, rfl, rfl, rfl, rfl, rfl, rfl, rfl, ?_⟩
    dsimp only
    rw [hv, hr']
    simp
    omega
  | cons p2 ps ih =>
    intro p fuel r v b y hp hb hf hr hv
    obtain ⟨fuel, rfl⟩ : ∃ n, fuel = n + 1 := ⟨fuel - 1, by simp at hf; omega⟩
    have hr' : r.rest = b ++ q :: (p ++ q :: (adjacent q (p2 :: ps) ++ c :: tail)) := by rw [hr, adjacent]; simp
    have hs := skipWhitespace_eq hr' hb (show NoWs (q :: (p ++ q :: (adjacent q (p2 :: ps) ++ c :: tail))) by
      intro d hd
      injection hd with hd
      rw [← hd]
      rcases hq with rfl | rfl <;> rfl)
    obtain ⟨h1, h2, h3⟩ := hp p (by simp)
    rw [concatLoop]
    dsimp only
    rw [hs]
    dsimp only
    rw [if_pos rfl, readQuoted_plain hq hs h1 h2 h3, ok_bind]
    dsimp only
    rw [if_pos rfl, peek]
    rw [show adjacent q (p2 :: ps) ++ c :: tail = q :: (p2 ++ q :: adjacent q ps ++ c :: tail) from rfl]
    dsimp only
    rw [ok_bind, if_pos rfl]
    obtain ⟨r', v', e, g1, g2, g3, g4, g5, g6, g7⟩ := ih p2 fuel
      { r with rest := q :: (p2 ++ q :: adjacent q ps ++ c :: tail), line := (skipWhitespace r).line, column := (skipWhitespace r).column + p.length + 1,
               cur := ⟨false, p ++ q :: (q :: (p2 ++ q :: adjacent q ps ++ c :: tail)), p.length⟩, vtype := .concatString }
      { v with size := v.data.length - (p ++ q :: (q :: (p2 ++ q :: adjacent q ps ++ c :: tail))).length + p.length }
      [] (y ++ b ++ q :: (p ++ [q])) (fun p' h => hp p' (List.mem_cons_of_mem _ h)) (by simp [Ws]) (by simp at hf ⊢; omega) (by simp [adjacent])
      (by dsimp only; rw [hv, hr', adjacent]; simp)
    refine ⟨r', v', ?_, g1, g2, g3, g4, g5, g6, g7⟩
    rw [← e]
    rfl

/-- C236, partial: missing are strings whose third or later part has whitespace before it, strings in several parts at the end of the text and
parts with escapes. A string in several parts is one value; its text goes from the first quotation mark to the last, which it is without. -/
theorem C236_token_partial (f : FlagsEx) (ctx : Ctx) (hf : (ctx = .object ∧ f.concat = true) ∨ (ctx = .array ∧ f.concatInArrays = true)) (r : Reader) (hv : AtValue ctx r)
    (q c : Byte) (hq : q = chr '"' ∨ (q = chr '\'' ∧ f.singleQuoted = true)) (hc : c ≠ q) (a b p1 p2 tail : List Byte) (ps : List (List Byte)) (ha : Ws a) (hb : Ws b) (hp : ∀ p ∈ p1 :: p2 :: ps, Part q p)
    (text : List Byte) (ht : text ++ [q] = q :: p1 ++ [q] ++ b ++ adjacent q (p2 :: ps)) (hr : r.rest = a ++ (text ++ [q]) ++ c :: tail) :
    ∃ r', nextTokenEx f ctx r = .ok (.value, r') ∧ Token r r' .concatString text (c :: tail) ∧ r'.last = .value := by
  have hq' : q = 0x22 ∨ q = 0x27 := hq.imp (fun h => h) (fun h => h.1)
  have hr0 : r.rest = a ++ q :: (p1 ++ q :: (b ++ adjacent q (p2 :: ps) ++ c :: tail)) := by rw [hr, ht]; simp
  obtain ⟨r1, e, h1⟩ := nextTokenEx_dispatch f ctx hr0 ha (by rcases hq' with rfl | rfl <;> rfl) (by rcases hq' with rfl | rfl <;> decide) (by rcases hq' with rfl | rfl <;> decide)
    (by rcases hq' with rfl | rfl <;> decide)
  have hr1 : r1.rest = q :: (p1 ++ q :: (b ++ adjacent q (p2 :: ps) ++ c :: tail)) := by rw [h1]
  have hl : r1.last = r.last := by rw [h1]
  have he1 : r1.err = r.err := by rw [h1]
  have hroot : r1.root = r.root := by rw [h1]
  obtain ⟨k1, k2, k3⟩ := hp p1 (by simp)
  have hd : dispatchEx f r1 ctx q = parseQuotedStringEx f ctx r1 := by
    rw [dispatchEx, if_neg (by rcases hq' with rfl | rfl <;> decide), if_neg (by rcases hq' with rfl | rfl <;> decide)]
    rcases hq with rfl | ⟨rfl, hs⟩
    · rw [if_neg (by decide), if_pos (by rfl)]
    · rw [if_pos (by rfl), if_pos hs]
  have hpq : parseQuotedString r1 ctx = .ok (.value, { r1 with rest := b ++ adjacent q (p2 :: ps) ++ c :: tail, cur := ⟨false, p1 ++ q :: (b ++ adjacent q (p2 :: ps) ++ c :: tail), p1.length⟩, column := r1.column + p1.length + 1, vtype := .string, last := .value }) := by
    rw [parseQuotedString, readQuoted_plain hq' hr1 k1 k2 k3, ok_bind]
    dsimp only
    rw [if_neg (by simp), if_neg (by rcases hf with h | h <;> rw [h.1] <;> simp), if_neg, if_neg]
    · rw [Bool.not_eq_true', Bool.not_eq_false]
      rw [canValueFollow_iff]
      rcases hf with h | h <;> rw [h.1] at hv ⊢ <;> simp only [AtValue] at hv ⊢ <;> rw [hl] <;> exact hv
    · rcases hf with h | h <;> rw [h.1] at hv ⊢
      · simp only [AtValue] at hv
        rw [hl, hv]; simp
      · simp
  obtain ⟨r', v', e', g1, g2, g3, g4, g5, g6, g7⟩ := concatLoop_ok q hq' c tail hc ps p2 ((b ++ adjacent q (p2 :: ps) ++ c :: tail).length + 1)
    { r1 with rest := b ++ adjacent q (p2 :: ps) ++ c :: tail, cur := ⟨false, p1 ++ q :: (b ++ adjacent q (p2 :: ps) ++ c :: tail), p1.length⟩, column := r1.column + p1.length + 1, vtype := .string, last := .value }
    ⟨false, p1 ++ q :: (b ++ adjacent q (p2 :: ps) ++ c :: tail), p1.length⟩ b (p1 ++ [q]) (fun p h => hp p (List.mem_cons_of_mem _ h)) hb
    (by
      have : ∀ l : List (List Byte), l.length ≤ (adjacent q l).length := by
        intro l
        induction l with
        | nil => simp
        | cons p l ih => simp [adjacent]; omega
      have := this (p2 :: ps)
      simp at this ⊢
      omega) rfl (by simp)
  rw [e, hd, parseQuotedStringEx, peek, hr1]
  dsimp only
  rw [ok_bind, hpq, ok_bind]
  dsimp only
  rw [if_pos (by rcases hf with ⟨rfl, h⟩ | ⟨rfl, h⟩ <;> simp [h]), e', ok_bind]
  dsimp only
  rw [if_pos g2]
  refine ⟨_, rfl, ⟨g2, ?_, g1, by rw [← he1]; exact g3⟩, by exact g4⟩
  dsimp only
  rw [g6, g7]
  have hlen := congrArg List.length ht
  simp only [List.length_append, List.length_cons, List.length_nil, adjacent] at hlen
  have hd : q :: (p1 ++ q :: (b ++ adjacent q (p2 :: ps) ++ c :: tail)) = text ++ (q :: c :: tail) := by
    rw [show text ++ (q :: c :: tail) = (text ++ [q]) ++ c :: tail by simp, ht]; simp
  rw [hd]
  have hl2 := congrArg List.length hd
  simp only [List.length_append, List.length_cons] at hl2
  rw [show (p1 ++ q :: (b ++ adjacent q (p2 :: ps) ++ c :: tail)).length - tail.length - 2 + 1 = text.length by simp only [List.length_append, List.length_cons]; omega]
  simp [View.text]

/-- A string in three parts that meets the hypotheses. -/
example : Part (chr '"') (ascii "ab") ∧ ascii "\"ab\" \"c\"\"d" ++ [chr '"'] = chr '"' :: ascii "ab" ++ [chr '"'] ++ [0x20] ++ adjacent (chr '"') [ascii "c", ascii "d"] := by
  unfold Part; decide

/-- Flags that allow strings in several parts. -/
def concatOnly : FlagsEx := { concat := true, concatInArrays := true }

/-- C236 fails: if there is whitespace before the third part, it is not taken. -/
theorem C236_not_three : ∃ r, nextTokenEx concatOnly .array { makeReader (ascii "\"a\" \"b\" \"c\"]") with last := .arrStart } = .ok (.value, r) ∧ r.rest = ascii " \"c\"]" := ⟨_, rfl, rfl⟩

/-- C236 fails: behind a string in several parts at the end of the text the reader reads past the end. -/
theorem C236_not_inside : nextTokenEx concatOnly .array { makeReader (ascii "\"a\" \"b\"") with last := .arrStart } = .error .oob := rfl

/-! ### C236: the text -/

/-- The text of a string in several parts as the reader gives it: without the first quotation mark. Each part but the last is given with what is
written between it and the next. -/
def joinedParts (q : Byte) : List (List Byte × List Byte) → List Byte → List Byte
  | [], last => last
  | (p, gap) :: t, last => p ++ q :: (gap ++ q :: joinedParts q t last)

theorem slashesBefore_plain (s : List Byte) (h : (0x5C : Byte) ∉ s) (t : List Byte) : slashesBefore (s ++ t) s.length = 0 := by
  cases hs : s.length with
  | zero => rfl
  | succ n =>
    have hn : (s ++ t)[n]? = some (s[n]'(by omega)) := by rw [List.getElem?_append_left (by omega), List.getElem?_eq_getElem]
    rw [slashesBefore, hn, if_neg]
    intro hx
    injection hx with hx
    exact h (hx ▸ List.getElem_mem _)

theorem copyUnescaped_plain (s : List Byte) (h : (0x5C : Byte) ∉ s) (size : Nat) (hs : s.length ≤ size) : copyUnescaped s size = .ok s := by
  unfold copyUnescaped
  by_cases h0 : s = []
  · simp [h0]
  · have h1 : size ≠ 0 := by intro h1; apply h0; apply List.eq_nil_of_length_eq_zero; omega
    rw [if_neg (by simp [h0, h1]), copyLoop]
    have hm : memchr s 0x5C = none := by
      rw [memchr_none]
      intro n hn
      exact h (List.mem_of_getElem? hn)
    rw [hm]
    dsimp only
    rw [copyRest, if_pos (by simp [h0]; omega), put, if_pos (by simp), List.take_of_length_le hs]
    rfl

theorem copyConcatLoop_ok (q : Byte) (cap : Nat) (last : List Byte) (hl : q ∉ last) : ∀ (ps : List (List Byte × List Byte)) (fuel : Nat) (out : List Byte) (size : Nat),
    (∀ x ∈ ps, q ∉ x.1 ∧ (0x5C : Byte) ∉ x.1 ∧ q ∉ x.2) → 2 * ps.length < fuel → size + out.length = cap → (joinedParts q ps last).length ≤ size →
    2 * (out.length + (ps.map Prod.fst).flatten.length + last.length) < cap →
    copyConcatLoop q cap fuel (joinedParts q ps last) (joinedParts q ps last).length true out size = .ok (out ++ (ps.map Prod.fst).flatten ++ last) := by
  intro ps
  induction ps with
  | nil =>
    intro fuel out size _ hf hc hj hx
    obtain ⟨fuel, rfl⟩ : ∃ n, fuel = n + 1 := ⟨fuel - 1, by simp at hf; omega⟩
    simp only [joinedParts, List.map_nil, List.flatten_nil, List.length_nil, List.append_nil] at hj hx ⊢
    have hm : memchr last q = none := by
      rw [memchr_none]
      intro n hn
      exact hl (List.mem_of_getElem? hn)
    rw [copyConcatLoop, List.take_length, hm]
    dsimp only
    rw [concatEnd]
    by_cases h0 : last.length = 0
    · rw [if_neg (by simpa using h0), ok_bind]
      have : last = [] := List.eq_nil_of_length_eq_zero h0
      rw [this, List.append_nil]
      split
      · rw [if_pos (by omega)]
      · rfl
    · rw [if_pos (by simpa using h0), put, List.take_length, if_pos (by omega), ok_bind]
      split
      · rw [if_pos (by simp; omega)]
      · rfl
  | cons x ps ih =>
    intro fuel out size hp hf hc hj hx
    obtain ⟨p, gap⟩ := x
    obtain ⟨fuel, rfl⟩ : ∃ n, fuel = n + 2 := ⟨fuel - 2, by simp at hf; omega⟩
    obtain ⟨h1, h2, h3⟩ := hp (p, gap) (by simp)
    dsimp only at h1 h2 h3
    simp only [List.map_cons, List.flatten_cons, List.length_append, List.length_cons] at hx hf
    have hj' : (joinedParts q ((p, gap) :: ps) last).length = p.length + 1 + (gap.length + 1 + (joinedParts q ps last).length) := by simp [joinedParts]; omega
    rw [hj'] at hj
    rw [copyConcatLoop, List.take_length, show joinedParts q ((p, gap) :: ps) last = p ++ q :: (gap ++ q :: joinedParts q ps last) from rfl, memchr_at h1]
    dsimp only
    rw [if_pos rfl, show (decide (0 < p.length) && !isUnescaped (p ++ q :: (gap ++ q :: joinedParts q ps last)) p.length) = false by
      rw [isUnescaped, slashesBefore_plain p h2]; simp, if_neg (by simp), List.take_left, copyUnescaped_plain p h2 size (by omega), ok_bind,
      show (p ++ q :: (gap ++ q :: joinedParts q ps last)).drop (p.length + 1) = gap ++ q :: joinedParts q ps last by
        rw [show p ++ q :: (gap ++ q :: joinedParts q ps last) = (p ++ [q]) ++ (gap ++ q :: joinedParts q ps last) by simp, show p.length + 1 = (p ++ [q]).length by simp, List.drop_left],
      show (p ++ q :: (gap ++ q :: joinedParts q ps last)).length - (p.length + 1) = (gap ++ q :: joinedParts q ps last).length by simp; omega]
    rw [copyConcatLoop, List.take_length, memchr_at h3]
    dsimp only
    rw [if_neg (by simp),
      show (gap ++ q :: joinedParts q ps last).drop (gap.length + 1) = joinedParts q ps last by
        rw [show gap ++ q :: joinedParts q ps last = (gap ++ [q]) ++ joinedParts q ps last by simp, show gap.length + 1 = (gap ++ [q]).length by simp, List.drop_left],
      show (gap ++ q :: joinedParts q ps last).length - (gap.length + 1) = (joinedParts q ps last).length by simp; omega,
      ih fuel (out ++ p) (size - p.length) (fun x hx => hp x (List.mem_cons_of_mem _ hx)) (by omega) (by simp; omega) (by omega) (by rw [List.length_append]; omega)]
    simp

/-- C236, partial: missing are parts with escapes and buffers that are not twice as large as the result. Of a string in several parts
`jsonCopyConcatenatedString` gives the parts, one behind the other. -/
theorem C236_copy_partial (q : Byte) (ps : List (List Byte × List Byte)) (last : List Byte) (hp : ∀ x ∈ ps, (q ∉ x.1 ∧ chr '\\' ∉ x.1) ∧ q ∉ x.2) (hl : q ∉ last) (size : Nat)
    (h1 : (joinedParts q ps last).length ≤ size) (h2 : 2 * ((ps.map Prod.fst).flatten ++ last).length < size) :
    copyConcatenated (q :: joinedParts q ps last) size = .ok ((ps.map Prod.fst).flatten ++ last) := by
  rw [copyConcatenated]
  by_cases h0 : joinedParts q ps last = []
  · have hps : ps = [] := by
      cases ps with
      | nil => rfl
      | cons x t => obtain ⟨p, g⟩ := x; simp [joinedParts] at h0
    subst hps
    rw [joinedParts] at h0
    rw [h0]
    simp [joinedParts]
  · rw [if_neg (by simp [h0]; omega), Nat.min_eq_right h1]
    have hlen : 2 * ps.length ≤ (joinedParts q ps last).length := by
      clear h0 h1 h2 hp
      induction ps with
      | nil => simp
      | cons x t ih => obtain ⟨p, g⟩ := x; simp [joinedParts]; omega
    rw [copyConcatLoop_ok q size last hl ps _ [] size (fun x hx => ⟨(hp x hx).1.1, (hp x hx).1.2, (hp x hx).2⟩) (by omega) rfl h1 (by simpa using h2)]
    rfl

example : joinedParts (chr '"') [(ascii "ab", ascii " ")] (ascii "c") = ascii "ab\" \"c" ∧ copyConcatenated (ascii "\"ab\" \"c") 20 = .ok (ascii "abc") := ⟨by decide, rfl⟩

/-- C236 fails: the last part is not unescaped. -/
theorem C236_not_unescaped : copyConcatenated (ascii "\"a\\na\" \"b\\nb") 100 = .ok ([0x61, 0x0A, 0x61] ++ ascii "b\\nb") := rfl

/-- C236 fails: in a buffer as large as the string, which is what `jsonAllocateConcatenatedString` gives, the terminator is written past the end. -/
theorem C236_not_room : (ascii "\"aa\" \"bb").length = 8 ∧ copyConcatenated (ascii "\"aa\" \"bb") 8 = .error .oob := ⟨by decide, rfl⟩

end Tm.Json
