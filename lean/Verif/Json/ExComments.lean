import Verif.Json.ExNames

/-! # Numbers that are not finite, and comments -/

namespace Tm.Json

open Tm Tm.Json.Spec

/-! ### C237: numbers that are not finite -/

/-- What is compared with a keyword. -/
def folded (i : Bool) (s : List Byte) : List Byte := if i then s.map lowerCase else s

theorem startsWith_folded (i : Bool) (s kw : List Byte) : startsWith i s kw = kw.isPrefixOf (folded i s) := by
  unfold startsWith folded; split <;> rfl

theorem folded_append (i : Bool) (s t : List Byte) : folded i (s ++ t) = folded i s ++ folded i t := by
  unfold folded; split <;> simp

/-- A sign as the flags allow it, or none. -/
def Sign (f : FlagsEx) (s : List Byte) : Prop := s = [] ∨ s = ascii "-" ∨ (s = ascii "+" ∧ f.plusSign = true)

/-- `Infinity` or `NaN`, in any case if the case is ignored. -/
def NotFinite (f : FlagsEx) (s : List Byte) : Prop :=
  if f.ignoreCase then AnyCase (ascii "infinity") s ∨ AnyCase (ascii "nan") s else s = ascii "Infinity" ∨ s = ascii "NaN"

theorem notFinite_folded {f : FlagsEx} {s : List Byte} (h : NotFinite f s) :
    (folded f.ignoreCase s = kwInfinity f.ignoreCase ∧ s.length = 8) ∨ (folded f.ignoreCase s = kwNan f.ignoreCase ∧ s.length = 3) := by
  unfold NotFinite at h
  unfold folded
  cases hi : f.ignoreCase with
  | true =>
    rw [hi, if_pos rfl] at h
    rw [if_pos rfl]
    rcases h with h | h
    · exact Or.inl ⟨map_anyCase (by decide) h, h.1⟩
    · exact Or.inr ⟨map_anyCase (by decide) h, h.1⟩
  | false =>
    rw [hi, if_neg (by simp)] at h
    rw [if_neg (by simp)]
    rcases h with rfl | rfl
    · exact Or.inl ⟨rfl, rfl⟩
    · exact Or.inr ⟨rfl, rfl⟩

theorem folded_sign (i : Bool) {f : FlagsEx} {s : List Byte} (h : Sign f s) : folded i s = s := by
  rcases h with rfl | rfl | ⟨rfl, _⟩ <;> cases i <;> rfl

theorem readNumberEx_notFinite (f : FlagsEx) (hf : f.extendedFloats = true) (r : Reader) (sign s tail : List Byte) (hs : Sign f sign) (hn : NotFinite f s) (hr : r.rest = sign ++ s ++ tail) :
    readNumberEx f r = .ok (true, (advanceValue r .float (sign ++ s).length).2) := by
  have hlen : s.length ≠ 0 := by rcases notFinite_folded hn with h | h <;> omega
  have hne : r.rest ≠ [] := by
    intro h
    rw [hr] at h
    have := congrArg List.length h
    rw [List.length_append, List.length_append, List.length_nil] at this
    omega
  have hsz : signSize f r.rest = sign.length := by
    rw [hr]
    rcases hs with rfl | rfl | ⟨rfl, h⟩
    · have hb : ∃ b t, s = b :: t ∧ b ≠ 0x2D ∧ b ≠ 0x2B := by
        cases s with
        | nil => exact absurd rfl hlen
        | cons b t =>
          refine ⟨b, t, rfl, ?_⟩
          have key : ∀ (i : Bool) (t : List Byte), (b = 0x2D ∨ b = 0x2B) → (folded i (b :: t)).head? = some b := by
            intro i t h
            rcases h with rfl | rfl <;> cases i <;> rfl
          constructor <;> intro hb <;> rcases notFinite_folded hn with ⟨h, _⟩ | ⟨h, _⟩ <;> have := key f.ignoreCase t (by simp [hb]) <;> rw [h, hb] at this <;> revert this <;>
            cases f.ignoreCase <;> decide
      obtain ⟨b, t, rfl, h1, h2⟩ := hb
      rw [List.nil_append, List.cons_append, signSize, if_neg h1, if_neg (by rw [Bool.and_eq_true, decide_eq_true_eq]; exact fun h => h2 h.1)]
      rfl
    · rfl
    · rw [show ascii "+" ++ s ++ tail = 0x2B :: (s ++ tail) from rfl, signSize, if_neg (by decide), if_pos (by simp [h])]; rfl
  rw [readNumberEx, if_pos (by simp [hf, hne]), hsz, startsWith_folded, startsWith_folded, hr, List.append_assoc, List.drop_left, folded_append]
  rcases notFinite_folded hn with ⟨h, hl⟩ | ⟨h, hl⟩
  · rw [h, if_pos (by simp)]
    rw [List.length_append, hl, Nat.add_comm]
  · rw [h, if_neg (by cases f.ignoreCase <;> simp [kwInfinity, kwNan]), if_pos (by simp)]
    rw [List.length_append, hl, Nat.add_comm]

/-- C237: with `JSON_READER_EXTENDED_FLOATS` `Infinity` and `NaN` are read as numbers, with a sign if there is one. -/
theorem C237_floats (f : FlagsEx) (hf : f.extendedFloats = true) (ctx : Ctx) (r : Reader) (hv : AtValue ctx r) (he : r.err = .ok) (a sign s tail : List Byte)
    (hs : Sign f sign) (hn : NotFinite f s) (ha : Ws a) (hr : r.rest = a ++ (sign ++ s) ++ tail) :
    ∃ r', nextTokenEx f ctx r = .ok (.value, r') ∧ Token r r' .float (sign ++ s) tail := by
  obtain ⟨c, t, hc, hcs⟩ : ∃ c t, sign ++ s = c :: t ∧ (c = 0x2B ∨ c = 0x2D ∨ c = 0x49 ∨ c = 0x69 ∨ c = 0x4E ∨ c = 0x6E) := by
    rcases hs with rfl | rfl | ⟨rfl, _⟩
    · cases s with
      | nil => rcases notFinite_folded hn with h | h <;> cases h.2
      | cons b t =>
        refine ⟨b, t, rfl, ?_⟩
        have hl : lowerCase b = 0x69 ∨ lowerCase b = 0x6E := by
          rcases notFinite_folded hn with ⟨h, _⟩ | ⟨h, _⟩ <;> revert h <;> cases f.ignoreCase <;> intro h <;> unfold folded at h <;>
            simp only [kwInfinity, kwNan, if_true, if_false, Bool.false_eq_true, List.map_cons] at h <;> injection h with h _ <;> (rw [h]; decide)
        have key : ∀ b : Byte, (lowerCase b = 0x69 ∨ lowerCase b = 0x6E) → (b = 0x2B ∨ b = 0x2D ∨ b = 0x49 ∨ b = 0x69 ∨ b = 0x4E ∨ b = 0x6E) := by decide +kernel
        exact key b hl
    · exact ⟨_, _, rfl, by decide⟩
    · exact ⟨_, _, rfl, by decide⟩
  have hc' : IdentStart c ∨ c = 0x2B ∨ c = 0x2D := by
    rcases hcs with rfl | rfl | rfl | rfl | rfl | rfl <;> decide
  obtain ⟨r1, e1, e2, e3⟩ := nextTokenEx_value f ctx (show r.rest = a ++ c :: (t ++ tail) by rw [hr, hc]; simp) ha hv he hc'
    (by rcases hcs with rfl | rfl | rfl | rfl | rfl | rfl <;> decide) (by rcases hcs with rfl | rfl | rfl | rfl | rfl | rfl <;> decide)
  have hr1 : r1.rest = sign ++ s ++ tail := by rw [e2, hc, List.cons_append]
  have hfold : folded f.ignoreCase r1.rest = sign ++ (folded f.ignoreCase s ++ folded f.ignoreCase tail) := by
    rw [hr1, List.append_assoc, folded_append, folded_append, folded_sign _ hs]
  have hk : startsWith f.ignoreCase r1.rest kwTrue = false ∧ startsWith f.ignoreCase r1.rest kwFalse = false ∧ startsWith f.ignoreCase r1.rest kwNull = false := by
    rw [startsWith_folded, startsWith_folded, startsWith_folded, hfold]
    rcases notFinite_folded hn with ⟨h, _⟩ | ⟨h, _⟩ <;> rw [h] <;> rcases hs with rfl | rfl | ⟨rfl, _⟩ <;> cases f.ignoreCase <;> exact ⟨rfl, rfl, rfl⟩
  rw [e1, readValueEx, hk.1, hk.2.1, hk.2.2, if_neg (by simp), if_neg (by simp), if_neg (by simp), readNumberEx_notFinite f hf r1 sign s tail hs hn hr1, ok_bind, if_pos rfl]
  refine ⟨_, rfl, rfl, ?_, ?_, by rw [he]; exact e3⟩
  · show View.text ⟨true, r1.rest, (sign ++ s).length⟩ = _
    rw [hr1]
    simp only [View.text, List.length_append, Nat.le_add_right, if_true]
    rw [← List.length_append, List.take_left]
  · show r1.rest.drop (sign ++ s).length = _
    rw [hr1, List.drop_left]

example : Sign { plusSign := true } (ascii "+") ∧ NotFinite { plusSign := true } (ascii "Infinity") := ⟨Or.inr (Or.inr ⟨rfl, rfl⟩), by rw [NotFinite, if_neg (by simp)]; exact Or.inl rfl⟩

/-! ### C238: comments -/

theorem countNewlines_eq (r : Reader) : countNewlines r = { r with line := (countNewlines r).line, column := (countNewlines r).column } := by
  unfold countNewlines
  dsimp only
  split <;> rfl

/-- C238, partial: missing is that a comment that is not closed is refused. A block comment is read as one token, whatever is in it; what follows is
read as if it were not there. -/
theorem C238_block_partial (f : FlagsEx) (hf : f.blockComments = true) (ctx : Ctx) (r : Reader) (a text tail : List Byte) (ha : Ws a) (ht : ¬ ascii "*/" <:+: text)
    (hr : r.rest = a ++ ascii "/*" ++ text ++ ascii "*/" ++ tail) :
    ∃ r', nextTokenEx f ctx r = .ok (.comment, r') ∧ Token r r' r.vtype text tail ∧ r'.last = r.last ∧ r'.root = r.root := by
  have hr' : r.rest = a ++ 0x2F :: (0x2A :: (text ++ 0x2A :: 0x2F :: tail)) := by rw [hr]; simp [ascii]
  obtain ⟨r1, e, h1⟩ := nextTokenEx_dispatch f ctx hr' ha rfl (by decide) (by decide) (by decide)
  have hr1 : r1.rest = 0x2F :: (0x2A :: (text ++ 0x2A :: 0x2F :: tail)) := by rw [h1]
  have hne : text ++ 0x2A :: 0x2F :: tail ≠ [] := by simp
  rw [e, dispatchEx, if_pos (by rfl), parseCommentEx, if_pos (by simp [hf]), hr1]
  dsimp only
  rw [if_neg (by decide), if_pos (by rfl), parseBlockComment, if_pos hf, advance, hr1, ok_bind]
  dsimp only
  rw [if_pos (by rfl), advance]
  dsimp only
  rw [ok_bind, if_neg hne, blockLoop_ok _ text tail _ (by simp; omega) ht rfl, ok_bind]
  dsimp only
  rw [if_pos rfl, countNewlines_eq]
  refine ⟨_, rfl, ⟨?_, ?_, rfl, ?_⟩, ?_, ?_⟩
  · show r1.vtype = r.vtype; rw [h1]
  · simp [View.text]
  · show r1.err = r.err; rw [h1]
  · show r1.last = r.last; rw [h1]
  · show r1.root = r.root; rw [h1]

example : ¬ ascii "*/" <:+: ascii "a*b/" := by
  rintro ⟨s, t, h⟩
  match s with
  | [] => exact absurd (congrArg List.head? h) (by simp [ascii])
  | [_] => exact absurd (congrArg (fun l : List Byte => l[2]?) h) (by simp [ascii])
  | [_, _] => exact absurd (congrArg (fun l : List Byte => l[2]?) h) (by simp [ascii])
  | _ :: _ :: _ :: _ => have := congrArg List.length h; simp [ascii] at this; omega

/-- C238 fails: a block comment that is not closed is accepted if there is no `*` in it, and what is in it is read as JSON. -/
theorem C238_not_closed (f : FlagsEx) (hf : f.blockComments = true) (ctx : Ctx) (r : Reader) (text : List Byte) (h0 : text ≠ []) (ht : chr '*' ∉ text) (hr : r.rest = ascii "/*" ++ text) :
    ∃ r', nextTokenEx f ctx r = .ok (.comment, r') ∧ r'.err = r.err ∧ r'.rest = text := by
  have hr' : r.rest = [] ++ 0x2F :: (0x2A :: text) := hr
  obtain ⟨r1, e, h1⟩ := nextTokenEx_dispatch f ctx hr' (by simp [Ws]) rfl (by decide) (by decide) (by decide)
  have hr1 : r1.rest = 0x2F :: (0x2A :: text) := by rw [h1]
  have hm : memchr text 0x2A = none := by
    rw [memchr_none]
    intro n hn
    exact ht (List.mem_of_getElem? hn)
  rw [e, dispatchEx, if_pos (by rfl), parseCommentEx, if_pos (by simp [hf]), hr1]
  dsimp only
  rw [if_neg (by decide), if_pos (by rfl), parseBlockComment, if_pos hf, advance, hr1, ok_bind]
  dsimp only
  rw [if_pos (by rfl), advance]
  dsimp only
  rw [ok_bind, if_neg h0, blockLoop]
  dsimp only
  rw [hm]
  dsimp only
  rw [ok_bind, if_pos rfl, countNewlines_eq]
  refine ⟨_, rfl, ?_, rfl⟩
  show r1.err = r.err; rw [h1]

/-- C238: a comment that begins with `#` is read as one token up to the end of the line. -/
theorem C238_python (f : FlagsEx) (hf : f.pythonComments = true) (ctx : Ctx) (r : Reader) (a text tail : List Byte) (ha : Ws a) (ht : (0x0A : Byte) ∉ text)
    (hr : r.rest = a ++ chr '#' :: (text ++ 0x0A :: tail)) :
    ∃ r', nextTokenEx f ctx r = .ok (.comment, r') ∧ Token r r' r.vtype text tail ∧ r'.last = r.last ∧ r'.root = r.root := by
  obtain ⟨r1, e, h1⟩ := nextTokenEx_dispatch f ctx hr ha rfl (by decide) (by decide) (by decide)
  have hr1 : r1.rest = chr '#' :: (text ++ 0x0A :: tail) := by rw [h1]
  rw [e, dispatchEx, if_neg (by decide), if_pos (by rfl), parsePythonComment, if_pos hf, peek, hr1]
  dsimp only
  rw [ok_bind, if_pos (by rfl), advance, hr1, ok_bind, readCommentLine]
  dsimp only
  rw [memchr_at ht]
  refine ⟨_, rfl, ⟨?_, ?_, ?_, ?_⟩, ?_, ?_⟩
  · show r1.vtype = r.vtype; rw [h1]
  · simp [View.text]
  · dsimp only
    rw [show text ++ 0x0A :: tail = (text ++ [0x0A]) ++ tail by simp, show text.length + 1 = (text ++ [(0x0A : Byte)]).length by simp, List.drop_left]
  · show r1.err = r.err; rw [h1]
  · show r1.last = r.last; rw [h1]
  · show r1.root = r.root; rw [h1]

/-- C238: a comment in the last line, which is not ended. -/
theorem C238_python_end (f : FlagsEx) (hf : f.pythonComments = true) (ctx : Ctx) (r : Reader) (a text : List Byte) (ha : Ws a) (ht : (0x0A : Byte) ∉ text) (hr : r.rest = a ++ chr '#' :: text) :
    ∃ r', nextTokenEx f ctx r = .ok (.comment, r') ∧ Token r r' r.vtype text [] ∧ r'.last = r.last ∧ r'.root = r.root := by
  obtain ⟨r1, e, h1⟩ := nextTokenEx_dispatch f ctx hr ha rfl (by decide) (by decide) (by decide)
  have hr1 : r1.rest = chr '#' :: text := by rw [h1]
  have hm : memchr text 0x0A = none := by
    rw [memchr_none]
    intro n hn
    exact ht (List.mem_of_getElem? hn)
  rw [e, dispatchEx, if_neg (by decide), if_pos (by rfl), parsePythonComment, if_pos hf, peek, hr1]
  dsimp only
  rw [ok_bind, if_pos (by rfl), advance, hr1, ok_bind, readCommentLine]
  dsimp only
  rw [hm]
  refine ⟨_, rfl, ⟨?_, ?_, rfl, ?_⟩, ?_, ?_⟩
  · show r1.vtype = r.vtype; rw [h1]
  · simp [View.text]
  · show r1.err = r.err; rw [h1]
  · show r1.last = r.last; rw [h1]
  · show r1.root = r.root; rw [h1]

example : (0x0A : Byte) ∉ ascii " no line" := by decide

end Tm.Json
