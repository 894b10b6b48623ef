import Verif.Json.ExLemmas

/-! # Properties of the extended tokenizer -/

namespace Tm.Json

open Tm Tm.Json.Spec

/-! ### Specification -/

/-- The reader is at a place where a value may be written: at the beginning of the text, behind the colon of a member, at the
beginning of an array or behind a comma in an array. -/
def AtValue (ctx : Ctx) (r : Reader) : Prop :=
  match ctx with
  | .null => r.root = false
  | .object => r.last = .colon
  | .array => r.last = .arrStart ∨ r.last = .comma

/-- The reader is at a place where the name of a member may be written. -/
def AtName (ctx : Ctx) (r : Reader) : Prop := ctx = .object ∧ (r.last = .objStart ∨ r.last = .comma)

/-- A token was read without an error: its kind, its type, its text, and what follows. -/
structure Token (r r' : Reader) (type : VType) (text rest : List Byte) : Prop where
  type : r'.vtype = type
  text : r'.cur.text = .ok text
  rest : r'.rest = rest
  err : r'.err = r.err

/-- Two readings with the same result: the same token and the same state, or an error with the same number. -/
def Same (x y : C (Tok × Reader)) : Prop :=
  x = y ∨ ∃ r1 r2, x = .ok (.error, r1) ∧ y = .ok (.error, r2) ∧ r1.err = r2.err ∧ r1.err ≠ .ok

/-! ### C232: without extensions -/

theorem readValueEx_plain (f : Flags) (r : Reader) : readValueEx { toFlags := f } r = readValue f r := by
  simp [readValueEx, readValue, startsWith, readNumberEx]

theorem defaultEx_plain (f : Flags) (ctx : Ctx) (c : Byte) (r : Reader) (he : r.err = .ok) :
    defaultEx { toFlags := f } ctx c r = if !canValueFollow r ctx then .ok (.error, setError r .unexpectedToken) else readValue f { r with root := true } := by
  have h : plainValue { toFlags := f } ctx r = if !canValueFollow r ctx then .ok (.error, setError r .unexpectedToken) else readValue f { r with root := true } := by
    rw [plainValue, if_neg (by simp [he]), readValueEx_plain]
  rw [defaultEx, show parseUnquoted { toFlags := f } ctx r = .ok (false, r) by simp [parseUnquoted], ok_bind, if_neg (by simp),
    show parseCppRaw { toFlags := f } ctx r = .ok (false, r) by simp [parseCppRaw]]
  split
  · rw [ok_bind, if_neg (by simp), if_neg (by simp [he]), show parsePythonRaw { toFlags := f } ctx r = .ok (false, r) by simp [parsePythonRaw], ok_bind, if_neg (by simp), h]
  · exact h

theorem readValue_hash (f : Flags) (r : Reader) (t : List Byte) (hr : r.rest = 0x23 :: t) :
    ∃ r', readValue f r = .ok (.error, r') ∧ r'.err = .unexpectedToken := by
  have e1 : kwTrue.isPrefixOf r.rest = false := by rw [hr]; rfl
  have e2 : kwFalse.isPrefixOf r.rest = false := by rw [hr]; rfl
  have e3 : kwNull.isPrefixOf r.rest = false := by rw [hr]; rfl
  have e4 : ∃ r', readNumber f r = .ok (false, r') := by
    rw [readNumber, if_neg (by simp [hr]), numSign]
    dsimp only
    rw [peek, hr, ok_bind, if_neg (by decide), if_neg (by simp), ok_bind, if_neg (by simp [hr]), ok_bind]
    dsimp only
    rw [numInt, peek]
    dsimp only
    rw [ok_bind, if_neg (by decide), if_neg (by decide), if_pos (by simp)]
    exact ⟨_, rfl⟩
  obtain ⟨r', e4⟩ := e4
  rw [readValue, e1, e2, e3, if_neg (by simp), if_neg (by simp), if_neg (by simp), e4, ok_bind, if_neg (by simp)]
  exact ⟨_, rfl, rfl⟩

theorem dispatchEx_plain (f : Flags) (ctx : Ctx) (c : Byte) (t : List Byte) (r : Reader) (hr : r.rest = c :: t) (he : r.err = .ok) :
    Same (dispatchEx { toFlags := f } r ctx c) (dispatch f r ctx c) := by
  rw [dispatchEx, dispatch]
  by_cases h1 : c = 0x2F
  · rw [if_pos h1, if_pos h1, parseCommentEx, parseComment, hr]
    by_cases hc : f.comments = true
    · rw [if_pos (by simp [hc]), if_pos hc, advance, hr, ok_bind]
      dsimp only
      cases t with
      | nil => exact Or.inr ⟨_, _, rfl, rfl, rfl, by simp [setError]⟩
      | cons d t =>
        dsimp only
        by_cases hd : d = 0x2F
        · rw [if_pos hd, if_pos hd]
          exact Or.inl rfl
        · rw [if_neg hd, if_neg hd]
          right
          split
          · rw [parseBlockComment, if_neg (by simp)]
            exact ⟨_, _, rfl, rfl, rfl, by simp [setError]⟩
          · exact ⟨_, _, rfl, rfl, rfl, by simp [setError]⟩
    · rw [if_neg (by simpa using hc), if_neg hc]; exact Or.inl rfl
  rw [if_neg h1, if_neg h1]
  by_cases h2 : c = 0x23
  · subst h2
    rw [if_pos (by rfl), parsePythonComment, if_neg (by simp), if_neg (by decide), if_neg (by decide), if_neg (by decide), if_neg (by decide), if_neg (by decide), if_neg (by decide)]
    split
    · exact Or.inr ⟨_, _, rfl, rfl, rfl, by simp [setError]⟩
    · obtain ⟨r', e1, e2⟩ := readValue_hash f { r with root := true } t hr
      exact Or.inr ⟨_, _, rfl, e1, by rw [e2]; rfl, by simp [setError]⟩
  rw [if_neg h2, defaultEx_plain f ctx c r he]
  have hq : parseQuotedStringEx { toFlags := f } ctx r = parseQuotedString r ctx := by
    rw [parseQuotedStringEx, peek, hr, ok_bind]
    cases parseQuotedString r ctx with
    | error e => rfl
    | ok x => rw [ok_bind, if_neg (by simp)]
  rw [hq]
  exact Or.inl rfl

theorem nextLoopEx_plain (f : Flags) (ctx : Ctx) : ∀ (n : Nat) (r : Reader), r.err = .ok → Same (nextLoopEx { toFlags := f } ctx n r) (nextLoop f ctx n r)
  | 0, _, _ => Or.inl rfl
  | n + 1, r, he => by
    have he' : (skipWhitespace r).err = .ok := he
    rw [nextLoopEx, nextLoop]
    dsimp only
    generalize hr : skipWhitespace r = r1 at he' ⊢
    cases ht : r1.rest with
    | nil => exact Or.inl rfl
    | cons c t =>
      dsimp only
      split
      · split
        · exact Or.inl rfl
        · exact nextLoopEx_plain f ctx n _ he'
      · split
        · split
          · exact Or.inl rfl
          · exact nextLoopEx_plain f ctx n _ he'
        · exact dispatchEx_plain f ctx c t r1 ht he'

/-- C232: a reader without an error and without the flags of the extensions gives the same token and is in the same state whether
`jsonNextTokenImplicitEx` or `jsonNextTokenImplicit` is called; an error has the same number. -/
theorem C232_same (f : Flags) (ctx : Ctx) (r : Reader) (he : r.err = .ok) : Same (nextTokenEx { toFlags := f } ctx r) (nextToken f ctx r) :=
  nextLoopEx_plain f ctx _ r he

/-- The hypothesis of `C232_same` is met by a new reader, which reads a token. -/
example : (makeReader (ascii " [1]")).err = .ok ∧ ∃ r, nextTokenEx { toFlags := strict } .null (makeReader (ascii " [1]")) = .ok (.arrStart, r) := ⟨rfl, _, rfl⟩

/-! ### C233: C++ raw strings -/

/-- C233, partial: missing are raw strings with a delimiter. A raw string with an empty one gives its content, whatever it is, without replacing
anything. -/
theorem C233_content_partial (f : FlagsEx) (hf : f.cppRaw = true) (ctx : Ctx) (r : Reader) (hv : AtValue ctx r) (hc : ctx ≠ .null) (a content tail : List Byte) (p : Byte)
    (hp : p = chr 'R' ∨ p = chr 'r') (ha : Ws a) (hn : ¬ ascii ")\"" <:+: content) (hr : r.rest = a ++ p :: ascii "\"(" ++ content ++ ascii ")\"" ++ tail) :
    ∃ r', nextTokenEx f ctx r = .ok (.value, r') ∧ Token r r' .rawString content tail ∧ r'.last = .value := by
  have hr' : r.rest = a ++ p :: (0x22 :: 0x28 :: (content ++ 0x29 :: 0x22 :: tail)) := by rw [hr]; simp [ascii]
  have hp' : p = 0x52 ∨ p = 0x72 := hp
  obtain ⟨r1, e, h1⟩ := nextTokenEx_dispatch f ctx hr' ha (by rcases hp' with rfl | rfl <;> rfl) (by rcases hp' with rfl | rfl <;> decide) (by rcases hp' with rfl | rfl <;> decide)
    (by rcases hp' with rfl | rfl <;> decide)
  have hl : r1.last = r.last := by rw [h1]
  have hr1 : r1.rest = p :: (0x22 :: 0x28 :: (content ++ 0x29 :: 0x22 :: tail)) := by rw [h1]
  have hv' : (ctx = .array ∨ r1.last = .colon) := by
    cases ctx with
    | null => exact absurd rfl hc
    | array => exact Or.inl rfl
    | object => exact Or.inr (by rw [hl]; exact hv)
  have hu : parseUnquoted f ctx r1 = .ok (false, r1) := by
    rw [parseUnquoted, if_neg]
    cases ctx with
    | null => simp
    | array => simp
    | object =>
      rcases hv' with h | h
      · cases h
      · simp [h]
  have hd : dispatchEx f r1 ctx p = defaultEx f ctx p r1 := by rcases hp' with rfl | rfl <;> simp [dispatchEx]
  have hne : content ++ 0x29 :: 0x22 :: tail ≠ [] := by simp
  rw [e, hd, defaultEx, hu, ok_bind, if_neg (by simp), if_pos (by rcases hp' with rfl | rfl <;> rfl), parseCppRaw, if_pos (by simpa [hf] using hv'), peek, hr1, ok_bind,
    if_pos (by rcases hp' with rfl | rfl <;> rfl), advance, hr1, ok_bind]
  dsimp only
  rw [if_pos (by rfl), advance]
  dsimp only
  rw [ok_bind, if_neg (by simp), delimLoop]
  dsimp only
  rw [if_neg (by decide), ok_bind]
  dsimp only
  rw [if_pos (by rfl), advance]
  dsimp only
  rw [ok_bind, if_neg hne, List.nil_append, rawLoop_ok _ content tail _ 0 (by simp; omega) hn rfl (by simp), ok_bind]
  dsimp only
  rw [if_pos rfl, ok_bind, if_pos rfl]
  refine ⟨_, rfl, ⟨rfl, ?_, rfl, by rw [h1]⟩, rfl⟩
  simp [View.text]

/-- The raw string of `R"(a)b\d)"`, which is a value of an array, meets the hypotheses. -/
example : ¬ ascii ")\"" <:+: ascii "a)b\\d" ∧ AtValue .array { makeReader (ascii "R\"(a)b\\d)\"]") with last := .comma } := ⟨by decide, Or.inr rfl⟩

/-- A flag for each kind of raw string. -/
def cppOnly : FlagsEx := { cppRaw := true }
/-- See `cppOnly`. -/
def pythonOnly : FlagsEx := { pythonRaw := true }

/-- C233 fails: a raw string with a delimiter is refused. -/
theorem C233_not_delimiter : ∃ r, nextTokenEx cppOnly .array { makeReader (ascii "R\"x(a)x\"]") with last := .arrStart } = .ok (.error, r) := ⟨_, rfl⟩

/-- C233 fails: text that ends inside of a delimiter is read past its end. -/
theorem C233_not_inside : nextTokenEx cppOnly .array { makeReader (ascii "R\"x") with last := .arrStart } = .error .oob := rfl

/-- C233 fails: in an array a raw string is accepted behind a value without a comma, where no value may be. -/
theorem C233_not_refused : ¬ AtValue .array { makeReader (ascii "R\"(a)\"]") with last := .value } ∧
    ∃ r, nextTokenEx cppOnly .array { makeReader (ascii "R\"(a)\"]") with last := .value } = .ok (.value, r) ∧ r.err = .ok :=
  ⟨by simp [AtValue], _, rfl, rfl⟩

/-! ### C234: Python raw strings -/

theorem pythonRaw_start (f : FlagsEx) (hf : f.pythonRaw = true) (hx : f.cppRaw = false) (ctx : Ctx) (r : Reader) (hv : AtValue ctx r) (hc : ctx ≠ .null) (he : r.err = .ok) (a t : List Byte) (p q : Byte)
    (hp : p = 0x52 ∨ p = 0x72) (hq : q = 0x22 ∨ q = 0x27) (ha : Ws a) (hr : r.rest = a ++ p :: q :: t) :
    ∃ r1, r1.rest = q :: t ∧ r1.err = r.err ∧ nextTokenEx f ctx r = (do
      let x ← readQuotedString r1
      if x.1 then .ok (.value, { x.2 with last := .value, vtype := .rawString }) else .ok (.error, setError x.2 .unexpectedToken)) := by
  obtain ⟨r1, e, h1⟩ := nextTokenEx_dispatch f ctx hr ha (by rcases hp with rfl | rfl <;> rfl) (by rcases hp with rfl | rfl <;> decide) (by rcases hp with rfl | rfl <;> decide)
    (by rcases hp with rfl | rfl <;> decide)
  have hl : r1.last = r.last := by rw [h1]
  have hr1 : r1.rest = p :: q :: t := by rw [h1]
  have he1 : r1.err = .ok := by rw [h1]; exact he
  have hv' : (ctx = .array ∨ r1.last = .colon) := by
    cases ctx with
    | null => exact absurd rfl hc
    | array => exact Or.inl rfl
    | object => exact Or.inr (by rw [hl]; exact hv)
  have hu : parseUnquoted f ctx r1 = .ok (false, r1) := by
    rw [parseUnquoted, if_neg]
    cases ctx with
    | null => simp
    | array => simp
    | object =>
      rcases hv' with h | h
      · cases h
      · simp [h]
  have hd : dispatchEx f r1 ctx p = defaultEx f ctx p r1 := by rcases hp with rfl | rfl <;> simp [dispatchEx]
  refine ⟨{ r1 with rest := q :: t, column := r1.column + 1 }, rfl, by rw [h1], ?_⟩
  rw [e, hd, defaultEx, hu, ok_bind, if_neg (by simp), if_pos (by rcases hp with rfl | rfl <;> rfl), show parseCppRaw f ctx r1 = .ok (false, r1) by simp [parseCppRaw, hx], ok_bind, if_neg (by simp),
    if_neg (by simp [he1]), parsePythonRaw, if_pos (by simpa [hf] using hv'), peek, hr1, ok_bind, if_pos (by rcases hp with rfl | rfl <;> rfl), advance, hr1, ok_bind]
  dsimp only
  rw [if_pos (by rcases hq with rfl | rfl <;> rfl)]
  cases readQuotedString { r1 with rest := q :: t, column := r1.column + 1 } with
  | error e => rfl
  | ok x =>
    rw [ok_bind, ok_bind]
    split
    · rw [ok_bind, if_pos rfl]
    · rw [ok_bind, if_neg (by simp), plainValue, if_pos (by simp [setError])]

/-- C234, partial: missing are contents with backslashes and both kinds of raw strings at once. A raw string gives its content. -/
theorem C234_content_partial (f : FlagsEx) (hf : f.pythonRaw = true) (hx : f.cppRaw = false) (ctx : Ctx) (r : Reader) (hv : AtValue ctx r) (hc : ctx ≠ .null) (he : r.err = .ok)
    (a content tail : List Byte) (p q : Byte) (hp : p = chr 'R' ∨ p = chr 'r') (hq : q = chr '"' ∨ q = chr '\'') (ha : Ws a)
    (h1 : q ∉ content) (h2 : chr '\\' ∉ content) (h3 : ∀ b ∈ content, 0x20 ≤ b.toNat) (hr : r.rest = a ++ p :: q :: (content ++ q :: tail)) :
    ∃ r', nextTokenEx f ctx r = .ok (.value, r') ∧ Token r r' .rawString content tail ∧ r'.last = .value := by
  obtain ⟨r1, g1, g2, g3⟩ := pythonRaw_start f hf hx ctx r hv hc he a _ p q hp hq ha hr
  rw [g3, readQuoted_plain hq g1 h1 h2 h3, ok_bind, if_pos rfl]
  exact ⟨_, rfl, ⟨rfl, by simp [View.text], rfl, g2⟩, rfl⟩

/-- C234, partial: a raw string in `"` with the escapes of JSON gives its content with the escapes as they are. -/
theorem C234_escapes_partial (f : FlagsEx) (hf : f.pythonRaw = true) (hx : f.cppRaw = false) (ctx : Ctx) (r : Reader) (hv : AtValue ctx r) (hc : ctx ≠ .null) (he : r.err = .ok)
    (a content text tail : List Byte) (p : Byte) (hp : p = chr 'R' ∨ p = chr 'r') (ha : Ws a) (hb : Body content text) (hr : r.rest = a ++ p :: (quoted content ++ tail)) :
    ∃ r', nextTokenEx f ctx r = .ok (.value, r') ∧ Token r r' .rawString content tail ∧ r'.last = .value := by
  obtain ⟨r1, g1, g2, g3⟩ := pythonRaw_start f hf hx ctx r hv hc he a ((content ++ [chr '"']) ++ tail) p 0x22 hp (Or.inl rfl) ha hr
  rw [g3, readQuoted_ok (show r1.rest = quoted content ++ tail from g1) hb, ok_bind, if_pos rfl]
  exact ⟨_, rfl, ⟨rfl, by simp [View.text], rfl, g2⟩, rfl⟩

/-- Contents of raw strings that meet the hypotheses. -/
example : chr '\'' ∉ ascii "a \"b\"" ∧ chr '\\' ∉ ascii "a \"b\"" ∧ ∀ b ∈ ascii "a \"b\"", 0x20 ≤ b.toNat := by decide
example : Body (ascii "x\\ny") [0x78, 0x0A, 0x79] :=
  Body.plain (b := 0x78) (by decide) (by decide) (by decide) (Body.short (e := chr 'n') (b := 0x0A) (by decide) (.plain (by decide) (by decide) (by decide) .nil))

/-- C234 fails: a raw string with a backslash that is no escape of JSON is refused. -/
theorem C234_not_raw : ∃ r, nextTokenEx pythonOnly .array { makeReader (ascii "r'\\d']") with last := .arrStart } = .ok (.error, r) := ⟨_, rfl⟩

/-- C234 fails: if C++ raw strings are allowed as well, a short raw string at the end of the text is read past the end. -/
theorem C234_not_both : nextTokenEx { cppRaw := true, pythonRaw := true } .array { makeReader (ascii "r\"ab\"]") with last := .arrStart } = .error .oob := rfl

/-- C234 fails: in an array a raw string is accepted behind a value without a comma. -/
theorem C234_not_refused : ¬ AtValue .array { makeReader (ascii "r'a']") with last := .value } ∧
    ∃ r, nextTokenEx pythonOnly .array { makeReader (ascii "r'a']") with last := .value } = .ok (.value, r) ∧ r.err = .ok :=
  ⟨by simp [AtValue], _, rfl, rfl⟩

end Tm.Json
