import Verif.Json.NumLemmas

/-! # Tokens, without extensions -/

namespace Tm.Json

open Tm Spec

/-! ### Numbers and keywords -/

/-- The values that are one token without quotation marks, and their types. -/
inductive Scal : Json → List Byte → VType → Prop
  | null : Scal .null kwNull .null
  | bool (b : Bool) : Scal (.bool b) (if b then kwTrue else kwFalse) .bool
  | num {m i f e} : Number m i f e → Scal (.num (m ++ i ++ f ++ e)) (m ++ i ++ f ++ e) (numType m f e)

/-- What reading such a value does. -/
structure ValOk (r r' : Reader) (v k : List Byte) (t : VType) : Prop where
  rest : r'.rest = k
  err : r'.err = r.err
  root : r'.root = r.root
  last : r'.last = .value
  vtype : r'.vtype = t
  null : r'.cur.null = false
  data : r'.cur.data = v ++ k
  size : k ≠ [] ∨ t = .bool ∨ t = .null → r'.cur.size = v.length

theorem numType_cases (m f e : List Byte) : numType m f e = .uint ∨ numType m f e = .int ∨ numType m f e = .float := by
  unfold numType
  split
  · split
    · exact Or.inl rfl
    · exact Or.inr (Or.inl rfl)
  · exact Or.inr (Or.inr rfl)

theorem number_head {m i f e : List Byte} (h : Number m i f e) (k : List Byte) :
    ∃ c t, m ++ i ++ f ++ e ++ k = c :: t ∧ (Digit c ∨ c = 0x2D) := by
  obtain ⟨hm, hi, _, _⟩ := h
  rcases hm with rfl | rfl
  · rcases hi with rfl | ⟨⟨h1, h2⟩, _⟩
    · exact ⟨_, _, rfl, Or.inl (by decide)⟩
    · cases i with
      | nil => exact absurd rfl h1
      | cons c d => exact ⟨c, _, rfl, Or.inl (h2 c (by simp))⟩
  · exact ⟨_, _, rfl, Or.inr rfl⟩

theorem prefix_cons {a c : Byte} {s t : List Byte} (h : a ≠ c) : List.isPrefixOf (a :: s) (c :: t) = false := by
  simp [List.isPrefixOf, h]

theorem isPrefix_append (p k : List Byte) : List.isPrefixOf p (p ++ k) = true := by
  simp [List.isPrefixOf_iff_prefix]

theorem isPrefix_elim {p s : List Byte} (h : List.isPrefixOf p s = true) : ∃ k, s = p ++ k := by
  rw [List.isPrefixOf_iff_prefix] at h
  obtain ⟨k, rfl⟩ := h
  exact ⟨k, rfl⟩

theorem advanceValue_ok {r : Reader} {v k : List Byte} (hr : r.rest = v ++ k) (t : VType) :
    (advanceValue r t v.length).1 = .value ∧ ValOk r (advanceValue r t v.length).2 v k t :=
  ⟨rfl, by simp [advanceValue, hr], rfl, rfl, rfl, rfl, rfl, hr, fun _ => rfl⟩

theorem readValue_ok {r : Reader} {j : Json} {v k : List Byte} {t : VType} (hs : Scal j v t) (hr : r.rest = v ++ k) (hk : Stop k) :
    ∃ r', readValue strict r = .ok (.value, r') ∧ ValOk r r' v k t := by
  unfold readValue
  cases hs with
  | null =>
    rw [hr, if_neg (by rw [kwTrue, kwNull, List.cons_append, prefix_cons (by decide)]; simp),
      if_neg (by rw [kwFalse, kwNull, List.cons_append, prefix_cons (by decide)]; simp), if_pos (isPrefix_append _ _)]
    exact ⟨_, rfl, (advanceValue_ok hr .null).2⟩
  | bool b =>
    cases b with
    | true =>
      simp only [if_true] at hr
      rw [hr, if_pos (isPrefix_append _ _)]
      exact ⟨_, rfl, (advanceValue_ok hr .bool).2⟩
    | false =>
      simp only [Bool.false_eq_true, if_false] at hr
      rw [hr, if_neg (by rw [kwTrue, kwFalse, List.cons_append, prefix_cons (by decide)]; simp), if_pos (isPrefix_append _ _)]
      exact ⟨_, rfl, (advanceValue_ok hr .bool).2⟩
  | @num m i f e hn =>
    obtain ⟨c, t, e1, hc⟩ := number_head hn k
    have ht : c ≠ 0x74 ∧ c ≠ 0x66 ∧ c ≠ 0x6E := by
      refine ⟨?_, ?_, ?_⟩ <;> (rintro rfl; rcases hc with hc | hc <;> exact absurd hc (by decide))
    rw [hr, e1, if_neg (by rw [kwTrue, prefix_cons (Ne.symm ht.1)]; simp), if_neg (by rw [kwFalse, prefix_cons (Ne.symm ht.2.1)]; simp),
      if_neg (by rw [kwNull, prefix_cons (Ne.symm ht.2.2)]; simp)]
    obtain ⟨r', e2, h2⟩ := readNumber_ok hn hr hk
    rw [e2, ok_bind, if_pos rfl]
    refine ⟨r', by rw [h2.mid.last], h2.rest, h2.mid.err, h2.mid.root, h2.mid.last, h2.vtype, h2.mid.null, ?_, ?_⟩
    · rw [h2.mid.data, hr]
    · rintro (h | h | h)
      · exact h2.size h
      · rcases numType_cases m f e with h' | h' | h' <;> rw [h'] at h <;> cases h
      · rcases numType_cases m f e with h' | h' | h' <;> rw [h'] at h <;> cases h

theorem readValue_inv (r : Reader) :
    (∃ j v k t r', Scal j v t ∧ r.rest = v ++ k ∧ readValue strict r = .ok (.value, r') ∧ ValOk r r' v k t) ∨
    (∃ r', readValue strict r = .ok (.error, r') ∧ Fails r r') ∨
    (readValue strict r = .error .oob ∧ BadEnd r.rest) := by
  unfold readValue
  by_cases h1 : kwTrue.isPrefixOf r.rest = true
  · obtain ⟨k, hr⟩ := isPrefix_elim h1
    rw [if_pos h1]
    exact Or.inl ⟨_, _, k, _, _, .bool true, hr, rfl, (advanceValue_ok hr .bool).2⟩
  rw [if_neg h1]
  by_cases h2 : kwFalse.isPrefixOf r.rest = true
  · obtain ⟨k, hr⟩ := isPrefix_elim h2
    rw [if_pos h2]
    exact Or.inl ⟨_, _, k, _, _, .bool false, hr, rfl, (advanceValue_ok hr .bool).2⟩
  rw [if_neg h2]
  by_cases h3 : kwNull.isPrefixOf r.rest = true
  · obtain ⟨k, hr⟩ := isPrefix_elim h3
    rw [if_pos h3]
    exact Or.inl ⟨_, _, k, _, _, .null, hr, rfl, (advanceValue_ok hr .null).2⟩
  rw [if_neg h3]
  rcases readNumber_inv r with ⟨m, i, f, e, k, r', hn, hr, e2, h2⟩ | ⟨r', e2, hf⟩ | ⟨e2, hb⟩
  · left
    refine ⟨_, _, k, _, r', .num hn, hr, by rw [e2, ok_bind, if_pos rfl, h2.mid.last], h2.rest, h2.mid.err, h2.mid.root, h2.mid.last,
      h2.vtype, h2.mid.null, by rw [h2.mid.data, hr], ?_⟩
    rintro (h | h | h)
    · exact h2.size h
    · rcases numType_cases m f e with h' | h' | h' <;> rw [h'] at h <;> cases h
    · rcases numType_cases m f e with h' | h' | h' <;> rw [h'] at h <;> cases h
  · right; left
    refine ⟨setError r' .unexpectedToken, by rw [e2, ok_bind, if_neg (by simp)], by simp [setError], hf.2⟩
  · right; right
    exact ⟨by rw [e2, error_bind], hb⟩

/-! ### White space -/

theorem isWs_iff {b : Byte} : isWs b = true ↔ (b = 0x20 ∨ b = 0x09 ∨ b = 0x0A ∨ b = 0x0D) := by
  simp only [isWs, Bool.or_eq_true, decide_eq_true_eq]
  constructor
  · rintro (((h | h) | h) | h) <;> simp [h]
  · rintro (h | h | h | h) <;> simp [h]

/-- The text does not start with white space. -/
def NoWs (t : List Byte) : Prop := ∀ c, t.head? = some c → isWs c = false

theorem skipLoop_append {a t : List Byte} (ha : Ws a) (ht : NoWs t) : ∀ l c, (skipLoop (a ++ t) l c).1 = t := by
  induction a with
  | nil =>
    intro l c
    cases t with
    | nil => rfl
    | cons b t =>
      rw [List.nil_append, skipLoop, if_neg (by rw [ht b rfl]; simp)]
  | cons b a ih =>
    intro l c
    rw [List.cons_append, skipLoop, if_pos (isWs_iff.mpr (ha b (by simp)))]
    have ih := ih (fun x hx => ha x (by simp [hx]))
    split
    · exact ih _ _
    · exact ih _ _

theorem skipLoop_inv : ∀ (s : List Byte) (l c : Nat), ∃ a, Ws a ∧ s = a ++ (skipLoop s l c).1 ∧ NoWs (skipLoop s l c).1
  | [], l, c => ⟨[], by simp [Ws], rfl, by simp [skipLoop, NoWs]⟩
  | b :: t, l, c => by
    rw [skipLoop]
    by_cases hb : isWs b = true
    · rw [if_pos hb]
      split
      · obtain ⟨a, h1, h2, h3⟩ := skipLoop_inv t (l + 1) 0
        refine ⟨b :: a, ?_, by rw [List.cons_append, ← h2], h3⟩
        intro x hx
        rcases List.mem_cons.mp hx with rfl | hx
        · exact isWs_iff.mp hb
        · exact h1 x hx
      · obtain ⟨a, h1, h2, h3⟩ := skipLoop_inv t l (c + 1)
        refine ⟨b :: a, ?_, by rw [List.cons_append, ← h2], h3⟩
        intro x hx
        rcases List.mem_cons.mp hx with rfl | hx
        · exact isWs_iff.mp hb
        · exact h1 x hx
    · rw [if_neg hb]
      refine ⟨[], by simp [Ws], rfl, ?_⟩
      intro x hx
      simp at hx
      subst hx
      simpa using hb

/-- Readers that differ in their position and their current view only. -/
structure Core (r r1 : Reader) : Prop where
  err : r1.err = r.err
  root : r1.root = r.root
  last : r1.last = r.last

theorem Core.refl (r : Reader) : Core r r := ⟨rfl, rfl, rfl⟩

theorem Core.trans {r s t : Reader} (h1 : Core r s) (h2 : Core s t) : Core r t :=
  ⟨h2.err.trans h1.err, h2.root.trans h1.root, h2.last.trans h1.last⟩

theorem skipWhitespace_core (r : Reader) : Core r (skipWhitespace r) := ⟨rfl, rfl, rfl⟩

theorem skipWhitespace_eq {r : Reader} {a t : List Byte} (hr : r.rest = a ++ t) (ha : Ws a) (ht : NoWs t) :
    (skipWhitespace r).rest = t := by
  simp only [skipWhitespace, hr]
  exact skipLoop_append ha ht _ _

theorem skipWhitespace_inv (r : Reader) : ∃ a, Ws a ∧ r.rest = a ++ (skipWhitespace r).rest ∧ NoWs (skipWhitespace r).rest :=
  skipLoop_inv _ _ _

theorem skipWhitespace_le (r : Reader) : (skipWhitespace r).rest.length ≤ r.rest.length := by
  obtain ⟨a, _, h, _⟩ := skipWhitespace_inv r
  rw [h, List.length_append]
  omega

/-! ### The loop of the tokenizer -/

theorem nextLoop_fuel (f : Flags) (ctx : Ctx) : ∀ (n m : Nat) (r : Reader), r.rest.length < n → r.rest.length < m →
    nextLoop f ctx n r = nextLoop f ctx m r := by
  intro n
  induction n with
  | zero => intro m r h; omega
  | succ n ih =>
    intro m r hn hm
    obtain ⟨m, rfl⟩ : ∃ k, m = k + 1 := ⟨m - 1, by omega⟩
    have hle := skipWhitespace_le r
    rw [nextLoop, nextLoop]
    cases hr : (skipWhitespace r).rest with
    | nil => rfl
    | cons c t =>
      rw [hr] at hle
      simp only [List.length_cons] at hle
      dsimp only
      rw [ih m { skipWhitespace r with rest := t, column := (skipWhitespace r).column + 1, last := .colon } (by dsimp only; omega)
          (by dsimp only; omega),
        ih m { skipWhitespace r with rest := t, column := (skipWhitespace r).column + 1, last := .comma } (by dsimp only; omega)
          (by dsimp only; omega)]

/-- One step of the tokenizer. -/
theorem nextToken_eq (f : Flags) (ctx : Ctx) (r : Reader) : nextToken f ctx r =
    match (skipWhitespace r).rest with
    | [] => if ctx ≠ .null then .ok (.error, setError (skipWhitespace r) .unexpectedEof)
      else .ok (.eof, { skipWhitespace r with last := .eof })
    | c :: t =>
      if c = 0x3A || c = 0x3D then
        if ctx ≠ .object || r.last ≠ .propName || (c = 0x3D && !f.allowEqual) then
          .ok (.error, setError (skipWhitespace r) .unexpectedToken)
        else nextToken f ctx { skipWhitespace r with rest := t, column := (skipWhitespace r).column + 1, last := .colon }
      else if c = 0x2C then
        if ctx = .null || !(r.last = .objEnd || r.last = .arrEnd || r.last = .value) then
          .ok (.error, setError (skipWhitespace r) .unexpectedToken)
        else nextToken f ctx { skipWhitespace r with rest := t, column := (skipWhitespace r).column + 1, last := .comma }
      else dispatch f (skipWhitespace r) ctx c := by
  rw [nextToken, nextLoop]
  dsimp only
  cases hr : (skipWhitespace r).rest with
  | nil => rfl
  | cons c t =>
    have hle := skipWhitespace_le r
    rw [hr] at hle
    simp only [List.length_cons] at hle
    dsimp only
    rw [nextToken, nextToken,
      nextLoop_fuel f ctx r.rest.length (t.length + 1)
        { skipWhitespace r with rest := t, column := (skipWhitespace r).column + 1, last := .colon } (by dsimp only; omega)
        (by dsimp only; omega),
      nextLoop_fuel f ctx r.rest.length (t.length + 1)
        { skipWhitespace r with rest := t, column := (skipWhitespace r).column + 1, last := .comma } (by dsimp only; omega)
        (by dsimp only; omega)]
    rfl

/-- The tokens after which a comma may stand. -/
def Ends (l : Tok) : Prop := l = .objEnd ∨ l = .arrEnd ∨ l = .value

theorem nextToken_comma {ctx : Ctx} {r : Reader} {a t : List Byte} (hr : r.rest = a ++ 0x2C :: t) (ha : Ws a) (hc : ctx ≠ .null)
    (hl : Ends r.last) :
    ∃ r1, nextToken strict ctx r = nextToken strict ctx r1 ∧ r1.rest = t ∧ r1.last = .comma ∧ r1.err = r.err ∧ r1.root = r.root := by
  rw [nextToken_eq, skipWhitespace_eq hr ha (by intro c hc; simp at hc; subst hc; rfl)]
  dsimp only
  rw [if_neg (by decide), if_pos rfl, if_neg]
  · exact ⟨_, rfl, rfl, rfl, rfl, rfl⟩
  · rcases hl with h | h | h <;> simp [h, hc]

theorem nextToken_colon {r : Reader} {a t : List Byte} (hr : r.rest = a ++ 0x3A :: t) (ha : Ws a) (hl : r.last = .propName) :
    ∃ r1, nextToken strict .object r = nextToken strict .object r1 ∧ r1.rest = t ∧ r1.last = .colon ∧ r1.err = r.err ∧
      r1.root = r.root := by
  rw [nextToken_eq, skipWhitespace_eq hr ha (by intro c hc; simp at hc; subst hc; rfl)]
  dsimp only
  rw [if_pos (by decide), if_neg]
  · exact ⟨_, rfl, rfl, rfl, rfl, rfl⟩
  · simp [hl]

theorem nextToken_dispatch {f : Flags} {ctx : Ctx} {r : Reader} {a t : List Byte} {c : Byte} (hr : r.rest = a ++ c :: t) (ha : Ws a)
    (hc : isWs c = false) (h1 : c ≠ 0x3A) (h2 : c ≠ 0x3D) (h3 : c ≠ 0x2C) :
    ∃ r1, nextToken f ctx r = dispatch f r1 ctx c ∧ r1.rest = c :: t ∧ Core r r1 := by
  have e := skipWhitespace_eq hr ha (by intro x hx; simp at hx; subst hx; exact hc)
  rw [nextToken_eq, e]
  dsimp only
  rw [if_neg (by simp; exact ⟨h1, h2⟩), if_neg h3]
  exact ⟨_, rfl, e, skipWhitespace_core r⟩

/-! ### Tokens of the grammar -/

/-- A value may follow in this context after this token. -/
def CanValue (ctx : Ctx) (l : Tok) : Prop :=
  match ctx with
  | .null => True
  | .object => l = .colon
  | .array => l = .arrStart ∨ l = .comma

theorem canValueFollow_true {r : Reader} {ctx : Ctx} (h : CanValue ctx r.last) (hr : ctx = .null → r.root = false) :
    canValueFollow r ctx = true := by
  cases ctx with
  | null => simp [canValueFollow, hr rfl]
  | object => simpa [canValueFollow, CanValue] using h
  | array => simpa [canValueFollow, CanValue] using h

theorem canValue_of {r : Reader} {ctx : Ctx} (h : canValueFollow r ctx = true) : CanValue ctx r.last := by
  cases ctx with
  | null => trivial
  | object => simpa [canValueFollow, CanValue] using h
  | array => simpa [canValueFollow, CanValue] using h

theorem tok_start {ctx : Ctx} {r : Reader} {a t : List Byte} (isObj : Bool)
    (hr : r.rest = a ++ (if isObj then 0x7B else 0x5B) :: t) (ha : Ws a) (hv : CanValue ctx r.last)
    (ho : ctx = .null → r.root = false) :
    ∃ r', nextToken strict ctx r = .ok (if isObj then .objStart else .arrStart, r') ∧ r'.rest = t ∧
      r'.last = (if isObj then .objStart else .arrStart) ∧ r'.err = r.err := by
  obtain ⟨r1, e1, h1, h2⟩ := nextToken_dispatch (f := strict) (ctx := ctx) hr ha (by cases isObj <;> rfl) (by cases isObj <;> decide)
    (by cases isObj <;> decide) (by cases isObj <;> decide)
  have hcv : canValueFollow r1 ctx = true := canValueFollow_true (h2.last ▸ hv) (fun h => h2.root.trans (ho h))
  have key : parseStart r1 ctx isObj = .ok (if isObj then .objStart else .arrStart,
      { (if ctx = .null then { r1 with root := true } else r1) with
        rest := t, column := r1.column + 1, last := if isObj then .objStart else .arrStart }) := by
    unfold parseStart
    rw [if_neg (by simp [hcv]), if_neg (by simp; intro h; exact h2.root.trans (ho h))]
    by_cases hn : ctx = .null
    · rw [if_pos hn]
      simp only [advance, h1, ok_bind]
    · rw [if_neg hn]
      simp only [advance, h1, ok_bind]
  rw [e1]
  have : dispatch strict r1 ctx (if isObj then 0x7B else 0x5B) = parseStart r1 ctx isObj := by
    cases isObj <;> rfl
  rw [this, key]
  refine ⟨_, rfl, rfl, rfl, ?_⟩
  dsimp only
  by_cases hn : ctx = .null
  · rw [if_pos hn]; exact h2.err
  · rw [if_neg hn]; exact h2.err

/-- A closing bracket may follow this token. -/
def CanEnd (l : Tok) : Prop := l ≠ .comma ∧ l ≠ .propName ∧ l ≠ .colon

theorem tok_end {r : Reader} {a t : List Byte} (isObj : Bool)
    (hr : r.rest = a ++ (if isObj then 0x7D else 0x5D) :: t) (ha : Ws a) (hl : CanEnd r.last) :
    ∃ r', nextToken strict (if isObj then .object else .array) r = .ok (if isObj then .objEnd else .arrEnd, r') ∧ r'.rest = t ∧
      r'.last = (if isObj then .objEnd else .arrEnd) ∧ r'.err = r.err := by
  obtain ⟨r1, e1, h1, h2⟩ := nextToken_dispatch (f := strict) (ctx := if isObj then .object else .array) hr ha
    (by cases isObj <;> rfl) (by cases isObj <;> decide) (by cases isObj <;> decide) (by cases isObj <;> decide)
  rw [e1]
  have : ∀ ctx, dispatch strict r1 ctx (if isObj then 0x7D else 0x5D) = parseEnd strict r1 ctx isObj := by
    intro ctx
    cases isObj <;> rfl
  rw [this]
  unfold parseEnd
  rw [if_neg]
  · simp only [advance, h1, ok_bind]
    exact ⟨_, rfl, rfl, rfl, h2.err⟩
  · rw [← h2.last] at hl
    cases isObj <;> simp [canEndFollow, hl.1, hl.2.1, hl.2.2]

theorem tok_name {r : Reader} {a raw text t : List Byte} (hr : r.rest = a ++ (quoted raw ++ t)) (ha : Ws a) (hb : Body raw text)
    (hl : r.last = .objStart ∨ r.last = .comma) :
    ∃ r', nextToken strict .object r = .ok (.propName, r') ∧ r'.rest = t ∧ r'.last = .propName ∧ r'.err = r.err ∧
      r'.cur = ⟨false, raw ++ 0x22 :: t, raw.length⟩ := by
  obtain ⟨r1, e1, h1, h2⟩ := nextToken_dispatch (f := strict) (ctx := .object) (r := r) (a := a) (c := 0x22)
    (t := raw ++ 0x22 :: t) (by rw [hr]; simp [quoted, chr]) ha rfl (by decide) (by decide) (by decide)
  rw [e1]
  have hq := readQuoted_ok (r := r1) (raw := raw) (k := t) (by rw [h1]; simp [quoted, chr]) hb
  have : dispatch strict r1 .object 0x22 = parseQuotedString r1 .object := rfl
  rw [this]
  unfold parseQuotedString
  rw [hq, ok_bind]
  dsimp only
  rw [if_neg (by simp), if_neg (by simp), if_pos]
  · exact ⟨_, rfl, rfl, rfl, h2.err, rfl⟩
  · rw [← h2.last] at hl
    simpa using hl

theorem tok_str {ctx : Ctx} {r : Reader} {a raw text t : List Byte} (hr : r.rest = a ++ (quoted raw ++ t)) (ha : Ws a)
    (hb : Body raw text) (hv : CanValue ctx r.last) :
    ∃ r', nextToken strict ctx r = .ok (.value, r') ∧ r'.rest = t ∧ r'.last = .value ∧ r'.err = r.err ∧ r'.vtype = .string ∧
      r'.cur = ⟨false, raw ++ 0x22 :: t, raw.length⟩ := by
  obtain ⟨r1, e1, h1, h2⟩ := nextToken_dispatch (f := strict) (ctx := ctx) (r := r) (a := a) (c := 0x22)
    (t := raw ++ 0x22 :: t) (by rw [hr]; simp [quoted, chr]) ha rfl (by decide) (by decide) (by decide)
  rw [e1]
  have hq := readQuoted_ok (r := r1) (raw := raw) (k := t) (by rw [h1]; simp [quoted, chr]) hb
  have : dispatch strict r1 ctx 0x22 = parseQuotedString r1 ctx := rfl
  rw [this]
  unfold parseQuotedString
  rw [hq, ok_bind]
  dsimp only
  rw [if_neg (by simp)]
  rw [← h2.last] at hv
  cases ctx with
  | null => exact ⟨_, rfl, rfl, rfl, h2.err, rfl, rfl⟩
  | object =>
    have hv : r1.last = .colon := hv
    rw [if_neg (by simp), if_neg (by simp [hv]), if_neg (by simp [canValueFollow, hv])]
    exact ⟨_, rfl, rfl, rfl, h2.err, rfl, rfl⟩
  | array =>
    have hv : r1.last = .arrStart ∨ r1.last = .comma := hv
    rw [if_neg (by simp), if_neg (by simp), if_neg (by rcases hv with h | h <;> simp [canValueFollow, h])]
    exact ⟨_, rfl, rfl, rfl, h2.err, rfl, rfl⟩

theorem scal_head {j : Json} {v : List Byte} {t : VType} (h : Scal j v t) :
    ∃ c u, v = c :: u ∧ (Digit c ∨ c = 0x2D ∨ c = 0x74 ∨ c = 0x66 ∨ c = 0x6E) := by
  cases h with
  | null => exact ⟨_, _, rfl, by decide⟩
  | bool b =>
    cases b
    · exact ⟨_, _, rfl, by decide⟩
    · exact ⟨_, _, rfl, by decide⟩
  | num hn =>
    obtain ⟨c, t, e, h⟩ := number_head hn []
    rw [List.append_nil] at e
    exact ⟨c, t, e, by rcases h with h | h <;> simp [h]⟩

theorem digit_cases {c : Byte} (h : Digit c) : c = 0x30 ∨ c = 0x31 ∨ c = 0x32 ∨ c = 0x33 ∨ c = 0x34 ∨ c = 0x35 ∨ c = 0x36 ∨ c = 0x37 ∨
    c = 0x38 ∨ c = 0x39 := by
  revert c
  decide +kernel

theorem scal_dispatch {c : Byte} (h : Digit c ∨ c = 0x2D ∨ c = 0x74 ∨ c = 0x66 ∨ c = 0x6E) :
    isWs c = false ∧ c ≠ 0x3A ∧ c ≠ 0x3D ∧ c ≠ 0x2C ∧ c ≠ 0x2F ∧ c ≠ 0x27 ∧ c ≠ 0x22 ∧ c ≠ 0x7B ∧ c ≠ 0x5B ∧ c ≠ 0x7D ∧
      c ≠ 0x5D := by
  revert c
  decide +kernel

theorem tok_scal {ctx : Ctx} {r : Reader} {a v t : List Byte} {j : Json} {ty : VType} (hr : r.rest = a ++ (v ++ t)) (ha : Ws a)
    (hs : Scal j v ty) (ht : Stop t) (hv : CanValue ctx r.last) (ho : ctx = .null → r.root = false) :
    ∃ r', nextToken strict ctx r = .ok (.value, r') ∧ r'.rest = t ∧ r'.last = .value ∧ r'.err = r.err ∧ r'.vtype = ty ∧
      r'.cur.null = false ∧ r'.cur.data = v ++ t ∧ (t ≠ [] ∨ ty = .bool ∨ ty = .null → r'.cur.size = v.length) := by
  obtain ⟨c, u, rfl, hc⟩ := scal_head hs
  obtain ⟨n0, n1, n2, n3, n4, n5, n6, n7, n8, n9, n10⟩ := scal_dispatch hc
  obtain ⟨r1, e1, h1, h2⟩ := nextToken_dispatch (f := strict) (ctx := ctx) (r := r) (a := a) (c := c) (t := u ++ t)
    (by rw [hr]; simp) ha n0 n1 n2 n3
  rw [e1]
  have hcv : canValueFollow r1 ctx = true := canValueFollow_true (h2.last ▸ hv) (fun h => h2.root.trans (ho h))
  have : dispatch strict r1 ctx c = readValue strict { r1 with root := true } := by
    unfold dispatch
    rw [if_neg n4, if_neg n5, if_neg n6, if_neg n7, if_neg n8, if_neg n9, if_neg n10, if_neg (by simp [hcv])]
  rw [this]
  obtain ⟨r', e', h'⟩ := readValue_ok (r := { r1 with root := true }) hs (by dsimp only; rw [h1]; rfl) ht
  exact ⟨r', e', h'.rest, h'.last, h'.err.trans h2.err, h'.vtype, h'.null, h'.data, h'.size⟩

theorem tok_eof {r : Reader} (hr : Ws r.rest) : ∃ r', nextToken strict .null r = .ok (.eof, r') ∧ r'.rest = [] ∧ r'.err = r.err := by
  rw [nextToken_eq, skipWhitespace_eq (a := r.rest) (t := []) (by simp) hr (by simp [NoWs])]
  dsimp only
  rw [if_neg (by simp)]
  refine ⟨_, rfl, ?_, rfl⟩
  exact skipWhitespace_eq (a := r.rest) (t := []) (by simp) hr (by simp [NoWs])

/-! ### All tokens -/

/-- What may stand before a token: white space, with a comma or a colon that turns the last token `l` into `l'`. -/
inductive Sep (ctx : Ctx) : Tok → Tok → List Byte → Prop
  | ws {l a} : Ws a → Sep ctx l l a
  | comma {l a b} : ctx ≠ .null → Ends l → Ws a → Ws b → Sep ctx l .comma (a ++ 0x2C :: b)
  | colon {a b} : ctx = .object → Ws a → Ws b → Sep ctx .propName .colon (a ++ 0x3A :: b)

/-- The text of a token after the last token `l`, and the reader `r'` after it. -/
inductive Lexed (ctx : Ctx) (l : Tok) (r' : Reader) : Tok → List Byte → Prop
  | objStart : CanValue ctx l → Lexed ctx l r' .objStart [0x7B]
  | arrStart : CanValue ctx l → Lexed ctx l r' .arrStart [0x5B]
  | objEnd : ctx = .object → CanEnd l → Lexed ctx l r' .objEnd [0x7D]
  | arrEnd : ctx = .array → CanEnd l → Lexed ctx l r' .arrEnd [0x5D]
  | name {raw text} : ctx = .object → l = .objStart ∨ l = .comma → Body raw text →
      r'.cur = ⟨false, raw ++ 0x22 :: r'.rest, raw.length⟩ → Lexed ctx l r' .propName (quoted raw)
  | str {raw text} : CanValue ctx l → Body raw text → r'.vtype = .string →
      r'.cur = ⟨false, raw ++ 0x22 :: r'.rest, raw.length⟩ → Lexed ctx l r' .value (quoted raw)
  | scal {j v t} : CanValue ctx l → Scal j v t → r'.vtype = t → r'.cur.null = false → r'.cur.data = v ++ r'.rest →
      (r'.rest ≠ [] ∨ t = .bool ∨ t = .null → r'.cur.size = v.length) → Lexed ctx l r' .value v
  | eof : ctx = .null → r'.rest = [] → Lexed ctx l r' .eof []

/-- What the tokenizer does: it finds a token, reports an error, or reads behind the end of the text. -/
inductive TokRes (ctx : Ctx) (r : Reader) : C (Tok × Reader) → Prop
  | tok {tok r' l sep body} : Sep ctx r.last l sep → Lexed ctx l r' tok body → r.rest = sep ++ (body ++ r'.rest) →
      r'.err = r.err → r'.last = tok → TokRes ctx r (.ok (tok, r'))
  | error {r'} : Fails r r' → TokRes ctx r (.ok (.error, r'))
  | oob : BadEnd r.rest → TokRes ctx r (.error .oob)

/-- The part of the tokenizer that reads a token. -/
theorem dispatch_res {ctx : Ctx} {r : Reader} {c : Byte} {t : List Byte} (hr : r.rest = c :: t) :
    (∃ tok r' body, dispatch strict r ctx c = .ok (tok, r') ∧ Lexed ctx r.last r' tok body ∧ r.rest = body ++ r'.rest ∧
      r'.err = r.err ∧ r'.last = tok) ∨
    (∃ r', dispatch strict r ctx c = .ok (.error, r') ∧ Fails r r') ∨
    (dispatch strict r ctx c = .error .oob ∧ BadEnd r.rest) := by
  have herr : ∀ r1 : Reader, r1.rest <:+ r.rest → Fails r (setError r1 .unexpectedToken) := fun r1 h => ⟨by simp [setError], h⟩
  unfold dispatch
  by_cases h1 : c = 0x2F
  · rw [if_pos h1]
    right; left
    exact ⟨_, by unfold parseComment; rw [if_neg (by simp)], herr r List.suffix_rfl⟩
  rw [if_neg h1]
  by_cases h2 : c = 0x27
  · rw [if_pos h2, if_neg (by simp)]
    right; left
    exact ⟨_, rfl, herr r List.suffix_rfl⟩
  rw [if_neg h2]
  by_cases h3 : c = 0x22
  · rw [if_pos h3]
    subst h3
    unfold parseQuotedString
    rcases readQuoted_inv hr with ⟨raw, text, k, rfl, hb, e⟩ | ⟨r', pre, e, hp, hne, he, hl, ho⟩
    · rw [e, ok_bind]
      dsimp only
      rw [if_neg (by simp)]
      have hrest : r.rest = quoted raw ++ k := by rw [hr]; simp [quoted, chr]
      have hsuf : k <:+ r.rest := by rw [hrest]; exact List.suffix_append _ _
      by_cases hn : ctx = .null
      · subst hn
        rw [if_pos rfl]
        left
        exact ⟨_, _, _, rfl, Lexed.str trivial hb rfl rfl, hrest, rfl, rfl⟩
      · rw [if_neg hn]
        by_cases hname : ctx = .object ∧ (r.last = .objStart ∨ r.last = .comma)
        · rw [if_pos (by simpa using hname)]
          left
          exact ⟨_, _, _, rfl, Lexed.name hname.1 hname.2 hb rfl, hrest, rfl, rfl⟩
        · rw [if_neg (by simpa using hname)]
          generalize hx : (Reader.mk k r.line (r.column + raw.length + 1) ⟨false, raw ++ 0x22 :: k, raw.length⟩ r.last .string r.root
            r.err) = rx
          by_cases hcv : canValueFollow rx ctx = true
          · rw [if_neg (by simp [hcv])]
            left
            subst hx
            exact ⟨_, _, _, rfl, Lexed.str (canValue_of hcv) hb rfl rfl, hrest, rfl, rfl⟩
          · rw [if_pos (by simpa using hcv)]
            right; left
            subst hx
            exact ⟨_, rfl, herr _ hsuf⟩
    · rw [e, ok_bind]
      right; left
      exact ⟨r', rfl, he, ⟨pre, hp.symm⟩⟩
  rw [if_neg h3]
  have hstart : ∀ isObj : Bool, c = (if isObj then 0x7B else 0x5B) →
      (∃ tok r' body, parseStart r ctx isObj = .ok (tok, r') ∧ Lexed ctx r.last r' tok body ∧ r.rest = body ++ r'.rest ∧
        r'.err = r.err ∧ r'.last = tok) ∨ (∃ r', parseStart r ctx isObj = .ok (.error, r') ∧ Fails r r') := by
    intro isObj hc
    unfold parseStart
    by_cases g1 : (ctx ≠ .null && !canValueFollow r ctx) = true
    · rw [if_pos g1]
      exact Or.inr ⟨_, rfl, herr r List.suffix_rfl⟩
    rw [if_neg g1]
    by_cases g2 : (ctx = .null && r.root) = true
    · rw [if_pos g2]
      exact Or.inr ⟨_, rfl, herr r List.suffix_rfl⟩
    rw [if_neg g2]
    have hcv : CanValue ctx r.last := by
      by_cases hn : ctx = .null
      · subst hn; trivial
      · exact canValue_of (by simpa [hn] using g1)
    left
    by_cases hn : ctx = .null
    · rw [if_pos hn]
      simp only [advance, hr, ok_bind]
      refine ⟨_, _, [c], rfl, ?_, rfl, rfl, rfl⟩
      cases isObj
      · rw [hc]; exact Lexed.arrStart hcv
      · rw [hc]; exact Lexed.objStart hcv
    · rw [if_neg hn]
      simp only [advance, hr, ok_bind]
      refine ⟨_, _, [c], rfl, ?_, rfl, rfl, rfl⟩
      cases isObj
      · rw [hc]; exact Lexed.arrStart hcv
      · rw [hc]; exact Lexed.objStart hcv
  by_cases h4 : c = 0x7B
  · rw [if_pos h4]
    rcases hstart true h4 with h | h
    · exact Or.inl h
    · exact Or.inr (Or.inl h)
  rw [if_neg h4]
  by_cases h5 : c = 0x5B
  · rw [if_pos h5]
    rcases hstart false h5 with h | h
    · exact Or.inl h
    · exact Or.inr (Or.inl h)
  rw [if_neg h5]
  have hend : ∀ isObj : Bool, c = (if isObj then 0x7D else 0x5D) →
      (∃ tok r' body, parseEnd strict r ctx isObj = .ok (tok, r') ∧ Lexed ctx r.last r' tok body ∧ r.rest = body ++ r'.rest ∧
        r'.err = r.err ∧ r'.last = tok) ∨ (∃ r', parseEnd strict r ctx isObj = .ok (.error, r') ∧ Fails r r') := by
    intro isObj hc
    unfold parseEnd
    by_cases g1 : canEndFollow strict r ctx (if isObj then .object else .array) = true
    · rw [if_neg (by simp [g1])]
      simp only [advance, hr, ok_bind]
      left
      refine ⟨_, _, [c], rfl, ?_, rfl, rfl, rfl⟩
      have g2 : ctx = (if isObj then .object else .array) ∧ CanEnd r.last := by
        unfold canEndFollow at g1
        by_cases ga : (ctx = .null || ctx ≠ (if isObj then .object else .array)) = true
        · rw [if_pos ga] at g1; cases g1
        · rw [if_neg ga] at g1
          simp only [Bool.or_eq_true, decide_eq_true_eq, not_or, not_not] at ga
          by_cases gb : r.last = .comma
          · rw [if_pos gb] at g1; cases g1
          · rw [if_neg gb] at g1
            simp at g1
            exact ⟨ga.2, gb, g1.1, g1.2⟩
      cases isObj
      · rw [hc]; exact Lexed.arrEnd g2.1 g2.2
      · rw [hc]; exact Lexed.objEnd g2.1 g2.2
    · rw [if_pos (by simpa using g1)]
      exact Or.inr ⟨_, rfl, herr r List.suffix_rfl⟩
  by_cases h6 : c = 0x7D
  · rw [if_pos h6]
    rcases hend true h6 with h | h
    · exact Or.inl h
    · exact Or.inr (Or.inl h)
  rw [if_neg h6]
  by_cases h7 : c = 0x5D
  · rw [if_pos h7]
    rcases hend false h7 with h | h
    · exact Or.inl h
    · exact Or.inr (Or.inl h)
  rw [if_neg h7]
  by_cases h8 : canValueFollow r ctx = true
  · rw [if_neg (by simp [h8])]
    rcases readValue_inv { r with root := true } with ⟨j, v, k, ty, r', hs, hrest, e, h⟩ | ⟨r', e, hf⟩ | ⟨e, hb⟩
    · left
      refine ⟨_, r', v, e, Lexed.scal (canValue_of h8) hs h.vtype h.null (by rw [h.rest]; exact h.data) ?_, ?_, h.err, h.last⟩
      · rw [h.rest]; exact h.size
      · rw [h.rest]; exact hrest
    · exact Or.inr (Or.inl ⟨r', e, hf⟩)
    · exact Or.inr (Or.inr ⟨e, hb⟩)
  · rw [if_pos (by simpa using h8)]
    exact Or.inr (Or.inl ⟨_, rfl, herr r List.suffix_rfl⟩)

/-- Tokens without a separator before them. -/
theorem nextToken_plain {ctx : Ctx} {r : Reader} {l0 : Tok} {sep : List Byte} {c : Byte} {t : List Byte}
    (hs : ∀ a, Ws a → Sep ctx l0 r.last (sep ++ a)) (hr : (skipWhitespace r).rest = c :: t)
    {R : Reader} (hR : R.rest = sep ++ r.rest) (hRl : R.last = l0) (hRe : R.err = r.err) :
    TokRes ctx R (dispatch strict (skipWhitespace r) ctx c) := by
  obtain ⟨a, ha, hra, _⟩ := skipWhitespace_inv r
  have hsuf : (skipWhitespace r).rest <:+ R.rest := by
    rw [hR, hra]
    exact ⟨sep ++ a, by rw [List.append_assoc]⟩
  rcases dispatch_res (ctx := ctx) hr with ⟨tok, r', body, e, h1, h2, h3, h4⟩ | ⟨r', e, h⟩ | ⟨e, h⟩
  · rw [e]
    refine TokRes.tok (l := r.last) (sep := sep ++ a) (body := body) (hRl ▸ hs a ha) h1 ?_ (h3.trans hRe.symm) h4
    rw [hR, hra, h2, List.append_assoc]
  · rw [e]
    exact TokRes.error ⟨h.1, h.2.trans hsuf⟩
  · rw [e]
    exact TokRes.oob (h.suffix hsuf)

/-- Everything the tokenizer does, without extensions. -/
theorem nextToken_res (ctx : Ctx) (r : Reader) : TokRes ctx r (nextToken strict ctx r) := by
  -- what happens after a separator: no second separator is possible
  have after : ∀ (r1 : Reader) (sep : List Byte), (∀ a, Ws a → Sep ctx r.last r1.last (sep ++ a)) →
      (r1.last = .comma ∨ r1.last = .colon) → ctx ≠ .null → r.rest = sep ++ r1.rest → r1.err = r.err →
      TokRes ctx r (nextToken strict ctx r1) := by
    intro r1 sep hs hl hc hr he
    obtain ⟨a, ha, hra, _⟩ := skipWhitespace_inv r1
    have hsuf : (skipWhitespace r1).rest <:+ r.rest := by
      rw [hr, hra]
      exact ⟨sep ++ a, by rw [List.append_assoc]⟩
    rw [nextToken_eq]
    cases hrest : (skipWhitespace r1).rest with
    | nil =>
      dsimp only
      rw [if_pos hc]
      exact TokRes.error ⟨by simp [setError], hsuf⟩
    | cons c t =>
      dsimp only
      by_cases h1 : (c = 0x3A || c = 0x3D) = true
      · rw [if_pos h1, if_pos (by rcases hl with h | h <;> simp [h])]
        exact TokRes.error ⟨by simp [setError], hsuf⟩
      rw [if_neg h1]
      by_cases h2 : c = 0x2C
      · rw [if_pos h2, if_pos (by rcases hl with h | h <;> simp [h])]
        exact TokRes.error ⟨by simp [setError], hsuf⟩
      rw [if_neg h2]
      exact nextToken_plain hs hrest hr rfl he.symm
  obtain ⟨a, ha, hra, _⟩ := skipWhitespace_inv r
  have hsuf : (skipWhitespace r).rest <:+ r.rest := ⟨a, hra.symm⟩
  rw [nextToken_eq]
  cases hrest : (skipWhitespace r).rest with
  | nil =>
    dsimp only
    by_cases hc : ctx = .null
    · rw [if_neg (by simp [hc])]
      refine TokRes.tok (l := r.last) (sep := a) (body := []) (Sep.ws ha) (Lexed.eof hc hrest) ?_ rfl rfl
      dsimp only
      rw [List.nil_append]
      exact hra
    · rw [if_pos hc]
      exact TokRes.error ⟨by simp [setError], hsuf⟩
  | cons c t =>
    dsimp only
    have hsplit : r.rest = (a ++ [c]) ++ t := by rw [hra, hrest]; simp
    by_cases h1 : (c = 0x3A || c = 0x3D) = true
    · rw [if_pos h1]
      by_cases h2 : (ctx ≠ .object || r.last ≠ .propName || (c = 0x3D && !strict.allowEqual)) = true
      · rw [if_pos h2]
        exact TokRes.error ⟨by simp [setError], hsuf⟩
      · rw [if_neg h2]
        simp at h2
        have hc : c = 0x3A := by
          simp at h1
          rcases h1 with h | h
          · exact h
          · exact absurd h h2.2
        refine after _ (a ++ [c]) ?_ (Or.inr rfl) (by rw [h2.1.1]; simp) hsplit rfl
        intro b hb
        dsimp only
        rw [h2.1.2, hc, List.append_assoc]
        exact Sep.colon h2.1.1 ha hb
    rw [if_neg h1]
    by_cases h2 : c = 0x2C
    · rw [if_pos h2]
      by_cases h3 : (ctx = .null || !(r.last = .objEnd || r.last = .arrEnd || r.last = .value)) = true
      · rw [if_pos h3]
        exact TokRes.error ⟨by simp [setError], hsuf⟩
      · rw [if_neg h3]
        simp only [Bool.or_eq_true, decide_eq_true_eq, Bool.not_eq_true', not_or, Bool.not_eq_false] at h3
        refine after _ (a ++ [c]) ?_ (Or.inl rfl) h3.1 hsplit rfl
        intro b hb
        dsimp only
        rw [h2, List.append_assoc]
        exact Sep.comma h3.1 (by rcases h3.2 with (h | h) | h <;> simp [Ends, h]) ha hb
    rw [if_neg h2]
    exact nextToken_plain (sep := []) (fun b hb => Sep.ws hb) hrest rfl rfl rfl

end Tm.Json
