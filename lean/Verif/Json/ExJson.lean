import Verif.Json.ExDocTerm
import Verif.Json.ExProps

/-! # The tokens of JSON are read with every set of flags -/

namespace Tm.Json

open Tm Tm.Json.Spec

/-- What may follow a value in JSON: white space up to the end, or up to a comma or a closing bracket. -/
def Calm (k : List Byte) : Prop := Ws k ∨ ∃ a c t, Ws a ∧ (c = 0x2C ∨ c = 0x5D ∨ c = 0x7D) ∧ k = a ++ c :: t

theorem Calm.head {k : List Byte} (h : Calm k) : k.head? ≠ some 0x78 ∧ k.head? ≠ some 0x58 := by
  have hw : ∀ (x : Byte) (t : List Byte), Ws (x :: t) → x ≠ 0x78 ∧ x ≠ 0x58 := by
    intro x t h
    rcases h x (by simp) with rfl | rfl | rfl | rfl <;> decide
  rcases h with h | ⟨a, c, t, ha, hc, rfl⟩
  · cases k with
    | nil => simp
    | cons x k => exact ⟨fun e => (hw x k h).1 (by simpa using e), fun e => (hw x k h).2 (by simpa using e)⟩
  · cases a with
    | nil => rcases hc with rfl | rfl | rfl <;> simp
    | cons x a => exact ⟨fun e => (hw x a ha).1 (by simpa using e), fun e => (hw x a ha).2 (by simpa using e)⟩

theorem ws_not {a : List Byte} {c : Byte} (ha : Ws a) (hc : isWs c = false) : c ∉ a := by
  intro h
  rcases ha c h with rfl | rfl | rfl | rfl <;> cases hc

theorem first_unique {a b t u : List Byte} {c d : Byte} (ha : Ws a) (hb : Ws b) (hc : isWs c = false) (hd : isWs d = false)
    (h : a ++ c :: t = b ++ d :: u) : a = b ∧ c = d ∧ t = u := by
  induction a generalizing b with
  | nil =>
    cases b with
    | nil => simpa using h
    | cons x b =>
      simp only [List.nil_append, List.cons_append, List.cons.injEq] at h
      exact absurd (h.1 ▸ List.mem_cons_self : c ∈ x :: b) (ws_not hb hc)
  | cons x a ih =>
    cases b with
    | nil =>
      simp only [List.nil_append, List.cons_append, List.cons.injEq] at h
      exact absurd (h.1 ▸ List.mem_cons_self : d ∈ x :: a) (ws_not ha hd)
    | cons y b =>
      simp only [List.cons_append, List.cons.injEq] at h
      obtain ⟨h1, h2, h3⟩ := ih (fun z hz => ha z (by simp [hz])) (fun z hz => hb z (by simp [hz])) h.2
      exact ⟨by rw [h.1, h1], h2, h3⟩

theorem Calm.quote {k a t : List Byte} (h : Calm k) (ha : Ws a) : k ≠ a ++ 0x22 :: t := by
  intro e
  rcases h with h | ⟨b, c, u, hb, hc, rfl⟩
  · exact ws_not h (c := 0x22) rfl (by rw [e]; simp)
  · have := (first_unique hb ha (by rcases hc with rfl | rfl | rfl <;> rfl) rfl e).2.1
    rcases hc with rfl | rfl | rfl <;> exact absurd this (by decide)

/-! ### Numbers -/

theorem numSign_of (f : Flags) {r : Reader} (h : r.rest.head? ≠ some 0x2B) : numSign f r = numSign strict r := by
  unfold numSign peek
  cases hr : r.rest with
  | nil => rfl
  | cons c t =>
    dsimp only
    rw [ok_bind, ok_bind]
    have : decide (c = 0x2B) = false := decide_eq_false (by intro e; apply h; rw [hr, e]; rfl)
    rw [this, Bool.and_false]
    rfl

theorem numInt_of (f : Flags) {r : Reader} {s : Step} (h : numInt strict r = .ok s) (hs : ∀ q, s ≠ .done false q)
    (hx : ∀ q, s = .go true q → q.rest.head? ≠ some 0x78 ∧ q.rest.head? ≠ some 0x58) : numInt f r = .ok s := by
  revert h
  unfold numInt
  cases hr : r.rest with
  | nil => simp [peek, hr, error_bind]
  | cons c t =>
    rw [show peek r = .ok c by rw [peek, hr], ok_bind, ok_bind]
    by_cases h0 : c = 0x30
    · rw [if_pos h0, if_pos h0, show advance r = .ok { r with rest := t, column := r.column + 1 } by rw [advance, hr], ok_bind, ok_bind]
      dsimp only
      cases t with
      | nil => exact id
      | cons x t =>
        rw [if_neg (by simp), if_neg (by simp), show peek { r with rest := x :: t, column := r.column + 1 } = .ok x from rfl, ok_bind, ok_bind,
          if_neg (by simp)]
        intro h
        injection h with h
        have := hx _ h.symm
        dsimp only at this
        rw [if_neg, h]
        intro h'
        simp at h' this
        rcases h'.1 with rfl | rfl <;> simp at this
    · rw [if_neg h0, if_neg h0]
      by_cases h1 : isDigit c = true
      · rw [if_pos h1, if_pos h1]; exact id
      · rw [if_neg h1, if_neg h1, if_pos (by simp)]
        intro h
        injection h with h
        exact absurd h.symm (hs _)

theorem numFrac_of (f : Flags) {r : Reader} {s : Step} (h : numFrac strict r = .ok s) (hs : ∀ q, s ≠ .done false q) : numFrac f r = .ok s := by
  revert h
  unfold numFrac
  split
  · rename_i t hr
    rw [show advance { r with vtype := .float } = .ok { r with vtype := .float, rest := t, column := r.column + 1 } by simp [advance, hr], ok_bind, ok_bind]
    dsimp only
    cases t with
    | nil =>
      rw [if_pos rfl, if_neg (by simp)]
      intro h
      injection h with h
      exact absurd h.symm (hs _)
    | cons d t =>
      intro h
      rw [if_neg (by simp), show peek { r with vtype := .float, rest := d :: t, column := r.column + 1 } = .ok d from rfl, ok_bind] at h ⊢
      by_cases h1 : isDigit d = true
      · rw [if_pos h1] at h ⊢; exact h
      · rw [if_neg h1, if_pos (by simp)] at h
        injection h with h
        exact absurd h.symm (hs _)
  · exact id

theorem numTail_of (f : Flags) {lead : Bool} {r r' : Reader} (h : numTail strict lead r = .ok (true, r')) : numTail f lead r = .ok (true, r') := by
  revert h
  unfold numTail
  dsimp only
  cases hs : numFrac strict r with
  | error e => intro h; cases h
  | ok s =>
    rw [ok_bind]
    intro h
    have : numFrac f r = .ok s := numFrac_of f hs (by
      intro q e
      rw [e] at h
      injection h with h
      injection h with h _
      cases h)
    rw [this, ok_bind]
    exact h

/-- A number whose first char after `0` is no letter of a hexadecimal number. -/
theorem readNumber_of (f : Flags) {r r' : Reader} (h : readNumber strict r = .ok (true, r')) (hk : r'.rest.head? ≠ some 0x78 ∧ r'.rest.head? ≠ some 0x58) :
    readNumber f r = .ok (true, r') ∧ ∃ c t, r.rest = c :: t ∧ (isDigit c = true ∨ (c = 0x2D ∧ ∃ d u, t = d :: u ∧ isDigit d = true)) := by
  have hplus : r.rest.head? ≠ some 0x2B := by
    intro hp
    revert h
    cases hr : r.rest with
    | nil => rw [hr] at hp; cases hp
    | cons c t =>
      rw [hr] at hp
      injection hp with hp
      subst hp
      simp [readNumber, numSign, numInt, peek, hr, ok_bind, isDigit]
  revert h
  unfold readNumber
  rw [numSign_of f hplus]
  by_cases h0 : r.rest = []
  · rw [if_pos h0]; intro h; injection h with h; injection h with h _; cases h
  rw [if_neg h0, if_neg h0]
  cases hs : numSign strict r with
  | error e => intro h; cases h
  | ok s =>
    rw [ok_bind, ok_bind]
    cases s with
    | done ok q =>
      intro h
      injection h with h
      injection h with h1 h2
      subst h1
      revert hs
      unfold numSign
      cases hr : r.rest with
      | nil => exact absurd hr h0
      | cons c t =>
        dsimp only
        rw [peek, ok_bind]
        simp only [Bool.false_and, Bool.false_eq_true, if_false]
        by_cases hc : c = 0x2D
        · rw [if_pos hc, advance]
          dsimp only
          rw [ok_bind]
          dsimp only
          split
          · intro h; injection h with h; injection h with h _; cases h
          · intro h; injection h with h; cases h
        · rw [if_neg hc, ok_bind, if_neg (by simp)]
          intro h; injection h with h; cases h
    | go fl q =>
      dsimp only
      -- the reader after the sign
      have hq : (∃ c t, r.rest = c :: t ∧ c ≠ 0x2D ∧ q.rest = c :: t) ∨ ∃ t, r.rest = 0x2D :: t ∧ q.rest = t := by
        revert hs
        unfold numSign
        cases hr : r.rest with
        | nil => exact absurd hr h0
        | cons c t =>
          dsimp only
          rw [peek, ok_bind]
          simp only [Bool.false_and, Bool.false_eq_true, if_false]
          by_cases hc : c = 0x2D
          · rw [if_pos hc, advance]
            dsimp only
            rw [ok_bind]
            dsimp only
            split
            · intro h; injection h with h; cases h
            · intro h; injection h with h; injection h with _ h
              subst h
              exact Or.inr ⟨t, by rw [hc], rfl⟩
          · rw [if_neg hc, ok_bind, if_neg (by simp)]
            intro h; injection h with h; injection h with _ h
            subst h
            exact Or.inl ⟨c, t, rfl, hc, rfl⟩
      cases hi : numInt strict q with
      | error e => intro h; cases h
      | ok s =>
        rw [ok_bind]
        intro h
        have hnd : ∀ q, s ≠ .done false q := by
          intro q e
          rw [e] at h
          injection h with h
          injection h with h _
          cases h
        have hi' : numInt f q = .ok s := by
          refine numInt_of f hi hnd ?_
          rintro q' rfl
          -- a letter would be left
          constructor
          · intro hx
            dsimp only at h
            have hr' : ∃ t, q'.rest = 0x78 :: t := by
              cases hq' : q'.rest with
              | nil => rw [hq'] at hx; cases hx
              | cons c t => rw [hq'] at hx; injection hx with hx; exact ⟨t, by rw [hx]⟩
            obtain ⟨t, hr'⟩ := hr'
            simp [numTail, numFrac, numExp, numEnd, hr', ok_bind] at h
            apply hk.1
            rw [← h]
            simp [setSize, hr']
          · intro hx
            dsimp only at h
            have hr' : ∃ t, q'.rest = 0x58 :: t := by
              cases hq' : q'.rest with
              | nil => rw [hq'] at hx; cases hx
              | cons c t => rw [hq'] at hx; injection hx with hx; exact ⟨t, by rw [hx]⟩
            obtain ⟨t, hr'⟩ := hr'
            simp [numTail, numFrac, numExp, numEnd, hr', ok_bind] at h
            apply hk.2
            rw [← h]
            simp [setSize, hr']
        have hdig : ∃ c t, q.rest = c :: t ∧ isDigit c = true := by
          cases hr : q.rest with
          | nil => rw [numInt, peek, hr] at hi; cases hi
          | cons c t =>
            refine ⟨c, t, rfl, ?_⟩
            by_contra hc
            rw [numInt, peek, hr] at hi
            dsimp only at hi
            rw [ok_bind, if_neg (by rintro rfl; exact hc rfl), if_neg hc, if_pos (by simp)] at hi
            injection hi with hi
            exact hnd _ hi.symm
        refine ⟨?_, ?_⟩
        · rw [hi', ok_bind]
          cases s with
          | done ok q => exact h
          | go lead q => exact numTail_of f h
        · obtain ⟨d, u, e, hd⟩ := hdig
          rcases hq with ⟨c, t, e1, _, e2⟩ | ⟨t, e1, e2⟩
          · rw [e] at e2
            injection e2 with e2 _
            exact ⟨c, t, e1, Or.inl (e2 ▸ hd)⟩
          · exact ⟨_, t, e1, Or.inr ⟨rfl, d, u, e2.symm.trans e, hd⟩⟩

/-! ### Values -/

theorem startsWith_of (i : Bool) {s kw : List Byte} (h : kw.isPrefixOf s = true) (hk : kw.map lowerCase = kw) : startsWith i s kw = true := by
  unfold startsWith
  split
  · rw [List.isPrefixOf_iff_prefix] at h ⊢
    have := h.map lowerCase
    rwa [hk] at this
  · exact h

theorem startsWith_head {i : Bool} {c k : Byte} {t kw : List Byte} (h1 : c ≠ k) (h2 : lowerCase c ≠ k) : startsWith i (c :: t) (k :: kw) = false := by
  unfold startsWith
  split
  · simp [List.isPrefixOf, Ne.symm h2]
  · simp [List.isPrefixOf, Ne.symm h1]

theorem digit_lower : ∀ c : Byte, isDigit c = true ∨ c = 0x2D → ∀ k : Byte, (k = 0x74 ∨ k = 0x66 ∨ k = 0x6E ∨ k = 0x69 ∨ k = 0x49 ∨ k = 0x4E) → c ≠ k ∧ lowerCase c ≠ k := by
  decide +kernel

/-- What the plain tokenizer reads without flags is read with every flag. -/
theorem readValueEx_of (f : FlagsEx) {r r' : Reader} {tok : Tok} (h : readValue strict r = .ok (tok, r')) (ht : tok ≠ .error)
    (hk : r'.rest.head? ≠ some 0x78 ∧ r'.rest.head? ≠ some 0x58) : readValueEx f r = .ok (tok, r') := by
  revert h
  unfold readValue readValueEx
  by_cases h1 : kwTrue.isPrefixOf r.rest = true
  · rw [if_pos h1, if_pos (startsWith_of _ h1 (by decide))]; exact id
  rw [if_neg h1]
  by_cases h2 : kwFalse.isPrefixOf r.rest = true
  · have : startsWith f.ignoreCase r.rest kwTrue = false := by
      rw [List.isPrefixOf_iff_prefix] at h2
      obtain ⟨t, e⟩ := h2
      rw [← e]
      exact startsWith_head (by decide) (by decide)
    rw [if_pos h2, if_neg (by simp [this]), if_pos (startsWith_of _ h2 (by decide))]; exact id
  rw [if_neg h2]
  by_cases h3 : kwNull.isPrefixOf r.rest = true
  · have h3' := h3
    rw [List.isPrefixOf_iff_prefix] at h3
    obtain ⟨t, e⟩ := h3
    have e1 : startsWith f.ignoreCase r.rest kwTrue = false := by
      rw [← e]
      exact startsWith_head (by decide) (by decide)
    have e2 : startsWith f.ignoreCase r.rest kwFalse = false := by
      rw [← e]
      exact startsWith_head (by decide) (by decide)
    rw [if_pos h3', if_neg (by simp [e1]), if_neg (by simp [e2]), if_pos (startsWith_of _ h3' (by decide))]; exact id
  rw [if_neg h3]
  cases hx : readNumber strict r with
  | error e => intro h; cases h
  | ok x =>
    rw [ok_bind]
    intro h
    by_cases hb : x.1 = true
    · rw [if_pos hb] at h
      injection h with h
      injection h with e1 e2
      obtain ⟨b, q⟩ := x
      dsimp only at hb e1 e2
      subst hb e2
      obtain ⟨hf, c, t, hr, hc⟩ := readNumber_of f.toFlags hx hk
      have hd : isDigit c = true ∨ c = 0x2D := hc.imp id (·.1)
      have e4 : startsWith f.ignoreCase r.rest kwTrue = false := by
        rw [hr]; exact startsWith_head (digit_lower c hd _ (by simp)).1 (digit_lower c hd _ (by simp)).2
      have e5 : startsWith f.ignoreCase r.rest kwFalse = false := by
        rw [hr]; exact startsWith_head (digit_lower c hd _ (by simp)).1 (digit_lower c hd _ (by simp)).2
      have e6 : startsWith f.ignoreCase r.rest kwNull = false := by
        rw [hr]; exact startsWith_head (digit_lower c hd _ (by simp)).1 (digit_lower c hd _ (by simp)).2
      have e7 : readNumberEx f r = .ok (true, q) := by
        unfold readNumberEx
        by_cases hx : f.extendedFloats = true
        · rw [if_pos (by simp [hx, hr])]
          have hdrop : ∃ d u, r.rest.drop (signSize f r.rest) = d :: u ∧ isDigit d = true := by
            rw [hr, signSize]
            rcases hc with hc | ⟨rfl, d, u, rfl, hc⟩
            · have n1 : c ≠ 0x2D := by rintro rfl; cases hc
              have n2 : c ≠ 0x2B := by rintro rfl; cases hc
              rw [if_neg n1, if_neg (by simp; exact fun e => absurd e n2)]
              exact ⟨c, t, rfl, hc⟩
            · rw [if_pos rfl]
              exact ⟨d, u, rfl, hc⟩
          obtain ⟨d, u, e8, hd⟩ := hdrop
          have hl := digit_lower d (Or.inl hd)
          have e9 : startsWith f.ignoreCase (r.rest.drop (signSize f r.rest)) (kwInfinity f.ignoreCase) = false := by
            rw [e8, kwInfinity]
            cases f.ignoreCase <;> exact startsWith_head (hl _ (by simp)).1 (hl _ (by simp)).2
          have e10 : startsWith f.ignoreCase (r.rest.drop (signSize f r.rest)) (kwNan f.ignoreCase) = false := by
            rw [e8, kwNan]
            cases f.ignoreCase <;> exact startsWith_head (hl _ (by simp)).1 (hl _ (by simp)).2
          rw [if_neg (by simp [e9]), if_neg (by simp [e10]), hf]
        · rw [if_neg (by simp [hx]), hf]
      rw [if_neg (by simp [e4]), if_neg (by simp [e5]), if_neg (by simp [e6]), e7, ok_bind, if_pos rfl, e1]
    · rw [if_neg hb] at h
      injection h with h
      injection h with e1 e2
      exact absurd e1.symm ht

/-! ### Tokens -/

/-- The second reader is the first one, after a value perhaps behind white space that follows. -/
structure Ahead (tok : Tok) (r r' : Reader) : Prop where
  same : tok ≠ .value → r' = r
  rest : ∃ b, Ws b ∧ r.rest = b ++ r'.rest
  last : r'.last = r.last
  err : r'.err = r.err
  cur : r'.cur = r.cur
  vtype : r'.vtype = r.vtype
  root : r'.root = r.root

theorem Ahead.refl (tok : Tok) (r : Reader) : Ahead tok r r := ⟨fun _ => rfl, ⟨[], by simp [Ws], rfl⟩, rfl, rfl, rfl, rfl, rfl⟩

theorem quoted_of (f : FlagsEx) (ctx : Ctx) {r r' : Reader} {t : List Byte} {tok : Tok} (hr : r.rest = 0x22 :: t)
    (h : parseQuotedString r ctx = .ok (tok, r')) (hk : tok = .value → Calm r'.rest) :
    ∃ r'', parseQuotedStringEx f ctx r = .ok (tok, r'') ∧ Ahead tok r' r'' := by
  rw [parseQuotedStringEx, peek, hr, ok_bind, h, ok_bind]
  dsimp only
  by_cases hc : (decide (tok = .value) && (f.concat && decide (ctx = .object) || f.concatInArrays && decide (ctx = .array))) = true
  · rw [if_pos hc]
    have htok : tok = .value := by simp at hc; exact hc.1
    have hv : r'.vtype = .string := by
      revert h
      unfold parseQuotedString
      cases readQuotedString r with
      | error e => intro h; cases h
      | ok x =>
        rw [ok_bind]
        dsimp only
        split
        · intro h; injection h with h; injection h with h _; rw [htok] at h; cases h
        · split
          · intro h; injection h with h; injection h with _ h; rw [← h]
          · split
            · intro h; injection h with h; injection h with _ h; rw [← h]
            · split
              · intro h; injection h with h; injection h with h _; rw [htok] at h; cases h
              · intro h; injection h with h; injection h with _ h; rw [← h]
    obtain ⟨b, hb, e, _⟩ := skipWhitespace_inv r'
    have hloop : concatLoop 0x22 (r'.rest.length + 1) r' r'.cur = .ok (skipWhitespace r', r'.cur) := by
      rw [concatLoop]
      dsimp only
      cases hs : (skipWhitespace r').rest with
      | nil => rfl
      | cons c t =>
        dsimp only
        rw [if_neg]
        rintro rfl
        rw [hs] at e
        exact (hk htok).quote hb e
    rw [hloop, ok_bind]
    dsimp only
    rw [if_neg (by show ¬ r'.vtype = _; rw [hv]; simp)]
    exact ⟨_, rfl, fun h => absurd htok h, ⟨b, hb, e⟩, rfl, rfl, rfl, rfl, rfl⟩
  · rw [if_neg hc]
    exact ⟨_, rfl, Ahead.refl _ _⟩

theorem readValue_letter (r : Reader) (c : Byte) (t : List Byte) (hr : r.rest = c :: t) (hc : c = 0x72 ∨ c = 0x52) :
    ∃ r', readValue strict r = .ok (.error, r') := by
  have e1 : kwTrue.isPrefixOf r.rest = false := by rw [hr]; rcases hc with rfl | rfl <;> rfl
  have e2 : kwFalse.isPrefixOf r.rest = false := by rw [hr]; rcases hc with rfl | rfl <;> rfl
  have e3 : kwNull.isPrefixOf r.rest = false := by rw [hr]; rcases hc with rfl | rfl <;> rfl
  have e4 : ∃ r', readNumber strict r = .ok (false, r') := by
    rw [readNumber, if_neg (by simp [hr]), numSign]
    dsimp only
    rw [peek, hr, ok_bind, if_neg (by rcases hc with rfl | rfl <;> decide), if_neg (by simp), ok_bind, if_neg (by simp [hr]), ok_bind]
    dsimp only
    rw [numInt, peek]
    dsimp only
    rw [ok_bind, if_neg (by rcases hc with rfl | rfl <;> decide), if_neg (by rcases hc with rfl | rfl <;> decide), if_pos (by simp)]
    exact ⟨_, rfl⟩
  obtain ⟨r', e4⟩ := e4
  rw [readValue, e1, e2, e3, if_neg (by simp), if_neg (by simp), if_neg (by simp), e4, ok_bind, if_neg (by simp)]
  exact ⟨_, rfl⟩

theorem dispatchEx_of (f : FlagsEx) (ctx : Ctx) {r r' : Reader} {c : Byte} {t : List Byte} {tok : Tok} (hr : r.rest = c :: t) (he : r.err = .ok)
    (h : dispatch strict r ctx c = .ok (tok, r')) (ht : tok ≠ .error) (hk : tok = .value → Calm r'.rest) :
    ∃ r'', dispatchEx f r ctx c = .ok (tok, r'') ∧ Ahead tok r' r'' := by
  have bad : ∀ q : Reader, (.ok (.error, q) : C (Tok × Reader)) = .ok (tok, r') → False := by
    intro q h; injection h with h; injection h with h _; exact ht h.symm
  revert h
  unfold dispatch dispatchEx
  by_cases h1 : c = 0x2F
  · rw [if_pos h1, parseComment, if_neg (by simp)]; exact fun h => (bad _ h).elim
  rw [if_neg h1, if_neg h1]
  by_cases h2 : c = 0x27
  · rw [if_pos h2, if_neg (by simp)]; exact fun h => (bad _ h).elim
  rw [if_neg h2]
  by_cases h3 : c = 0x23
  · subst h3
    rw [if_neg (by decide), if_neg (by decide), if_neg (by decide), if_neg (by decide), if_neg (by decide)]
    split
    · exact fun h => (bad _ h).elim
    · obtain ⟨q, e, _⟩ := readValue_hash strict { r with root := true } t hr
      rw [e]; exact fun h => (bad _ h).elim
  rw [if_neg h3, if_neg h2]
  by_cases h4 : c = 0x22
  · rw [if_pos h4, if_pos h4]; exact fun h => quoted_of f ctx (h4 ▸ hr) h hk
  rw [if_neg h4, if_neg h4]
  by_cases h5 : c = 0x7B
  · rw [if_pos h5, if_pos h5]; exact fun h => ⟨_, h, Ahead.refl _ _⟩
  rw [if_neg h5, if_neg h5]
  by_cases h6 : c = 0x5B
  · rw [if_pos h6, if_pos h6]; exact fun h => ⟨_, h, Ahead.refl _ _⟩
  rw [if_neg h6, if_neg h6]
  have hend : ∀ isObj, parseEnd strict r ctx isObj = .ok (tok, r') → ∃ r'', parseEnd f.toFlags r ctx isObj = .ok (tok, r'') ∧ Ahead tok r' r'' := by
    intro isObj
    unfold parseEnd
    by_cases hc : canEndFollow strict r ctx (if isObj then .object else .array) = true
    · have : canEndFollow f.toFlags r ctx (if isObj then .object else .array) = true := by
        generalize (if isObj = true then Ctx.object else Ctx.array) = e at hc
        unfold canEndFollow at hc ⊢
        by_cases g1 : (decide (ctx = .null) || decide (ctx ≠ e)) = true
        · rw [if_pos g1] at hc; cases hc
        · rw [if_neg g1] at hc ⊢
          by_cases g2 : r.last = .comma
          · rw [if_pos g2] at hc; cases hc
          · rw [if_neg g2] at hc ⊢; exact hc
      intro h
      rw [hc, if_neg (by simp)] at h
      rw [this, if_neg (by simp)]
      exact ⟨_, h, Ahead.refl _ _⟩
    · rw [if_pos (by simpa using hc)]; exact fun h => (bad _ h).elim
  by_cases h7 : c = 0x7D
  · rw [if_pos h7, if_pos h7]; exact hend true
  rw [if_neg h7, if_neg h7]
  by_cases h8 : c = 0x5D
  · rw [if_pos h8, if_pos h8]; exact hend false
  rw [if_neg h8, if_neg h8]
  by_cases h9 : canValueFollow r ctx = true
  · rw [if_neg (by simp [h9])]
    intro h
    have hval : tok = .value → r'.rest.head? ≠ some 0x78 ∧ r'.rest.head? ≠ some 0x58 := fun e => (hk e).head
    have htok : tok = .value := by
      have := (readValue_good strict ctx { r with root := true }).2 _ h
      revert h
      unfold readValue
      split
      · intro h; injection h with h; injection h with h _; exact h.symm
      · split
        · intro h; injection h with h; injection h with h _; exact h.symm
        · split
          · intro h; injection h with h; injection h with h _; exact h.symm
          · cases hx : readNumber strict { r with root := true } with
            | error e => intro h; cases h
            | ok x =>
              rw [ok_bind]
              split
              · rename_i hb
                intro h; injection h with h; injection h with h _
                rw [← h]
                exact ((readNumber_good strict { r with root := true }).2 x hx).2 hb |>.2
              · exact fun h => (bad _ h).elim
    have hv := readValueEx_of f h ht (hval htok)
    have hu : parseUnquoted f ctx r = .ok (false, r) := by
      unfold parseUnquoted
      rw [if_neg]
      cases ctx with
      | null => simp
      | array => simp
      | object => simp [canValueFollow] at h9; simp [h9]
    rw [defaultEx, hu, ok_bind, if_neg (by simp)]
    by_cases hc : c = 0x72 ∨ c = 0x52
    · obtain ⟨q, e⟩ := readValue_letter { r with root := true } c t hr hc
      rw [e] at h
      exact (bad _ h).elim
    · rw [if_neg (by simpa using hc), plainValue, if_neg (by simp [he]), if_neg (by simp [h9]), hv]
      exact ⟨_, rfl, Ahead.refl _ _⟩
  · rw [if_pos (by simp [h9])]; exact fun h => (bad _ h).elim

theorem nextLoopEx_of (f : FlagsEx) (ctx : Ctx) {tok : Tok} {r' : Reader} (ht : tok ≠ .error) (hk : tok = .value → Calm r'.rest) :
    ∀ (n : Nat) (r : Reader), r.err = .ok → nextLoop strict ctx n r = .ok (tok, r') → ∃ r'', nextLoopEx f ctx n r = .ok (tok, r'') ∧ Ahead tok r' r''
  | 0, _, _, h => by cases h
  | n + 1, r, he, h => by
    have bad : ∀ q : Reader, (.ok (.error, q) : C (Tok × Reader)) = .ok (tok, r') → False := by
      intro q h; injection h with h; injection h with h _; exact ht h.symm
    have he' : (skipWhitespace r).err = .ok := he
    rw [nextLoop] at h
    rw [nextLoopEx]
    dsimp only at h ⊢
    generalize hr : skipWhitespace r = r1 at he' h ⊢
    cases hs : r1.rest with
    | nil => rw [hs] at h; exact ⟨_, h, Ahead.refl _ _⟩
    | cons c t =>
      rw [hs] at h
      dsimp only at h ⊢
      by_cases h1 : (decide (c = 0x3A) || decide (c = 0x3D)) = true
      · rw [if_pos h1] at h ⊢
        by_cases h2 : (decide (ctx ≠ .object) || decide (r1.last ≠ .propName) || decide (c = 0x3D) && !strict.allowEqual) = true
        · rw [if_pos h2] at h; exact (bad _ h).elim
        · rw [if_neg h2] at h
          rw [if_neg]
          · exact nextLoopEx_of f ctx ht hk n _ (by exact he') h
          · simp at h2 ⊢
            exact ⟨h2.1, fun e => absurd e h2.2⟩
      · rw [if_neg h1] at h ⊢
        by_cases h2 : c = 0x2C
        · rw [if_pos h2] at h ⊢
          split at h
          · exact (bad _ h).elim
          · rename_i h3
            rw [if_neg h3]
            exact nextLoopEx_of f ctx ht hk n _ (by exact he') h
        · rw [if_neg h2] at h ⊢
          exact dispatchEx_of f ctx hs he' h ht hk

/-- A token that the plain tokenizer without flags reads is read by the extended one with every set of flags. -/
theorem nextTokenEx_of (f : FlagsEx) {ctx : Ctx} {r r' : Reader} {tok : Tok} (h : nextToken strict ctx r = .ok (tok, r')) (he : r.err = .ok)
    (ht : tok ≠ .error) (hk : tok = .value → Calm r'.rest) : ∃ r'', nextTokenEx f ctx r = .ok (tok, r'') ∧ Ahead tok r' r'' :=
  nextLoopEx_of f ctx ht hk _ r he h

end Tm.Json
