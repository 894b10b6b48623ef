import Verif.Json.ExJson
import Verif.Json.EventProps

/-! # A further flag does not change the tokens of a text that is read to its end -/

namespace Tm.Json

open Tm Tm.Json.Spec

/-- Every flag of `f` is one of `g`. -/
def Flags.Below (f g : Flags) : Prop :=
  (f.comments = true → g.comments = true) ∧ (f.trailingComma = true → g.trailingComma = true) ∧ (f.singleQuoted = true → g.singleQuoted = true) ∧
  (f.hexadecimal = true → g.hexadecimal = true) ∧ (f.allowEqual = true → g.allowEqual = true) ∧ (f.plusSign = true → g.plusSign = true) ∧
  (f.decimalPoint = true → g.decimalPoint = true)

/-- The letter after the 0 of a hexadecimal number. -/
def HeadX (s : List Byte) : Prop := s.head? = some 0x78 ∨ s.head? = some 0x58

/-- A token after which reading goes wrong. -/
def BadTok (x : Tok × Reader) : Prop := x.1 = .error ∨ (x.1 = .value ∧ HeadX x.2.rest)

theorem upSign {f g : Flags} (h : f.Below g) {r : Reader} (hp : f.plusSign = true ∨ r.rest.head? ≠ some 0x2B) : numSign g r = numSign f r := by
  unfold numSign peek
  cases hr : r.rest with
  | nil => rfl
  | cons c t =>
    dsimp only
    rcases hp with hp | hp
    · rw [show f.plusSign = g.plusSign by rw [hp, h.2.2.2.2.2.1 hp]]
    · have hc : decide (c = 0x2B) = false := decide_eq_false (by intro e; apply hp; rw [hr, e]; rfl)
      simp only [ok_bind, hc, Bool.and_false, Bool.false_eq_true, if_false]

theorem upInt {f g : Flags} (hb : f.Below g) {r : Reader} {s : Step} (h : numInt f r = .ok s) (hs : ∀ q, s ≠ .done false q)
    (hx : ∀ q, s = .go true q → ¬ HeadX q.rest) : numInt g r = .ok s := by
  revert h
  unfold numInt
  cases hr : r.rest with
  | nil => simp [peek, hr, error_bind]
  | cons c t =>
    rw [show peek r = .ok c by rw [peek, hr], ok_bind, ok_bind]
    by_cases h0 : c = 0x30
    · rw [if_pos h0, if_pos h0, show advance r = .ok { r with rest := t, column := r.column + 1 } by rw [advance, hr], ok_bind, ok_bind]
      dsimp only
      cases t with
      | nil => exact id
      | cons x t =>
        rw [if_neg (by simp), if_neg (by simp), show peek { r with rest := x :: t, column := r.column + 1 } = .ok x from rfl, ok_bind, ok_bind]
        by_cases hf : f.hexadecimal = true
        · rw [hf, hb.2.2.2.1 hf]; exact id
        · rw [if_neg (by simp [hf])]
          intro h
          injection h with h
          have := hx _ h.symm
          rw [if_neg, h]
          intro h'
          simp only [Bool.and_eq_true, Bool.or_eq_true, decide_eq_true_eq] at h'
          apply this
          rcases h'.1 with rfl | rfl
          · exact Or.inl rfl
          · exact Or.inr rfl
    · rw [if_neg h0, if_neg h0]
      by_cases h1 : isDigit c = true
      · rw [if_pos h1, if_pos h1]; exact id
      · rw [if_neg h1, if_neg h1]
        by_cases hf : (!f.decimalPoint || decide (c ≠ 0x2E)) = true
        · rw [if_pos hf]
          intro h
          injection h with h
          exact absurd h.symm (hs _)
        · rw [if_neg hf, if_neg]
          · exact id
          · simp at hf ⊢
            exact ⟨hb.2.2.2.2.2.2 hf.1, hf.2⟩

theorem upFrac {f g : Flags} (hb : f.Below g) {r : Reader} {s : Step} (h : numFrac f r = .ok s) (hs : ∀ q, s ≠ .done false q) : numFrac g r = .ok s := by
  revert h
  unfold numFrac
  by_cases hf : f.decimalPoint = true
  · rw [hf, hb.2.2.2.2.2.2 hf]; exact id
  rw [Bool.not_eq_true] at hf
  split
  · rename_i t hr
    rw [show advance { r with vtype := .float } = .ok { r with vtype := .float, rest := t, column := r.column + 1 } by simp [advance, hr], ok_bind, ok_bind]
    dsimp only
    cases t with
    | nil =>
      rw [if_pos rfl, if_neg (by simp [hf])]
      intro h
      injection h with h
      exact absurd h.symm (hs _)
    | cons d t =>
      intro h
      rw [if_neg (by simp), show peek { r with vtype := .float, rest := d :: t, column := r.column + 1 } = .ok d from rfl, ok_bind] at h ⊢
      by_cases h1 : isDigit d = true
      · rw [if_pos h1] at h ⊢; exact h
      · rw [if_neg h1, if_pos (by simp [hf])] at h
        injection h with h
        exact absurd h.symm (hs _)
  · exact id

theorem upTail {f g : Flags} (hb : f.Below g) {lead : Bool} {r r' : Reader} (h : numTail f lead r = .ok (true, r')) : numTail g lead r = .ok (true, r') := by
  revert h
  unfold numTail
  dsimp only
  cases hs : numFrac f r with
  | error e => intro h; cases h
  | ok s =>
    rw [ok_bind]
    intro h
    have : numFrac g r = .ok s := upFrac hb hs (by
      intro q e
      rw [e] at h
      injection h with h
      injection h with h _
      cases h)
    rw [this, ok_bind]
    exact h

/-- A letter that is left behind 0 stays there. -/
theorem tail_x {f : Flags} {q r' : Reader} (hx : HeadX q.rest) (h : numTail f true q = .ok (true, r')) : HeadX r'.rest := by
  cases hr : q.rest with
  | nil => rw [hr] at hx; rcases hx with hx | hx <;> cases hx
  | cons c t =>
    rw [hr] at hx
    rcases hx with hx | hx <;> injection hx with hx <;> subst hx <;> simp [numTail, numFrac, numExp, numEnd, hr, ok_bind] at h <;> rw [← h] <;>
      simp [setSize, hr, HeadX]

theorem upNumber {f g : Flags} (hb : f.Below g) {r r' : Reader} (h : readNumber f r = .ok (true, r')) (hk : ¬ HeadX r'.rest) :
    readNumber g r = .ok (true, r') := by
  have hplus : f.plusSign = true ∨ r.rest.head? ≠ some 0x2B := by
    by_cases hf : f.plusSign = true
    · exact Or.inl hf
    right
    rw [Bool.not_eq_true] at hf
    intro hp
    revert h
    cases hr : r.rest with
    | nil => rw [hr] at hp; cases hp
    | cons c t =>
      rw [hr] at hp
      injection hp with hp
      subst hp
      simp [readNumber, numSign, numInt, peek, hr, ok_bind, isDigit, hf]
  revert h
  unfold readNumber
  rw [upSign hb hplus]
  by_cases h0 : r.rest = []
  · rw [if_pos h0]; intro h; injection h with h; injection h with h _; cases h
  rw [if_neg h0, if_neg h0]
  cases hs : numSign f r with
  | error e => intro h; cases h
  | ok s =>
    rw [ok_bind, ok_bind]
    cases s with
    | done ok q => exact id
    | go fl q =>
      dsimp only
      cases hi : numInt f q with
      | error e => intro h; cases h
      | ok s =>
        rw [ok_bind]
        intro h
        have hi' : numInt g q = .ok s := by
          refine upInt hb hi ?_ ?_
          · intro q e
            rw [e] at h
            injection h with h
            injection h with h _
            cases h
          · rintro q' rfl hx
            exact hk (tail_x hx h)
        rw [hi', ok_bind]
        cases s with
        | done ok q => exact h
        | go lead q => exact upTail hb h

theorem upValue {f g : Flags} (hb : f.Below g) {r : Reader} {x : Tok × Reader} (h : readValue f r = .ok x) : BadTok x ∨ readValue g r = .ok x := by
  revert h
  unfold readValue
  split
  · exact Or.inr
  split
  · exact Or.inr
  split
  · exact Or.inr
  cases hx : readNumber f r with
  | error e => intro h; cases h
  | ok y =>
    rw [ok_bind]
    intro h
    by_cases hy : y.1 = true
    · rw [if_pos hy] at h
      injection h with h
      subst h
      by_cases hX : HeadX y.2.rest
      · exact Or.inl (by
          have := (readNumber_good f r).2 y hx
          exact Or.inr ⟨(this.2 hy).2, hX⟩)
      · right
        obtain ⟨b, q⟩ := y
        dsimp only at hy
        subst hy
        rw [upNumber hb hx hX, ok_bind, if_pos rfl]
    · rw [if_neg hy] at h
      injection h with h
      subst h
      exact Or.inl (Or.inl rfl)

theorem upEnd {f g : Flags} (hb : f.Below g) {r : Reader} {ctx : Ctx} {isObj : Bool} {x : Tok × Reader} (h : parseEnd f r ctx isObj = .ok x) :
    BadTok x ∨ parseEnd g r ctx isObj = .ok x := by
  revert h
  unfold parseEnd
  by_cases hc : canEndFollow f r ctx (if isObj then .object else .array) = true
  · have : canEndFollow g r ctx (if isObj then .object else .array) = true := by
      revert hc
      unfold canEndFollow
      by_cases h1 : (decide (ctx = .null) || decide (ctx ≠ if isObj then .object else .array)) = true
      · rw [if_pos h1, if_pos h1]; exact id
      rw [if_neg h1, if_neg h1]
      by_cases h2 : r.last = .comma
      · rw [if_pos h2, if_pos h2]; exact hb.2.1
      · rw [if_neg h2, if_neg h2]; exact id
    rw [hc, this]
    exact Or.inr
  · rw [Bool.not_eq_true] at hc
    rw [hc, if_pos (by decide)]
    intro h
    injection h with h
    subst h
    exact Or.inl (Or.inl rfl)

theorem upDispatch {f g : Flags} (hb : f.Below g) {r : Reader} {ctx : Ctx} {c : Byte} {x : Tok × Reader} (h : dispatch f r ctx c = .ok x) :
    BadTok x ∨ dispatch g r ctx c = .ok x := by
  revert h
  unfold dispatch
  split
  · unfold parseComment
    by_cases hf : f.comments = true
    · rw [if_pos hf, if_pos (hb.1 hf)]; exact Or.inr
    · rw [if_neg hf]
      intro h
      injection h with h
      subst h
      exact Or.inl (Or.inl rfl)
  split
  · by_cases hf : f.singleQuoted = true
    · rw [if_pos hf, if_pos (hb.2.2.1 hf)]; exact Or.inr
    · rw [if_neg hf]
      intro h
      injection h with h
      subst h
      exact Or.inl (Or.inl rfl)
  split
  · exact Or.inr
  split
  · exact Or.inr
  split
  · exact Or.inr
  split
  · exact upEnd hb
  split
  · exact upEnd hb
  split
  · exact Or.inr
  · exact upValue hb

theorem upLoop {f g : Flags} (hb : f.Below g) (ctx : Ctx) : ∀ (n : Nat) (r : Reader) (x : Tok × Reader), nextLoop f ctx n r = .ok x →
    BadTok x ∨ nextLoop g ctx n r = .ok x
  | 0, _, _, h => by cases h
  | n + 1, r, x, h => by
    rw [nextLoop] at h ⊢
    generalize skipWhitespace r = r1 at h ⊢
    cases hs : r1.rest with
    | nil => rw [hs] at h; exact Or.inr h
    | cons c t =>
      rw [hs] at h
      dsimp only at h ⊢
      by_cases h1 : (decide (c = 0x3A) || decide (c = 0x3D)) = true
      · rw [if_pos h1] at h ⊢
        by_cases h2 : (decide (ctx ≠ .object) || decide (r1.last ≠ .propName) || decide (c = 0x3D) && !f.allowEqual) = true
        · rw [if_pos h2] at h
          injection h with h
          subst h
          exact Or.inl (Or.inl rfl)
        · rw [if_neg h2] at h
          rw [if_neg]
          · exact upLoop hb ctx n _ _ h
          · simp at h2 ⊢
            exact ⟨h2.1, fun e => hb.2.2.2.2.1 (h2.2 e)⟩
      · rw [if_neg h1] at h ⊢
        by_cases h2 : c = 0x2C
        · rw [if_pos h2] at h ⊢
          split at h
          · exact Or.inr (by rw [if_pos (by assumption)]; exact h)
          · rename_i h3
            rw [if_neg h3]
            exact upLoop hb ctx n _ _ h
        · rw [if_neg h2] at h ⊢
          exact upDispatch hb h

/-- Behind a letter that begins no value there is an error. -/
theorem next_x (f : Flags) (ctx : Ctx) (r : Reader) (h : HeadX r.rest) : ∃ q, nextToken f ctx r = .ok (.error, q) := by
  cases hr : r.rest with
  | nil => rw [hr] at h; rcases h with h | h <;> cases h
  | cons c t =>
    rw [hr] at h
    have hc : c = 0x78 ∨ c = 0x58 := by
      rcases h with h | h <;> injection h with h
      · exact Or.inl h
      · exact Or.inr h
    have hw : skipWhitespace r = r := by
      have : skipLoop r.rest r.line r.column = (r.rest, r.line, r.column) := by
        rw [hr]
        rcases hc with rfl | rfl <;> rfl
      unfold skipWhitespace
      rw [this]
    unfold nextToken
    rw [nextLoop]
    rw [hw, hr]
    dsimp only
    have hn : ∀ r : Reader, r.rest = c :: t → ∃ q, readValue f r = .ok (.error, q) := by
      intro r hr
      rcases hc with rfl | rfl
      · simp [readValue, kwTrue, kwFalse, kwNull, hr, readNumber, numSign, numInt, peek, ok_bind, isDigit]
      · simp [readValue, kwTrue, kwFalse, kwNull, hr, readNumber, numSign, numInt, peek, ok_bind, isDigit]
    have hd : ∃ q, dispatch f r ctx c = .ok (.error, q) := by
      have e : dispatch f r ctx c = if !canValueFollow r ctx then .ok (.error, setError r .unexpectedToken) else readValue f { r with root := true } := by
        rcases hc with rfl | rfl <;> rfl
      rw [e]
      split
      · exact ⟨_, rfl⟩
      · exact hn _ hr
    rcases hc with rfl | rfl
    · exact hd
    · exact hd

theorem readEvents_not_nil (f : Flags) : ∀ (n : Nat) (e : EReader), readEvents f n e ≠ .ok []
  | 0, _, h => by cases h
  | n + 1, e, h => by
    rw [readEvents] at h
    cases hx : nextEvent f e with
    | error _ => rw [hx] at h; cases h
    | ok x =>
      rw [hx, ok_bind] at h
      split at h
      · cases h
      · cases hr : readEvents f n x.2 with
        | error _ => rw [hr] at h; cases h
        | ok rest => rw [hr, ok_bind] at h; cases h

theorem upEvents {f g : Flags} (hb : f.Below g) : ∀ (n : Nat) (e : EReader) (out : List (Tok × Reader)) (r : Reader),
    readEvents f n e = .ok (out ++ [(.eof, r)]) → readEvents g n e = .ok (out ++ [(.eof, r)])
  | 0, _, _, _, h => by cases h
  | n + 1, e, out, r, h => by
    rw [readEvents] at h ⊢
    unfold nextEvent at h ⊢
    cases hx : nextToken f (topContext e.stack) e.r with
    | error _ => rw [hx] at h; cases h
    | ok x =>
      rw [hx, ok_bind] at h
      rcases upLoop hb _ _ _ _ hx with hbad | hg
      · exfalso
        rcases hbad with hbad | ⟨hv, hX⟩
        · have : track e x = .ok (x.1, { e with r := x.2 }) := by unfold track; rw [hbad]
          rw [this, ok_bind, if_pos (by simp [hbad])] at h
          injection h with h
          have := congrArg (fun l => l.getLast?.map Prod.fst) h
          simp [hbad] at this
        · have : track e x = .ok (x.1, { e with r := x.2 }) := by unfold track; rw [hv]
          rw [this, ok_bind, if_neg (by simp [hv])] at h
          cases n with
          | zero => cases h
          | succ n =>
            rw [readEvents] at h
            unfold nextEvent at h
            obtain ⟨q, hq⟩ := next_x f (topContext e.stack) x.2 hX
            dsimp only at h
            rw [hq, ok_bind, show track { e with r := x.2 } (.error, q) = .ok (.error, { e with r := q }) from rfl, ok_bind, if_pos (by simp), ok_bind] at h
            injection h with h
            have := congrArg (fun l => l.getLast?.map Prod.fst) h
            simp at this
      · rw [show nextToken g (topContext e.stack) e.r = .ok x from hg, ok_bind]
        cases ht : track e x with
        | error _ => rw [ht] at h; cases h
        | ok y =>
          rw [ht, ok_bind] at h
          rw [ok_bind]
          split at h
          · rw [if_pos (by assumption)]; exact h
          · rename_i hy
            rw [if_neg hy]
            cases hr : readEvents f n y.2 with
            | error _ => rw [hr] at h; cases h
            | ok rest =>
              rw [hr, ok_bind] at h
              injection h with h
              cases out with
              | nil =>
                simp only [List.nil_append, List.cons.injEq] at h
                rw [h.2] at hr
                exact absurd hr (readEvents_not_nil f n y.2)
              | cons z out =>
                simp only [List.cons_append, List.cons.injEq] at h
                rw [h.2] at hr
                rw [upEvents hb n y.2 out r hr, ok_bind, h.1]
                rfl

/-! ### C265 -/

/-- C265: a text that is read to its end with some flags is read in the same way, token by token, when more flags are switched on. -/
theorem C265_same (f g : Flags) (h : f.Below g) (cap : Nat) (s : List Byte) (out : List (Tok × Reader)) (r : Reader)
    (he : events f cap s = .ok (out ++ [(.eof, r)])) : events g cap s = .ok (out ++ [(.eof, r)]) := upEvents h _ _ _ _ he

example : (⟨true, false, false, false, false, false, false⟩ : Flags).Below ⟨true, true, true, true, true, true, true⟩ ∧
    ∃ out r, events ⟨true, false, false, false, false, false, false⟩ 2 (ascii "[0.5, {\"a\": -0} // x\n]") = .ok (out ++ [(.eof, r)]) :=
  ⟨by unfold Flags.Below; decide, [_, _, _, _, _, _, _, _], _, rfl⟩

/-- C265: in particular, the tokens of a JSON text are the same with every set of flags. -/
theorem C265_json (f : Flags) (cap : Nat) (j : Json) (s : List Byte) (ht : Text Any Any j s) (hf : Fits cap j) :
    events f cap s = events strict cap s ∧
    ∃ out r, events f cap s = .ok (out ++ [(.eof, r)]) ∧ List.Forall₂ Reports out (evs j) ∧ r.err = .ok ∧ r.rest = [] := by
  obtain ⟨out, r, e, h1, h2, h3⟩ := C74_events cap j s ht hf
  have := C265_same strict f (by unfold Flags.Below; simp [strict]) cap s out r e
  exact ⟨this.trans e.symm, out, r, this, h1, h2, h3⟩

example : Text Any Any sampleJson sampleText ∧ Fits 2 sampleJson := ⟨sample_text trivial trivial trivial, sample_fits⟩

/-- What the theorem leaves out happens: a text that is refused with fewer flags can be read with more. -/
example : (∃ out r, events strict 1 (ascii "[0x1]") = .ok (out ++ [(.error, r)])) ∧
    ∃ out r, events ⟨false, false, false, true, false, false, false⟩ 1 (ascii "[0x1]") = .ok (out ++ [(.eof, r)]) :=
  ⟨⟨[_, _], _, rfl⟩, [_, _, _], _, rfl⟩

end Tm.Json
