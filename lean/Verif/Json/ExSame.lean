import Verif.Json.ExProps
import Verif.Json.ExDocTerm

/-! # The extended documents without extensions are those of the plain reader -/

namespace Tm.Json

open Tm

/-- Two computations give the same, or the first one does not end, or its result is bad. -/
def Sim {α : Type} (Bad : α → Prop) (x y : C α) : Prop := x = y ∨ x = .error .diverge ∨ ∃ a, x = .ok a ∧ Bad a

theorem Sim.refl {α : Type} {Bad : α → Prop} (x : C α) : Sim Bad x x := Or.inl rfl

theorem Sim.bind {α β : Type} {Bad : α → Prop} {Bad' : β → Prop} {x y : C α} {g h : α → C β} (hx : Sim Bad x y)
    (hg : ∀ a, y = .ok a → Sim Bad' (g a) (h a)) (hb : ∀ a, Bad a → g a = .error .diverge ∨ ∃ b, g a = .ok b ∧ Bad' b) :
    Sim Bad' (x >>= g) (y >>= h) := by
  rcases hx with rfl | rfl | ⟨a, rfl, ha⟩
  · cases x with
    | error e => exact Or.inl rfl
    | ok a => exact hg a rfl
  · exact Or.inr (Or.inl rfl)
  · exact Or.inr (hb a ha)

/-! ### Kinds of values -/

/-- The kinds of values of the plain reader. -/
def PlainKind (r : Reader) : Prop := r.vtype ≠ .concatString ∧ r.vtype ≠ .rawString

/-- After one stage of a number. -/
def KindStep : Step → Prop
  | .done _ r => PlainKind r
  | .go _ r => PlainKind r

theorem advance_kind {r r' : Reader} (h : advance r = .ok r') : r'.vtype = r.vtype := by
  unfold advance at h
  split at h
  · cases h
  · injection h with h
    subst h
    rfl

theorem numSign_kind {f : Flags} {r : Reader} {s : Step} (h : numSign f r = .ok s) : KindStep s := by
  unfold numSign at h
  dsimp only at h
  cases hp : peek { r with vtype := .uint, last := .value, cur := { r.cur with null := false, data := r.rest } } with
  | error e => rw [hp] at h; cases h
  | ok c =>
    rw [hp, ok_bind] at h
    have key : ∀ q : Reader, PlainKind q → ((if q.rest = [] then .ok (.done false (setError q .unexpectedEof)) else .ok (.go true q) : C Step) = .ok s) → KindStep s := by
      intro q hq e
      split at e <;> (injection e with e; subst e; exact hq)
    split at h
    · cases ha : advance ({ ({ r with vtype := .uint, last := .value, cur := { r.cur with null := false, data := r.rest } } : Reader) with vtype := .int }) with
      | error e => rw [ha] at h; cases h
      | ok q =>
        rw [ha, ok_bind] at h
        refine key q ?_ h
        have := advance_kind ha
        simp [PlainKind, this]
    · split at h
      · cases ha : advance ({ r with vtype := .uint, last := .value, cur := { r.cur with null := false, data := r.rest } } : Reader) with
        | error e => rw [ha] at h; cases h
        | ok q =>
          rw [ha, ok_bind, ok_bind] at h
          refine key _ ?_ h
          have := advance_kind ha
          simp [PlainKind, this]
      · rw [ok_bind] at h
        refine key _ ?_ h
        simp [PlainKind]

theorem numInt_kind {f : Flags} {r : Reader} {s : Step} (hr : PlainKind r) (h : numInt f r = .ok s) : KindStep s := by
  unfold numInt at h
  cases hp : peek r with
  | error e => rw [hp] at h; cases h
  | ok c =>
    rw [hp, ok_bind] at h
    split at h
    · cases ha : advance r with
      | error e => rw [ha] at h; cases h
      | ok q =>
        have hq : PlainKind q := by simpa [PlainKind, advance_kind ha] using hr
        rw [ha, ok_bind] at h
        split at h
        · injection h with h; subst h; exact hq
        · cases hp2 : peek q with
          | error e => rw [hp2] at h; cases h
          | ok x =>
            rw [hp2, ok_bind] at h
            split at h
            · cases ha2 : advance q with
              | error e => rw [ha2] at h; cases h
              | ok q2 =>
                have hq2 : PlainKind q2 := by simpa [PlainKind, advance_kind ha2] using hq
                rw [ha2, ok_bind] at h
                split at h
                · injection h with h; subst h; exact hq2
                · cases hp3 : peek q2 with
                  | error e => rw [hp3] at h; cases h
                  | ok d =>
                    rw [hp3, ok_bind] at h
                    split at h <;> (injection h with h; subst h; exact hq2)
            · injection h with h; subst h; exact hq
    · split at h
      · dsimp only at h
        split at h <;> (injection h with h; subst h; exact hr)
      · split at h <;> (injection h with h; subst h; exact hr)

theorem numFrac_kind {f : Flags} {r : Reader} {s : Step} (hr : PlainKind r) (h : numFrac f r = .ok s) : KindStep s := by
  unfold numFrac at h
  split at h
  · cases ha : advance { r with vtype := .float } with
    | error e => rw [ha] at h; cases h
    | ok q =>
      have hq : PlainKind q := by simp [PlainKind, advance_kind ha]
      rw [ha, ok_bind] at h
      split at h
      · split at h <;> (injection h with h; subst h; exact hq)
      · cases hp : peek q with
        | error e => rw [hp] at h; cases h
        | ok d =>
          rw [hp, ok_bind] at h
          split at h
          · injection h with h; subst h; exact hq
          · split at h <;> (injection h with h; subst h; exact hq)
  · injection h with h; subst h; exact hr

theorem numExp_kind {a b c : Bool} {r : Reader} {s : Step} (hr : PlainKind r) (h : numExp a b c r = .ok s) : KindStep s := by
  unfold numExp at h
  split at h
  · injection h with h; subst h; exact hr
  · split at h
    · split at h
      · injection h with h; subst h; exact hr
      · cases ha : advance { r with vtype := .float } with
        | error e => rw [ha] at h; cases h
        | ok q =>
          have hq : PlainKind q := by simp [PlainKind, advance_kind ha]
          rw [ha, ok_bind] at h
          cases hp : peek q with
          | error e => rw [hp] at h; cases h
          | ok d =>
            rw [hp, ok_bind] at h
            have key : ∀ q2 : Reader, PlainKind q2 → (do
                let d ← peek q2
                if isDigit d then .ok (.go true (moveTo q2 (dropDigits isDigit q2.rest))) else .ok (.done false (setError q2 .unexpectedToken)) : C Step) = .ok s → KindStep s := by
              intro q2 h2 e
              cases hp2 : peek q2 with
              | error e2 => rw [hp2] at e; cases e
              | ok d2 =>
                rw [hp2, ok_bind] at e
                split at e <;> (injection e with e; subst e; exact h2)
            split at h
            · cases ha2 : advance q with
              | error e => rw [ha2] at h; cases h
              | ok q2 =>
                rw [ha2, ok_bind] at h
                exact key q2 (by simpa [PlainKind, advance_kind ha2] using hq) h
            · rw [ok_bind] at h
              exact key q hq h
    · injection h with h; subst h; exact hr

theorem numTail_kind {f : Flags} {b : Bool} {r : Reader} {x : Bool × Reader} (hr : PlainKind r) (h : numTail f b r = .ok x) : PlainKind x.2 := by
  unfold numTail at h
  dsimp only at h
  cases h1 : numFrac f r with
  | error e => rw [h1] at h; cases h
  | ok s =>
    have k1 := numFrac_kind hr h1
    rw [h1, ok_bind] at h
    cases s with
    | done ok q => injection h with h; subst h; exact k1
    | go t q =>
      dsimp only at h
      generalize hn : numExp _ b t q = y at h
      cases y with
      | error e => cases h
      | ok s2 =>
        have k2 := numExp_kind k1 hn
        rw [ok_bind] at h
        cases s2 with
        | done ok q => injection h with h; subst h; exact k2
        | go t q =>
          dsimp only at h
          unfold numEnd at h
          split at h
          · dsimp only at h
            unfold assert at h
            split at h
            · rw [ok_bind] at h
              injection h with h; subst h; exact k2
            · cases h
          · injection h with h; subst h; exact k2

theorem readNumber_kind {f : Flags} {r : Reader} {x : Bool × Reader} (h : readNumber f r = .ok x) (ht : x.1 = true) : PlainKind x.2 := by
  unfold readNumber at h
  split at h
  · injection h with h; subst h; cases ht
  · cases h1 : numSign f r with
    | error e => rw [h1] at h; cases h
    | ok s =>
      have k1 := numSign_kind h1
      rw [h1, ok_bind] at h
      cases s with
      | done ok q => injection h with h; subst h; exact k1
      | go t q =>
        dsimp only at h
        cases h2 : numInt f q with
        | error e => rw [h2] at h; cases h
        | ok s2 =>
          have k2 := numInt_kind k1 h2
          rw [h2, ok_bind] at h
          cases s2 with
          | done ok q => injection h with h; subst h; exact k2
          | go t q => exact numTail_kind k2 h

theorem readValue_kind {f : Flags} {r r' : Reader} (h : readValue f r = .ok (.value, r')) : PlainKind r' := by
  unfold readValue at h
  split at h
  · injection h with h; cases h; simp [PlainKind]
  · split at h
    · injection h with h; cases h; simp [PlainKind]
    · split at h
      · injection h with h; cases h; simp [PlainKind]
      · cases h1 : readNumber f r with
        | error e => rw [h1] at h; cases h
        | ok x =>
          rw [h1, ok_bind] at h
          split at h
          · injection h with h
            injection h with _ h
            subst h
            exact readNumber_kind h1 (by assumption)
          · cases h

theorem parseQuoted_kind {ctx : Ctx} {r r' : Reader} (h : parseQuotedString r ctx = .ok (.value, r')) : PlainKind r' := by
  unfold parseQuotedString at h
  cases h1 : readQuotedString r with
  | error e => rw [h1] at h; cases h
  | ok x =>
    rw [h1, ok_bind] at h
    dsimp only at h
    split at h
    · cases h
    · split at h
      · injection h with h; cases h; simp [PlainKind]
      · split at h
        · cases h
        · split at h
          · cases h
          · injection h with h; cases h; simp [PlainKind]

theorem dispatch_kind {f : Flags} {ctx : Ctx} {c : Byte} {r r' : Reader} (h : dispatch f r ctx c = .ok (.value, r')) : PlainKind r' := by
  unfold dispatch at h
  split at h
  · unfold parseComment at h
    split at h
    · cases ha : advance r with
      | error e => rw [ha] at h; cases h
      | ok q =>
        rw [ha, ok_bind] at h
        split at h
        · cases h
        · split at h
          · cases ha2 : advance q with
            | error e => rw [ha2] at h; cases h
            | ok q2 => rw [ha2] at h; cases h
          · cases h
    · cases h
  split at h
  · split at h
    · exact parseQuoted_kind h
    · cases h
  split at h
  · exact parseQuoted_kind h
  have hs : ∀ b, parseStart r ctx b ≠ .ok (.value, r') := by
    intro b e
    unfold parseStart at e
    split at e
    · cases e
    · split at e
      · cases e
      · generalize advance _ = q at e
        cases q with
        | error _ => cases e
        | ok q => cases b <;> cases e
  have he : ∀ b, parseEnd f r ctx b ≠ .ok (.value, r') := by
    intro b e
    unfold parseEnd at e
    by_cases hc : (!canEndFollow f r ctx (if b then .object else .array)) = true
    · rw [if_pos hc] at e
      cases e
    · rw [if_neg hc] at e
      generalize advance _ = q at e
      cases q with
      | error _ => cases e
      | ok q => cases b <;> cases e
  split at h
  · exact absurd h (hs _)
  split at h
  · exact absurd h (hs _)
  split at h
  · exact absurd h (he _)
  split at h
  · exact absurd h (he _)
  split at h
  · cases h
  · exact readValue_kind h

theorem nextLoop_kind {f : Flags} {ctx : Ctx} : ∀ (n : Nat) {r r' : Reader}, nextLoop f ctx n r = .ok (.value, r') → PlainKind r'
  | 0, _, _, h => by cases h
  | n + 1, r, r', h => by
    rw [nextLoop] at h
    split at h
    · split at h <;> cases h
    · split at h
      · split at h
        · cases h
        · exact nextLoop_kind n h
      · split at h
        · split at h
          · cases h
          · exact nextLoop_kind n h
        · exact dispatch_kind h

theorem readScalarEx_plain {a : Alloc} {r : Reader} (h : PlainKind r) : readScalarEx a r = readScalar a r := by
  unfold readScalarEx readScalar
  rw [if_neg h.1, if_neg h.2]

/-! ### Tokens -/

/-- The extended reader has an error, and reports one again whatever is asked. -/
def Stuck (f : Flags) (r : Reader) : Prop :=
  r.err ≠ .ok ∧ ∀ ctx, ∃ r', nextTokenEx { toFlags := f } ctx r = .ok (.error, r') ∧ r'.err ≠ .ok

/-- With the rest `c :: t` and an error the extended reader reports an error. -/
def ErrAt (f : Flags) (c : Byte) (t : List Byte) : Prop :=
  ∀ (ctx : Ctx) (r : Reader), r.rest = c :: t → r.err ≠ .ok → ∃ r', dispatchEx { toFlags := f } r ctx c = .ok (.error, r') ∧ r'.err ≠ .ok

theorem dispatchEx_sim (f : Flags) (ctx : Ctx) (c : Byte) (t : List Byte) (r : Reader) (hr : r.rest = c :: t) :
    dispatchEx { toFlags := f } r ctx c = dispatch f r ctx c ∨
      ∃ r', dispatchEx { toFlags := f } r ctx c = .ok (.error, r') ∧ r'.rest = c :: t ∧ r'.err ≠ .ok ∧ ErrAt f c t := by
  by_cases h1 : c = 0x2F
  · subst h1
    have hx : ∀ (q : Reader) (ctx : Ctx), dispatchEx { toFlags := f } q ctx 0x2F = parseCommentEx { toFlags := f } q := by
      intro q ctx
      rw [dispatchEx, if_pos (by rfl)]
    have hy : dispatch f r ctx 0x2F = parseComment f r := by rw [dispatch, if_pos (by rfl)]
    rw [hx, hy]
    by_cases hc : f.comments = true
    · cases t with
      | nil =>
        have hz : ∀ q : Reader, q.rest = [0x2F] → parseCommentEx { toFlags := f } q = .ok (.error, setError q .unexpectedEof) := by
          intro q hq
          rw [parseCommentEx, if_pos (by simp [hc]), hq]
        exact Or.inr ⟨_, hz r hr, hr, by simp [setError], fun ctx q hq _ => ⟨_, by rw [hx, hz q hq], by simp [setError]⟩⟩
      | cons d t =>
        by_cases hd : d = 0x2F
        · left
          rw [parseCommentEx, if_pos (by simp [hc]), hr]
          dsimp only
          rw [if_pos hd]
        · have hz : ∀ q : Reader, q.rest = 0x2F :: d :: t → parseCommentEx { toFlags := f } q = .ok (.error, setError q .unexpectedToken) := by
            intro q hq
            rw [parseCommentEx, if_pos (by simp [hc]), hq]
            dsimp only
            rw [if_neg hd]
            split
            · rw [parseBlockComment, if_neg (by simp)]
            · rfl
          exact Or.inr ⟨_, hz r hr, hr, by simp [setError], fun ctx q hq _ => ⟨_, by rw [hx, hz q hq], by simp [setError]⟩⟩
    · left
      rw [parseCommentEx, parseComment, if_neg (by simpa using hc), if_neg hc]
  by_cases h2 : c = 0x23
  · subst h2
    have hz : ∀ (q : Reader) (ctx : Ctx), dispatchEx { toFlags := f } q ctx 0x23 = .ok (.error, setError q .unexpectedToken) := by
      intro q ctx
      rw [dispatchEx, if_neg (by decide), if_pos (by rfl), parsePythonComment, if_neg (by simp)]
    exact Or.inr ⟨_, hz r ctx, hr, by simp [setError], fun ctx q _ _ => ⟨_, hz q ctx, by simp [setError]⟩⟩
  rw [dispatchEx, dispatch, if_neg h1, if_neg h1, if_neg h2]
  have hq : parseQuotedStringEx { toFlags := f } ctx r = parseQuotedString r ctx := by
    rw [parseQuotedStringEx, peek, hr, ok_bind]
    cases parseQuotedString r ctx with
    | error e => rfl
    | ok x => rw [ok_bind, if_neg (by simp)]
  rw [hq]
  by_cases h3 : c = 0x27
  · rw [if_pos h3, if_pos h3]; exact Or.inl rfl
  by_cases h4 : c = 0x22
  · rw [if_neg h3, if_neg h3, if_pos h4, if_pos h4]; exact Or.inl rfl
  by_cases h5 : c = 0x7B
  · rw [if_neg h3, if_neg h3, if_neg h4, if_neg h4, if_pos h5, if_pos h5]; exact Or.inl rfl
  by_cases h6 : c = 0x5B
  · rw [if_neg h3, if_neg h3, if_neg h4, if_neg h4, if_neg h5, if_neg h5, if_pos h6, if_pos h6]; exact Or.inl rfl
  by_cases h7 : c = 0x7D
  · rw [if_neg h3, if_neg h3, if_neg h4, if_neg h4, if_neg h5, if_neg h5, if_neg h6, if_neg h6, if_pos h7, if_pos h7]; exact Or.inl rfl
  by_cases h8 : c = 0x5D
  · rw [if_neg h3, if_neg h3, if_neg h4, if_neg h4, if_neg h5, if_neg h5, if_neg h6, if_neg h6, if_neg h7, if_neg h7, if_pos h8, if_pos h8]
    exact Or.inl rfl
  rw [if_neg h3, if_neg h3, if_neg h4, if_neg h4, if_neg h5, if_neg h5, if_neg h6, if_neg h6, if_neg h7, if_neg h7, if_neg h8, if_neg h8]
  by_cases he : r.err = .ok
  · left
    rw [defaultEx_plain f ctx c r he]
  · right
    have hz : ∀ (q : Reader) (ctx : Ctx), q.err ≠ .ok → defaultEx { toFlags := f } ctx c q = .ok (.error, q) := by
      intro q ctx hq
      rw [defaultEx, show parseUnquoted { toFlags := f } ctx q = .ok (false, q) by simp [parseUnquoted], ok_bind, if_neg (by simp),
        show parseCppRaw { toFlags := f } ctx q = .ok (false, q) by simp [parseCppRaw]]
      split
      · rw [ok_bind, if_neg (by simp), if_pos (by simp [hq])]
      · rw [plainValue, if_pos (by simp [hq])]
    refine ⟨r, hz r ctx he, hr, he, fun ctx q _ hq => ⟨q, ?_, hq⟩⟩
    rw [dispatchEx, if_neg h1, if_neg h2, if_neg h3, if_neg h4, if_neg h5, if_neg h6, if_neg h7, if_neg h8, hz q ctx hq]

theorem skipLoop_head {c : Byte} {t : List Byte} {a b : Nat} (h : isWs c = false) : skipLoop (c :: t) a b = (c :: t, a, b) := by
  simp [isWs] at h
  simp [skipLoop, isWs, h]

theorem skipped_head {r : Reader} {c : Byte} {t : List Byte} (h : (skipWhitespace r).rest = c :: t) : isWs c = false := by
  have : ∀ (l : List Byte) (a b : Nat), (skipLoop l a b).1 = c :: t → isWs c = false := by
    intro l
    induction l with
    | nil => intro a b h; cases h
    | cons d l ih =>
      intro a b h
      rw [skipLoop] at h
      split at h
      · split at h <;> exact ih _ _ h
      · cases hc : isWs c with
        | false => rfl
        | true => simp_all [isWs]
  exact this _ _ _ h

theorem nextLoopEx_sim (f : Flags) (ctx : Ctx) : ∀ (n : Nat) (r : Reader),
    Sim (fun x => x.1 = .error ∧ Stuck f x.2) (nextLoopEx { toFlags := f } ctx n r) (nextLoop f ctx n r)
  | 0, _ => Sim.refl _
  | n + 1, r => by
    rw [nextLoopEx, nextLoop]
    dsimp only
    cases ht : (skipWhitespace r).rest with
    | nil => exact Sim.refl _
    | cons c t =>
      have hw := skipped_head ht
      dsimp only
      by_cases h1 : (c = 0x3A || c = 0x3D)
      · rw [if_pos h1, if_pos h1]
        split
        · exact Sim.refl _
        · exact nextLoopEx_sim f ctx n _
      rw [if_neg h1, if_neg h1]
      by_cases h2 : c = 0x2C
      · rw [if_pos h2, if_pos h2]
        split
        · exact Sim.refl _
        · exact nextLoopEx_sim f ctx n _
      rw [if_neg h2, if_neg h2]
      rcases dispatchEx_sim f ctx c t (skipWhitespace r) ht with h | ⟨r', e, g1, g2, g3⟩
      · exact Or.inl h
      · refine Or.inr (Or.inr ⟨_, e, rfl, g2, ?_⟩)
        intro ctx'
        have hs : (skipWhitespace r').rest = c :: t := by
          show (skipLoop r'.rest _ _).1 = _
          rw [g1, skipLoop_head hw]
        obtain ⟨r2, e2, k2⟩ := g3 ctx' (skipWhitespace r') hs g2
        refine ⟨r2, ?_, k2⟩
        rw [nextTokenEx, nextLoopEx]
        dsimp only
        rw [hs]
        dsimp only
        rw [if_neg h1, if_neg h2, e2]

theorem nextTokenEx_sim (f : Flags) (ctx : Ctx) (r : Reader) :
    Sim (fun x => x.1 = .error ∧ Stuck f x.2) (nextTokenEx { toFlags := f } ctx r) (nextToken f ctx r) := nextLoopEx_sim f ctx _ r

/-! ### Documents -/

theorem contentLoopEx_sim (f : Flags) (ctx : Ctx) : ∀ (n : Nat) (r : Reader),
    Sim (fun x => x.1 = some false ∧ Stuck f x.2.2) (contentLoopEx { toFlags := f } ctx n r) (contentLoop f ctx n r)
  | 0, _ => Sim.refl _
  | n + 1, r => by
    rw [contentLoopEx, contentLoop]
    refine Sim.bind (nextTokenEx_sim f ctx r) ?_ ?_
    · rintro ⟨tok, q⟩ _
      cases tok <;> first | exact Sim.refl _ | exact contentLoopEx_sim f ctx n q
    · rintro ⟨tok, q⟩ ⟨h1, h2⟩
      dsimp only at h1 h2
      subst h1
      dsimp only
      rw [if_pos h2.1]
      exact Or.inr ⟨_, rfl, rfl, h2⟩

theorem skipCurrentEx_sim (f : Flags) (ctx : Ctx) (r : Reader) :
    Sim (fun y => Stuck f y.2) (skipCurrentEx { toFlags := f } ctx r) (skipCurrent f ctx r) := by
  unfold skipCurrentEx skipCurrent
  split
  · exact Sim.refl _
  · split
    · refine Sim.bind (contentLoopEx_sim f ctx _ r) (fun _ _ => Sim.refl _) ?_
      rintro ⟨b, c, q⟩ ⟨h1, h2⟩
      dsimp only at h1 h2
      subst h1
      exact Or.inr ⟨_, rfl, h2⟩
    · exact Sim.refl _

theorem countLoopEx_stuck {f : Flags} {isObj : Bool} {m : Nat} {r : Reader} (h : Stuck f r) : ∀ n,
    countLoopEx { toFlags := f } isObj n m r = .error .diverge ∨
      ∃ c, countLoopEx { toFlags := f } isObj n m r = .ok c ∧ c.1 ≠ .ok ∧ c.2.2.err ≠ .ok
  | 0 => Or.inl rfl
  | n + 1 => by
    right
    obtain ⟨r', e, he⟩ := h.2 (if isObj then .object else .array)
    rw [countLoopEx]
    dsimp only
    rw [e, ok_bind]
    dsimp only
    rw [if_neg (by simp), if_neg (by simp), if_neg (by simp), if_neg (by simp), if_pos he]
    exact ⟨_, rfl, he, he⟩

theorem countLoopEx_sim (f : Flags) (isObj : Bool) : ∀ (n m : Nat) (r : Reader),
    Sim (fun c => c.1 ≠ .ok ∧ c.2.2.err ≠ .ok) (countLoopEx { toFlags := f } isObj n m r) (countLoop f isObj n m r)
  | 0, _, _ => Sim.refl _
  | n + 1, m, r => by
    rw [countLoopEx, countLoop]
    dsimp only
    refine Sim.bind (nextTokenEx_sim f _ r) ?_ ?_
    · rintro ⟨tok, q⟩ _
      dsimp only
      split
      · exact Sim.bind (skipCurrentEx_sim f _ q) (fun y _ => countLoopEx_sim f isObj n _ y.2) (fun y hy => countLoopEx_stuck hy n)
      · split
        · exact countLoopEx_sim f isObj n _ q
        · split
          · exact Sim.refl _
          · split
            · exact countLoopEx_sim f isObj n _ q
            · exact Sim.refl _
    · rintro ⟨tok, q⟩ ⟨h1, h2⟩
      dsimp only at h1 h2
      subst h1
      dsimp only
      rw [if_neg (by simp), if_neg (by simp), if_neg (by simp), if_neg (by simp), if_pos h2.1]
      exact Or.inr ⟨_, rfl, h2.1, h2.1⟩

theorem valueTokenEx_sim (f : Flags) : ∀ (n : Nat) (r : Reader),
    Sim (fun x => x.1 = .error ∧ x.2.err ≠ .ok) (valueTokenEx { toFlags := f } n r) (valueToken f n r)
  | 0, _ => Sim.refl _
  | n + 1, r => by
    rw [valueTokenEx, valueToken]
    refine Sim.bind (nextTokenEx_sim f _ r) ?_ ?_
    · rintro ⟨tok, q⟩ _
      dsimp only
      split
      · exact valueTokenEx_sim f n q
      · exact Sim.refl _
    · rintro ⟨tok, q⟩ ⟨h1, h2⟩
      dsimp only at h1 h2
      subst h1
      exact Or.inr ⟨_, rfl, rfl, h2.1⟩

theorem valueToken_kind {f : Flags} : ∀ (n : Nat) {r r' : Reader}, valueToken f n r = .ok (.value, r') → PlainKind r'
  | 0, _, _, h => by cases h
  | n + 1, r, r', h => by
    rw [valueToken] at h
    cases e : nextToken f .object r with
    | error _ => rw [e] at h; cases h
    | ok x =>
      rw [e, ok_bind] at h
      split at h
      · exact valueToken_kind n h
      · injection h with h
        subst h
        exact nextLoop_kind _ e

theorem readLoopEx_sim (f : Flags) : ∀ (n : Nat) (isObj : Bool) (count : Nat) (acc : List (View × JVal)) (a : Alloc) (r : Reader),
    Sim (fun z => z.err ≠ .ok ∧ z.reader.err ≠ .ok) (readLoopEx { toFlags := f } n isObj count acc a r) (readLoop f n isObj count acc a r)
  | 0, _, _, _, _, _ => Sim.refl _
  | n + 1, isObj, count, acc, a, r => by
    rw [readLoopEx, readLoop]
    dsimp only
    refine Sim.bind (nextTokenEx_sim f _ r) ?_ ?_
    · rintro ⟨tok, q⟩ hq
      dsimp only
      split
      · exact Sim.refl _
      split
      · exact readLoopEx_sim f n _ _ _ _ _
      split
      · split
        · have hv : Sim (fun x => x.1 = .error ∧ x.2.err ≠ .ok) (if isObj then valueTokenEx { toFlags := f } (q.rest.length + 1) q else .ok (tok, q))
              (if isObj then valueToken f (q.rest.length + 1) q else .ok (tok, q)) := by
            split
            · exact valueTokenEx_sim f _ q
            · exact Sim.refl _
          refine Sim.bind hv ?_ ?_
          · rintro ⟨tok2, q2⟩ h2
            dsimp only
            split
            · refine Sim.bind (countLoopEx_sim f _ _ _ q2) ?_ ?_
              · intro c _
                split
                · exact Sim.refl _
                · cases allocate a (c.2.1 * if decide (tok2 = Tok.objStart) = true then 48 else 32) 8 with
                  | none => exact Sim.refl _
                  | some w =>
                    refine Sim.bind (readLoopEx_sim f n _ _ _ _ _) ?_ ?_
                    · intro z _
                      split
                      · exact Sim.refl _
                      · exact readLoopEx_sim f n _ _ _ _ _
                    · intro z hz
                      rw [if_pos hz.1]
                      exact Or.inr ⟨_, rfl, hz⟩
              · intro c hc
                rw [if_pos hc.1]
                exact Or.inr ⟨_, rfl, hc⟩
            · split
              · next hval =>
                subst hval
                have hk : PlainKind q2 := by
                  split at h2
                  · exact valueToken_kind _ h2
                  · injection h2 with h2
                    cases h2
                    exact nextLoop_kind _ hq
                rw [readScalarEx_plain hk]
                refine Sim.bind (Bad := fun _ => False) (Sim.refl _) ?_ (fun _ h => h.elim)
                intro v _
                exact readLoopEx_sim f n _ _ _ _ _
              · exact Sim.refl _
          · rintro ⟨tok2, q2⟩ ⟨h1, h2⟩
            dsimp only at h1 h2
            subst h1
            dsimp only
            rw [if_neg (by simp), if_neg (by simp), if_pos h2]
            exact Or.inr ⟨_, rfl, h2, h2⟩
        · exact Sim.refl _
      · exact Sim.refl _
    · rintro ⟨tok, q⟩ ⟨h1, h2⟩
      dsimp only at h1 h2
      subst h1
      dsimp only
      rw [if_neg (by simp), if_neg (by simp), if_neg (by simp), if_pos h2.1]
      exact Or.inr ⟨_, rfl, h2.1, h2.1⟩

theorem readContainerEx_sim (f : Flags) (isObj : Bool) (a : Alloc) (r : Reader) :
    Sim (fun z => z.reader.err ≠ .ok) (readContainerEx { toFlags := f } isObj a r) (readContainer f isObj a r) := by
  unfold readContainerEx readContainer
  refine Sim.bind (countLoopEx_sim f _ _ _ r) ?_ ?_
  · intro c _
    split
    · exact Sim.refl _
    · cases allocate a (c.2.1 * if isObj then 48 else 32) 8 with
      | none => exact Sim.refl _
      | some w => exact Sim.bind (readLoopEx_sim f _ _ _ _ _ _) (fun z _ => Sim.refl _) (fun z hz => Or.inr ⟨_, rfl, hz.2⟩)
  · intro c hc
    rw [if_pos hc.1]
    exact Or.inr ⟨_, rfl, hc.2⟩

theorem rootLoopEx_sim (f : Flags) : ∀ (n : Nat) (r : Reader),
    Sim (fun x => x.1 = .error ∧ x.2.err ≠ .ok) (rootLoopEx { toFlags := f } n r) (rootLoop f n r)
  | 0, _ => Sim.refl _
  | n + 1, r => by
    rw [rootLoopEx, rootLoop]
    refine Sim.bind (nextTokenEx_sim f .null r) ?_ ?_
    · rintro ⟨tok, q⟩ _
      cases tok <;> first | exact Sim.refl _ | exact rootLoopEx_sim f n q
    · rintro ⟨tok, q⟩ ⟨h1, h2⟩
      dsimp only at h1 h2
      subst h1
      exact Or.inr ⟨_, rfl, rfl, by simp [setError]⟩

theorem rootLoop_kind {f : Flags} : ∀ (n : Nat) {r r' : Reader}, rootLoop f n r = .ok (.value, r') → PlainKind r'
  | 0, _, _, h => by cases h
  | n + 1, r, r', h => by
    rw [rootLoop] at h
    cases e : nextToken f .null r with
    | error _ => rw [e] at h; cases h
    | ok x =>
      rw [e, ok_bind] at h
      obtain ⟨tok, q⟩ := x
      cases tok <;> dsimp only at h <;> first | (cases h; done) | exact rootLoop_kind n h | (injection h with h; cases h; exact nextLoop_kind _ e)

theorem eofLoopEx_same (f : Flags) : ∀ (n : Nat) (r r1 : Reader), eofLoopEx { toFlags := f } n r = .ok r1 → r1.err = .ok →
    eofLoop f n r = .ok r1 ∨ ∃ r2, eofLoop f n r = .ok r2 ∧ r2.err = .unexpectedToken
  | 0, _, _, h, _ => by cases h
  | n + 1, r, r1, h, he => by
    rw [eofLoopEx] at h
    rw [eofLoop]
    rcases nextTokenEx_sim f .null r with e | e | ⟨⟨tok, q⟩, e, h1, h2⟩
    · rw [e] at h
      cases e2 : nextToken f .null r with
      | error _ => rw [e2] at h; cases h
      | ok x =>
        rw [e2, ok_bind] at h
        rw [ok_bind]
        obtain ⟨tok, q⟩ := x
        dsimp only at h ⊢
        cases tok <;> dsimp only at h ⊢
        case comment => exact eofLoopEx_same f n q r1 h he
        case eof => exact Or.inl h
        all_goals
          right
          injection h with h
          subst h
          rw [if_pos he]
          exact ⟨_, rfl, rfl⟩
    · rw [e] at h; cases h
    · rw [e, ok_bind] at h
      dsimp only at h1 h2
      subst h1
      dsimp only at h
      injection h with h
      subst h
      exact absurd he h2.1

/-- What the extended reader accepts without extensions, the plain reader reads in the same way or refuses because of a token behind the root. -/
theorem makeDocumentEx_same (f : Flags) (al : Alloc) (s : List Byte) (doc : Document) (h : makeDocumentEx { toFlags := f } al s = .ok doc)
    (he : doc.err = .ok) : makeDocument f al s = .ok doc ∨ ∃ d, makeDocument f al s = .ok d ∧ d.err = .unexpectedToken := by
  have hnd := (makeDocumentEx_good { toFlags := f } al s).1
  have last : ∀ z : Result JVal, (do
      let r ← (if z.reader.err = .ok then validUntilEofEx { toFlags := f } z.reader else .ok z.reader)
      assert (r.rest = [] || r.err ≠ .ok)
      if r.err ≠ .ok then .ok ⟨.scalar .null ⟨true, [], 0⟩, r.err, r.line, r.column⟩
      else .ok ⟨z.val, z.err, 0, 0⟩ : C Document) = .ok doc → z.reader.err = .ok ∧ ((do
      let r ← (if z.reader.err = .ok then validUntilEof f z.reader else .ok z.reader)
      assert (r.rest = [] || r.err ≠ .ok)
      if r.err ≠ .ok then .ok ⟨.scalar .null ⟨true, [], 0⟩, r.err, r.line, r.column⟩
      else .ok ⟨z.val, z.err, 0, 0⟩ : C Document) = .ok doc ∨ ∃ d, (do
      let r ← (if z.reader.err = .ok then validUntilEof f z.reader else .ok z.reader)
      assert (r.rest = [] || r.err ≠ .ok)
      if r.err ≠ .ok then .ok ⟨.scalar .null ⟨true, [], 0⟩, r.err, r.line, r.column⟩
      else .ok ⟨z.val, z.err, 0, 0⟩ : C Document) = .ok d ∧ d.err = .unexpectedToken) := by
    intro z hz
    have fin : ∀ q : Reader, (do
        assert (q.rest = [] || q.err ≠ .ok)
        if q.err ≠ .ok then .ok ⟨.scalar .null ⟨true, [], 0⟩, q.err, q.line, q.column⟩
        else .ok ⟨z.val, z.err, 0, 0⟩ : C Document) = .ok doc → q.err = .ok := by
      intro q hq
      by_contra hne
      rw [show assert (decide (q.rest = []) || decide (q.err ≠ .ok)) = .ok () by simp [assert, hne], ok_bind, if_pos hne] at hq
      injection hq with hq
      subst hq
      exact hne he
    by_cases hr : z.reader.err = .ok
    · refine ⟨hr, ?_⟩
      rw [if_pos hr] at hz ⊢
      unfold validUntilEofEx at hz
      unfold validUntilEof
      split at hz
      · next hc =>
        rw [if_pos hc]
        exact Or.inl hz
      · next hc =>
        rw [if_neg hc]
        cases e : eofLoopEx { toFlags := f } (z.reader.rest.length + 1) z.reader with
        | error _ => rw [e] at hz; cases hz
        | ok q =>
          rw [e, ok_bind] at hz
          rcases eofLoopEx_same f _ _ _ e (fin q hz) with e2 | ⟨q2, e2, k2⟩
          · rw [e2, ok_bind]
            exact Or.inl hz
          · rw [e2, ok_bind, show assert (decide (q2.rest = []) || decide (q2.err ≠ .ok)) = .ok () by simp [assert, k2], ok_bind, if_pos (by simp [k2])]
            exact Or.inr ⟨_, rfl, k2⟩
    · rw [if_neg hr, ok_bind] at hz
      exact absurd (fin _ hz) hr
  unfold makeDocumentEx readRootTypeEx at h
  unfold makeDocument readRootType
  have hroot := rootLoopEx_sim f ((makeReader s).rest.length + 1) (makeReader s)
  rcases hroot with e | e | ⟨⟨tok, q⟩, e, h1, h2⟩
  · rw [e] at h
    cases e2 : rootLoop f ((makeReader s).rest.length + 1) (makeReader s) with
    | error _ => rw [e2] at h; cases h
    | ok x =>
      rw [e2, ok_bind] at h
      rw [ok_bind]
      obtain ⟨tok, q⟩ := x
      dsimp only at h ⊢
      have cont : ∀ isObj, (do
          let z ← readContainerEx { toFlags := f } isObj al q
          let r ← (if z.reader.err = .ok then validUntilEofEx { toFlags := f } z.reader else .ok z.reader)
          assert (r.rest = [] || r.err ≠ .ok)
          if r.err ≠ .ok then .ok ⟨.scalar .null ⟨true, [], 0⟩, r.err, r.line, r.column⟩
          else .ok ⟨z.val, z.err, 0, 0⟩ : C Document) = .ok doc → ∃ z, readContainer f isObj al q = .ok z ∧ (do
          let r ← (if z.reader.err = .ok then validUntilEofEx { toFlags := f } z.reader else .ok z.reader)
          assert (r.rest = [] || r.err ≠ .ok)
          if r.err ≠ .ok then .ok ⟨.scalar .null ⟨true, [], 0⟩, r.err, r.line, r.column⟩
          else .ok ⟨z.val, z.err, 0, 0⟩ : C Document) = .ok doc := by
        intro isObj hc
        rcases readContainerEx_sim f isObj al q with e3 | e3 | ⟨z, e3, hz⟩
        · rw [e3] at hc
          cases e4 : readContainer f isObj al q with
          | error _ => rw [e4] at hc; cases hc
          | ok z =>
            rw [e4, ok_bind] at hc
            exact ⟨z, rfl, hc⟩
        · rw [e3] at hc; cases hc
        · rw [e3, ok_bind] at hc
          exact absurd (last z hc).1 hz
      cases tok
      case objStart =>
        obtain ⟨z, e4, hz⟩ := cont true h
        dsimp only
        rw [e4, ok_bind]
        exact (last z hz).2
      case arrStart =>
        obtain ⟨z, e4, hz⟩ := cont false h
        dsimp only
        rw [e4, ok_bind]
        exact (last z hz).2
      case value =>
        dsimp only at h ⊢
        rw [readScalarEx_plain (rootLoop_kind _ e2)] at h
        cases e5 : readScalar al q with
        | error _ => rw [e5] at h; cases h
        | ok v =>
          rw [e5, ok_bind, ok_bind] at h
          rw [ok_bind, ok_bind]
          exact (last _ h).2
      all_goals
        dsimp only at h ⊢
        rw [ok_bind] at h ⊢
        exact (last _ h).2
  · rw [e] at h; cases h
  · rw [e, ok_bind] at h
    dsimp only at h1 h2
    subst h1
    dsimp only at h
    rw [ok_bind] at h
    exact absurd (last _ h).1 h2

theorem eofLoopEx_fault (f : Flags) : ∀ (n : Nat) (r : Reader) (x : Fault), eofLoopEx { toFlags := f } n r = .error x → x ≠ .diverge → eofLoop f n r = .error x
  | 0, _, _, h, _ => by rw [eofLoopEx] at h; rw [eofLoop]; injection h with h; subst h; rfl
  | n + 1, r, x, h, hx => by
    rw [eofLoopEx] at h
    rw [eofLoop]
    rcases nextTokenEx_sim f .null r with e | e | ⟨⟨tok, q⟩, e, h1, h2⟩
    · rw [e] at h
      cases e2 : nextToken f .null r with
      | error _ => rw [e2] at h; exact h
      | ok y =>
        rw [e2, ok_bind] at h
        rw [ok_bind]
        obtain ⟨tok, q⟩ := y
        dsimp only at h ⊢
        cases tok <;> dsimp only at h ⊢
        case comment => exact eofLoopEx_fault f n q x h hx
        all_goals cases h
    · rw [e] at h
      injection h with h
      exact absurd h.symm hx
    · rw [e, ok_bind] at h
      dsimp only at h1
      subst h1
      cases h

/-- Without extensions the extended reader has the faults of the plain reader, and failing assertions. -/
theorem makeDocumentEx_fault (f : Flags) (al : Alloc) (s : List Byte) (x : Fault) (h : makeDocumentEx { toFlags := f } al s = .error x)
    (hx : x ≠ .assertion) : makeDocument f al s = .error x := by
  have hd : x ≠ .diverge := fun e => (makeDocumentEx_good { toFlags := f } al s).1 (e ▸ h)
  have last : ∀ z : Result JVal, (do
      let r ← (if z.reader.err = .ok then validUntilEofEx { toFlags := f } z.reader else .ok z.reader)
      assert (r.rest = [] || r.err ≠ .ok)
      if r.err ≠ .ok then .ok ⟨.scalar .null ⟨true, [], 0⟩, r.err, r.line, r.column⟩
      else .ok ⟨z.val, z.err, 0, 0⟩ : C Document) = .error x → z.reader.err = .ok ∧ (do
      let r ← (if z.reader.err = .ok then validUntilEof f z.reader else .ok z.reader)
      assert (r.rest = [] || r.err ≠ .ok)
      if r.err ≠ .ok then .ok ⟨.scalar .null ⟨true, [], 0⟩, r.err, r.line, r.column⟩
      else .ok ⟨z.val, z.err, 0, 0⟩ : C Document) = .error x := by
    intro z hz
    have fin : ∀ q : Reader, (do
        assert (q.rest = [] || q.err ≠ .ok)
        if q.err ≠ .ok then .ok ⟨.scalar .null ⟨true, [], 0⟩, q.err, q.line, q.column⟩
        else .ok ⟨z.val, z.err, 0, 0⟩ : C Document) ≠ .error x := by
      intro q hq
      unfold assert at hq
      split at hq
      · rw [ok_bind] at hq
        split at hq <;> cases hq
      · injection hq with hq
        exact hx hq.symm
    by_cases hr : z.reader.err = .ok
    · refine ⟨hr, ?_⟩
      rw [if_pos hr] at hz ⊢
      unfold validUntilEofEx at hz
      unfold validUntilEof
      split at hz
      · exact absurd hz (fin _)
      · next hc =>
        rw [if_neg hc]
        cases e : eofLoopEx { toFlags := f } (z.reader.rest.length + 1) z.reader with
        | error y =>
          rw [e] at hz
          injection hz with hz
          subst hz
          rw [eofLoopEx_fault f _ _ _ e hd]
          rfl
        | ok q =>
          rw [e, ok_bind] at hz
          exact absurd hz (fin _)
    · rw [if_neg hr, ok_bind] at hz
      exact absurd hz (fin _)
  unfold makeDocumentEx readRootTypeEx at h
  unfold makeDocument readRootType
  rcases rootLoopEx_sim f ((makeReader s).rest.length + 1) (makeReader s) with e | e | ⟨⟨tok, q⟩, e, h1, h2⟩
  · rw [e] at h
    cases e2 : rootLoop f ((makeReader s).rest.length + 1) (makeReader s) with
    | error _ => rw [e2] at h; exact h
    | ok w =>
      rw [e2, ok_bind] at h
      rw [ok_bind]
      obtain ⟨tok, q⟩ := w
      dsimp only at h ⊢
      have cont : ∀ isObj, (do
          let z ← readContainerEx { toFlags := f } isObj al q
          let r ← (if z.reader.err = .ok then validUntilEofEx { toFlags := f } z.reader else .ok z.reader)
          assert (r.rest = [] || r.err ≠ .ok)
          if r.err ≠ .ok then .ok ⟨.scalar .null ⟨true, [], 0⟩, r.err, r.line, r.column⟩
          else .ok ⟨z.val, z.err, 0, 0⟩ : C Document) = .error x → (do
          let z ← readContainer f isObj al q
          let r ← (if z.reader.err = .ok then validUntilEof f z.reader else .ok z.reader)
          assert (r.rest = [] || r.err ≠ .ok)
          if r.err ≠ .ok then .ok ⟨.scalar .null ⟨true, [], 0⟩, r.err, r.line, r.column⟩
          else .ok ⟨z.val, z.err, 0, 0⟩ : C Document) = .error x := by
        intro isObj hc
        rcases readContainerEx_sim f isObj al q with e3 | e3 | ⟨z, e3, hz⟩
        · rw [e3] at hc
          cases e4 : readContainer f isObj al q with
          | error _ => rw [e4] at hc; exact hc
          | ok z =>
            rw [e4, ok_bind] at hc
            rw [ok_bind]
            exact (last z hc).2
        · rw [e3] at hc
          injection hc with hc
          exact absurd hc.symm hd
        · rw [e3, ok_bind] at hc
          exact absurd (last z hc).1 hz
      cases tok
      case objStart => exact cont true h
      case arrStart => exact cont false h
      case value =>
        dsimp only at h ⊢
        rw [readScalarEx_plain (rootLoop_kind _ e2)] at h
        cases e5 : readScalar al q with
        | error _ => rw [e5] at h; exact h
        | ok v =>
          rw [e5, ok_bind, ok_bind] at h
          rw [ok_bind, ok_bind]
          exact (last _ h).2
      all_goals
        dsimp only at h ⊢
        rw [ok_bind] at h ⊢
        exact (last _ h).2
  · rw [e] at h
    injection h with h
    exact absurd h.symm hd
  · rw [e, ok_bind] at h
    dsimp only at h1 h2
    subst h1
    dsimp only at h
    rw [ok_bind] at h
    exact absurd (last _ h).1 h2

end Tm.Json
