import Verif.Json.ReadLemmas

/-! # Skipping and counting do not fail, without extensions -/

namespace Tm.Json

open Tm Spec

/-! ### The scan for the closing bracket -/

theorem bracket_safe {ctx : Ctx} {isObj : Bool} (hctx : ctx ≠ .null) : ∀ (n d : Nat) (r : Reader), r.rest.length < n → r.err = .ok →
    ∃ b r', bracketLoop ctx isObj n d r = .ok (b, r') ∧ r'.rest <:+ r.rest ∧ (r'.err ≠ .ok ∨ r'.rest = [] ∨ Ends r'.last) := by
  intro n
  induction n with
  | zero => intro _ _ h; omega
  | succ n ih =>
    intro d r hn he
    rw [bracketLoop]
    by_cases h0 : r.rest = []
    · rw [if_pos h0]
      exact ⟨_, _, rfl, List.suffix_rfl, Or.inr (Or.inl h0)⟩
    rw [if_neg h0]
    dsimp only
    obtain ⟨a, _, hra, _⟩ := skipWhitespace_inv r
    have hle := skipWhitespace_le r
    have hsuf : (skipWhitespace r).rest <:+ r.rest := ⟨a, hra.symm⟩
    have hcore := skipWhitespace_core r
    cases hrest : (skipWhitespace r).rest with
    | nil =>
      dsimp only
      rw [if_pos hctx]
      exact ⟨_, _, rfl, by dsimp only [setError]; rw [hrest]; exact List.nil_suffix, Or.inl (by simp [setError])⟩
    | cons c t =>
      dsimp only
      rw [hrest] at hle hsuf
      have hts : t <:+ r.rest := (List.suffix_cons c t).trans hsuf
      simp only [List.length_cons] at hle
      have step : ∀ d', ∃ b r', bracketLoop ctx isObj n d' { skipWhitespace r with rest := t, column := (skipWhitespace r).column + 1 } =
          .ok (b, r') ∧ r'.rest <:+ r.rest ∧ (r'.err ≠ .ok ∨ r'.rest = [] ∨ Ends r'.last) := by
        intro d'
        obtain ⟨b, r', e, h1, h2⟩ := ih d' { skipWhitespace r with rest := t, column := (skipWhitespace r).column + 1 }
          (by dsimp only; omega) (hcore.err.trans he)
        exact ⟨b, r', e, h1.trans hts, h2⟩
      by_cases h1 : c = (if isObj = true then 0x7B else 0x5B)
      · rw [if_pos h1]
        exact step _
      rw [if_neg h1]
      by_cases h2 : c = (if isObj = true then 0x7D else 0x5D)
      · rw [if_pos h2]
        by_cases h3 : d - 1 = 0
        · rw [if_pos h3]
          exact ⟨_, _, rfl, hts, Or.inr (Or.inr (by cases isObj <;> simp [Ends]))⟩
        · rw [if_neg h3]
          exact step _
      rw [if_neg h2]
      by_cases h3 : c = 0x22
      · rw [if_pos h3]
        subst h3
        rcases readQuoted_inv (r := { skipWhitespace r with rest := 0x22 :: t, column := (skipWhitespace r).column + 1 }) (body := t) rfl with
          ⟨raw, text, k, rfl, hb, e⟩ | ⟨r', pre, e, hp, hne, he', hl, ho⟩
        · dsimp only at e
          rw [e, ok_bind]
          dsimp only
          rw [if_pos rfl]
          generalize hx : (Reader.mk k (skipWhitespace r).line _ _ _ _ _ _) = rx
          have hk : rx.rest = k := by rw [← hx]
          have hke : rx.err = .ok := by rw [← hx]; exact hcore.err.trans he
          obtain ⟨b, r', e', g1, g2⟩ := ih d rx (by rw [hk]; simp at hle; omega) hke
          refine ⟨b, r', e', (g1.trans ?_).trans hts, g2⟩
          rw [hk]
          exact ⟨raw ++ [0x22], by simp⟩
        · dsimp only at e
          rw [e, ok_bind]
          dsimp only
          rw [if_neg (by simp)]
          refine ⟨_, _, rfl, ?_, Or.inl he'⟩
          dsimp only at hp
          exact (show r'.rest <:+ (0x22 :: t) from ⟨pre, hp.symm⟩).trans hsuf
      · rw [if_neg h3]
        exact step _

/-! ### Tokens -/

/-- The tokens that begin a value. -/
def IsValueTok (t : Tok) : Prop := t = .objStart ∨ t = .arrStart ∨ t = .value

/-- A token that begins a value, after the last token `l`. -/
theorem lexed_cases {ctx : Ctx} {l : Tok} {r' : Reader} {tok : Tok} {body : List Byte} (h : Lexed ctx l r' tok body) :
    (IsValueTok tok ∧ CanValue ctx l) ∨ (ctx = .object ∧ tok = .objEnd ∧ body = [0x7D] ∧ CanEnd l) ∨
    (ctx = .array ∧ tok = .arrEnd ∧ body = [0x5D] ∧ CanEnd l) ∨
    (ctx = .object ∧ tok = .propName ∧ (l = .objStart ∨ l = .comma)) ∨ (ctx = .null ∧ tok = .eof) := by
  cases h with
  | objStart h => exact Or.inl ⟨Or.inl rfl, h⟩
  | arrStart h => exact Or.inl ⟨Or.inr (Or.inl rfl), h⟩
  | objEnd h1 h2 => exact Or.inr (Or.inl ⟨h1, rfl, rfl, h2⟩)
  | arrEnd h1 h2 => exact Or.inr (Or.inr (Or.inl ⟨h1, rfl, rfl, h2⟩))
  | name h1 h2 _ _ => exact Or.inr (Or.inr (Or.inr (Or.inl ⟨h1, rfl, h2⟩)))
  | str h _ _ _ => exact Or.inl ⟨Or.inr (Or.inr rfl), h⟩
  | scal h _ _ _ _ _ => exact Or.inl ⟨Or.inr (Or.inr rfl), h⟩
  | eof h _ => exact Or.inr (Or.inr (Or.inr (Or.inr ⟨h, rfl⟩)))

theorem lexed_length {ctx : Ctx} {l : Tok} {r' : Reader} {tok : Tok} {body : List Byte} (h : Lexed ctx l r' tok body)
    (hc : ctx ≠ .null) : 1 ≤ body.length := by
  cases h with
  | objStart h => simp
  | arrStart h => simp
  | objEnd h1 h2 => simp
  | arrEnd h1 h2 => simp
  | name h1 h2 _ _ => simp [quoted]
  | str h _ _ _ => simp [quoted]
  | scal _ hs _ _ _ _ => obtain ⟨_, _, rfl, _⟩ := scal_head hs; simp
  | eof h _ => exact absurd h hc

/-- The last tokens between the elements of a container. -/
def Between (isObj : Bool) (l : Tok) : Prop := l = startTok isObj ∨ Ends l

/-- Between the elements, the next token is the first one of an element, or the end. -/
inductive Next (isObj : Bool) (r : Reader) : Tok → Reader → Prop
  | elem {tok r' l sep body} : Sep (ctxOf isObj) r.last l sep → Lexed (ctxOf isObj) l r' tok body →
      r.rest = sep ++ (body ++ r'.rest) → r'.err = r.err → r'.last = tok → (l = startTok isObj ∨ l = .comma) →
      (if isObj then tok = .propName else IsValueTok tok) → Next isObj r tok r'
  | close {r' a} : Ws a → r.rest = a ++ closing isObj :: r'.rest → r'.err = r.err → r'.last = endTok isObj → CanEnd r.last →
      Next isObj r (endTok isObj) r'
  | error {r'} : Fails r r' → Next isObj r .error r'

theorem next_res {isObj : Bool} {r : Reader} (hb : ¬ BadEnd r.rest) (hl : Between isObj r.last) :
    ∃ tok r', nextToken strict (ctxOf isObj) r = .ok (tok, r') ∧ Next isObj r tok r' := by
  have h := nextToken_res (ctxOf isObj) r
  generalize hx : nextToken strict (ctxOf isObj) r = x at h
  cases h with
  | oob h => exact absurd h hb
  | error h => exact ⟨_, _, rfl, .error h⟩
  | @tok tok r' l sep body hs hlex hr he hlast =>
    refine ⟨_, _, rfl, ?_⟩
    -- the last token after the separator
    have hsep : (l = r.last ∧ Ws sep) ∨ l = .comma := by
      generalize hl0 : r.last = l0 at hs hl
      cases hs with
      | ws ha => exact Or.inl ⟨rfl, ha⟩
      | comma => exact Or.inr rfl
      | colon => rcases hl with h | h | h | h <;> first | (cases h; done) | (cases isObj <;> cases h)
    have hls : l = startTok isObj ∨ l = .comma ∨ Ends l := by
      rcases hsep with ⟨h, _⟩ | h
      · rw [h]; rcases hl with h | h
        · exact Or.inl h
        · exact Or.inr (Or.inr h)
      · exact Or.inr (Or.inl h)
    rcases lexed_cases hlex with ⟨hv, hc⟩ | ⟨hc, rfl, rfl, hE⟩ | ⟨hc, rfl, rfl, hE⟩ | ⟨hc, rfl, hl'⟩ | ⟨hc, _⟩
    · cases isObj with
      | true =>
        exfalso
        have hc : l = .colon := hc
        rcases hls with h | h | h | h | h <;> rw [hc] at h <;> cases h
      | false => exact .elem hs hlex hr he hlast hc hv
    · cases isObj with
      | false => cases hc
      | true =>
        rcases hsep with ⟨h, ha⟩ | h
        · exact .close (isObj := true) ha hr he hlast (h ▸ hE)
        · exact absurd h hE.1
    · cases isObj with
      | true => cases hc
      | false =>
        rcases hsep with ⟨h, ha⟩ | h
        · exact .close (isObj := false) ha hr he hlast (h ▸ hE)
        · exact absurd h hE.1
    · cases isObj with
      | false => cases hc
      | true => exact .elem hs hlex hr he hlast hl' rfl
    · cases isObj <;> cases hc

/-- After a name there is a value, or an error. -/
theorem value_res {r : Reader} (hb : ¬ BadEnd r.rest) (hl : r.last = .propName) :
    ∃ tok r', nextToken strict .object r = .ok (tok, r') ∧ ((tok = .error ∧ Fails r r') ∨
      (∃ a b body, Ws a ∧ Ws b ∧ r.rest = a ++ (chr ':' :: (b ++ (body ++ r'.rest))) ∧ Lexed .object .colon r' tok body ∧
        IsValueTok tok ∧ r'.err = r.err ∧ r'.last = tok)) := by
  have h := nextToken_res .object r
  generalize hx : nextToken strict .object r = x at h
  cases h with
  | oob h => exact absurd h hb
  | error h => exact ⟨_, _, rfl, Or.inl ⟨rfl, h⟩⟩
  | @tok tok r' l sep body hs hlex hr he hlast =>
    refine ⟨_, _, rfl, Or.inr ?_⟩
    generalize hl0 : r.last = l0 at hs
    rw [hl] at hl0
    cases hs with
    | ws ha =>
      exfalso
      subst hl0
      rcases lexed_cases hlex with ⟨_, h⟩ | ⟨_, _, _, h⟩ | ⟨h, _⟩ | ⟨_, _, h⟩ | ⟨h, _⟩
      · cases h
      · exact h.2.1 rfl
      · cases h
      · rcases h with h | h <;> cases h
      · cases h
    | comma _ h _ _ => subst hl0; rcases h with h | h | h <;> cases h
    | @colon a b _ ha hb =>
      refine ⟨a, b, body, ha, hb, by rw [hr]; simp [chr], hlex, ?_, he, hlast⟩
      rcases lexed_cases hlex with ⟨h, _⟩ | ⟨_, _, _, h⟩ | ⟨h, _⟩ | ⟨_, _, h⟩ | ⟨h, _⟩
      · exact h
      · exact absurd rfl h.2.2
      · cases h
      · rcases h with h | h <;> cases h
      · cases h

/-! ### Skipping -/

theorem skip_safe {ctx : Ctx} {r : Reader} (hb : ¬ BadEnd r.rest) (hctx : ctx ≠ .null)
    (hl : r.last = .propName ∧ ctx = .object ∨ r.last = .objStart ∨ r.last = .arrStart) :
    ∃ b r', skipCurrent strict ctx r = .ok (b, r') ∧ r'.rest <:+ r.rest ∧ (r'.err ≠ .ok ∨ r'.rest = [] ∨ Ends r'.last) := by
  unfold skipCurrent
  by_cases h0 : (r.err ≠ .ok || r.rest = [] || !(r.last = .objStart || r.last = .arrStart || r.last = .propName)) = true
  · rw [if_pos h0]
    refine ⟨_, _, rfl, List.suffix_rfl, ?_⟩
    simp only [ne_eq, decide_not, Bool.or_eq_true, Bool.not_eq_true', decide_eq_false_iff_not, decide_eq_true_eq] at h0
    rcases h0 with (h | h) | h
    · exact Or.inl h
    · exact Or.inr (Or.inl h)
    · exfalso
      rcases hl with ⟨h', _⟩ | h' | h' <;> simp [h'] at h
  · rw [if_neg h0]
    have he : r.err = .ok := by
      by_contra h
      apply h0
      simp [h]
    by_cases hp : r.last = .propName
    · rw [if_pos hp]
      have hco : ctx = .object := by
        rcases hl with ⟨_, h⟩ | h | h
        · exact h
        · rw [hp] at h; cases h
        · rw [hp] at h; cases h
      subst hco
      rw [contentLoop]
      obtain ⟨tok, r', e, h⟩ := value_res hb hp
      rw [e, ok_bind]
      rcases h with ⟨rfl, hf⟩ | ⟨a, b, body, _, _, hr, _, hv, he', hlast⟩
      · dsimp only
        rw [if_pos hf.1, ok_bind]
        exact ⟨_, _, rfl, hf.2, Or.inl hf.1⟩
      · have hsuf : r'.rest <:+ r.rest := by rw [hr]; exact ⟨a ++ chr ':' :: (b ++ body), by simp⟩
        rcases hv with rfl | rfl | rfl
        · dsimp only
          rw [ok_bind]
          dsimp only
          rw [if_neg (by simp [he', he])]
          obtain ⟨b', r2, e2, h1, h2⟩ := bracket_safe (ctx := .object) (isObj := r'.last = .objStart) (by simp) (r'.rest.length + 1) 1 r'
            (by omega) (he'.trans he)
          exact ⟨b', r2, e2, h1.trans hsuf, h2⟩
        · dsimp only
          rw [ok_bind]
          dsimp only
          rw [if_neg (by simp [he', he])]
          obtain ⟨b', r2, e2, h1, h2⟩ := bracket_safe (ctx := .array) (isObj := r'.last = .objStart) (by simp) (r'.rest.length + 1) 1 r'
            (by omega) (he'.trans he)
          exact ⟨b', r2, e2, h1.trans hsuf, h2⟩
        · dsimp only
          rw [ok_bind]
          exact ⟨_, _, rfl, hsuf, Or.inr (Or.inr (Or.inr (Or.inr hlast)))⟩
    · rw [if_neg hp]
      exact bracket_safe hctx _ _ _ (by omega) he

/-! ### Counting -/

theorem BadEnd.not_suffix {s t : List Byte} (h : ¬ BadEnd s) (hs : t <:+ s) : ¬ BadEnd t := fun hb => h (hb.suffix hs)

/-- Tokens do not go back. -/
theorem tok_suffix {ctx : Ctx} (hc : ctx ≠ .null) {r : Reader} (hb : ¬ BadEnd r.rest) :
    ∃ tok r', nextToken strict ctx r = .ok (tok, r') ∧ r'.rest <:+ r.rest ∧ (r.err ≠ .ok → r'.err ≠ .ok) ∧
      ((tok = .error ∧ r'.err ≠ .ok) ∨ (r'.rest.length < r.rest.length ∧ tok ≠ .comment ∧ r'.last = tok ∧ tok ≠ .eof ∧
        (tok = .propName → ctx = .object))) := by
  have h := nextToken_res ctx r
  generalize hx : nextToken strict ctx r = x at h
  cases h with
  | oob h => exact absurd h hb
  | error h => exact ⟨_, _, rfl, h.2, fun _ => h.1, Or.inl ⟨rfl, h.1⟩⟩
  | @tok tok r' l sep body hs hlex hr he hlast =>
    have hlen := lexed_length hlex hc
    refine ⟨_, _, rfl, by rw [hr]; exact ⟨sep ++ body, by simp⟩, fun h => by rw [he]; exact h, Or.inr ⟨?_, ?_, hlast, ?_, ?_⟩⟩
    · rw [hr]; simp; omega
    · rcases lexed_cases hlex with ⟨h | h | h, _⟩ | ⟨_, h, _⟩ | ⟨_, h, _⟩ | ⟨_, h, _⟩ | ⟨_, h⟩ <;> rw [h] <;> simp
    · rcases lexed_cases hlex with ⟨h | h | h, _⟩ | ⟨_, h, _⟩ | ⟨_, h, _⟩ | ⟨_, h, _⟩ | ⟨h', h⟩ <;> first | (rw [h]; simp; done) | exact absurd h' hc
    · intro h'
      rcases lexed_cases hlex with ⟨h | h | h, _⟩ | ⟨_, h, _⟩ | ⟨_, h, _⟩ | ⟨h, _, _⟩ | ⟨_, h⟩
      all_goals first | exact h | (rw [h'] at h; cases h)

/-- White space alone is an unexpected end. -/
theorem tok_white {ctx : Ctx} {r : Reader} (hr : Ws r.rest) (hc : ctx ≠ .null) :
    ∃ r', nextToken strict ctx r = .ok (.error, r') ∧ r'.err ≠ .ok ∧ r'.rest = [] := by
  rw [nextToken_eq, skipWhitespace_eq (a := r.rest) (t := []) (by simp) hr (by simp [NoWs])]
  dsimp only
  rw [if_pos hc]
  exact ⟨_, rfl, by simp [setError], skipWhitespace_eq (a := r.rest) (t := []) (by simp) hr (by simp [NoWs])⟩

theorem count_safe {isObj : Bool} : ∀ (n m : Nat) (r : Reader), r.rest.length < n → ¬ BadEnd r.rest →
    (r.err ≠ .ok ∨ r.rest = [] ∨ Between isObj r.last) →
    ∃ e c r', countLoop strict isObj n m r = .ok (e, c, r') ∧ r'.rest <:+ r.rest ∧ (e ≠ .ok → r'.err ≠ .ok) := by
  intro n
  induction n with
  | zero => intro _ _ h; omega
  | succ n ih =>
    intro m r hn hb hst
    have hc : ctxOf isObj ≠ .null := by cases isObj <;> exact fun h => by cases h
    rw [countLoop]
    dsimp only
    -- the cases in which the token is not expected
    have bad : ∀ (tok : Tok) (r' : Reader), r'.rest <:+ r.rest → r'.rest.length < n → r'.err ≠ .ok → (tok = .propName → r'.last = .propName ∧ isObj = true) →
        (tok = .objStart ∨ tok = .arrStart → r'.last = tok) → ∃ e c r2, (
          if (isObj && decide (tok = .propName) || !isObj && (decide (tok = .objStart) || decide (tok = .arrStart))) = true then do
            let y ← skipCurrent strict (ctxOf isObj) r'
            countLoop strict isObj n (m + 1) y.2
          else if (!isObj && decide (tok = .value)) = true then countLoop strict isObj n (m + 1) r'
          else if (isObj && decide (tok = .objEnd) || !isObj && decide (tok = .arrEnd)) = true then .ok (.ok, m, r')
          else if tok = .comment then countLoop strict isObj n m r'
          else if r'.err ≠ .ok then .ok (r'.err, m, r')
          else .error .assertion : C (Err × Nat × Reader)) = .ok (e, c, r2) ∧ r2.rest <:+ r.rest ∧ (e ≠ .ok → r2.err ≠ .ok) := by
      intro tok r' hs hlen he hp hst'
      have hb' := BadEnd.not_suffix hb hs
      have go : ∀ m', ∃ e c r2, countLoop strict isObj n m' r' = .ok (e, c, r2) ∧ r2.rest <:+ r.rest ∧ (e ≠ .ok → r2.err ≠ .ok) := by
        intro m'
        obtain ⟨e, c, r2, e1, h1, h2⟩ := ih m' r' hlen hb' (Or.inl he)
        exact ⟨e, c, r2, e1, h1.trans hs, h2⟩
      split
      · have : skipCurrent strict (ctxOf isObj) r' = .ok (false, r') := by
          unfold skipCurrent
          rw [if_pos (by simp [he])]
        rw [this, ok_bind]
        exact go _
      split
      · exact go _
      split
      · exact ⟨_, _, _, rfl, hs, fun h => absurd rfl h⟩
      split
      · exact go _
      · exact ⟨_, _, _, rfl, hs, fun h => h⟩
    by_cases herr : r.err ≠ .ok
    · obtain ⟨tok, r', e, h1, h2, h3⟩ := tok_suffix hc hb
      have e : nextToken strict (if isObj = true then Ctx.object else Ctx.array) r = .ok (tok, r') := e
      rw [e, ok_bind]
      rcases h3 with ⟨rfl, h4⟩ | ⟨h3, h4, h5, h6, h7⟩
      · dsimp only
        rw [if_neg (by simp), if_neg (by simp), if_neg (by simp), if_neg (by simp), if_pos h4]
        exact ⟨_, _, _, rfl, h1, fun h => h⟩
      · exact bad tok r' h1 (by omega) (h2 herr) (fun h => ⟨h5.trans h, by have := h7 h; cases isObj <;> first | rfl | cases this⟩)
          (fun h => h5)
    · have herr : r.err = .ok := by simpa using herr
      by_cases h0 : r.rest = []
      · obtain ⟨r', e, h1, h2⟩ := tok_white (r := r) (by rw [h0]; intro b hb; cases hb) hc
        have e : nextToken strict (if isObj = true then Ctx.object else Ctx.array) r = .ok (.error, r') := e
        rw [e, ok_bind]
        dsimp only
        rw [if_neg (by simp), if_neg (by simp), if_neg (by simp), if_neg (by simp), if_pos h1]
        exact ⟨_, _, _, rfl, by rw [h2]; exact List.nil_suffix, fun h => h⟩
      · have hbt : Between isObj r.last := by
          rcases hst with h | h | h
          · exact absurd herr h
          · exact absurd h h0
          · exact h
        obtain ⟨tok, r', e, hx⟩ := next_res hb hbt
        have e : nextToken strict (if isObj = true then Ctx.object else Ctx.array) r = .ok (tok, r') := e
        rw [e, ok_bind]
        cases hx with
        | error hf =>
          dsimp only
          rw [if_neg (by simp), if_neg (by simp), if_neg (by simp), if_neg (by simp), if_pos hf.1]
          exact ⟨_, _, _, rfl, hf.2, fun h => h⟩
        | @close _ a ha hr he hlast _ =>
          dsimp only
          rw [if_neg (by cases isObj <;> exact Bool.false_ne_true), if_neg (by cases isObj <;> exact Bool.false_ne_true),
            if_pos (by cases isObj <;> rfl)]
          exact ⟨_, _, _, rfl, by rw [hr]; exact ⟨a ++ [closing isObj], by simp only [List.append_assoc]; rfl⟩, fun h => absurd rfl h⟩
        | @elem _ _ l sep body hs hlex hr he hlast hl' htok =>
          have hlen := lexed_length hlex hc
          have hsuf : r'.rest <:+ r.rest := by rw [hr]; exact ⟨sep ++ body, by simp⟩
          have hlt : r'.rest.length < n := by rw [hr] at hn; simp at hn; omega
          have hb' := BadEnd.not_suffix hb hsuf
          have skip : (r'.last = .propName ∧ ctxOf isObj = .object ∨ r'.last = .objStart ∨ r'.last = .arrStart) →
              ∃ e c r2, (do
                let y ← skipCurrent strict (ctxOf isObj) r'
                countLoop strict isObj n (m + 1) y.2 : C (Err × Nat × Reader)) = .ok (e, c, r2) ∧ r2.rest <:+ r.rest ∧
                (e ≠ .ok → r2.err ≠ .ok) := by
            intro hl2
            obtain ⟨b, r2, e2, h1, h2⟩ := skip_safe hb' hc hl2
            rw [e2, ok_bind]
            obtain ⟨e3, c, r3, e4, h3, h4⟩ := ih (m + 1) r2 (by have := h1.length_le; omega) (BadEnd.not_suffix hb' h1) (by
              rcases h2 with h | h | h
              · exact Or.inl h
              · exact Or.inr (Or.inl h)
              · exact Or.inr (Or.inr (Or.inr h)))
            exact ⟨e3, c, r3, e4, (h3.trans h1).trans hsuf, h4⟩
          cases isObj with
          | true =>
            have htok : tok = .propName := htok
            subst htok
            dsimp only
            rw [if_pos (by simp)]
            exact skip (Or.inl ⟨hlast, rfl⟩)
          | false =>
            have htok : IsValueTok tok := htok
            rcases htok with rfl | rfl | rfl
            · dsimp only
              rw [if_pos (by simp)]
              exact skip (Or.inr (Or.inl hlast))
            · dsimp only
              rw [if_pos (by simp)]
              exact skip (Or.inr (Or.inr hlast))
            · dsimp only
              rw [if_neg (by simp), if_pos (by simp)]
              obtain ⟨e3, c, r3, e4, h3, h4⟩ := ih (m + 1) r' hlt hb' (Or.inr (Or.inr (Or.inr (Or.inr (Or.inr hlast)))))
              exact ⟨e3, c, r3, e4, h3.trans hsuf, h4⟩

end Tm.Json
