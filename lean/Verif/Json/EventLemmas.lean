import Verif.Json.StackLemmas
import Verif.Json.TermLemmas

/-! # Reading token by token -/

namespace Tm.Json

open Tm Spec

/-! ### One token -/

/-- The brackets `p` are open, and the stack has room for them. -/
structure At (e : EReader) (p : List Bool) : Prop where
  stack : e.stack = compress p
  room : (compress p).length ≤ e.cap

/-- The context of the innermost open bracket. -/
def ctxAt : List Bool → Ctx
  | [] => .null
  | o :: _ => ctxOf o

theorem At.top {e : EReader} {p : List Bool} (h : At e p) : topContext e.stack = ctxAt p := by
  rw [h.stack]
  cases p with
  | nil => rfl
  | cons o p => exact top_compress o p

theorem track_start {e : EReader} {p : List Bool} (h : At e p) (o : Bool) (r' : Reader) :
    track e (startTok o, r') = if (compress (o :: p)).length ≤ e.cap then .ok (startTok o, { e with r := r', stack := compress (o :: p) })
      else .ok (.error, { e with r := setError r' .outOfContext }) := by
  have hp : pushContext e.cap e.stack (ctxOf o) = if (compress (o :: p)).length ≤ e.cap then some (compress (o :: p)) else none := by
    rw [h.stack, push_eq _ _ _ h.room]
    rfl
  have key : track e (startTok o, r') = (match pushContext e.cap e.stack (ctxOf o) with
    | some st => .ok (startTok o, { e with r := r', stack := st })
    | none => .ok (.error, { e with r := setError r' .outOfContext })) := by cases o <;> rfl
  rw [key, hp]
  split
  · rename_i hh
    split at hh
    · injection hh with hh
      subst hh
      rw [if_pos (by assumption)]
    · cases hh
  · rename_i hh
    split at hh
    · cases hh
    · rw [if_neg (by assumption)]

theorem track_end {e : EReader} {o : Bool} {p : List Bool} (h : At e (o :: p)) (r' : Reader) :
    track e (endTok o, r') = .ok (endTok o, { e with r := r', stack := compress p }) := by
  have key : track e (endTok o, r') = (do
    match ← popContext e.stack (ctxOf o) with
    | some st => .ok (endTok o, { e with r := r', stack := st })
    | none => .ok (.error, { e with r := setError r' .mismatchedBrackets })) := by cases o <;> rfl
  rw [key, h.stack, pop_compress, if_pos rfl, ok_bind]

theorem track_other {e : EReader} {tok : Tok} (r' : Reader) (h1 : tok ≠ .objStart) (h2 : tok ≠ .arrStart) (h3 : tok ≠ .objEnd)
    (h4 : tok ≠ .arrEnd) : track e (tok, r') = .ok (tok, { e with r := r' }) := by
  unfold track
  cases tok <;> first | rfl | contradiction

theorem compress_tail (o : Bool) (p : List Bool) : (compress p).length ≤ (compress (o :: p)).length := by
  rw [compress]
  unfold grow
  split
  · simp_all
  · split
    · split
      · rename_i h _ _
        rw [h]
        simp
      · rename_i h _ _
        rw [h]
        simp
    · rename_i h _
      rw [h]
      simp

theorem At.pop {e : EReader} {o : Bool} {p : List Bool} (h : At e (o :: p)) (r' : Reader) :
    At { e with r := r', stack := compress p } p := ⟨rfl, Nat.le_trans (compress_tail o p) h.room⟩

theorem At.push {e : EReader} {o : Bool} {p : List Bool} (h : (compress (o :: p)).length ≤ e.cap) (r' : Reader) :
    At { e with r := r', stack := compress (o :: p) } (o :: p) := ⟨rfl, h⟩

/-- What a token does to the open brackets. -/
inductive Moves : List Bool → Tok → List Bool → Prop
  | start (o : Bool) {p} : Moves p (startTok o) (o :: p)
  | stop (o : Bool) {p} : Moves (o :: p) (endTok o) p
  | other {t p} : t ≠ .objStart → t ≠ .arrStart → t ≠ .objEnd → t ≠ .arrEnd → Moves p t p

theorem tok_kind (t : Tok) : (∃ o, t = startTok o) ∨ (∃ o, t = endTok o) ∨
    (t ≠ .objStart ∧ t ≠ .arrStart ∧ t ≠ .objEnd ∧ t ≠ .arrEnd) := by
  cases t
  case objStart => exact Or.inl ⟨true, rfl⟩
  case arrStart => exact Or.inl ⟨false, rfl⟩
  case objEnd => exact Or.inr (Or.inl ⟨true, rfl⟩)
  case arrEnd => exact Or.inr (Or.inl ⟨false, rfl⟩)
  all_goals exact Or.inr (Or.inr (by decide))

/-- Every token that is tracked keeps the stack in step with the brackets. -/
theorem track_moves {e : EReader} {p : List Bool} (h : At e p) (x : Tok × Reader) :
    ∃ y, track e x = .ok y ∧ y.2.cap = e.cap ∧ ((y.1 = .error ∧ y.2.r.err ≠ .ok ∧ x.1 ≠ .error ∧ y.2.r.rest = x.2.rest) ∨
      (y.1 = x.1 ∧ y.2.r = x.2 ∧ ∃ p', At y.2 p' ∧ Moves p x.1 p')) := by
  obtain ⟨tok, r'⟩ := x
  rcases tok_kind tok with ⟨o, rfl⟩ | ⟨o, rfl⟩ | ⟨h1, h2, h3, h4⟩
  · rw [track_start h]
    split
    · rename_i hr
      exact ⟨_, rfl, rfl, Or.inr ⟨rfl, rfl, o :: p, At.push hr r', .start o⟩⟩
    · exact ⟨_, rfl, rfl, Or.inl ⟨rfl, by simp [setError], (by cases o <;> exact fun h => nomatch h), rfl⟩⟩
  · have bad : popContext e.stack (ctxOf o) = .ok none → ∃ y, track e (endTok o, r') = .ok y ∧ y.2.cap = e.cap ∧
        ((y.1 = .error ∧ y.2.r.err ≠ .ok ∧ (endTok o, r').1 ≠ .error ∧ y.2.r.rest = (endTok o, r').2.rest) ∨
        (y.1 = (endTok o, r').1 ∧ y.2.r = (endTok o, r').2 ∧ ∃ p', At y.2 p' ∧ Moves p (endTok o, r').1 p')) := by
      intro hp
      have key : track e (endTok o, r') = (do
        match ← popContext e.stack (ctxOf o) with
        | some st => .ok (endTok o, { e with r := r', stack := st })
        | none => .ok (.error, { e with r := setError r' .mismatchedBrackets })) := by cases o <;> rfl
      rw [key, hp, ok_bind]
      exact ⟨_, rfl, rfl, Or.inl ⟨rfl, by simp [setError], (by cases o <;> exact fun h => nomatch h), rfl⟩⟩
    cases p with
    | nil => exact bad (by rw [h.stack]; rfl)
    | cons o' p =>
      by_cases ho : o' = o
      · subst ho
        exact ⟨_, track_end h r', rfl, Or.inr ⟨rfl, rfl, p, h.pop r', .stop o'⟩⟩
      · exact bad (by rw [h.stack, pop_compress, if_neg ho])
  · exact ⟨_, track_other r' h1 h2 h3 h4, rfl, Or.inr ⟨rfl, rfl, p, ⟨h.stack, h.room⟩, .other h1 h2 h3 h4⟩⟩

/-! ### Several tokens -/

/-- Tokens that were read one after the other, none of them the end or an error. -/
inductive Run (f : Flags) : EReader → List (Tok × Reader) → EReader → Prop
  | nil {e} : Run f e [] e
  | cons {e x out e'} : nextEvent f e = .ok x → x.1 ≠ .eof → x.1 ≠ .error → Run f x.2 out e' → Run f e ((x.1, x.2.r) :: out) e'

theorem Run.append {f : Flags} {e e1 e2 : EReader} {xs ys : List (Tok × Reader)} (h1 : Run f e xs e1) (h2 : Run f e1 ys e2) :
    Run f e (xs ++ ys) e2 := by
  induction h1 with
  | nil => exact h2
  | cons h g1 g2 _ ih => exact .cons h g1 g2 (ih h2)

theorem Run.one {f : Flags} {e e' : EReader} {t : Tok} (h : nextEvent f e = .ok (t, e')) (h1 : t ≠ .eof) (h2 : t ≠ .error) :
    Run f e [(t, e'.r)] e' := .cons (x := (t, e')) h h1 h2 .nil

/-- Every token makes the text shorter. -/
theorem nextEvent_good (f : Flags) (e : EReader) (p : List Bool) (h : At e p) :
    Good (nextEvent f e) (fun x => x.2.r.rest.length ≤ e.r.rest.length ∧
      (x.1 = .error ∨ (x.1 = .eof ∧ p = [] ∧ At x.2 []) ∨
        (x.2.r.rest.length < e.r.rest.length ∧ x.1 ≠ .eof ∧ x.1 ≠ .error ∧ x.2.cap = e.cap ∧ ∃ p', At x.2 p' ∧ Moves p x.1 p'))) := by
  unfold nextEvent
  refine Good.bind (nextToken_good f _ e.r) fun x hx => ?_
  obtain ⟨y, hy, hcap, h1⟩ := track_moves h x
  rw [hy]
  refine .ok ?_
  rcases h1 with ⟨h1, _, _, h2⟩ | ⟨h1, h2, p', h3, h4⟩
  · exact ⟨by rw [h2]; exact hx.1, Or.inl h1⟩
  · refine ⟨by rw [h2]; exact hx.1, ?_⟩
    rcases hx.2 with hx | hx | hx
    · exact Or.inl (h1.trans hx)
    · right; left
      have hp : p = [] := by
        have := hx.2
        rw [h.top] at this
        cases p with
        | nil => rfl
        | cons o p => cases o <;> cases this
      refine ⟨h1.trans hx.1, hp, ?_⟩
      subst hp
      have : p' = [] := by
        rw [hx.1] at h4
        generalize hp0 : ([] : List Bool) = p0 at h4 ⊢
        generalize ht0 : Tok.eof = t0 at h4
        cases h4 with
        | start o => cases o <;> cases ht0
        | stop o => cases hp0
        | other => rfl
      exact this ▸ h3
    · right; right
      exact ⟨by rw [h2]; exact hx.1, by rw [h1]; exact hx.2.1, by rw [h1]; exact hx.2.2, hcap, p', h3, by rw [h1]; exact h4⟩

/-- What reading all tokens does: some tokens, then the end or an error. -/
theorem readEvents_run (f : Flags) : ∀ (fuel : Nat) (e : EReader) (p : List Bool), At e p → e.r.rest.length < fuel →
    Good (readEvents f fuel e) (fun out => ∃ xs e' y, out = xs ++ [(y.1, y.2.r)] ∧ Run f e xs e' ∧ nextEvent f e' = .ok y ∧
      (y.1 = .eof ∨ y.1 = .error)) := by
  intro fuel
  induction fuel with
  | zero => intro _ _ _ h; omega
  | succ fuel ih =>
    intro e p h hf
    rw [readEvents]
    have hg := nextEvent_good f e p h
    refine Good.bind (Q := fun x => (x.2.r.rest.length ≤ e.r.rest.length ∧
      (x.1 = .error ∨ (x.1 = .eof ∧ p = [] ∧ At x.2 []) ∨
        (x.2.r.rest.length < e.r.rest.length ∧ x.1 ≠ .eof ∧ x.1 ≠ .error ∧ x.2.cap = e.cap ∧ ∃ p', At x.2 p' ∧ Moves p x.1 p'))) ∧
      nextEvent f e = .ok x) ⟨hg.1, fun a ha => ⟨hg.2 a ha, ha⟩⟩ fun x hx => ?_
    refine .ite (fun hc => .ok ?_) fun hc => ?_
    · simp at hc
      exact ⟨[], e, x, rfl, .nil, hx.2, hc⟩
    · simp at hc
      rcases hx.1.2 with h1 | h1 | ⟨h1, h2, h3, _, p', h4, _⟩
      · exact absurd h1 hc.2
      · exact absurd h1.1 hc.1
      · refine Good.bind (ih x.2 p' h4 (by omega)) fun out ho => .ok ?_
        obtain ⟨xs, e', y, rfl, hr, hn, hy⟩ := ho
        exact ⟨(x.1, x.2.r) :: xs, e', y, rfl, .cons hx.2 h2 h3 hr, hn, hy⟩

/-- Tokens that were read, and the last one, make the whole result. -/
theorem run_read {f : Flags} {e e' : EReader} {xs : List (Tok × Reader)} {y : Tok × EReader} (h : Run f e xs e')
    (hn : nextEvent f e' = .ok y) (hy : y.1 = .eof ∨ y.1 = .error) : ∀ fuel, xs.length < fuel →
    readEvents f fuel e = .ok (xs ++ [(y.1, y.2.r)]) := by
  induction h with
  | nil =>
    intro fuel hf
    cases fuel with
    | zero => omega
    | succ fuel =>
      rw [readEvents, hn, ok_bind, if_pos (by simpa using hy)]
      rfl
  | @cons e x out e' h g1 g2 _ ih =>
    intro fuel hf
    cases fuel with
    | zero => omega
    | succ fuel =>
      rw [readEvents, h, ok_bind, if_neg (by simp [g1, g2]), ih hn fuel (by simp at hf; omega), ok_bind]
      rfl

/-- A run is not longer than the text. -/
theorem run_length {f : Flags} {e e' : EReader} {xs : List (Tok × Reader)} (h : Run f e xs e') : ∀ p, At e p →
    e'.r.rest.length + xs.length ≤ e.r.rest.length ∧ ∃ p', At e' p' ∧ e'.cap = e.cap := by
  induction h with
  | nil => intro p hp; exact ⟨by simp, p, hp, rfl⟩
  | @cons e x out e' h g1 g2 _ ih =>
    intro p hp
    obtain ⟨_, h2⟩ := (nextEvent_good f e p hp).2 _ h
    rcases h2 with h2 | h2 | ⟨h2, _, _, h5, p', h3, _⟩
    · exact absurd h2 g2
    · exact absurd h2.1 g1
    · obtain ⟨h4, p2, h6, h7⟩ := ih p' h3
      exact ⟨by simp; omega, p2, h6, h7.trans h5⟩

end Tm.Json
