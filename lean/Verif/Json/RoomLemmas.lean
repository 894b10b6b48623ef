import Verif.Json.EventLemmas

/-! # Brackets and memory for them -/

namespace Tm.Json

open Tm Spec

theorem Moves.after {p p' : List Bool} {t : Tok} (h : Moves p t p') (ts : List Tok) : openAfter p (t :: ts) = openAfter p' ts := by
  cases h with
  | start o => cases o <;> rfl
  | stop o => cases o <;> rfl
  | other h1 h2 h3 h4 => cases t <;> first | rfl | contradiction

/-- The tokens as they were returned. -/
abbrev toks (xs : List (Tok × Reader)) : List Tok := xs.map (·.1)

theorem openAfter_append (p : List Bool) (ts us : List Tok) : openAfter p (ts ++ us) = openAfter (openAfter p ts) us := by
  induction ts generalizing p with
  | nil => rfl
  | cons t ts ih => cases t <;> exact ih _

/-- A token that was returned. -/
theorem nextEvent_moves {f : Flags} {e : EReader} {p : List Bool} {x : Tok × EReader} (h : At e p) (hn : nextEvent f e = .ok x)
    (h1 : x.1 ≠ .eof) (h2 : x.1 ≠ .error) : x.2.r.rest.length < e.r.rest.length ∧ x.2.cap = e.cap ∧ ∃ p', At x.2 p' ∧ Moves p x.1 p' := by
  obtain ⟨_, hg⟩ := (nextEvent_good f e p h).2 _ hn
  rcases hg with hg | hg | ⟨hg, _, _, h5, h3⟩
  · exact absurd hg h2
  · exact absurd hg.1 h1
  · exact ⟨hg, h5, h3⟩

theorem run_after {f : Flags} {e e' : EReader} {xs : List (Tok × Reader)} (hr : Run f e xs e') : ∀ {p}, At e p →
    At e' (openAfter p (toks xs)) ∧ e'.cap = e.cap := by
  induction hr with
  | nil => exact fun h => ⟨h, rfl⟩
  | cons hn h1 h2 _ ih =>
    intro p h
    obtain ⟨_, hc, p', hp, hm⟩ := nextEvent_moves h hn h1 h2
    obtain ⟨g1, g2⟩ := ih hp
    refine ⟨?_, g2.trans hc⟩
    rw [toks, List.map_cons, hm.after]
    exact g1

/-! ### Brackets match -/

/-- These tokens close the brackets. -/
inductive Closes : List Bool → List Tok → Prop
  | nil {b} : Balanced b → Closes [] b
  | cons {o p b ts} : Balanced b → Closes p ts → Closes (o :: p) (b ++ endTok o :: ts)

theorem Balanced.wrap (o : Bool) {b c : List Tok} (hb : Balanced b) (hc : Balanced c) : Balanced (startTok o :: (b ++ endTok o :: c)) := by
  cases o
  · exact .array hb hc
  · exact .object hb hc

theorem closes_step {p p' : List Bool} {t : Tok} {ts : List Tok} (hm : Moves p t p') (h : Closes p' ts) : Closes p (t :: ts) := by
  cases hm with
  | start o =>
    cases h with
    | @cons _ _ b ts hb h =>
      cases h with
      | nil hc => exact .nil (.wrap o hb hc)
      | @cons o' p c ts hc h =>
        have := Closes.cons (o := o') (Balanced.wrap o hb hc) h
        simpa using this
  | stop o => exact .cons (b := []) .nil h
  | other h1 h2 h3 h4 =>
    cases h with
    | nil hb => exact .nil (.other h1 h2 h3 h4 hb)
    | @cons o' p c ts hc h => exact Closes.cons (Balanced.other h1 h2 h3 h4 hc) h

theorem closes_all : ∀ p : List Bool, Closes p (p.map fun o => endTok o)
  | [] => .nil .nil
  | o :: p => .cons (b := []) .nil (closes_all p)

theorem run_closes {f : Flags} {e e' : EReader} {xs : List (Tok × Reader)} (hr : Run f e xs e') : ∀ {p : List Bool} {ts : List Tok},
    At e p → Closes (openAfter p (toks xs)) ts → Closes p (toks xs ++ ts) := by
  induction hr with
  | nil => exact fun _ h => h
  | cons hn h1 h2 _ ih =>
    intro p ts h hc
    obtain ⟨_, _, p', hp, hm⟩ := nextEvent_moves h hn h1 h2
    rw [toks, List.map_cons, hm.after] at hc
    exact closes_step hm (ih hp hc)

/-! ### With more and with less memory -/

/-- The same reader with less memory. -/
abbrev EReader.less (e : EReader) (cap : Nat) : EReader := { e with cap := cap }

/-- Tokens that are no opening brackets do not look at the memory. -/
theorem track_less {e : EReader} {x : Tok × Reader} {y : Tok × EReader} (cap : Nat) (h1 : x.1 ≠ .objStart) (h2 : x.1 ≠ .arrStart)
    (h : track e x = .ok y) : track (e.less cap) x = .ok (y.1, y.2.less cap) := by
  obtain ⟨tok, r⟩ := x
  have pop : ∀ ctx, ((do
      match ← popContext e.stack ctx with
      | some st => .ok (tok, { e with r := r, stack := st })
      | none => .ok (.error, { e with r := setError r .mismatchedBrackets }) : C (Tok × EReader)) = .ok y) →
      ((do
      match ← popContext e.stack ctx with
      | some st => .ok (tok, { e.less cap with r := r, stack := st })
      | none => .ok (.error, { e.less cap with r := setError r .mismatchedBrackets }) : C (Tok × EReader)) = .ok (y.1, y.2.less cap)) := by
    intro ctx h
    cases hp : popContext e.stack ctx with
    | error x => rw [hp] at h; cases h
    | ok o =>
      rw [hp, ok_bind] at h
      rw [ok_bind]
      cases o with
      | none => injection h with h; rw [← h]
      | some st => injection h with h; rw [← h]
  cases tok
  case objStart => exact absurd rfl h1
  case arrStart => exact absurd rfl h2
  case objEnd => exact pop .object h
  case arrEnd => exact pop .array h
  all_goals
    have h : Except.ok _ = Except.ok y := h
    injection h with h
    rw [← h]
    rfl

/-- One token with less memory: the same, or the bracket does not fit. -/
theorem less_step {f : Flags} {e : EReader} {p : List Bool} {cap : Nat} {x : Tok × EReader} (h : At e p)
    (hroom : p.length + e.r.rest.length ≤ e.cap) (hc : (compress p).length ≤ cap) (hn : nextEvent f e = .ok x) :
    (nextEvent f (e.less cap) = .ok (x.1, x.2.less cap) ∧ ∀ p', Moves p x.1 p' → (compress p').length ≤ cap) ∨
    (∃ (o : Bool) (r : Reader), x.1 = startTok o ∧ cap < (compress (o :: p)).length ∧ r.err = .outOfContext ∧
      nextEvent f (e.less cap) = .ok (.error, { e.less cap with r := r })) := by
  unfold nextEvent at hn ⊢
  have hgood := (nextToken_good f (topContext e.stack) e.r).2
  have hst : (e.less cap).stack = e.stack := rfl
  have hr : (e.less cap).r = e.r := rfl
  rw [hst, hr]
  cases hx : nextToken f (topContext e.stack) e.r with
  | error y => rw [hx] at hn; cases hn
  | ok x0 =>
    have hg := hgood _ hx
    rw [hx, ok_bind] at hn
    rw [ok_bind]
    obtain ⟨tok, r'⟩ := x0
    rcases tok_kind tok with ⟨o, rfl⟩ | hk
    · have hlt : r'.rest.length < e.r.rest.length := by
        rcases hg.2 with hg | hg | hg
        · cases o <;> cases hg
        · cases o <;> cases hg.1
        · exact hg.1
      have hfit : (compress (o :: p)).length ≤ e.cap := by
        have := compress_le (o :: p)
        simp only [List.length_cons] at this
        omega
      rw [track_start h, if_pos hfit] at hn
      injection hn with hn
      subst hn
      have hat : At (e.less cap) p := ⟨h.stack, hc⟩
      rw [track_start hat]
      by_cases hfit' : (compress (o :: p)).length ≤ cap
      · left
        rw [if_pos hfit']
        refine ⟨rfl, fun p' hm => ?_⟩
        have := hm.after []
        have hp : openAfter p [startTok o] = o :: p := by cases o <;> rfl
        rw [hp] at this
        rw [show p' = o :: p from this.symm]
        exact hfit'
      · right
        rw [if_neg hfit']
        exact ⟨o, _, rfl, Nat.lt_of_not_le hfit', rfl, rfl⟩
    · left
      have hns : tok ≠ .objStart ∧ tok ≠ .arrStart := by
        rcases hk with ⟨o, rfl⟩ | ⟨h1, h2, _, _⟩
        · cases o <;> exact ⟨nofun, nofun⟩
        · exact ⟨h1, h2⟩
      refine ⟨track_less cap hns.1 hns.2 hn, fun p' hm => ?_⟩
      obtain ⟨y, hy, _, hcase⟩ := track_moves h (tok, r')
      rw [hn] at hy
      injection hy with hy
      subst hy
      have hle : ∀ t, t ≠ .objStart → t ≠ .arrStart → Moves p t p' → (compress p').length ≤ cap := by
        intro t h1 h2 hm
        cases hm with
        | start o => cases o; exacts [absurd rfl h2, absurd rfl h1]
        | stop o => exact Nat.le_trans (compress_tail o p') hc
        | other => exact hc
      rcases hcase with ⟨he, _⟩ | ⟨he, _⟩
      · exact hle _ (by rw [he]; nofun) (by rw [he]; nofun) hm
      · exact hle _ (by rw [he]; exact hns.1) (by rw [he]; exact hns.2) hm

/-- There is room for what is open, from the brackets `p` on. -/
def RoomFrom (cap : Nat) (p : List Bool) (ts : List Tok) : Prop := ∀ us, us <+: ts → (compress (openAfter p us)).length ≤ cap

theorem roomFrom_iff (cap : Nat) (ts : List Tok) : RoomFrom cap [] ts ↔ Room cap ts := by
  constructor
  · intro h us hu k hk
    rw [← entries_compress hk]
    exact h us hu
  · intro h us hu
    exact h us hu _ (entries_exists _)

theorem roomFrom_cons {cap : Nat} {p p' : List Bool} {t : Tok} {ts : List Tok} (hm : Moves p t p') (hp : (compress p).length ≤ cap) :
    RoomFrom cap p (t :: ts) ↔ RoomFrom cap p' ts := by
  constructor
  · intro h us hu
    have := h (t :: us) (List.cons_prefix_cons.mpr ⟨rfl, hu⟩)
    rwa [hm.after] at this
  · intro h us hu
    cases us with
    | nil => exact hp
    | cons u us =>
      obtain ⟨rfl, hu'⟩ := List.cons_prefix_cons.mp hu
      rw [hm.after]
      exact h us hu'

/-- All tokens with less memory. -/
theorem less_read (f : Flags) (cap : Nat) : ∀ (fuel : Nat) (e : EReader) (p : List Bool) (out : List (Tok × Reader)), At e p →
    p.length + e.r.rest.length ≤ e.cap → (compress p).length ≤ cap → readEvents f fuel e = .ok out →
    (RoomFrom cap p (toks out) → readEvents f fuel (e.less cap) = .ok out) ∧
    (¬ RoomFrom cap p (toks out) → ∃ xs y ys r, out = xs ++ y :: ys ∧ RoomFrom cap p (toks xs) ∧ ¬ RoomFrom cap p (toks (xs ++ [y])) ∧
      readEvents f fuel (e.less cap) = .ok (xs ++ [(.error, r)]) ∧ r.err = .outOfContext) := by
  intro fuel
  induction fuel with
  | zero => intro e p out _ _ _ h; cases h
  | succ fuel ih =>
    intro e p out h hroom hc hout
    rw [readEvents] at hout ⊢
    cases hn : nextEvent f e with
    | error x => rw [hn] at hout; cases hout
    | ok x =>
      rw [hn, ok_bind] at hout
      have hnil : RoomFrom cap p [] := by
        intro us hu
        rw [List.prefix_nil.mp hu]
        exact hc
      rcases less_step h hroom hc hn with ⟨hs, hfit⟩ | ⟨o, r, hx, hbig, herr, hs⟩
      · rw [hs, ok_bind]
        dsimp only
        by_cases hlast : (x.1 = .eof || x.1 = .error) = true
        · rw [if_pos hlast] at hout ⊢
          injection hout with hout
          subst hout
          refine ⟨fun _ => rfl, fun hneg => absurd ?_ hneg⟩
          have hm : Moves p x.1 p := by
            simp at hlast
            rcases hlast with h | h <;> rw [h] <;> exact .other nofun nofun nofun nofun
          exact (roomFrom_cons hm hc).mpr hnil
        · rw [if_neg hlast] at hout ⊢
          simp at hlast
          obtain ⟨hlt, hcap, p', hat, hm⟩ := nextEvent_moves h hn hlast.1 hlast.2
          cases hrest : readEvents f fuel x.2 with
          | error z => rw [hrest] at hout; cases hout
          | ok rest =>
            rw [hrest, ok_bind] at hout
            injection hout with hout
            subst hout
            have hlen : p'.length ≤ p.length + 1 := by
              clear * - hm
              generalize x.1 = t at hm
              cases hm
              · simp
              · simp only [List.length_cons]; omega
              · omega
            have hroom' : p'.length + x.2.r.rest.length ≤ x.2.cap := by rw [hcap]; omega
            obtain ⟨i1, i2⟩ := ih x.2 p' rest hat hroom' (hfit p' hm) hrest
            have hiff : RoomFrom cap p (toks ((x.1, x.2.r) :: rest)) ↔ RoomFrom cap p' (toks rest) := roomFrom_cons hm hc
            constructor
            · intro hr
              rw [i1 (hiff.mp hr), ok_bind]
            · intro hr
              obtain ⟨xs, y, ys, r, rfl, g1, g2, g3, g4⟩ := i2 (fun h => hr (hiff.mpr h))
              refine ⟨(x.1, x.2.r) :: xs, y, ys, r, rfl, (roomFrom_cons hm hc).mpr g1, fun h => g2 ((roomFrom_cons hm hc).mp h), ?_, g4⟩
              rw [g3, ok_bind]
              rfl
      · rw [hs, ok_bind]
        dsimp only
        rw [if_pos (by simp)]
        have hx1 : x.1 ≠ .eof := by rw [hx]; cases o <;> nofun
        have hx2 : x.1 ≠ .error := by rw [hx]; cases o <;> nofun
        have hm : Moves p x.1 (o :: p) := by rw [hx]; exact .start o
        rw [if_neg (by simp [hx1, hx2])] at hout
        cases hrest : readEvents f fuel x.2 with
        | error z => rw [hrest] at hout; cases hout
        | ok rest =>
          rw [hrest, ok_bind] at hout
          injection hout with hout
          subst hout
          have hno : ∀ ts, ¬ RoomFrom cap p (x.1 :: ts) := by
            intro ts hr
            have := (roomFrom_cons hm hc).mp hr [] (List.nil_prefix)
            exact absurd this (Nat.not_le.mpr hbig)
          refine ⟨fun hr => absurd hr (hno _), fun _ => ⟨[], (x.1, x.2.r), rest, r, rfl, hnil, hno _, rfl, herr⟩⟩

end Tm.Json
