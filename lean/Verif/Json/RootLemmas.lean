import Verif.Json.EventLemmas

/-! # The flag for the root of the text -/

namespace Tm.Json

open Tm Spec

theorem peek_post (r : Reader) : Post (peek r) (fun _ => True) := .triv

theorem advance_root (r : Reader) : Post (advance r) (fun r' => r'.root = r.root) := by
  unfold advance
  split
  · exact .error
  · exact .ok rfl

/-- A step of reading a number keeps the flag. -/
def StepRoot (b : Bool) : Step → Prop
  | .done _ r => r.root = b
  | .go _ r => r.root = b

theorem numSign_root (f : Flags) (r : Reader) : Post (numSign f r) (StepRoot r.root) := by
  unfold numSign
  dsimp only
  have fin : ∀ r' : Reader, r'.root = r.root →
      Post (if r'.rest = [] then .ok (.done false (setError r' .unexpectedEof)) else .ok (.go true r') : C Step) (StepRoot r.root) :=
    fun r' h => .ite (fun _ => .ok h) fun _ => .ok h
  refine Post.bind .triv fun c _ => .ite (fun _ => ?_) fun _ => .ite (fun _ => ?_) fun _ => ?_
  · exact Post.bind (advance_root _) fun r' h => fin r' h
  · exact Post.bind (advance_root _) fun r' h => Post.bind (.ok (Q := fun x : Reader => x.root = r.root) h) fun r2 h2 => fin r2 h2
  · exact Post.bind (.ok (Q := fun x : Reader => x.root = r.root) rfl) fun r' h => fin r' h

theorem numInt_root (f : Flags) (r : Reader) : Post (numInt f r) (StepRoot r.root) := by
  unfold numInt
  refine Post.bind .triv fun c _ => .ite (fun _ => ?_) fun _ => .ite (fun _ => .ite (fun _ => .ok rfl) fun _ => .ok rfl) fun _ =>
    .ite (fun _ => .ok rfl) fun _ => .ok rfl
  refine Post.bind (advance_root _) fun r' h => .ite (fun _ => .ok h) fun _ => ?_
  refine Post.bind .triv fun c _ => .ite (fun _ => ?_) fun _ => .ok h
  refine Post.bind (advance_root _) fun r2 h2 => .ite (fun _ => .ok (h2.trans h)) fun _ => ?_
  exact Post.bind .triv fun c _ => .ite (fun _ => .ok (h2.trans h)) fun _ => .ok (h2.trans h)

theorem numFrac_root (f : Flags) (r : Reader) : Post (numFrac f r) (StepRoot r.root) := by
  unfold numFrac
  split
  · refine Post.bind (advance_root _) fun r' h => .ite (fun _ => .ite (fun _ => .ok h) fun _ => .ok h) fun _ => ?_
    exact Post.bind .triv fun c _ => .ite (fun _ => .ok h) fun _ => .ite (fun _ => .ok h) fun _ => .ok h
  · exact .ok rfl

theorem numExp_root (point lead trail : Bool) (r : Reader) : Post (numExp point lead trail r) (StepRoot r.root) := by
  unfold numExp
  split
  · exact .ok rfl
  · refine .ite (fun _ => .ite (fun _ => .ok rfl) fun _ => ?_) fun _ => .ok rfl
    refine Post.bind (advance_root _) fun r' h => Post.bind .triv fun c _ => ?_
    have fin : ∀ r2 : Reader, r2.root = r.root → Post (do
        let d ← peek r2
        if isDigit d then .ok (.go true (moveTo r2 (dropDigits isDigit r2.rest)))
        else .ok (.done false (setError r2 .unexpectedToken)) : C Step) (StepRoot r.root) :=
      fun r2 h2 => Post.bind .triv fun c _ => .ite (fun _ => .ok h2) fun _ => .ok h2
    refine .ite (fun _ => ?_) fun _ => ?_
    · exact Post.bind (advance_root _) fun r2 h2 => fin r2 (h2.trans h)
    · exact Post.bind (.ok (Q := fun x : Reader => x.root = r.root) h) fun r2 h2 => fin r2 h2

theorem numTail_root (f : Flags) (lead : Bool) (r : Reader) : Post (numTail f lead r) (fun x => x.2.root = r.root) := by
  unfold numTail
  dsimp only
  refine Post.bind (numFrac_root f r) fun s hs => ?_
  cases s with
  | done ok r' => exact .ok hs
  | go trail r' =>
    refine Post.bind (numExp_root _ _ _ r') fun s2 hs2 => ?_
    have hs : r'.root = r.root := hs
    rw [hs] at hs2
    cases s2 with
    | done ok r2 => exact .ok hs2
    | go trail r2 =>
      dsimp only
      unfold numEnd
      refine .ite (fun _ => ?_) fun _ => .ok hs2
      exact Post.bind .triv fun _ _ => .ok hs2

theorem readNumber_root (f : Flags) (r : Reader) : Post (readNumber f r) (fun x => x.2.root = r.root) := by
  unfold readNumber
  refine .ite (fun _ => .ok rfl) fun _ => Post.bind (numSign_root f r) fun s hs => ?_
  cases s with
  | done ok r' => exact .ok hs
  | go x r' =>
    have hs : r'.root = r.root := hs
    refine Post.bind (numInt_root f r') fun s2 hs2 => ?_
    rw [hs] at hs2
    cases s2 with
    | done ok r2 => exact .ok hs2
    | go lead r2 =>
      have hs2 : r2.root = r.root := hs2
      exact (numTail_root f lead r2).mono fun x hx => hx.trans hs2

theorem readValue_root (f : Flags) (r : Reader) : Post (readValue f r) (fun x => x.2.root = r.root) := by
  unfold readValue
  refine .ite (fun _ => .ok rfl) fun _ => .ite (fun _ => .ok rfl) fun _ => .ite (fun _ => .ok rfl) fun _ => ?_
  exact Post.bind (readNumber_root f r) fun x hx => .ite (fun _ => .ok hx) fun _ => .ok hx

theorem readQuoted_root (r : Reader) : Post (readQuotedString r) (fun x => x.2.root = r.root) := by
  unfold readQuotedString
  split
  · exact .error
  · refine Post.bind .triv fun _ _ => Post.bind .triv fun o _ => ?_
    split
    · exact .ok rfl
    · exact Post.bind .triv fun b _ => .ite (fun _ => .ok rfl) fun _ => .ok rfl

/-- What a token says about the root. -/
structure Rooted (ctx : Ctx) (b : Bool) (x : Tok × Reader) : Prop where
  keep : b = true → x.2.root = true
  again : ctx = .null → b = true → IsValueTok x.1 → x.1 = .value ∧ x.2.vtype = .string
  first : ctx = .null → IsValueTok x.1 → x.2.root = true ∨ (x.1 = .value ∧ x.2.vtype = .string)

theorem Rooted.quiet {ctx : Ctx} {b : Bool} {t : Tok} {r : Reader} (h : b = true → r.root = true) (ht : ¬ IsValueTok t) :
    Rooted ctx b (t, r) := ⟨h, fun _ _ h' => absurd h' ht, fun _ h' => absurd h' ht⟩

theorem not_value {t : Tok} (h1 : t ≠ .objStart) (h2 : t ≠ .arrStart) (h3 : t ≠ .value) : ¬ IsValueTok t := by
  rintro (h | h | h)
  · exact h1 h
  · exact h2 h
  · exact h3 h

theorem dispatch_root (f : Flags) (r : Reader) (ctx : Ctx) (c : Byte) : Post (dispatch f r ctx c) (Rooted ctx r.root) := by
  have herr : ∀ r' : Reader, r'.root = r.root → Rooted ctx r.root (.error, r') :=
    fun r' h => .quiet (fun h' => h.trans h') (not_value nofun nofun nofun)
  have hquoted : Post (parseQuotedString r ctx) (Rooted ctx r.root) := by
    unfold parseQuotedString
    refine Post.bind (readQuoted_root r) fun x hx => ?_
    dsimp only
    refine .ite (fun _ => .ok (herr _ hx)) fun _ => .ite (fun hc => .ok ?_) fun hc => .ite (fun _ => .ok ?_) fun _ =>
      .ite (fun _ => .ok (herr _ hx)) fun _ => .ok ?_
    · exact ⟨fun h => hx.trans h, fun _ _ _ => ⟨rfl, rfl⟩, fun _ _ => Or.inr ⟨rfl, rfl⟩⟩
    · exact .quiet (fun h => hx.trans h) (not_value nofun nofun nofun)
    · exact ⟨fun h => hx.trans h, fun _ _ _ => ⟨rfl, rfl⟩, fun _ _ => Or.inr ⟨rfl, rfl⟩⟩
  have hstart : ∀ isObj, Post (parseStart r ctx isObj) (Rooted ctx r.root) := by
    intro isObj
    unfold parseStart
    refine .ite (fun _ => .ok (herr _ rfl)) fun _ => .ite (fun _ => .ok (herr _ rfl)) fun hn => ?_
    refine Post.bind (advance_root _) fun r' hr => .ok ?_
    by_cases hc : ctx = .null
    · rw [if_pos hc] at hr
      have hr : r'.root = true := hr
      refine ⟨fun _ => hr, fun _ hb _ => ?_, fun _ _ => Or.inl hr⟩
      exfalso
      exact hn (by simp [hc, hb])
    · rw [if_neg hc] at hr
      exact ⟨fun h => hr.trans h, fun h => absurd h hc, fun h => absurd h hc⟩
  have hend : ∀ isObj, Post (parseEnd f r ctx isObj) (Rooted ctx r.root) := by
    intro isObj
    unfold parseEnd
    refine .ite (fun _ => .ok (herr _ rfl)) fun _ => Post.bind (advance_root _) fun r' hr => .ok ?_
    refine .quiet (fun h => hr.trans h) ?_
    cases isObj
    · exact not_value nofun nofun nofun
    · exact not_value nofun nofun nofun
  unfold dispatch
  refine .ite (fun _ => ?_) fun _ => .ite (fun _ => .ite (fun _ => hquoted) fun _ => .ok (herr _ rfl)) fun _ => .ite (fun _ => hquoted) fun _ =>
    .ite (fun _ => hstart true) fun _ => .ite (fun _ => hstart false) fun _ => .ite (fun _ => hend true) fun _ => .ite (fun _ => hend false) fun _ =>
    .ite (fun _ => .ok (herr _ rfl)) fun hcv => ?_
  · unfold parseComment
    refine .ite (fun _ => ?_) fun _ => .ok (herr _ rfl)
    refine Post.bind (advance_root _) fun r' hr => ?_
    split
    · exact .ok (herr _ hr)
    · refine .ite (fun _ => Post.bind (advance_root _) fun r2 hr2 => .ok ?_) fun _ => .ok (herr _ hr)
      refine .quiet (fun h => ?_) (not_value nofun nofun nofun)
      unfold readCommentLine
      split <;> exact (hr2.trans hr).trans h
  · refine (readValue_root f _).mono fun x hx => ?_
    have hx : x.2.root = true := hx
    refine ⟨fun _ => hx, fun hc hb _ => ?_, fun _ _ => Or.inl hx⟩
    exfalso
    apply hcv
    simp [canValueFollow, hc, hb]

theorem nextLoop_root (f : Flags) (ctx : Ctx) : ∀ fuel (r : Reader), Post (nextLoop f ctx fuel r) (Rooted ctx r.root) := by
  intro fuel
  induction fuel with
  | zero => intro r; exact .error
  | succ fuel ih =>
    intro r
    rw [nextLoop]
    have hw : (skipWhitespace r).root = r.root := rfl
    split
    · exact .ite (fun _ => .ok (.quiet (fun h => h) (not_value nofun nofun nofun))) fun _ => .ok (.quiet (fun h => h) (not_value nofun nofun nofun))
    · refine .ite (fun _ => .ite (fun _ => .ok (.quiet (fun h => h) (not_value nofun nofun nofun))) fun _ => ih _) fun _ =>
        .ite (fun _ => .ite (fun _ => .ok (.quiet (fun h => h) (not_value nofun nofun nofun))) fun _ => ih _) fun _ => ?_
      exact dispatch_root f _ ctx _

theorem nextToken_root (f : Flags) (ctx : Ctx) (r : Reader) : Post (nextToken f ctx r) (Rooted ctx r.root) := nextLoop_root f ctx _ r

end Tm.Json
