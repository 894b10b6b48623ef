import Verif.Xml.ReadProps

/-! # Allocations that fail -/

namespace Tm.Xml

open Tm

/-- The result of a call without memory is that of the same call with memory, or an error token. -/
def OrError (x y : C (Bool × Reader)) : Prop := x = y ∨ ∃ r, x = .ok (true, r) ∧ r.current.kind = .error

/-- The same inside of a call, where `false` tells about the error. -/
def OrFalse (x y : C (Bool × Reader)) : Prop := x = y ∨ ∃ r, x = .ok (false, r) ∧ r.current.kind = .error

theorem processCurrent_orFalse (alloc : Nat → Bool) (p : Nat → C Result) (r : Reader) :
    OrFalse (processCurrent alloc p r) (processCurrent (fun _ => true) p r) := by
  unfold processCurrent growBuffer
  cases p r.room with
  | error e => exact Or.inl rfl
  | ok res =>
    dsimp only
    split
    · exact Or.inl rfl
    · split
      · exact Or.inl rfl
      · by_cases hr : r.room < res.written
        · rw [if_pos hr, if_pos hr]
          cases alloc res.written with
          | true => exact Or.inl rfl
          | false => exact Or.inr ⟨{ r with current := { r.current with kind := .error } }, rfl, rfl⟩
        · rw [if_neg hr, if_neg hr]
          exact Or.inl rfl

theorem unescapeCurrent_orFalse (alloc : Nat → Bool) (r : Reader) : OrFalse (unescapeCurrent alloc r) (unescapeCurrent (fun _ => true) r) := by
  unfold unescapeCurrent
  dsimp only
  generalize (if (decide (r.current.kind = .attrValue) && !r.flags.attr) = true then r.flags.noTrim else r.flags) = flags
  by_cases h : (trim flags r.current.contents).text.isEmpty = true
  · rw [if_pos h, if_pos h]; exact Or.inl rfl
  · rw [if_neg h, if_neg h]; exact processCurrent_orFalse _ _ _

theorem processCdata_orFalse (alloc : Nat → Bool) (r : Reader) : OrFalse (processCdata alloc r) (processCdata (fun _ => true) r) := by
  unfold processCdata
  dsimp only
  generalize (if (!r.flags.cdata) = true then r.flags.noTrim else r.flags) = flags
  by_cases h : (trim flags r.current.contents).text.isEmpty = true
  · rw [if_pos h, if_pos h]; exact Or.inl rfl
  · rw [if_neg h, if_neg h]
    by_cases h : flags.reduce = true
    · rw [if_pos h, if_pos h]; exact processCurrent_orFalse _ _ _
    · rw [if_neg h, if_neg h]; exact Or.inl rfl

theorem bind_orError {α : Type} (x : C α) {f g : α → C (Bool × Reader)} (h : ∀ a, x = .ok a → OrError (f a) (g a)) : OrError (x >>= f) (x >>= g) := by
  cases x with
  | error e => exact Or.inl rfl
  | ok a => exact h a rfl

theorem orFalse_bind {x y : C (Bool × Reader)} (h : OrFalse x y) {f : Bool × Reader → C (Bool × Reader)} (hf : ∀ r, f (false, r) = .ok (true, r)) : OrError (x >>= f) (y >>= f) := by
  rcases h with h | ⟨r, h, hk⟩
  · exact Or.inl (by rw [h])
  · refine Or.inr ⟨r, ?_, hk⟩
    rw [h, ok_bind, hf]

theorem readBang_orError (alloc : Nat → Bool) (r : Reader) (t : Tz) : OrError (readBang alloc r t) (readBang (fun _ => true) r t) := by
  unfold readBang
  split
  · refine bind_orError _ fun t _ => bind_orError _ fun x _ => ?_
    obtain ⟨tok, t⟩ := x
    dsimp only
    split
    · exact Or.inl rfl
    · exact orFalse_bind (unescapeCurrent_orFalse _ _) fun _ => rfl
  · split
    · refine bind_orError _ fun t _ => ?_
      split
      · dsimp only
        split
        · exact Or.inl rfl
        · exact orFalse_bind (processCdata_orFalse _ _) fun _ => rfl
      · exact Or.inl rfl
    · exact Or.inl rfl

theorem readMarkup_orError (alloc : Nat → Bool) (r : Reader) (t : Tz) : OrError (readMarkup alloc r t) (readMarkup (fun _ => true) r t) := by
  unfold readMarkup
  refine bind_orError _ fun t _ => ?_
  split
  · exact Or.inl rfl
  · split
    · exact bind_orError _ fun t _ => readBang_orError alloc r t
    · exact Or.inl rfl

theorem readContent_orError (alloc : Nat → Bool) : ∀ (n : Nat) (r : Reader) (t : Tz), OrError (readContent alloc n r t) (readContent (fun _ => true) n r t)
  | 0, _, _ => Or.inl rfl
  | n + 1, r, t => by
    unfold readContent
    split
    · exact Or.inl rfl
    · split
      · exact readMarkup_orError alloc r t
      · split
        · cases skipWs t with
          | error e => exact Or.inl rfl
          | ok x =>
            obtain ⟨t', b⟩ := x
            cases b with
            | false => exact Or.inl rfl
            | true =>
              dsimp only
              split
              · exact Or.inl rfl
              · exact readContent_orError alloc n _ _
        · cases parseContents t with
          | error e => exact Or.inl rfl
          | ok x =>
            obtain ⟨tok, t'⟩ := x
            dsimp only
            split
            · exact Or.inl rfl
            · rcases unescapeCurrent_orFalse alloc { r with current := tok } with h | ⟨r', h, hk⟩
              · rw [h]
                cases unescapeCurrent (fun _ => true) { r with current := tok } with
                | error e => exact Or.inl rfl
                | ok y =>
                  obtain ⟨b, r'⟩ := y
                  cases b with
                  | false => exact Or.inl rfl
                  | true =>
                    dsimp only
                    split
                    · exact readContent_orError alloc n _ _
                    · exact Or.inl rfl
              · rw [h]
                exact Or.inr ⟨r', rfl, hk⟩

theorem readAttrValue_orError (alloc : Nat → Bool) (r : Reader) (t : Tz) : OrError (readAttrValue alloc r t) (readAttrValue (fun _ => true) r t) := by
  unfold readAttrValue
  refine bind_orError _ fun x _ => ?_
  obtain ⟨tok, t⟩ := x
  dsimp only
  split
  · exact Or.inl rfl
  · exact orFalse_bind (unescapeCurrent_orFalse _ _) fun _ => rfl

theorem readLastComment_orError (alloc : Nat → Bool) (r : Reader) (t : Tz) : OrError (readLastComment alloc r t) (readLastComment (fun _ => true) r t) := by
  unfold readLastComment
  refine bind_orError _ fun t _ => bind_orError _ fun x _ => ?_
  obtain ⟨tok, t⟩ := x
  exact orFalse_bind (unescapeCurrent_orFalse _ _) fun _ => rfl

theorem readPostRoot_orError (alloc : Nat → Bool) (r : Reader) (t : Tz) : OrError (readPostRoot alloc r t) (readPostRoot (fun _ => true) r t) := by
  unfold readPostRoot
  refine bind_orError _ fun x _ => ?_
  obtain ⟨t, b⟩ := x
  cases b with
  | false => exact Or.inl rfl
  | true =>
    dsimp only
    split
    · exact readLastComment_orError _ _ _
    · exact Or.inl rfl

/-- C240: whatever allocations fail, a call of `tmxml_next_token` does what it does if none fails, or it delivers an error. -/
theorem C240_same (alloc : Nat → Bool) (r : Reader) :
    nextToken alloc r = nextToken (fun _ => true) r ∨ ∃ r', nextToken alloc r = .ok (true, r') ∧ r'.current.kind = .error := by
  show OrError _ _
  unfold nextToken
  dsimp only
  cases r.ctx with
  | eof => exact Or.inl rfl
  | error => exact Or.inl rfl
  | none =>
    dsimp only
    cases skipWs r.tz with
    | error e => exact Or.inl rfl
    | ok x =>
      obtain ⟨t, b⟩ := x
      cases b with
      | false => exact Or.inl rfl
      | true =>
        dsimp only
        split
        · exact Or.inl rfl
        · exact readContent_orError _ _ _ _
  | content => exact readContent_orError _ _ _ _
  | insideTag => exact Or.inl rfl
  | attrName => exact readAttrValue_orError _ _ _
  | postRoot => exact readPostRoot_orError _ _ _

/-- Text that does not fit into the buffer of the reader. -/
def tooLong : Reader := makeReader (ascii "<a>" ++ List.replicate 100 0x78 ++ ascii "</a>") {}

/-- The kind and the text of the token that a call gives. -/
def given (x : C (Bool × Reader)) : Option (Kind × List Byte) :=
  match x with
  | .ok (true, r) => some (r.current.kind, r.current.contents.text)
  | _ => none

/-- Both cases occur: without memory the text is an error, with memory it is the text. -/
example : nextToken rich tooLong = .ok (true, after 1 tooLong) ∧
    (given (nextToken (fun _ => false) (after 1 tooLong))).map Prod.fst = some .error ∧
    given (nextToken (fun _ => true) (after 1 tooLong)) = some (.contents, List.replicate 100 0x78) := by
  decide +kernel

end Tm.Xml
