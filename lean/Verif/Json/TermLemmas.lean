import Verif.Json.ReadLemmas

/-! # Every loop ends, with every flag -/

namespace Tm.Json

open Tm

/-- The computation does not run out of its counter, and a result has the property. -/
def Good {α : Type} (x : C α) (Q : α → Prop) : Prop := x ≠ .error .diverge ∧ ∀ a, x = .ok a → Q a

namespace Good

variable {α β : Type}

theorem ok {a : α} {Q : α → Prop} (h : Q a) : Good (.ok a) Q := ⟨by simp, fun _ e => by injection e with e; exact e ▸ h⟩

theorem error {e : Fault} {Q : α → Prop} (h : e ≠ .diverge) : Good (.error e : C α) Q :=
  ⟨fun h' => h (by injection h'), fun _ e => by cases e⟩

theorem bind {x : C α} {f : α → C β} {Q : α → Prop} {R : β → Prop} (h : Good x Q) (hf : ∀ a, Q a → Good (f a) R) :
    Good (x >>= f) R := by
  cases hx : x with
  | error e =>
    rw [error_bind]
    exact error fun he => h.1 (by rw [hx, he])
  | ok a =>
    rw [ok_bind]
    exact hf a (h.2 a hx)

theorem mono {x : C α} {Q R : α → Prop} (h : Good x Q) (hq : ∀ a, Q a → R a) : Good x R := ⟨h.1, fun a e => hq a (h.2 a e)⟩

theorem ite {c : Prop} [Decidable c] {x y : C α} {Q : α → Prop} (h1 : c → Good x Q) (h2 : ¬ c → Good y Q) :
    Good (if c then x else y) Q := by
  split
  · exact h1 (by assumption)
  · exact h2 (by assumption)

theorem assert {c : Bool} : Good (Tm.assert c) (fun _ => True) := by
  unfold Tm.assert
  exact ite (fun _ => ok trivial) (fun _ => error (by simp))

end Good

theorem peek_good (r : Reader) : Good (peek r) (fun c => r.rest.head? = some c) := by
  unfold peek
  split
  · exact .error (by simp)
  · rename_i h
    exact .ok (by rw [h]; rfl)

theorem advance_good (r : Reader) :
    Good (advance r) (fun r' => r'.rest.length < r.rest.length ∧ r'.cur = r.cur ∧ r'.last = r.last) := by
  unfold advance
  split
  · exact .error (by simp)
  · rename_i h
    exact .ok ⟨by rw [h]; simp, rfl, rfl⟩

theorem dropDigits_le (p : Byte → Bool) : ∀ s : List Byte, (dropDigits p s).length ≤ s.length
  | [] => Nat.le_refl _
  | c :: t => by
    rw [dropDigits]
    split
    · exact Nat.le_trans (dropDigits_le p t) (by simp)
    · exact Nat.le_refl _

theorem dropDigits_lt {p : Byte → Bool} {s : List Byte} {c : Byte} (h : s.head? = some c) (hp : p c = true) :
    (dropDigits p s).length < s.length := by
  cases s with
  | nil => cases h
  | cons d t =>
    injection h with h
    subst h
    rw [dropDigits, if_pos hp]
    exact Nat.lt_succ_of_le (dropDigits_le p t)

/-! ### Strings -/

theorem memchr_lt {s : List Byte} {c : Byte} {i : Nat} (h : memchr s c = some i) : i < s.length := by
  unfold memchr at h
  rw [List.findIdx?_eq_some_iff_getElem] at h
  exact h.1

theorem findLoop_good (s : List Byte) (c : Byte) : ∀ fuel pos, s.length < fuel + pos → 0 < fuel →
    Good (findLoop s c fuel pos) (fun r => ∀ p, r = some p → p < s.length) := by
  intro fuel
  induction fuel with
  | zero => intro _ _ h; omega
  | succ n ih =>
    intro pos h _
    rw [findLoop]
    split
    · exact .ok (by simp)
    · rename_i i hi
      have := memchr_lt hi
      rw [List.length_drop] at this
      refine .ite (fun _ => .ok fun p hp => ?_) (fun _ => ih _ (by omega) (by omega))
      injection hp with hp
      omega

theorem findUnescaped_good (s : List Byte) (c : Byte) : Good (findUnescaped s c) (fun r => ∀ p, r = some p → p < s.length) := by
  unfold findUnescaped
  split
  · exact .ok (by simp)
  · refine .ite (fun _ => .ok ?_) (fun _ => findLoop_good _ _ _ _ (by omega) (by omega))
    intro p hp
    injection hp with hp
    rw [← hp]
    simp

theorem validLoop_good (quote : Byte) : ∀ fuel (s : List Byte) n, n < fuel → Good (validLoop quote fuel s n) (fun _ => True) := by
  intro fuel
  induction fuel with
  | zero => intro _ _ h; omega
  | succ fuel ih =>
    intro s n h
    cases n with
    | zero => rw [validLoop]; exact .ok trivial
    | succ n =>
      cases s with
      | nil => unfold validLoop; exact .error (by simp)
      | cons c t =>
        unfold validLoop
        refine .ite (fun _ => .ok trivial) fun _ => .ite (fun _ => ?_) fun _ => ih _ _ (by omega)
        cases t with
        | nil => exact .error (by simp)
        | cons next t' =>
          refine .ite (fun _ => .ite (fun _ => .ite (fun _ => .error (by simp)) fun _ => ?_) fun _ => ih _ _ (by omega)) fun _ => .ok trivial
          split
          · exact .ok trivial
          · exact ih _ _ (by omega)

theorem readQuotedString_good (r : Reader) : Good (readQuotedString r) (fun x => x.2.rest.length < r.rest.length) := by
  unfold readQuotedString
  split
  · exact .error (by simp)
  · rename_i quote body h
    refine Good.bind .assert fun _ _ => Good.bind (findUnescaped_good _ _) fun o ho => ?_
    split
    · exact .ok (by rw [h]; simp)
    · rename_i p
      refine Good.bind (validLoop_good _ _ _ _ (by omega)) fun b _ => .ite (fun _ => .ok ?_) fun _ => .ok ?_
      · dsimp only; rw [h]; simp; omega
      · dsimp only; rw [h]; simp; omega

/-! ### Numbers -/

/-- The reader inside a number that began with `n` bytes left. -/
structure InNum (n : Nat) (r : Reader) : Prop where
  rest : r.rest.length ≤ n
  data : r.cur.data.length ≤ n
  last : r.last = .value

/-- What a part returns. -/
def StepOk (n : Nat) (G : Bool → Reader → Prop) : Step → Prop
  | .done ok r => r.rest.length ≤ n ∧ (ok = true → r.rest.length < n ∧ r.last = .value)
  | .go flag r => InNum n r ∧ G flag r

theorem numSign_good (f : Flags) (r : Reader) : Good (numSign f r) (StepOk r.rest.length (fun _ _ => True)) := by
  unfold numSign
  dsimp only
  refine Good.bind (peek_good _) fun c hc => ?_
  have fin : ∀ r' : Reader, InNum r.rest.length r' →
      Good (if r'.rest = [] then .ok (.done false (setError r' .unexpectedEof)) else .ok (.go true r') : C Step)
        (StepOk r.rest.length (fun _ _ => True)) := by
    intro r' h
    exact .ite (fun _ => .ok ⟨h.rest, by simp⟩) fun _ => .ok ⟨h, trivial⟩
  refine .ite (fun _ => Good.bind (advance_good _) fun r' ⟨h1, h2, h3⟩ => fin _ ?_) fun _ => .ite (fun _ => ?_) fun _ =>
    Good.bind (.ok (Q := InNum r.rest.length) ⟨Nat.le_refl _, Nat.le_refl _, rfl⟩) fin
  · exact ⟨Nat.le_of_lt h1, by rw [h2], h3⟩
  · exact Good.bind (advance_good _) fun r' ⟨h1, h2, h3⟩ =>
      Good.bind (.ok (Q := InNum r.rest.length) ⟨Nat.le_of_lt h1, Nat.le_of_lt h1, h3⟩) fin

theorem numInt_good (f : Flags) {n : Nat} {r : Reader} (h : InNum n r) :
    Good (numInt f r) (StepOk n (fun _ r' => r'.rest.length < n ∨ r'.rest.head? = some 0x2E)) := by
  unfold numInt
  refine Good.bind (peek_good _) fun c hc => .ite (fun _ => ?_) fun _ => .ite (fun hd => ?_) fun _ => .ite (fun _ => ?_) fun hp => ?_
  · refine Good.bind (advance_good _) fun r' ⟨h1, h2, h3⟩ => ?_
    have hlt : r'.rest.length < n := Nat.lt_of_lt_of_le h1 h.rest
    refine .ite (fun _ => .ok ⟨Nat.le_of_lt hlt, fun _ => ⟨hlt, h3.trans h.last⟩⟩) fun _ => ?_
    refine Good.bind (peek_good _) fun x _ => .ite (fun _ => ?_) fun _ => ?_
    · refine Good.bind (advance_good _) fun r2 ⟨g1, g2, g3⟩ => ?_
      have hlt2 : r2.rest.length < n := Nat.lt_trans g1 hlt
      refine .ite (fun _ => .ok ⟨Nat.le_of_lt hlt2, by simp⟩) fun _ => ?_
      refine Good.bind (peek_good _) fun d hd => .ite (fun _ => .ok ?_) fun _ => .ok ⟨Nat.le_of_lt hlt2, by simp⟩
      have := dropDigits_le isXDigit r2.rest
      exact ⟨by simp only [setSize, moveTo]; omega, fun _ => ⟨by simp only [setSize, moveTo]; omega,
        by simp only [setSize, moveTo]; exact (g3.trans h3).trans h.last⟩⟩
    · exact .ok ⟨⟨Nat.le_of_lt hlt, by rw [h2]; exact h.data, h3.trans h.last⟩, Or.inl hlt⟩
  · dsimp only
    have := dropDigits_lt hc hd
    have hr := h.rest
    refine .ite (fun _ => .ok ⟨by simp only [moveTo]; omega, fun _ => ⟨by simp only [moveTo]; omega, h.last⟩⟩) fun _ =>
      .ok ⟨⟨by simp only [moveTo]; omega, h.data, h.last⟩, Or.inl (by simp only [moveTo]; omega)⟩
  · exact .ok ⟨h.rest, by simp⟩
  · refine .ok ⟨h, Or.inr ?_⟩
    simp at hp
    rw [hc, hp.2]
    rfl

theorem numFrac_good (f : Flags) {n : Nat} {r : Reader} (h : InNum n r) (hr : r.rest.length < n ∨ r.rest.head? = some 0x2E) :
    Good (numFrac f r) (StepOk n (fun _ r' => r'.rest.length < n)) := by
  unfold numFrac
  split
  · refine Good.bind (advance_good _) fun r' ⟨h1, h2, h3⟩ => ?_
    have hlt : r'.rest.length < n := Nat.lt_of_lt_of_le h1 h.rest
    refine .ite (fun _ => .ite (fun _ => .ok ⟨Nat.le_of_lt hlt, fun _ => ⟨hlt, h3.trans h.last⟩⟩) fun _ => .ok ⟨Nat.le_of_lt hlt, by simp⟩)
      fun _ => ?_
    refine Good.bind (peek_good _) fun d _ => .ite (fun _ => .ok ?_) fun _ => .ite (fun _ => .ok ⟨Nat.le_of_lt hlt, by simp⟩) fun _ => .ok ?_
    · have := dropDigits_le isDigit r'.rest
      exact ⟨⟨by simp only [moveTo]; omega, by simp only [moveTo, h2]; exact h.data, h3.trans h.last⟩, by simp only [moveTo]; omega⟩
    · exact ⟨⟨Nat.le_of_lt hlt, by rw [h2]; exact h.data, h3.trans h.last⟩, hlt⟩
  · rename_i hno
    rcases hr with hr | hr
    · exact .ok ⟨h, hr⟩
    · exfalso
      cases hrest : r.rest with
      | nil => rw [hrest] at hr; cases hr
      | cons c t =>
        rw [hrest] at hr
        injection hr with hr
        exact hno t (by rw [hrest, hr]; rfl)

theorem numExp_good (p l t : Bool) {n : Nat} {r : Reader} (h : InNum n r) (hr : r.rest.length < n) :
    Good (numExp p l t r) (StepOk n (fun _ r' => r'.rest.length < n)) := by
  unfold numExp
  split
  · exact .ok ⟨h, hr⟩
  · refine .ite (fun _ => .ite (fun _ => .ok ⟨h.rest, by simp⟩) fun _ => ?_) fun _ => .ok ⟨h, hr⟩
    refine Good.bind (advance_good _) fun r1 ⟨h1, h2, h3⟩ => Good.bind (peek_good _) fun s _ => ?_
    have h1 : r1.rest.length < r.rest.length := h1
    have h2 : r1.cur = r.cur := h2
    have h3 : r1.last = r.last := h3
    have fin : ∀ r2 : Reader, r2.rest.length < r.rest.length ∧ r2.cur = r.cur ∧ r2.last = r.last →
        Good (do
          let d ← peek r2
          if isDigit d then .ok (.go true (moveTo r2 (dropDigits isDigit r2.rest))) else .ok (.done false (setError r2 .unexpectedToken)) : C Step)
          (StepOk n (fun _ r' => r'.rest.length < n)) := by
      intro r2 ⟨g1, g2, g3⟩
      refine Good.bind (peek_good _) fun d _ => .ite (fun _ => .ok ?_) fun _ => .ok ⟨by simp only [setError]; omega, by simp⟩
      have := dropDigits_le isDigit r2.rest
      exact ⟨⟨by simp only [moveTo]; omega, by simp only [moveTo, g2]; exact h.data, g3.trans h.last⟩, by simp only [moveTo]; omega⟩
    refine .ite (fun _ => Good.bind (advance_good _) fun r2 ⟨g1, g2, g3⟩ => fin r2 ⟨by omega, g2.trans h2, g3.trans h3⟩) fun _ =>
      Good.bind (.ok (Q := fun r2 : Reader => r2.rest.length < r.rest.length ∧ r2.cur = r.cur ∧ r2.last = r.last) ⟨h1, h2, h3⟩) fin

theorem numEnd_good (p l t : Bool) {n : Nat} {r : Reader} (h : InNum n r) (hr : r.rest.length < n) :
    Good (numEnd p l t r) (fun x => x.2.rest.length ≤ n ∧ (x.1 = true → x.2.rest.length < n ∧ x.2.last = .value)) := by
  unfold numEnd
  refine .ite (fun _ => ?_) fun _ => .ok ⟨h.rest, fun _ => ⟨hr, h.last⟩⟩
  dsimp only
  refine Good.bind .assert fun _ _ => .ok ⟨?_, by simp⟩
  simp only [setError, List.length_drop]
  have := h.data
  omega

theorem readNumber_good (f : Flags) (r : Reader) :
    Good (readNumber f r) (fun x => x.2.rest.length ≤ r.rest.length ∧ (x.1 = true → x.2.rest.length < r.rest.length ∧ x.2.last = .value)) := by
  unfold readNumber
  refine .ite (fun _ => .ok ⟨Nat.le_refl _, by simp⟩) fun _ => Good.bind (numSign_good f r) fun s hs => ?_
  cases s with
  | done ok r1 => exact .ok hs
  | go _ r1 =>
    refine Good.bind (numInt_good f hs.1) fun s hs => ?_
    cases s with
    | done ok r2 => exact .ok hs
    | go lead r2 =>
      unfold numTail
      dsimp only
      refine Good.bind (numFrac_good f hs.1 hs.2) fun s hs => ?_
      cases s with
      | done ok r3 => exact .ok hs
      | go trail r3 =>
        refine Good.bind (numExp_good _ _ _ hs.1 hs.2) fun s hs => ?_
        cases s with
        | done ok r4 => exact .ok hs
        | go trail r4 => exact numEnd_good _ _ _ hs.1 hs.2

/-! ### Tokens -/

/-- A token other than an error or the end takes at least one byte; the end is only reported outside of brackets. -/
def Takes (ctx : Ctx) (n : Nat) (x : Tok × Reader) : Prop :=
  x.2.rest.length ≤ n ∧ (x.1 = .error ∨ (x.1 = .eof ∧ ctx = .null) ∨ (x.2.rest.length < n ∧ x.1 ≠ .eof ∧ x.1 ≠ .error))

theorem Takes.err {ctx : Ctx} {n : Nat} {r : Reader} (h : r.rest.length ≤ n) : Takes ctx n (.error, r) := ⟨h, Or.inl rfl⟩

theorem Takes.tok {ctx : Ctx} {n : Nat} {r : Reader} {t : Tok} (h : r.rest.length < n) (h1 : t ≠ .eof) (h2 : t ≠ .error) :
    Takes ctx n (t, r) := ⟨Nat.le_of_lt h, Or.inr (Or.inr ⟨h, h1, h2⟩)⟩

theorem prefix_length {p s : List Byte} (h : p.isPrefixOf s = true) : p.length ≤ s.length := by
  obtain ⟨k, rfl⟩ := isPrefix_elim h
  simp

theorem readValue_good (f : Flags) (ctx : Ctx) (r : Reader) : Good (readValue f r) (Takes ctx r.rest.length) := by
  unfold readValue
  refine .ite (fun h => .ok ?_) fun _ => .ite (fun h => .ok ?_) fun _ => .ite (fun h => .ok ?_) fun _ => ?_
  · have := prefix_length h
    simp only [kwTrue, List.length_cons, List.length_nil] at this
    exact .tok (by simp only [List.length_drop]; omega) (by simp) (by simp)
  · have := prefix_length h
    simp only [kwFalse, List.length_cons, List.length_nil] at this
    exact .tok (by simp only [List.length_drop]; omega) (by simp) (by simp)
  · have := prefix_length h
    simp only [kwNull, List.length_cons, List.length_nil] at this
    exact .tok (by simp only [List.length_drop]; omega) (by simp) (by simp)
  · refine Good.bind (readNumber_good f r) fun x hx => .ite (fun h => .ok ?_) fun _ => .ok (.err hx.1)
    obtain ⟨h1, h2⟩ := hx.2 h
    exact .tok h1 (by rw [h2]; simp) (by rw [h2]; simp)

theorem readCommentLine_le (r : Reader) : (readCommentLine r).rest.length ≤ r.rest.length := by
  unfold readCommentLine
  split
  · simp
  · simp

theorem dispatch_good (f : Flags) (r : Reader) (ctx : Ctx) (c : Byte) : Good (dispatch f r ctx c) (Takes ctx r.rest.length) := by
  have hquoted : Good (parseQuotedString r ctx) (Takes ctx r.rest.length) := by
    unfold parseQuotedString
    refine Good.bind (readQuotedString_good r) fun x hx => ?_
    dsimp only
    refine .ite (fun _ => .ok (.err (Nat.le_of_lt hx))) fun _ => .ite (fun _ => .ok (.tok hx (by simp) (by simp))) fun _ =>
      .ite (fun _ => .ok (.tok hx (by simp) (by simp))) fun _ => .ite (fun _ => .ok (.err (Nat.le_of_lt hx))) fun _ =>
      .ok (.tok hx (by simp) (by simp))
  have hstart : ∀ isObj, Good (parseStart r ctx isObj) (Takes ctx r.rest.length) := by
    intro isObj
    unfold parseStart
    refine .ite (fun _ => .ok (.err (Nat.le_refl _))) fun _ => .ite (fun _ => .ok (.err (Nat.le_refl _))) fun _ => ?_
    refine Good.bind (advance_good _) fun r' hr => .ok (.tok ?_ ?_ ?_)
    · have := hr.1
      refine Nat.lt_of_lt_of_le this ?_
      split <;> exact Nat.le_refl _
    · cases isObj <;> simp
    · cases isObj <;> simp
  have hend : ∀ isObj, Good (parseEnd f r ctx isObj) (Takes ctx r.rest.length) := by
    intro isObj
    unfold parseEnd
    refine .ite (fun _ => .ok (.err (Nat.le_refl _))) fun _ => ?_
    refine Good.bind (advance_good _) fun r' hr => .ok (.tok hr.1 ?_ ?_)
    · cases isObj <;> simp
    · cases isObj <;> simp
  unfold dispatch
  refine .ite (fun _ => ?_) fun _ => .ite (fun _ => .ite (fun _ => hquoted) fun _ => .ok (.err (Nat.le_refl _))) fun _ =>
    .ite (fun _ => hquoted) fun _ => .ite (fun _ => hstart _) fun _ => .ite (fun _ => hstart _) fun _ => .ite (fun _ => hend _) fun _ =>
    .ite (fun _ => hend _) fun _ => .ite (fun _ => .ok (.err (Nat.le_refl _))) fun _ => readValue_good f ctx _
  unfold parseComment
  refine .ite (fun _ => Good.bind (advance_good _) fun r1 h1 => ?_) fun _ => .ok (.err (Nat.le_refl _))
  split
  · exact .ok (.err (Nat.le_of_lt h1.1))
  · refine .ite (fun _ => Good.bind (advance_good _) fun r2 h2 => .ok (.tok ?_ (by simp) (by simp))) fun _ => .ok (.err (Nat.le_of_lt h1.1))
    have := readCommentLine_le r2
    have := h1.1
    have := h2.1
    omega

theorem nextLoop_good (f : Flags) (ctx : Ctx) : ∀ (fuel : Nat) (r : Reader), r.rest.length < fuel →
    Good (nextLoop f ctx fuel r) (Takes ctx r.rest.length) := by
  intro fuel
  induction fuel with
  | zero => intro _ h; omega
  | succ fuel ih =>
    intro r hf
    have hle := skipWhitespace_le r
    have lift : ∀ {x : Tok × Reader} {n : Nat}, n ≤ r.rest.length → Takes ctx n x → Takes ctx r.rest.length x := by
      intro x n hn h
      refine ⟨Nat.le_trans h.1 hn, ?_⟩
      rcases h.2 with h | h | h
      · exact Or.inl h
      · exact Or.inr (Or.inl h)
      · exact Or.inr (Or.inr ⟨by omega, h.2⟩)
    rw [nextLoop]
    split
    · rename_i h0
      exact .ite (fun _ => .ok (.err hle)) fun h => .ok ⟨hle, Or.inr (Or.inl ⟨rfl, by simpa using h⟩)⟩
    · rename_i c t h0
      rw [h0, List.length_cons] at hle
      have hstep : ∀ r' : Reader, r'.rest = t → Good (nextLoop f ctx fuel r') (Takes ctx r.rest.length) := by
        intro r' hr'
        exact (ih r' (by rw [hr']; omega)).mono fun x => lift (by rw [hr']; omega)
      refine .ite (fun _ => .ite (fun _ => .ok (.err ?_)) fun _ => hstep _ rfl) fun _ => .ite (fun _ => .ite (fun _ => .ok (.err ?_)) fun _ =>
        hstep _ rfl) fun _ => (dispatch_good f _ ctx c).mono fun x => lift (skipWhitespace_le r)
      · exact skipWhitespace_le r
      · exact skipWhitespace_le r

theorem nextToken_good (f : Flags) (ctx : Ctx) (r : Reader) : Good (nextToken f ctx r) (Takes ctx r.rest.length) :=
  nextLoop_good f ctx _ r (Nat.lt_succ_self _)

/-! ### Skipping, counting and reading -/

theorem eofLoop_good (f : Flags) : ∀ (fuel : Nat) (r : Reader), r.rest.length < fuel → Good (eofLoop f fuel r) (fun _ => True) := by
  intro fuel
  induction fuel with
  | zero => intro _ h; omega
  | succ fuel ih =>
    intro r hf
    rw [eofLoop]
    refine Good.bind (nextToken_good f .null r) fun x hx => ?_
    split
    · rename_i h
      rcases hx.2 with h' | ⟨h', _⟩ | h'
      · rw [h] at h'; cases h'
      · rw [h] at h'; cases h'
      · exact ih _ (by omega)
    · exact .ok trivial
    · exact .ite (fun _ => .ok trivial) fun _ => .ok trivial

theorem rootLoop_good (f : Flags) : ∀ (fuel : Nat) (r : Reader), r.rest.length < fuel → Good (rootLoop f fuel r) (fun _ => True) := by
  intro fuel
  induction fuel with
  | zero => intro _ h; omega
  | succ fuel ih =>
    intro r hf
    rw [rootLoop]
    refine Good.bind (nextToken_good f .null r) fun x hx => ?_
    split
    · exact .ok trivial
    · exact .ok trivial
    · exact .ok trivial
    · rename_i h
      rcases hx.2 with h' | ⟨h', _⟩ | h'
      · rw [h] at h'; cases h'
      · rw [h] at h'; cases h'
      · exact ih _ (by omega)
    · exact .ok trivial

theorem bracketLoop_good (ctx : Ctx) (isObj : Bool) : ∀ (fuel d : Nat) (r : Reader), r.rest.length < fuel →
    Good (bracketLoop ctx isObj fuel d r) (fun x => x.2.rest.length ≤ r.rest.length) := by
  intro fuel
  induction fuel with
  | zero => intro _ _ h; omega
  | succ fuel ih =>
    intro d r hf
    rw [bracketLoop]
    refine .ite (fun _ => .ok (Nat.le_refl _)) fun _ => ?_
    dsimp only
    have hle := skipWhitespace_le r
    split
    · rename_i h0
      exact .ite (fun _ => .ok hle) fun _ => .ok hle
    · rename_i c t h0
      rw [h0, List.length_cons] at hle
      have hstep : ∀ (d : Nat) (r' : Reader), r'.rest.length ≤ t.length → Good (bracketLoop ctx isObj fuel d r') (fun x => x.2.rest.length ≤ r.rest.length) := by
        intro d r' hr'
        exact (ih d r' (by omega)).mono fun x hx => by omega
      refine .ite (fun _ => hstep _ _ (Nat.le_refl _)) fun _ => .ite (fun _ => .ite (fun _ => .ok ?_) fun _ => hstep _ _ (Nat.le_refl _)) fun _ =>
        .ite (fun _ => Good.bind (readQuotedString_good _) fun x hx => ?_) fun _ => hstep _ _ (Nat.le_refl _)
      · show t.length ≤ _
        omega
      · dsimp only at hx
        rw [h0, List.length_cons] at hx
        exact .ite (fun _ => hstep _ _ (by omega)) fun _ => .ok (by dsimp only; omega)

theorem contentLoop_good (f : Flags) (ctx : Ctx) : ∀ (fuel : Nat) (r : Reader), r.rest.length < fuel →
    Good (contentLoop f ctx fuel r) (fun x => x.2.2.rest.length ≤ r.rest.length) := by
  intro fuel
  induction fuel with
  | zero => intro _ h; omega
  | succ fuel ih =>
    intro r hf
    rw [contentLoop]
    refine Good.bind (nextToken_good f ctx r) fun x hx => ?_
    split
    · exact .ok hx.1
    · exact .ok hx.1
    · exact .ok hx.1
    · rename_i h
      rcases hx.2 with h' | ⟨h', _⟩ | h'
      · rw [h] at h'; cases h'
      · rw [h] at h'; cases h'
      · exact (ih _ (by omega)).mono fun y hy => Nat.le_trans hy hx.1
    · exact .ite (fun _ => .ok hx.1) fun _ => .error (by simp)

theorem skipCurrent_good (f : Flags) (ctx : Ctx) (r : Reader) : Good (skipCurrent f ctx r) (fun x => x.2.rest.length ≤ r.rest.length) := by
  unfold skipCurrent
  refine .ite (fun _ => .ok (Nat.le_refl _)) fun _ => .ite (fun _ => ?_) fun _ => bracketLoop_good _ _ _ _ _ (Nat.lt_succ_self _)
  refine Good.bind (contentLoop_good f ctx _ r (Nat.lt_succ_self _)) fun x hx => ?_
  split
  · exact .ok hx
  · exact .ite (fun _ => .ok hx) fun _ => (bracketLoop_good _ _ _ _ _ (Nat.lt_succ_self _)).mono fun y hy => Nat.le_trans hy hx

theorem countLoop_good (f : Flags) (isObj : Bool) : ∀ (fuel n : Nat) (r : Reader), r.rest.length < fuel →
    Good (countLoop f isObj fuel n r) (fun x => x.2.2.rest.length ≤ r.rest.length) := by
  intro fuel
  induction fuel with
  | zero => intro _ _ h; omega
  | succ fuel ih =>
    intro n r hf
    rw [countLoop]
    dsimp only
    refine Good.bind (nextToken_good f _ r) fun x hx => ?_
    have htok : x.1 ≠ .error → x.1 ≠ .eof → x.2.rest.length < r.rest.length := by
      intro h1 h2
      rcases hx.2 with h | ⟨h, _⟩ | h
      · exact absurd h h1
      · exact absurd h h2
      · exact h.1
    have hstep : ∀ (m : Nat) (r' : Reader), r'.rest.length < r.rest.length →
        Good (countLoop f isObj fuel m r') (fun x => x.2.2.rest.length ≤ r.rest.length) := by
      intro m r' hr'
      exact (ih m r' (by omega)).mono fun y hy => by omega
    refine .ite (fun h => ?_) fun _ => .ite (fun h => ?_) fun _ => .ite (fun _ => .ok hx.1) fun _ => .ite (fun h => ?_) fun _ =>
      .ite (fun _ => .ok hx.1) fun _ => .error (by simp)
    · have hlt := htok (by intro e; rw [e] at h; simp at h) (by intro e; rw [e] at h; simp at h)
      exact Good.bind (skipCurrent_good f _ _) fun y hy => hstep _ _ (by omega)
    · exact hstep _ _ (htok (by intro e; rw [e] at h; simp at h) (by intro e; rw [e] at h; simp at h))
    · exact hstep _ _ (htok (by intro e; rw [e] at h; cases h) (by intro e; rw [e] at h; cases h))

theorem valueToken_good (f : Flags) : ∀ (fuel : Nat) (r : Reader), r.rest.length < fuel →
    Good (valueToken f fuel r) (fun x => x.2.rest.length ≤ r.rest.length) := by
  intro fuel
  induction fuel with
  | zero => intro _ h; omega
  | succ fuel ih =>
    intro r hf
    rw [valueToken]
    refine Good.bind (nextToken_good f .object r) fun x hx => .ite (fun h => ?_) fun _ => .ok hx.1
    rcases hx.2 with h' | ⟨h', _⟩ | h'
    · rw [h] at h'; cases h'
    · rw [h] at h'; cases h'
    · exact (ih _ (by omega)).mono fun y hy => Nat.le_trans hy hx.1

theorem put_good (cap : Nat) (out bs : List Byte) : Good (put cap out bs) (fun _ => True) := by
  unfold put
  exact .ite (fun _ => .ok trivial) fun _ => .error (by simp)

theorem copyRest_good (cap : Nat) (first out : List Byte) (rem : Nat) : Good (copyRest cap first out rem) (fun _ => True) := by
  unfold copyRest
  exact .ite (fun _ => put_good _ _ _) fun _ => .ok trivial

theorem copyLoop_good (cap : Nat) : ∀ (fuel : Nat) (first out : List Byte) (rem : Nat), first.length < fuel →
    Good (copyLoop cap fuel first out rem) (fun _ => True) := by
  intro fuel
  induction fuel with
  | zero => intro _ _ _ h; omega
  | succ fuel ih =>
    intro first out rem hf
    rw [copyLoop]
    split
    · exact copyRest_good _ _ _ _
    · rename_i i hi
      refine .ite (fun _ => copyRest_good _ _ _ _) fun _ => ?_
      dsimp only
      refine Good.bind (put_good _ _ _) fun out' _ => ?_
      split
      · exact copyRest_good _ _ _ _
      · exact copyRest_good _ _ _ _
      · rename_i e t _ hdrop
        have hlen : t.length + 1 ≤ first.length := by
          have := congrArg List.length hdrop
          simp only [List.length_drop, List.length_cons] at this
          omega
        refine .ite (fun _ => ih _ _ _ (by omega)) fun _ => .ite (fun _ => ?_) fun _ =>
          Good.bind (put_good _ _ _) fun out2 _ => ih _ _ _ (by omega)
        split
        · exact .ok trivial
        · exact .ite (fun _ => .ok trivial) fun _ => Good.bind (put_good _ _ _) fun out2 _ =>
            ih _ _ _ (by rw [List.length_drop]; omega)

theorem readScalar_good (a : Alloc) (r : Reader) : Good (readScalar a r) (fun _ => True) := by
  unfold readScalar
  refine .ite (fun _ => Good.bind (Q := fun _ => True) ?_ fun x _ => .ok trivial) fun _ => .ok trivial
  unfold allocateString
  refine Good.bind (Q := fun _ => True) ?_ fun str _ => ?_
  · unfold View.text
    exact .ite (fun _ => .ok trivial) fun _ => .error (by simp)
  · split
    · exact .ok trivial
    · refine Good.bind (Q := fun _ => True) ?_ fun out _ => .ok trivial
      unfold copyUnescaped
      exact .ite (fun _ => .ok trivial) fun _ => copyLoop_good _ _ _ _ _ (Nat.lt_succ_self _)

theorem readLoop_good (f : Flags) : ∀ (fuel : Nat) (isObj : Bool) (count : Nat) (acc : List (View × JVal)) (a : Alloc) (r : Reader),
    r.rest.length < fuel → Good (readLoop f fuel isObj count acc a r) (fun z => z.reader.rest.length ≤ r.rest.length) := by
  intro fuel
  induction fuel with
  | zero => intro _ _ _ _ _ h; omega
  | succ fuel ih =>
    intro isObj count acc a r hf
    have hitem : ∀ (a : Alloc) (y : Tok × Reader), y.2.rest.length < fuel →
        Good (item f fuel a y) (fun z => z.reader.rest.length ≤ y.2.rest.length) := by
      intro a y hy
      unfold item
      refine .ite (fun _ => ?_) fun _ => .ite (fun _ => Good.bind (readScalar_good a y.2) fun v _ => .ok (Nat.le_refl _)) fun _ =>
        .ite (fun _ => .ok (Nat.le_refl _)) fun _ => .error (by simp)
      refine Good.bind (countLoop_good f _ _ _ _ (Nat.lt_succ_self _)) fun c hc => .ite (fun _ => .ok hc) fun _ => ?_
      split
      · exact .ok (Nat.le_refl _)
      · exact Good.bind (ih _ _ _ _ _ hy) fun z hz => .ok hz
    rw [readLoop_eq]
    refine Good.bind (nextToken_good f _ r) fun x hx => ?_
    have htok : x.1 ≠ .error → x.1 ≠ .eof → x.2.rest.length < r.rest.length := by
      intro h1 h2
      rcases hx.2 with h | ⟨h, _⟩ | h
      · exact absurd h h1
      · exact absurd h h2
      · exact h.1
    refine .ite (fun _ => .ok hx.1) fun _ => .ite (fun h => ?_) fun _ => .ite (fun h => .ite (fun _ => ?_) fun _ => .error (by simp)) fun _ =>
      .ite (fun _ => .ok hx.1) fun _ => .error (by simp)
    · have := htok (by rw [h]; simp) (by rw [h]; simp)
      exact (ih _ _ _ _ _ (by omega)).mono fun z hz => by omega
    · have hlt := htok (by intro e; rw [e] at h; simp at h) (by intro e; rw [e] at h; simp at h)
      refine Good.bind (Q := fun y => y.2.rest.length ≤ x.2.rest.length) ?_ fun y hy => ?_
      · exact .ite (fun _ => valueToken_good f _ _ (Nat.lt_succ_self _)) fun _ => .ok (Nat.le_refl _)
      · refine Good.bind (hitem a y (by omega)) fun z hz => .ite (fun _ => .ok (by dsimp only; omega)) fun _ => ?_
        exact (ih _ _ _ _ _ (by omega)).mono fun z' hz' => by omega

theorem readContainer_good (f : Flags) (isObj : Bool) (a : Alloc) (r : Reader) : Good (readContainer f isObj a r) (fun _ => True) := by
  unfold readContainer
  refine Good.bind (countLoop_good f _ _ _ _ (Nat.lt_succ_self _)) fun c hc => .ite (fun _ => .ok trivial) fun _ => ?_
  split
  · exact .ok trivial
  · exact Good.bind (readLoop_good f _ _ _ _ _ _ (Nat.lt_succ_self _)) fun z hz => .ok trivial

theorem makeDocument_good (f : Flags) (a : Alloc) (s : List Byte) : Good (makeDocument f a s) (fun _ => True) := by
  unfold makeDocument readRootType
  refine Good.bind (rootLoop_good f _ _ (Nat.lt_succ_self _)) fun x _ => ?_
  refine Good.bind (Q := fun _ => True) ?_ fun z _ => ?_
  · split
    · exact readContainer_good _ _ _ _
    · exact readContainer_good _ _ _ _
    · exact Good.bind (readScalar_good _ _) fun v _ => .ok trivial
    · exact .ok trivial
  · refine Good.bind (Q := fun _ => True) ?_ fun r _ => Good.bind .assert fun _ _ => .ite (fun _ => .ok trivial) fun _ => .ok trivial
    refine .ite (fun _ => ?_) fun _ => .ok trivial
    unfold validUntilEof
    exact .ite (fun _ => .ok trivial) fun _ => eofLoop_good f _ _ (Nat.lt_succ_self _)

end Tm.Json
