import Verif.Json.ExProps

/-! # Every loop of the extended tokenizer ends -/

namespace Tm.Json

open Tm Tm.Json.Spec

theorem parsePythonRaw_good (f : FlagsEx) (ctx : Ctx) (r : Reader) :
    Good (parsePythonRaw f ctx r) (fun x => x.2.rest.length ≤ r.rest.length ∧ (x.1 = true → x.2.last = .value ∧ x.2.rest.length < r.rest.length)) := by
  unfold parsePythonRaw
  refine .ite (fun _ => ?_) fun _ => .ok ⟨Nat.le_refl _, by simp⟩
  refine Good.bind (peek_good r) fun c _ => .ite (fun _ => ?_) fun _ => .ok ⟨Nat.le_refl _, by simp⟩
  refine Good.bind (advance_good r) fun r1 h1 => ?_
  split
  · exact .ok ⟨Nat.le_of_lt h1.1, by simp⟩
  · refine .ite (fun _ => ?_) fun _ => .ok ⟨Nat.le_of_lt h1.1, by simp⟩
    refine Good.bind (readQuotedString_good r1) fun x hx => .ite (fun _ => .ok ⟨?_, fun _ => ⟨rfl, ?_⟩⟩) fun _ => .ok ⟨?_, by simp⟩
    · show x.2.rest.length ≤ _; omega
    · show x.2.rest.length < _; omega
    · show x.2.rest.length ≤ _; omega

theorem delimLoop_good : ∀ (n : Nat) (r : Reader) (d : List Byte), Good (delimLoop n r d) (fun x => x.1.rest.length ≤ r.rest.length)
  | 0, r, d => .ok (Nat.le_refl _)
  | n + 1, r, d => by
    rw [delimLoop]
    split
    · exact .ok (Nat.le_refl _)
    · refine .ite (fun _ => ?_) fun _ => .ok (Nat.le_refl _)
      exact Good.bind (advance_good r) fun r1 h1 => Good.bind (peek_good r1) fun e _ => (delimLoop_good n r1 _).mono fun x hx => Nat.le_trans hx (Nat.le_of_lt h1.1)

theorem rawLoop_good (d : List Byte) : ∀ (n : Nat) (r : Reader), r.rest.length < n → Good (rawLoop d n r) (fun x => x.2.rest.length ≤ r.rest.length)
  | 0, r, h => by omega
  | n + 1, r, h => by
    rw [rawLoop]
    split
    · exact .ok (Nat.le_refl _)
    · rename_i i hi
      have := memchr_lt hi
      dsimp only
      refine .ite (fun _ => .ok ?_) fun _ => .ite (fun _ => .ok ?_) fun _ => ?_
      · simp [setError]
      · simp
      · exact (rawLoop_good d n { r with rest := r.rest.drop (i + 1) } (by simp; omega)).mono fun x hx => by simp at hx; omega

theorem parseCppRaw_good (f : FlagsEx) (ctx : Ctx) (r : Reader) :
    Good (parseCppRaw f ctx r) (fun x => x.2.rest.length ≤ r.rest.length ∧ (x.1 = true → x.2.last = .value ∧ x.2.rest.length < r.rest.length)) := by
  have hg : Good (.ok (false, r) : C (Bool × Reader)) (fun x => x.2.rest.length ≤ r.rest.length ∧ (x.1 = true → x.2.last = .value ∧ x.2.rest.length < r.rest.length)) :=
    .ok ⟨Nat.le_refl _, by simp⟩
  unfold parseCppRaw
  refine .ite (fun _ => ?_) fun _ => hg
  refine Good.bind (peek_good r) fun c _ => .ite (fun _ => ?_) fun _ => hg
  refine Good.bind (advance_good r) fun r1 h1 => ?_
  split
  · exact .ok ⟨Nat.le_of_lt h1.1, by simp⟩
  · refine .ite (fun _ => ?_) fun _ => hg
    refine Good.bind (advance_good r1) fun r2 h2 => .ite (fun _ => .ok ⟨?_, by simp⟩) fun _ => ?_
    · show r2.rest.length ≤ _; omega
    · refine Good.bind (delimLoop_good 16 r2 []) fun x hx => ?_
      split
      · exact hg
      · refine .ite (fun _ => ?_) fun _ => hg
        refine Good.bind (advance_good x.1) fun r3 h3 => .ite (fun _ => .ok ⟨?_, by simp⟩) fun _ => ?_
        · show r3.rest.length ≤ _; omega
        · refine Good.bind (rawLoop_good _ _ _ (by dsimp only; omega)) fun y hy => .ite (fun _ => .ok ⟨?_, fun _ => ⟨rfl, ?_⟩⟩) fun h => .ok ⟨?_, fun h' => absurd h' h⟩
          · show y.2.rest.length ≤ _; dsimp only at hy; omega
          · show y.2.rest.length < _; dsimp only at hy; omega
          · dsimp only at hy; omega

theorem blockLoop_good : ∀ (n : Nat) (r : Reader), r.rest.length < n → Good (blockLoop n r) (fun x => x.2.rest.length ≤ r.rest.length)
  | 0, r, h => by omega
  | n + 1, r, h => by
    rw [blockLoop]
    split
    · exact .ok (Nat.le_refl _)
    · rename_i i hi
      have := memchr_lt hi
      dsimp only
      split
      · exact .ok (by simp [setError])
      · rename_i c t ht
        have hl := congrArg List.length ht
        simp at hl
        refine .ite (fun _ => .ok ?_) fun _ => ?_
        · dsimp only; omega
        · exact (blockLoop_good n _ (by dsimp only; rw [ht]; simp; omega)).mono fun x hx => by dsimp only at hx; rw [ht] at hx; simp at hx; omega

theorem concatLoop_good (q : Byte) : ∀ (n : Nat) (r : Reader) (v : View), r.rest.length < n → Good (concatLoop q n r v) (fun x => x.1.rest.length ≤ r.rest.length)
  | 0, r, v, h => by omega
  | n + 1, r, v, h => by
    have hle := skipWhitespace_le r
    rw [concatLoop]
    dsimp only
    split
    · exact .ok hle
    · refine .ite (fun _ => ?_) fun _ => .ok hle
      refine Good.bind (readQuotedString_good _) fun x hx => .ite (fun _ => ?_) fun _ => .ok hle
      refine Good.bind (peek_good _) fun d _ => .ite (fun _ => ?_) fun _ => .ok ?_
      · exact (concatLoop_good q n _ _ (by dsimp only; omega)).mono fun y hy => by dsimp only at hy; omega
      · dsimp only; omega

theorem parseQuotedString_takes (r : Reader) (ctx : Ctx) : Good (parseQuotedString r ctx) (Takes ctx r.rest.length) := by
  have := dispatch_good strict r ctx 0x22
  rwa [show dispatch strict r ctx 0x22 = parseQuotedString r ctx by simp [dispatch]] at this

theorem parseQuotedStringEx_good (f : FlagsEx) (ctx : Ctx) (r : Reader) : Good (parseQuotedStringEx f ctx r) (Takes ctx r.rest.length) := by
  unfold parseQuotedStringEx
  refine Good.bind (peek_good r) fun q _ => Good.bind (parseQuotedString_takes r ctx) fun x hx => .ite (fun h => ?_) fun _ => .ok hx
  have hv : x.1 = .value := by simp at h; exact h.1
  have hlt : x.2.rest.length < r.rest.length := by
    rcases hx.2 with h | h | h
    · rw [hv] at h; cases h
    · rw [hv] at h; cases h.1
    · exact h.1
  refine Good.bind (concatLoop_good q _ _ _ (by omega)) fun y hy => .ite (fun _ => .ok (.tok ?_ ?_ ?_)) fun _ => .ok (.tok ?_ ?_ ?_)
  · dsimp only; omega
  · rw [hv]; simp
  · rw [hv]; simp
  · dsimp only; omega
  · rw [hv]; simp
  · rw [hv]; simp

theorem startsWith_length {i : Bool} {s kw : List Byte} (h : startsWith i s kw = true) : kw.length ≤ s.length := by
  unfold startsWith at h
  split at h
  · simpa using prefix_length h
  · exact prefix_length h

theorem kwInfinity_length (i : Bool) : (kwInfinity i).length = 8 := by cases i <;> rfl

theorem kwNan_length (i : Bool) : (kwNan i).length = 3 := by cases i <;> rfl

theorem readNumberEx_good (f : FlagsEx) (r : Reader) :
    Good (readNumberEx f r) (fun x => x.2.rest.length ≤ r.rest.length ∧ (x.1 = true → x.2.rest.length < r.rest.length ∧ x.2.last = .value)) := by
  unfold readNumberEx
  refine .ite (fun _ => ?_) fun _ => readNumber_good f.toFlags r
  refine .ite (fun h => .ok ?_) fun _ => .ite (fun h => .ok ?_) fun _ => readNumber_good f.toFlags r
  · have := startsWith_length h
    rw [kwInfinity_length, List.length_drop] at this
    refine ⟨?_, fun _ => ⟨?_, rfl⟩⟩ <;> simp only [advanceValue, List.length_drop] <;> omega
  · have := startsWith_length h
    rw [kwNan_length, List.length_drop] at this
    refine ⟨?_, fun _ => ⟨?_, rfl⟩⟩ <;> simp only [advanceValue, List.length_drop] <;> omega

theorem readValueEx_good (f : FlagsEx) (ctx : Ctx) (r : Reader) : Good (readValueEx f r) (Takes ctx r.rest.length) := by
  unfold readValueEx
  refine .ite (fun h => .ok ?_) fun _ => .ite (fun h => .ok ?_) fun _ => .ite (fun h => .ok ?_) fun _ => ?_
  · have := startsWith_length h
    simp only [kwTrue, List.length_cons, List.length_nil] at this
    exact .tok (by simp only [List.length_drop]; omega) (by simp) (by simp)
  · have := startsWith_length h
    simp only [kwFalse, List.length_cons, List.length_nil] at this
    exact .tok (by simp only [List.length_drop]; omega) (by simp) (by simp)
  · have := startsWith_length h
    simp only [kwNull, List.length_cons, List.length_nil] at this
    exact .tok (by simp only [List.length_drop]; omega) (by simp) (by simp)
  · refine Good.bind (readNumberEx_good f r) fun x hx => .ite (fun h => .ok ?_) fun _ => .ok (.err hx.1)
    obtain ⟨h1, h2⟩ := hx.2 h
    exact .tok h1 (by rw [h2]; simp) (by rw [h2]; simp)

theorem plainValue_good (f : FlagsEx) (ctx : Ctx) (r : Reader) : Good (plainValue f ctx r) (Takes ctx r.rest.length) := by
  unfold plainValue
  exact .ite (fun _ => .ok (.err (Nat.le_refl _))) fun _ => .ite (fun _ => .ok (.err (Nat.le_refl _))) fun _ => readValueEx_good f ctx { r with root := true }

theorem parseUnquoted_good (f : FlagsEx) (ctx : Ctx) (r : Reader) :
    Good (parseUnquoted f ctx r) (fun x => x.2.rest.length ≤ r.rest.length ∧ (x.1 = true → x.2.rest.length < r.rest.length)) := by
  unfold parseUnquoted
  refine .ite (fun _ => .ite (fun _ => ?_) fun _ => .ok ⟨Nat.le_refl _, by simp⟩) fun _ => .ok ⟨Nat.le_refl _, by simp⟩
  dsimp only
  refine Good.bind (peek_good _) fun c _ => .ite (fun _ => .ok ⟨Nat.le_refl _, by simp⟩) fun _ => ?_
  refine Good.bind (advance_good _) fun r1 h1 => .ok ?_
  have := dropDigits_le isIdent r1.rest
  have := h1.1
  dsimp only at this
  refine ⟨?_, fun _ => ?_⟩ <;> simp only [setSize, moveTo] <;> omega

theorem takes_lift {ctx : Ctx} {x : Tok × Reader} {n m : Nat} (hn : n ≤ m) (h : Takes ctx n x) : Takes ctx m x := by
  refine ⟨Nat.le_trans h.1 hn, ?_⟩
  rcases h.2 with h | h | h
  · exact Or.inl h
  · exact Or.inr (Or.inl h)
  · exact Or.inr (Or.inr ⟨by omega, h.2⟩)

theorem defaultEx_good (f : FlagsEx) (ctx : Ctx) (c : Byte) (r : Reader) : Good (defaultEx f ctx c r) (Takes ctx r.rest.length) := by
  unfold defaultEx
  refine Good.bind (parseUnquoted_good f ctx r) fun x hx => .ite (fun h => .ok (.tok (hx.2 h) (by simp) (by simp))) fun _ => ?_
  refine .ite (fun _ => ?_) fun _ => (plainValue_good f ctx x.2).mono fun y hy => takes_lift hx.1 hy
  refine Good.bind (parseCppRaw_good f ctx x.2) fun y hy => .ite (fun h => .ok ?_) fun _ => .ite (fun _ => .ok (.err (by have := hx.1; omega))) fun _ => ?_
  · obtain ⟨h1, h2⟩ := hy.2 h
    exact .tok (by have := hx.1; omega) (by rw [h1]; simp) (by rw [h1]; simp)
  · refine Good.bind (parsePythonRaw_good f ctx y.2) fun z hz => .ite (fun h => .ok ?_) fun _ => (plainValue_good f ctx z.2).mono fun w hw => takes_lift (by have := hx.1; have := hy.1; have := hz.1; omega) hw
    obtain ⟨h1, h2⟩ := hz.2 h
    exact .tok (by have := hx.1; have := hy.1; omega) (by rw [h1]; simp) (by rw [h1]; simp)

theorem dispatchEx_good (f : FlagsEx) (ctx : Ctx) (c : Byte) (r : Reader) : Good (dispatchEx f r ctx c) (Takes ctx r.rest.length) := by
  have hq := parseQuotedStringEx_good f ctx r
  have h1 : Good (parseStart r ctx true) (Takes ctx r.rest.length) := by
    have := dispatch_good strict r ctx 0x7B
    rwa [show dispatch strict r ctx 0x7B = parseStart r ctx true by simp [dispatch]] at this
  have h2 : Good (parseStart r ctx false) (Takes ctx r.rest.length) := by
    have := dispatch_good strict r ctx 0x5B
    rwa [show dispatch strict r ctx 0x5B = parseStart r ctx false by simp [dispatch]] at this
  have h3 : Good (parseEnd f.toFlags r ctx true) (Takes ctx r.rest.length) := by
    have := dispatch_good f.toFlags r ctx 0x7D
    rwa [show dispatch f.toFlags r ctx 0x7D = parseEnd f.toFlags r ctx true by simp [dispatch]] at this
  have h4 : Good (parseEnd f.toFlags r ctx false) (Takes ctx r.rest.length) := by
    have := dispatch_good f.toFlags r ctx 0x5D
    rwa [show dispatch f.toFlags r ctx 0x5D = parseEnd f.toFlags r ctx false by simp [dispatch]] at this
  have h5 : Good (parseComment f.toFlags r) (Takes ctx r.rest.length) := by
    have := dispatch_good f.toFlags r ctx 0x2F
    rwa [show dispatch f.toFlags r ctx 0x2F = parseComment f.toFlags r by simp [dispatch]] at this
  have he : ∀ e, Good (.ok (.error, setError r e) : C (Tok × Reader)) (Takes ctx r.rest.length) := fun e => .ok (.err (Nat.le_refl _))
  unfold dispatchEx
  refine .ite (fun _ => ?_) fun _ => .ite (fun _ => ?_) fun _ => .ite (fun _ => .ite (fun _ => hq) fun _ => he _) fun _ => .ite (fun _ => hq) fun _ => .ite (fun _ => h1) fun _ =>
    .ite (fun _ => h2) fun _ => .ite (fun _ => h3) fun _ => .ite (fun _ => h4) fun _ => defaultEx_good f ctx c r
  · unfold parseCommentEx
    refine .ite (fun _ => ?_) fun _ => he _
    split
    · refine .ite (fun _ => h5) fun _ => .ite (fun _ => ?_) fun _ => he _
      unfold parseBlockComment
      refine .ite (fun _ => Good.bind (advance_good r) fun r1 g1 => ?_) fun _ => he _
      split
      · exact .ok (.err (Nat.le_of_lt g1.1))
      · refine .ite (fun _ => Good.bind (advance_good r1) fun r2 g2 => .ite (fun _ => .ok (.err ?_)) fun _ => ?_) fun _ => .ok (.err (Nat.le_of_lt g1.1))
        · show r2.rest.length ≤ _; omega
        · refine Good.bind (blockLoop_good _ _ (by dsimp only; omega)) fun x hx => .ite (fun _ => .ok (.tok ?_ (by simp) (by simp))) fun _ => .ok (.err ?_)
          · have : (countNewlines x.2).rest = x.2.rest := by unfold countNewlines; dsimp only; split <;> rfl
            dsimp only at hx ⊢
            rw [this]; omega
          · dsimp only at hx; omega
    · exact he _
  · unfold parsePythonComment
    refine .ite (fun _ => Good.bind (peek_good r) fun d _ => .ite (fun _ => ?_) fun _ => he _) fun _ => he _
    refine Good.bind (advance_good r) fun r1 g1 => .ok (.tok ?_ (by simp) (by simp))
    have := readCommentLine_le r1
    omega

theorem nextLoopEx_good (f : FlagsEx) (ctx : Ctx) : ∀ (fuel : Nat) (r : Reader), r.rest.length < fuel →
    Good (nextLoopEx f ctx fuel r) (Takes ctx r.rest.length)
  | 0, r, h => by omega
  | fuel + 1, r, hf => by
    have hle := skipWhitespace_le r
    rw [nextLoopEx]
    split
    · rename_i h0
      exact .ite (fun _ => .ok (.err hle)) fun h => .ok ⟨hle, Or.inr (Or.inl ⟨rfl, by simpa using h⟩)⟩
    · rename_i c t h0
      rw [h0, List.length_cons] at hle
      have hstep : ∀ r' : Reader, r'.rest = t → Good (nextLoopEx f ctx fuel r') (Takes ctx r.rest.length) := by
        intro r' hr'
        exact (nextLoopEx_good f ctx fuel r' (by rw [hr']; omega)).mono fun x => takes_lift (by rw [hr']; omega)
      refine .ite (fun _ => .ite (fun _ => .ok (.err ?_)) fun _ => hstep _ rfl) fun _ => .ite (fun _ => .ite (fun _ => .ok (.err ?_)) fun _ =>
        hstep _ rfl) fun _ => (dispatchEx_good f ctx c _).mono fun x => takes_lift (skipWhitespace_le r)
      · exact skipWhitespace_le r
      · exact skipWhitespace_le r

/-- C239: reading a token ends, for every text, state and set of flags. -/
theorem C239_ends (f : FlagsEx) (ctx : Ctx) (r : Reader) : nextTokenEx f ctx r ≠ .error .diverge := (nextLoopEx_good f ctx _ r (Nat.lt_succ_self _)).1

/-- C239: every token takes at least one byte of the text, so that reading tokens ends. The end of the text is not reported inside of brackets. -/
theorem C239_takes (f : FlagsEx) (ctx : Ctx) (r r' : Reader) (tok : Tok) (h : nextTokenEx f ctx r = .ok (tok, r')) :
    tok = .error ∨ (tok = .eof ∧ ctx = .null) ∨ r'.rest.length < r.rest.length := by
  rcases ((nextLoopEx_good f ctx _ r (Nat.lt_succ_self _)).2 _ h).2 with h | h | h
  · exact Or.inl h
  · exact Or.inr (Or.inl h)
  · exact Or.inr (Or.inr h.1)

example : ∃ r' tok, nextTokenEx { blockComments := true } .null (makeReader (ascii "/* x */[1]")) = .ok (tok, r') ∧ tok = .comment :=
  ⟨_, _, rfl, rfl⟩

end Tm.Json
