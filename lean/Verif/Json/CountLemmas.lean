import Verif.Json.SkipLemmas

/-! # Values as tokens, and counting them, without extensions -/

namespace Tm.Json

open Tm Spec

variable {P Q : List Byte → Prop}

/-- An opening or closing bracket. -/
abbrev opening (isObj : Bool) : Byte := if isObj then 0x7B else 0x5B
abbrev closing (isObj : Bool) : Byte := if isObj then 0x7D else 0x5D
abbrev startTok (isObj : Bool) : Tok := if isObj then .objStart else .arrStart
abbrev endTok (isObj : Bool) : Tok := if isObj then .objEnd else .arrEnd
abbrev ctxOf (isObj : Bool) : Ctx := if isObj then .object else .array

/-- A separator in front of a token. -/
theorem sep_elim {ctx : Ctx} {q : Reader} {l : Tok} {sep t : List Byte} (hs : Sep ctx q.last l sep) (hr : q.rest = sep ++ t) :
    ∃ q1 a, nextToken strict ctx q = nextToken strict ctx q1 ∧ q1.rest = a ++ t ∧ Ws a ∧ q1.last = l ∧ q1.err = q.err ∧
      q1.root = q.root := by
  generalize hl : q.last = l0 at hs
  cases hs with
  | ws ha => exact ⟨q, sep, rfl, hr, ha, hl, rfl, rfl⟩
  | @comma l0 a b hc he ha hb =>
    obtain ⟨q1, e1, h1, h2, h3, h4⟩ := nextToken_comma (r := q) (a := a) (t := b ++ t) (by rw [hr]; simp) ha hc (hl ▸ he)
    exact ⟨q1, b, e1, h1, hb, h2, h3, h4⟩
  | @colon a b hc ha hb =>
    subst hc
    obtain ⟨q1, e1, h1, h2, h3, h4⟩ := nextToken_colon (r := q) (a := a) (t := b ++ t) (by rw [hr]; simp) ha hl
    exact ⟨q1, b, e1, h1, hb, h2, h3, h4⟩

/-- What values are made of. -/
theorem value_cases {j : Json} {v : List Byte} (h : Value P Q j v) :
    (∃ t, Scal j v t) ∨ (∃ raw text, j = .str text ∧ v = quoted raw ∧ Body raw text ∧ P raw) ∨
    (∃ isObj w, v = opening isObj :: (w ++ [closing isObj]) ∧ ∀ ctx k, Skips ctx k w) := by
  cases h with
  | null => exact Or.inl ⟨_, .null⟩
  | bool b => exact Or.inl ⟨_, by cases b <;> exact Scal.bool _⟩
  | num h => exact Or.inl ⟨_, .num h⟩
  | str hb hp => exact Or.inr (Or.inl ⟨_, _, rfl, rfl, hb, hp⟩)
  | @arrNil a ha => exact Or.inr (Or.inr ⟨false, a, rfl, fun _ _ => Skips.ws ha⟩)
  | @arr a b j v js t ha hv ht hb =>
    refine Or.inr (Or.inr ⟨false, a ++ (v ++ (t ++ b)), by simp [chr, opening, closing], fun _ _ => ?_⟩)
    exact (Skips.ws ha).append ((skips_value hv).append ((skips_moreValues (fun _ _ h _ => skips_value h) _ _ ht
      (Nat.lt_succ_self _)).append (Skips.ws hb)))
  | @objNil a ha => exact Or.inr (Or.inr ⟨true, a, rfl, fun _ _ => Skips.ws ha⟩)
  | @obj a b m u ms t ha hm ht hb =>
    refine Or.inr (Or.inr ⟨true, a ++ (u ++ (t ++ b)), by simp [chr, opening, closing], fun _ _ => ?_⟩)
    exact (Skips.ws ha).append ((skips_member (fun _ _ h _ => skips_value h) hm (Nat.lt_succ_self _)).append
      ((skips_moreMembers (fun _ _ h _ => skips_value h) _ _ ht (Nat.lt_succ_self _)).append (Skips.ws hb)))

/-- The first token of a value: the value, or an opening bracket before `w` and the closing one. -/
def FirstTok (v k : List Byte) (y : Tok × Reader) : Prop :=
  (y.1 = .value ∧ y.2.rest = k ∧ y.2.last = .value) ∨
  (∃ isObj w, v = opening isObj :: (w ++ [closing isObj]) ∧ (∀ ctx k, Skips ctx k w) ∧ y.1 = startTok isObj ∧
    y.2.rest = w ++ closing isObj :: k ∧ y.2.last = startTok isObj)

theorem tok_value {ctx : Ctx} {q : Reader} {l : Tok} {sep v k : List Byte} {j : Json} (hv : Value P Q j v)
    (hs : Sep ctx q.last l sep) (hl : CanValue ctx l) (hr : q.rest = sep ++ (v ++ k)) (hk : Stop k)
    (ho : ctx = .null → q.root = false) :
    ∃ y, nextToken strict ctx q = .ok y ∧ y.2.err = q.err ∧ FirstTok v k y := by
  obtain ⟨q1, a, e1, h1, ha, h2, h3, h4⟩ := sep_elim hs hr
  rw [e1]
  have hl1 : CanValue ctx q1.last := h2 ▸ hl
  have ho1 : ctx = .null → q1.root = false := fun h => h4.trans (ho h)
  rcases value_cases hv with ⟨t, hsc⟩ | ⟨raw, text, rfl, rfl, hb, _⟩ | ⟨isObj, w, rfl, hw⟩
  · obtain ⟨r', e, g1, g2, g3, _⟩ := tok_scal h1 ha hsc hk hl1 ho1
    exact ⟨_, e, g3.trans h3, Or.inl ⟨rfl, g1, g2⟩⟩
  · obtain ⟨r', e, g1, g2, g3, _⟩ := tok_str h1 ha hb hl1
    exact ⟨_, e, g3.trans h3, Or.inl ⟨rfl, g1, g2⟩⟩
  · obtain ⟨r', e, g1, g2, g3⟩ := tok_start (a := a) (t := w ++ closing isObj :: k) isObj (by rw [h1]; simp; rfl) ha hl1 ho1
    exact ⟨_, e, g3.trans h3, Or.inr ⟨isObj, w, rfl, hw, rfl, g1, g2⟩⟩

/-- Skipping a container. -/
theorem skip_container {ctx : Ctx} {r : Reader} {isObj : Bool} {w k : List Byte} (hw : ∀ ctx k, Skips ctx k w)
    (hr : r.rest = w ++ closing isObj :: k) (hl : r.last = startTok isObj) (he : r.err = .ok) :
    ∃ r', skipCurrent strict ctx r = .ok (true, r') ∧ r'.rest = k ∧ r'.last = endTok isObj ∧ r'.err = .ok := by
  unfold skipCurrent
  rw [if_neg (by cases isObj <;> simp [he, hr, hl]), if_neg (by rw [hl]; cases isObj <;> decide)]
  have : decide (r.last = .objStart) = isObj := by rw [hl]; cases isObj <;> rfl
  rw [this]
  obtain ⟨r', e, h1, h2, h3⟩ := bracket_end (ctx := ctx) (isObj := isObj) (hw ctx isObj) hr (Nat.lt_succ_self _)
  exact ⟨r', e, h1, h2, h3.trans he⟩

/-- Skipping the value of a member. -/
theorem skip_member {r : Reader} {j : Json} {a b v k : List Byte} (hv : Value P Q j v)
    (ha : Ws a) (hb : Ws b) (hr : r.rest = a ++ (chr ':' :: (b ++ (v ++ k)))) (hl : r.last = .propName) (he : r.err = .ok)
    (hk : Stop k) :
    ∃ x r', skipCurrent strict .object r = .ok (x, r') ∧ r'.rest = k ∧ Ends r'.last ∧ r'.err = .ok := by
  obtain ⟨y, e, h1, h2⟩ := tok_value (ctx := .object) (q := r) (l := .colon) (sep := a ++ 0x3A :: b) (k := k) hv
    (hl ▸ Sep.colon rfl ha hb) rfl (by rw [hr]; simp [chr]) hk (by simp)
  unfold skipCurrent
  rw [if_neg (by simp [he, hr, hl]), if_pos hl, contentLoop, e, ok_bind]
  rcases h2 with ⟨g1, g2, g3⟩ | ⟨isObj, w, rfl, hw, g1, g2, g3⟩
  · rw [g1]
    exact ⟨_, _, rfl, g2, Or.inr (Or.inr g3), h1.trans he⟩
  · obtain ⟨r', e', h3, h4, h5⟩ := bracket_end (ctx := ctxOf isObj) (isObj := isObj) (r := y.2) (hw _ isObj) g2 (Nat.lt_succ_self _)
    rw [g1]
    cases isObj
    · simp only [startTok, Bool.false_eq_true, if_false, ok_bind]
      rw [if_neg (by simp [h1, he])]
      have : decide (y.2.last = .objStart) = false := by rw [g3]; rfl
      rw [this]
      exact ⟨_, r', e', h3, Or.inr (Or.inl h4), h5.trans (h1.trans he)⟩
    · simp only [startTok, if_true, ok_bind]
      rw [if_neg (by simp [h1, he])]
      have : decide (y.2.last = .objStart) = true := by rw [g3]; rfl
      rw [this]
      exact ⟨_, r', e', h3, Or.inl h4, h5.trans (h1.trans he)⟩

/-! ### Counting -/

/-- The value of an element of an array is counted. -/
theorem count_value {q : Reader} {l : Tok} {sep v k : List Byte} {j : Json} (n m : Nat) (hv : Value P Q j v)
    (hs : Sep .array q.last l sep) (hl : l = .arrStart ∨ l = .comma) (hr : q.rest = sep ++ (v ++ k)) (hk : Stop k)
    (he : q.err = .ok) :
    ∃ q', countLoop strict false (n + 1) m q = countLoop strict false n (m + 1) q' ∧ q'.rest = k ∧ Ends q'.last ∧ q'.err = .ok := by
  obtain ⟨y, e, h1, h2⟩ := tok_value hv hs hl hr hk (by simp)
  rw [countLoop]
  dsimp only [Bool.false_eq_true, if_false]
  rw [if_neg (by simp), e, ok_bind]
  rcases h2 with ⟨g1, g2, g3⟩ | ⟨isObj, w, rfl, hw, g1, g2, g3⟩
  · rw [if_neg (by simp [g1]), if_pos (by simp [g1])]
    exact ⟨_, rfl, g2, Or.inr (Or.inr g3), h1.trans he⟩
  · rw [if_pos (by cases isObj <;> simp [g1])]
    obtain ⟨r', e', h3, h4, h5⟩ := skip_container (ctx := .array) hw g2 g3 (h1.trans he)
    rw [e', ok_bind]
    exact ⟨r', rfl, h3, by cases isObj <;> simp [Ends, h4], h5⟩

/-- A member of an object is counted. -/
theorem count_member {q : Reader} {l : Tok} {sep u k : List Byte} {mem : List Byte × Json} (n m : Nat) (hm : Member P Q mem u)
    (hs : Sep .object q.last l sep) (hl : l = .objStart ∨ l = .comma) (hr : q.rest = sep ++ (u ++ k)) (hk : Stop k)
    (he : q.err = .ok) :
    ∃ q', countLoop strict true (n + 1) m q = countLoop strict true n (m + 1) q' ∧ q'.rest = k ∧ Ends q'.last ∧ q'.err = .ok := by
  cases hm with
  | @mk raw name a b j v hb hq ha hc hv =>
    obtain ⟨q1, c, e1, h1, hc1, h2, h3, _⟩ := sep_elim hs hr
    obtain ⟨r', e, g1, g2, g3, _⟩ := tok_name (r := q1) (a := c) (raw := raw) (t := a ++ (chr ':' :: (b ++ (v ++ k))))
      (by rw [h1]; simp) hc1 hb (h2 ▸ hl)
    obtain ⟨x, r2, e2, f1, f2, f3⟩ := skip_member hv ha hc g1 g2 ((g3.trans h3).trans he) hk
    rw [countLoop]
    dsimp only [if_true]
    rw [if_pos rfl, e1, e, ok_bind, if_pos (by simp), e2, ok_bind]
    exact ⟨r2, rfl, f1, f2, f3⟩

/-- The closing bracket ends the loop. -/
theorem count_end {q : Reader} {a k : List Byte} (isObj : Bool) (n m : Nat) (ha : Ws a) (hr : q.rest = a ++ closing isObj :: k)
    (hl : CanEnd q.last) : ∃ q', countLoop strict isObj (n + 1) m q = .ok (.ok, m, q') := by
  obtain ⟨r', e, _⟩ := tok_end isObj hr ha hl
  rw [countLoop]
  dsimp only
  rw [e, ok_bind]
  cases isObj
  · exact ⟨r', by simp⟩
  · exact ⟨r', by simp⟩

theorem Ends.canEnd {l : Tok} (h : Ends l) : CanEnd l := by
  rcases h with rfl | rfl | rfl <;> exact ⟨by simp, by simp, by simp⟩

/-- What may follow a value is no part of a number. -/
theorem stop_ws {a k : List Byte} {c : Byte} (ha : Ws a) (hc : c = 0x2C ∨ c = 0x5D ∨ c = 0x7D) : Stop (a ++ c :: k) := by
  have hd : ∀ x : Byte, (x = 0x20 ∨ x = 0x09 ∨ x = 0x0A ∨ x = 0x0D ∨ x = 0x2C ∨ x = 0x5D ∨ x = 0x7D) →
      ¬ Digit x ∧ x ≠ 0x2E ∧ ¬ (x = 0x65 ∨ x = 0x45) := by decide +kernel
  intro x hx
  cases a with
  | nil =>
    simp at hx
    subst hx
    exact hd _ (by rcases hc with rfl | rfl | rfl <;> simp)
  | cons y a =>
    simp at hx
    subst hx
    exact hd _ (by rcases ha y (by simp) with rfl | rfl | rfl | rfl <;> simp)

theorem stop_white {a : List Byte} (ha : Ws a) : Stop a := by
  intro x hx
  cases a with
  | nil => cases hx
  | cons y a =>
    have := stop_ws (a := y :: a) (k := []) (c := 0x2C) ha (by simp)
    simp at hx
    exact this x (by simp [hx])

theorem stop_closing {b k : List Byte} (isObj : Bool) (hb : Ws b) : Stop (b ++ closing isObj :: k) :=
  stop_ws hb (by cases isObj <;> simp [closing])

theorem stop_values {js : List Json} {t b k : List Byte} (ht : MoreValues P Q js t) (isObj : Bool) (hb : Ws b) :
    Stop (t ++ (b ++ closing isObj :: k)) := by
  cases ht with
  | nil => exact stop_closing isObj hb
  | cons ha _ _ _ =>
    rw [List.append_assoc, List.cons_append]
    exact stop_ws ha (by simp [chr])

theorem stop_members {ms : List (List Byte × Json)} {t b k : List Byte} (ht : MoreMembers P Q ms t) (isObj : Bool) (hb : Ws b) :
    Stop (t ++ (b ++ closing isObj :: k)) := by
  cases ht with
  | nil => exact stop_closing isObj hb
  | cons ha _ _ _ =>
    rw [List.append_assoc, List.cons_append]
    exact stop_ws ha (by simp [chr])

theorem count_values : ∀ (js : List Json) (t : List Byte), MoreValues P Q js t → ∀ (b k : List Byte) (n m : Nat) (q : Reader), Ws b →
    q.rest = t ++ (b ++ closing false :: k) → Ends q.last → q.err = .ok → q.rest.length < n →
    ∃ q', countLoop strict false n m q = .ok (.ok, m + js.length, q') := by
  intro js
  induction js with
  | nil =>
    intro t ht b k n m q hb hr hl _ hn
    cases ht
    cases n with
    | zero => omega
    | succ n => exact count_end false n m hb hr hl.canEnd
  | cons j js ih =>
    intro t ht b k n m q hb hr hl he hn
    cases ht with
    | @cons a c _ v _ t ha hc hv ht =>
      cases n with
      | zero => omega
      | succ n =>
        obtain ⟨q', e, h1, h2, h3⟩ := count_value (q := q) (l := .comma) (sep := a ++ 0x2C :: c) n m hv
          (Sep.comma (by simp) hl ha hc) (Or.inr rfl) (k := t ++ (b ++ closing false :: k)) (by rw [hr]; simp [chr])
          (stop_values ht false hb) he
        obtain ⟨q2, e2⟩ := ih t ht b k n (m + 1) q' hb h1 h2 h3 (by
          rw [h1]; rw [hr] at hn; simp at hn ⊢; omega)
        exact ⟨q2, by rw [e, e2, List.length_cons, Nat.add_assoc, Nat.add_comm 1]⟩

theorem count_members : ∀ (ms : List (List Byte × Json)) (t : List Byte), MoreMembers P Q ms t → ∀ (b k : List Byte) (n m : Nat)
    (q : Reader), Ws b → q.rest = t ++ (b ++ closing true :: k) → Ends q.last → q.err = .ok → q.rest.length < n →
    ∃ q', countLoop strict true n m q = .ok (.ok, m + ms.length, q') := by
  intro ms
  induction ms with
  | nil =>
    intro t ht b k n m q hb hr hl _ hn
    cases ht
    cases n with
    | zero => omega
    | succ n => exact count_end true n m hb hr hl.canEnd
  | cons j js ih =>
    intro t ht b k n m q hb hr hl he hn
    cases ht with
    | @cons a c _ v _ t ha hc hv ht =>
      cases n with
      | zero => omega
      | succ n =>
        obtain ⟨q', e, h1, h2, h3⟩ := count_member (q := q) (l := .comma) (sep := a ++ 0x2C :: c) n m hv
          (Sep.comma (by simp) hl ha hc) (Or.inr rfl) (k := t ++ (b ++ closing true :: k)) (by rw [hr]; simp [chr])
          (stop_members ht true hb) he
        obtain ⟨q2, e2⟩ := ih t ht b k n (m + 1) q' hb h1 h2 h3 (by
          rw [h1]; rw [hr] at hn; simp at hn ⊢; omega)
        exact ⟨q2, by rw [e, e2, List.length_cons, Nat.add_assoc, Nat.add_comm 1]⟩

/-- The count never decreases. -/
theorem count_le (isObj : Bool) : ∀ (n m c : Nat) (q q' : Reader) (e : Err), countLoop strict isObj n m q = .ok (e, c, q') → m ≤ c := by
  intro n
  induction n with
  | zero => intro m c q q' e h; cases h
  | succ n ih =>
    intro m c q q' e h
    rw [countLoop] at h
    dsimp only at h
    cases hx : nextToken strict (if isObj = true then Ctx.object else Ctx.array) q with
    | error f => rw [hx] at h; cases h
    | ok x =>
      rw [hx, ok_bind] at h
      by_cases h1 : (isObj && decide (x.1 = .propName) || !isObj && (decide (x.1 = .objStart) || decide (x.1 = .arrStart))) = true
      · rw [if_pos h1] at h
        cases hy : skipCurrent strict (if isObj = true then Ctx.object else Ctx.array) x.2 with
        | error f => rw [hy] at h; cases h
        | ok y =>
          rw [hy, ok_bind] at h
          have := ih _ _ _ _ _ h
          omega
      rw [if_neg h1] at h
      by_cases h2 : (!isObj && decide (x.1 = .value)) = true
      · rw [if_pos h2] at h
        have := ih _ _ _ _ _ h
        omega
      rw [if_neg h2] at h
      by_cases h3 : (isObj && decide (x.1 = .objEnd) || !isObj && decide (x.1 = .arrEnd)) = true
      · rw [if_pos h3] at h
        injection h with h
        have := congrArg (·.2.1) h
        dsimp only at this
        omega
      rw [if_neg h3] at h
      by_cases h4 : x.1 = .comment
      · rw [if_pos h4] at h
        exact ih _ _ _ _ _ h
      rw [if_neg h4] at h
      by_cases h5 : x.2.err ≠ .ok
      · rw [if_pos h5] at h
        injection h with h
        have := congrArg (·.2.1) h
        dsimp only at this
        omega
      · rw [if_neg h5] at h
        cases h

end Tm.Json
