import Verif.Json.SafeLemmas

/-! # What is read is a text of the grammar, without extensions -/

namespace Tm.Json

open Tm Spec

/-- An element of an array, or a member of an object. -/
def Elem (isObj : Bool) (x : List Byte) : Prop :=
  if isObj then ∃ m, Member Any Any m x else ∃ j, Value Any Any j x

/-- More elements and the closing bracket. -/
def ItemsEnd (isObj : Bool) (t : List Byte) : Prop :=
  ∃ u b, Ws b ∧ t = u ++ (b ++ [closing isObj]) ∧ (if isObj then ∃ ms, MoreMembers Any Any ms u else ∃ js, MoreValues Any Any js u)

/-- The text behind an opening bracket. -/
def Inside (isObj : Bool) (t : List Byte) : Prop :=
  (∃ a, Ws a ∧ t = a ++ [closing isObj]) ∨ (∃ a x u, Ws a ∧ Elem isObj x ∧ ItemsEnd isObj u ∧ t = a ++ (x ++ u))

theorem ItemsEnd.cons {isObj : Bool} {a b x u : List Byte} (ha : Ws a) (hb : Ws b) (hx : Elem isObj x) (hu : ItemsEnd isObj u) :
    ItemsEnd isObj (a ++ 0x2C :: (b ++ (x ++ u))) := by
  obtain ⟨w, c, hc, rfl, hw⟩ := hu
  refine ⟨a ++ chr ',' :: (b ++ (x ++ w)), c, hc, by simp [chr], ?_⟩
  cases isObj with
  | true =>
    obtain ⟨m, hx⟩ := hx
    obtain ⟨ms, hw⟩ := hw
    exact ⟨_, MoreMembers.cons ha hb hx hw⟩
  | false =>
    obtain ⟨m, hx⟩ := hx
    obtain ⟨ms, hw⟩ := hw
    exact ⟨_, MoreValues.cons ha hb hx hw⟩

theorem inside_value {isObj : Bool} {t : List Byte} (h : Inside isObj t) : ∃ j, Value Any Any j (opening isObj :: t) := by
  rcases h with ⟨a, ha, rfl⟩ | ⟨a, x, u, ha, hx, ⟨w, c, hc, rfl, hw⟩, rfl⟩
  · cases isObj with
    | true => exact ⟨_, Value.objNil ha⟩
    | false => exact ⟨_, Value.arrNil ha⟩
  · cases isObj with
    | true =>
      obtain ⟨m, hx⟩ := hx
      obtain ⟨ms, hw⟩ := hw
      exact ⟨_, Value.obj ha hx hw hc⟩
    | false =>
      obtain ⟨m, hx⟩ := hx
      obtain ⟨ms, hw⟩ := hw
      exact ⟨_, Value.arr ha hx hw hc⟩

/-- An error that the end of the document will report. -/
structure Bad (t : List Byte) (e : Err) (r' : Reader) : Prop where
  err : e ≠ .ok
  suffix : r'.rest <:+ t
  seen : r'.err ≠ .ok ∨ (¬ Ws r'.rest ∧ r'.last ≠ .eof)

theorem Bad.mono {t u : List Byte} {e : Err} {r' : Reader} (h : Bad t e r') (hs : t <:+ u) : Bad u e r' :=
  ⟨h.err, h.suffix.trans hs, h.seen⟩

/-- What reading a value returns, if `body` is the text of its first token and `t` the text behind it. -/
def ItemRes (body t : List Byte) (z : Result JVal) : Prop :=
  (z.err = .ok ∧ z.reader.err = .ok ∧ Ends z.reader.last ∧
    ∃ j w, Value Any Any j (body ++ w) ∧ t = w ++ z.reader.rest) ∨
  Bad t z.err z.reader

/-- What the loop returns. -/
def LoopRes (isObj : Bool) (l : Tok) (t : List Byte) (z : Result (List (View × JVal))) : Prop :=
  (z.err = .ok ∧ z.reader.err = .ok ∧ z.reader.last = endTok isObj ∧ ∃ w, t = w ++ z.reader.rest ∧
    (l = startTok isObj → Inside isObj w) ∧ (Ends l → ItemsEnd isObj w)) ∨
  Bad t z.err z.reader

/-- Reading goes in step with counting. -/
def Sound (fuel : Nat) : Prop :=
  ∀ (isObj : Bool) (count : Nat) (acc : List (View × JVal)) (a : Alloc) (r : Reader), r.rest.length < fuel → Between isObj r.last →
    r.err = .ok → ¬ BadEnd r.rest →
    ((∃ fq q qe, q.rest = r.rest ∧ Between isObj q.last ∧ (q.last = startTok isObj ↔ r.last = startTok isObj) ∧ q.err = .ok ∧
      countLoop strict isObj fq acc.length q = .ok (.ok, count, qe)) ∨ (Ends r.last ∧ ¬ Stop r.rest)) →
    ∃ z, readLoop strict fuel isObj count acc a r = .ok z ∧ LoopRes isObj r.last r.rest z

theorem scalar_safe {a : Alloc} {ctx : Ctx} {l : Tok} {r' : Reader} {body : List Byte} (h : Lexed ctx l r' .value body) :
    ∃ v, readScalar a r' = .ok v := by
  unfold readScalar
  generalize ht : Tok.value = t at h
  cases h with
  | @str raw text _ hb hv hc =>
    rw [if_pos hv, hc]
    unfold allocateString
    rw [view_text (x := raw) (k := 0x22 :: r'.rest) rfl rfl, ok_bind]
    cases allocate a raw.length 1 with
    | none => exact ⟨_, rfl⟩
    | some p =>
      obtain ⟨res, e, _, _⟩ := copyUnescaped_ok hb (Nat.le_refl _)
      dsimp only
      rw [e, ok_bind]
      exact ⟨_, rfl⟩
  | scal _ hs hv _ _ _ =>
    rw [if_neg (by rw [hv]; exact scal_notString hs)]
    exact ⟨_, rfl⟩
  | _ => cases ht

theorem scal_value {j : Json} {v : List Byte} {t : VType} (h : Scal j v t) : Value Any Any j v := by
  cases h with
  | null => exact Value.null
  | bool b => cases b <;> exact Value.bool _
  | num h => exact Value.num h

theorem item_sound {fuel : Nat} (ih : Sound fuel) {a : Alloc} {ctx : Ctx} {l : Tok} {r' : Reader} {tok : Tok} {body : List Byte}
    (h : Lexed ctx l r' tok body) (hv : IsValueTok tok) (he : r'.err = .ok) (hl : r'.last = tok) (hb : ¬ BadEnd r'.rest)
    (hn : r'.rest.length < fuel) : ∃ z, item strict fuel a (tok, r') = .ok z ∧ ItemRes body r'.rest z := by
  have cont : ∀ isObj : Bool, tok = startTok isObj → body = [opening isObj] →
      ∃ z, item strict fuel a (tok, r') = .ok z ∧ ItemRes body r'.rest z := by
    intro isObj ht hbody
    have hst : r'.last = startTok isObj := hl.trans ht
    have hdec : decide (tok = .objStart) = isObj := by rw [ht]; cases isObj <;> rfl
    unfold item
    dsimp only
    rw [if_pos (by rw [ht]; cases isObj <;> rfl), hdec]
    obtain ⟨e, c, rc, ec, hs, herr⟩ := count_safe (isObj := isObj) (r'.rest.length + 1) 0 r' (Nat.lt_succ_self _) hb
      (Or.inr (Or.inr (Or.inl hst)))
    rw [ec, ok_bind]
    dsimp only
    by_cases hok : e = .ok
    · rw [if_neg (by simp [hok])]
      subst hok
      cases hal : allocate a (c * if isObj = true then 48 else 32) 8 with
      | none =>
        refine ⟨_, rfl, Or.inr ⟨by simp, List.suffix_rfl, Or.inr ⟨?_, by rw [hst]; cases isObj <;> exact fun h => by cases h⟩⟩⟩
        intro hws
        obtain ⟨rw', e1, h1, _⟩ := tok_white (ctx := ctxOf isObj) (r := r') hws (by cases isObj <;> exact fun h => by cases h)
        rw [countLoop] at ec
        dsimp only at ec
        have e1 : nextToken strict (if isObj = true then Ctx.object else Ctx.array) r' = .ok (.error, rw') := e1
        rw [e1, ok_bind] at ec
        dsimp only at ec
        rw [if_neg (by simp), if_neg (by simp), if_neg (by simp), if_neg (by simp), if_pos h1] at ec
        injection ec with ec
        injection ec with ec _
        exact h1 ec
      | some pa =>
        obtain ⟨p, a'⟩ := pa
        dsimp only
        obtain ⟨z, ez, hz⟩ := ih isObj c [] a' r' hn (Or.inl hst) he hb
          (Or.inl ⟨_, r', rc, rfl, Or.inl hst, Iff.rfl, he, ec⟩)
        rw [ez, ok_bind]
        refine ⟨_, rfl, ?_⟩
        rcases hz with ⟨z1, z2, z3, w, z4, z5, _⟩ | hz
        · left
          refine ⟨z1, z2, by dsimp only; rw [z3]; cases isObj; exacts [Or.inr (Or.inl rfl), Or.inl rfl], ?_⟩
          obtain ⟨j, hj⟩ := inside_value (z5 hst)
          exact ⟨j, w, by rw [hbody]; exact hj, z4⟩
        · exact Or.inr hz
    · rw [if_pos hok]
      exact ⟨_, rfl, Or.inr ⟨hok, hs, Or.inl (herr hok)⟩⟩
  have scalar : tok = .value → (∃ j, Value Any Any j body) → ∃ z, item strict fuel a (tok, r') = .ok z ∧ ItemRes body r'.rest z := by
    intro ht ⟨j, hj⟩
    subst ht
    obtain ⟨v, ev⟩ := scalar_safe (a := a) h
    unfold item
    dsimp only
    rw [if_neg (by simp), if_pos rfl, ev, ok_bind]
    exact ⟨_, rfl, Or.inl ⟨rfl, he, Or.inr (Or.inr hl), j, [], by simpa using hj, by simp⟩⟩
  cases h with
  | objStart => exact cont true rfl rfl
  | arrStart => exact cont false rfl rfl
  | str hc hb1 => exact scalar rfl ⟨_, Value.str hb1 trivial⟩
  | scal _ hs => exact scalar rfl ⟨_, scal_value hs⟩
  | _ => rcases hv with h | h | h <;> cases h

/-! ### Counting sees the element -/

theorem first_eq {a b t u : List Byte} {c d : Byte} (ha : Ws a) (hb : Ws b) (hc : isWs c = false) (hd : isWs d = false)
    (h : a ++ c :: t = b ++ d :: u) : c = d := by
  have h1 := skipLoop_append (a := a) (t := c :: t) ha (by intro x hx; cases hx; exact hc) 0 0
  have h2 := skipLoop_append (a := b) (t := d :: u) hb (by intro x hx; cases hx; exact hd) 0 0
  rw [h, h2] at h1
  injection h1 with h1 _
  exact h1.symm

/-- The text of the first token of an element does not start like the end, a separator or white space. -/
theorem lexed_head {isObj : Bool} {l : Tok} {r' : Reader} {tok : Tok} {body : List Byte} (h : Lexed (ctxOf isObj) l r' tok body)
    (ht : tok = .propName ∨ IsValueTok tok) :
    ∃ c u, body = c :: u ∧ isWs c = false ∧ c ≠ 0x5D ∧ c ≠ 0x7D ∧ c ≠ 0x2C := by
  cases h with
  | objStart => exact ⟨_, _, rfl, by decide⟩
  | arrStart => exact ⟨_, _, rfl, by decide⟩
  | name => exact ⟨_, _, rfl, by decide⟩
  | str => exact ⟨_, _, rfl, by decide⟩
  | scal _ hs =>
    obtain ⟨c, u, rfl, hc⟩ := scal_head hs
    refine ⟨c, u, rfl, ?_⟩
    clear * - hc
    revert c
    decide +kernel
  | objEnd => rcases ht with h | h | h | h <;> cases h
  | arrEnd => rcases ht with h | h | h | h <;> cases h
  | eof => rcases ht with h | h | h | h <;> cases h

theorem sep_head {isObj : Bool} {l0 l : Tok} {sep t : List Byte} {c : Byte} (hs : Sep (ctxOf isObj) l0 l sep) (hl : Between isObj l0) :
    ∃ a d u, Ws a ∧ sep ++ c :: t = a ++ d :: u ∧ (d = c ∨ d = 0x2C) := by
  cases hs with
  | ws ha => exact ⟨_, _, _, ha, rfl, Or.inl rfl⟩
  | @comma _ a b _ _ ha hb => exact ⟨a, 0x2C, b ++ c :: t, ha, by simp, Or.inr rfl⟩
  | colon => rcases hl with h | h | h | h <;> first | (cases h; done) | (cases isObj <;> cases h)

theorem elem_counted {isObj : Bool} {r r' q qe : Reader} {tok l : Tok} {sep body : List Byte} {fq m count : Nat}
    (hl : Between isObj r.last) (hs : Sep (ctxOf isObj) r.last l sep) (hlex : Lexed (ctxOf isObj) l r' tok body)
    (hr : r.rest = sep ++ (body ++ r'.rest)) (ht : if isObj then tok = .propName else IsValueTok tok)
    (hb : ¬ BadEnd r.rest) (hq : q.rest = r.rest) (hlq : Between isObj q.last)
    (hc : countLoop strict isObj fq m q = .ok (.ok, count, qe)) : m < count := by
  cases fq with
  | zero => cases hc
  | succ fq =>
    obtain ⟨tok', q', e, hx⟩ := next_res (by rw [hq]; exact hb) hlq
    rw [countLoop] at hc
    dsimp only at hc
    have e : nextToken strict (if isObj = true then Ctx.object else Ctx.array) q = .ok (tok', q') := e
    rw [e, ok_bind] at hc
    cases hx with
    | error hf =>
      dsimp only at hc
      rw [if_neg (by simp), if_neg (by simp), if_neg (by simp), if_neg (by simp), if_pos hf.1] at hc
      injection hc with hc
      injection hc with hc _
      exact absurd hc hf.1
    | @close _ a ha hr' _ _ _ =>
      exfalso
      obtain ⟨c, u, rfl, h1, h2, h3, h4⟩ := lexed_head hlex (by cases isObj with
        | true => exact Or.inl ht
        | false => exact Or.inr ht)
      obtain ⟨b, d, v, hwb, hd, hdc⟩ := sep_head (t := u ++ r'.rest) (c := c) hs hl
      have heq : a ++ closing isObj :: q'.rest = b ++ d :: v := by
        rw [← hr', hq, hr]
        exact hd
      have := first_eq ha hwb (by cases isObj <;> decide) (by rcases hdc with rfl | rfl; exacts [h1, by decide]) heq
      rcases hdc with rfl | rfl
      · cases isObj
        · exact h2 this.symm
        · exact h3 this.symm
      · cases isObj <;> exact absurd this (by decide)
    | elem _ _ _ _ _ _ ht' =>
      have hle : ∀ (x : Bool × Reader) , countLoop strict isObj fq (m + 1) x.2 = .ok (.ok, count, qe) → m < count :=
        fun x h => count_le isObj _ _ _ _ _ _ h
      cases isObj with
      | true =>
        have ht' : tok' = .propName := ht'
        subst ht'
        dsimp only at hc
        rw [if_pos (by simp)] at hc
        cases hsk : skipCurrent strict (if true = true then Ctx.object else Ctx.array) q' with
        | error x => rw [hsk] at hc; cases hc
        | ok x => rw [hsk, ok_bind] at hc; exact hle x hc
      | false =>
        have ht' : IsValueTok tok' := ht'
        rcases ht' with rfl | rfl | rfl
        · dsimp only at hc
          rw [if_pos (by simp)] at hc
          cases hsk : skipCurrent strict (if false = true then Ctx.object else Ctx.array) q' with
          | error x => rw [hsk] at hc; cases hc
          | ok x => rw [hsk, ok_bind] at hc; exact hle x hc
        · dsimp only at hc
          rw [if_pos (by simp)] at hc
          cases hsk : skipCurrent strict (if false = true then Ctx.object else Ctx.array) q' with
          | error x => rw [hsk] at hc; cases hc
          | ok x => rw [hsk, ok_bind] at hc; exact hle x hc
        · dsimp only at hc
          rw [if_neg (by simp), if_pos (by simp)] at hc
          exact hle (true, q') hc

/-- If no value can end here, there is an error. -/
theorem next_error {isObj : Bool} {r : Reader} (hb : ¬ BadEnd r.rest) (hl : Ends r.last) (hk : ¬ Stop r.rest) :
    ∃ r', nextToken strict (ctxOf isObj) r = .ok (.error, r') ∧ Fails r r' := by
  obtain ⟨tok, r', e, hx⟩ := next_res (isObj := isObj) hb (Or.inr hl)
  have hstop : ∀ a (d : Byte) u, Ws a → r.rest = a ++ d :: u → (d = 0x2C ∨ d = 0x5D ∨ d = 0x7D) → False := by
    intro a d u ha hr hd
    exact hk (hr ▸ stop_ws ha hd)
  cases hx with
  | error h => exact ⟨_, e, h⟩
  | @close _ a ha hr _ _ _ =>
    exact (hstop a _ _ ha hr (by cases isObj; exacts [Or.inr (Or.inl rfl), Or.inr (Or.inr rfl)])).elim
  | @elem _ _ l sep body hs _ hr _ _ hl' _ =>
    exfalso
    generalize hl0 : r.last = l0 at hs
    cases hs with
    | ws ha =>
      subst hl0
      rcases hl' with h | h <;> rw [h] at hl
      · rcases hl with h | h | h <;> first | (cases h; done) | (cases isObj <;> cases h)
      · rcases hl with h | h | h <;> cases h
    | @comma _ a b _ _ ha hb' => exact hstop a 0x2C (b ++ (body ++ r'.rest)) ha (by rw [hr]; simp) (Or.inl rfl)
    | colon => rcases hl with h | h | h <;> rw [h] at hl0 <;> cases hl0

/-! ### The loop -/

theorem ends_not_start {isObj : Bool} {l : Tok} (h : Ends l) : l ≠ startTok isObj := by
  intro e
  rcases h with h | h | h <;> rw [h] at e <;> cases isObj <;> cases e

/-- The elements that were read and the rest. -/
theorem loop_compose {isObj : Bool} {l0 l : Tok} {sep x t u : List Byte} {z : Result (List (View × JVal))} {l2 : Tok}
    (hs : Sep (ctxOf isObj) l0 l sep) (hl : Between isObj l0) (hl' : l = startTok isObj ∨ l = .comma) (hx : Elem isObj x)
    (ht : t = sep ++ (x ++ u)) (h2 : Ends l2) (h : LoopRes isObj l2 u z) : LoopRes isObj l0 t z := by
  have hsuf : u <:+ t := by rw [ht]; exact ⟨sep ++ x, by simp⟩
  rcases h with ⟨h1, h3, h4, w, rfl, _, h5⟩ | h
  · left
    have h5 := h5 h2
    refine ⟨h1, h3, h4, sep ++ (x ++ w), by rw [ht]; simp, ?_, ?_⟩
    · intro e
      cases hs with
      | ws ha => exact Or.inr ⟨sep, x, w, ha, hx, h5, rfl⟩
      | comma _ he _ _ => exact absurd e (ends_not_start he)
      | colon => cases isObj <;> cases e
    · intro e
      cases hs with
      | ws ha =>
        exfalso
        rcases hl' with h | h
        · exact ends_not_start e h
        · rcases e with e | e | e <;> rw [e] at h <;> cases h
      | @comma _ a b _ _ ha hb =>
        rw [show a ++ 0x2C :: b ++ (x ++ w) = a ++ 0x2C :: (b ++ (x ++ w)) by simp]
        exact ItemsEnd.cons ha hb hx h5
      | colon => rcases e with e | e | e <;> cases e
  · exact Or.inr (h.mono hsuf)

/-- Counting goes over the element. -/
theorem count_elem {isObj : Bool} {q : Reader} {l : Tok} {sep x k : List Byte} {fq m count : Nat} {qe : Reader} (hx : Elem isObj x)
    (hs : Sep (ctxOf isObj) q.last l sep) (hl : l = startTok isObj ∨ l = .comma) (hr : q.rest = sep ++ (x ++ k)) (hk : Stop k)
    (he : q.err = .ok) (hc : countLoop strict isObj fq m q = .ok (.ok, count, qe)) :
    ∃ fq' q', q'.rest = k ∧ Ends q'.last ∧ q'.err = .ok ∧ countLoop strict isObj fq' (m + 1) q' = .ok (.ok, count, qe) := by
  cases fq with
  | zero => cases hc
  | succ fq =>
    cases isObj with
    | true =>
      obtain ⟨mem, hx⟩ := hx
      obtain ⟨q', e, h1, h2, h3⟩ := count_member fq m hx hs hl hr hk he
      exact ⟨fq, q', h1, h2, h3, e ▸ hc⟩
    | false =>
      obtain ⟨j, hx⟩ := hx
      obtain ⟨q', e, h1, h2, h3⟩ := count_value fq m hx hs hl hr hk he
      exact ⟨fq, q', h1, h2, h3, e ▸ hc⟩

/-- The separators that are possible depend on what the reader knows of the last token only. -/
theorem sep_transfer {isObj : Bool} {l0 l1 l : Tok} {sep : List Byte} (hs : Sep (ctxOf isObj) l0 l sep) (h0 : Between isObj l0)
    (h1 : Between isObj l1) (h : l1 = startTok isObj ↔ l0 = startTok isObj) (hl : l = startTok isObj ∨ l = .comma) :
    Sep (ctxOf isObj) l1 l sep := by
  cases hs with
  | ws ha =>
    rcases hl with hl | hl
    · rw [h.mpr hl, hl]; exact .ws ha
    · rcases h0 with h0 | h0 | h0 | h0
      · rw [hl] at h0; cases isObj <;> cases h0
      · rw [hl] at h0; cases h0
      · rw [hl] at h0; cases h0
      · rw [hl] at h0; cases h0
  | comma hc he ha hb =>
    refine .comma hc ?_ ha hb
    rcases h1 with h1 | h1
    · exact absurd (h.mp h1) (ends_not_start he)
    · exact h1
  | colon => rcases h0 with h0 | h0 | h0 | h0 <;> first | (cases h0; done) | (cases isObj <;> cases h0)

theorem sound_step {fuel : Nat} (ih : Sound fuel) : Sound (fuel + 1) := by
  intro isObj count acc a r hn hl he hb hq
  rw [readLoop_eq]
  rcases hq with ⟨fq, q, qe, hq1, hq2, hq3, hq4, hc⟩ | ⟨hE, hk⟩
  · obtain ⟨tok, r', e, hx⟩ := next_res hb hl
    rw [e, ok_bind]
    cases hx with
    | error hf =>
      dsimp only
      rw [if_neg (by simp), if_neg (by simp), if_neg (by simp), if_pos hf.1]
      exact ⟨_, rfl, Or.inr ⟨hf.1, hf.2, Or.inl hf.1⟩⟩
    | @close _ b hwb hr he' hlast hE =>
      dsimp only
      rw [if_pos (by cases isObj <;> rfl)]
      refine ⟨_, rfl, Or.inl ⟨he'.trans he, he'.trans he, hlast, b ++ [closing isObj], by rw [hr]; simp only [List.append_assoc]; rfl, ?_, ?_⟩⟩
      · exact fun _ => Or.inl ⟨b, hwb, rfl⟩
      · refine fun _ => ⟨[], b, hwb, rfl, ?_⟩
        cases isObj
        · exact ⟨[], MoreValues.nil⟩
        · exact ⟨[], MoreMembers.nil⟩
    | @elem _ _ l sep body hs hlex hr he' hlast hl' ht =>
      have hcnt := elem_counted hl hs hlex hr ht hb hq1 hq2 hc
      have hlen := lexed_length hlex (by cases isObj <;> exact fun h => by cases h)
      have hsuf : r'.rest <:+ r.rest := by rw [hr]; exact ⟨sep ++ body, by simp⟩
      have hlt : r'.rest.length < fuel := by rw [hr] at hn; simp at hn; omega
      have hb' := BadEnd.not_suffix hb hsuf
      have hs' := sep_transfer hs hl hq2 hq3 hl'
      -- the element was read
      have go : ∀ (x : List Byte) (z : Result JVal), Elem isObj x → z.reader.err = .ok → Ends z.reader.last →
          r.rest = sep ++ (x ++ z.reader.rest) → z.reader.rest <:+ r'.rest →
          ∃ z', readLoop strict fuel isObj count (acc ++ [(r'.cur, z.val)]) z.alloc z.reader = .ok z' ∧ LoopRes isObj r.last r.rest z' := by
        intro x z hx z1 z2 z3 z4
        have hagree : (∃ fq q qe, q.rest = z.reader.rest ∧ Between isObj q.last ∧
            (q.last = startTok isObj ↔ z.reader.last = startTok isObj) ∧ q.err = .ok ∧
            countLoop strict isObj fq (acc ++ [(r'.cur, z.val)]).length q = .ok (.ok, count, qe)) ∨
            (Ends z.reader.last ∧ ¬ Stop z.reader.rest) := by
          by_cases hk : Stop z.reader.rest
          · obtain ⟨fq', q', g1, g2, g3, g4⟩ := count_elem hx hs' hl' (hq1.trans z3) hk hq4 hc
            refine Or.inl ⟨fq', q', qe, g1, Or.inr g2, ?_, g3, by simpa using g4⟩
            exact ⟨fun h => absurd h (ends_not_start g2), fun h => absurd h (ends_not_start z2)⟩
          · exact Or.inr ⟨z2, hk⟩
        obtain ⟨z', ez, hz⟩ := ih isObj count (acc ++ [(r'.cur, z.val)]) z.alloc z.reader (by have := z4.length_le; omega) (Or.inr z2)
          z1 (BadEnd.not_suffix hb' z4) hagree
        exact ⟨z', ez, loop_compose hs hl hl' hx z3 z2 hz⟩
      cases isObj with
      | true =>
        have ht : tok = .propName := ht
        subst ht
        dsimp only
        rw [if_neg (by simp), if_neg (by simp), if_pos (by simp), if_pos hcnt]
        obtain ⟨tok, r2, e2, h2⟩ := value_res hb' hlast
        have hval : valueToken strict (r'.rest.length + 1) r' = .ok (tok, r2) := by
          rw [valueToken, e2, ok_bind, if_neg]
          rcases h2 with ⟨rfl, _⟩ | ⟨_, _, _, _, _, _, _, h | h | h, _⟩
          · simp
          all_goals rw [h]; simp
        rw [if_pos rfl, hval, ok_bind]
        rcases h2 with ⟨rfl, hf⟩ | ⟨c, d, body2, hwc, hwd, hr2, hlex2, hv2, he2, hl2⟩
        · unfold item
          dsimp only
          rw [if_neg (by simp), if_neg (by simp), if_pos hf.1, ok_bind]
          dsimp only
          rw [if_pos hf.1]
          exact ⟨_, rfl, Or.inr ⟨hf.1, hf.2.trans hsuf, Or.inl hf.1⟩⟩
        · have hsuf2 : r2.rest <:+ r'.rest := by rw [hr2]; exact ⟨c ++ chr ':' :: (d ++ body2), by simp⟩
          obtain ⟨z, ez, hz⟩ := item_sound ih (a := a) hlex2 hv2 ((he2.trans he').trans he) hl2 (BadEnd.not_suffix hb' hsuf2)
            (by have := hsuf2.length_le; omega)
          rw [ez, ok_bind]
          rcases hz with ⟨z1, z2, z3, j, w, hj, hw⟩ | hz
          · rw [if_neg (by simp [z1])]
            cases hlex with
            | @name raw text _ _ hbody hcur =>
              refine go (quoted raw ++ (c ++ (chr ':' :: (d ++ (body2 ++ w))))) z ⟨_, Member.mk hbody trivial hwc hwd hj⟩ z2 z3 ?_ ?_
              · rw [hr, hr2, hw]; simp
              · refine List.IsSuffix.trans ?_ hsuf2
                exact ⟨w, hw.symm⟩
          · rw [if_pos hz.err]
            have := hz.mono (hsuf2.trans hsuf)
            exact ⟨_, rfl, Or.inr ⟨this.err, this.suffix, this.seen⟩⟩
      | false =>
        have ht : IsValueTok tok := ht
        dsimp only
        rw [if_neg (by rcases ht with rfl | rfl | rfl <;> simp), if_neg (by rcases ht with rfl | rfl | rfl <;> simp),
          if_pos (by rcases ht with rfl | rfl | rfl <;> simp), if_pos hcnt, if_neg (by simp), ok_bind]
        obtain ⟨z, ez, hz⟩ := item_sound ih (a := a) hlex ht (he'.trans he) hlast hb' hlt
        rw [ez, ok_bind]
        rcases hz with ⟨z1, z2, z3, j, w, hj, hw⟩ | hz
        · rw [if_neg (by simp [z1])]
          exact go (body ++ w) z ⟨_, hj⟩ z2 z3 (by rw [hr, hw]; simp) ⟨w, hw.symm⟩
        · rw [if_pos hz.err]
          have := hz.mono hsuf
          exact ⟨_, rfl, Or.inr ⟨this.err, this.suffix, this.seen⟩⟩
  · obtain ⟨r', e, hf⟩ := next_error (isObj := isObj) hb hE hk
    rw [e, ok_bind]
    dsimp only
    rw [if_neg (by simp), if_neg (by simp), if_neg (by simp), if_pos hf.1]
    exact ⟨_, rfl, Or.inr ⟨hf.1, hf.2, Or.inl hf.1⟩⟩

theorem sound : ∀ fuel, Sound fuel
  | 0 => fun _ _ _ _ _ h => absurd h (Nat.not_lt_zero _)
  | n + 1 => sound_step (sound n)

end Tm.Json
