import Verif.Json.ExJson

/-! # Reading JSON texts with the extended reader and every set of flags -/

namespace Tm.Json

open Tm Tm.Json.Spec

variable {P Q : List Byte → Prop} {R : Shown} (f : FlagsEx)

/-- `r` is `k` behind white space. -/
def Behind (k r : List Byte) : Prop := ∃ b, Ws b ∧ k = b ++ r

theorem Behind.refl (k : List Byte) : Behind k k := ⟨[], by simp [Ws], rfl⟩

theorem Behind.length {k r : List Byte} (h : Behind k r) : r.length ≤ k.length := by
  obtain ⟨b, _, rfl⟩ := h
  simp

theorem Behind.elim {a t r : List Byte} {c : Byte} (h : Behind (a ++ c :: t) r) (hc : isWs c = false) (ha : Ws a) :
    ∃ a', Ws a' ∧ r = a' ++ c :: t := by
  obtain ⟨b, hb, e⟩ := h
  rcases List.append_eq_append_iff.1 e with ⟨x, rfl, e2⟩ | ⟨x, rfl, e2⟩
  · cases x with
    | nil => exact ⟨[], by simp [Ws], by simpa using e2.symm⟩
    | cons y x =>
      simp only [List.cons_append, List.cons.injEq] at e2
      exact absurd (by rw [e2.1]; simp) (ws_not hb hc)
  · exact ⟨x, fun z hz => ha z (by simp [hz]), e2⟩

theorem Behind.ws {k r : List Byte} (h : Behind k r) (hk : Ws k) : Ws r := by
  obtain ⟨b, _, rfl⟩ := h
  exact fun z hz => hk z (by simp [hz])

theorem Calm.stop {k : List Byte} (h : Calm k) : Stop k := by
  rcases h with h | ⟨a, c, t, ha, hc, rfl⟩
  · exact stop_white h
  · exact stop_ws ha hc

theorem calm_closing {b k : List Byte} (isObj : Bool) (hb : Ws b) : Calm (b ++ closing isObj :: k) :=
  Or.inr ⟨b, closing isObj, k, hb, by cases isObj <;> simp [closing], rfl⟩

theorem calm_values {js : List Json} {t b k : List Byte} (ht : MoreValues P Q js t) (isObj : Bool) (hb : Ws b) :
    Calm (t ++ (b ++ closing isObj :: k)) := by
  cases ht with
  | nil => exact calm_closing isObj hb
  | cons ha _ _ _ =>
    rw [List.append_assoc, List.cons_append]
    exact Or.inr ⟨_, _, _, ha, Or.inl rfl, rfl⟩

theorem calm_members {ms : List (List Byte × Json)} {t b k : List Byte} (ht : MoreMembers P Q ms t) (isObj : Bool) (hb : Ws b) :
    Calm (t ++ (b ++ closing isObj :: k)) := by
  cases ht with
  | nil => exact calm_closing isObj hb
  | cons ha _ _ _ =>
    rw [List.append_assoc, List.cons_append]
    exact Or.inr ⟨_, _, _, ha, Or.inl rfl, rfl⟩

/-- The first token of a value: the value, or an opening bracket before `w` and the closing one. -/
def FirstTokEx (v k : List Byte) (y : Tok × Reader) : Prop :=
  (y.1 = .value ∧ Behind k y.2.rest ∧ y.2.last = .value) ∨
  (∃ isObj w, v = opening isObj :: (w ++ [closing isObj]) ∧ (∀ ctx k, Skips ctx k w) ∧ y.1 = startTok isObj ∧
    y.2.rest = w ++ closing isObj :: k ∧ y.2.last = startTok isObj)

theorem tok_valueEx {ctx : Ctx} {q : Reader} {l : Tok} {sep v k : List Byte} {j : Json} (hv : Value P Q j v)
    (hs : Sep ctx q.last l sep) (hl : CanValue ctx l) (hr : q.rest = sep ++ (v ++ k)) (hk : Calm k)
    (ho : ctx = .null → q.root = false) (he : q.err = .ok) :
    ∃ y, nextTokenEx f ctx q = .ok y ∧ y.2.err = q.err ∧ FirstTokEx v k y := by
  obtain ⟨q1, a, e1, h1, ha, h2, h3, h4⟩ := sep_elim hs hr
  have hl1 : CanValue ctx q1.last := h2 ▸ hl
  have ho1 : ctx = .null → q1.root = false := fun h => h4.trans (ho h)
  rcases value_cases hv with ⟨t, hsc⟩ | ⟨raw, text, rfl, rfl, hb, _⟩ | ⟨isObj, w, rfl, hw⟩
  · obtain ⟨r', e, g1, g2, g3, _⟩ := tok_scal h1 ha hsc hk.stop hl1 ho1
    obtain ⟨r2, e2, ah⟩ := nextTokenEx_of f (e1.trans e) he (by simp) (fun _ => g1 ▸ hk)
    exact ⟨_, e2, (ah.err.trans g3).trans h3, Or.inl ⟨rfl, g1 ▸ ah.rest, ah.last.trans g2⟩⟩
  · obtain ⟨r', e, g1, g2, g3, _⟩ := tok_str h1 ha hb hl1
    obtain ⟨r2, e2, ah⟩ := nextTokenEx_of f (e1.trans e) he (by simp) (fun _ => g1 ▸ hk)
    exact ⟨_, e2, (ah.err.trans g3).trans h3, Or.inl ⟨rfl, g1 ▸ ah.rest, ah.last.trans g2⟩⟩
  · obtain ⟨r', e, g1, g2, g3⟩ := tok_start (a := a) (t := w ++ closing isObj :: k) isObj (by rw [h1]; simp; rfl) ha hl1 ho1
    obtain ⟨r2, e2, ah⟩ := nextTokenEx_of f (e1.trans e) he (by cases isObj <;> simp) (by cases isObj <;> simp)
    have := ah.same (by cases isObj <;> simp)
    subst this
    exact ⟨_, e2, g3.trans h3, Or.inr ⟨isObj, w, rfl, hw, rfl, g1, g2⟩⟩

/-- Tokens of a member and the end of a container. -/
theorem tok_nameEx {r : Reader} {a raw text t : List Byte} (hr : r.rest = a ++ (quoted raw ++ t)) (ha : Ws a) (hb : Body raw text)
    (hl : r.last = .objStart ∨ r.last = .comma) {q : Reader} (hq : nextToken strict .object q = nextToken strict .object r) (he : q.err = .ok) :
    ∃ r', nextTokenEx f .object q = .ok (.propName, r') ∧ r'.rest = t ∧ r'.last = .propName ∧ r'.err = r.err ∧
      r'.cur = ⟨false, raw ++ 0x22 :: t, raw.length⟩ := by
  obtain ⟨r', e, h⟩ := tok_name hr ha hb hl
  obtain ⟨r2, e2, ah⟩ := nextTokenEx_of f (hq.trans e) he (by simp) (by simp)
  have := ah.same (by simp)
  subst this
  exact ⟨_, e2, h⟩

theorem tok_endEx {r : Reader} {a t : List Byte} (isObj : Bool) (hr : r.rest = a ++ closing isObj :: t) (ha : Ws a) (hl : CanEnd r.last)
    (he : r.err = .ok) :
    ∃ r', nextTokenEx f (ctxOf isObj) r = .ok (endTok isObj, r') ∧ r'.rest = t ∧ r'.last = endTok isObj ∧ r'.err = r.err := by
  obtain ⟨r', e, h⟩ := tok_end isObj hr ha hl
  obtain ⟨r2, e2, ah⟩ := nextTokenEx_of f e he (by cases isObj <;> simp) (by cases isObj <;> simp)
  have := ah.same (by cases isObj <;> simp)
  subst this
  exact ⟨_, e2, h⟩

/-- Skipping a container. -/
theorem skip_containerEx {ctx : Ctx} {r : Reader} {isObj : Bool} {w k : List Byte} (hw : ∀ ctx k, Skips ctx k w)
    (hr : r.rest = w ++ closing isObj :: k) (hl : r.last = startTok isObj) (he : r.err = .ok) :
    ∃ r', skipCurrentEx f ctx r = .ok (true, r') ∧ r'.rest = k ∧ r'.last = endTok isObj ∧ r'.err = .ok := by
  unfold skipCurrentEx
  rw [if_neg (by cases isObj <;> simp [he, hr, hl]), if_neg (by rw [hl]; cases isObj <;> decide)]
  have : decide (r.last = .objStart) = isObj := by rw [hl]; cases isObj <;> rfl
  rw [this]
  obtain ⟨r', e, h1, h2, h3⟩ := bracket_end (ctx := ctx) (isObj := isObj) (hw ctx isObj) hr (Nat.lt_succ_self _)
  exact ⟨r', e, h1, h2, h3.trans he⟩

/-- Skipping the value of a member. -/
theorem skip_memberEx {r : Reader} {j : Json} {a b v k : List Byte} (hv : Value P Q j v)
    (ha : Ws a) (hb : Ws b) (hr : r.rest = a ++ (chr ':' :: (b ++ (v ++ k)))) (hl : r.last = .propName) (he : r.err = .ok)
    (hk : Calm k) :
    ∃ x r', skipCurrentEx f .object r = .ok (x, r') ∧ Behind k r'.rest ∧ Ends r'.last ∧ r'.err = .ok := by
  obtain ⟨y, e, h1, h2⟩ := tok_valueEx f (ctx := .object) (q := r) (l := .colon) (sep := a ++ 0x3A :: b) (k := k) hv
    (hl ▸ Sep.colon rfl ha hb) rfl (by rw [hr]; simp [chr]) hk (by simp) he
  unfold skipCurrentEx
  rw [if_neg (by simp [he, hr, hl]), if_pos hl, contentLoopEx, e, ok_bind]
  rcases h2 with ⟨g1, g2, g3⟩ | ⟨isObj, w, rfl, hw, g1, g2, g3⟩
  · rw [g1]
    exact ⟨_, _, rfl, g2, Or.inr (Or.inr g3), h1.trans he⟩
  · obtain ⟨r', e', h3, h4, h5⟩ := bracket_end (ctx := ctxOf isObj) (isObj := isObj) (r := y.2) (hw _ isObj) g2 (Nat.lt_succ_self _)
    rw [g1]
    cases isObj
    · simp only [startTok, Bool.false_eq_true, if_false, ok_bind]
      rw [if_neg (by simp [h1, he])]
      have : decide (y.2.last = .objStart) = false := by rw [g3]; rfl
      rw [this]
      exact ⟨_, r', e', h3 ▸ Behind.refl _, Or.inr (Or.inl h4), h5.trans (h1.trans he)⟩
    · simp only [startTok, if_true, ok_bind]
      rw [if_neg (by simp [h1, he])]
      have : decide (y.2.last = .objStart) = true := by rw [g3]; rfl
      rw [this]
      exact ⟨_, r', e', h3 ▸ Behind.refl _, Or.inl h4, h5.trans (h1.trans he)⟩

/-! ### Counting -/

/-- The value of an element of an array is counted. -/
theorem count_valueEx {q : Reader} {l : Tok} {sep v k : List Byte} {j : Json} (n m : Nat) (hv : Value P Q j v)
    (hs : Sep .array q.last l sep) (hl : l = .arrStart ∨ l = .comma) (hr : q.rest = sep ++ (v ++ k)) (hk : Calm k)
    (he : q.err = .ok) :
    ∃ q', countLoopEx f false (n + 1) m q = countLoopEx f false n (m + 1) q' ∧ Behind k q'.rest ∧ Ends q'.last ∧ q'.err = .ok := by
  obtain ⟨y, e, h1, h2⟩ := tok_valueEx f hv hs hl hr hk (by simp) he
  rw [countLoopEx]
  dsimp only [Bool.false_eq_true, if_false]
  rw [if_neg (by simp), e, ok_bind]
  rcases h2 with ⟨g1, g2, g3⟩ | ⟨isObj, w, rfl, hw, g1, g2, g3⟩
  · rw [if_neg (by simp [g1]), if_pos (by simp [g1])]
    exact ⟨_, rfl, g2, Or.inr (Or.inr g3), h1.trans he⟩
  · rw [if_pos (by cases isObj <;> simp [g1])]
    obtain ⟨r', e', h3, h4, h5⟩ := skip_containerEx f (ctx := .array) hw g2 g3 (h1.trans he)
    rw [e', ok_bind]
    exact ⟨r', rfl, h3 ▸ Behind.refl _, by cases isObj <;> simp [Ends, h4], h5⟩

/-- A member of an object is counted. -/
theorem count_memberEx {q : Reader} {l : Tok} {sep u k : List Byte} {mem : List Byte × Json} (n m : Nat) (hm : Member P Q mem u)
    (hs : Sep .object q.last l sep) (hl : l = .objStart ∨ l = .comma) (hr : q.rest = sep ++ (u ++ k)) (hk : Calm k)
    (he : q.err = .ok) :
    ∃ q', countLoopEx f true (n + 1) m q = countLoopEx f true n (m + 1) q' ∧ Behind k q'.rest ∧ Ends q'.last ∧ q'.err = .ok := by
  cases hm with
  | @mk raw name a b j v hb hq ha hc hv =>
    obtain ⟨q1, c, e1, h1, hc1, h2, h3, _⟩ := sep_elim hs hr
    obtain ⟨r', e, g1, g2, g3, _⟩ := tok_nameEx f (r := q1) (a := c) (raw := raw) (t := a ++ (chr ':' :: (b ++ (v ++ k))))
      (by rw [h1]; simp) hc1 hb (h2 ▸ hl) e1 he
    obtain ⟨x, r2, e2, f1, f2, f3⟩ := skip_memberEx f hv ha hc g1 g2 ((g3.trans h3).trans he) hk
    rw [countLoopEx]
    dsimp only [if_true]
    rw [if_pos rfl, e, ok_bind, if_pos (by simp), e2, ok_bind]
    exact ⟨r2, rfl, f1, f2, f3⟩

/-- The closing bracket ends the loop. -/
theorem count_endEx {q : Reader} {a k : List Byte} (isObj : Bool) (n m : Nat) (ha : Ws a) (hr : q.rest = a ++ closing isObj :: k)
    (hl : CanEnd q.last) (he : q.err = .ok) : ∃ q', countLoopEx f isObj (n + 1) m q = .ok (.ok, m, q') := by
  obtain ⟨r', e, _⟩ := tok_endEx f isObj hr ha hl he
  rw [countLoopEx]
  dsimp only
  rw [e, ok_bind]
  cases isObj
  · exact ⟨r', by simp [endTok]⟩
  · exact ⟨r', by simp [endTok]⟩

theorem count_valuesEx : ∀ (js : List Json) (t : List Byte), MoreValues P Q js t → ∀ (b k : List Byte) (n m : Nat) (q : Reader), Ws b →
    Behind (t ++ (b ++ closing false :: k)) q.rest → Ends q.last → q.err = .ok → q.rest.length < n →
    ∃ q', countLoopEx f false n m q = .ok (.ok, m + js.length, q') := by
  intro js
  induction js with
  | nil =>
    intro t ht b k n m q hb hr hl he hn
    cases ht
    obtain ⟨b', hb', hr'⟩ := hr.elim rfl hb
    cases n with
    | zero => omega
    | succ n => exact count_endEx f false n m hb' hr' hl.canEnd he
  | cons j js ih =>
    intro t ht b k n m q hb hr hl he hn
    cases ht with
    | @cons a c _ v _ t ha hc hv ht =>
      cases n with
      | zero => omega
      | succ n =>
        obtain ⟨a', ha', hr'⟩ := Behind.elim (a := a) (c := 0x2C) (t := c ++ v ++ t ++ (b ++ closing false :: k)) (by simpa [chr] using hr) rfl ha
        obtain ⟨q', e, h1, h2, h3⟩ := count_valueEx f (q := q) (l := .comma) (sep := a' ++ 0x2C :: c) n m hv
          (Sep.comma (by simp) hl ha' hc) (Or.inr rfl) (k := t ++ (b ++ closing false :: k)) (by rw [hr']; simp)
          (calm_values ht false hb) he
        obtain ⟨q2, e2⟩ := ih t ht b k n (m + 1) q' hb h1 h2 h3 (by
          have := h1.length; rw [hr'] at hn; simp at hn this; omega)
        exact ⟨q2, by rw [e, e2, List.length_cons, Nat.add_assoc, Nat.add_comm 1]⟩

theorem count_membersEx : ∀ (ms : List (List Byte × Json)) (t : List Byte), MoreMembers P Q ms t → ∀ (b k : List Byte) (n m : Nat)
    (q : Reader), Ws b → Behind (t ++ (b ++ closing true :: k)) q.rest → Ends q.last → q.err = .ok → q.rest.length < n →
    ∃ q', countLoopEx f true n m q = .ok (.ok, m + ms.length, q') := by
  intro ms
  induction ms with
  | nil =>
    intro t ht b k n m q hb hr hl he hn
    cases ht
    obtain ⟨b', hb', hr'⟩ := hr.elim rfl hb
    cases n with
    | zero => omega
    | succ n => exact count_endEx f true n m hb' hr' hl.canEnd he
  | cons j js ih =>
    intro t ht b k n m q hb hr hl he hn
    cases ht with
    | @cons a c _ v _ t ha hc hv ht =>
      cases n with
      | zero => omega
      | succ n =>
        obtain ⟨a', ha', hr'⟩ := Behind.elim (a := a) (c := 0x2C) (t := c ++ v ++ t ++ (b ++ closing true :: k)) (by simpa [chr] using hr) rfl ha
        obtain ⟨q', e, h1, h2, h3⟩ := count_memberEx f (q := q) (l := .comma) (sep := a' ++ 0x2C :: c) n m hv
          (Sep.comma (by simp) hl ha' hc) (Or.inr rfl) (k := t ++ (b ++ closing true :: k)) (by rw [hr']; simp)
          (calm_members ht true hb) he
        obtain ⟨q2, e2⟩ := ih t ht b k n (m + 1) q' hb h1 h2 h3 (by
          have := h1.length; rw [hr'] at hn; simp at hn this; omega)
        exact ⟨q2, by rw [e, e2, List.length_cons, Nat.add_assoc, Nat.add_comm 1]⟩

/-- What reading a value does to the memory and to the reader.  -/
structure DoneEx (R : Shown) (j : Json) (len : Nat) (a : Alloc) (k : List Byte) (z : Result JVal) : Prop where
  err : z.err = .ok
  val : MeansBy R z.val j
  rest : Behind k z.reader.rest
  last : Ends z.reader.last
  rerr : z.reader.err = .ok
  cap : z.alloc.capacity = a.capacity
  size : z.alloc.size + 32 ≤ a.size + 32 * len

/-- Reading a container after its opening bracket. -/
def InnerOkEx (R : Shown) (isObj : Bool) (j : Json) (w : List Byte) : Prop :=
  ∀ (fuel : Nat) (a : Alloc) (r : Reader) (k : List Byte), r.rest = w ++ k → r.last = startTok isObj → r.err = .ok →
    r.rest.length < fuel → a.size + 32 * (w.length + 1) ≤ a.capacity + 32 →
    ∃ z, itemEx f fuel a (startTok isObj, r) = .ok z ∧ DoneEx R j (w.length + 1) a k z

/-- The first token of a value, and the value. -/
def ReadOkEx (R : Shown) (j : Json) (v : List Byte) : Prop :=
  ∀ (ctx : Ctx) (q : Reader) (l : Tok) (sep k : List Byte) (fuel : Nat) (a : Alloc), Sep ctx q.last l sep → CanValue ctx l →
    (ctx = .null → q.root = false) → q.rest = sep ++ (v ++ k) → Calm k → (k ≠ [] ∨ PlainLast v ∨ ∀ t w, w.null = false → R.num w t) → q.err = .ok → q.rest.length ≤ fuel →
    a.size + 32 * v.length ≤ a.capacity + 32 →
    ∃ y z, nextTokenEx f ctx q = .ok y ∧ (y.1 = .value ∨ y.1 = .objStart ∨ y.1 = .arrStart) ∧ itemEx f fuel a y = .ok z ∧
      DoneEx R j v.length a k z

theorem read_valueEx {j : Json} {v : List Byte} (hc : Cond P Q R) (hv : Value P Q j v)
    (hin : ∀ isObj w, v = opening isObj :: w → InnerOkEx f R isObj j w) : ReadOkEx f R j v := by
  intro ctx q l sep k fuel a hs hl ho hr hk hk0 he hf hm
  obtain ⟨q1, b, e1, h1, hb, h2, h3, h4⟩ := sep_elim hs hr
  have hl1 : CanValue ctx q1.last := h2 ▸ hl
  have ho1 : ctx = .null → q1.root = false := fun h => h4.trans (ho h)
  rcases value_cases hv with ⟨t, hsc⟩ | ⟨raw, text, rfl, rfl, hbo, hp⟩ | ⟨isObj, w, rfl, _⟩
  · obtain ⟨r', e, g1, g2, g3, g4, g5, g6, g7⟩ := tok_scal h1 hb hsc hk.stop hl1 ho1
    obtain ⟨r2, er, ah⟩ := nextTokenEx_of f (e1.trans e) he (by simp) (fun _ => g1 ▸ hk)
    refine ⟨_, ⟨.ok, .scalar t r2.cur, a, r2⟩, er, Or.inl rfl, ?_, ?_⟩
    · unfold itemEx
      rw [if_neg (by simp), if_pos rfl]
      unfold readScalarEx
      dsimp only
      have hns := scal_notString hsc
      have hnc : t ≠ .concatString ∧ t ≠ .rawString := by
        cases hsc with
        | null => simp
        | bool b => simp
        | @num m i f e hn => rcases numType_cases m f e with h | h | h <;> simp [h]
      rw [if_neg (by rw [ah.vtype, g4]; exact hns), if_neg (by rw [ah.vtype, g4]; exact hnc.1), if_neg (by rw [ah.vtype, g4]; exact hnc.2), ok_bind, ah.vtype, g4]
    · obtain ⟨c, u, rfl, _⟩ := scal_head hsc
      refine ⟨rfl, scal_means hsc (fun h => by rw [ah.cur]; exact ⟨g5, view_text g6 (g7 (Or.inr h))⟩) ?_, g1 ▸ ah.rest, Or.inr (Or.inr (ah.last.trans g2)),
        ((ah.err.trans g3).trans h3).trans he, rfl, by simp⟩
      rw [ah.cur]
      rcases hk0 with h | h | h
      · exact hc.num _ _ ⟨g5, view_text g6 (g7 (Or.inl h))⟩
      · exact hc.num _ _ ⟨g5, view_text g6 (g7 (scal_last hsc (Or.inr h)))⟩
      · exact h _ _ g5
  · obtain ⟨r', e, g1, g2, g3, g4, g5⟩ := tok_str h1 hb hbo hl1
    obtain ⟨r2, er, ah⟩ := nextTokenEx_of f (e1.trans e) he (by simp) (fun _ => g1 ▸ hk)
    have hlen : (quoted raw).length = raw.length + 2 := by simp [quoted]
    rw [hlen] at hm
    obtain ⟨w, a', f1, f2, f3, f4, f5⟩ := string_ok (a := a) (v := r2.cur) hbo (by rw [ah.cur, g5]; exact view_text rfl rfl) (by omega)
    refine ⟨_, ⟨.ok, .scalar .string w, a', r2⟩, er, Or.inl rfl, ?_, ?_⟩
    · unfold itemEx
      rw [if_neg (by simp), if_pos rfl]
      unfold readScalarEx
      dsimp only
      rw [if_pos (ah.vtype.trans g4), f1, ok_bind, ok_bind]
    · refine ⟨rfl, MeansBy.str (hc.str raw text w hp f4 f5), g1 ▸ ah.rest, Or.inr (Or.inr (ah.last.trans g2)), ((ah.err.trans g3).trans h3).trans he, f2, ?_⟩
      rw [hlen]; dsimp only; omega
  · obtain ⟨r', e, g1, g2, g3⟩ := tok_start (a := b) (t := (w ++ [closing isObj]) ++ k) isObj (by rw [h1]; rfl) hb hl1 ho1
    obtain ⟨r2, er, ah⟩ := nextTokenEx_of f (e1.trans e) he (by cases isObj <;> simp) (by cases isObj <;> simp)
    have := ah.same (by cases isObj <;> simp)
    subst this
    have hlen : r2.rest.length < fuel := by
      have : q.rest.length = sep.length + ((w ++ [closing isObj]).length + 1 + k.length) := by
        rw [hr]; simp; omega
      rw [g1, List.length_append]
      omega
    obtain ⟨z, e2, hz⟩ := hin isObj (w ++ [closing isObj]) rfl fuel a r2 k g1 g2 ((g3.trans h3).trans he) hlen
      (by rw [List.length_cons] at hm; exact hm)
    exact ⟨_, z, er, by cases isObj <;> simp, e2, by rw [List.length_cons]; exact hz⟩

/-- What reading the rest of a container does. -/
structure DoneAllEx (isObj : Bool) (acc vs : List (View × JVal)) (bound : Nat) (a : Alloc) (k : List Byte)
    (z : Result (List (View × JVal))) : Prop where
  err : z.err = .ok
  val : z.val = acc ++ vs
  rest : z.reader.rest = k
  last : z.reader.last = endTok isObj
  rerr : z.reader.err = .ok
  cap : z.alloc.capacity = a.capacity
  size : z.alloc.size ≤ bound

theorem read_endEx {isObj : Bool} {q : Reader} {b k : List Byte} {count : Nat} {acc : List (View × JVal)} (fuel : Nat) (a : Alloc)
    (hb : Ws b) (hr : q.rest = b ++ closing isObj :: k) (hl : CanEnd q.last) (he : q.err = .ok) (hc : acc.length = count) :
    ∃ z, readLoopEx f (fuel + 1) isObj count acc a q = .ok z ∧ DoneAllEx isObj acc [] a.size a k z := by
  obtain ⟨r', e, g1, g2, g3⟩ := tok_endEx f isObj hr hb hl he
  rw [readLoopEx_eq]
  have : nextTokenEx f (ctxOf isObj) q = .ok (endTok isObj, r') := e
  rw [this, ok_bind, if_pos (by cases isObj <;> simp)]
  refine ⟨_, rfl, g3.trans he, ?_, g1, g2, g3.trans he, rfl, Nat.le_refl _⟩
  simp [pad, hc]

/-- One element of an array. -/
theorem read_elemEx {q : Reader} {l : Tok} {sep v k : List Byte} {j : Json} {fuel count : Nat} {acc : List (View × JVal)} {a : Alloc}
    (hv : ReadOkEx f R j v) (hs : Sep .array q.last l sep) (hl : l = .arrStart ∨ l = .comma) (hr : q.rest = sep ++ (v ++ k)) (hk : Calm k)
    (hk0 : k ≠ []) (he : q.err = .ok) (hf : q.rest.length ≤ fuel) (hm : a.size + 32 * v.length ≤ a.capacity + 32)
    (hc : acc.length < count) :
    ∃ z : Result JVal, ∃ n : View, readLoopEx f (fuel + 1) false count acc a q =
      readLoopEx f fuel false count (acc ++ [(n, z.val)]) z.alloc z.reader ∧ DoneEx R j v.length a k z := by
  obtain ⟨y, z, e1, h1, e2, h2⟩ := hv .array q l sep k fuel a hs hl (by simp) hr hk (Or.inl hk0) he hf hm
  rw [readLoopEx_eq]
  have : nextTokenEx f (ctxOf false) q = .ok y := e1
  rw [this, ok_bind, if_neg (by rcases h1 with h | h | h <;> simp [h]), if_neg (by rcases h1 with h | h | h <;> simp [h]),
    if_pos (by rcases h1 with h | h | h <;> simp [h]), if_pos hc]
  rw [if_neg (by simp), ok_bind, e2, ok_bind, if_neg (by simp [h2.err])]
  exact ⟨z, _, rfl, h2⟩

/-- One member of an object. -/
theorem read_memberEx {q : Reader} {l : Tok} {sep k raw name a1 b1 v : List Byte} {j : Json} {fuel count : Nat}
    {acc : List (View × JVal)} {a : Alloc} (hb : Body raw name) (ha1 : Ws a1) (hb1 : Ws b1)
    (hv : ReadOkEx f R j v) (hs : Sep .object q.last l sep) (hl : l = .objStart ∨ l = .comma)
    (hr : q.rest = sep ++ ((quoted raw ++ (a1 ++ (chr ':' :: (b1 ++ v)))) ++ k)) (hk : Calm k)
    (hk0 : k ≠ []) (he : q.err = .ok) (hf : q.rest.length ≤ fuel) (hm : a.size + 32 * v.length ≤ a.capacity + 32)
    (hc : acc.length < count) :
    ∃ z : Result JVal, ∃ n : View, Shows n raw ∧ readLoopEx f (fuel + 1) true count acc a q =
      readLoopEx f fuel true count (acc ++ [(n, z.val)]) z.alloc z.reader ∧ DoneEx R j v.length a k z := by
  obtain ⟨q1, c, e1, h1, hc1, h2, h3, _⟩ := sep_elim hs hr
  obtain ⟨r', e, g1, g2, g3, g4⟩ := tok_nameEx f (r := q1) (a := c) (raw := raw) (t := a1 ++ (chr ':' :: (b1 ++ (v ++ k))))
    (by rw [h1]; simp) hc1 hb (h2 ▸ hl) e1 he
  obtain ⟨y, z, e2, f1, e3, f2⟩ := hv .object r' .colon (a1 ++ 0x3A :: b1) k fuel a (g2 ▸ Sep.colon rfl ha1 hb1) rfl (by simp)
    (by rw [g1]; simp [chr]) hk (Or.inl hk0) ((g3.trans h3).trans he)
    (by rw [hr] at hf; rw [g1]; simp at hf ⊢; omega) hm
  rw [readLoopEx_eq]
  have : nextTokenEx f (ctxOf true) q = .ok (.propName, r') := e
  rw [this, ok_bind, if_neg (by simp), if_neg (by simp), if_pos (by simp), if_pos hc]
  dsimp only
  have hval : valueTokenEx f (r'.rest.length + 1) r' = .ok y := by
    rw [valueTokenEx, e2, ok_bind, if_neg (by rcases f1 with h | h | h <;> simp [h])]
  rw [if_pos rfl, hval, ok_bind, e3, ok_bind, if_neg (by simp [f2.err])]
  exact ⟨z, _, by rw [g4]; exact ⟨rfl, view_text rfl rfl⟩, rfl, f2⟩

theorem read_valuesEx {n : Nat} (ih : ∀ j v, Value P Q j v → v.length < n → ReadOkEx f R j v) :
    ∀ (js : List Json) (t : List Byte), MoreValues P Q js t → t.length < n → ∀ (b k : List Byte) (fuel count : Nat)
      (acc : List (View × JVal)) (a : Alloc) (q : Reader), Ws b → Behind (t ++ (b ++ closing false :: k)) q.rest → Ends q.last → q.err = .ok →
      q.rest.length < fuel → acc.length + js.length = count → a.size + 32 * t.length ≤ a.capacity + 64 * js.length →
      ∃ z vs, readLoopEx f fuel false count acc a q = .ok z ∧ List.Forall₂ (MeansBy R) (vs.map (·.2)) js ∧
        DoneAllEx false acc vs (a.size + 32 * t.length - 64 * js.length) a k z := by
  intro js
  induction js with
  | nil =>
    intro t ht _ b k fuel count acc a q hb hr hl he hf hc hm
    cases ht
    cases fuel with
    | zero => omega
    | succ fuel =>
      obtain ⟨b', hb', hr'⟩ := hr.elim (by rfl) hb
      obtain ⟨z, e, hz⟩ := read_endEx f (acc := acc) fuel a hb' hr' hl.canEnd he (by simpa using hc)
      exact ⟨z, [], e, List.Forall₂.nil, by simpa using hz⟩
  | cons j js ihjs =>
    intro t ht hn b k fuel count acc a q hb hr hl he hf hc hm
    cases ht with
    | @cons c d _ v _ t hc1 hd1 hv ht =>
      cases fuel with
      | zero => omega
      | succ fuel =>
        have hv0 := value_length hv
        have ht0 := values_length _ _ ht
        simp only [List.length_append, List.length_cons] at hn hm hc ⊢
        obtain ⟨c', hc1', hr⟩ := Behind.elim (a := c) (c := 0x2C) (t := d ++ v ++ t ++ (b ++ closing false :: k)) (by simpa [chr] using hr) rfl hc1
        have hr' : q.rest.length = c'.length + (1 + d.length) + (v.length + (t ++ (b ++ closing false :: k)).length) := by
          rw [hr]; simp; omega
        obtain ⟨z, nm, e, hz⟩ := read_elemEx f (R := R) (q := q) (l := .comma) (sep := c' ++ 0x2C :: d) (fuel := fuel) (count := count)
          (acc := acc) (a := a) (k := t ++ (b ++ closing false :: k)) (ih j v hv (by omega))
          (Sep.comma (by simp) hl hc1' hd1) (Or.inr rfl) (by rw [hr]; simp [chr]) (calm_values ht false hb) (by simp) he (by omega)
          (by omega) (by omega)
        have hsz := hz.size
        obtain ⟨z2, vs, e2, h2, h3⟩ := ihjs t ht (by omega) b k fuel count (acc ++ [(nm, z.val)]) z.alloc z.reader hb hz.rest hz.last
          hz.rerr (by have := hz.rest.length; omega) (by simp; omega) (by rw [hz.cap]; omega)
        refine ⟨z2, (nm, z.val) :: vs, e.trans e2, ?_, h3.err, ?_, h3.rest, h3.last, h3.rerr, h3.cap.trans hz.cap, ?_⟩
        · exact List.Forall₂.cons (hz.val) h2
        · rw [h3.val]; simp
        · have := h3.size; omega

theorem read_membersEx {n : Nat} (hcond : Cond P Q R) (ih : ∀ j v, Value P Q j v → v.length < n → ReadOkEx f R j v) :
    ∀ (ms : List (List Byte × Json)) (t : List Byte), MoreMembers P Q ms t → t.length < n → ∀ (b k : List Byte) (fuel count : Nat)
      (acc : List (View × JVal)) (a : Alloc) (q : Reader), Ws b → Behind (t ++ (b ++ closing true :: k)) q.rest → Ends q.last → q.err = .ok →
      q.rest.length < fuel → acc.length + ms.length = count → a.size + 32 * t.length ≤ a.capacity + 160 * ms.length →
      ∃ z vs, readLoopEx f fuel true count acc a q = .ok z ∧ (List.Forall₂ (fun v m => R.name v.1 m.1) vs ms ∧
        List.Forall₂ (MeansBy R) (vs.map (·.2)) (ms.map (·.2))) ∧
        DoneAllEx true acc vs (a.size + 32 * t.length - 160 * ms.length) a k z := by
  intro ms
  induction ms with
  | nil =>
    intro t ht _ b k fuel count acc a q hb hr hl he hf hc hm
    cases ht
    cases fuel with
    | zero => omega
    | succ fuel =>
      obtain ⟨b', hb', hr'⟩ := hr.elim (by rfl) hb
      obtain ⟨z, e, hz⟩ := read_endEx f (acc := acc) fuel a hb' hr' hl.canEnd he (by simpa using hc)
      exact ⟨z, [], e, ⟨List.Forall₂.nil, List.Forall₂.nil⟩, by simpa using hz⟩
  | cons m ms ihms =>
    intro t ht hn b k fuel count acc a q hb hr hl he hf hc hm
    cases ht with
    | @cons c d _ u _ t hc1 hd1 hmem ht =>
      cases hmem with
      | @mk raw name a1 b1 j v hbo hq ha1 hb1 hv =>
      cases fuel with
      | zero => omega
      | succ fuel =>
        have hv0 := value_length hv
        have ht0 := members_length _ _ ht
        have hql : (quoted raw).length = raw.length + 2 := by simp [quoted]
        simp only [List.length_append, List.length_cons, hql] at hn hm hc ⊢
        obtain ⟨c', hc1', hr⟩ := Behind.elim (a := c) (c := 0x2C) (t := d ++ (quoted raw ++ (a1 ++ chr ':' :: (b1 ++ v))) ++ t ++ (b ++ closing true :: k))
          (by simpa [chr] using hr) rfl hc1
        have hr' : q.rest.length = c'.length + (1 + d.length) + (raw.length + 2 + a1.length + 1 + b1.length + v.length +
            (t ++ (b ++ closing true :: k)).length) := by
          rw [hr]; simp [quoted]; omega
        obtain ⟨z, nm, hnm, e, hz⟩ := read_memberEx f (R := R) (q := q) (l := .comma) (sep := c' ++ 0x2C :: d) (fuel := fuel) (count := count)
          (acc := acc) (a := a) (k := t ++ (b ++ closing true :: k)) hbo ha1 hb1 (ih j v hv (by omega))
          (Sep.comma (by simp) hl hc1' hd1) (Or.inr rfl) (by rw [hr]; simp [chr]) (calm_members ht true hb) (by simp) he (by omega)
          (by omega) (by omega)
        have hsz := hz.size
        obtain ⟨z2, vs, e2, h2, h3⟩ := ihms t ht (by omega) b k fuel count (acc ++ [(nm, z.val)]) z.alloc z.reader hb hz.rest hz.last
          hz.rerr (by have := hz.rest.length; omega) (by simp; omega) (by rw [hz.cap]; omega)
        refine ⟨z2, (nm, z.val) :: vs, e.trans e2, ?_, h3.err, ?_, h3.rest, h3.last, h3.rerr, h3.cap.trans hz.cap, ?_⟩
        · obtain ⟨h4, h5⟩ := h2
          refine ⟨List.Forall₂.cons ?_ h4, List.Forall₂.cons (hz.val) h5⟩
          exact hcond.name raw name nm hq hbo hnm
        · rw [h3.val]; simp
        · have := h3.size; omega

theorem inner_okEx (hcond : Cond P Q R) : ∀ (n : Nat) (isObj : Bool) (j : Json) (w : List Byte), Value P Q j (opening isObj :: w) →
    w.length < n → InnerOkEx f R isObj j w := by
  intro n
  induction n with
  | zero => intro _ _ _ _ h; omega
  | succ n ihn =>
    intro isObj j w hv hn
    have ih : ∀ j v, Value P Q j v → v.length < n + 1 → ReadOkEx f R j v := by
      intro j v hv hlen
      apply read_valueEx f hcond hv
      intro o w' e
      subst e
      exact ihn o j w' hv (by rw [List.length_cons] at hlen; omega)
    intro fuel a r k hr hl he hf hm
    unfold itemEx
    have hd : decide (startTok isObj = .objStart) = isObj := by cases isObj <;> rfl
    dsimp only
    rw [if_pos (by cases isObj <;> simp), hd]
    cases fuel with
    | zero => omega
    | succ fuel =>
    generalize ew : (opening isObj :: w) = w' at hv
    -- the rest once the members were counted
    have fin : ∀ (m : Nat) (js : Json) (q : Reader), countLoopEx f isObj (r.rest.length + 1) 0 r = .ok (.ok, m, q) →
        a.size + 7 + m * (if isObj then 48 else 32) ≤ a.capacity →
        (∀ a' : Alloc, a'.capacity = a.capacity → a'.size ≤ a.size + 7 + m * (if isObj then 48 else 32) →
          ∃ z vs, readLoopEx f (fuel + 1) isObj m [] a' r = .ok z ∧ MeansBy R (container isObj vs) js ∧
            DoneAllEx isObj [] vs (a.size + 32 * (w.length + 1) - 32) a' k z) →
        ∃ z, (do
          let c ← countLoopEx f isObj (r.rest.length + 1) 0 r
          if c.1 ≠ .ok then .ok ⟨c.1, .junk, a, c.2.2⟩
          else match allocate a (c.2.1 * if isObj = true then 48 else 32) 8 with
            | none => .ok ⟨.outOfMemory, .junk, a, r⟩
            | some (_, a) => do
              let z ← readLoopEx f (fuel + 1) isObj c.2.1 [] a r
              .ok ⟨z.err, container isObj z.val, z.alloc, z.reader⟩ : C (Result JVal)) = .ok z ∧ DoneEx R js (w.length + 1) a k z := by
      intro m js q hc ha hread
      obtain ⟨p, a', e1, h1, h2⟩ := allocate_ok ha
      obtain ⟨z, vs, e2, h3, h4⟩ := hread a' h1 h2
      rw [hc, ok_bind]
      dsimp only
      rw [if_neg (by simp), e1]
      dsimp only
      rw [e2, ok_bind]
      refine ⟨_, rfl, h4.err, ?_, (by rw [h4.rest]; exact Behind.refl k), ?_, h4.rerr, h4.cap.trans h1, ?_⟩
      · dsimp only
        rw [h4.val]
        exact h3
      · dsimp only
        rw [h4.last]
        cases isObj <;> simp [Ends]
      · have := h4.size
        dsimp only
        omega
    have hcl : CanEnd r.last := by rw [hl]; cases isObj <;> exact ⟨by decide, by decide, by decide⟩
    cases hv with
    | null =>
      exfalso
      have : some (opening isObj) = some (0x6E : Byte) := congrArg List.head? ew
      revert this
      clear * -
      cases isObj <;> decide
    | bool b => cases isObj <;> cases b <;> cases ew
    | num h =>
      obtain ⟨c, t, e, hc⟩ := number_head h []
      rw [List.append_nil] at e
      rw [e] at ew
      simp only [List.cons.injEq] at ew
      rw [← ew.1] at hc
      exfalso
      revert hc
      cases isObj <;> decide
    | str hb _ => cases isObj <;> (simp only [quoted, List.cons.injEq] at ew; exact absurd ew.1 (by decide))
    | @arrNil c hc =>
      cases isObj with
      | true => simp only [List.cons.injEq] at ew; exact absurd ew.1 (by decide)
      | false =>
        simp only [List.cons.injEq] at ew
        obtain ⟨_, rfl⟩ := ew
        have hr' : r.rest = c ++ closing false :: k := by rw [hr]; simp only [List.append_assoc]; rfl
        obtain ⟨q, hq⟩ := count_endEx f (q := r) false r.rest.length 0 hc hr' hcl he
        simp only [List.length_append, List.length_cons, List.length_nil] at hm
        refine fin 0 (.arr []) q hq (by omega) fun a' h1 h2 => ?_
        obtain ⟨z, e, hz⟩ := read_endEx f (isObj := false) (count := 0) (acc := []) fuel a' hc hr' hcl he rfl
        refine ⟨z, [], e, MeansBy.arr List.Forall₂.nil, { hz with size := ?_ }⟩
        have := hz.size
        simp at h2
        simp only [List.length_append, List.length_cons, List.length_nil]
        omega
    | @objNil c hc =>
      cases isObj with
      | false => simp only [List.cons.injEq] at ew; exact absurd ew.1 (by decide)
      | true =>
        simp only [List.cons.injEq] at ew
        obtain ⟨_, rfl⟩ := ew
        have hr' : r.rest = c ++ closing true :: k := by rw [hr]; simp only [List.append_assoc]; rfl
        obtain ⟨q, hq⟩ := count_endEx f (q := r) true r.rest.length 0 hc hr' hcl he
        simp only [List.length_append, List.length_cons, List.length_nil] at hm
        refine fin 0 (.obj []) q hq (by omega) fun a' h1 h2 => ?_
        obtain ⟨z, e, hz⟩ := read_endEx f (isObj := true) (count := 0) (acc := []) fuel a' hc hr' hcl he rfl
        refine ⟨z, [], e, MeansBy.obj List.Forall₂.nil List.Forall₂.nil, { hz with size := ?_ }⟩
        have := hz.size
        simp at h2
        simp only [List.length_append, List.length_cons, List.length_nil]
        omega
    | @arr c b j v js t hc hv ht hb =>
      cases isObj with
      | true => simp only [List.cons.injEq] at ew; exact absurd ew.1 (by decide)
      | false =>
        simp only [List.cons.injEq] at ew
        obtain ⟨_, rfl⟩ := ew
        have hr' : r.rest = c ++ (v ++ (t ++ (b ++ closing false :: k))) := by rw [hr]; simp only [List.append_assoc]; rfl
        have hlen : r.rest.length = c.length + (v.length + (t ++ (b ++ closing false :: k)).length) := by rw [hr']; simp
        have hv0 := value_length hv
        have ht0 := values_length _ _ ht
        have hl' : r.last = .arrStart := hl
        simp only [List.length_append, List.length_cons, List.length_nil] at hm hn
        obtain ⟨q, e1, g1, g2, g3⟩ := count_valueEx f r.rest.length 0 hv (Sep.ws hc) (Or.inl hl') hr' (calm_values ht false hb) he
        obtain ⟨q2, e2⟩ := count_valuesEx f js t ht b k r.rest.length 1 q hb g1 g2 g3 (by have := g1.length; omega)
        refine fin (1 + js.length) (.arr (j :: js)) q2 (e1.trans e2) (by simp; omega) fun a' h1 h2 => ?_
        simp at h2
        obtain ⟨z, nm, e3, hz⟩ := read_elemEx f (R := R) (q := r) (l := .arrStart) (sep := c) (fuel := fuel) (count := 1 + js.length)
          (acc := []) (a := a') (k := t ++ (b ++ closing false :: k)) (ih j v hv (by omega)) (hl' ▸ Sep.ws hc) (Or.inl rfl) hr'
          (calm_values ht false hb) (by simp) he (by omega) (by omega) (by simp)
        have hsz := hz.size
        obtain ⟨z2, vs, e4, h4, h5⟩ := read_valuesEx f ih js t ht (by omega) b k fuel (1 + js.length) [(nm, z.val)] z.alloc z.reader hb
          hz.rest hz.last hz.rerr (by have := hz.rest.length; omega) (by simp) (by rw [hz.cap]; omega)
        refine ⟨z2, (nm, z.val) :: vs, e3.trans e4, MeansBy.arr (List.Forall₂.cons (hz.val) h4), h5.err, ?_, h5.rest,
          h5.last, h5.rerr, h5.cap.trans hz.cap, ?_⟩
        · rw [h5.val]; simp
        · have := h5.size
          simp only [List.length_append, List.length_cons, List.length_nil, quoted]
          omega
    | @obj c b m u ms t hc hmem ht hb =>
      cases isObj with
      | false => simp only [List.cons.injEq] at ew; exact absurd ew.1 (by decide)
      | true =>
        simp only [List.cons.injEq] at ew
        obtain ⟨_, rfl⟩ := ew
        have hr' : r.rest = c ++ (u ++ (t ++ (b ++ closing true :: k))) := by rw [hr]; simp only [List.append_assoc]; rfl
        have hlen : r.rest.length = c.length + (u.length + (t ++ (b ++ closing true :: k)).length) := by rw [hr']; simp
        have ht0 := members_length _ _ ht
        have hl' : r.last = .objStart := hl
        obtain ⟨q, e1, g1, g2, g3⟩ := count_memberEx f r.rest.length 0 hmem (Sep.ws hc) (Or.inl hl') hr' (calm_members ht true hb) he
        cases hmem with
        | @mk raw name a1 b1 j v hbo hq ha1 hb1 hv =>
        have hv0 := value_length hv
        have hql : (quoted raw).length = raw.length + 2 := by simp [quoted]
        simp only [List.length_append, List.length_cons, List.length_nil, hql] at hm hn hlen
        obtain ⟨q2, e2⟩ := count_membersEx f ms t ht b k r.rest.length 1 q hb g1 g2 g3 (by have := g1.length; simp at this; omega)
        refine fin (1 + ms.length) (.obj ((name, j) :: ms)) q2 (e1.trans e2) (by simp; omega) fun a' h1 h2 => ?_
        simp at h2
        obtain ⟨z, nm, hnm, e3, hz⟩ := read_memberEx f (R := R) (q := r) (l := .objStart) (sep := c) (fuel := fuel) (count := 1 + ms.length)
          (acc := []) (a := a') (k := t ++ (b ++ closing true :: k)) hbo ha1 hb1 (ih j v hv (by omega)) (hl' ▸ Sep.ws hc) (Or.inl rfl)
          hr' (calm_members ht true hb) (by simp) he (by omega) (by omega) (by simp)
        have hsz := hz.size
        obtain ⟨z2, vs, e4, h4, h5⟩ := read_membersEx f hcond ih ms t ht (by omega) b k fuel (1 + ms.length) [(nm, z.val)] z.alloc z.reader
          hb hz.rest hz.last hz.rerr (by have := hz.rest.length; simp at this; omega) (by simp) (by rw [hz.cap]; omega)
        refine ⟨z2, (nm, z.val) :: vs, e3.trans e4, ?_, h5.err, ?_, h5.rest, h5.last, h5.rerr, h5.cap.trans hz.cap, ?_⟩
        · obtain ⟨h6, h7⟩ := h4
          refine MeansBy.obj (List.Forall₂.cons ?_ h6) (List.Forall₂.cons (hz.val) h7)
          exact hcond.name raw name nm hq hbo hnm
        · rw [h5.val]; simp
        · have := h5.size
          simp only [List.length_append, List.length_cons, List.length_nil, quoted]
          omega

theorem read_okEx (hcond : Cond P Q R) {j : Json} {v : List Byte} (hv : Value P Q j v) : ReadOkEx f R j v := by
  apply read_valueEx f hcond hv
  intro o w e
  subst e
  exact inner_okEx f hcond _ o j w hv (Nat.lt_succ_self _)

end Tm.Json
