import Verif.Json.CountLemmas
import Verif.Json.CopyLemmas
import Verif.Json.DocSpec

/-! # Reading documents, without extensions -/

namespace Tm.Json

open Tm Spec

/-- Reading the value whose first token is `y`: the part of the loops that is the same for elements, members and the root. -/
def item (f : Flags) (fuel : Nat) (a : Alloc) (y : Tok × Reader) : C (Result JVal) :=
  if y.1 = .objStart || y.1 = .arrStart then do
    let c ← countLoop f (y.1 = .objStart) (y.2.rest.length + 1) 0 y.2
    if c.1 ≠ .ok then .ok ⟨c.1, .junk, a, c.2.2⟩
    else match allocate a (c.2.1 * if decide (y.1 = .objStart) then 48 else 32) 8 with
      | none => .ok ⟨.outOfMemory, .junk, a, y.2⟩
      | some (_, a) => do
        let z ← readLoop f fuel (y.1 = .objStart) c.2.1 [] a y.2
        .ok ⟨z.err, container (y.1 = .objStart) z.val, z.alloc, z.reader⟩
  else if y.1 = .value then do
    let v ← readScalar a y.2
    .ok ⟨.ok, v.1, v.2, y.2⟩
  else if y.2.err ≠ .ok then .ok ⟨y.2.err, .junk, a, y.2⟩
  else .error .assertion

/-- The loop in terms of `item`. -/
theorem readLoop_eq (f : Flags) (fuel : Nat) (isObj : Bool) (count : Nat) (acc : List (View × JVal)) (a : Alloc) (r : Reader) :
    readLoop f (fuel + 1) isObj count acc a r = (do
      let x ← nextToken f (ctxOf isObj) r
      if (isObj && x.1 = .objEnd) || (!isObj && x.1 = .arrEnd) then .ok ⟨x.2.err, pad count acc, a, x.2⟩
      else if x.1 = .comment then readLoop f fuel isObj count acc a x.2
      else if (isObj && x.1 = .propName) || (!isObj && (x.1 = .objStart || x.1 = .arrStart || x.1 = .value)) then
        if acc.length < count then do
          let y ← (if isObj then valueToken f (x.2.rest.length + 1) x.2 else .ok x)
          let z ← item f fuel a y
          if z.err ≠ .ok then .ok ⟨z.err, [], z.alloc, z.reader⟩
          else readLoop f fuel isObj count (acc ++ [(x.2.cur, z.val)]) z.alloc z.reader
        else .error .oob
      else if x.2.err ≠ .ok then .ok ⟨x.2.err, [], a, x.2⟩
      else .error .assertion) := by
  rw [readLoop]
  dsimp only
  cases hx : nextToken f (if isObj = true then Ctx.object else Ctx.array) r with
  | error e => rfl
  | ok x =>
    rw [ok_bind, ok_bind]
    split
    · rfl
    split
    · rfl
    split
    · split
      · cases hy : (if isObj = true then valueToken f (x.2.rest.length + 1) x.2 else Except.ok x) with
        | error e => rw [error_bind, error_bind]
        | ok y =>
          rw [ok_bind, ok_bind]
          unfold item
          split
          · cases hc : countLoop f (decide (y.1 = .objStart)) (y.2.rest.length + 1) 0 y.2 with
            | error e => rfl
            | ok c =>
              rw [ok_bind, ok_bind]
              split
              · rename_i h
                rw [ok_bind, if_pos h]
              · cases hal : allocate a (c.2.1 * if decide (y.1 = .objStart) = true then 48 else 32) 8 with
                | none =>
                  dsimp only
                  rw [ok_bind, if_pos (by simp)]
                | some pa =>
                  obtain ⟨p, a'⟩ := pa
                  dsimp only
                  cases hz : readLoop f fuel (decide (y.1 = .objStart)) c.2.1 [] a' y.2 with
                  | error e => rfl
                  | ok z =>
                    rw [ok_bind, ok_bind, ok_bind]
          · split
            · cases hv : readScalar a y.2 with
              | error e => rfl
              | ok v =>
                rw [ok_bind, ok_bind, ok_bind, if_neg (by simp)]
            · split
              · rename_i h
                rw [ok_bind, if_pos h]
              · rfl
      · rfl
    · rfl

theorem readContainer_eq (f : Flags) (isObj : Bool) (a : Alloc) (r : Reader) :
    readContainer f isObj a r = item f (r.rest.length + 1) a (startTok isObj, r) := by
  unfold readContainer item
  cases isObj
  · rfl
  · rfl

/-! ### Memory -/

theorem allocate_ok {a : Alloc} {n : Nat} (h : a.size + 7 + n ≤ a.capacity) :
    ∃ p a', allocate a n 8 = some (p, a') ∧ a'.capacity = a.capacity ∧ a'.size ≤ a.size + 7 + n := by
  unfold allocate
  dsimp only
  have : (((8 : Nat) - (a.ptr + a.size) % (8 : Nat)) % (8 : Nat)).toNat ≤ 7 := by omega
  rw [if_neg (by omega)]
  exact ⟨_, _, rfl, rfl, by dsimp only; omega⟩

/-- Storing a string. -/
theorem string_ok {a : Alloc} {v : View} {raw text : List Byte} (hb : Body raw text) (hv : v.text = .ok raw)
    (h : a.size + raw.length ≤ a.capacity) :
    ∃ w a', allocateString a v = .ok (w, a') ∧ a'.capacity = a.capacity ∧ a'.size ≤ a.size + 2 * raw.length ∧
      Readable w ∧ (¬ EndsInEscape raw → Shows w text) := by
  unfold allocateString
  rw [hv, ok_bind]
  obtain ⟨res, e, h1, h2⟩ := copyUnescaped_ok hb (Nat.le_refl _)
  have ha : allocate a raw.length 1 = some (a.ptr + a.size + ((0 : Nat) : Int), { a with size := a.size + 0 + raw.length }) := by
    unfold allocate
    dsimp only
    have : (((1 : Nat) - (a.ptr + a.size) % (1 : Nat)) % (1 : Nat)).toNat = 0 := by omega
    rw [this, if_neg (by omega)]
  rw [ha]
  dsimp only
  rw [e, ok_bind]
  refine ⟨_, _, rfl, rfl, by dsimp only; omega, ⟨rfl, res, ?_⟩, fun h => ⟨rfl, ?_⟩⟩
  · rw [View.text, if_pos (Nat.le_refl _), List.take_length]
  · rw [View.text, if_pos (Nat.le_refl _), List.take_length, h2 h]

/-! ### Reading texts of the grammar -/

/-- The parameters of the grammar under which the contents are compared. -/
structure Cond (P Q : List Byte → Prop) (R : Shown) : Prop where
  str : ∀ raw text w, P raw → Readable w → (PlainEnd raw → Shows w text) → R.str w text
  name : ∀ raw text w, Q raw → Body raw text → Shows w raw → R.name w text
  num : ∀ t w, Shows w t → R.num w t

variable {P Q : List Byte → Prop} {R : Shown}

/-- What reading a value does to the memory and to the reader.  -/
structure Done (R : Shown) (j : Json) (len : Nat) (a : Alloc) (k : List Byte) (z : Result JVal) : Prop where
  err : z.err = .ok
  val : MeansBy R z.val j
  rest : z.reader.rest = k
  last : Ends z.reader.last
  rerr : z.reader.err = .ok
  cap : z.alloc.capacity = a.capacity
  size : z.alloc.size + 32 ≤ a.size + 32 * len

/-- Reading a container after its opening bracket. -/
def InnerOk (R : Shown) (isObj : Bool) (j : Json) (w : List Byte) : Prop :=
  ∀ (fuel : Nat) (a : Alloc) (r : Reader) (k : List Byte), r.rest = w ++ k → r.last = startTok isObj → r.err = .ok →
    r.rest.length < fuel → a.size + 32 * (w.length + 1) ≤ a.capacity + 32 →
    ∃ z, item strict fuel a (startTok isObj, r) = .ok z ∧ Done R j (w.length + 1) a k z

theorem noEscape_text {raw text : List Byte} (h : NoEscape raw) (hb : Body raw text) : raw = text := by
  obtain ⟨t', ht', e', _⟩ := body_prefix raw [] text h (by simpa using hb)
  have : t' = [] := by
    generalize e2 : ([] : List Byte) = s at ht'
    cases ht' <;> first | (cases e2; done) | rfl
  rw [e', this, List.append_nil]

/-- The first token of a value, and the value. -/
def ReadOk (R : Shown) (j : Json) (v : List Byte) : Prop :=
  ∀ (ctx : Ctx) (q : Reader) (l : Tok) (sep k : List Byte) (fuel : Nat) (a : Alloc), Sep ctx q.last l sep → CanValue ctx l →
    (ctx = .null → q.root = false) → q.rest = sep ++ (v ++ k) → Stop k → (k ≠ [] ∨ PlainLast v ∨ ∀ t w, w.null = false → R.num w t) → q.err = .ok → q.rest.length ≤ fuel →
    a.size + 32 * v.length ≤ a.capacity + 32 →
    ∃ y z, nextToken strict ctx q = .ok y ∧ (y.1 = .value ∨ y.1 = .objStart ∨ y.1 = .arrStart) ∧ item strict fuel a y = .ok z ∧
      Done R j v.length a k z

theorem numType_kind (m f e : List Byte) : numType m f e = kind m f e := rfl

theorem view_text {v : View} {x k : List Byte} (h1 : v.data = x ++ k) (h2 : v.size = x.length) : v.text = .ok x := by
  rw [View.text, h1, h2, if_pos (by simp), List.take_left]

theorem scal_means {j : Json} {v : List Byte} {t : VType} {w : View} (hs : Scal j v t) (hw : t = .bool ∨ t = .null → Shows w v)
    (hn : R.num w v) : MeansBy R (.scalar t w) j := by
  cases hs with
  | null => exact MeansBy.null (hw (Or.inr rfl))
  | bool b => cases b <;> exact MeansBy.bool _ (hw (Or.inl rfl))
  | num hm => exact MeansBy.num hm hn

theorem scal_notString {j : Json} {v : List Byte} {t : VType} (hs : Scal j v t) : t ≠ .string := by
  cases hs with
  | null => simp
  | bool b => simp
  | @num m i f e hn => rcases numType_cases m f e with h | h | h <;> simp [h]

theorem digits_last {d : List Byte} (h : Digits d) : ∃ p c, d = p ++ [c] ∧ Digit c := by
  rcases List.eq_nil_or_concat d with h0 | ⟨p, c, h0⟩
  · exact absurd h0 h.1
  · exact ⟨p, c, by rw [h0]; simp, h.2 c (by rw [h0]; simp)⟩

theorem number_last {m i f e : List Byte} (h : Number m i f e) : ∃ p c, m ++ i ++ f ++ e = p ++ [c] ∧ Digit c := by
  obtain ⟨_, hi, hf, he⟩ := h
  have h1 : ∃ p c, m ++ i = p ++ [c] ∧ Digit c := by
    rcases hi with rfl | ⟨hi, _⟩
    · exact ⟨m, chr '0', rfl, by decide⟩
    · obtain ⟨p, c, rfl, hc⟩ := digits_last hi
      exact ⟨m ++ p, c, by simp, hc⟩
  have h2 : ∃ p c, m ++ i ++ f = p ++ [c] ∧ Digit c := by
    rcases hf with rfl | ⟨d, hd, rfl⟩
    · simpa using h1
    · obtain ⟨p, c, rfl, hc⟩ := digits_last hd
      exact ⟨m ++ i ++ chr '.' :: p, c, by simp, hc⟩
  rcases he with rfl | ⟨x, sign, d, _, _, hd, rfl⟩
  · simpa using h2
  · obtain ⟨p, c, rfl, hc⟩ := digits_last hd
    exact ⟨m ++ i ++ f ++ x :: (sign ++ p), c, by simp, hc⟩

theorem scal_last {j : Json} {v k : List Byte} {t : VType} (hs : Scal j v t) (h : k ≠ [] ∨ PlainLast v) :
    k ≠ [] ∨ t = .bool ∨ t = .null := by
  rcases h with h | h
  · exact Or.inl h
  · cases hs with
    | null => exact Or.inr (Or.inr rfl)
    | bool b => exact Or.inr (Or.inl rfl)
    | num hn =>
      obtain ⟨p, c, e, hc⟩ := number_last hn
      exact absurd hc (h p c e)

theorem read_value {j : Json} {v : List Byte} (hc : Cond P Q R) (hv : Value P Q j v)
    (hin : ∀ isObj w, v = opening isObj :: w → InnerOk R isObj j w) : ReadOk R j v := by
  intro ctx q l sep k fuel a hs hl ho hr hk hk0 he hf hm
  obtain ⟨q1, b, e1, h1, hb, h2, h3, h4⟩ := sep_elim hs hr
  have hl1 : CanValue ctx q1.last := h2 ▸ hl
  have ho1 : ctx = .null → q1.root = false := fun h => h4.trans (ho h)
  rw [e1]
  rcases value_cases hv with ⟨t, hsc⟩ | ⟨raw, text, rfl, rfl, hbo, hp⟩ | ⟨isObj, w, rfl, _⟩
  · obtain ⟨r', e, g1, g2, g3, g4, g5, g6, g7⟩ := tok_scal h1 hb hsc hk hl1 ho1
    refine ⟨_, ⟨.ok, .scalar t r'.cur, a, r'⟩, e, Or.inl rfl, ?_, ?_⟩
    · unfold item
      rw [if_neg (by simp), if_pos rfl]
      unfold readScalar
      dsimp only
      rw [if_neg (by rw [g4]; exact scal_notString hsc), ok_bind, g4]
    · obtain ⟨c, u, rfl, _⟩ := scal_head hsc
      refine ⟨rfl, scal_means hsc (fun h => ⟨g5, view_text g6 (g7 (Or.inr h))⟩) ?_, g1, Or.inr (Or.inr g2),
        (g3.trans h3).trans he, rfl, by simp⟩
      rcases hk0 with h | h | h
      · exact hc.num _ _ ⟨g5, view_text g6 (g7 (Or.inl h))⟩
      · exact hc.num _ _ ⟨g5, view_text g6 (g7 (scal_last hsc (Or.inr h)))⟩
      · exact h _ _ g5
  · obtain ⟨r', e, g1, g2, g3, g4, g5⟩ := tok_str h1 hb hbo hl1
    have hlen : (quoted raw).length = raw.length + 2 := by simp [quoted]
    rw [hlen] at hm
    obtain ⟨w, a', f1, f2, f3, f4, f5⟩ := string_ok (a := a) (v := r'.cur) hbo (by rw [g5]; exact view_text rfl rfl) (by omega)
    refine ⟨_, ⟨.ok, .scalar .string w, a', r'⟩, e, Or.inl rfl, ?_, ?_⟩
    · unfold item
      rw [if_neg (by simp), if_pos rfl]
      unfold readScalar
      dsimp only
      rw [if_pos g4, f1, ok_bind, ok_bind]
    · refine ⟨rfl, MeansBy.str (hc.str raw text w hp f4 f5), g1, Or.inr (Or.inr g2), (g3.trans h3).trans he, f2, ?_⟩
      rw [hlen]; dsimp only; omega
  · obtain ⟨r', e, g1, g2, g3⟩ := tok_start (a := b) (t := (w ++ [closing isObj]) ++ k) isObj (by rw [h1]; rfl) hb hl1 ho1
    have hlen : r'.rest.length < fuel := by
      have : q.rest.length = sep.length + ((w ++ [closing isObj]).length + 1 + k.length) := by
        rw [hr]; simp; omega
      rw [g1, List.length_append]
      omega
    obtain ⟨z, e2, hz⟩ := hin isObj (w ++ [closing isObj]) rfl fuel a r' k g1 g2 ((g3.trans h3).trans he) hlen
      (by rw [List.length_cons] at hm; exact hm)
    exact ⟨_, z, e, by cases isObj <;> simp, e2, by rw [List.length_cons]; exact hz⟩

/-- What reading the rest of a container does. -/
structure DoneAll (isObj : Bool) (acc vs : List (View × JVal)) (bound : Nat) (a : Alloc) (k : List Byte)
    (z : Result (List (View × JVal))) : Prop where
  err : z.err = .ok
  val : z.val = acc ++ vs
  rest : z.reader.rest = k
  last : z.reader.last = endTok isObj
  rerr : z.reader.err = .ok
  cap : z.alloc.capacity = a.capacity
  size : z.alloc.size ≤ bound

theorem read_end {isObj : Bool} {q : Reader} {b k : List Byte} {count : Nat} {acc : List (View × JVal)} (fuel : Nat) (a : Alloc)
    (hb : Ws b) (hr : q.rest = b ++ closing isObj :: k) (hl : CanEnd q.last) (he : q.err = .ok) (hc : acc.length = count) :
    ∃ z, readLoop strict (fuel + 1) isObj count acc a q = .ok z ∧ DoneAll isObj acc [] a.size a k z := by
  obtain ⟨r', e, g1, g2, g3⟩ := tok_end isObj hr hb hl
  rw [readLoop_eq]
  have : nextToken strict (ctxOf isObj) q = .ok (endTok isObj, r') := e
  rw [this, ok_bind, if_pos (by cases isObj <;> simp)]
  refine ⟨_, rfl, g3.trans he, ?_, g1, g2, g3.trans he, rfl, Nat.le_refl _⟩
  simp [pad, hc]

/-- One element of an array. -/
theorem read_elem {q : Reader} {l : Tok} {sep v k : List Byte} {j : Json} {fuel count : Nat} {acc : List (View × JVal)} {a : Alloc}
    (hv : ReadOk R j v) (hs : Sep .array q.last l sep) (hl : l = .arrStart ∨ l = .comma) (hr : q.rest = sep ++ (v ++ k)) (hk : Stop k)
    (hk0 : k ≠ []) (he : q.err = .ok) (hf : q.rest.length ≤ fuel) (hm : a.size + 32 * v.length ≤ a.capacity + 32)
    (hc : acc.length < count) :
    ∃ z : Result JVal, ∃ n : View, readLoop strict (fuel + 1) false count acc a q =
      readLoop strict fuel false count (acc ++ [(n, z.val)]) z.alloc z.reader ∧ Done R j v.length a k z := by
  obtain ⟨y, z, e1, h1, e2, h2⟩ := hv .array q l sep k fuel a hs hl (by simp) hr hk (Or.inl hk0) he hf hm
  rw [readLoop_eq]
  have : nextToken strict (ctxOf false) q = .ok y := e1
  rw [this, ok_bind, if_neg (by rcases h1 with h | h | h <;> simp [h]), if_neg (by rcases h1 with h | h | h <;> simp [h]),
    if_pos (by rcases h1 with h | h | h <;> simp [h]), if_pos hc]
  rw [if_neg (by simp), ok_bind, e2, ok_bind, if_neg (by simp [h2.err])]
  exact ⟨z, _, rfl, h2⟩

/-- One member of an object. -/
theorem read_member {q : Reader} {l : Tok} {sep k raw name a1 b1 v : List Byte} {j : Json} {fuel count : Nat}
    {acc : List (View × JVal)} {a : Alloc} (hb : Body raw name) (ha1 : Ws a1) (hb1 : Ws b1)
    (hv : ReadOk R j v) (hs : Sep .object q.last l sep) (hl : l = .objStart ∨ l = .comma)
    (hr : q.rest = sep ++ ((quoted raw ++ (a1 ++ (chr ':' :: (b1 ++ v)))) ++ k)) (hk : Stop k)
    (hk0 : k ≠ []) (he : q.err = .ok) (hf : q.rest.length ≤ fuel) (hm : a.size + 32 * v.length ≤ a.capacity + 32)
    (hc : acc.length < count) :
    ∃ z : Result JVal, ∃ n : View, Shows n raw ∧ readLoop strict (fuel + 1) true count acc a q =
      readLoop strict fuel true count (acc ++ [(n, z.val)]) z.alloc z.reader ∧ Done R j v.length a k z := by
  obtain ⟨q1, c, e1, h1, hc1, h2, h3, _⟩ := sep_elim hs hr
  obtain ⟨r', e, g1, g2, g3, g4⟩ := tok_name (r := q1) (a := c) (raw := raw) (t := a1 ++ (chr ':' :: (b1 ++ (v ++ k))))
    (by rw [h1]; simp) hc1 hb (h2 ▸ hl)
  obtain ⟨y, z, e2, f1, e3, f2⟩ := hv .object r' .colon (a1 ++ 0x3A :: b1) k fuel a (g2 ▸ Sep.colon rfl ha1 hb1) rfl (by simp)
    (by rw [g1]; simp [chr]) hk (Or.inl hk0) ((g3.trans h3).trans he)
    (by rw [hr] at hf; rw [g1]; simp at hf ⊢; omega) hm
  rw [readLoop_eq]
  have : nextToken strict (ctxOf true) q = .ok (.propName, r') := e1.trans e
  rw [this, ok_bind, if_neg (by simp), if_neg (by simp), if_pos (by simp), if_pos hc]
  dsimp only
  have hval : valueToken strict (r'.rest.length + 1) r' = .ok y := by
    rw [valueToken, e2, ok_bind, if_neg (by rcases f1 with h | h | h <;> simp [h])]
  rw [if_pos rfl, hval, ok_bind, e3, ok_bind, if_neg (by simp [f2.err])]
  exact ⟨z, _, by rw [g4]; exact ⟨rfl, view_text rfl rfl⟩, rfl, f2⟩

theorem value_length {j : Json} {v : List Byte} (hv : Value P Q j v) : 1 ≤ v.length := by
  rcases value_cases hv with ⟨_, hsc⟩ | ⟨raw, _, _, rfl, _⟩ | ⟨_, _, rfl, _⟩
  · obtain ⟨_, _, rfl, _⟩ := scal_head hsc; simp
  · simp [quoted]
  · simp

theorem values_length : ∀ (js : List Json) (t : List Byte), MoreValues P Q js t → 2 * js.length ≤ t.length := by
  intro js
  induction js with
  | nil => simp
  | cons j js ih =>
    intro t ht
    cases ht with
    | cons _ _ hv ht =>
      have := value_length hv
      have := ih _ ht
      simp only [List.length_append, List.length_cons]
      omega

theorem members_length : ∀ (ms : List (List Byte × Json)) (t : List Byte), MoreMembers P Q ms t → 5 * ms.length ≤ t.length := by
  intro ms
  induction ms with
  | nil => simp
  | cons m ms ih =>
    intro t ht
    cases ht with
    | cons _ _ hm ht =>
      have := ih _ ht
      cases hm with
      | mk _ _ _ _ hv =>
        have := value_length hv
        simp only [List.length_append, List.length_cons, quoted]
        omega

theorem read_values {n : Nat} (ih : ∀ j v, Value P Q j v → v.length < n → ReadOk R j v) :
    ∀ (js : List Json) (t : List Byte), MoreValues P Q js t → t.length < n → ∀ (b k : List Byte) (fuel count : Nat)
      (acc : List (View × JVal)) (a : Alloc) (q : Reader), Ws b → q.rest = t ++ (b ++ closing false :: k) → Ends q.last → q.err = .ok →
      q.rest.length < fuel → acc.length + js.length = count → a.size + 32 * t.length ≤ a.capacity + 64 * js.length →
      ∃ z vs, readLoop strict fuel false count acc a q = .ok z ∧ List.Forall₂ (MeansBy R) (vs.map (·.2)) js ∧
        DoneAll false acc vs (a.size + 32 * t.length - 64 * js.length) a k z := by
  intro js
  induction js with
  | nil =>
    intro t ht _ b k fuel count acc a q hb hr hl he hf hc hm
    cases ht
    cases fuel with
    | zero => omega
    | succ fuel =>
      obtain ⟨z, e, hz⟩ := read_end (acc := acc) fuel a hb hr hl.canEnd he (by simpa using hc)
      exact ⟨z, [], e, List.Forall₂.nil, by simpa using hz⟩
  | cons j js ihjs =>
    intro t ht hn b k fuel count acc a q hb hr hl he hf hc hm
    cases ht with
    | @cons c d _ v _ t hc1 hd1 hv ht =>
      cases fuel with
      | zero => omega
      | succ fuel =>
        have hv0 := value_length hv
        have ht0 := values_length _ _ ht
        simp only [List.length_append, List.length_cons] at hn hm hc ⊢
        have hr' : q.rest.length = c.length + (1 + d.length) + (v.length + (t ++ (b ++ closing false :: k)).length) := by
          rw [hr]; simp; omega
        obtain ⟨z, nm, e, hz⟩ := read_elem (R := R) (q := q) (l := .comma) (sep := c ++ 0x2C :: d) (fuel := fuel) (count := count)
          (acc := acc) (a := a) (k := t ++ (b ++ closing false :: k)) (ih j v hv (by omega))
          (Sep.comma (by simp) hl hc1 hd1) (Or.inr rfl) (by rw [hr]; simp [chr]) (stop_values ht false hb) (by simp) he (by omega)
          (by omega) (by omega)
        have hsz := hz.size
        obtain ⟨z2, vs, e2, h2, h3⟩ := ihjs t ht (by omega) b k fuel count (acc ++ [(nm, z.val)]) z.alloc z.reader hb hz.rest hz.last
          hz.rerr (by rw [hz.rest]; omega) (by simp; omega) (by rw [hz.cap]; omega)
        refine ⟨z2, (nm, z.val) :: vs, e.trans e2, ?_, h3.err, ?_, h3.rest, h3.last, h3.rerr, h3.cap.trans hz.cap, ?_⟩
        · exact List.Forall₂.cons (hz.val) h2
        · rw [h3.val]; simp
        · have := h3.size; omega

theorem read_members {n : Nat} (hcond : Cond P Q R) (ih : ∀ j v, Value P Q j v → v.length < n → ReadOk R j v) :
    ∀ (ms : List (List Byte × Json)) (t : List Byte), MoreMembers P Q ms t → t.length < n → ∀ (b k : List Byte) (fuel count : Nat)
      (acc : List (View × JVal)) (a : Alloc) (q : Reader), Ws b → q.rest = t ++ (b ++ closing true :: k) → Ends q.last → q.err = .ok →
      q.rest.length < fuel → acc.length + ms.length = count → a.size + 32 * t.length ≤ a.capacity + 160 * ms.length →
      ∃ z vs, readLoop strict fuel true count acc a q = .ok z ∧ (List.Forall₂ (fun v m => R.name v.1 m.1) vs ms ∧
        List.Forall₂ (MeansBy R) (vs.map (·.2)) (ms.map (·.2))) ∧
        DoneAll true acc vs (a.size + 32 * t.length - 160 * ms.length) a k z := by
  intro ms
  induction ms with
  | nil =>
    intro t ht _ b k fuel count acc a q hb hr hl he hf hc hm
    cases ht
    cases fuel with
    | zero => omega
    | succ fuel =>
      obtain ⟨z, e, hz⟩ := read_end (acc := acc) fuel a hb hr hl.canEnd he (by simpa using hc)
      exact ⟨z, [], e, ⟨List.Forall₂.nil, List.Forall₂.nil⟩, by simpa using hz⟩
  | cons m ms ihms =>
    intro t ht hn b k fuel count acc a q hb hr hl he hf hc hm
    cases ht with
    | @cons c d _ u _ t hc1 hd1 hmem ht =>
      cases hmem with
      | @mk raw name a1 b1 j v hbo hq ha1 hb1 hv =>
      cases fuel with
      | zero => omega
      | succ fuel =>
        have hv0 := value_length hv
        have ht0 := members_length _ _ ht
        have hql : (quoted raw).length = raw.length + 2 := by simp [quoted]
        simp only [List.length_append, List.length_cons, hql] at hn hm hc ⊢
        have hr' : q.rest.length = c.length + (1 + d.length) + (raw.length + 2 + a1.length + 1 + b1.length + v.length +
            (t ++ (b ++ closing true :: k)).length) := by
          rw [hr]; simp [quoted]; omega
        obtain ⟨z, nm, hnm, e, hz⟩ := read_member (R := R) (q := q) (l := .comma) (sep := c ++ 0x2C :: d) (fuel := fuel) (count := count)
          (acc := acc) (a := a) (k := t ++ (b ++ closing true :: k)) hbo ha1 hb1 (ih j v hv (by omega))
          (Sep.comma (by simp) hl hc1 hd1) (Or.inr rfl) (by rw [hr]; simp [chr]) (stop_members ht true hb) (by simp) he (by omega)
          (by omega) (by omega)
        have hsz := hz.size
        obtain ⟨z2, vs, e2, h2, h3⟩ := ihms t ht (by omega) b k fuel count (acc ++ [(nm, z.val)]) z.alloc z.reader hb hz.rest hz.last
          hz.rerr (by rw [hz.rest]; omega) (by simp; omega) (by rw [hz.cap]; omega)
        refine ⟨z2, (nm, z.val) :: vs, e.trans e2, ?_, h3.err, ?_, h3.rest, h3.last, h3.rerr, h3.cap.trans hz.cap, ?_⟩
        · obtain ⟨h4, h5⟩ := h2
          refine ⟨List.Forall₂.cons ?_ h4, List.Forall₂.cons (hz.val) h5⟩
          exact hcond.name raw name nm hq hbo hnm
        · rw [h3.val]; simp
        · have := h3.size; omega

theorem inner_ok (hcond : Cond P Q R) : ∀ (n : Nat) (isObj : Bool) (j : Json) (w : List Byte), Value P Q j (opening isObj :: w) →
    w.length < n → InnerOk R isObj j w := by
  intro n
  induction n with
  | zero => intro _ _ _ _ h; omega
  | succ n ihn =>
    intro isObj j w hv hn
    have ih : ∀ j v, Value P Q j v → v.length < n + 1 → ReadOk R j v := by
      intro j v hv hlen
      apply read_value hcond hv
      intro o w' e
      subst e
      exact ihn o j w' hv (by rw [List.length_cons] at hlen; omega)
    intro fuel a r k hr hl he hf hm
    unfold item
    have hd : decide (startTok isObj = .objStart) = isObj := by cases isObj <;> rfl
    dsimp only
    rw [if_pos (by cases isObj <;> simp), hd]
    cases fuel with
    | zero => omega
    | succ fuel =>
    generalize ew : (opening isObj :: w) = w' at hv
    -- the rest once the members were counted
    have fin : ∀ (m : Nat) (js : Json) (q : Reader), countLoop strict isObj (r.rest.length + 1) 0 r = .ok (.ok, m, q) →
        a.size + 7 + m * (if isObj then 48 else 32) ≤ a.capacity →
        (∀ a' : Alloc, a'.capacity = a.capacity → a'.size ≤ a.size + 7 + m * (if isObj then 48 else 32) →
          ∃ z vs, readLoop strict (fuel + 1) isObj m [] a' r = .ok z ∧ MeansBy R (container isObj vs) js ∧
            DoneAll isObj [] vs (a.size + 32 * (w.length + 1) - 32) a' k z) →
        ∃ z, (do
          let c ← countLoop strict isObj (r.rest.length + 1) 0 r
          if c.1 ≠ .ok then .ok ⟨c.1, .junk, a, c.2.2⟩
          else match allocate a (c.2.1 * if isObj = true then 48 else 32) 8 with
            | none => .ok ⟨.outOfMemory, .junk, a, r⟩
            | some (_, a) => do
              let z ← readLoop strict (fuel + 1) isObj c.2.1 [] a r
              .ok ⟨z.err, container isObj z.val, z.alloc, z.reader⟩ : C (Result JVal)) = .ok z ∧ Done R js (w.length + 1) a k z := by
      intro m js q hc ha hread
      obtain ⟨p, a', e1, h1, h2⟩ := allocate_ok ha
      obtain ⟨z, vs, e2, h3, h4⟩ := hread a' h1 h2
      rw [hc, ok_bind]
      dsimp only
      rw [if_neg (by simp), e1]
      dsimp only
      rw [e2, ok_bind]
      refine ⟨_, rfl, h4.err, ?_, h4.rest, ?_, h4.rerr, h4.cap.trans h1, ?_⟩
      · dsimp only
        rw [h4.val]
        exact h3
      · dsimp only
        rw [h4.last]
        cases isObj <;> simp [Ends]
      · have := h4.size
        dsimp only
        omega
    have hcl : CanEnd r.last := by rw [hl]; cases isObj <;> exact ⟨by decide, by decide, by decide⟩
    cases hv with
    | null =>
      exfalso
      have : some (opening isObj) = some (0x6E : Byte) := congrArg List.head? ew
      revert this
      clear * -
      cases isObj <;> decide
    | bool b => cases isObj <;> cases b <;> cases ew
    | num h =>
      obtain ⟨c, t, e, hc⟩ := number_head h []
      rw [List.append_nil] at e
      rw [e] at ew
      simp only [List.cons.injEq] at ew
      rw [← ew.1] at hc
      exfalso
      revert hc
      cases isObj <;> decide
    | str hb _ => cases isObj <;> (simp only [quoted, List.cons.injEq] at ew; exact absurd ew.1 (by decide))
    | @arrNil c hc =>
      cases isObj with
      | true => simp only [List.cons.injEq] at ew; exact absurd ew.1 (by decide)
      | false =>
        simp only [List.cons.injEq] at ew
        obtain ⟨_, rfl⟩ := ew
        have hr' : r.rest = c ++ closing false :: k := by rw [hr]; simp only [List.append_assoc]; rfl
        obtain ⟨q, hq⟩ := count_end (q := r) false r.rest.length 0 hc hr' hcl
        simp only [List.length_append, List.length_cons, List.length_nil] at hm
        refine fin 0 (.arr []) q hq (by omega) fun a' h1 h2 => ?_
        obtain ⟨z, e, hz⟩ := read_end (isObj := false) (count := 0) (acc := []) fuel a' hc hr' hcl he rfl
        refine ⟨z, [], e, MeansBy.arr List.Forall₂.nil, { hz with size := ?_ }⟩
        have := hz.size
        simp at h2
        simp only [List.length_append, List.length_cons, List.length_nil]
        omega
    | @objNil c hc =>
      cases isObj with
      | false => simp only [List.cons.injEq] at ew; exact absurd ew.1 (by decide)
      | true =>
        simp only [List.cons.injEq] at ew
        obtain ⟨_, rfl⟩ := ew
        have hr' : r.rest = c ++ closing true :: k := by rw [hr]; simp only [List.append_assoc]; rfl
        obtain ⟨q, hq⟩ := count_end (q := r) true r.rest.length 0 hc hr' hcl
        simp only [List.length_append, List.length_cons, List.length_nil] at hm
        refine fin 0 (.obj []) q hq (by omega) fun a' h1 h2 => ?_
        obtain ⟨z, e, hz⟩ := read_end (isObj := true) (count := 0) (acc := []) fuel a' hc hr' hcl he rfl
        refine ⟨z, [], e, MeansBy.obj List.Forall₂.nil List.Forall₂.nil, { hz with size := ?_ }⟩
        have := hz.size
        simp at h2
        simp only [List.length_append, List.length_cons, List.length_nil]
        omega
    | @arr c b j v js t hc hv ht hb =>
      cases isObj with
      | true => simp only [List.cons.injEq] at ew; exact absurd ew.1 (by decide)
      | false =>
        simp only [List.cons.injEq] at ew
        obtain ⟨_, rfl⟩ := ew
        have hr' : r.rest = c ++ (v ++ (t ++ (b ++ closing false :: k))) := by rw [hr]; simp only [List.append_assoc]; rfl
        have hlen : r.rest.length = c.length + (v.length + (t ++ (b ++ closing false :: k)).length) := by rw [hr']; simp
        have hv0 := value_length hv
        have ht0 := values_length _ _ ht
        have hl' : r.last = .arrStart := hl
        simp only [List.length_append, List.length_cons, List.length_nil] at hm hn
        obtain ⟨q, e1, g1, g2, g3⟩ := count_value r.rest.length 0 hv (Sep.ws hc) (Or.inl hl') hr' (stop_values ht false hb) he
        obtain ⟨q2, e2⟩ := count_values js t ht b k r.rest.length 1 q hb g1 g2 g3 (by rw [g1]; omega)
        refine fin (1 + js.length) (.arr (j :: js)) q2 (e1.trans e2) (by simp; omega) fun a' h1 h2 => ?_
        simp at h2
        obtain ⟨z, nm, e3, hz⟩ := read_elem (R := R) (q := r) (l := .arrStart) (sep := c) (fuel := fuel) (count := 1 + js.length)
          (acc := []) (a := a') (k := t ++ (b ++ closing false :: k)) (ih j v hv (by omega)) (hl' ▸ Sep.ws hc) (Or.inl rfl) hr'
          (stop_values ht false hb) (by simp) he (by omega) (by omega) (by simp)
        have hsz := hz.size
        obtain ⟨z2, vs, e4, h4, h5⟩ := read_values ih js t ht (by omega) b k fuel (1 + js.length) [(nm, z.val)] z.alloc z.reader hb
          hz.rest hz.last hz.rerr (by rw [hz.rest]; omega) (by simp) (by rw [hz.cap]; omega)
        refine ⟨z2, (nm, z.val) :: vs, e3.trans e4, MeansBy.arr (List.Forall₂.cons (hz.val) h4), h5.err, ?_, h5.rest,
          h5.last, h5.rerr, h5.cap.trans hz.cap, ?_⟩
        · rw [h5.val]; simp
        · have := h5.size
          simp only [List.length_append, List.length_cons, List.length_nil, quoted]
          omega
    | @obj c b m u ms t hc hmem ht hb =>
      cases isObj with
      | false => simp only [List.cons.injEq] at ew; exact absurd ew.1 (by decide)
      | true =>
        simp only [List.cons.injEq] at ew
        obtain ⟨_, rfl⟩ := ew
        have hr' : r.rest = c ++ (u ++ (t ++ (b ++ closing true :: k))) := by rw [hr]; simp only [List.append_assoc]; rfl
        have hlen : r.rest.length = c.length + (u.length + (t ++ (b ++ closing true :: k)).length) := by rw [hr']; simp
        have ht0 := members_length _ _ ht
        have hl' : r.last = .objStart := hl
        obtain ⟨q, e1, g1, g2, g3⟩ := count_member r.rest.length 0 hmem (Sep.ws hc) (Or.inl hl') hr' (stop_members ht true hb) he
        cases hmem with
        | @mk raw name a1 b1 j v hbo hq ha1 hb1 hv =>
        have hv0 := value_length hv
        have hql : (quoted raw).length = raw.length + 2 := by simp [quoted]
        simp only [List.length_append, List.length_cons, List.length_nil, hql] at hm hn hlen
        obtain ⟨q2, e2⟩ := count_members ms t ht b k r.rest.length 1 q hb g1 g2 g3 (by rw [g1]; simp; omega)
        refine fin (1 + ms.length) (.obj ((name, j) :: ms)) q2 (e1.trans e2) (by simp; omega) fun a' h1 h2 => ?_
        simp at h2
        obtain ⟨z, nm, hnm, e3, hz⟩ := read_member (R := R) (q := r) (l := .objStart) (sep := c) (fuel := fuel) (count := 1 + ms.length)
          (acc := []) (a := a') (k := t ++ (b ++ closing true :: k)) hbo ha1 hb1 (ih j v hv (by omega)) (hl' ▸ Sep.ws hc) (Or.inl rfl)
          hr' (stop_members ht true hb) (by simp) he (by omega) (by omega) (by simp)
        have hsz := hz.size
        obtain ⟨z2, vs, e4, h4, h5⟩ := read_members hcond ih ms t ht (by omega) b k fuel (1 + ms.length) [(nm, z.val)] z.alloc z.reader
          hb hz.rest hz.last hz.rerr (by rw [hz.rest]; simp; omega) (by simp) (by rw [hz.cap]; omega)
        refine ⟨z2, (nm, z.val) :: vs, e3.trans e4, ?_, h5.err, ?_, h5.rest, h5.last, h5.rerr, h5.cap.trans hz.cap, ?_⟩
        · obtain ⟨h6, h7⟩ := h4
          refine MeansBy.obj (List.Forall₂.cons ?_ h6) (List.Forall₂.cons (hz.val) h7)
          exact hcond.name raw name nm hq hbo hnm
        · rw [h5.val]; simp
        · have := h5.size
          simp only [List.length_append, List.length_cons, List.length_nil, quoted]
          omega

theorem read_ok (hcond : Cond P Q R) {j : Json} {v : List Byte} (hv : Value P Q j v) : ReadOk R j v := by
  apply read_value hcond hv
  intro o w e
  subst e
  exact inner_ok hcond _ o j w hv (Nat.lt_succ_self _)

end Tm.Json
