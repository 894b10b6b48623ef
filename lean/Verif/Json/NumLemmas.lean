import Verif.Json.StrLemmas

/-! # Numbers and keywords, without extensions -/

namespace Tm.Json

open Tm Spec

theorem digit_iff {c : Byte} : isDigit c = true ↔ Digit c := by
  simp [isDigit, Digit]

theorem digit_false {c : Byte} : isDigit c = false ↔ ¬ Digit c := by
  rw [← digit_iff]; simp

/-- The text does not start with a digit. -/
def NoDigit (k : List Byte) : Prop := ∀ c, k.head? = some c → ¬ Digit c

theorem dropDigits_append {d k : List Byte} (hd : ∀ b ∈ d, Digit b) (hk : NoDigit k) : dropDigits isDigit (d ++ k) = k := by
  induction d with
  | nil =>
    cases k with
    | nil => rfl
    | cons c t =>
      rw [List.nil_append, dropDigits, if_neg]
      rw [digit_iff]
      exact hk c rfl
  | cons c d ih =>
    rw [List.cons_append, dropDigits, if_pos (digit_iff.mpr (hd c (by simp)))]
    exact ih (fun b hb => hd b (by simp [hb]))

theorem digits_split (s : List Byte) : ∃ d k, s = d ++ k ∧ (∀ b ∈ d, Digit b) ∧ NoDigit k := by
  induction s with
  | nil => exact ⟨[], [], rfl, by simp, by simp [NoDigit]⟩
  | cons c t ih =>
    obtain ⟨d, k, rfl, hd, hk⟩ := ih
    by_cases hc : Digit c
    · exact ⟨c :: d, k, rfl, by simp; exact ⟨hc, hd⟩, hk⟩
    · exact ⟨[], c :: (d ++ k), rfl, by simp, by intro x hx; simp at hx; exact hx ▸ hc⟩

theorem digits_split_cons {c : Byte} {t : List Byte} (hc : Digit c) : ∃ d k, t = d ++ k ∧ Digits (c :: d) ∧ NoDigit k := by
  obtain ⟨d, k, e, hd, hk⟩ := digits_split t
  exact ⟨d, k, e, ⟨by simp, by simp; exact ⟨hc, hd⟩⟩, hk⟩

/-- The state inside a number of which `pre` was read. -/
structure Mid (r r1 : Reader) (pre : List Byte) : Prop where
  rest : r.rest = pre ++ r1.rest
  err : r1.err = r.err
  root : r1.root = r.root
  last : r1.last = .value
  null : r1.cur.null = false
  data : r1.cur.data = r.rest

theorem Mid.step {r r1 r2 : Reader} {pre x : List Byte} (h : Mid r r1 pre) (hr : r1.rest = x ++ r2.rest) (he : r2.err = r1.err)
    (ho : r2.root = r1.root) (hl : r2.last = r1.last) (hc : r2.cur = r1.cur) : Mid r r2 (pre ++ x) :=
  ⟨by rw [h.rest, hr, List.append_assoc], he.trans h.err, ho.trans h.root, hl.trans h.last, by rw [hc]; exact h.null,
    by rw [hc]; exact h.data⟩

/-- A step that fails: the error is set, and what is left is left from what was left. -/
def Fails (r r' : Reader) : Prop := r'.err ≠ .ok ∧ r'.rest <:+ r.rest

theorem moveTo_fields (r : Reader) (t : List Byte) : (moveTo r t).rest = t ∧ (moveTo r t).err = r.err ∧ (moveTo r t).root = r.root ∧
    (moveTo r t).last = r.last ∧ (moveTo r t).cur = r.cur ∧ (moveTo r t).vtype = r.vtype := ⟨rfl, rfl, rfl, rfl, rfl, rfl⟩

/-! ### Sign -/

theorem numSign_minus {r : Reader} {t : List Byte} (hr : r.rest = 0x2D :: t) (ht : t ≠ []) :
    ∃ r1, numSign strict r = .ok (.go true r1) ∧ Mid r r1 [0x2D] ∧ r1.rest = t ∧ r1.vtype = .int := by
  unfold numSign
  simp only [peek, hr, ok_bind, advance]
  rw [if_pos trivial, if_neg ht]
  exact ⟨_, rfl, ⟨by simp [hr], rfl, rfl, rfl, rfl, by simp [hr]⟩, rfl, rfl⟩

theorem numSign_minus_nil {r : Reader} (hr : r.rest = [0x2D]) :
    ∃ r1, numSign strict r = .ok (.done false r1) ∧ Fails r r1 := by
  unfold numSign
  simp only [peek, hr, ok_bind, advance]
  rw [if_pos trivial, if_pos trivial]
  exact ⟨_, rfl, by simp [setError], by simp [setError]⟩

theorem numSign_plain {r : Reader} {c : Byte} {t : List Byte} (hr : r.rest = c :: t) (hc : c ≠ 0x2D) :
    ∃ r1, numSign strict r = .ok (.go true r1) ∧ Mid r r1 [] ∧ r1.rest = c :: t ∧ r1.vtype = .uint := by
  unfold numSign
  simp only [peek, hr, ok_bind, advance]
  rw [if_neg hc, if_neg (by simp)]
  rw [if_neg (by simp)]
  exact ⟨_, rfl, ⟨by simp [hr], rfl, rfl, rfl, rfl, by simp [hr]⟩, by simp [hr], rfl⟩

/-! ### Integer part -/

theorem numInt_zero_nil {r : Reader} (hr : r.rest = [0x30]) :
    ∃ r1, numInt strict r = .ok (.done true (setSize r1)) ∧ r1.rest = [] ∧ r1.err = r.err ∧ r1.root = r.root ∧
      r1.last = r.last ∧ r1.cur = r.cur ∧ r1.vtype = r.vtype := by
  unfold numInt
  simp only [peek, hr, ok_bind, advance]
  rw [if_pos trivial, if_pos trivial]
  exact ⟨_, rfl, rfl, rfl, rfl, rfl, rfl, rfl⟩

theorem numInt_zero {r : Reader} {t : List Byte} (hr : r.rest = 0x30 :: t) (ht : t ≠ []) :
    ∃ r1, numInt strict r = .ok (.go true r1) ∧ r1.rest = t ∧ r1.err = r.err ∧ r1.root = r.root ∧
      r1.last = r.last ∧ r1.cur = r.cur ∧ r1.vtype = r.vtype := by
  unfold numInt
  simp only [peek, hr, ok_bind, advance]
  rw [if_pos trivial, if_neg ht]
  cases t with
  | nil => exact absurd rfl ht
  | cons x t =>
    simp only [ok_bind, strict, Bool.and_false, Bool.false_eq_true, if_false]
    exact ⟨_, rfl, rfl, rfl, rfl, rfl, rfl, rfl⟩

theorem numInt_digits {r : Reader} {c : Byte} {d k : List Byte} (hr : r.rest = c :: (d ++ k)) (hc : c ≠ 0x30) (hd : Digits (c :: d))
    (hk : NoDigit k) :
    ∃ r1, numInt strict r = .ok (if k = [] then .done true r1 else .go true r1) ∧ r1.rest = k ∧ r1.err = r.err ∧ r1.root = r.root ∧
      r1.last = r.last ∧ r1.cur = r.cur ∧ r1.vtype = r.vtype := by
  unfold numInt
  simp only [peek, hr, ok_bind, advance]
  rw [if_neg hc, if_pos (digit_iff.mpr (hd.2 c (by simp)))]
  have e : dropDigits isDigit (c :: (d ++ k)) = k := by
    rw [← List.cons_append]
    exact dropDigits_append hd.2 hk
  refine ⟨moveTo r (dropDigits isDigit (c :: (d ++ k))), ?_, e, rfl, rfl, rfl, rfl, rfl⟩
  simp only [moveTo, e]
  split <;> rfl

theorem numInt_bad {r : Reader} {c : Byte} {t : List Byte} (hr : r.rest = c :: t) (hc : ¬ Digit c) :
    ∃ r1, numInt strict r = .ok (.done false r1) ∧ Fails r r1 := by
  unfold numInt
  simp only [peek, hr, ok_bind, advance]
  rw [if_neg (by rintro rfl; exact hc (by decide)), if_neg (by rw [digit_iff]; exact hc), if_pos (by simp)]
  exact ⟨_, rfl, by simp [setError], by simp [setError]⟩

/-! ### Fraction -/

theorem numFrac_none {r : Reader} (hr : r.rest.head? ≠ some 0x2E) : numFrac strict r = .ok (.go false r) := by
  unfold numFrac
  split
  · rename_i h
    rw [h] at hr
    exact absurd rfl hr
  · rfl

theorem numFrac_some {r : Reader} {c : Byte} {d k : List Byte} (hr : r.rest = 0x2E :: c :: (d ++ k)) (hd : Digits (c :: d))
    (hk : NoDigit k) :
    ∃ r1, numFrac strict r = .ok (.go true r1) ∧ r1.rest = k ∧ r1.err = r.err ∧ r1.root = r.root ∧
      r1.last = r.last ∧ r1.cur = r.cur ∧ r1.vtype = .float := by
  unfold numFrac
  rw [hr]
  simp only [advance, ok_bind]
  rw [if_neg (by simp)]
  simp only [peek, ok_bind]
  rw [if_pos (digit_iff.mpr (hd.2 c (by simp)))]
  have e : dropDigits isDigit (c :: (d ++ k)) = k := by
    rw [← List.cons_append]
    exact dropDigits_append hd.2 hk
  exact ⟨_, rfl, e, rfl, rfl, rfl, rfl, rfl⟩

theorem numFrac_bad {r : Reader} {t : List Byte} (hr : r.rest = 0x2E :: t) (ht : NoDigit t) :
    ∃ r1, numFrac strict r = .ok (.done false r1) ∧ Fails r r1 := by
  unfold numFrac
  rw [hr]
  simp only [advance, ok_bind]
  cases t with
  | nil =>
    rw [if_pos rfl, if_neg (by simp)]
    exact ⟨_, rfl, by simp [setError], by simp [setError]⟩
  | cons c t =>
    rw [if_neg (by simp)]
    simp only [peek, ok_bind]
    rw [if_neg (by rw [digit_iff]; exact ht c rfl), if_pos (by simp)]
    exact ⟨_, rfl, by simp [setError], by simp [setError, hr]⟩

/-! ### Exponent -/

/-- The start of an exponent. -/
def IsE (c : Byte) : Prop := c = 0x65 ∨ c = 0x45

theorem numExp_none {r : Reader} {p l t : Bool} (hr : ∀ c, r.rest.head? = some c → ¬ IsE c) :
    numExp p l t r = .ok (.go t r) := by
  unfold numExp
  split
  · rfl
  · rename_i c t h
    rw [h] at hr
    have := hr c rfl
    rw [if_neg]
    simpa [IsE] using this

theorem numExp_some {r : Reader} {p t : Bool} {e c : Byte} {sign d k : List Byte} (hr : r.rest = e :: (sign ++ (c :: (d ++ k))))
    (he : IsE e) (hs : sign = [] ∨ sign = [0x2B] ∨ sign = [0x2D]) (hd : Digits (c :: d)) (hk : NoDigit k) :
    ∃ r1, numExp p true t r = .ok (.go true r1) ∧ r1.rest = k ∧ r1.err = r.err ∧ r1.root = r.root ∧
      r1.last = r.last ∧ r1.cur = r.cur ∧ r1.vtype = .float := by
  have ed : dropDigits isDigit (c :: (d ++ k)) = k := by
    rw [← List.cons_append]
    exact dropDigits_append hd.2 hk
  have hc := hd.2 c (by simp)
  unfold numExp
  rw [hr]
  simp only
  rw [if_pos (by simpa [IsE] using he), if_neg (by simp)]
  simp only [advance, hr, ok_bind]
  rcases hs with rfl | rfl | rfl
  · simp only [List.nil_append, peek, ok_bind]
    rw [if_neg]
    · rw [if_pos (digit_iff.mpr hc)]
      exact ⟨_, rfl, ed, rfl, rfl, rfl, rfl, rfl⟩
    · simp only [Bool.or_eq_true, decide_eq_true_eq]
      rintro (rfl | rfl) <;> exact absurd hc (by decide)
  · simp only [List.cons_append, List.nil_append, peek, ok_bind]
    rw [if_pos (by decide)]
    rw [if_pos (digit_iff.mpr hc)]
    exact ⟨_, rfl, ed, rfl, rfl, rfl, rfl, rfl⟩
  · simp only [List.cons_append, List.nil_append, peek, ok_bind]
    rw [if_pos (by decide)]
    rw [if_pos (digit_iff.mpr hc)]
    exact ⟨_, rfl, ed, rfl, rfl, rfl, rfl, rfl⟩

/-- An exponent that is cut off by the end of the text. -/
def CutExp (s : List Byte) : Prop := ∃ e, IsE e ∧ (s = [e] ∨ s = [e, 0x2B] ∨ s = [e, 0x2D])

theorem numExp_bad {r : Reader} {p t : Bool} {e c : Byte} {sign k : List Byte} (hr : r.rest = e :: (sign ++ (c :: k)))
    (he : IsE e) (hs : (sign = [] ∧ c ≠ 0x2B ∧ c ≠ 0x2D) ∨ sign = [0x2B] ∨ sign = [0x2D]) (hc : ¬ Digit c) :
    ∃ r1, numExp p true t r = .ok (.done false r1) ∧ Fails r r1 := by
  unfold numExp
  rw [hr]
  simp only
  rw [if_pos (by simpa [IsE] using he), if_neg (by simp)]
  simp only [advance, hr, ok_bind]
  rcases hs with ⟨rfl, h1, h2⟩ | rfl | rfl
  · simp only [List.nil_append, peek, ok_bind]
    rw [if_neg (by simp; exact ⟨h1, h2⟩)]
    rw [if_neg (by rw [digit_iff]; exact hc)]
    exact ⟨_, rfl, by simp [setError], by simp [setError, hr]⟩
  · simp only [List.cons_append, List.nil_append, peek, ok_bind]
    rw [if_pos (by decide)]
    rw [if_neg (by rw [digit_iff]; exact hc)]
    exact ⟨_, rfl, by simp [setError], by simp only [setError, hr, List.cons_append, List.nil_append]; exact ⟨[e, 0x2B], rfl⟩⟩
  · simp only [List.cons_append, List.nil_append, peek, ok_bind]
    rw [if_pos (by decide)]
    rw [if_neg (by rw [digit_iff]; exact hc)]
    exact ⟨_, rfl, by simp [setError], by simp only [setError, hr, List.cons_append, List.nil_append]; exact ⟨[e, 0x2D], rfl⟩⟩

theorem numExp_cut {r : Reader} {p t : Bool} (h : CutExp r.rest) : numExp p true t r = .error .oob := by
  obtain ⟨e, he, hr⟩ := h
  unfold numExp
  rcases hr with hr | hr | hr
  · rw [hr]
    simp only
    rw [if_pos (by simpa [IsE] using he), if_neg (by simp)]
    simp [advance, hr, peek, ok_bind, error_bind]
  · rw [hr]
    simp only
    rw [if_pos (by simpa [IsE] using he), if_neg (by simp)]
    simp [advance, hr, peek, ok_bind, error_bind]
  · rw [hr]
    simp only
    rw [if_pos (by simpa [IsE] using he), if_neg (by simp)]
    simp [advance, hr, peek, ok_bind, error_bind]

/-- After an `e` there is an exponent, something else, or the end of the text. -/
theorem exp_cases {e : Byte} (t : List Byte) (he : IsE e) :
    (∃ sign c d k, e :: t = e :: (sign ++ (c :: (d ++ k))) ∧ (sign = [] ∨ sign = [0x2B] ∨ sign = [0x2D]) ∧ Digits (c :: d) ∧
      NoDigit k) ∨
    (∃ sign c k, e :: t = e :: (sign ++ (c :: k)) ∧ ((sign = [] ∧ c ≠ 0x2B ∧ c ≠ 0x2D) ∨ sign = [0x2B] ∨ sign = [0x2D]) ∧
      ¬ Digit c) ∨
    CutExp (e :: t) := by
  cases t with
  | nil => exact Or.inr (Or.inr ⟨e, he, Or.inl rfl⟩)
  | cons x t =>
    by_cases hx : x = 0x2B ∨ x = 0x2D
    · cases t with
      | nil =>
        refine Or.inr (Or.inr ⟨e, he, ?_⟩)
        rcases hx with rfl | rfl
        · exact Or.inr (Or.inl rfl)
        · exact Or.inr (Or.inr rfl)
      | cons c t =>
        have hs : [x] = [0x2B] ∨ [x] = [0x2D] := by simpa using hx
        by_cases hc : Digit c
        · obtain ⟨d, k, rfl, hd, hk⟩ := digits_split_cons (t := t) hc
          exact Or.inl ⟨[x], c, d, k, rfl, Or.inr hs, hd, hk⟩
        · exact Or.inr (Or.inl ⟨[x], c, t, rfl, Or.inr hs, hc⟩)
    · by_cases hc : Digit x
      · obtain ⟨d, k, rfl, hd, hk⟩ := digits_split_cons (t := t) hc
        exact Or.inl ⟨[], x, d, k, rfl, Or.inl rfl, hd, hk⟩
      · exact Or.inr (Or.inl ⟨[], x, t, rfl, Or.inl ⟨rfl, by simpa using hx⟩, hc⟩)

/-! ### Numbers -/

/-- The type of a number with the sign `m`, the fraction `f` and the exponent `e`. -/
def numType (m f e : List Byte) : VType := if f = [] ∧ e = [] then (if m = [] then .uint else .int) else .float

/-- What `readNumber` does with a number `pre`. -/
structure NumOk (r r' : Reader) (pre k : List Byte) (t : VType) : Prop where
  mid : Mid r r' pre
  rest : r'.rest = k
  vtype : r'.vtype = t
  size : k ≠ [] → r'.cur.size = pre.length

theorem setSize_ok {r r1 : Reader} {pre : List Byte} (h : Mid r r1 pre) :
    NumOk r (setSize r1) pre r1.rest r1.vtype := by
  refine ⟨⟨h.rest, h.err, h.root, h.last, h.null, h.data⟩, rfl, rfl, fun _ => ?_⟩
  simp only [setSize]
  rw [h.data, h.rest]
  simp

/-- What may follow a number. -/
def Stop (k : List Byte) : Prop := ∀ c, k.head? = some c → ¬ Digit c ∧ c ≠ 0x2E ∧ ¬ IsE c

/-- The fraction and the exponent. -/
theorem numTail_ok {r r1 : Reader} {pre f e k : List Byte} (hm : Mid r r1 pre) (hr : r1.rest = f ++ (e ++ k)) (hf : Frac f)
    (he : Exp e) (hk : Stop k) :
    ∃ r', numTail strict true r1 = .ok (true, r') ∧ NumOk r r' (pre ++ f ++ e) k (if f = [] ∧ e = [] then r1.vtype else .float) := by
  have hkd : NoDigit k := fun c hc => (hk c hc).1
  unfold numTail
  have hexp : ∀ (p t : Bool) (r2 : Reader), Mid r r2 (pre ++ f) → r2.rest = e ++ k →
      (f = [] → r2.vtype = r1.vtype) → (f ≠ [] → r2.vtype = .float) →
      ∃ r', ((numExp p true t r2 >>= fun x => match x with
        | .done ok r => .ok (ok, r)
        | .go trail r => numEnd p true trail r) : C (Bool × Reader)) = .ok (true, r') ∧
        NumOk r r' (pre ++ f ++ e) k (if f = [] ∧ e = [] then r1.vtype else .float) := by
    intro p t r2 hm2 hr2 hv1 hv2
    rcases he with rfl | ⟨x, sign, d, hx, hs, hd, rfl⟩
    · rw [numExp_none (by rw [hr2]; intro c hc; exact (hk c hc).2.2), ok_bind]
      dsimp only [numEnd]
      rw [if_neg (by simp)]
      refine ⟨_, rfl, ?_⟩
      have := setSize_ok hm2
      rw [hr2] at this
      simp only [List.nil_append] at this
      rw [List.append_nil]
      by_cases hf0 : f = []
      · rw [if_pos ⟨hf0, by first | rfl | trivial⟩, ← hv1 hf0]; exact this
      · rw [if_neg (by simp [hf0]), ← hv2 hf0]; exact this
    · cases d with
      | nil => exact absurd rfl hd.1
      | cons c d =>
        obtain ⟨r3, e3, h3, h4, h5, h6, h7, h8⟩ := numExp_some (p := p) (t := t) (r := r2) (e := x) (c := c) (sign := sign) (d := d)
          (k := k) (by rw [hr2]; simp) hx hs hd hkd
        rw [e3, ok_bind]
        dsimp only [numEnd]
        rw [if_neg (by simp)]
        refine ⟨_, rfl, ?_⟩
        have := setSize_ok (hm2.step (x := x :: (sign ++ c :: d)) (by rw [hr2, h3]) h4 h5 h6 h7)
        rw [h3, h8] at this
        rw [if_neg (by simp)]
        exact this
  rcases hf with rfl | ⟨d, hd, rfl⟩
  · rw [numFrac_none, ok_bind]
    · dsimp only
      exact hexp _ _ _ (by simpa using hm) (by simpa using hr) (fun _ => rfl) (fun h => absurd rfl h)
    · rw [hr]
      rcases he with rfl | ⟨x, sign, d, hx, hs, hd, rfl⟩
      · simp only [List.nil_append]
        cases k with
        | nil => simp
        | cons c k => simpa using (hk c rfl).2.1
      · simp only [List.nil_append, List.cons_append, List.head?_cons, ne_eq, Option.some.injEq]
        rcases hx with rfl | rfl <;> decide
  · cases d with
    | nil => exact absurd rfl hd.1
    | cons c d =>
      have hnd : NoDigit (e ++ k) := by
        rcases he with rfl | ⟨x, sign, d, hx, hs, hd, rfl⟩
        · exact hkd
        · intro y hy
          simp only [List.cons_append, List.head?_cons, Option.some.injEq] at hy
          rcases hx with rfl | rfl <;> (subst hy; decide)
      obtain ⟨r2, e2, h3, h4, h5, h6, h7, h8⟩ := numFrac_some (r := r1) (c := c) (d := d) (k := e ++ k) (by rw [hr]; simp [chr]) hd hnd
      rw [e2, ok_bind]
      dsimp only
      exact hexp _ _ _ (hm.step (by rw [hr, h3]) h4 h5 h6 h7) h3 (fun h => by cases h) (fun _ => h8)

/-- Reading a number of the grammar. -/
theorem readNumber_ok {r : Reader} {m i f e k : List Byte} (hn : Number m i f e) (hr : r.rest = m ++ i ++ f ++ e ++ k)
    (hk : Stop k) : ∃ r', readNumber strict r = .ok (true, r') ∧ NumOk r r' (m ++ i ++ f ++ e) k (numType m f e) := by
  obtain ⟨hm, hi, hf, he⟩ := hn
  have hr0 : r.rest ≠ [] := by
    rw [hr]
    rcases hi with rfl | ⟨⟨h, _⟩, _⟩
    · simp
    · simp [h]
  have hfek : NoDigit (f ++ (e ++ k)) := by
    intro y hy
    rcases hf with rfl | ⟨d, hd, rfl⟩
    · rcases he with rfl | ⟨x, sign, d, hx, hs, hd, rfl⟩
      · exact (hk y hy).1
      · simp only [List.nil_append, List.cons_append, List.head?_cons, Option.some.injEq] at hy
        rcases hx with rfl | rfl <;> (subst hy; decide)
    · simp only [List.cons_append, List.head?_cons, Option.some.injEq] at hy
      subst hy
      decide
  have hint : ∀ r1 : Reader, Mid r r1 m → r1.rest = i ++ (f ++ (e ++ k)) → r1.vtype = (if m = [] then .uint else .int) →
      ∃ r', ((numInt strict r1 >>= fun x => match x with
        | .done ok r => .ok (ok, r)
        | .go lead r => numTail strict lead r) : C (Bool × Reader)) = .ok (true, r') ∧
        NumOk r r' (m ++ i ++ f ++ e) k (numType m f e) := by
    intro r1 hm1 hr1 hv1
    have htail : ∀ r2 : Reader, r2.rest = f ++ (e ++ k) → r2.err = r1.err → r2.root = r1.root → r2.last = r1.last →
        r2.cur = r1.cur → r2.vtype = r1.vtype →
        ∃ r', numTail strict true r2 = .ok (true, r') ∧ NumOk r r' (m ++ i ++ f ++ e) k (numType m f e) := by
      intro r2 h3 h4 h5 h6 h7 h8
      have hm2 : Mid r r2 (m ++ i) := hm1.step (by rw [hr1, h3]) h4 h5 h6 h7
      obtain ⟨r', e', h'⟩ := numTail_ok hm2 h3 hf he hk
      rw [h8, hv1] at h'
      exact ⟨r', e', h'⟩
    rcases hi with rfl | ⟨hd, hz⟩
    · by_cases hnil : f ++ (e ++ k) = []
      · have hf0 : f = [] := by simp at hnil; exact hnil.1
        have he0 : e = [] := by simp at hnil; exact hnil.2.1
        have hk0 : k = [] := by simp at hnil; exact hnil.2.2
        subst hf0; subst he0; subst hk0
        obtain ⟨r2, e2, h3, h4, h5, h6, h7, h8⟩ := numInt_zero_nil (r := r1) (by rw [hr1]; rfl)
        rw [e2, ok_bind]
        refine ⟨_, rfl, ?_⟩
        have := setSize_ok (hm1.step (x := [chr '0']) (by rw [hr1, h3]; rfl) h4 h5 h6 h7)
        rw [h3, h8, hv1] at this
        simpa [numType] using this
      · obtain ⟨r2, e2, h3, h4, h5, h6, h7, h8⟩ := numInt_zero (r := r1) (t := f ++ (e ++ k)) (by rw [hr1]; rfl) hnil
        rw [e2, ok_bind]
        exact htail r2 h3 h4 h5 h6 h7 h8
    · cases i with
      | nil => exact absurd rfl hd.1
      | cons c d =>
        obtain ⟨r2, e2, h3, h4, h5, h6, h7, h8⟩ := numInt_digits (r := r1) (c := c) (d := d) (k := f ++ (e ++ k)) (by rw [hr1]; rfl)
          (by simpa [chr] using hz) hd hfek
        rw [e2, ok_bind]
        by_cases hnil : f ++ (e ++ k) = []
        · rw [if_pos hnil]
          have hf0 : f = [] := by simp at hnil; exact hnil.1
          have he0 : e = [] := by simp at hnil; exact hnil.2.1
          have hk0 : k = [] := by simp at hnil; exact hnil.2.2
          subst hf0; subst he0; subst hk0
          refine ⟨r2, rfl, ?_, h3, ?_, fun h => absurd rfl h⟩
          · simpa using hm1.step (x := c :: d) (by rw [hr1, h3]) h4 h5 h6 h7
          · rw [h8, hv1]; simp [numType]
        · rw [if_neg hnil]
          exact htail r2 h3 h4 h5 h6 h7 h8
  unfold readNumber
  rw [if_neg hr0]
  have hi0 : i ≠ [] := by
    rcases hi with rfl | ⟨h, _⟩
    · simp
    · exact h.1
  rcases hm with rfl | rfl
  · cases i with
    | nil => exact absurd rfl hi0
    | cons c d =>
      have hc : Digit c := by
        rcases hi with h | ⟨h, _⟩
        · cases h; decide
        · exact h.2 c (by simp)
      obtain ⟨r1, e1, h1, h2, h3⟩ := numSign_plain (r := r) (c := c) (t := d ++ (f ++ (e ++ k))) (by rw [hr]; simp)
        (by rintro rfl; exact absurd hc (by decide))
      rw [e1, ok_bind]
      exact hint r1 h1 (by rw [h2]; rfl) (by rw [h3, if_pos rfl])
  · obtain ⟨r1, e1, h1, h2, h3⟩ := numSign_minus (r := r) (t := i ++ (f ++ (e ++ k))) (by rw [hr]; simp [chr]) (by simp [hi0])
    rw [e1, ok_bind]
    exact hint r1 h1 h2 (by rw [h3, if_neg (by simp)])

/-- The text ends with a digit and the beginning of an exponent. -/
def BadEnd (s : List Byte) : Prop := ∃ p d t, Digit d ∧ CutExp t ∧ s = p ++ d :: t

theorem BadEnd.suffix {s t : List Byte} (h : BadEnd t) (hs : t <:+ s) : BadEnd s := by
  obtain ⟨p, d, u, hd, hu, rfl⟩ := h
  obtain ⟨q, rfl⟩ := hs
  exact ⟨q ++ p, d, u, hd, hu, by simp⟩

/-- What the fraction and the exponent do in general. -/
theorem numTail_inv {r r1 : Reader} {pre : List Byte} (hm : Mid r r1 pre) (hpre : ∃ p d, pre = p ++ [d] ∧ Digit d) :
    (∃ f e k r', Frac f ∧ Exp e ∧ r1.rest = f ++ (e ++ k) ∧ numTail strict true r1 = .ok (true, r') ∧
      NumOk r r' (pre ++ f ++ e) k (if f = [] ∧ e = [] then r1.vtype else .float)) ∨
    (∃ r', numTail strict true r1 = .ok (false, r') ∧ Fails r r') ∨
    (numTail strict true r1 = .error .oob ∧ BadEnd r.rest) := by
  have hsuf : ∀ r2 : Reader, Fails r1 r2 → Fails r r2 := by
    intro r2 h
    refine ⟨h.1, h.2.trans ?_⟩
    rw [hm.rest]
    exact List.suffix_append _ _
  unfold numTail
  have hexp : ∀ (p t : Bool) (r2 : Reader) (f : List Byte), Frac f → r1.rest = f ++ r2.rest → Mid r r2 (pre ++ f) →
      (∃ p d, pre ++ f = p ++ [d] ∧ Digit d) → (f = [] → r2.vtype = r1.vtype) → (f ≠ [] → r2.vtype = .float) →
      (∃ e k r', Exp e ∧ r2.rest = e ++ k ∧ ((numExp p true t r2 >>= fun x => match x with
        | .done ok r => .ok (ok, r)
        | .go trail r => numEnd p true trail r) : C (Bool × Reader)) = .ok (true, r') ∧
        NumOk r r' (pre ++ f ++ e) k (if f = [] ∧ e = [] then r1.vtype else .float)) ∨
      (∃ r', ((numExp p true t r2 >>= fun x => match x with
        | .done ok r => .ok (ok, r)
        | .go trail r => numEnd p true trail r) : C (Bool × Reader)) = .ok (false, r') ∧ Fails r r') ∨
      (((numExp p true t r2 >>= fun x => match x with
        | .done ok r => .ok (ok, r)
        | .go trail r => numEnd p true trail r) : C (Bool × Reader)) = .error .oob ∧ BadEnd r.rest) := by
    intro p t r2 f hf hr2 hm2 hd2 hv1 hv2
    have hnone : (∀ c, r2.rest.head? = some c → ¬ IsE c) → ∃ r', ((numExp p true t r2 >>= fun x => match x with
        | .done ok r => .ok (ok, r)
        | .go trail r => numEnd p true trail r) : C (Bool × Reader)) = .ok (true, r') ∧
        NumOk r r' (pre ++ f ++ []) r2.rest (if f = [] ∧ ([] : List Byte) = [] then r1.vtype else .float) := by
      intro h
      rw [numExp_none h, ok_bind]
      dsimp only [numEnd]
      rw [if_neg (by simp)]
      refine ⟨_, rfl, ?_⟩
      have := setSize_ok hm2
      rw [List.append_nil]
      by_cases hf0 : f = []
      · rw [if_pos ⟨hf0, by first | rfl | trivial⟩, ← hv1 hf0]; exact this
      · rw [if_neg (by simp [hf0]), ← hv2 hf0]; exact this
    by_cases hE : ∀ c, r2.rest.head? = some c → ¬ IsE c
    · obtain ⟨r', h1, h2⟩ := hnone hE
      exact Or.inl ⟨[], r2.rest, r', Or.inl rfl, rfl, h1, h2⟩
    · cases hrest : r2.rest with
      | nil => rw [hrest] at hE; simp at hE
      | cons x u =>
        rw [hrest] at hE
        simp at hE
        rcases exp_cases u hE with ⟨sign, c, d, k, e1, hs, hd, hk⟩ | ⟨sign, c, k, e1, hs, hc⟩ | hcut
        · obtain ⟨r3, e3, h3, h4, h5, h6, h7, h8⟩ := numExp_some (p := p) (t := t) (r := r2) (hrest.trans e1) hE hs hd hk
          left
          refine ⟨x :: (sign ++ c :: d), k, setSize r3, Or.inr ⟨x, sign, c :: d, hE, hs, hd, rfl⟩, by rw [e1]; simp, ?_, ?_⟩
          · rw [e3, ok_bind]
            dsimp only [numEnd]
            rw [if_neg (by simp)]
          · have := setSize_ok (hm2.step (x := x :: (sign ++ c :: d)) (by rw [hrest, e1, h3]; simp) h4 h5 h6 h7)
            rw [h3, h8] at this
            rw [if_neg (by simp)]
            exact this
        · obtain ⟨r3, e3, h3⟩ := numExp_bad (p := p) (t := t) (r := r2) (hrest.trans e1) hE hs hc
          right; left
          refine ⟨r3, by rw [e3, ok_bind], h3.1, h3.2.trans ?_⟩
          rw [hm2.rest]
          exact List.suffix_append _ _
        · right; right
          refine ⟨by rw [numExp_cut (hrest ▸ hcut), error_bind], ?_⟩
          obtain ⟨q, d, e2, hd⟩ := hd2
          exact ⟨q, d, x :: u, hd, hcut, by rw [hm2.rest, e2, hrest]; simp⟩
  by_cases hdot : r1.rest.head? = some 0x2E
  · cases hrest : r1.rest with
    | nil => rw [hrest] at hdot; cases hdot
    | cons x u =>
      rw [hrest] at hdot
      simp at hdot
      have hdot : x = 0x2E := hdot
      subst hdot
      by_cases hu : NoDigit u
      · obtain ⟨r2, e2, h2⟩ := numFrac_bad hrest hu
        right; left
        exact ⟨r2, by rw [e2, ok_bind], hsuf r2 h2⟩
      · cases u with
        | nil => exact absurd (by simp [NoDigit]) hu
        | cons c u =>
          have hc : Digit c := by
            by_contra h
            exact hu (by intro y hy; simp at hy; exact hy ▸ h)
          obtain ⟨d, k, rfl, hd, hk⟩ := digits_split_cons (t := u) hc
          obtain ⟨r2, e2, h3, h4, h5, h6, h7, h8⟩ := numFrac_some hrest hd hk
          rw [e2, ok_bind]
          dsimp only
          have hf : Frac (0x2E :: c :: d) := Or.inr ⟨c :: d, hd, rfl⟩
          have hfr : r1.rest = (0x2E :: c :: d) ++ r2.rest := by rw [hrest, h3]; simp
          have hlast : ∃ p x, pre ++ 0x2E :: c :: d = p ++ [x] ∧ Digit x := by
            refine ⟨pre ++ 0x2E :: (c :: d).dropLast, (c :: d).getLast (by simp), ?_, hd.2 _ (List.getLast_mem _)⟩
            rw [List.append_assoc, List.cons_append, List.dropLast_append_getLast]
          rcases hexp (decide ((0x2E :: c :: (d ++ k)).head? = some (0x2E : Byte))) true r2 _ hf hfr (hm.step hfr h4 h5 h6 h7) hlast
            (fun h => by cases h) (fun _ => h8) with ⟨e, k', r', a1, a2, a3, a4⟩ | ⟨r', a1, a2⟩ | ⟨a1, a2⟩
          · exact Or.inl ⟨_, e, k', r', hf, a1, by rw [← hrest, hfr, a2], a3, a4⟩
          · exact Or.inr (Or.inl ⟨r', a1, a2⟩)
          · exact Or.inr (Or.inr ⟨a1, a2⟩)
  · rw [numFrac_none hdot, ok_bind]
    dsimp only
    rcases hexp (decide (r1.rest.head? = some 0x2E)) false r1 [] (Or.inl rfl) rfl (by simpa using hm) (by simpa using hpre)
      (fun _ => rfl) (fun h => absurd rfl h) with ⟨e, k', r', a1, a2, a3, a4⟩ | ⟨r', a1, a2⟩ | ⟨a1, a2⟩
    · exact Or.inl ⟨[], e, k', r', Or.inl rfl, a1, a2, a3, a4⟩
    · exact Or.inr (Or.inl ⟨r', a1, a2⟩)
    · exact Or.inr (Or.inr ⟨a1, a2⟩)

/-- What reading a number does in general. -/
theorem readNumber_inv (r : Reader) :
    (∃ m i f e k r', Number m i f e ∧ r.rest = m ++ i ++ f ++ e ++ k ∧ readNumber strict r = .ok (true, r') ∧
      NumOk r r' (m ++ i ++ f ++ e) k (numType m f e)) ∨
    (∃ r', readNumber strict r = .ok (false, r') ∧ Fails r r') ∨
    (readNumber strict r = .error .oob ∧ BadEnd r.rest) := by
  unfold readNumber
  by_cases hr0 : r.rest = []
  · rw [if_pos hr0]
    right; left
    exact ⟨_, rfl, by simp [setError], by simp [setError]⟩
  · rw [if_neg hr0]
    have hint : ∀ (m : List Byte) (r1 : Reader), (m = [] ∨ m = [chr '-']) → Mid r r1 m → r1.rest ≠ [] →
        r1.vtype = (if m = [] then .uint else .int) →
        (∃ i f e k r', Number m i f e ∧ r.rest = m ++ i ++ f ++ e ++ k ∧ ((numInt strict r1 >>= fun x => match x with
          | .done ok r => .ok (ok, r)
          | .go lead r => numTail strict lead r) : C (Bool × Reader)) = .ok (true, r') ∧
          NumOk r r' (m ++ i ++ f ++ e) k (numType m f e)) ∨
        (∃ r', ((numInt strict r1 >>= fun x => match x with
          | .done ok r => .ok (ok, r)
          | .go lead r => numTail strict lead r) : C (Bool × Reader)) = .ok (false, r') ∧ Fails r r') ∨
        (((numInt strict r1 >>= fun x => match x with
          | .done ok r => .ok (ok, r)
          | .go lead r => numTail strict lead r) : C (Bool × Reader)) = .error .oob ∧ BadEnd r.rest) := by
      intro m r1 hm hmid hne hv
      have htail : ∀ (i : List Byte) (r2 : Reader), IntPart i → r1.rest = i ++ r2.rest → r2.err = r1.err → r2.root = r1.root →
          r2.last = r1.last → r2.cur = r1.cur → r2.vtype = r1.vtype → (∃ p d, i = p ++ [d] ∧ Digit d) →
          (∃ i f e k r', Number m i f e ∧ r.rest = m ++ i ++ f ++ e ++ k ∧ numTail strict true r2 = .ok (true, r') ∧
            NumOk r r' (m ++ i ++ f ++ e) k (numType m f e)) ∨
          (∃ r', numTail strict true r2 = .ok (false, r') ∧ Fails r r') ∨
          (numTail strict true r2 = .error .oob ∧ BadEnd r.rest) := by
        intro i r2 hi h3 h4 h5 h6 h7 h8 hlast
        have hm2 : Mid r r2 (m ++ i) := hmid.step h3 h4 h5 h6 h7
        obtain ⟨p, d, rfl, hd⟩ := hlast
        rcases numTail_inv hm2 ⟨m ++ p, d, by simp, hd⟩ with ⟨f, e, k, r', hf, he, a1, a2, a3⟩ | h | h
        · rw [h8, hv] at a3
          exact Or.inl ⟨_, f, e, k, r', ⟨hm, hi, hf, he⟩, by rw [hm2.rest, a1]; simp, a2, a3⟩
        · exact Or.inr (Or.inl h)
        · exact Or.inr (Or.inr h)
      cases hrest : r1.rest with
      | nil => exact absurd hrest hne
      | cons c t =>
        by_cases hc : Digit c
        · by_cases hz : c = 0x30
          · subst hz
            by_cases ht : t = []
            · subst ht
              obtain ⟨r2, e2, h3, h4, h5, h6, h7, h8⟩ := numInt_zero_nil hrest
              left
              refine ⟨[chr '0'], [], [], [], setSize r2, ⟨hm, Or.inl rfl, Or.inl rfl, Or.inl rfl⟩, ?_, by rw [e2, ok_bind], ?_⟩
              · rw [hmid.rest, hrest]; simp [chr]
              · have := setSize_ok (hmid.step (x := [chr '0']) (by rw [hrest, h3]; rfl) h4 h5 h6 h7)
                rw [h3, h8, hv] at this
                simpa [numType] using this
            · obtain ⟨r2, e2, h3, h4, h5, h6, h7, h8⟩ := numInt_zero hrest ht
              rw [e2, ok_bind]
              exact htail [chr '0'] r2 (Or.inl rfl) (by rw [hrest, h3]; rfl) h4 h5 h6 h7 h8 ⟨[], chr '0', rfl, by decide⟩
          · obtain ⟨d, k, rfl, hd, hk⟩ := digits_split_cons (t := t) hc
            obtain ⟨r2, e2, h3, h4, h5, h6, h7, h8⟩ := numInt_digits hrest hz hd hk
            have hi : IntPart (c :: d) := Or.inr ⟨hd, by simpa [chr] using hz⟩
            rw [e2, ok_bind]
            by_cases hk0 : k = []
            · subst hk0
              left
              refine ⟨c :: d, [], [], [], r2, ⟨hm, hi, Or.inl rfl, Or.inl rfl⟩, by rw [hmid.rest, hrest]; simp, rfl, ?_, h3, ?_,
                fun h => absurd rfl h⟩
              · simpa using hmid.step (x := c :: d) (by rw [hrest, h3]; simp) h4 h5 h6 h7
              · rw [h8, hv]; simp [numType]
            · rw [if_neg hk0]
              refine htail (c :: d) r2 hi (by rw [hrest, h3]; simp) h4 h5 h6 h7 h8
                ⟨(c :: d).dropLast, (c :: d).getLast (by simp), ?_, hd.2 _ (List.getLast_mem _)⟩
              rw [List.dropLast_append_getLast]
        · obtain ⟨r2, e2, h2⟩ := numInt_bad hrest hc
          right; left
          refine ⟨r2, by rw [e2, ok_bind], h2.1, h2.2.trans ?_⟩
          rw [hmid.rest]
          exact List.suffix_append _ _
    cases hrest : r.rest with
    | nil => exact absurd hrest hr0
    | cons c t =>
      by_cases hc : c = 0x2D
      · subst hc
        by_cases ht : t = []
        · subst ht
          obtain ⟨r1, e1, h1⟩ := numSign_minus_nil hrest
          right; left
          refine ⟨r1, by rw [e1, ok_bind], h1⟩
        · obtain ⟨r1, e1, h1, h2, h3⟩ := numSign_minus hrest ht
          rw [e1, ok_bind, ← hrest]
          rcases hint [chr '-'] r1 (Or.inr rfl) h1 (by rw [h2]; exact ht) (by rw [h3, if_neg (by simp)]) with
            ⟨i, f, e, k, r', a⟩ | h | h
          · exact Or.inl ⟨_, i, f, e, k, r', a⟩
          · exact Or.inr (Or.inl h)
          · exact Or.inr (Or.inr h)
      · obtain ⟨r1, e1, h1, h2, h3⟩ := numSign_plain hrest hc
        rw [e1, ok_bind, ← hrest]
        rcases hint [] r1 (Or.inl rfl) h1 (by rw [h2]; simp) (by rw [h3, if_pos rfl]) with
          ⟨i, f, e, k, r', a⟩ | h | h
        · exact Or.inl ⟨_, i, f, e, k, r', a⟩
        · exact Or.inr (Or.inl h)
        · exact Or.inr (Or.inr h)

end Tm.Json
