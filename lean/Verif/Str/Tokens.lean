import Verif.Str.Unescaped

/-! # Iterating the tokenizer -/

namespace Tm.Str

/-- The client loop `while (tmsu_next_token…(…, &out)) { use(out); }` (`src/tm_stringutil/test.cpp` line 25): the tokens
that are used. `step` is one call of the tokenizer as a function of its position. -/
def whileTokens (step : Nat → C Tok) : Nat → Nat → C (List (Nat × Nat))
  | 0, _ => .error .diverge
  | fuel + 1, cur => do
    let t ← step cur
    if t.more then
      match t.out with
      | none => .error .invalid
      | some o => do
        let rest ← whileTokens step fuel t.cur
        .ok (o :: rest)
    else .ok []

/-- The client loop `do { more = tmsu_next_token…(…, &out); use(out); } while (more);`: the tokens that are used. -/
def doTokens (step : Nat → C Tok) : Nat → Nat → C (List (Nat × Nat))
  | 0, _ => .error .diverge
  | fuel + 1, cur => do
    let t ← step cur
    match t.out with
    | none => .error .invalid
    | some o =>
      if t.more then do
        let rest ← doTokens step fuel t.cur
        .ok (o :: rest)
      else .ok [o]

/-- The text of a token. -/
def tokText (mem : List Byte) (o : Nat × Nat) : List Byte := slice mem o.1 o.2

theorem pieces_ne_nil (d s : List Byte) : pieces d s ≠ [] := by
  cases s with
  | nil => simp [pieces]
  | cons x xs =>
    rw [pieces]
    split
    · simp
    · split <;> simp

theorem pieces_isFirst {mem d : List Byte} {b r : Nat} (hb : b ≤ mem.length) : ∀ n a, b - a = n → a ≤ b →
    IsFirst (ByteAt mem (· ∈ d)) a b r →
    pieces d (slice mem a b) = slice mem a r :: (if r = b then [] else pieces d (slice mem (r + 1) b))
  | 0, a, h, hab, hs => by
    obtain rfl : a = b := by omega
    have : r = a := by rcases hs with ⟨h1, h2, -⟩ | ⟨h, -⟩ <;> omega
    subst this
    simp [slice, pieces]
  | n + 1, a, h, hab, hs => by
    rw [slice_cons (by omega) hb, pieces]
    by_cases hx : mem[a]'(by omega) ∈ d
    · rw [if_pos hx]
      have hba : ByteAt mem (· ∈ d) a := by rw [byteAt_iff (by omega)]; exact hx
      have : r = a := by
        rcases hs with ⟨h1, h2, h3, h4⟩ | ⟨h, h'⟩
        · by_contra hne
          exact h4 a (by omega) (by omega) hba
        · exact absurd hba (h' a (by omega) (by omega))
      subst this
      rw [slice_self, if_neg (by omega)]
    · rw [if_neg hx]
      have hba : ¬ ByteAt mem (· ∈ d) a := by rw [byteAt_iff (by omega)]; exact hx
      have hne : r ≠ a := by
        rintro rfl
        rcases hs with ⟨h1, h2, h3, h4⟩ | ⟨h, h'⟩
        · exact hba h3
        · omega
      have hs' : IsFirst (ByteAt mem (· ∈ d)) (a + 1) b r := by
        rcases hs with ⟨h1, h2, h3, h4⟩ | ⟨h, h'⟩
        · exact Or.inl ⟨by omega, h2, h3, fun i hi hi' => h4 i (by omega) hi'⟩
        · exact Or.inr ⟨h, fun i hi hi' => h' i (by omega) hi'⟩
      have hr : r ≤ b ∧ a < r := by rcases hs' with ⟨h1, h2, -⟩ | ⟨h, -⟩ <;> omega
      rw [pieces_isFirst hb n (a + 1) (by omega) (by omega) hs']
      rw [slice_cons (a := a) (b := r) hr.2 (by omega)]

/-- What one step of a tokenizer of `[_, hi)` at position `cur` with delimiters `d` has to do. -/
def TokStep (mem d : List Byte) (hi : Nat) (step : Nat → C Tok) (cur : Nat) : Prop :=
  ∃ r, IsFirst (ByteAt mem (· ∈ d)) cur hi r ∧
    step cur = .ok ⟨decide (r ≠ hi), r + (if r ≠ hi then 1 else 0), some (cur, r)⟩

theorem doTokens_spec {mem d : List Byte} {hi : Nat} {step : Nat → C Tok} (hhi : hi ≤ mem.length) :
    ∀ fuel cur, cur ≤ hi → hi - cur < fuel → (∀ c, cur ≤ c → c ≤ hi → TokStep mem d hi step c) →
    ∃ toks, doTokens step fuel cur = .ok toks ∧ toks.map (tokText mem) = pieces d (slice mem cur hi)
  | 0, _, _, h, _ => by omega
  | fuel + 1, cur, hc, hf, hstep => by
    obtain ⟨r, hr, hst⟩ := hstep cur (by omega) hc
    rw [doTokens, hst, ok_bind, pieces_isFirst hhi _ cur rfl hc hr]
    have hrb : r ≤ hi ∧ cur ≤ r := by rcases hr with ⟨h1, h2, -⟩ | ⟨h, -⟩ <;> omega
    by_cases he : r = hi
    · subst he
      exact ⟨[(cur, r)], by simp, by simp [tokText]⟩
    · obtain ⟨toks, ht, hm⟩ := doTokens_spec hhi fuel (r + 1) (by omega) (by omega)
        (fun c h1 h2 => hstep c (by omega) h2)
      refine ⟨(cur, r) :: toks, ?_, ?_⟩
      · simp [he, ht]
      · rw [if_neg he, ← hm]; simp [tokText]

theorem whileTokens_spec {mem d : List Byte} {hi : Nat} {step : Nat → C Tok} (hhi : hi ≤ mem.length) :
    ∀ fuel cur, cur ≤ hi → hi - cur < fuel → (∀ c, cur ≤ c → c ≤ hi → TokStep mem d hi step c) →
    ∃ toks, whileTokens step fuel cur = .ok toks ∧ toks.map (tokText mem) = (pieces d (slice mem cur hi)).dropLast
  | 0, _, _, h, _ => by omega
  | fuel + 1, cur, hc, hf, hstep => by
    obtain ⟨r, hr, hst⟩ := hstep cur (by omega) hc
    rw [whileTokens, hst, ok_bind, pieces_isFirst hhi _ cur rfl hc hr]
    have hrb : r ≤ hi ∧ cur ≤ r := by rcases hr with ⟨h1, h2, -⟩ | ⟨h, -⟩ <;> omega
    by_cases he : r = hi
    · subst he
      exact ⟨[], by simp, by simp⟩
    · obtain ⟨toks, ht, hm⟩ := whileTokens_spec hhi fuel (r + 1) (by omega) (by omega)
        (fun c h1 h2 => hstep c (by omega) h2)
      refine ⟨(cur, r) :: toks, ?_, ?_⟩
      · simp [he, ht]
      · rw [if_neg he, List.dropLast_cons_of_ne_nil (pieces_ne_nil _ _), ← hm]; simp [tokText]

/-- What one step of a tokenizer that skips empty tokens has to do. -/
def SkipStep (mem d : List Byte) (hi : Nat) (step : Nat → C Tok) (cur : Nat) : Prop :=
  ∃ r0, IsFirst (ByteAt mem (· ∉ d)) cur hi r0 ∧
    ((r0 = hi ∧ step cur = .ok ⟨false, hi, none⟩) ∨
      (r0 ≠ hi ∧ ∃ r, IsFirst (ByteAt mem (· ∈ d)) r0 hi r ∧ step cur = .ok ⟨true, r, some (r0, r)⟩))

/-- The pieces that are not empty. -/
def nonEmpty (ps : List (List Byte)) : List (List Byte) := ps.filter (fun p => !p.isEmpty)

theorem nonEmpty_skip {mem d : List Byte} {b r0 : Nat} (hb : b ≤ mem.length) : ∀ n a, r0 - a = n → a ≤ r0 → r0 ≤ b →
    (∀ i, a ≤ i → i < r0 → ByteAt mem (· ∈ d) i) →
    nonEmpty (pieces d (slice mem a b)) = nonEmpty (pieces d (slice mem r0 b))
  | 0, a, h, h1, h2, _ => by
    obtain rfl : a = r0 := by omega
    rfl
  | n + 1, a, h, h1, h2, hd => by
    have := hd a (by omega) (by omega)
    rw [byteAt_iff (by omega)] at this
    rw [slice_cons (by omega) hb, pieces, if_pos this,
      ← nonEmpty_skip hb n (a + 1) (by omega) (by omega) h2 (fun i hi hi' => hd i (by omega) hi')]
    simp [nonEmpty]

theorem skipTokens_spec {mem d : List Byte} {hi : Nat} {step : Nat → C Tok} (hhi : hi ≤ mem.length) :
    ∀ fuel cur, cur ≤ hi → hi - cur < fuel → (∀ c, cur ≤ c → c ≤ hi → SkipStep mem d hi step c) →
    ∃ toks, whileTokens step fuel cur = .ok toks ∧ toks.map (tokText mem) = nonEmpty (pieces d (slice mem cur hi))
  | 0, _, _, h, _ => by omega
  | fuel + 1, cur, hc, hf, hstep => by
    obtain ⟨r0, hr0, hst⟩ := hstep cur (by omega) hc
    have hr0b : r0 ≤ hi ∧ cur ≤ r0 ∧ ∀ i, cur ≤ i → i < r0 → ByteAt mem (· ∈ d) i := by
      have key : ∀ i, i < hi → ¬ ByteAt mem (· ∉ d) i → ByteAt mem (· ∈ d) i := by
        intro i hi h
        rw [byteAt_iff (by omega)] at h ⊢
        simpa using h
      rcases hr0 with ⟨h1, h2, h3, h4⟩ | ⟨rfl, h'⟩
      · exact ⟨by omega, by omega, fun i hi hi' => key i (by omega) (h4 i hi hi')⟩
      · exact ⟨by omega, by omega, fun i hi hi' => key i hi' (h' i hi hi')⟩
    rw [whileTokens, nonEmpty_skip hhi _ cur rfl hr0b.2.1 hr0b.1 hr0b.2.2]
    rcases hst with ⟨he, hst⟩ | ⟨hne, r, hr, hst⟩
    · rw [hst, ok_bind, he]
      exact ⟨[], by simp, by simp [slice, pieces, nonEmpty]⟩
    · rw [hst, ok_bind, pieces_isFirst hhi _ r0 rfl hr0b.1 hr]
      have hnd : ¬ ByteAt mem (· ∈ d) r0 := by
        rcases hr0 with ⟨h1, h2, ⟨x, hx, hx'⟩, h4⟩ | ⟨h, h'⟩
        · rintro ⟨y, hy, hy'⟩
          rw [hx, Option.some_inj] at hy
          subst hy
          exact hx' hy'
        · exact absurd h hne
      have hrb : r ≤ hi ∧ r0 < r := by
        rcases hr with ⟨h1, h2, h3, -⟩ | ⟨h, -⟩
        · refine ⟨by omega, ?_⟩
          rcases Nat.lt_or_ge r0 r with h | h
          · exact h
          · obtain rfl : r = r0 := by omega
            exact absurd h3 hnd
        · omega
      obtain ⟨toks, ht, hm⟩ := skipTokens_spec hhi fuel r (by omega) (by omega)
        (fun c h1 h2 => hstep c (by omega) h2)
      refine ⟨(r0, r) :: toks, by simp [ht], ?_⟩
      have hpc : nonEmpty (pieces d (slice mem r hi)) = nonEmpty (if r = hi then [] else pieces d (slice mem (r + 1) hi)) := by
        by_cases he : r = hi
        · subst he; simp [slice, pieces, nonEmpty]
        · rw [if_neg he]
          apply nonEmpty_skip hhi 1 r (by omega) (by omega) (by omega)
          intro i hi hi'
          obtain rfl : i = r := by omega
          rcases hr with ⟨h1, h2, h3, -⟩ | ⟨h, -⟩
          · exact h3
          · exact absurd h he
      have hne' : (!(slice mem r0 r).isEmpty) = true := by
        rw [slice_cons (mem := mem) hrb.2 (by omega)]; rfl
      rw [List.map_cons, hm, hpc, nonEmpty, nonEmpty, List.filter_cons, if_pos hne']
      rfl

theorem nextToken_step {mem s d : List Byte} {p q : Nat} (hp : ZStr mem p s) (hq : ZStr mem q d) {c : Nat} (h1 : p ≤ c)
    (h2 : c ≤ p + s.length) : TokStep mem d (p + s.length) (fun cur => nextToken mem cur q) c := by
  obtain ⟨s', hp', he'⟩ := hp.pos h1 h2
  obtain ⟨r, hr, hs⟩ := findFirstOf_spec hq hp'
  rw [he'] at hs
  refine ⟨r, hs, ?_⟩
  show nextToken mem c q = _
  rw [nextToken, hr, ok_bind]
  rcases hs with ⟨g1, g2, g3, g4⟩ | ⟨rfl, hs⟩
  · obtain ⟨x, hx, hx0⟩ := hp.get_in (i := r) (by omega) g2
    rw [rd_of_get? hx, ok_bind]
    simp [show r ≠ p + s.length by omega]
    exact hx0
  · rw [rd_of_get? hp.nul, ok_bind]
    simp

theorem nextTokenN_step {mem : List Byte} {b f fl : Nat} (hb : b ≤ mem.length) (hf : Range mem f fl) (hne : f ≠ fl) {c : Nat}
    (h2 : c ≤ b) : TokStep mem (slice mem f fl) b (fun cur => nextTokenN mem cur b f fl) c := by
  obtain ⟨r, hr, hs⟩ := findFirstOfN_nonempty ⟨h2, hb⟩ hf hne
  refine ⟨r, hs, ?_⟩
  show nextTokenN mem c b f fl = _
  have hc : c ≤ r := by rcases hs with ⟨h1, -⟩ | ⟨h, -⟩ <;> omega
  rw [nextTokenN, assert_ok (by simpa using h2), ok_bind, assert_ok (by simpa using hf.1), ok_bind, hr, ok_bind,
    assert_ok (by simpa using hc), ok_bind]
  by_cases he : r = b <;> simp [he]

theorem nextTokenSkipEmpty_step {mem s d : List Byte} {p q : Nat} (hp : ZStr mem p s) (hq : ZStr mem q d) {c : Nat}
    (h1 : p ≤ c) (h2 : c ≤ p + s.length) :
    SkipStep mem d (p + s.length) (fun cur => nextTokenSkipEmpty mem cur q) c := by
  obtain ⟨s', hp', he'⟩ := hp.pos h1 h2
  obtain ⟨r0, hr0, hs0⟩ := findFirstNotOf_spec hq hp'
  rw [he'] at hs0
  refine ⟨r0, hs0, ?_⟩
  show (_ ∧ nextTokenSkipEmpty mem c q = _) ∨ (_ ∧ ∃ r, _ ∧ nextTokenSkipEmpty mem c q = _)
  rw [nextTokenSkipEmpty, hr0, ok_bind]
  rcases hs0 with ⟨g1, g2, g3, g4⟩ | ⟨rfl, hs⟩
  · obtain ⟨x, hx, hx0⟩ := hp.get_in (i := r0) (by omega) g2
    rw [rd_of_get? hx, ok_bind, if_neg hx0]
    obtain ⟨s'', hp'', he''⟩ := hp.pos (i := r0) (by omega) (by omega)
    obtain ⟨r, hr, hs⟩ := findFirstOf_spec hq hp''
    rw [he''] at hs
    refine Or.inr ⟨by omega, r, hs, ?_⟩
    rw [hr, ok_bind]
  · rw [rd_of_get? hp.nul, ok_bind, if_pos rfl]
    exact Or.inl ⟨rfl, rfl⟩

theorem findFirstNotOfN_nonempty {mem : List Byte} {a b f fl : Nat} (h : Range mem a b) (hf : Range mem f fl) (hne : f ≠ fl) :
    ∃ r, findFirstNotOfN mem a b f fl = .ok r ∧ IsFirst (ByteAt mem (· ∉ slice mem f fl)) a b r := by
  obtain ⟨h1, h2⟩ := h
  have := hf.1
  rw [findFirstNotOfN, assert_ok (by simpa using h1), ok_bind, assert_ok (by simpa using hf.1), ok_bind,
    distance_ok hf.1, ok_bind, if_neg (by omega)]
  obtain ⟨r, hr, hs⟩ := findFirstOfLoop_spec hf true (b - a) a (by omega)
  refine ⟨r, hr, ?_⟩
  rw [show a + (b - a) = b by omega] at hs
  simpa using hs

theorem nextTokenSkipEmptyN_step {mem : List Byte} {b f fl : Nat} (hb : b ≤ mem.length) (hf : Range mem f fl)
    (hne : f ≠ fl) {c : Nat} (h2 : c ≤ b) :
    SkipStep mem (slice mem f fl) b (fun cur => nextTokenSkipEmptyN mem cur b f fl) c := by
  obtain ⟨r0, hr0, hs0⟩ := findFirstNotOfN_nonempty ⟨h2, hb⟩ hf hne
  refine ⟨r0, hs0, ?_⟩
  show (_ ∧ nextTokenSkipEmptyN mem c b f fl = _) ∨ (_ ∧ ∃ r, _ ∧ nextTokenSkipEmptyN mem c b f fl = _)
  rw [nextTokenSkipEmptyN, assert_ok (by simpa using h2), ok_bind, assert_ok (by simpa using hf.1), ok_bind, hr0, ok_bind]
  have hb0 : r0 ≤ b := by rcases hs0 with ⟨h1, h2, -⟩ | ⟨h, -⟩ <;> omega
  by_cases he : r0 = b
  · rw [if_pos he]
    exact Or.inl ⟨he, by rw [he]⟩
  · rw [if_neg he]
    obtain ⟨r, hr, hs⟩ := findFirstOfN_nonempty (a := r0) ⟨hb0, hb⟩ hf hne
    have hc : r0 ≤ r := by rcases hs with ⟨h1, -⟩ | ⟨h, -⟩ <;> omega
    refine Or.inr ⟨he, r, hs, ?_⟩
    rw [hr, ok_bind, assert_ok (by simpa using hc), ok_bind]

/-- With an empty delimiter set the tokenizer that skips empty tokens returns the same empty token for ever. -/
theorem skipEmptyN_stuck {mem : List Byte} {cur b f : Nat} (h : cur < b) :
    nextTokenSkipEmptyN mem cur b f f = .ok ⟨true, cur, some (cur, cur)⟩ := by
  rw [nextTokenSkipEmptyN, assert_ok (by simp; omega), ok_bind, assert_ok (by simp), ok_bind, findFirstNotOfN,
    assert_ok (by simp; omega), ok_bind, assert_ok (by simp), ok_bind, distance_ok (by omega), ok_bind,
    if_pos (by omega), ok_bind, if_neg (by omega), findFirstOfN, assert_ok (by simp; omega), ok_bind,
    assert_ok (by simp), ok_bind, if_pos rfl, ok_bind, assert_ok (by simp), ok_bind]

theorem whileTokens_stuck {step : Nat → C Tok} {cur : Nat} {o : Nat × Nat} (h : step cur = .ok ⟨true, cur, some o⟩) :
    ∀ fuel, whileTokens step fuel cur = .error .diverge
  | 0 => rfl
  | fuel + 1 => by
    rw [whileTokens, h, ok_bind]
    simp [whileTokens_stuck h fuel]

end Tm.Str
