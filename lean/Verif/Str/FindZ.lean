import Verif.Str.FindLemmas

/-! # Lemmas about the search functions for NUL-terminated strings -/

namespace Tm.Str

theorem ZStr.lt {mem : List Byte} {p : Nat} {s : List Byte} (h : ZStr mem p s) : p + s.length < mem.length := by
  obtain ⟨⟨t, ht⟩, -⟩ := h
  have := congrArg List.length ht
  simp at this
  omega

theorem ZStr.range {mem : List Byte} {p : Nat} {s : List Byte} (h : ZStr mem p s) : Range mem p (p + s.length) :=
  ⟨by omega, by have := h.lt; omega⟩

theorem ZStr.get {mem : List Byte} {p : Nat} {s : List Byte} (h : ZStr mem p s) {i : Nat} (hi : i < s.length) :
    mem[p + i]? = some s[i] := by
  obtain ⟨⟨t, ht⟩, -⟩ := h
  rw [← List.getElem?_drop, ht, List.getElem?_append_left hi, List.getElem?_eq_getElem hi]

theorem ZStr.nul {mem : List Byte} {p : Nat} {s : List Byte} (h : ZStr mem p s) : mem[p + s.length]? = some 0 := by
  obtain ⟨⟨t, ht⟩, -⟩ := h
  rw [← List.getElem?_drop, ht, List.getElem?_append_right (by omega)]
  simp

theorem ZStr.ne {mem : List Byte} {p : Nat} {s : List Byte} (h : ZStr mem p s) {i : Nat} (hi : i < s.length) :
    s[i] ≠ 0 := fun h0 => h.2 (h0 ▸ List.getElem_mem hi)

theorem ZStr.slice {mem : List Byte} {p : Nat} {s : List Byte} (h : ZStr mem p s) : slice mem p (p + s.length) = s := by
  obtain ⟨⟨t, ht⟩, -⟩ := h
  rw [Tm.Str.slice, ht, show p + s.length - p = s.length by omega, List.take_left']
  rfl

theorem ZStr.drop {mem : List Byte} {p : Nat} {s : List Byte} (h : ZStr mem p s) {k : Nat} (hk : k ≤ s.length) :
    ZStr mem (p + k) (s.drop k) := by
  obtain ⟨⟨t, ht⟩, h0⟩ := h
  refine ⟨⟨t, ?_⟩, fun hm => h0 (List.mem_of_mem_drop hm)⟩
  rw [← List.drop_drop, ht, List.drop_append_of_le_length hk]

theorem ZStr.tail {mem : List Byte} {p : Nat} {x : Byte} {s : List Byte} (h : ZStr mem p (x :: s)) :
    ZStr mem (p + 1) s := h.drop (k := 1) (by simp)

theorem strlenL_eq : ∀ (s t : List Byte), 0 ∉ s → strlenL (s ++ 0 :: t) = .ok s.length
  | [], t, _ => rfl
  | x :: s, t, h => by
    rw [List.mem_cons, not_or] at h
    rw [List.cons_append, strlenL, if_neg (fun hx => h.1 hx.symm), strlenL_eq s t h.2]
    rfl

theorem strlen_eq {mem : List Byte} {p : Nat} {s : List Byte} (h : ZStr mem p s) : strlen mem p = .ok s.length := by
  obtain ⟨⟨t, ht⟩, h0⟩ := h
  rw [strlen, ht, strlenL_eq s t h0]

theorem strchrL_eq (c : Byte) (hc : c ≠ 0) : ∀ (s t : List Byte), 0 ∉ s → strchrL c (s ++ 0 :: t) = .ok (decide (c ∈ s))
  | [], t, _ => by
    rw [List.nil_append, strchrL, if_neg (fun h => hc h.symm), if_pos rfl]; simp
  | x :: s, t, h => by
    rw [List.mem_cons, not_or] at h
    rw [List.cons_append, strchrL]
    by_cases hx : x = c
    · rw [if_pos hx]; simp [hx]
    · rw [if_neg hx, if_neg (fun hx => h.1 hx.symm), strchrL_eq c hc s t h.2]
      have : c ∈ x :: s ↔ c ∈ s := by
        rw [List.mem_cons, or_iff_right (fun h => hx h.symm)]
      simp [this]

theorem strchr_eq {mem : List Byte} {q : Nat} {set : List Byte} (h : ZStr mem q set) {c : Byte} (hc : c ≠ 0) :
    strchr mem q c = .ok (decide (c ∈ set)) := by
  obtain ⟨⟨t, ht⟩, h0⟩ := h
  rw [strchr, ht, strchrL_eq c hc set t h0]

/-- A scan over a NUL-terminated string that stops at the first byte with `Q`. -/
theorem isFirst_cons {mem : List Byte} {p hi r : Nat} {Q : Byte → Prop} (h : ¬ ByteAt mem Q p)
    (hs : IsFirst (ByteAt mem Q) (p + 1) hi r) : IsFirst (ByteAt mem Q) p hi r := by
  rcases hs with ⟨h1, h2, h3, h4⟩ | ⟨rfl, hs⟩
  · refine Or.inl ⟨by omega, h2, h3, fun i hi hi' => ?_⟩
    by_cases he : i = p
    · subst he; exact h
    · exact h4 i (by omega) hi'
  · refine Or.inr ⟨rfl, fun i hi hi' => ?_⟩
    by_cases he : i = p
    · subst he; exact h
    · exact hs i (by omega) hi'

theorem isFirst_here {P : Nat → Prop} {p hi : Nat} (hp : p < hi) (h : P p) : IsFirst P p hi p :=
  Or.inl ⟨by omega, hp, h, by intros; omega⟩

theorem isFirst_empty (P : Nat → Prop) (p : Nat) : IsFirst P p p p := Or.inr ⟨rfl, by intros; omega⟩

theorem ZStr.byteAt_head {mem : List Byte} {p : Nat} {x : Byte} {s : List Byte} (h : ZStr mem p (x :: s)) (Q : Byte → Prop) :
    ByteAt mem Q p ↔ Q x := by
  have := h.get (i := 0) (by simp)
  rw [Nat.add_zero] at this
  rw [ByteAt, this]
  simp

theorem ZStr.drop_eq {mem : List Byte} {p : Nat} {x : Byte} {s : List Byte} (h : ZStr mem p (x :: s)) :
    mem.drop p = x :: mem.drop (p + 1) := by
  obtain ⟨⟨t, ht⟩, -⟩ := h
  have := congrArg (List.drop 1) ht
  rw [List.drop_drop] at this
  rw [ht, this]
  rfl

theorem ZStr.drop_nil {mem : List Byte} {p : Nat} (h : ZStr mem p []) : mem.drop p = 0 :: mem.drop (p + 1) := by
  obtain ⟨⟨t, ht⟩, -⟩ := h
  have := congrArg (List.drop 1) ht
  rw [List.drop_drop] at this
  rw [ht, this]
  rfl

theorem ZStr.head_ne {mem : List Byte} {p : Nat} {x : Byte} {s : List Byte} (h : ZStr mem p (x :: s)) : x ≠ 0 := by
  have := h.2
  rw [List.mem_cons, not_or] at this
  exact fun h => this.1 h.symm

theorem add_length_cons (p : Nat) (x : Byte) (s : List Byte) : p + (x :: s).length = p + 1 + s.length := by
  simp; omega

theorem findChar_spec {mem : List Byte} (c : Byte) : ∀ {s : List Byte} {p : Nat}, ZStr mem p s →
    ∃ r, findChar mem p c = .ok r ∧ IsFirst (ByteAt mem (· = c)) p (p + s.length) r
  | [], p, h => by
    rw [findChar, h.drop_nil, findCharL, if_pos rfl]
    exact ⟨p, rfl, isFirst_empty _ _⟩
  | x :: s, p, h => by
    rw [findChar, h.drop_eq, findCharL, if_neg h.head_ne, add_length_cons]
    by_cases hx : x = c
    · rw [if_pos hx]
      exact ⟨p, rfl, isFirst_here (by omega) ((h.byteAt_head _).2 hx)⟩
    · rw [if_neg hx]
      obtain ⟨r, hr, hs⟩ := findChar_spec c h.tail
      exact ⟨r, hr, isFirst_cons (fun hb => hx ((h.byteAt_head _).1 hb)) hs⟩

theorem findChar2_spec {mem : List Byte} (c d : Byte) : ∀ {s : List Byte} {p : Nat}, ZStr mem p s →
    ∃ r, findChar2 mem p c d = .ok r ∧ IsFirst (ByteAt mem (fun x => x = c ∨ x = d)) p (p + s.length) r
  | [], p, h => by
    rw [findChar2, h.drop_nil, findChar2L, if_pos rfl]
    exact ⟨p, rfl, isFirst_empty _ _⟩
  | x :: s, p, h => by
    rw [findChar2, h.drop_eq, findChar2L, if_neg h.head_ne, add_length_cons]
    by_cases hx : x = c ∨ x = d
    · rw [if_pos hx]
      exact ⟨p, rfl, isFirst_here (by omega) ((h.byteAt_head _).2 hx)⟩
    · rw [if_neg hx]
      obtain ⟨r, hr, hs⟩ := findChar2_spec c d h.tail
      exact ⟨r, hr, isFirst_cons (fun hb => hx ((h.byteAt_head _).1 hb)) hs⟩

theorem strcspn_spec {mem set : List Byte} {q : Nat} (hq : ZStr mem q set) : ∀ {s : List Byte} {p : Nat}, ZStr mem p s →
    ∃ n, strcspn mem p q = .ok n ∧ IsFirst (ByteAt mem (· ∈ set)) p (p + s.length) (p + n)
  | [], p, h => by
    rw [strcspn, h.drop_nil, strcspnL, if_pos rfl]
    exact ⟨0, rfl, isFirst_empty _ _⟩
  | x :: s, p, h => by
    rw [strcspn, h.drop_eq, strcspnL, if_neg h.head_ne, add_length_cons, strchr_eq hq h.head_ne, ok_bind]
    by_cases hx : x ∈ set
    · rw [if_pos (by simpa using hx)]
      exact ⟨0, rfl, isFirst_here (by omega) ((h.byteAt_head _).2 hx)⟩
    · rw [if_neg (by simpa using hx)]
      obtain ⟨r, hr, hs⟩ := strcspn_spec hq h.tail
      rw [strcspn] at hr
      rw [hr, ok_bind]
      refine ⟨r + 1, rfl, isFirst_cons (fun hb => hx ((h.byteAt_head _).1 hb)) ?_⟩
      rw [show p + (r + 1) = p + 1 + r by omega]
      exact hs

theorem strspn_spec {mem set : List Byte} {q : Nat} (hq : ZStr mem q set) : ∀ {s : List Byte} {p : Nat}, ZStr mem p s →
    ∃ n, strspn mem p q = .ok n ∧ IsFirst (ByteAt mem (· ∉ set)) p (p + s.length) (p + n)
  | [], p, h => by
    rw [strspn, h.drop_nil, strspnL, if_pos rfl]
    exact ⟨0, rfl, isFirst_empty _ _⟩
  | x :: s, p, h => by
    rw [strspn, h.drop_eq, strspnL, if_neg h.head_ne, add_length_cons, strchr_eq hq h.head_ne, ok_bind]
    by_cases hx : x ∈ set
    · rw [if_pos (by simpa using hx)]
      obtain ⟨r, hr, hs⟩ := strspn_spec hq h.tail
      rw [strspn] at hr
      rw [hr, ok_bind]
      refine ⟨r + 1, rfl, isFirst_cons (fun hb => (h.byteAt_head _).1 hb hx) ?_⟩
      rw [show p + (r + 1) = p + 1 + r by omega]
      exact hs
    · rw [if_neg (by simpa using hx)]
      exact ⟨0, rfl, isFirst_here (by omega) ((h.byteAt_head _).2 hx)⟩

theorem findFirstOf_spec {mem set s : List Byte} {q p : Nat} (hq : ZStr mem q set) (hp : ZStr mem p s) :
    ∃ r, findFirstOf mem p q = .ok r ∧ IsFirst (ByteAt mem (· ∈ set)) p (p + s.length) r := by
  obtain ⟨n, hn, hs⟩ := strcspn_spec hq hp
  exact ⟨p + n, by rw [findFirstOf, hn]; rfl, hs⟩

theorem findFirstNotOf_spec {mem set s : List Byte} {q p : Nat} (hq : ZStr mem q set) (hp : ZStr mem p s) :
    ∃ r, findFirstNotOf mem p q = .ok r ∧ IsFirst (ByteAt mem (· ∉ set)) p (p + s.length) r := by
  obtain ⟨n, hn, hs⟩ := strspn_spec hq hp
  exact ⟨p + n, by rw [findFirstNotOf, hn]; rfl, hs⟩

/-! ## Substrings -/

theorem strncmpL_spec : ∀ (d s t t' : List Byte), 0 ∉ d → 0 ∉ s →
    ∃ k, strncmpL (s ++ 0 :: t) (d ++ 0 :: t') d.length = .ok k ∧ (k = 0 ↔ d <+: s)
  | [], s, t, t', _, _ => ⟨0, by cases s <;> rfl, by simp⟩
  | y :: d, [], t, t', hd, _ => by
    rw [List.mem_cons, not_or] at hd
    refine ⟨_, by rw [List.nil_append, List.cons_append, List.length_cons, strncmpL, if_pos hd.1], ?_⟩
    rw [List.prefix_nil]
    simp only [reduceCtorEq, iff_false]
    have := byte_ne_of hd.1
    simpa using this
  | y :: d, x :: s, t, t', hd, hs => by
    rw [List.mem_cons, not_or] at hd hs
    rw [List.cons_append, List.cons_append, List.length_cons, strncmpL]
    by_cases hx : x = y
    · subst hx
      rw [if_neg (by simp), if_neg (fun h => hd.1 h.symm)]
      obtain ⟨k, hk, hk'⟩ := strncmpL_spec d s t t' hd.2 hs.2
      exact ⟨k, hk, by rw [hk', List.cons_prefix_cons]; simp⟩
    · rw [if_pos hx]
      exact ⟨_, rfl, by
        rw [List.cons_prefix_cons]
        simp only [byte_ne_of hx, false_iff, not_and]
        exact fun h => absurd h.symm hx⟩

theorem strncmp_spec {mem s d : List Byte} {p q : Nat} (hp : ZStr mem p s) (hq : ZStr mem q d) :
    ∃ k, strncmp mem p q d.length = .ok k ∧ (k = 0 ↔ d <+: s) := by
  obtain ⟨⟨t, ht⟩, h0⟩ := hp
  obtain ⟨⟨t', ht'⟩, h0'⟩ := hq
  rw [strncmp, ht, ht']
  exact strncmpL_spec d s t t' h0' h0

theorem ZStr.occurs_iff {mem s : List Byte} {p : Nat} (h : ZStr mem p s) (d : List Byte) :
    Occurs mem (p + s.length) d p ↔ d <+: s := by
  rw [Occurs]
  constructor
  · rintro ⟨h1, h2⟩
    rw [List.prefix_iff_eq_take, ← h.slice]
    rw [Tm.Str.slice, List.take_take]
    rw [Tm.Str.slice] at h2
    rw [show min d.length (p + s.length - p) = p + d.length - p by omega]
    exact h2.symm
  · intro hd
    have hl := hd.length_le
    refine ⟨by omega, ?_⟩
    have := h.slice
    rw [List.prefix_iff_eq_take] at hd
    rw [Tm.Str.slice] at this ⊢
    conv_rhs => rw [hd, ← this, List.take_take]
    congr 1
    omega

theorem isFirst_skip {P : Nat → Prop} {p q hi r : Nat} (hpq : p ≤ q) (h : ∀ i, p ≤ i → i < q → ¬ P i)
    (hs : IsFirst P q hi r) : IsFirst P p hi r := by
  rcases hs with ⟨h1, h2, h3, h4⟩ | ⟨rfl, hs⟩
  · refine Or.inl ⟨by omega, h2, h3, fun i hi hi' => ?_⟩
    by_cases he : i < q
    · exact h i hi he
    · exact h4 i (by omega) hi'
  · refine Or.inr ⟨rfl, fun i hi hi' => ?_⟩
    by_cases he : i < q
    · exact h i hi he
    · exact hs i (by omega) hi'

theorem findZLoop_spec {mem s d : List Byte} {p q : Nat} {fc : Byte} (hp : ZStr mem p s) (hq : ZStr mem q d) (hfc : fc ≠ 0) :
    ∀ fuel k, k < s.length → s.length - k < fuel →
    ∃ r, findZLoop mem fc q d.length fuel (p + k) = .ok r ∧
      IsFirst (Occurs mem (p + s.length) (fc :: d)) (p + k) (p + s.length) r
  | 0, _, _, h => by omega
  | fuel + 1, k, hk, hf => by
    rw [findZLoop]
    obtain ⟨r, hr, hs⟩ := findChar_spec fc (hp.drop (k := k) (by omega))
    rw [List.length_drop, show p + k + (s.length - k) = p + s.length by omega] at hs
    rw [hr, ok_bind]
    have notHead : ∀ i, i < s.length → ¬ ByteAt mem (· = fc) (p + i) → ¬ Occurs mem (p + s.length) (fc :: d) (p + i) := by
      intro i hi hb ho
      have h' := hp.drop (k := i) (by omega)
      have e : p + s.length = p + i + (s.drop i).length := by rw [List.length_drop]; omega
      rw [e, h'.occurs_iff] at ho
      apply hb
      refine ⟨s[i], hp.get hi, ?_⟩
      rw [List.drop_eq_getElem_cons hi, List.cons_prefix_cons] at ho
      exact ho.1.symm
    rcases hs with ⟨h1, h2, h3, h4⟩ | ⟨rfl, hs⟩
    · obtain ⟨j, rfl⟩ : ∃ j, r = p + j := ⟨r - p, by omega⟩
      have hj : j < s.length := by omega
      obtain ⟨x, hx, rfl⟩ := h3
      rw [rd_of_get? hx, ok_bind, if_neg hfc]
      rw [hp.get hj, Option.some_inj] at hx
      have hj1 := hp.drop (k := j + 1) (by omega)
      obtain ⟨c, hc, hc0⟩ := strncmp_spec hj1 hq
      rw [← Nat.add_assoc] at hc
      rw [hc, ok_bind]
      have before : ∀ i, p + k ≤ i → i < p + j → ¬ Occurs mem (p + s.length) (x :: d) i := by
        intro i hi hi'
        obtain ⟨i, rfl⟩ : ∃ i', i = p + i' := ⟨i - p, by omega⟩
        exact notHead i (by omega) (h4 _ hi hi')
      have here : Occurs mem (p + s.length) (x :: d) (p + j) ↔ d <+: s.drop (j + 1) := by
        have h' := hp.drop (k := j) (by omega)
        have e : p + s.length = p + j + (s.drop j).length := by rw [List.length_drop]; omega
        rw [e, h'.occurs_iff, List.drop_eq_getElem_cons hj, hx, List.cons_prefix_cons]
        simp
      by_cases hz : c = 0
      · rw [if_pos hz]
        exact ⟨_, rfl, Or.inl ⟨h1, h2, here.2 (hc0.1 hz), before⟩⟩
      · rw [if_neg hz]
        have upto : ∀ i, p + k ≤ i → i < p + j + 1 → ¬ Occurs mem (p + s.length) (x :: d) i := by
          intro i hi hi'
          by_cases he : i = p + j
          · subst he; exact fun ho => hz (hc0.2 (here.1 ho))
          · exact before i hi (by omega)
        by_cases hend : j + 1 = s.length
        · have := hp.nul
          rw [← hend] at this
          rw [← Nat.add_assoc] at this
          show ∃ r, (rd mem (p + j + 1) >>= fun y => if y ≠ 0 then findZLoop mem x q d.length fuel (p + j + 1) else .ok (p + j + 1)) = .ok r ∧ _
          rw [rd_of_get? this, ok_bind, if_neg (by simp)]
          refine ⟨_, rfl, Or.inr ⟨by omega, ?_⟩⟩
          intro i hi hi'
          exact upto i hi (by omega)
        · have := hp.get (i := j + 1) (by omega)
          rw [← Nat.add_assoc] at this
          show ∃ r, (rd mem (p + j + 1) >>= fun y => if y ≠ 0 then findZLoop mem x q d.length fuel (p + j + 1) else .ok (p + j + 1)) = .ok r ∧ _
          rw [rd_of_get? this, ok_bind, if_pos (hp.ne (by omega))]
          obtain ⟨r, hr, hs⟩ := findZLoop_spec hp hq hfc fuel (j + 1) (by omega) (by omega)
          rw [← Nat.add_assoc] at hr hs
          exact ⟨r, hr, isFirst_skip (by omega) upto hs⟩
    · rw [rd_of_get? hp.nul, ok_bind, if_pos rfl]
      refine ⟨_, rfl, Or.inr ⟨rfl, fun i hi hi' => ?_⟩⟩
      obtain ⟨i, rfl⟩ : ∃ i', i = p + i' := ⟨i - p, by omega⟩
      exact notHead i (by omega) (hs _ hi hi')

theorem findZ_spec {mem s d : List Byte} {p q : Nat} (hp : ZStr mem p s) (hq : ZStr mem q d) :
    ∃ r, findZ mem p q = .ok r ∧
      (d ≠ [] → IsFirst (Occurs mem (p + s.length) d) p (p + s.length) r) ∧ (d = [] → r = p) := by
  rw [findZ]
  rcases s with _ | ⟨x, s⟩
  · have := hp.nul
    rw [List.length_nil, Nat.add_zero] at this
    rw [rd_of_get? this, ok_bind, if_pos rfl]
    exact ⟨p, rfl, fun _ => isFirst_empty _ _, fun _ => rfl⟩
  · have hx := hp.get (i := 0) (by simp)
    rw [Nat.add_zero] at hx
    rw [rd_of_get? hx, ok_bind, if_neg (hp.ne (i := 0) (by simp))]
    rcases d with _ | ⟨y, d⟩
    · have := hq.nul
      rw [List.length_nil, Nat.add_zero] at this
      rw [rd_of_get? this, ok_bind, if_pos rfl]
      exact ⟨p, rfl, by simp, fun _ => rfl⟩
    · have hy := hq.get (i := 0) (by simp)
      rw [Nat.add_zero] at hy
      rw [rd_of_get? hy, ok_bind, if_neg (hq.ne (i := 0) (by simp))]
      show ∃ r, (strlen mem (q + 1) >>= fun n => findZLoop mem y (q + 1) n (mem.length - p + 1) p) = .ok r ∧ _
      rw [strlen_eq hq.tail, ok_bind]
      have hl := hp.lt
      obtain ⟨r, hr, hs⟩ := findZLoop_spec hp hq.tail hq.head_ne (mem.length - p + 1) 0 (by simp) (by omega)
      rw [Nat.add_zero] at hr hs
      exact ⟨r, hr, fun _ => hs, by simp⟩

theorem findLastOfZLoop_spec {mem s set : List Byte} {p q : Nat} (hp : ZStr mem p s) (hq : ZStr mem q set) (stay : Bool) :
    ∀ n, n < s.length → ∃ r, findLastOfZLoop mem p q stay n = .ok (p + r) ∧ r ≤ n ∧
      (r ≠ 0 → ByteAt mem (fun x => ¬ (x ∈ set ↔ stay = true)) (p + r)) ∧
      ∀ i, p + r < i → i ≤ p + n → ¬ ByteAt mem (fun x => ¬ (x ∈ set ↔ stay = true)) i
  | 0, _ => ⟨0, rfl, by omega, by simp, by intros; omega⟩
  | n + 1, hn => by
    have hx := hp.get hn
    rw [findLastOfZLoop, rd_of_get? hx, ok_bind, strchr_eq hq (hp.ne hn), ok_bind]
    have key : (decide (s[n + 1] ∈ set) = stay) ↔ (s[n + 1] ∈ set ↔ stay = true) := by
      by_cases h : s[n + 1] ∈ set <;> cases stay <;> simp [h]
    have hb : ByteAt mem (fun x => ¬ (x ∈ set ↔ stay = true)) (p + (n + 1)) ↔ ¬ (s[n + 1] ∈ set ↔ stay = true) := by
      rw [ByteAt, hx]; simp
    by_cases hc : decide (s[n + 1] ∈ set) = stay
    · rw [if_pos hc]
      obtain ⟨r, hr, h1, h2, h3⟩ := findLastOfZLoop_spec hp hq stay n (by omega)
      refine ⟨r, hr, by omega, h2, fun i hi hi' => ?_⟩
      by_cases he : i = p + (n + 1)
      · subst he; rw [hb]; exact not_not_intro (key.1 hc)
      · exact h3 i hi (by omega)
    · rw [if_neg hc]
      exact ⟨n + 1, rfl, by omega, fun _ => hb.2 (fun h => hc (key.2 h)), by intros; omega⟩

end Tm.Str
