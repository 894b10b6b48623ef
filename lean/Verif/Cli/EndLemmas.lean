import Mathlib.Data.List.Induction
import Verif.Cli.RunLemmas

/-! # The end of a command line, limits and validation -/

namespace Tm.Cli

/-- The size of what is left. -/
def size (text : Str) (words : List Str) : Nat := text.length + (words.map (·.length + 1)).sum

theorem Arg.size_le {s o cur ws arg t ws'} (h : Arg s o cur ws arg t ws') : size t ws' ≤ size cur ws := by
  cases h with
  | group | none => exact Nat.le_refl _
  | next v ws => simp only [size, List.map_cons, List.sum_cons, List.length_nil]; omega
  | eq v ws => simp only [size, List.length_cons, List.length_nil]; omega
  | glued b v ws => simp only [size, List.length_cons, List.length_nil]; omega

theorem One.size_lt {opts text words q t ws} (h : One opts text words q t ws) : size t ws < size text words := by
  induction h with
  | free w ws _ => simp only [size, List.map_cons, List.sum_cons, List.length_nil]; omega
  | long i o name rest ws arg t ws' _ _ _ _ h =>
    have := h.size_le
    simp only [size, List.map_cons, List.sum_cons, List.length_nil, List.length_cons, List.length_append] at this ⊢
    omega
  | short i o c cur ws arg t ws' _ h =>
    have := h.size_le
    simp only [size, List.length_cons] at this ⊢
    omega
  | word c text ws q t ws' _ _ ih =>
    simp only [size, List.map_cons, List.sum_cons, List.length_nil, List.length_cons] at ih ⊢
    omega

theorem Calls.size_le {p₀ ps p} (hr : Ready p₀) (h : Calls p₀ ps p) : ps.length + size p.text p.words ≤ size p₀.text p₀.words := by
  induction h with
  | nil => simp
  | call ps q p' p'' hc hn ih =>
    have := (Calls.one hr hc hn).size_lt
    rw [List.length_append, List.length_singleton]
    omega

/-- Calling `next` again and again ends. -/
theorem Calls.ends {p₀ : Parser} (hr : Ready p₀) : ∀ (n : Nat) {ps p}, Calls p₀ ps p → size p.text p.words ≤ n →
    (∃ ps p', Run p₀ ps p') ∨ ∃ ps p e, Calls p₀ ps p ∧ next p = .error e := by
  intro n
  induction n with
  | zero =>
    intro ps p hc hs
    cases hn : next p with
    | error e => exact Or.inr ⟨ps, p, e, hc, hn⟩
    | ok r =>
      obtain ⟨_ | q, p'⟩ := r
      · exact Or.inl ⟨ps, p', p, hc, hn⟩
      · have := (Calls.one hr hc hn).size_lt; omega
  | succ n ih =>
    intro ps p hc hs
    cases hn : next p with
    | error e => exact Or.inr ⟨ps, p, e, hc, hn⟩
    | ok r =>
      obtain ⟨_ | q, p'⟩ := r
      · exact Or.inl ⟨ps, p', p, hc, hn⟩
      · have := (Calls.one hr hc hn).size_lt
        exact ih (hc.call ps q p p' hn) (by omega)

/-- The end of a run. -/
theorem Run.cases {p₀ ps p'} (hr : Ready p₀) (h : Run p₀ ps p') :
    ∃ p₁, Calls p₀ ps p₁ ∧ ((Failed p₀ p' ∧ (¬ ∃ q t w, One p₀.options p₁.text p₁.words q t w ∧ May p₀ ps q) ∧ ¬ ∃ w, p₁.text = [] ∧ Stop p₁.words w) ∨
      (Base p₀ ps p' ∧ p₁.text = [] ∧ Stop p₁.words p'.words)) := by
  obtain ⟨p₁, h1, h2⟩ := h
  refine ⟨p₁, h1, ?_⟩
  rcases next_spec (h1.inv hr).1 hr.fresh.count hr.strings with ⟨q', p₂, h3, _⟩ | ⟨p₂, h3, h4, h5, h6⟩ | ⟨p₂, h3, h4, h5, h6⟩ | ⟨⟨e, h3⟩, _⟩
  · rw [h3] at h2; cases h2
  · rw [h3] at h2; cases h2; exact Or.inl ⟨h4, h5, h6⟩
  · rw [h3] at h2; cases h2; exact Or.inr ⟨h4, h5, h6⟩
  · rw [h3] at h2; cases h2

theorem Run.ok {p₀ ps p'} (hr : Ready p₀) (h : Run p₀ ps p') (he : p'.error = false) :
    Base p₀ ps p' ∧ AllMay p₀ ps ∧ ∃ pre stop, p₀.argv = pre ++ stop ∧ Spells p₀.options False [] pre ps ∧ Stop stop p'.words := by
  obtain ⟨p₁, h1, h2⟩ := h.cases hr
  rcases h2 with ⟨h2, _⟩ | ⟨h2, h3, h4⟩
  · rw [h2.error] at he; exact nomatch he
  · refine ⟨h2, (h1.inv hr).2, ?_⟩
    obtain ⟨pre, h5, h6⟩ := Calls.spells hr h1 (pre := []) (stop := p₁.words) (ps' := []) rfl (by rw [h3]; exact .nil)
    rw [hr.words] at h5
    rw [hr.text, List.append_nil] at h6
    exact ⟨pre, p₁.words, h5, h6, h4⟩

theorem Run.complete {p₀ : Parser} (hr : Ready p₀) (hd : Declared p₀.options) {ps pre stop behind} (hm : AllMay p₀ ps)
    (hw : p₀.argv = pre ++ stop) (hs : Spells p₀.options False [] pre ps) (he : Stop stop behind) :
    ∃ p', Run p₀ ps p' ∧ Base p₀ ps p' ∧ p'.words = behind := by
  obtain ⟨p₁, h1, h2, h3⟩ := Calls.complete hr hd (ps := []) (p := p₀) (pre := pre) (stop := stop) .nil (noneAhead_stop he)
    (by rw [hr.words]; exact hw) (by rw [hr.text]; exact hs) hm
  rw [List.nil_append] at h1
  rcases next_spec (h1.inv hr).1 hr.fresh.count hr.strings with ⟨q', p₂, h4, h5, h6, _⟩ | ⟨p₂, h4, _, _, h5⟩ | ⟨p₂, h4, h5, h6, h7⟩ | ⟨_, h4⟩
  · rw [h2, h3] at h6; exact absurd h6 (stop_not_one he)
  · rw [h2] at h5; exact absurd ⟨_, h3, he⟩ h5
  · refine ⟨p₂, ⟨p₁, h1, h4⟩, h5, ?_⟩
    rw [h2] at h7
    rcases he with ⟨rfl, rfl⟩ | ⟨t, rfl, ht⟩
    · rcases h7 with ⟨_, h7⟩ | ⟨t, h7, _⟩
      · exact h7
      · exact nomatch h7
    · rcases h7 with ⟨h7, _⟩ | ⟨t, h7, _⟩
      · exact nomatch h7
      · exact (List.cons.inj h7).2.symm
  · exact absurd hd h4

theorem Base.remaining {p₀ ps p} (h : Base p₀ ps p) : remaining p = .ok p.words := by
  unfold Tm.Cli.remaining; rw [if_pos h.le]; rfl

theorem Failed.remaining {p₀ p} (h : Failed p₀ p) : remaining p = .ok p.words := by
  unfold Tm.Cli.remaining; rw [if_pos h.le]; rfl

/-! ## Validation -/

theorem missing_spec {given : List (BitVec 32)} (hl : given.length = 4) : ∀ (os : List Opt) (k : Nat), k + os.length ≤ 128 →
    (missing given k os = .ok none ∧ ∀ i o, os[i]? = some o → o.required = true → bit given (k + i) = true) ∨
    ∃ i o, missing given k os = .ok (some o) ∧ os[i]? = some o ∧ o.required = true ∧ bit given (k + i) = false ∧
      ∀ j o', j < i → os[j]? = some o' → o'.required = true → bit given (k + j) = true
  | [], k, _ => Or.inl ⟨rfl, fun i o h => by simp at h⟩
  | o :: os, k, hk => by
    have hk' : k < 128 := by simp only [List.length_cons] at hk; omega
    have ih := missing_spec hl os (k + 1) (by simp only [List.length_cons] at hk; omega)
    rw [missing]
    have hstep : (o.required = true → bit given k = true) → 
        (missing given (k + 1) os = .ok none ∧ ∀ i o', (o :: os)[i]? = some o' → o'.required = true → bit given (k + i) = true) ∨
        ∃ i o', missing given (k + 1) os = .ok (some o') ∧ (o :: os)[i]? = some o' ∧ o'.required = true ∧ bit given (k + i) = false ∧
          ∀ j o'', j < i → (o :: os)[j]? = some o'' → o''.required = true → bit given (k + j) = true := by
      intro ho
      rcases ih with ⟨h1, h2⟩ | ⟨i, o', h1, h2, h3, h4, h5⟩
      · refine Or.inl ⟨h1, ?_⟩
        intro i o' hi hr
        cases i with
        | zero => cases hi; exact ho hr
        | succ i => have := h2 i o' hi hr; rwa [Nat.add_right_comm] at this
      · refine Or.inr ⟨i + 1, o', h1, h2, h3, by rw [← h4, Nat.add_assoc, Nat.add_comm 1 i], ?_⟩
        intro j o'' hj hg hr
        cases j with
        | zero => cases hg; exact ho hr
        | succ j => have := h5 j o'' (by omega) hg hr; rwa [Nat.add_right_comm] at this
    by_cases hr : o.required = true
    · rw [if_pos hr, flagPair_ok hk']
      simp only
      rw [rd_given hl hk']
      simp only
      by_cases hb : bit given k = true
      · rw [if_neg ((and_flag _ _ (by omega)).2 hb)]
        exact hstep (fun _ => hb)
      · rw [if_pos (Classical.not_not.1 (fun h => hb ((and_flag _ _ (by omega)).1 h)))]
        refine Or.inr ⟨0, o, rfl, rfl, hr, ?_, ?_⟩
        · cases h : bit given k with
          | false => rfl
          | true => exact absurd h hb
        · intro j _ hj; exact absurd hj (Nat.not_lt_zero j)
    · rw [if_neg hr]
      exact hstep (fun h => absurd h hr)

theorem Base.missing {p₀ ps p} (h : Base p₀ ps p) (hn : p₀.options.length ≤ 128) :
    (missing p.given 0 p.options = .ok none ∧ ∀ i o, p₀.options[i]? = some o → o.required = true → ∃ q ∈ ps, q.option = some i) ∨
    ∃ i o, missing p.given 0 p.options = .ok (some o) ∧ p₀.options[i]? = some o ∧ o.required = true ∧ ¬ ∃ q ∈ ps, q.option = some i := by
  have hlt : ∀ {i o}, p₀.options[i]? = some o → i < 128 := by
    intro i o hi
    rcases Nat.lt_or_ge i p₀.options.length with hl | hl
    · omega
    · rw [List.getElem?_eq_none hl] at hi; exact nomatch hi
  rw [h.options]
  rcases missing_spec h.length p₀.options 0 (by omega) with ⟨h1, h2⟩ | ⟨i, o, h1, h2, h3, h4, _⟩
  · refine Or.inl ⟨h1, fun i o hi hr => (h.given i (hlt hi)).1 ?_⟩
    have := h2 i o hi hr
    rwa [Nat.zero_add] at this
  · refine Or.inr ⟨i, o, h1, h2, h3, fun hq => ?_⟩
    have := (h.given i (hlt h2)).2 hq
    rw [Nat.zero_add] at h4
    rw [h4] at this
    exact nomatch this

/-! ## Limits -/

theorem times_append (i : Nat) (ps : List Parsed) (q : Parsed) :
    times i (ps ++ [q]) = times i ps + if q.option = some i then 1 else 0 := by
  unfold times
  rw [List.countP_append, List.countP_singleton]
  simp

theorem times_pos {i : Nat} {ps : List Parsed} (h : 0 < times i ps) : ∃ q ∈ ps, q.option = some i := by
  obtain ⟨q, h1, h2⟩ := List.countP_pos_iff.1 h
  exact ⟨q, h1, of_decide_eq_true h2⟩

theorem AllMay.init {p₀ ps q} (h : AllMay p₀ (ps ++ [q])) : AllMay p₀ ps ∧ May p₀ ps q :=
  ⟨fun pre q' post he => h pre q' (post ++ [q]) (by rw [he]; simp), h ps q [] rfl⟩

theorem once {p₀ : Parser} {i : Nat} {o : Opt} (ho : p₀.options[i]? = some o) (hm : o.max = 0 ∨ o.max = 1) :
    ∀ {ps}, AllMay p₀ ps → times i ps ≤ 1 := by
  intro ps
  induction ps using List.reverseRecOn with
  | nil => intro _; exact Nat.zero_le _
  | append_singleton ps q ih =>
    intro h
    obtain ⟨h1, h2⟩ := h.init
    have ih := ih h1
    rw [times_append]
    split
    · rename_i hq
      rcases Nat.eq_zero_or_pos (times i ps) with hz | hp
      · omega
      · have := h2.2.2 i o hq ho (times_pos hp)
        unfold Again at this
        omega
    · omega

/-- What a counter that nothing else changes holds. -/
theorem effects_counter {opts : List Opt} {m : Mem} {i : Nat} {o : Opt} {a : Nat} (ho : opts[i]? = some o) (hc : o.counter = some a)
    (hown : ∀ j o', opts[j]? = some o' → (o'.counter = some a → j = i) ∧ o'.output ≠ some a) :
    ∀ ps, effects opts m ps a = m a + BitVec.ofNat 32 (times i ps) := by
  intro ps
  induction ps using List.reverseRecOn with
  | nil => show m a = m a + 0#32; rw [BitVec.add_zero]
  | append_singleton ps q ih =>
    rw [effects_append, times_append]
    unfold effect
    cases hq : q.option.bind (opts[·]?) with
    | none =>
      have : ¬ q.option = some i := by intro h; rw [h] at hq; simp [ho] at hq
      rw [if_neg this]
      exact ih
    | some o' =>
      cases hj : q.option with
      | none => rw [hj] at hq; exact nomatch hq
      | some j =>
        have hj' : opts[j]? = some o' := by rw [hj] at hq; exact hq
        obtain ⟨h1, h2⟩ := hown j o' hj'
        simp only [change, if_neg h2]
        by_cases hji : j = i
        · subst hji
          rw [ho] at hj'
          cases hj'
          rw [if_pos hc, if_pos rfl, ih, BitVec.add_assoc]
          congr 1
          rw [BitVec.ofNat_add]
          rfl
        · rw [if_neg (fun h => hji (h1 h)), if_neg (fun h => hji (Option.some.inj h)), ih]
          rfl

theorem counted {p₀ : Parser} {i : Nat} {o : Opt} {a : Nat} (ho : p₀.options[i]? = some o) (hc : o.counter = some a)
    (hown : ∀ j o', p₀.options[j]? = some o' → (o'.counter = some a → j = i) ∧ o'.output ≠ some a) (hz : p₀.mem a = 0)
    (hm : 1 < o.max) (hi : o.max < 2 ^ 31) : ∀ {ps}, AllMay p₀ ps → (times i ps : Int) ≤ o.max := by
  intro ps
  induction ps using List.reverseRecOn with
  | nil => intro _; show (0 : Int) ≤ _; omega
  | append_singleton ps q ih =>
    intro h
    obtain ⟨h1, h2⟩ := h.init
    have ih := ih h1
    rw [times_append]
    split
    · rename_i hq
      rcases Nat.eq_zero_or_pos (times i ps) with hz | hp
      · omega
      · rcases h2.2.2 i o hq ho (times_pos hp) with h3 | ⟨_, h3⟩
        · omega
        · have h3 := h3 a hc
          rw [effects_counter ho hc hown, hz] at h3
          have : (0 + BitVec.ofNat 32 (times i ps) + 1).toNat = times i ps + 1 := by
            rw [show (0 : BitVec 32) = 0#32 from rfl, BitVec.zero_add, BitVec.toNat_add, BitVec.toNat_ofNat]
            show (times i ps % 2 ^ 32 + 1) % 2 ^ 32 = _
            omega
          rw [this] at h3
          omega
    · omega

/-! ## Runs are determined -/

theorem Calls.head {p ps p'} (h : Calls p ps p') : (ps = [] ∧ p' = p) ∨
    ∃ q p₁ qs, ps = q :: qs ∧ next p = .ok (some q, p₁) ∧ Calls p₁ qs p' := by
  induction h with
  | nil => exact Or.inl ⟨rfl, rfl⟩
  | call ps q p₁ p₂ _ hn ih =>
    rcases ih with ⟨rfl, rfl⟩ | ⟨q', p₃, qs, rfl, h1, h2⟩
    · exact Or.inr ⟨q, p₂, [], rfl, hn, .nil⟩
    · exact Or.inr ⟨q', p₃, qs ++ [q], rfl, h1, h2.call qs q p₁ p₂ hn⟩

theorem Calls.cons {p q p₁ qs p'} (hn : next p = .ok (some q, p₁)) (h : Calls p₁ qs p') : Calls p (q :: qs) p' :=
  (Calls.call [] q p p₁ .nil hn).trans h

theorem Run.head {p ps p'} (h : Run p ps p') : (ps = [] ∧ next p = .ok (none, p')) ∨
    ∃ q p₁ qs, ps = q :: qs ∧ next p = .ok (some q, p₁) ∧ Run p₁ qs p' := by
  obtain ⟨p₂, h1, h2⟩ := h
  rcases h1.head with ⟨rfl, rfl⟩ | ⟨q, p₁, qs, rfl, h3, h4⟩
  · exact Or.inl ⟨rfl, h2⟩
  · exact Or.inr ⟨q, p₁, qs, rfl, h3, p₂, h4, h2⟩

theorem Run.unique : ∀ {ps p p' ps' p''}, Run p ps p' → Run p ps' p'' → ps = ps' ∧ p' = p'' := by
  intro ps
  induction ps with
  | nil =>
    intro p p' ps' p'' h h'
    rcases h.head with ⟨_, h1⟩ | ⟨_, _, _, h1, _⟩
    · rcases h'.head with ⟨rfl, h2⟩ | ⟨_, _, _, _, h2, _⟩
      · rw [h1] at h2; cases h2; exact ⟨rfl, rfl⟩
      · rw [h1] at h2; cases h2
    · exact nomatch h1
  | cons q qs ih =>
    intro p p' ps' p'' h h'
    rcases h.head with ⟨h1, _⟩ | ⟨_, p₁, _, h0, h1, h2⟩
    · exact nomatch h1
    · cases h0
      rcases h'.head with ⟨_, h3⟩ | ⟨_, p₂, _, rfl, h3, h4⟩
      · rw [h1] at h3; cases h3
      · rw [h1] at h3
        cases h3
        obtain ⟨rfl, rfl⟩ := ih h2 h4
        exact ⟨rfl, rfl⟩

/-! ## What a call delivers -/

theorem One.index {opts text words q t ws} (h : One opts text words q t ws) :
    (∀ i, q.option = some i → i < opts.length) ∧ (q.option = none → ∃ w ∈ words, q.argument = some w) := by
  induction h with
  | free w ws _ => exact ⟨fun i h => (nomatch h), fun _ => ⟨w, List.mem_cons_self, rfl⟩⟩
  | long i o name rest ws arg t ws' h => exact ⟨fun j hj => by cases hj; exact h.lt, fun h => nomatch h⟩
  | short i o c cur ws arg t ws' h => exact ⟨fun j hj => by cases hj; exact h.lt, fun h => nomatch h⟩
  | word c text ws q t ws' _ _ ih =>
    refine ⟨ih.1, fun h => ?_⟩
    obtain ⟨w, h1, h2⟩ := ih.2 h
    exact ⟨w, List.mem_cons_of_mem _ h1, h2⟩

theorem Calls.index {p₀ ps p} (hr : Ready p₀) (h : Calls p₀ ps p) : ∀ q ∈ ps,
    (∀ i, q.option = some i → i < p₀.options.length) ∧ (q.option = none → ∃ w ∈ p₀.argv, q.argument = some w) := by
  induction h with
  | nil => intro q hq; exact nomatch hq
  | call ps q p' p'' hc hn ih =>
    intro q' hq
    rcases List.mem_append.1 hq with hq | hq
    · exact ih q' hq
    · rw [List.mem_singleton.1 hq]
      obtain ⟨h1, h2⟩ := (Calls.one hr hc hn).index
      refine ⟨h1, fun h => ?_⟩
      obtain ⟨w, h3, h4⟩ := h2 h
      exact ⟨w, (hc.inv hr).1.argv ▸ List.mem_of_mem_drop h3, h4⟩

theorem Spells.mono {opts text words ps} (h : Spells opts False text words ps) : Spells opts True text words ps := by
  induction h with
  | nil => exact .nil
  | free w ws ps hd _ ih => exact .free w ws ps hd ih
  | long i o name ws ps h1 h2 _ h4 _ ih => exact .long i o name ws ps h1 h2 (Or.inl trivial) (h4.imp_right (fun h => h.1.elim)) ih
  | longEq i o name v ws ps h1 h2 _ _ ih => exact .longEq i o name v ws ps h1 h2 (Or.inl trivial) ih
  | longNext i o name v ws ps h1 h2 _ h4 h5 _ ih => exact .longNext i o name v ws ps h1 h2 (Or.inl trivial) h4 h5 ih
  | word c text ws ps hc _ ih => exact .word c text ws ps hc ih
  | flag i o c d text ws ps h1 h2 h3 _ ih => exact .flag i o c d text ws ps h1 h2 h3 ih
  | short i o c ws ps h1 h4 _ ih => exact .short i o c ws ps h1 (h4.imp_right (fun h => h.1.elim)) ih
  | shortEq i o c v ws ps h1 _ ih => exact .shortEq i o c v ws ps h1 ih
  | shortGlued i o c b v ws ps h1 h2 h3 _ _ ih => exact .shortGlued i o c b v ws ps h1 h2 h3 (Or.inr trivial) ih
  | shortNext i o c v ws ps h1 h2 h3 _ ih => exact .shortNext i o c v ws ps h1 h2 h3 ih

end Tm.Cli
