import Verif.Cli.NextLemmas

/-! # Parsing a whole command line -/

namespace Tm.Cli

/-- A fresh parser for words that are strings. -/
structure Ready (p : Parser) : Prop where
  fresh : Fresh p
  strings : ∀ w ∈ p.argv, CString w

/-- Every option that was delivered was allowed. -/
def AllMay (p₀ : Parser) (ps : List Parsed) : Prop := ∀ pre q post, ps = pre ++ q :: post → May p₀ pre q

theorem AllMay.snoc {p₀ ps q} (h : AllMay p₀ ps) (hq : May p₀ ps q) : AllMay p₀ (ps ++ [q]) := by
  intro pre q' post he
  rcases List.eq_nil_or_concat post with rfl | ⟨post', q'', rfl⟩
  · obtain ⟨rfl, h2⟩ := List.append_inj' he rfl
    cases h2
    exact hq
  · rw [List.concat_eq_append, ← List.cons_append, ← List.append_assoc] at he
    obtain ⟨h1, _⟩ := List.append_inj' he rfl
    exact h pre q' post' h1

theorem allMay_iff {p₀ ps} : AllMay p₀ ps ↔
    (∀ q ∈ ps, Obeys p₀.options q) ∧ Limited p₀.options p₀.mem ps ∧ (∀ q ∈ ps, q.option = none → p₀.free = true) := by
  constructor
  · intro h
    refine ⟨?_, ?_, ?_⟩
    · intro q hq
      obtain ⟨a, b, rfl⟩ := List.append_of_mem hq
      exact (h a q b rfl).1
    · intro pre q post i o he hi ho hq
      exact (h pre q post he).2.2 i o hi ho hq
    · intro q hq
      obtain ⟨a, b, rfl⟩ := List.append_of_mem hq
      exact (h a q b rfl).2.1
  · rintro ⟨h1, h2, h3⟩ pre q post he
    have hm : q ∈ ps := he ▸ List.mem_append_right _ List.mem_cons_self
    exact ⟨h1 q hm, h3 q hm, fun i o hi ho hq => h2 pre q post i o he hi ho hq⟩

theorem Calls.inv {p₀ ps p} (hr : Ready p₀) (h : Calls p₀ ps p) : Inv p₀ ps p ∧ AllMay p₀ ps := by
  induction h with
  | nil => exact ⟨hr.fresh.inv, fun pre q post he => absurd he (by simp)⟩
  | call ps q p' p'' _ hn ih =>
    obtain ⟨ih1, ih2⟩ := ih
    rcases next_spec ih1 hr.fresh.count hr.strings with ⟨q', p₁, h1, h2, h3, h4⟩ | ⟨p₁, h1, _⟩ | ⟨p₁, h1, _⟩ | ⟨⟨e, h1⟩, _⟩
    · rw [h1] at hn; cases hn; exact ⟨h2, ih2.snoc h4⟩
    · rw [h1] at hn; cases hn
    · rw [h1] at hn; cases hn
    · rw [h1] at hn; cases hn

theorem Calls.one {p₀ ps p q p'} (hr : Ready p₀) (h : Calls p₀ ps p) (hn : next p = .ok (some q, p')) :
    One p₀.options p.text p.words q p'.text p'.words := by
  rcases next_spec (h.inv hr).1 hr.fresh.count hr.strings with ⟨q', p₁, h1, h2, h3, h4⟩ | ⟨p₁, h1, _⟩ | ⟨p₁, h1, _⟩ | ⟨⟨e, h1⟩, _⟩
  · rw [h1] at hn; cases hn; exact h3
  · rw [h1] at hn; cases hn
  · rw [h1] at hn; cases hn
  · rw [h1] at hn; cases hn

theorem noneAhead_append {a b : List Str} (h : NoneAhead (a ++ b)) : NoneAhead a := by
  intro w ws he
  exact h w (ws ++ b) (by rw [he]; rfl)

theorem beginsWell_left {name rest : Str} (h : BeginsWell (name ++ rest)) (hr : rest = [] ∨ ∃ v, rest = 0x3D :: v) : BeginsWell name := by
  obtain ⟨b, t, he, hb⟩ := h
  cases name with
  | nil =>
    rcases hr with rfl | ⟨v, rfl⟩
    · exact nomatch he
    · cases he
      exact absurd hb (by unfold Letter Digit; decide)
  | cons c n => cases he; exact ⟨_, _, rfl, hb⟩

/-- What one call reads, in front of what is spelled by the rest. -/
theorem One.spells {opts text words q t ws} (h : One opts text words q t ws) :
    ∀ {pre stop ps}, ws = pre ++ stop → Spells opts False t pre ps → ∃ pre', words = pre' ++ stop ∧ Spells opts False text pre' (q :: ps) := by
  induction h with
  | free w ws hd =>
    rintro pre stop ps rfl hs
    exact ⟨w :: pre, rfl, .free w pre ps hd hs⟩
  | long i o name rest ws arg t ws' h1 h2 h3 h4 h5 =>
    intro pre stop ps hws hs
    have hbw := beginsWell_left h3 h4
    cases h5 with
    | group _ _ _ h => exact nomatch h
    | none _ hna =>
      refine ⟨_ :: pre, by rw [hws]; rfl, ?_⟩
      rw [List.append_nil] at h1 ⊢
      exact .long i o name pre ps h1 h2 (Or.inr hbw) (Or.inl (noneAhead_append (hws ▸ hna))) hs
    | next v ws hna hd =>
      refine ⟨_ :: v :: pre, by rw [hws]; rfl, ?_⟩
      rw [List.append_nil] at h1 ⊢
      exact .longNext i o name v pre ps h1 h2 (Or.inr hbw) hna hd hs
    | eq v ws hna => exact ⟨_ :: pre, by rw [hws]; rfl, .longEq i o name v pre ps h1 h2 (Or.inr hbw) hs⟩
    | glued b v ws hna hb hah =>
      rcases h4 with h4 | ⟨v', h4⟩
      · exact nomatch h4
      · cases h4; exact absurd rfl hb
  | short i o c cur ws arg t ws' h1 h2 =>
    intro pre stop ps hws hs
    cases h2 with
    | group b t ws _ hna hl => exact ⟨pre, hws, .flag i o c b t pre ps h1 hna hl hs⟩
    | none _ hna => exact ⟨pre, hws, .short i o c pre ps h1 (Or.inl (noneAhead_append (hws ▸ hna))) hs⟩
    | next v ws hna hd => exact ⟨v :: pre, by rw [hws]; rfl, .shortNext i o c v pre ps h1 hna hd hs⟩
    | eq v ws hna => exact ⟨pre, hws, .shortEq i o c v pre ps h1 hs⟩
    | glued b v ws hna hb hah => exact ⟨pre, hws, .shortGlued i o c b v pre ps h1 hna hb (Or.inl (noneAhead_append (hws ▸ hah))) hs⟩
  | word c text ws q t ws' hc _ ih =>
    intro pre stop ps hws hs
    obtain ⟨pre', h1, h2⟩ := ih hws hs
    exact ⟨(0x2D :: c :: text) :: pre', by rw [h1]; rfl, .word c text pre' _ hc h2⟩

/-- What was delivered is what the words that were read spell. -/
theorem Calls.spells {p₀ ps p} (hr : Ready p₀) (h : Calls p₀ ps p) : ∀ {pre stop ps'}, p.words = pre ++ stop →
    Spells p₀.options False p.text pre ps' → ∃ pre', p₀.words = pre' ++ stop ∧ Spells p₀.options False p₀.text pre' (ps ++ ps') := by
  induction h with
  | nil => intro pre stop ps' hw hs; exact ⟨pre, hw, hs⟩
  | call ps q p' p'' hc hn ih =>
    intro pre stop ps' hw hs
    obtain ⟨pre', h1, h2⟩ := (Calls.one hr hc hn).spells hw hs
    obtain ⟨pre'', h3, h4⟩ := ih h1 h2
    exact ⟨pre'', h3, by rw [List.append_assoc]; exact h4⟩

theorem Ready.words {p : Parser} (h : Ready p) : p.words = p.argv := by rw [Parser.words, h.fresh.current]; rfl

theorem Ready.text {p : Parser} (h : Ready p) : p.text = [] := by rw [Parser.text, h.fresh.currentArg]; rfl

theorem noneAhead_stop {a b : List Str} (h : Stop a b) : NoneAhead a := by
  rcases h with ⟨rfl, _⟩ | ⟨t, rfl, _⟩
  · exact noneAhead_nil
  · exact noneAhead_cons.2 ⟨_, rfl⟩

theorem noneAhead_join {a b : List Str} (ha : NoneAhead a) (hb : NoneAhead b) : NoneAhead (a ++ b) := by
  cases a with
  | nil => exact hb
  | cons w ws => exact noneAhead_cons.2 (noneAhead_cons.1 ha)

/-- What is spelled first is what a call reads. -/
theorem Spells.one {opts text words ps} (h : Spells opts False text words ps) : ∀ {q qs} {stop : List Str}, NoneAhead stop → ps = q :: qs →
    Obeys opts q → ∃ t pre, One opts text (words ++ stop) q t (pre ++ stop) ∧ Spells opts False t pre qs := by
  induction h with
  | nil => intro q qs stop _ he; exact nomatch he
  | free w ws ps hd hs =>
    intro q qs stop _ he _
    cases he
    exact ⟨[], ws, .free w _ hd, hs⟩
  | long i o name ws ps h1 h2 h3 h4 hs =>
    intro q qs stop hst he _
    cases he
    have h3 : BeginsWell name := h3.resolve_left id
    have h4 : NoneAhead ws := h4.resolve_right (fun h => h.1)
    refine ⟨[], ws, ?_, hs⟩
    have := One.long i o name [] (ws ++ stop) none [] (ws ++ stop) (by rw [List.append_nil]; exact h1) h2
      (by rw [List.append_nil]; exact h3) (Or.inl rfl) (.none _ (noneAhead_join h4 hst))
    rw [List.append_nil] at this
    exact this
  | longEq i o name v ws ps h1 h2 h3 hs =>
    intro q qs stop hst he ho
    cases he
    have h3 : BeginsWell name := h3.resolve_left id
    refine ⟨[], ws, ?_, hs⟩
    obtain ⟨b, t, rfl, hb⟩ := h3
    exact One.long i o _ (0x3D :: v) (ws ++ stop) (some v) [] (ws ++ stop) h1 h2 ⟨b, _, rfl, hb⟩ (Or.inr ⟨v, rfl⟩)
      (.eq v _ (ho i o rfl h1.1).1)
  | longNext i o name v ws ps h1 h2 h3 h4 h5 hs =>
    intro q qs stop hst he _
    cases he
    have h3 : BeginsWell name := h3.resolve_left id
    refine ⟨[], ws, ?_, hs⟩
    have := One.long i o name [] (v :: (ws ++ stop)) (some v) [] (ws ++ stop) (by rw [List.append_nil]; exact h1) h2
      (by rw [List.append_nil]; exact h3) (Or.inl rfl) (.next v _ h4 h5)
    rw [List.append_nil] at this
    exact this
  | word c text ws ps hc _ ih =>
    intro q qs stop hst he ho
    obtain ⟨t, pre, h1, h2⟩ := ih hst he ho
    exact ⟨t, pre, .word c text _ q t _ hc h1, h2⟩
  | flag i o c d text ws ps h1 h2 h3 hs =>
    intro q qs stop hst he _
    cases he
    exact ⟨d :: text, ws, .short i o c _ _ none _ _ h1 (.group d text _ rfl h2 h3), hs⟩
  | short i o c ws ps h1 h4 hs =>
    intro q qs stop hst he _
    cases he
    have h4 : NoneAhead ws := h4.resolve_right (fun h => h.1)
    exact ⟨[], ws, .short i o c _ _ none _ _ h1 (.none _ (noneAhead_join h4 hst)), hs⟩
  | shortEq i o c v ws ps h1 hs =>
    intro q qs stop hst he ho
    cases he
    exact ⟨[], ws, .short i o c _ _ (some v) _ _ h1 (.eq v _ (ho i o rfl h1.1).1), hs⟩
  | shortGlued i o c b v ws ps h1 h2 h3 h4 hs =>
    intro q qs stop hst he _
    cases he
    have h4 : NoneAhead ws := h4.resolve_right id
    exact ⟨[], ws, .short i o c _ _ (some (b :: v)) _ _ h1 (.glued b v _ h2 h3 (noneAhead_join h4 hst)), hs⟩
  | shortNext i o c v ws ps h1 h2 h3 hs =>
    intro q qs stop hst he _
    cases he
    exact ⟨[], ws, .short i o c _ _ (some v) _ _ h1 (.next v _ h2 h3), hs⟩

theorem Spells.nil_words {opts all text words} (h : Spells opts all text words []) : text = [] ∧ words = [] := by
  generalize hps : ([] : List Parsed) = ps at h
  induction h with
  | nil => exact ⟨rfl, rfl⟩
  | word c text ws ps hc hs ih => exact absurd (ih hps).1 (by simp)
  | free => exact nomatch hps
  | long => exact nomatch hps
  | longEq => exact nomatch hps
  | longNext => exact nomatch hps
  | flag => exact nomatch hps
  | short => exact nomatch hps
  | shortEq => exact nomatch hps
  | shortGlued => exact nomatch hps
  | shortNext => exact nomatch hps

theorem stop_not_one {opts words b q t ws} (h : Stop words b) : ¬ One opts [] words q t ws := by
  intro h1
  rcases h with ⟨rfl, _⟩ | ⟨s, rfl, hs⟩
  · cases h1
  · generalize hw : ((0x2D :: 0x2D :: s) : Str) :: b = words at h1
    generalize hx : ([] : Str) = text at h1
    cases h1 with
    | free w ws hd => cases hw; exact hd ⟨_, rfl⟩
    | long i o name rest ws arg t ws' _ _ h3 => cases hw; exact hs h3
    | short => cases hx
    | word c text ws q t ws' hc => cases hw; exact hc rfl

theorem Calls.trans {p ps p' ps' p''} (h : Calls p ps p') (h' : Calls p' ps' p'') : Calls p (ps ++ ps') p'' := by
  induction h' with
  | nil => rw [List.append_nil]; exact h
  | call qs q p₁ p₂ _ hn ih => rw [← List.append_assoc]; exact .call _ q p₁ p₂ ih hn

/-- What may be given and is spelled is delivered, or the program is faulty. -/
theorem Calls.complete {p₀ : Parser} (hr : Ready p₀) (hd : Declared p₀.options) : ∀ {ps' : List Parsed} {ps p pre stop},
    Calls p₀ ps p → NoneAhead stop → p.words = pre ++ stop → Spells p₀.options False p.text pre ps' → AllMay p₀ (ps ++ ps') →
    ∃ p', Calls p₀ (ps ++ ps') p' ∧ p'.words = stop ∧ p'.text = [] := by
  intro ps'
  induction ps' with
  | nil =>
    intro ps p pre stop hc hst hw hs hm
    obtain ⟨h1, rfl⟩ := hs.nil_words
    exact ⟨p, by rw [List.append_nil]; exact hc, hw, h1⟩
  | cons q qs ih =>
    intro ps p pre stop hc hst hw hs hm
    have hmay : May p₀ ps q := hm ps q qs rfl
    obtain ⟨t, pre', h1, h2⟩ := hs.one hst rfl hmay.1
    rw [← hw] at h1
    rcases next_spec (hc.inv hr).1 hr.fresh.count hr.strings with ⟨q', p₁, h3, h4, h5, h6⟩ | ⟨p₁, h3, _, h4, _⟩ | ⟨p₁, h3, _, h4, h5⟩ | ⟨_, h3⟩
    · obtain ⟨rfl, rfl, he⟩ := h1.unique h5
      have := ih (hc.call ps q p p₁ h3) hst he.symm h2 (by rw [List.append_assoc]; exact hm)
      rw [List.append_assoc] at this
      exact this
    · exact absurd ⟨q, t, _, h1, hmay⟩ h4
    · rw [h4] at h1; exact absurd h1 (stop_not_one h5)
    · exact absurd hd h3

end Tm.Cli
