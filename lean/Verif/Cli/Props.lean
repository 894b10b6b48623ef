import Verif.Cli.NumberLemmas
import Verif.Cli.Witness

/-! # Properties of the command line parser -/

namespace Tm.Cli

variable {argv : List Str} {opts : List Opt} {free log : Bool} {mem : Mem} {p p' p'' : Parser} {ps : List Parsed}

theorem ready_of (h : makeParser argv opts free log mem = .ok p) (hs : ∀ w ∈ argv, CString w) : Ready p := by
  obtain ⟨h1, h2, _⟩ := makeParser_fresh h
  exact ⟨h1, h2 ▸ hs⟩

/-! ## C142 -/

/-- Missing: the parser also stops, without an error, at a word that begins with "--" and goes on with something else than a letter or
a digit, as for `--_x`. -/
theorem C142_delivered_partial (h : makeParser argv opts free log mem = .ok p) (hs : ∀ w ∈ argv, CString w) (hr : Run p ps p')
    (he : p'.error = false) :
    ∃ pre rest behind, argv = pre ++ rest ∧ Spells opts True [] pre ps ∧ remaining p' = .ok behind ∧
      (Ends rest behind ∨ ∃ t, t ≠ [] ∧ ¬ BeginsWell t ∧ rest = (0x2D :: 0x2D :: t) :: behind) := by
  have hrd := ready_of h hs
  obtain ⟨_, ha, ho, _⟩ := makeParser_fresh h
  obtain ⟨h1, _, pre, stop, h2, h3, h4⟩ := hr.ok hrd he
  rw [ha] at h2
  rw [ho] at h3
  refine ⟨pre, stop, p'.words, h2, h3.mono, h1.remaining, ?_⟩
  rcases h4 with h4 | ⟨t, h4, h5⟩
  · exact Or.inl (Or.inl h4)
  · cases t with
    | nil => exact Or.inl (Or.inr h4)
    | cons b t => exact Or.inr ⟨b :: t, fun h => (nomatch h), h5, h4⟩

example : ∃ p p', makeParser line [verbose, out, num] true true (fun _ => 0) = .ok p ∧ (∀ w ∈ line, CString w) ∧ Run p said p' ∧
    p'.error = false := by
  obtain ⟨p, p', h1, h2, h3⟩ := line_run
  exact ⟨p, p', h1, line_strings, h2, h3⟩

/-- `--_x`, without an argument. -/
def unusual : Opt := { short := none, long := some [0x5F, 0x78], arg := .none }

theorem unusual_run : ∃ p p', makeParser [[0x2D, 0x2D, 0x5F, 0x78]] [unusual] true true (fun _ => 0) = .ok p ∧ Run p [] p' ∧
    p'.error = false := by
  obtain ⟨p, ps, p', h1, h2, h3⟩ := of_gives (argv := [[0x2D, 0x2D, 0x5F, 0x78]]) (opts := [unusual]) (mem := fun _ => 0)
    (f := fun ps p' => decide (ps = []) && !p'.error) (by decide +kernel)
  rw [Bool.and_eq_true, decide_eq_true_eq, Bool.not_eq_true'] at h3
  obtain ⟨rfl, h3⟩ := h3
  exact ⟨p, p', h1, h2, h3⟩

/-- The parser ends without an error at `--_x`, even if there is an option with this name, and this word and all words behind it are
ignored. -/
theorem C142_not_delivered : ∃ argv opts p p', makeParser argv opts true true (fun _ => 0) = .ok p ∧ (∀ w ∈ argv, CString w) ∧ Run p [] p' ∧
    p'.error = false ∧ ¬ ∃ pre rest behind, argv = pre ++ rest ∧ Spells opts True [] pre [] ∧ Ends rest behind := by
  obtain ⟨p, p', h1, h2, h3⟩ := unusual_run
  refine ⟨_, _, p, p', h1, ?_, h2, h3, ?_⟩
  · intro w hw; rw [List.mem_singleton.1 hw]; unfold CString; decide
  · rintro ⟨pre, rest, behind, h4, h5, h6⟩
    obtain ⟨_, rfl⟩ := h5.nil_words
    rw [List.nil_append] at h4
    rcases h6 with ⟨h6, _⟩ | h6
    · rw [h6] at h4; exact nomatch h4
    · rw [h6] at h4; simp at h4

/-! ## C143 -/

/-- Missing: options have to be declared with a long name that is not null; an option without an argument, and one with an argument in
the same word, has to be followed by another option or the end, not by a free argument; names begin with a letter or a digit. -/
theorem C143_accepted_partial {pre rest behind : List Str} (h : makeParser argv opts free log mem = .ok p) (hs : ∀ w ∈ argv, CString w)
    (hd : Declared opts) (hw : argv = pre ++ rest) (hsp : Spells opts False [] pre ps) (hend : Ends rest behind)
    (hob : ∀ q ∈ ps, Obeys opts q) (hlim : Limited opts mem ps) (hfree : ∀ q ∈ ps, q.option = none → free = true) :
    ∃ p', Run p ps p' ∧ p'.error = false ∧ remaining p' = .ok behind := by
  have hrd := ready_of h hs
  obtain ⟨_, ha, ho, hf, _, hm⟩ := makeParser_fresh h
  obtain ⟨p', h1, h2, h3⟩ := Run.complete hrd (behind := behind) (ho ▸ hd)
    (allMay_iff.2 ⟨by rw [ho]; exact hob, by rw [ho, hm]; exact hlim, by rw [hf]; exact hfree⟩) (by rw [ha]; exact hw) (by rw [ho]; exact hsp)
    (by
      rcases hend with hend | rfl
      · exact Or.inl hend
      · exact Or.inr ⟨[], rfl, fun ⟨_, _, h, _⟩ => nomatch h⟩)
  exact ⟨p', h1, h2.error, by rw [h2.remaining, h3]⟩

theorem line_spelled : Spells [verbose, out, num] False [] line said := by
  refine .word 0x76 [0x6F] _ _ (by decide) (.flag 0 verbose 0x76 0x6F [] _ _ ⟨rfl, ⟨[], rfl⟩, fun j _ hj => absurd hj (Nat.not_lt_zero j)⟩ rfl
    (by unfold Letter; decide) (.shortNext 1 out 0x6F _ _ _ ⟨rfl, ⟨[], rfl⟩, ?_⟩ (by decide) ?_
      (.longEq 2 num [0x6E, 0x75, 0x6D] [0x31, 0x32] _ _ ⟨rfl, ⟨_, rfl, Or.inr ⟨[0x31, 0x32], rfl⟩⟩, ?_⟩ rfl (Or.inr ⟨0x6E, _, rfl, by unfold Letter Digit; decide⟩)
        (.word 0x6E [] _ _ (by decide) (.short 2 num 0x6E _ _ ⟨rfl, ⟨[], rfl⟩, ?_⟩ (Or.inl noneAhead_nil) .nil)))))
  · intro j o' hj ho
    obtain rfl : j = 0 := by omega
    cases ho
    rintro ⟨_, h⟩
    cases h
  · rintro ⟨t, h⟩; cases h
  · intro j o' hj ho
    match j, hj with
    | 0, _ => cases ho; rintro ⟨n, h, h'⟩; cases h; rcases h' with h' | ⟨v, h'⟩ <;> simp at h'
    | 1, _ => cases ho; rintro ⟨n, h, h'⟩; cases h; rcases h' with h' | ⟨v, h'⟩ <;> simp at h'
  · intro j o' hj ho
    match j, hj with
    | 0, _ => cases ho; rintro ⟨_, h⟩; cases h
    | 1, _ => cases ho; rintro ⟨_, h⟩; cases h

theorem line_may : (∀ q ∈ said, Obeys [verbose, out, num] q) ∧ Limited [verbose, out, num] (fun _ => 0) said ∧
    ∀ q ∈ said, q.option = none → true = true := by
  obtain ⟨p, p', h1, ⟨p₁, h2, _⟩, h3⟩ := line_run
  obtain ⟨_, ha, ho, hf, _, hm⟩ := makeParser_fresh h1
  have := allMay_iff.1 (h2.inv (ready_of h1 line_strings)).2
  rw [ho, hm, hf] at this
  exact this

example : ∃ p, makeParser line [verbose, out, num] true true (fun _ => 0) = .ok p ∧ (∀ w ∈ line, CString w) ∧
    Declared [verbose, out, num] ∧ Spells [verbose, out, num] False [] line said ∧ Ends [] [] ∧
    (∀ q ∈ said, Obeys [verbose, out, num] q) ∧ Limited [verbose, out, num] (fun _ => 0) said := by
  obtain ⟨p, p', h1, _⟩ := line_run
  exact ⟨p, h1, line_strings, declared, line_spelled, Or.inl ⟨rfl, rfl⟩, line_may.1, line_may.2.1⟩

/-- What is rejected does not say anything that is allowed. Missing: as for `C143_accepted_partial`. -/
theorem C143_rejected_partial (h : makeParser argv opts free log mem = .ok p) (hs : ∀ w ∈ argv, CString w)
    (hd : Declared opts) (hr : Run p ps p') (he : p'.error = true) :
    ¬ ∃ pre rest behind qs, argv = pre ++ rest ∧ Spells opts False [] pre qs ∧ Ends rest behind ∧
      (∀ q ∈ qs, Obeys opts q) ∧ Limited opts mem qs ∧ ∀ q ∈ qs, q.option = none → free = true := by
  rintro ⟨pre, rest, behind, qs, h1, h2, h3, h4, h5, h6⟩
  obtain ⟨p₁, h7, h8, _⟩ := C143_accepted_partial h hs hd h1 h2 h3 h4 h5 h6
  obtain ⟨_, rfl⟩ := hr.unique h7
  rw [he] at h8
  exact nomatch h8

/-- `-v input` -/
def flagLine : List Str := [[0x2D, 0x76], [0x69, 0x6E]]

theorem flagLine_run : ∃ p p', makeParser flagLine [verbose, out] true true (fun _ => 0) = .ok p ∧ Run p [] p' ∧ p'.error = true := by
  obtain ⟨p, ps, p', h1, h2, h3⟩ := of_gives (argv := flagLine) (opts := [verbose, out]) (mem := fun _ => 0)
    (f := fun ps p' => decide (ps = []) && p'.error) (by decide +kernel)
  rw [Bool.and_eq_true, decide_eq_true_eq] at h3
  obtain ⟨rfl, h3⟩ := h3
  exact ⟨p, p', h1, h2, h3⟩

example : ∃ p p', makeParser flagLine [verbose, out] true true (fun _ => 0) = .ok p ∧ (∀ w ∈ flagLine, CString w) ∧
    Declared [verbose, out] ∧ Run p [] p' ∧ p'.error = true := by
  obtain ⟨p, p', h1, h2, h3⟩ := flagLine_run
  refine ⟨p, p', h1, ?_, fun o ho => declared o ?_, h2, h3⟩
  · intro w hw
    simp only [flagLine, List.mem_cons, List.not_mem_nil, or_false] at hw
    rcases hw with rfl | rfl <;> (unfold CString; decide)
  · simp only [List.mem_cons, List.not_mem_nil, or_false] at ho ⊢
    exact ho.elim Or.inl (fun h => Or.inr (Or.inl h))

/-- Free arguments are allowed, but one behind an option that takes no argument is an error: `-v input`. -/
theorem C143_not_flag : ∃ argv opts ps p p', makeParser argv opts true true (fun _ => 0) = .ok p ∧ Declared opts ∧
    Spells opts True [] argv ps ∧ (∀ q ∈ ps, Obeys opts q) ∧ Limited opts (fun _ => 0) ps ∧ Run p [] p' ∧ p'.error = true := by
  obtain ⟨p, p', h1, h2, h3⟩ := flagLine_run
  refine ⟨_, _, [⟨some 0, none⟩, ⟨none, some [0x69, 0x6E]⟩], p, p', h1, ?_, ?_, ?_, ?_, h2, h3⟩
  · intro o ho
    refine declared o ?_
    simp only [List.mem_cons, List.not_mem_nil, or_false] at ho ⊢
    exact ho.elim Or.inl (fun h => Or.inr (Or.inl h))
  · exact .word 0x76 [] _ _ (by decide) (.short 0 verbose 0x76 _ _ ⟨rfl, ⟨[], rfl⟩, fun j _ hj => absurd hj (Nat.not_lt_zero j)⟩
      (Or.inr ⟨trivial, rfl⟩) (.free _ _ _ (fun ⟨_, h⟩ => by cases h) .nil))
  · intro q hq
    simp only [List.mem_cons, List.not_mem_nil, or_false] at hq
    rcases hq with rfl | rfl
    · intro i o hi ho; cases hi; cases ho; exact fun h => nomatch h
    · intro i o hi; exact nomatch hi
  · intro a q b i o he hi ho hq
    obtain ⟨q', h4, h5⟩ := hq
    match a, he with
    | [], _ => exact nomatch h4
    | [_], he => simp at he; rw [← he.2.1] at hi; exact nomatch hi
    | _ :: _ :: _, he => simp at he

/-- `-ofile input` -/
def gluedLine : List Str := [[0x2D, 0x6F, 0x66], [0x69, 0x6E]]

/-- The same for an option with its argument in the same word: `-ofile input`. -/
theorem C143_not_glued : ∃ argv opts ps p p', makeParser argv opts true true (fun _ => 0) = .ok p ∧ Declared opts ∧
    Spells opts True [] argv ps ∧ (∀ q ∈ ps, Obeys opts q) ∧ Limited opts (fun _ => 0) ps ∧ Run p [] p' ∧ p'.error = true := by
  obtain ⟨p, ps, p', h1, h2, h3⟩ := of_gives (argv := gluedLine) (opts := [out]) (mem := fun _ => 0)
    (f := fun ps p' => decide (ps = []) && p'.error) (by decide +kernel)
  rw [Bool.and_eq_true, decide_eq_true_eq] at h3
  obtain ⟨rfl, h3⟩ := h3
  refine ⟨_, _, [⟨some 0, some [0x66]⟩, ⟨none, some [0x69, 0x6E]⟩], p, p', h1, ?_, ?_, ?_, ?_, h2, h3⟩
  · intro o ho
    refine declared o ?_
    simp only [List.mem_cons, List.not_mem_nil, or_false] at ho ⊢
    exact Or.inr (Or.inl ho)
  · exact .word 0x6F [0x66] _ _ (by decide) (.shortGlued 0 out 0x6F 0x66 [] _ _ ⟨rfl, ⟨[], rfl⟩, fun j _ hj => absurd hj (Nat.not_lt_zero j)⟩
      (by decide) (by decide) (Or.inr trivial) (.free _ _ _ (fun ⟨_, h⟩ => by cases h) .nil))
  · intro q hq
    simp only [List.mem_cons, List.not_mem_nil, or_false] at hq
    rcases hq with rfl | rfl
    · intro i o hi ho; cases hi; cases ho; exact ⟨by decide, fun _ => by simp, fun f h => nomatch h⟩
    · intro i o hi; exact nomatch hi
  · intro a q b i o he hi ho hq
    obtain ⟨q', h4, h5⟩ := hq
    match a, he with
    | [], _ => exact nomatch h4
    | [_], he => simp at he; rw [← he.2.1] at hi; exact nomatch hi
    | _ :: _ :: _, he => simp at he

/-! ## C144 -/

theorem C144_obeys (h : makeParser argv opts free log mem = .ok p) (hs : ∀ w ∈ argv, CString w) (hc : Calls p ps p') : ∀ q ∈ ps,
    (∀ i, q.option = some i → ∃ o, opts[i]? = some o ∧ Fits o q.argument) ∧
    (q.option = none → free = true ∧ ∃ w ∈ argv, q.argument = some w) := by
  have hrd := ready_of h hs
  obtain ⟨_, ha, ho, hf, _⟩ := makeParser_fresh h
  obtain ⟨h1, _, h2⟩ := allMay_iff.1 (hc.inv hrd).2
  rw [ho] at h1
  rw [hf] at h2
  intro q hq
  obtain ⟨h3, h4⟩ := hc.index hrd q hq
  rw [ho] at h3
  rw [ha] at h4
  refine ⟨fun i hi => ?_, fun hn => ⟨h2 q hq hn, h4 hn⟩⟩
  have hl := h3 i hi
  exact ⟨opts[i], List.getElem?_eq_getElem hl, h1 q hq i _ hi (List.getElem?_eq_getElem hl)⟩

example : ∃ p p', makeParser line [verbose, out, num] true true (fun _ => 0) = .ok p ∧ (∀ w ∈ line, CString w) ∧ Calls p said p' := by
  obtain ⟨p, p', h1, ⟨p₁, h2, _⟩, h3⟩ := line_run
  exact ⟨p, p₁, h1, line_strings, h2⟩

/-! ## C145 -/

/-- Missing: a maximum above one is only enforced if the option has a counter of its own, that was zero. -/
theorem C145_limit_partial (h : makeParser argv opts free log mem = .ok p) (hs : ∀ w ∈ argv, CString w) (hc : Calls p ps p')
    {i : Nat} {o : Opt} (ho : opts[i]? = some o) :
    (o.max = 0 ∨ o.max = 1 → times i ps ≤ 1) ∧
    (1 < o.max → o.max < 2 ^ 31 → ∀ a, o.counter = some a → mem a = 0 →
      (∀ j o', opts[j]? = some o' → (o'.counter = some a → j = i) ∧ o'.output ≠ some a) → (times i ps : Int) ≤ o.max) := by
  have hrd := ready_of h hs
  obtain ⟨_, ha, hop, hf, _, hm⟩ := makeParser_fresh h
  have hall := (hc.inv hrd).2
  rw [← hop] at ho
  exact ⟨fun h1 => once ho h1 hall, fun h1 h2 a h3 h4 h5 => counted ho h3 (by rw [hop]; exact h5) (by rw [hm]; exact h4) h1 h2 hall⟩

example : ∃ p p', makeParser line [verbose, out, num] true true (fun _ => 0) = .ok p ∧ (∀ w ∈ line, CString w) ∧ Calls p said p' ∧
    num.counter = some 7 ∧ times 2 said = 2 ∧
    ∀ j o', [verbose, out, num][j]? = some o' → (o'.counter = some 7 → j = 2) ∧ o'.output ≠ some 7 := by
  obtain ⟨p, p', h1, ⟨p₁, h2, _⟩, h3⟩ := line_run
  refine ⟨p, p₁, h1, line_strings, h2, rfl, by decide, ?_⟩
  intro j o' hj
  match j, hj with
  | 0, hj => cases hj; exact ⟨fun h => (nomatch h), fun h => nomatch h⟩
  | 1, hj => cases hj; exact ⟨fun h => (nomatch h), fun h => nomatch h⟩
  | 2, hj => cases hj; exact ⟨fun _ => rfl, by decide⟩
  | n + 3, hj => exact nomatch hj

/-- An option that may be given twice, without a counter. -/
def twice : Opt := { verbose with max := 2 }

/-- Without a counter, a maximum above one has no effect: an option that may be given twice is delivered three times. -/
theorem C145_not_limit : ∃ argv opts p ps p' o, makeParser argv opts true true (fun _ => 0) = .ok p ∧ Declared opts ∧ Run p ps p' ∧
    p'.error = false ∧ opts[0]? = some o ∧ o.max = 2 ∧ times 0 ps = 3 := by
  obtain ⟨p, ps, p', h1, h2, h3⟩ := of_gives (argv := [[0x2D, 0x76, 0x76, 0x76]]) (opts := [twice]) (mem := fun _ => 0)
    (f := fun ps p' => decide (times 0 ps = 3) && !p'.error) (by decide +kernel)
  rw [Bool.and_eq_true, decide_eq_true_eq, Bool.not_eq_true'] at h3
  refine ⟨_, _, p, ps, p', twice, h1, ?_, h2, h3.2, rfl, rfl, h3.1⟩
  intro o ho
  rw [List.mem_singleton.1 ho]
  exact declared verbose List.mem_cons_self

/-! ## C146 -/

theorem C146_outputs (h : makeParser argv opts free log mem = .ok p) (hs : ∀ w ∈ argv, CString w) :
    (∀ ps p', Calls p ps p' → p'.mem = effects opts mem ps) ∧
    (∀ ps p', Run p ps p' → p'.error = false → p'.mem = effects opts mem ps) := by
  have hrd := ready_of h hs
  obtain ⟨_, ha, ho, hf, _, hm⟩ := makeParser_fresh h
  refine ⟨fun ps p' hc => ?_, fun ps p' hr he => ?_⟩
  · have := (hc.inv hrd).1.mem
    rwa [ho, hm] at this
  · have := (hr.ok hrd he).1.mem
    rwa [ho, hm] at this

example : ∃ p p', makeParser line [verbose, out, num] true true (fun _ => 0) = .ok p ∧ (∀ w ∈ line, CString w) ∧ Run p said p' ∧
    p'.error = false ∧ effects [verbose, out, num] (fun _ => 0) said 7 = 2 ∧ effects [verbose, out, num] (fun _ => 0) said 8 = 4 := by
  obtain ⟨p, p', h1, h2, h3⟩ := line_run
  exact ⟨p, p', h1, line_strings, h2, h3, by decide +kernel, by decide +kernel⟩

/-! ## C147 -/

theorem C147_validate {b : Bool} (h : makeParser argv opts free log mem = .ok p) (hs : ∀ w ∈ argv, CString w) (hr : Run p ps p')
    (hv : validate p' = .ok (b, p'')) :
    b = true ↔ p'.error = false ∧ ∀ i o, opts[i]? = some o → o.required = true → ∃ q ∈ ps, q.option = some i := by
  have hrd := ready_of h hs
  obtain ⟨_, ha, ho, hf, _, hm⟩ := makeParser_fresh h
  unfold validate at hv
  by_cases he : p'.error = true
  · rw [if_pos he] at hv
    cases hv
    exact ⟨fun h => (nomatch h), fun h => by rw [he] at h; exact nomatch h.1⟩
  · rw [if_neg he] at hv
    have he : p'.error = false := by cases h : p'.error with
      | false => rfl
      | true => exact absurd h he
    have hb := (hr.ok hrd he).1
    rcases hb.missing hrd.fresh.count with ⟨h1, h2⟩ | ⟨i, o, h1, h2, h3, h4⟩
    · rw [h1] at hv
      cases hv
      rw [ho] at h2
      exact ⟨fun _ => ⟨he, h2⟩, fun _ => rfl⟩
    · rw [h1] at hv
      rw [ho] at h2
      simp only [ok_bind] at hv
      have hb' : b = false := by
        cases hp : p'.print o.long with
        | error e => rw [hp] at hv; cases hv
        | ok l => rw [hp] at hv; cases hv; rfl
      rw [hb']
      exact ⟨fun h => (nomatch h), fun h => absurd (h.2 i o h2 h3) h4⟩

theorem validate_line : gives line [verbose, out, num] (fun _ => 0) (fun _ p' => match validate p' with
    | .ok (b, _) => b
    | .error _ => false) = true := by decide +kernel

example : ∃ p p' p'', makeParser line [verbose, out, num] true true (fun _ => 0) = .ok p ∧ (∀ w ∈ line, CString w) ∧ Run p said p' ∧
    validate p' = .ok (true, p'') := by
  obtain ⟨p, p', h1, h2, h3⟩ := line_run
  obtain ⟨q, ps, q', h4, h5, h6⟩ := of_gives validate_line
  rw [h1] at h4
  cases h4
  obtain ⟨rfl, rfl⟩ := h2.unique h5
  cases hv : validate p' with
  | error e => rw [hv] at h6; exact nomatch h6
  | ok r =>
    obtain ⟨b, p''⟩ := r
    rw [hv] at h6
    have : b = true := h6
    subst this
    exact ⟨p, p', p'', h1, line_strings, h2, hv⟩

/-- A required option that is missing. -/
example : gives [[0x2D, 0x76]] [verbose, out, num] (fun _ => 0) (fun _ p' => match validate p' with
    | .ok (b, _) => !b && !p'.error
    | .error _ => false) = true := by decide +kernel

/-! ## C148 -/

theorem deref_ne {s : Str} (h : CString s) : (deref s != 0) = true ↔ s ≠ [] := by
  cases s with
  | nil => simp [deref]
  | cons c s =>
    have : c ≠ 0 := fun hc => h (by rw [hc]; exact List.mem_cons_self)
    simpa [deref] using this

/-- Which options are accepted: up to 128, of which each has a short name or a long name that is not empty. All others fail an assertion. -/
theorem C148_make (hn : ∀ o ∈ opts, ∀ name, o.short = some name ∨ o.long = some name → CString name) :
    (opts.length ≤ 128 ∧ (∀ o ∈ opts, ∃ name, (o.short = some name ∨ o.long = some name) ∧ name ≠ []) → ∃ p, makeParser argv opts free log mem = .ok p) ∧
    (¬ (opts.length ≤ 128 ∧ ∀ o ∈ opts, ∃ name, (o.short = some name ∨ o.long = some name) ∧ name ≠ []) →
      makeParser argv opts free log mem = .error .assertion) := by
  have key : ∀ o ∈ opts, (named o = true ↔ ∃ name, (o.short = some name ∨ o.long = some name) ∧ name ≠ []) := by
    intro o ho
    have h := hn o ho
    unfold named
    cases hs : o.short with
    | none =>
      cases hl : o.long with
      | none => simp
      | some l =>
        rw [Bool.or_eq_true]
        simp only [deref_ne (h l (.inr hl))]
        simp
    | some s =>
      cases hl : o.long with
      | none =>
        rw [Bool.or_eq_true]
        simp only [deref_ne (h s (.inl hs))]
        simp
      | some l =>
        rw [Bool.or_eq_true]
        simp only [deref_ne (h s (.inl hs)), deref_ne (h l (.inr hl))]
        simp [or_and_right, exists_or]
  have hall : opts.all named = true ↔ ∀ o ∈ opts, ∃ name, (o.short = some name ∨ o.long = some name) ∧ name ≠ [] := by
    rw [List.all_eq_true]
    exact forall_congr' fun o => forall_congr' fun ho => key o ho
  unfold makeParser
  rw [← hall]
  by_cases h1 : opts.length ≤ 128 <;> by_cases h2 : opts.all named = true <;> simp [h1, h2]

example : makeParser [] [{ short := some [], long := some [], arg := .none }] true true (fun _ => 0) = .error .assertion :=
  (C148_make (by
    intro o ho name h
    rw [List.mem_singleton.1 ho] at h
    rcases h with h | h <;> cases h <;> exact List.not_mem_nil)).2 (fun h => by
    obtain ⟨name, h1, h2⟩ := h.2 _ (List.mem_singleton.2 rfl)
    rcases h1 with h1 | h1 <;> cases h1 <;> exact h2 rfl)

/-- Missing: options with a long name that is null or with an empty short name, which `makeParser` accepts. -/
theorem C148_safe_partial (h : makeParser argv opts free log mem = .ok p) (hs : ∀ w ∈ argv, CString w) (hd : Declared opts) :
    (∀ ps p' e, Calls p ps p' → next p' ≠ .error e) ∧
    (∀ ps p' e, Run p ps p' → validate p' ≠ .error e ∧ remaining p' ≠ .error e) := by
  have hrd := ready_of h hs
  obtain ⟨_, ha, ho, hf, _, hm⟩ := makeParser_fresh h
  constructor
  · intro ps p' e hc hn
    rcases next_spec (hc.inv hrd).1 hrd.fresh.count hrd.strings with ⟨q', p₂, h3, _⟩ | ⟨p₂, h3, _⟩ | ⟨p₂, h3, _⟩ | ⟨_, h3⟩
    · rw [h3] at hn; cases hn
    · rw [h3] at hn; cases hn
    · rw [h3] at hn; cases hn
    · rw [ho] at h3; exact h3 hd
  · intro ps p' e hr
    obtain ⟨p₁, h1, h2⟩ := hr.cases hrd
    rcases h2 with ⟨h2, _⟩ | ⟨h2, _⟩
    · rw [h2.remaining, validate, if_pos h2.error]
      exact ⟨fun h => (nomatch h), fun h => nomatch h⟩
    · refine ⟨fun hv => ?_, by rw [h2.remaining]; exact fun h => nomatch h⟩
      unfold validate at hv
      rw [if_neg (by rw [h2.error]; decide)] at hv
      rcases h2.missing hrd.fresh.count with ⟨h3, _⟩ | ⟨i, o, h3, h4, _⟩
      · rw [h3] at hv; cases hv
      · rw [h3] at hv
        rw [ho] at h4
        obtain ⟨⟨name, hname, _⟩, _⟩ := hd o (List.mem_of_getElem? h4)
        simp only [ok_bind, hname, Parser.print] at hv
        cases hv

example : ∃ p p', makeParser line [verbose, out, num] true true (fun _ => 0) = .ok p ∧ (∀ w ∈ line, CString w) ∧
    Declared [verbose, out, num] ∧ Run p said p' := by
  obtain ⟨p, p', h1, h2, h3⟩ := line_run
  exact ⟨p, p', h1, line_strings, declared, h2⟩

/-- An option whose long name is null: any long option on the command line dereferences it. -/
theorem C148_not_null : ∃ argv opts p, makeParser argv opts true true (fun _ => 0) = .ok p ∧ (∀ w ∈ argv, CString w) ∧
    (∀ o ∈ opts, o.short = some [0x76] ∧ o.long = none) ∧ next p = .error .invalid := by
  refine ⟨[[0x2D, 0x2D, 0x78]], [{ short := some [0x76], long := none, arg := .none }], _, rfl, ?_, ?_, by rfl⟩
  · intro w hw; rw [List.mem_singleton.1 hw]; unfold CString; decide
  · intro o ho; rw [List.mem_singleton.1 ho]; exact ⟨rfl, rfl⟩

/-- An option with a long name and a short name that is empty: any short option fails an assertion. -/
theorem C148_not_empty : ∃ argv opts p, makeParser argv opts true true (fun _ => 0) = .ok p ∧ (∀ w ∈ argv, CString w) ∧
    (∀ o ∈ opts, o.short = some [] ∧ o.long = some [0x76]) ∧ next p = .error .assertion := by
  refine ⟨[[0x2D, 0x78]], [{ short := some [], long := some [0x76], arg := .none }], _, rfl, ?_, ?_, by rfl⟩
  · intro w hw; rw [List.mem_singleton.1 hw]; unfold CString; decide
  · intro o ho; rw [List.mem_singleton.1 ho]; exact ⟨rfl, rfl⟩

/-- Validating prints the long name of a required option that is missing, even if it is null. -/
theorem C148_not_printed : ∃ opts p p', makeParser [] opts true true (fun _ => 0) = .ok p ∧
    (∀ o ∈ opts, o.short = some [0x76] ∧ o.long = none) ∧ Run p [] p' ∧ validate p' = .error .invalid := by
  refine ⟨[{ short := some [0x76], long := none, arg := .none, required := true }], _, _, rfl, ?_, ⟨_, .nil, rfl⟩, by rfl⟩
  intro o ho; rw [List.mem_singleton.1 ho]; exact ⟨rfl, rfl⟩

/-! ## C149 -/

theorem C149_ends (h : makeParser argv opts free log mem = .ok p) (hs : ∀ w ∈ argv, CString w) :
    ((∃ ps p', Run p ps p') ∨ ∃ ps p' e, Calls p ps p' ∧ next p' = .error e) ∧
    ∀ ps p', Calls p ps p' → ps.length ≤ (argv.map (·.length + 1)).sum := by
  have hrd := ready_of h hs
  obtain ⟨_, ha, _⟩ := makeParser_fresh h
  refine ⟨Calls.ends hrd _ .nil (Nat.le_refl _), fun ps p' hc => ?_⟩
  have := hc.size_le hrd
  rw [hrd.text, hrd.words, ha] at this
  simp only [size, List.length_nil] at this
  omega

example : ∃ p, makeParser line [verbose, out, num] true true (fun _ => 0) = .ok p ∧ ∀ w ∈ line, CString w := by
  obtain ⟨p, p', h1, _⟩ := line_run
  exact ⟨p, h1, line_strings⟩

/-! ## C150 -/

theorem C150_reported (h : makeParser argv opts free log mem = .ok p) (hs : ∀ w ∈ argv, CString w) :
    (∀ ps p', Calls p ps p' → p'.error = false ∧ p'.log = []) ∧
    (∀ ps p', Run p ps p' → (p'.error = false ∧ p'.log = []) ∨ (p'.error = true ∧ p'.log.length = if log then 1 else 0)) ∧
    (∀ ps p' b p'', Run p ps p' → validate p' = .ok (b, p'') → p''.error = !b ∧ p''.log.length = if b = false ∧ log = true then 1 else 0) := by
  have hrd := ready_of h hs
  obtain ⟨_, ha, ho, hf, hl, hm⟩ := makeParser_fresh h
  have hlog : p.log = [] := by
    unfold makeParser at h
    split at h
    · split at h
      · cases h; rfl
      · cases h
    · cases h
  have hrun : ∀ ps p', Run p ps p' → (p'.error = false ∧ p'.log = []) ∨ (p'.error = true ∧ p'.log.length = if log then 1 else 0) := by
    intro ps p' hr
    obtain ⟨p₁, h1, h2⟩ := hr.cases hrd
    rcases h2 with ⟨h2, _⟩ | ⟨h2, _⟩
    · refine Or.inr ⟨h2.error, ?_⟩
      obtain ⟨m, hm⟩ := h2.log
      rw [hm, hl, hlog]
      cases log <;> rfl
    · exact Or.inl ⟨h2.error, h2.log.trans hlog⟩
  refine ⟨fun ps p' hc => ⟨(hc.inv hrd).1.error, (hc.inv hrd).1.log.trans hlog⟩, hrun, ?_⟩
  intro ps p' b p'' hr hv
  unfold validate at hv
  rcases hrun ps p' hr with ⟨he, hlg⟩ | ⟨he, hlg⟩
  · rw [if_neg (by rw [he]; decide)] at hv
    have hb := (hr.ok hrd he).1
    rcases hb.missing hrd.fresh.count with ⟨h1, _⟩ | ⟨i, o, h1, _⟩
    · rw [h1] at hv
      cases hv
      exact ⟨he, by rw [hlg]; rfl⟩
    · rw [h1] at hv
      simp only [ok_bind] at hv
      cases hp : p'.print o.long with
      | error e => rw [hp] at hv; cases hv
      | ok l =>
        rw [hp] at hv
        cases hv
        refine ⟨rfl, ?_⟩
        simp only [Parser.fail, hb.hasLog, hl, hlg]
        cases log <;> rfl
  · rw [if_pos he] at hv
    cases hv
    refine ⟨he, ?_⟩
    rw [hlg]
    cases log <;> rfl

example : ∃ p p', makeParser flagLine [verbose, out] true true (fun _ => 0) = .ok p ∧ Run p [] p' ∧ p'.error = true := flagLine_run

/-! ## C151 -/

theorem C151_uint {s : Str} (hc : CString s) : argUint s = true ↔ Digits s := argUint_iff hc

theorem C151_int {s : Str} (hc : CString s) : argInt s = true ↔ ∃ sign ds, (sign = [] ∨ sign = [0x2D]) ∧ Digits ds ∧ s = sign ++ ds :=
  argInt_iff hc

theorem C151_float {s : Str} (hc : CString s) : argFloat s = true ↔ Float s := argFloat_iff hc

/-- `-10.5e+3` -/
example : CString [0x2D, 0x31, 0x30, 0x2E, 0x35, 0x65, 0x2B, 0x33] ∧ argFloat [0x2D, 0x31, 0x30, 0x2E, 0x35, 0x65, 0x2B, 0x33] = true ∧
    argInt [0x2D, 0x31, 0x30] = true ∧ argUint [0x31, 0x30] = true ∧ argFloat [0x30, 0x31] = false := by
  unfold CString; decide

end Tm.Cli
