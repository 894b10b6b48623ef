import Verif.Cli.FoundLemmas

/-! # What a call of `next` does -/

namespace Tm.Cli

/-- What a call reads: the rest of a word and the words behind it, what is delivered, and what is left. -/
inductive One (opts : List Opt) : Str → List Str → Parsed → Str → List Str → Prop
  | free (w : Str) (ws : List Str) : ¬ Dashed w → One opts [] (w :: ws) ⟨none, some w⟩ [] ws
  | long (i : Nat) (o : Opt) (name rest : Str) (ws : List Str) (arg : Option Str) (t : Str) (ws' : List Str) :
    First opts (HasLong · (name ++ rest)) i o → o.long = some name → BeginsWell (name ++ rest) → (rest = [] ∨ ∃ v, rest = 0x3D :: v) →
    Arg false o rest ws arg t ws' → One opts [] ((0x2D :: 0x2D :: (name ++ rest)) :: ws) ⟨some i, arg⟩ t ws'
  | short (i : Nat) (o : Opt) (c : Byte) (cur : Str) (ws : List Str) (arg : Option Str) (t : Str) (ws' : List Str) :
    First opts (HasShort · c) i o → Arg true o cur ws arg t ws' → One opts (c :: cur) ws ⟨some i, arg⟩ t ws'
  | word (c : Byte) (text : Str) (ws : List Str) (q : Parsed) (t : Str) (ws' : List Str) :
    c ≠ 0x2D → One opts (c :: text) ws q t ws' → One opts [] ((0x2D :: c :: text) :: ws) q t ws'

theorem One.short_inv {opts c cur ws q t ws'} (h : One opts (c :: cur) ws q t ws') :
    ∃ i o arg, First opts (HasShort · c) i o ∧ q = ⟨some i, arg⟩ ∧ Arg true o cur ws arg t ws' := by
  cases h with
  | short i o c cur ws arg t ws' h1 h2 => exact ⟨i, o, arg, h1, rfl, h2⟩

theorem One.unique_short {opts c cur ws q t ws' q' t' ws''} (h : One opts (c :: cur) ws q t ws') (h' : One opts (c :: cur) ws q' t' ws'') :
    q = q' ∧ t = t' ∧ ws' = ws'' := by
  obtain ⟨i, o, arg, h1, rfl, h2⟩ := h.short_inv
  obtain ⟨i', o', arg', h1', rfl, h2'⟩ := h'.short_inv
  obtain ⟨rfl, rfl⟩ := h1.unique h1'
  obtain ⟨rfl, rfl, rfl⟩ := h2.unique h2'
  exact ⟨rfl, rfl, rfl⟩

theorem One.unique_long {opts s ws q t ws' q' t' ws''} (h : One opts [] ((0x2D :: 0x2D :: s) :: ws) q t ws')
    (h' : One opts [] ((0x2D :: 0x2D :: s) :: ws) q' t' ws'') : q = q' ∧ t = t' ∧ ws' = ws'' := by
  have key : ∀ {q t ws'}, One opts [] ((0x2D :: 0x2D :: s) :: ws) q t ws' →
      ∃ i o name rest arg, First opts (HasLong · s) i o ∧ o.long = some name ∧ s = name ++ rest ∧ q = ⟨some i, arg⟩ ∧ Arg false o rest ws arg t ws' := by
    intro q t ws' h
    generalize hw : ((0x2D :: 0x2D :: s) : Str) :: ws = words at h
    generalize hx : ([] : Str) = text at h
    cases h with
    | free w ws hd => cases hw; exact absurd ⟨_, rfl⟩ hd
    | long i o name rest ws arg t ws' h1 h2 h3 h4 h5 => cases hw; exact ⟨i, o, name, rest, arg, h1, h2, rfl, rfl, h5⟩
    | short => cases hx
    | word c text ws q t ws' hc => cases hw; exact absurd rfl hc
  obtain ⟨i, o, name, rest, arg, h1, h2, h3, rfl, h5⟩ := key h
  obtain ⟨i', o', name', rest', arg', h1', h2', h3', rfl, h5'⟩ := key h'
  obtain ⟨rfl, rfl⟩ := h1.unique h1'
  obtain rfl := Option.some.inj (h2.symm.trans h2')
  obtain rfl := List.append_cancel_left (h3.symm.trans h3')
  obtain ⟨rfl, rfl, rfl⟩ := h5.unique h5'
  exact ⟨rfl, rfl, rfl⟩

theorem One.unique {opts text words q t ws q' t' ws'} (h : One opts text words q t ws) (h' : One opts text words q' t' ws') :
    q = q' ∧ t = t' ∧ ws = ws' := by
  cases h with
  | free w ws hd =>
    cases h' with
    | free => exact ⟨rfl, rfl, rfl⟩
    | long => exact absurd ⟨_, rfl⟩ hd
    | word => exact absurd ⟨_, rfl⟩ hd
  | long i o name rest ws arg t ws' h1 h2 h3 h4 h5 => exact (One.long i o name rest ws arg t _ h1 h2 h3 h4 h5).unique_long h'
  | short i o c cur ws arg t ws' h1 h2 => exact (One.short i o c cur _ arg t _ h1 h2).unique_short h'
  | word c text ws q t ws' hc h =>
    generalize hw : ((0x2D :: c :: text) : Str) :: ws = words at h'
    cases h' with
    | free w ws hd => cases hw; exact absurd ⟨_, rfl⟩ hd
    | long => cases hw; exact absurd rfl hc
    | word c' text' ws q t ws' hc' h' => cases hw; exact h.unique_short h'

/-- Whether an option may be given, apart from how it is spelled. -/
def May (p₀ : Parser) (ps : List Parsed) (q : Parsed) : Prop :=
  Obeys p₀.options q ∧ (q.option = none → p₀.free = true) ∧
  ∀ i o, q.option = some i → p₀.options[i]? = some o → (∃ q' ∈ ps, q'.option = some i) → Again o (effects p₀.options p₀.mem ps)

/-- The end of the options as the parser sees it. -/
def Stop (words behind : List Str) : Prop :=
  (words = [] ∧ behind = []) ∨ ∃ t, words = (0x2D :: 0x2D :: t) :: behind ∧ ¬ BeginsWell t

/-- The outcomes of a call. -/
def Outcome (p₀ : Parser) (ps : List Parsed) (text : Str) (words : List Str) (r : Next) : Prop :=
  (∃ q p', r = .ok (some q, p') ∧ Inv p₀ (ps ++ [q]) p' ∧ One p₀.options text words q p'.text p'.words ∧ May p₀ ps q) ∨
  (∃ p', r = .ok (none, p') ∧ Failed p₀ p' ∧ (¬ ∃ q t w, One p₀.options text words q t w ∧ May p₀ ps q) ∧
    ¬ ∃ w, text = [] ∧ Stop words w) ∨
  (∃ p', r = .ok (none, p') ∧ Base p₀ ps p' ∧ text = [] ∧ Stop words p'.words) ∨
  ((∃ e, r = .error e) ∧ ¬ Declared p₀.options)

theorem First.lt {opts P i o} (h : First opts P i o) : i < opts.length := by
  have := h.1
  rcases Nat.lt_or_ge i opts.length with hl | hl
  · exact hl
  · rw [List.getElem?_eq_none hl] at this; exact nomatch this

theorem may_some {p₀ ps i o arg} (ho : p₀.options[i]? = some o) :
    May p₀ ps ⟨some i, arg⟩ ↔ Fits o arg ∧ ((∃ q' ∈ ps, q'.option = some i) → Again o (effects p₀.options p₀.mem ps)) := by
  constructor
  · rintro ⟨h1, _, h3⟩
    exact ⟨h1 i o rfl ho, h3 i o rfl ho⟩
  · rintro ⟨h1, h2⟩
    refine ⟨?_, fun h => (nomatch h), ?_⟩
    · intro i' o' hi ho'; cases hi; rw [ho] at ho'; cases ho'; exact h1
    · intro i' o' hi ho'; cases hi; rw [ho] at ho'; cases ho'; exact h2

/-- A short option. -/
theorem shortOption_spec {p₀ ps p c cur} (hb : Base p₀ ps p) (hn : p₀.options.length ≤ 128)
    (hc : CString (c :: cur)) (hw : ∀ w ∈ p.argv, CString w) : Outcome p₀ ps (c :: cur) p.words (shortOption p (c :: cur)) := by
  have hc0 : c ≠ 0 := fun h => hc (h ▸ List.mem_cons_self)
  unfold shortOption
  simp only [deref, List.headD_cons, List.tail_cons]
  rcases findShort_spec hc0 p.options 0 with ⟨h1, h2⟩ | ⟨i, o, h1, h2⟩ | ⟨⟨e, h1⟩, h2⟩
  · rw [h1]
    refine Or.inr (Or.inl ⟨_, rfl, hb.failed _, ?_, fun ⟨_, h, _⟩ => nomatch h⟩)
    rintro ⟨q, t, w, h3, _⟩
    obtain ⟨i, o, arg, h4, _⟩ := h3.short_inv
    exact h2 o (hb.options ▸ List.mem_of_getElem? h4.1) h4.2.1
  · rw [h1]
    simp only [ok_bind, Nat.zero_add]
    obtain ⟨name, hname⟩ := h2.2.1
    have hf : First p₀.options (HasShort · c) i o := hb.options ▸ h2
    have hb' : Base p₀ ps { p with currentArg := some cur } :=
      ⟨hb.argv, hb.options, hb.free, hb.hasLog, hb.log, hb.error, hb.mem, hb.length, hb.given, hb.le⟩
    have hs := found_spec (i := i) (o := o) (n := c :: name) (cur := cur) (isShort := true) hb' h2.1
      (by have := hf.lt; omega) hname rfl hc.tail hw
    have hm : p.mem = effects p₀.options p₀.mem ps := hb.mem
    rcases hs with ⟨arg, p', h3, h4, h5, h6, h7⟩ | ⟨p', h3, h4, h5⟩
    · refine Or.inl ⟨_, p', h3, h4, .short i o c cur _ arg _ _ hf h5, (may_some hf.1).2 ⟨h6, ?_⟩⟩
      rw [← hm]; exact h7
    · refine Or.inr (Or.inl ⟨p', h3, h4, ?_, fun ⟨_, h, _⟩ => nomatch h⟩)
      rintro ⟨q, t, w, h6, h7⟩
      obtain ⟨i', o', arg, h8, rfl, h9⟩ := h6.short_inv
      obtain ⟨rfl, rfl⟩ := hf.unique h8
      obtain ⟨h10, h11⟩ := (may_some hf.1).1 h7
      rw [← hm] at h11
      exact h5 ⟨arg, t, w, h9, h10, h11⟩
  · rw [h1]
    exact Or.inr (Or.inr (Or.inr ⟨⟨e, rfl⟩, hb.options ▸ h2⟩))

/-- What follows "--". -/
theorem longOption_spec {p₀ ps p s} (hb : Base p₀ ps p) (hn : p₀.options.length ≤ 128)
    (hc : CString s) (hw : ∀ w ∈ p.argv, CString w) :
    Outcome p₀ ps [] ((0x2D :: 0x2D :: s) :: p.words) (longOption p s) := by
  unfold longOption
  by_cases hbw : BeginsWell s
  · have hstop : ¬ ∃ w, ([] : Str) = [] ∧ Stop ((0x2D :: 0x2D :: s) :: p.words) w := by
      rintro ⟨w, _, h⟩
      rcases h with ⟨h, _⟩ | ⟨t, h, h'⟩
      · exact nomatch h
      · cases h; exact h' hbw
    rw [isAlnum_deref.2 hbw]
    simp only [Bool.not_true, Bool.false_eq_true, if_false]
    have key : ∀ {q t ws'}, One p₀.options [] ((0x2D :: 0x2D :: s) :: p.words) q t ws' →
        ∃ i o name rest arg, First p₀.options (HasLong · s) i o ∧ o.long = some name ∧ s = name ++ rest ∧ q = ⟨some i, arg⟩ ∧
          Arg false o rest p.words arg t ws' := by
      intro q t ws' h
      generalize hw : ((0x2D :: 0x2D :: s) : Str) :: p.words = words at h
      generalize hx : ([] : Str) = text at h
      cases h with
      | free w ws hd => cases hw; exact absurd ⟨_, rfl⟩ hd
      | long i o name rest ws arg t ws' h1 h2 h3 h4 h5 => cases hw; exact ⟨i, o, name, rest, arg, h1, h2, rfl, rfl, h5⟩
      | short => cases hx
      | word c text ws q t ws' hc => cases hw; exact absurd rfl hc
    rcases findLong_spec hc p.options 0 with ⟨h1, h2⟩ | ⟨i, o, name, rest, h1, h2, hname, hs, hrest⟩ | ⟨⟨e, h1⟩, h2⟩
    · rw [h1]
      refine Or.inr (Or.inl ⟨_, rfl, hb.failed _, ?_, hstop⟩)
      rintro ⟨q, t, w, h3, _⟩
      obtain ⟨i, o, _, _, arg, h4, _⟩ := key h3
      exact h2 o (hb.options ▸ List.mem_of_getElem? h4.1) h4.2.1
    · rw [h1]
      simp only [ok_bind, Nat.zero_add]
      have hf : First p₀.options (HasLong · s) i o := hb.options ▸ h2
      have hb' : Base p₀ ps { p with currentArg := none } :=
        ⟨hb.argv, hb.options, hb.free, hb.hasLog, hb.log, hb.error, hb.mem, hb.length, hb.given, hb.le⟩
      have hsp := found_spec (i := i) (o := o) (n := name) (cur := rest) (isShort := false) hb' h2.1
        (by have := hf.lt; omega) hname rfl (CString.append_right (hs ▸ hc)) hw
      have hm : p.mem = effects p₀.options p₀.mem ps := hb.mem
      rcases hsp with ⟨arg, p', h3, h4, h5, h6, h7⟩ | ⟨p', h3, h4, h5⟩
      · refine Or.inl ⟨_, p', h3, h4, ?_, (may_some hf.1).2 ⟨h6, ?_⟩⟩
        · subst hs
          exact .long i o name rest _ arg _ _ hf hname hbw hrest h5
        · rw [← hm]; exact h7
      · refine Or.inr (Or.inl ⟨p', h3, h4, ?_, hstop⟩)
        rintro ⟨q, t, w, h6, h7⟩
        obtain ⟨i', o', name', rest', arg, h8, h8', hs', rfl, h9⟩ := key h6
        obtain ⟨rfl, rfl⟩ := hf.unique h8
        obtain rfl := Option.some.inj (hname.symm.trans h8')
        obtain rfl := List.append_cancel_left (hs.symm.trans hs')
        obtain ⟨h10, h11⟩ := (may_some hf.1).1 h7
        rw [← hm] at h11
        exact h5 ⟨arg, t, w, h9, h10, h11⟩
    · rw [h1]
      exact Or.inr (Or.inr (Or.inr ⟨⟨e, rfl⟩, hb.options ▸ h2⟩))
  · have : isAlnum (deref s) = false := by
      cases h : isAlnum (deref s) with
      | false => rfl
      | true => exact absurd (isAlnum_deref.1 h) hbw
    rw [this]
    exact Or.inr (Or.inr (Or.inl ⟨p, rfl, hb, rfl, Or.inr ⟨s, rfl, hbw⟩⟩))

theorem parseWord_long (p : Parser) (s : Str) : parseWord p (0x2D :: 0x2D :: s) = longOption p s := by
  unfold parseWord
  rw [if_pos (show deref (0x2D :: 0x2D :: s) = 0x2D from rfl), if_pos (show deref (0x2D :: 0x2D :: s : Str).tail = 0x2D from rfl)]
  rfl

theorem parseWord_short (p : Parser) {s : Str} (h : ¬ Dashed s) : parseWord p (0x2D :: s) = shortOption p s := by
  unfold parseWord
  rw [if_pos (show deref (0x2D :: s) = 0x2D from rfl)]
  exact if_neg (fun hz => h (dashed_iff.1 hz))

theorem parseWord_rest (p : Parser) {s t : Str} (h : ¬ Dashed s) (hp : p.currentArg = some t) : parseWord p s = shortOption p s := by
  unfold parseWord; rw [if_neg (fun hz => h (dashed_iff.1 hz)), hp]; rfl

theorem parseWord_free (p : Parser) {s : Str} (h : ¬ Dashed s) (hp : p.currentArg = none) :
    parseWord p s = if p.free then .ok (some ⟨none, some s⟩, p) else .ok (none, p.fail (.freeArgument s)) := by
  unfold parseWord; rw [if_neg (fun hz => h (dashed_iff.1 hz)), hp]; cases p.free <;> rfl

theorem shortOption_empty (p : Parser) : shortOption p [] = .ok (none, p.fail (.unrecognizedShort 0)) ∨
    ((∃ e, shortOption p [] = .error e) ∧ ¬ Declared p.options) := by
  unfold shortOption
  have h : findShort (deref []) 0 p.options = .ok none ∨ ((∃ e, findShort (deref []) 0 p.options = .error e) ∧ ¬ Declared p.options) :=
    findShort_zero p.options 0
  rcases h with h | ⟨⟨e, h⟩, hd⟩
  · rw [h]; exact Or.inl rfl
  · rw [h]; exact Or.inr ⟨⟨e, rfl⟩, hd⟩

/-- What a call does. -/
theorem next_spec {p₀ ps p} (h : Inv p₀ ps p) (hn : p₀.options.length ≤ 128)
    (hw : ∀ w ∈ p₀.argv, CString w) : Outcome p₀ ps p.text p.words (next p) := by
  have hw' : ∀ w ∈ p.argv, CString w := h.argv ▸ hw
  unfold next
  rw [if_neg (by rw [h.error]; decide)]
  cases ht : p.text with
  | cons b t =>
    have hg : p.currentArg.getD [] = b :: t := ht
    have hcs : CString (b :: t) := ht ▸ h.cstr
    rw [hg]
    have hb0 : deref (b :: t) ≠ 0 := fun hz => hcs (hz ▸ List.mem_cons_self)
    rw [if_pos hb0]
    have hb1 : ¬ Dashed (b :: t) := fun ⟨u, hu⟩ => h.suffix u (by rw [ht, hu])
    have hs : p.currentArg = some (b :: t) := by
      cases hc : p.currentArg with
      | none => rw [hc] at hg; exact nomatch hg
      | some _ => rw [hc] at hg; exact congrArg some hg
    rw [parseWord_rest p hb1 hs]
    exact shortOption_spec h.toBase hn hcs hw'
  | nil =>
    have hg : p.currentArg.getD [] = [] := ht
    rw [hg]
    rw [if_neg (by decide)]
    rcases words_cases p with ⟨hws, hlt⟩ | ⟨w, ws, hws, hlt, hrd, hws', hmem⟩
    · rw [if_pos (by omega)]
      exact Or.inr (Or.inr (Or.inl ⟨p, rfl, h.toBase, rfl, Or.inl ⟨hws, hws⟩⟩))
    · rw [if_neg (by omega), hrd]
      simp only [ok_bind]
      rw [hws]
      have hb : Base p₀ ps { p with current := p.current + 1 } := h.toBase.skip hlt
      have hcs := hw' w hmem
      by_cases hdash : Dashed w
      · obtain ⟨s, rfl⟩ := hdash
        by_cases hdash' : Dashed s
        · obtain ⟨s, rfl⟩ := hdash'
          rw [parseWord_long, ← hws']
          exact longOption_spec hb hn hcs.tail.tail hw'
        · rw [parseWord_short _ hdash']
          cases s with
          | nil =>
            rcases shortOption_empty { p with current := p.current + 1 } with he | ⟨he, hd⟩
            rotate_left
            · exact Or.inr (Or.inr (Or.inr ⟨he, h.options ▸ hd⟩))
            refine Or.inr (Or.inl ⟨_, he, hb.failed (.unrecognizedShort 0), ?_, ?_⟩)
            · rintro ⟨q, t, w, h1, _⟩
              generalize hx : (([0x2D] : Str) :: ws) = words at h1
              cases h1 with
              | free w ws hd => cases hx; exact hd ⟨_, rfl⟩
              | long => cases hx
              | word => cases hx
            · rintro ⟨w, _, h1⟩
              rcases h1 with ⟨h1, _⟩ | ⟨t, h1, _⟩
              · exact nomatch h1
              · cases h1
          | cons c s =>
            have hcd : c ≠ 0x2D := fun hz => hdash' ⟨s, by rw [hz]⟩
            have := shortOption_spec (c := c) (cur := s) hb hn hcs.tail hw'
            rw [hws'] at this
            rcases this with ⟨q, p', h1, h2, h3, h4⟩ | ⟨p', h1, h2, h3, _⟩ | ⟨p', _, _, h3, _⟩ | h3
            · exact Or.inl ⟨q, p', h1, h2, .word c s ws q _ _ hcd h3, h4⟩
            · refine Or.inr (Or.inl ⟨p', h1, h2, ?_, ?_⟩)
              · rintro ⟨q, t, w, h4, h5⟩
                apply h3
                generalize hx : ((0x2D :: c :: s) : Str) :: ws = words at h4
                cases h4 with
                | free w ws hd => cases hx; exact absurd ⟨_, rfl⟩ hd
                | long => cases hx; exact absurd rfl hcd
                | word c' text' ws q t ws' hc' h' => cases hx; exact ⟨q, t, w, h', h5⟩
              · rintro ⟨w, _, h4⟩
                rcases h4 with ⟨h4, _⟩ | ⟨t, h4, _⟩
                · exact nomatch h4
                · cases h4; exact hcd rfl
            · exact nomatch h3
            · exact Or.inr (Or.inr (Or.inr h3))
      · have hcur : p.currentArg = none := by
          cases hc : p.currentArg with
          | none => rfl
          | some t =>
            rw [hc] at hg
            have ht' : t = [] := hg
            subst ht'
            exact absurd (h.ahead hc w ws hws) hdash
        rw [parseWord_free _ hdash (show Parser.currentArg { p with current := p.current + 1 } = none from hcur)]
        have hstop : ¬ ∃ b, ([] : Str) = [] ∧ Stop (w :: ws) b := by
          rintro ⟨b, _, h4⟩
          rcases h4 with ⟨h4, _⟩ | ⟨t, h4, _⟩
          · exact nomatch h4
          · cases h4; exact hdash ⟨_, rfl⟩
        by_cases hfr : p.free = true
        · rw [if_pos (show Parser.free { p with current := p.current + 1 } = true from hfr)]
          have he : effect p₀.options (effects p₀.options p₀.mem ps) ⟨none, some w⟩ = effects p₀.options p₀.mem ps := rfl
          refine Or.inl ⟨_, _, rfl, ⟨⟨hb.argv, hb.options, hb.free, hb.hasLog, hb.log, hb.error, ?_, hb.length, ?_, hb.le⟩, ?_, ?_, ?_⟩, ?_, ?_⟩
          · rw [effects_append, he]; exact hb.mem
          · intro j hj
            rw [hb.given j hj]
            constructor
            · rintro ⟨q, hq, hqj⟩; exact ⟨q, List.mem_append_left _ hq, hqj⟩
            · rintro ⟨q, hq, hqj⟩
              rcases List.mem_append.1 hq with hq | hq
              · exact ⟨q, hq, hqj⟩
              · rw [List.mem_singleton] at hq; subst hq; exact nomatch hqj
          · show CString p.text
            rw [ht]; exact fun h => nomatch h
          · show ∀ t, p.text ≠ 0x2D :: t
            rw [ht]; exact fun t h => nomatch h
          · intro hc; exact nomatch hcur.symm.trans hc
          · have ht' : Parser.text { p with current := p.current + 1 } = [] := ht
            rw [ht', hws']
            exact .free w ws hdash
          · refine ⟨fun i o hi => (nomatch hi), fun _ => h.free ▸ hfr, fun i o hi => nomatch hi⟩
        · rw [if_neg (show ¬ Parser.free { p with current := p.current + 1 } = true from hfr)]
          refine Or.inr (Or.inl ⟨_, rfl, hb.failed _, ?_, hstop⟩)
          rintro ⟨q, t, u, h1, h2⟩
          cases h1 with
          | free w ws hd => exact hfr (h.free ▸ h2.2.1 rfl)
          | long => exact hdash ⟨_, rfl⟩
          | word => exact hdash ⟨_, rfl⟩

end Tm.Cli
