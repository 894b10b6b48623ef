import Verif.Uni.BytesLemmas

/-! Properties of the conversion of bytes of any encoding to UTF-8 in a buffer: `tmu_utf8_convert_from_bytes`. -/

namespace Tm.Uni

open Tm.Num Tm.Str

/-- The name of the scheme in the API, without a byte order mark. -/
def Scheme.plain : Scheme → Encoding
  | .utf8 => .utf8 | .utf16be => .utf16be | .utf16le => .utf16le | .utf32be => .utf32be | .utf32le => .utf32le

/-- The name of the scheme in the API, with a byte order mark. -/
def Scheme.marked : Scheme → Encoding
  | .utf8 => .utf8bom | .utf16be => .utf16beBom | .utf16le => .utf16leBom | .utf32be => .utf32beBom | .utf32le => .utf32leBom

/-- What a caller may expect of the conversion of a text that consists of the given pieces: an error when there is something invalid and errors
are asked for; otherwise the text, with invalid pieces dropped or replaced and with a null terminator if asked for, when it fits,
and the exact size needed when it does not. The terminator is counted only in the latter case. The encoding that was found is reported,
and so is whether anything was invalid. -/
def Outcome (v : Validate) (rep : List Byte) (nul : Bool) (ps : List (Option Nat)) (enc : Encoding) (out : List Byte)
    (r : C (BytesResult × List Byte)) : Prop :=
  (v = .error ∧ none ∈ ps → ∃ size out', r = .ok (⟨size, .einval, enc, true⟩, out')) ∧
  (¬ (v = .error ∧ none ∈ ps) → ∀ text, text = render (if v = .replace then rep else []) ps → ∀ all, all = text ++ (if nul then [0] else []) →
    (all.length ≤ out.length → r = .ok (⟨text.length, .ok, enc, decide (none ∈ ps)⟩, splice out 0 all)) ∧
    (out.length < all.length → ∃ out', out'.length = out.length ∧ r = .ok (⟨all.length, .erange, enc, decide (none ∈ ps)⟩, out')))

/-- In UTF-16, a lead surrogate is followed by a trail surrogate, unless it is the last unit. There is no condition for the other schemes. -/
def Scheme.Paired : Scheme → List Byte → Prop
  | .utf16be, s => ∀ us, s = us.flatMap be16 → LeadsPaired us
  | .utf16le, s => ∀ us, s = us.flatMap le16 → LeadsPaired us
  | _, _ => True

theorem subst_eq (v : Validate) (rep : List Byte) : subst v rep = if v = .replace then rep else [] := by cases v <;> rfl

theorem terminator_eq (nul : Bool) : terminator utf8 nul = if nul then [0] else [] := by cases nul <;> rfl

theorem contains_none (ps : List (Option Nat)) : ps.contains none = decide (none ∈ ps) := by
  simp [List.contains_iff_mem]

/-- The stream of a conversion into a buffer, before anything was put out. -/
def fresh (out : List Byte) : Out := makeOut false out false 0 []

theorem fresh_wrote (out : List Byte) (enc : Encoding) : Wrote out [] false enc { fresh out with encoding := enc } := Wrote.start _ _ _ rfl

theorem fresh_wrote' (out : List Byte) : Wrote out [] false .unknown (fresh out) := Wrote.start _ _ _ rfl

/-- The way to read a scheme of 16 or 32 bit units. -/
structure Wide (sch : Scheme) (unit : Nat) (read : List Byte → C (Nat × List Byte)) : Prop where
  width : unit = sch.width
  run : ∀ s ps tail, sch.Text s ps → sch.Paired s → tail.length < unit → Run unit read (s ++ tail) ps tail

theorem wide16be : Wide .utf16be 2 (read16 u16be) := ⟨rfl, by
  rintro s ps tail ⟨us, rfl, h⟩ hp hl
  exact run16 reader16be h (hp us rfl) tail hl⟩

theorem wide16le : Wide .utf16le 2 (read16 u16le) := ⟨rfl, by
  rintro s ps tail ⟨us, rfl, h⟩ hp hl
  exact run16 reader16le h (hp us rfl) tail hl⟩

theorem wide32be : Wide .utf32be 4 u32be := ⟨rfl, by
  rintro s ps tail ⟨us, rfl, h⟩ hp hl
  exact run32 reader32be h tail hl⟩

theorem wide32le : Wide .utf32le 4 u32le := ⟨rfl, by
  rintro s ps tail ⟨us, rfl, h⟩ hp hl
  exact run32 reader32le h tail hl⟩

/-- The outcome that is left in the stream. -/
def Left (v : Validate) (rep : List Byte) (nul : Bool) (ps : List (Option Nat)) (enc : Encoding) (out : List Byte) (o : Out) : Prop :=
  (v = .error ∧ none ∈ ps → o.ec = .einval ∧ o.invalid = true ∧ o.encoding = enc) ∧
  (¬ (v = .error ∧ none ∈ ps) → Seen (render (subst v rep) ps) nul (ps.contains none) enc out o)

theorem left_outcome {v : Validate} {rep : List Byte} {nul : Bool} {ps : List (Option Nat)} {enc : Encoding} {out : List Byte} {o : Out}
    (h : Left v rep nul ps enc out o) :
    Outcome v rep nul ps enc out (.ok (⟨if o.ec = .erange then o.necessary else o.size, o.ec, o.encoding, o.invalid⟩, o.data)) := by
  refine ⟨fun hv => ?_, fun hv text ht all ha => ?_⟩
  · obtain ⟨h1, h2, h3⟩ := h.1 hv
    exact ⟨_, _, by rw [h1, h2, h3]⟩
  · obtain ⟨h1, h2, h3, h4, h5⟩ := h.2 hv
    rw [terminator_eq, subst_eq, ← ht, ← ha] at h4 h5
    rw [contains_none] at h2
    refine ⟨fun hl => ?_, fun hl => ⟨o.data, h3, ?_⟩⟩
    · obtain ⟨e1, e2, e3⟩ := h4 hl
      rw [h1, h2, e1, e2, e3, if_neg (by simp)]
    · obtain ⟨e1, e2⟩ := h5 hl
      rw [h1, h2, e1, e2, if_pos rfl]

theorem convertBytes_left {sch : Scheme} {unit : Nat} {read : List Byte → C (Nat × List Byte)} (hw : Wide sch unit read) {s : List Byte} {ps : List (Option Nat)}
    (ht : sch.Text s ps) (hp : sch.Paired s) {v : Validate} {rep : List Byte} (hm : ModeOk v rep) (nul : Bool) {enc : Encoding} {out : List Byte} {o : Out}
    (ho : Wrote out [] false enc o) : ∃ o', convertBytes unit read s v rep nul o = .ok o' ∧ Left v rep nul ps enc out o' := by
  have hr := hw.run s ps [] ht hp (by rw [hw.width]; cases sch <;> simp [Scheme.width])
  rw [List.append_nil] at hr
  obtain ⟨h1, _, h2⟩ := convertBytes_run hm nul hr ho
  by_cases hv : v = .error ∧ none ∈ ps
  · obtain ⟨o', e, h3, h4, h5, h6⟩ := h1 hv
    exact ⟨o', e, fun _ => ⟨h3, h4, h6⟩, fun h => absurd hv h⟩
  · obtain ⟨o', e, h3⟩ := h2 hv (Or.inl rfl)
    exact ⟨o', e, fun h => absurd h hv, fun _ => h3⟩

theorem convertCopy_skip {converted : Bool} {input : List Byte} {v : Validate} {rep : List Byte} {nul : Bool} {o : Out} (h : o.ec = .ok → converted = true) :
    convertCopy converted input v rep nul o = .ok o := by
  rw [convertCopy, if_neg]
  rintro ⟨h1, h2, _⟩
  rw [h h1] at h2
  simp at h2

/-- What follows the detection. -/
theorem finish_done {input : List Byte} {e : Encoding} {v : Validate} {rep : List Byte} {nul : Bool} {out : List Byte} {converted : Bool} {o : Out} {ps : List (Option Nat)}
    {enc : Encoding} (h1 : convertInternal input e v rep nul (fresh out) = .ok (converted, o)) (h2 : o.ec = .ok → converted = true) (h3 : Left v rep nul ps enc out o) :
    Outcome v rep nul ps enc out (convertFromBytes input e v rep nul out) := by
  have hr : convertFromBytes input e v rep nul out = .ok (⟨if o.ec = .erange then o.necessary else o.size, o.ec, o.encoding, o.invalid⟩, o.data) := by
    rw [convertFromBytes, show makeOut false out false 0 [] = fresh out from rfl, h1, ok_bind]
    dsimp only
    rw [convertCopy_skip h2, ok_bind]
  rw [hr]
  exact left_outcome h3

theorem hasBom_false {bom s : List Byte} (h : ¬ ∃ t, t ≠ [] ∧ s = bom ++ t) : hasBom bom s = false := by
  rw [hasBom]
  by_contra hc
  simp only [Bool.and_eq_false_iff, decide_eq_false_iff_not, not_or, not_not] at hc
  refine h ⟨s.drop bom.length, ?_, ?_⟩
  · intro h0
    have := congrArg List.length h0
    rw [List.length_drop, List.length_nil] at this; omega
  · conv_lhs => rw [← List.take_append_drop bom.length s, hc.2]

theorem hasBom_true {bom s : List Byte} (h : s ≠ []) : hasBom bom (bom ++ s) = true := by
  rw [hasBom]
  have := List.length_pos_of_ne_nil h
  simp; omega

/-- What happens to UTF-8. -/
theorem finish_utf8 {input : List Byte} {e : Encoding} {v : Validate} {rep : List Byte} (hm : ModeOk v rep) {nul : Bool} {out : List Byte} {s : List Byte}
    {ps : List (Option Nat)} {enc : Encoding} (hi : input ≠ []) (henc : enc = .utf8 ∨ enc = .utf8bom)
    (hs : s = if hasBom utf8Bom input then input.drop 3 else input)
    (h1 : convertInternal input e v rep nul (fresh out) = .ok (false, { fresh out with encoding := enc })) (hp : Pieces utf8 s ps) :
    Outcome v rep nul ps enc out (convertFromBytes input e v rep nul out) := by
  obtain ⟨qs, hq, h2, h3⟩ := copyLoop_pieces hm s.length s [] false _ (Nat.le_refl _) (fresh_wrote out enc)
  obtain rfl := pieces_unique form8 hp hq
  have hpos := List.length_pos_of_ne_nil hi
  have key : ∃ o, convertCopy false input v rep nul { fresh out with encoding := enc } = .ok o ∧ Left v rep nul ps enc out o := by
    rw [convertCopy, if_pos ⟨rfl, by simp, hpos⟩]
    dsimp only
    rw [show (decide (enc = .utf8) || decide (enc = .utf8bom)) = true by rcases henc with h | h <;> rw [h] <;> rfl, assert, if_pos rfl, ok_bind, ← hs]
    by_cases hv : v = .error ∧ none ∈ ps
    · obtain ⟨o', e1, h4, h5, h6⟩ := h2 hv
      refine ⟨o', ?_, fun _ => ⟨h4, h5, h6⟩, fun h => absurd hv h⟩
      rw [e1, ok_bind, terminate, if_neg (by rw [h4]; simp)]
    · obtain ⟨o', e1, w⟩ := h3 hv
      rw [List.nil_append, Bool.false_or] at w
      obtain ⟨o2, e2, h4⟩ := terminate_spec w nul
      exact ⟨o2, by rw [e1, ok_bind, e2], fun h => absurd h hv, fun _ => h4⟩
  obtain ⟨o, e1, h4⟩ := key
  have hr : convertFromBytes input e v rep nul out = .ok (⟨if o.ec = .erange then o.necessary else o.size, o.ec, o.encoding, o.invalid⟩, o.data) := by
    rw [convertFromBytes, show makeOut false out false 0 [] = fresh out from rfl, h1, ok_bind]
    dsimp only
    rw [e1, ok_bind]
  rw [hr]
  exact left_outcome h4

theorem convertInternal_start {input : List Byte} (hi : input ≠ []) {e : Encoding} {v : Validate} {rep : List Byte} (hm : ModeOk v rep) {nul : Bool} {o : Out} {r : C (Bool × Out)}
    (h : (match e with
    | .unknown => convertUnknown input v rep nul o
    | .utf8 => .ok (false, { o with encoding := if hasBom utf8Bom input then .utf8bom else .utf8 })
    | .utf8bom =>
      if hasBom utf8Bom input then .ok (false, { o with encoding := .utf8bom }) else .ok (false, { o with ec := .einval })
    | .utf32be => convertKnown utf32beBom 4 u32be .utf32be .utf32beBom false input v rep nul o
    | .utf32beBom => convertKnown utf32beBom 4 u32be .utf32be .utf32beBom true input v rep nul o
    | .utf32le => convertKnown utf32leBom 4 u32le .utf32le .utf32leBom false input v rep nul o
    | .utf32leBom => convertKnown utf32leBom 4 u32le .utf32le .utf32leBom true input v rep nul o
    | .utf16be => convertKnown utf16beBom 2 (read16 u16be) .utf16be .utf16beBom false input v rep nul o
    | .utf16beBom => convertKnown utf16beBom 2 (read16 u16be) .utf16be .utf16beBom true input v rep nul o
    | .utf16le => convertKnown utf16leBom 2 (read16 u16le) .utf16le .utf16leBom false input v rep nul o
    | .utf16leBom => convertKnown utf16leBom 2 (read16 u16le) .utf16le .utf16leBom true input v rep nul o) = r) : convertInternal input e v rep nul o = r := by
  have := List.length_pos_of_ne_nil hi
  unfold convertInternal
  rw [modeOk_assert' hm, ok_bind, if_neg (by omega)]
  exact h

theorem Left.encoding {v : Validate} {rep : List Byte} {nul : Bool} {ps : List (Option Nat)} {enc : Encoding} {out : List Byte} {o : Out}
    (h : Left v rep nul ps enc out o) (enc' : Encoding) : Left v rep nul ps enc' out { o with encoding := enc' } :=
  ⟨fun hv => ⟨(h.1 hv).1, (h.1 hv).2.1, rfl⟩, fun hv => ⟨rfl, (h.2 hv).2⟩⟩

theorem convertKnown_marked {sch : Scheme} {unit : Nat} {read : List Byte → C (Nat × List Byte)} (hw : Wide sch unit read) {bom s : List Byte} {ps : List (Option Nat)}
    (ht : sch.Text s ps) (hp : sch.Paired s) (hs : s ≠ []) {v : Validate} {rep : List Byte} (hm : ModeOk v rep) (nul : Bool) (plain withBom : Encoding) (expected : Bool) (out : List Byte) :
    ∃ b o, convertKnown bom unit read plain withBom expected (bom ++ s) v rep nul (fresh out) = .ok (b, o) ∧ (o.ec = .ok → b = true) ∧ Left v rep nul ps withBom out o := by
  obtain ⟨o', e1, h1⟩ := convertBytes_left hw ht hp hm nul (fresh_wrote' out)
  refine ⟨decide (o'.ec = .ok), _, ?_, ?_, h1.encoding withBom⟩
  · rw [convertKnown, if_pos (hasBom_true hs), List.drop_left, e1, ok_bind]
  · intro h; simpa using h

theorem convertKnown_plain {sch : Scheme} {unit : Nat} {read : List Byte → C (Nat × List Byte)} (hw : Wide sch unit read) {bom s : List Byte} {ps : List (Option Nat)}
    (ht : sch.Text s ps) (hp : sch.Paired s) (hs : ¬ ∃ t, t ≠ [] ∧ s = bom ++ t) {v : Validate} {rep : List Byte} (hm : ModeOk v rep) (nul : Bool) (plain withBom : Encoding) (out : List Byte) :
    ∃ b o, convertKnown bom unit read plain withBom false s v rep nul (fresh out) = .ok (b, o) ∧ (o.ec = .ok → b = true) ∧ Left v rep nul ps plain out o := by
  obtain ⟨o', e1, h1⟩ := convertBytes_left hw ht hp hm nul (fresh_wrote' out)
  refine ⟨decide (o'.ec = .ok), _, ?_, ?_, h1.encoding plain⟩
  · rw [convertKnown, hasBom_false hs, if_neg (by simp), if_neg (by simp), e1, ok_bind]
  · intro h; simpa using h

/-! ## C43 Byte order marks -/

/-- A byte order mark that is followed by something selects the encoding, whether the caller declared the encoding (with or without the mark) or left
it open, and it is not part of the output: the output is that of the text after the mark.
Missing: input that consists of the mark alone, see `C43_not_alone`; UTF-16 that starts with U+0000 and has its encoding detected, see
`C43_not_utf16`; UTF-16 with a lone lead surrogate before its end, see `C62_not_lone_lead`. -/
theorem C43_mark_partial (sch : Scheme) (e : Encoding) (he : e = sch.plain ∨ e = sch.marked ∨ e = .unknown) (s : List Byte) (ps : List (Option Nat)) (ht : sch.Text s ps)
    (hs : s ≠ []) (hp : sch.Paired s) (hu : e = .unknown → sch = .utf16le → ¬ ∃ t, t ≠ [] ∧ s = 0 :: 0 :: t)
    (v : Validate) (rep : List Byte) (hm : v = .replace → rep ≠ []) (nul : Bool) (out : List Byte) :
    Outcome v rep nul ps sch.marked out (convertFromBytes (sch.mark ++ s) e v rep nul out) := by
  have hi : sch.mark ++ s ≠ [] := by simp [hs]
  have no3 : ∀ (a b : Byte) (l t : List Byte), a ≠ b → ∀ x, a :: l ≠ b :: (t ++ x) := by
    intro a b l t h x e; injection e with e _; exact h e
  cases sch with
  | utf8 =>
    have hb : hasBom utf8Bom (Scheme.utf8.mark ++ s) = true := hasBom_true hs
    refine finish_utf8 hm hi (Or.inr rfl) (s := s) ?_ ?_ ht
    · rw [if_pos hb]; rfl
    · refine convertInternal_start hi hm ?_
      rcases he with rfl | rfl | rfl
      · simp only [Scheme.plain, hb, if_true, Scheme.marked]
      · simp only [hb, if_true, Scheme.marked]
      · simp only [convertUnknown, hb, if_true, Scheme.marked]
  | utf16be =>
    rcases he with rfl | rfl | rfl
    · obtain ⟨b, o, e1, h1, h2⟩ := convertKnown_marked wide16be (bom := utf16beBom) ht hp hs hm nul .utf16be .utf16beBom false out
      exact finish_done (convertInternal_start hi hm e1) h1 h2
    · obtain ⟨b, o, e1, h1, h2⟩ := convertKnown_marked wide16be (bom := utf16beBom) ht hp hs hm nul .utf16be .utf16beBom true out
      exact finish_done (convertInternal_start hi hm e1) h1 h2
    · obtain ⟨o', e1, h1⟩ := convertBytes_left wide16be ht hp hm nul (fresh_wrote out .utf16beBom)
      refine finish_done (converted := true) (convertInternal_start hi hm ?_) (fun _ => rfl) h1
      have b1 : hasBom utf8Bom (Scheme.utf16be.mark ++ s) = false := hasBom_false (by rintro ⟨t, _, h⟩; exact no3 _ _ _ _ (by decide) _ h)
      have b2 : hasBom utf32beBom (Scheme.utf16be.mark ++ s) = false := hasBom_false (by rintro ⟨t, _, h⟩; exact no3 _ _ _ _ (by decide) _ h)
      have b3 : hasBom utf32leBom (Scheme.utf16be.mark ++ s) = false := hasBom_false (by rintro ⟨t, _, h⟩; exact no3 _ _ _ _ (by decide) _ h)
      have b4 : hasBom utf16beBom (Scheme.utf16be.mark ++ s) = true := hasBom_true hs
      simp only [convertUnknown, b1, b2, b3, b4, if_true, Bool.false_eq_true, if_false]
      rw [show (Scheme.utf16be.mark ++ s).drop 2 = s from rfl, e1, ok_bind]
  | utf16le =>
    rcases he with rfl | rfl | rfl
    · obtain ⟨b, o, e1, h1, h2⟩ := convertKnown_marked wide16le (bom := utf16leBom) ht hp hs hm nul .utf16le .utf16leBom false out
      exact finish_done (convertInternal_start hi hm e1) h1 h2
    · obtain ⟨b, o, e1, h1, h2⟩ := convertKnown_marked wide16le (bom := utf16leBom) ht hp hs hm nul .utf16le .utf16leBom true out
      exact finish_done (convertInternal_start hi hm e1) h1 h2
    · obtain ⟨o', e1, h1⟩ := convertBytes_left wide16le ht hp hm nul (fresh_wrote out .utf16leBom)
      refine finish_done (converted := true) (convertInternal_start hi hm ?_) (fun _ => rfl) h1
      have b1 : hasBom utf8Bom (Scheme.utf16le.mark ++ s) = false := hasBom_false (by rintro ⟨t, _, h⟩; exact no3 _ _ _ _ (by decide) _ h)
      have b2 : hasBom utf32beBom (Scheme.utf16le.mark ++ s) = false := hasBom_false (by rintro ⟨t, _, h⟩; exact no3 _ _ _ _ (by decide) _ h)
      have b3 : hasBom utf32leBom (Scheme.utf16le.mark ++ s) = false := hasBom_false (by
        rintro ⟨t, h0, h⟩
        refine hu rfl rfl ⟨t, h0, ?_⟩
        injection h with _ h; injection h)
      have b4 : hasBom utf16beBom (Scheme.utf16le.mark ++ s) = false := hasBom_false (by rintro ⟨t, _, h⟩; exact no3 _ _ _ _ (by decide) _ h)
      have b5 : hasBom utf16leBom (Scheme.utf16le.mark ++ s) = true := hasBom_true hs
      simp only [convertUnknown, b1, b2, b3, b4, b5, if_true, Bool.false_eq_true, if_false]
      rw [show (Scheme.utf16le.mark ++ s).drop 2 = s from rfl, e1, ok_bind]
  | utf32be =>
    rcases he with rfl | rfl | rfl
    · obtain ⟨b, o, e1, h1, h2⟩ := convertKnown_marked wide32be (bom := utf32beBom) ht hp hs hm nul .utf32be .utf32beBom false out
      exact finish_done (convertInternal_start hi hm e1) h1 h2
    · obtain ⟨b, o, e1, h1, h2⟩ := convertKnown_marked wide32be (bom := utf32beBom) ht hp hs hm nul .utf32be .utf32beBom true out
      exact finish_done (convertInternal_start hi hm e1) h1 h2
    · obtain ⟨o', e1, h1⟩ := convertBytes_left wide32be ht hp hm nul (fresh_wrote out .utf32beBom)
      refine finish_done (converted := true) (convertInternal_start hi hm ?_) (fun _ => rfl) h1
      have b1 : hasBom utf8Bom (Scheme.utf32be.mark ++ s) = false := hasBom_false (by rintro ⟨t, _, h⟩; exact no3 _ _ _ _ (by decide) _ h)
      have b2 : hasBom utf32beBom (Scheme.utf32be.mark ++ s) = true := hasBom_true hs
      simp only [convertUnknown, b1, b2, if_true, Bool.false_eq_true, if_false]
      rw [show (Scheme.utf32be.mark ++ s).drop 4 = s from rfl, e1, ok_bind]
  | utf32le =>
    rcases he with rfl | rfl | rfl
    · obtain ⟨b, o, e1, h1, h2⟩ := convertKnown_marked wide32le (bom := utf32leBom) ht hp hs hm nul .utf32le .utf32leBom false out
      exact finish_done (convertInternal_start hi hm e1) h1 h2
    · obtain ⟨b, o, e1, h1, h2⟩ := convertKnown_marked wide32le (bom := utf32leBom) ht hp hs hm nul .utf32le .utf32leBom true out
      exact finish_done (convertInternal_start hi hm e1) h1 h2
    · obtain ⟨o', e1, h1⟩ := convertBytes_left wide32le ht hp hm nul (fresh_wrote out .utf32leBom)
      refine finish_done (converted := true) (convertInternal_start hi hm ?_) (fun _ => rfl) h1
      have b1 : hasBom utf8Bom (Scheme.utf32le.mark ++ s) = false := hasBom_false (by rintro ⟨t, _, h⟩; exact no3 _ _ _ _ (by decide) _ h)
      have b2 : hasBom utf32beBom (Scheme.utf32le.mark ++ s) = false := hasBom_false (by rintro ⟨t, _, h⟩; exact no3 _ _ _ _ (by decide) _ h)
      have b3 : hasBom utf32leBom (Scheme.utf32le.mark ++ s) = true := hasBom_true hs
      simp only [convertUnknown, b1, b2, b3, if_true, Bool.false_eq_true, if_false]
      rw [show (Scheme.utf32le.mark ++ s).drop 4 = s from rfl, e1, ok_bind]

/-- A mark, the euro sign as UTF-16, and a buffer with room for a terminator. -/
example : Scheme.utf16be.Text [0x20, 0xAC] [some 0x20AC] :=
  ⟨[0x20AC], rfl, .char (c := 0x20AC) (t := []) (by decide) .nil⟩
example : convertFromBytes ([0xFE, 0xFF] ++ [0x20, 0xAC]) .unknown .error [] true [9, 9, 9, 9, 9] =
    .ok (⟨3, .ok, .utf16beBom, false⟩, [0xE2, 0x82, 0xAC, 0, 9]) := by decide +kernel

/-- When the caller declares an encoding with a byte order mark, input without the mark is refused. -/
theorem C43_missing (sch : Scheme) (s : List Byte) (h0 : s ≠ []) (hs : ¬ ∃ t, s = sch.mark ++ t) (v : Validate) (rep : List Byte) (hm : v = .replace → rep ≠ [])
    (nul : Bool) (out : List Byte) : ∃ size enc inv out', convertFromBytes s sch.marked v rep nul out = .ok (⟨size, .einval, enc, inv⟩, out') := by
  have hb : ∀ bom, bom = sch.mark → hasBom bom s = false := by
    rintro _ rfl
    exact hasBom_false (by rintro ⟨t, _, h⟩; exact hs ⟨t, h⟩)
  have key : convertInternal s sch.marked v rep nul (fresh out) = .ok (false, { fresh out with ec := .einval }) := by
    refine convertInternal_start h0 hm ?_
    cases sch <;> simp only [Scheme.marked, convertKnown]
    · rw [hb utf8Bom rfl, if_neg (by simp)]
    · rw [hb utf16beBom rfl, if_neg (by simp), if_pos trivial]
    · rw [hb utf16leBom rfl, if_neg (by simp), if_pos trivial]
    · rw [hb utf32beBom rfl, if_neg (by simp), if_pos trivial]
    · rw [hb utf32leBom rfl, if_neg (by simp), if_pos trivial]
  refine ⟨0, .unknown, false, out, ?_⟩
  rw [convertFromBytes, show makeOut false out false 0 [] = fresh out from rfl, key, ok_bind]
  dsimp only
  rw [convertCopy, if_neg (by simp), ok_bind]
  rfl

example : (¬ ∃ t, ([0x41] : List Byte) = Scheme.utf8.mark ++ t) := by
  rintro ⟨t, h⟩
  have := congrArg List.head? h
  revert this
  exact (by decide : ¬ (some (0x41 : Byte) = some 0xEF))

/-- The mark alone: it is put out as text when the encoding is UTF-8, -/
theorem C43_not_alone : convertFromBytes Scheme.utf8.mark .unknown .error [] false [9, 9, 9, 9] = .ok (⟨3, .ok, .utf8, false⟩, [0xEF, 0xBB, 0xBF, 9]) := by
  decide +kernel

/-- it is not recognised when the encoding is left open, for the other schemes, -/
theorem C43_not_alone_wide : convertFromBytes Scheme.utf16le.mark .unknown .error [] false [9, 9, 9, 9] = .ok (⟨0, .einval, .utf8, true⟩, [9, 9, 9, 9]) := by
  decide +kernel

/-- and it is refused even when it was declared. -/
theorem C43_not_alone_declared (sch : Scheme) : ∃ r, convertFromBytes sch.mark sch.marked .skip [] false [] = .ok r ∧ r.1.ec = .einval := by
  cases sch <;> exact ⟨_, rfl, rfl⟩

/-- UTF-16 with a mark, U+0000 and more text: detected as UTF-32, and not converted to the text. -/
theorem C43_not_utf16 : Scheme.utf16le.Text [0, 0, 0x41, 0, 0x42, 0] [some 0, some 0x41, some 0x42] ∧
    convertFromBytes (Scheme.utf16le.mark ++ [0, 0, 0x41, 0, 0x42, 0]) .unknown .skip [] false [9, 9, 9, 9] = .ok (⟨0, .ok, .utf32leBom, true⟩, [9, 9, 9, 9]) := by
  refine ⟨⟨[0, 0x41, 0x42], rfl, .char (c := 0) (by decide) (.char (c := 0x41) (by decide) (.char (c := 0x42) (t := []) (by decide) .nil))⟩, by decide +kernel⟩

/-! ## C62 Conversion of bytes of a declared encoding -/

/-- Bytes of a declared encoding, without a mark, are converted to the UTF-8 encoding of the text, invalid units being dropped, replaced or
refused as asked for. Missing: UTF-16 with a lone lead surrogate before its end, see `C62_not_lone_lead`. -/
theorem C62_declared_partial (sch : Scheme) (s : List Byte) (ps : List (Option Nat)) (ht : sch.Text s ps) (h0 : s ≠ []) (hs : ¬ ∃ t, t ≠ [] ∧ s = sch.mark ++ t) (hp : sch.Paired s)
    (v : Validate) (rep : List Byte) (hm : v = .replace → rep ≠ []) (nul : Bool) (out : List Byte) :
    Outcome v rep nul ps sch.plain out (convertFromBytes s sch.plain v rep nul out) := by
  cases sch with
  | utf8 =>
    have hb : hasBom utf8Bom s = false := hasBom_false hs
    refine finish_utf8 hm h0 (Or.inl rfl) (s := s) ?_ ?_ ht
    · rw [if_neg (by simp [hb])]
    · exact convertInternal_start h0 hm (by simp only [Scheme.plain, hb]; rfl)
  | utf16be =>
    obtain ⟨b, o, e1, h1, h2⟩ := convertKnown_plain wide16be (bom := utf16beBom) ht hp hs hm nul .utf16be .utf16beBom out
    exact finish_done (convertInternal_start h0 hm e1) h1 h2
  | utf16le =>
    obtain ⟨b, o, e1, h1, h2⟩ := convertKnown_plain wide16le (bom := utf16leBom) ht hp hs hm nul .utf16le .utf16leBom out
    exact finish_done (convertInternal_start h0 hm e1) h1 h2
  | utf32be =>
    obtain ⟨b, o, e1, h1, h2⟩ := convertKnown_plain wide32be (bom := utf32beBom) ht hp hs hm nul .utf32be .utf32beBom out
    exact finish_done (convertInternal_start h0 hm e1) h1 h2
  | utf32le =>
    obtain ⟨b, o, e1, h1, h2⟩ := convertKnown_plain wide32le (bom := utf32leBom) ht hp hs hm nul .utf32le .utf32leBom out
    exact finish_done (convertInternal_start h0 hm e1) h1 h2

/-- A stray byte between two characters is replaced; one more cell is needed than there is. -/
example : Scheme.utf8.Text [0x41, 0xFF, 0xC3, 0xA9] [some 0x41, none, some 0xE9] :=
  .char (c := 0x41) (by decide) (.bad (by
    rintro ⟨c, u, hc, h⟩
    have h1 := starts8_cases hc h
    revert h1; simp) (.char (c := 0xE9) (t := []) (by decide) .nil))
example : convertFromBytes [0x41, 0xFF, 0xC3, 0xA9] .utf8 .replace [0x3F] true [9, 9, 9, 9, 9] = .ok (⟨4, .ok, .utf8, true⟩, [0x41, 0x3F, 0xC3, 0xA9, 0]) ∧
    convertFromBytes [0x41, 0xFF, 0xC3, 0xA9] .utf8 .replace [0x3F] true [9, 9, 9, 9] = .ok (⟨5, .erange, .utf8, true⟩, [0x41, 0x3F, 0xC3, 0xA9]) := by decide +kernel

/-- Bytes of an undeclared encoding that do not start with a mark are taken for UTF-8. -/
theorem C62_undeclared (s : List Byte) (ps : List (Option Nat)) (ht : Scheme.utf8.Text s ps) (h0 : s ≠ []) (hs : ∀ sch : Scheme, ¬ ∃ t, t ≠ [] ∧ s = sch.mark ++ t)
    (v : Validate) (rep : List Byte) (hm : v = .replace → rep ≠ []) (nul : Bool) (out : List Byte) :
    Outcome v rep nul ps .utf8 out (convertFromBytes s .unknown v rep nul out) := by
  have hb : hasBom utf8Bom s = false := hasBom_false (hs .utf8)
  refine finish_utf8 hm h0 (Or.inl rfl) (s := s) ?_ ?_ ht
  · rw [if_neg (by simp [hb])]
  · refine convertInternal_start h0 hm ?_
    simp only [convertUnknown, hb, show hasBom utf32beBom s = false from hasBom_false (hs .utf32be), show hasBom utf32leBom s = false from hasBom_false (hs .utf32le),
      show hasBom utf16beBom s = false from hasBom_false (hs .utf16be), show hasBom utf16leBom s = false from hasBom_false (hs .utf16le), Bool.false_eq_true, if_false]

/-- Every byte string is a text in UTF-8, so that the theorems above apply to all of them, and there is only one way to read it. -/
theorem C62_every_string (s : List Byte) : ∃ ps, Scheme.utf8.Text s ps ∧ ∀ qs, Scheme.utf8.Text s qs → qs = ps := by
  obtain ⟨ps, h⟩ := pieces_total form8 s.length s (Nat.le_refl _)
  exact ⟨ps, h, fun qs hq => (pieces_unique form8 h hq).symm⟩

/-- No input: nothing is converted, and only a terminator is put out. -/
theorem C62_empty (e : Encoding) (v : Validate) (rep : List Byte) (hm : v = .replace → rep ≠ []) (nul : Bool) (out : List Byte) :
    Outcome v rep nul [] .unknown out (convertFromBytes [] e v rep nul out) := by
  have hw := fresh_wrote' out
  have key : ∃ o, convertInternal [] e v rep nul (fresh out) = .ok (true, o) ∧ Seen [] nul false .unknown out o := by
    unfold convertInternal
    rw [modeOk_assert' hm, ok_bind, if_pos List.length_nil]
    cases nul with
    | false =>
      obtain ⟨o, e1, h1⟩ := terminate_spec hw false
      rw [terminate, if_neg (by simp)] at e1
      injection e1 with e1; subst e1
      exact ⟨_, rfl, h1⟩
    | true =>
      obtain ⟨o, e1, h1⟩ := terminate_spec hw true
      rw [terminate, if_pos ⟨rfl, Or.inl rfl⟩] at e1
      obtain ⟨o1, e2, w2⟩ := hw.codepoint (c := 0) (by decide)
      rw [e2, ok_bind] at e1 ⊢
      injection e1 with e1
      exact ⟨o, by rw [← e1]; rfl, h1⟩
  obtain ⟨o, e1, h1⟩ := key
  refine finish_done e1 (fun _ => rfl) ⟨fun h => by simp at h, fun _ => h1⟩

theorem convertKnown_tail {sch : Scheme} {unit : Nat} {read : List Byte → C (Nat × List Byte)} (hw : Wide sch unit read) {bom s tail : List Byte} {ps : List (Option Nat)}
    (ht : sch.Text s ps) (hp : sch.Paired s) (h1 : tail ≠ []) (h2 : tail.length < sch.width) (hs : ¬ ∃ t, t ≠ [] ∧ s ++ tail = bom ++ t) {v : Validate} {rep : List Byte}
    (hm : ModeOk v rep) (nul : Bool) (plain withBom : Encoding) (out : List Byte) (hf : (render (if v = .replace then rep else []) ps).length ≤ out.length) :
    ∃ o, convertKnown bom unit read plain withBom false (s ++ tail) v rep nul (fresh out) = .ok (false, o) ∧ o.ec = .einval ∧ o.encoding = plain := by
  have hrun := hw.run s ps tail ht hp (by rw [hw.width]; exact h2)
  obtain ⟨k1, k2, _⟩ := convertBytes_run (v := v) (rep := rep) hm nul hrun (fresh_wrote' out)
  have key : ∃ o, convertBytes unit read (s ++ tail) v rep nul (fresh out) = .ok o ∧ o.ec = .einval := by
    by_cases hv : v = .error ∧ none ∈ ps
    · obtain ⟨o, e1, h, _⟩ := k1 hv; exact ⟨o, e1, h⟩
    · obtain ⟨o, e1, h, _⟩ := k2 hv h1 (by rw [subst_eq]; exact hf); exact ⟨o, e1, h⟩
  obtain ⟨o, e1, he⟩ := key
  refine ⟨{ o with encoding := plain }, ?_, he, rfl⟩
  rw [convertKnown, hasBom_false hs, if_neg (by simp), if_neg (by simp), e1, ok_bind, he]
  rfl

/-- Trailing bytes that do not make up a unit are an error, as long as what is before them fits into the buffer.
Missing: the same when it does not fit, see `C62_not_incomplete`, and UTF-16 with a lone lead surrogate before its end. -/
theorem C62_incomplete_partial (sch : Scheme) (s : List Byte) (ps : List (Option Nat)) (ht : sch.Text s ps) (hp : sch.Paired s) (tail : List Byte) (h1 : tail ≠ [])
    (h2 : tail.length < sch.width) (hs : ¬ ∃ t, t ≠ [] ∧ s ++ tail = sch.mark ++ t) (v : Validate) (rep : List Byte) (hm : v = .replace → rep ≠ []) (nul : Bool) (out : List Byte)
    (hf : (render (if v = .replace then rep else []) ps).length ≤ out.length) :
    ∃ size inv out', convertFromBytes (s ++ tail) sch.plain v rep nul out = .ok (⟨size, .einval, sch.plain, inv⟩, out') := by
  have key : ∃ o, convertInternal (s ++ tail) sch.plain v rep nul (fresh out) = .ok (false, o) ∧ o.ec = .einval ∧ o.encoding = sch.plain := by
    have hi : s ++ tail ≠ [] := by simp [h1]
    cases sch with
    | utf8 => exact absurd (List.length_pos_of_ne_nil h1) (by simp [Scheme.width] at h2; simp [h2])
    | utf16be =>
      obtain ⟨o, e1, h3⟩ := convertKnown_tail wide16be (bom := utf16beBom) ht hp h1 h2 hs hm nul .utf16be .utf16beBom out hf
      exact ⟨o, convertInternal_start hi hm e1, h3⟩
    | utf16le =>
      obtain ⟨o, e1, h3⟩ := convertKnown_tail wide16le (bom := utf16leBom) ht hp h1 h2 hs hm nul .utf16le .utf16leBom out hf
      exact ⟨o, convertInternal_start hi hm e1, h3⟩
    | utf32be =>
      obtain ⟨o, e1, h3⟩ := convertKnown_tail wide32be (bom := utf32beBom) ht hp h1 h2 hs hm nul .utf32be .utf32beBom out hf
      exact ⟨o, convertInternal_start hi hm e1, h3⟩
    | utf32le =>
      obtain ⟨o, e1, h3⟩ := convertKnown_tail wide32le (bom := utf32leBom) ht hp h1 h2 hs hm nul .utf32le .utf32leBom out hf
      exact ⟨o, convertInternal_start hi hm e1, h3⟩
  obtain ⟨o, e1, h3, h4⟩ := key
  refine ⟨o.size, o.invalid, o.data, ?_⟩
  rw [convertFromBytes, show makeOut false out false 0 [] = fresh out from rfl, e1, ok_bind]
  dsimp only
  rw [convertCopy, if_neg (by simp [h3]), ok_bind, h3, h4]
  rfl

example : convertFromBytes ([0x41, 0] ++ [0x42]) .utf16le .skip [] false [9, 9] = .ok (⟨0, .einval, .utf16le, false⟩, []) := by decide +kernel

/-- A lone lead surrogate makes the unit after it disappear too: the letter `A` is lost. -/
theorem C62_not_lone_lead : Scheme.utf16be.Text [0xD8, 0x00, 0x00, 0x41] [none, some 0x41] ∧
    convertFromBytes [0xD8, 0x00, 0x00, 0x41] .utf16be .skip [] false [9, 9] = .ok (⟨0, .ok, .utf16be, true⟩, [9, 9]) := by
  refine ⟨⟨[0xD800, 0x41], rfl, .bad ?_ (.char (c := 0x41) (t := []) (by decide) .nil)⟩, by decide +kernel⟩
  rintro ⟨c, u, hc, h⟩
  rcases starts16_cases hc h with h | ⟨b, u, h1, h2⟩
  · revert h; decide
  · injection h1 with h1 _
    subst h1
    revert h2; decide

/-- Trailing bytes are not noticed when the buffer is too small: the reported size suffices for an attempt that fails. -/
theorem C62_not_incomplete : convertFromBytes [0x00, 0x00, 0x00, 0x41, 0x00] .utf32be .error [] false [] = .ok (⟨1, .erange, .utf32be, false⟩, []) ∧
    (∃ size inv out', convertFromBytes [0x00, 0x00, 0x00, 0x41, 0x00] .utf32be .error [] false [9] = .ok (⟨size, .einval, .utf32be, inv⟩, out')) :=
  ⟨by decide +kernel, _, _, _, rfl⟩

end Tm.Uni
