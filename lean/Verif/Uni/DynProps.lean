import Verif.Uni.DynLemmas

/-! Properties of the conversion of bytes into memory that is allocated: `tmu_utf8_convert_from_bytes_dynamic`, `tmu_utf8_from_utf16_dynamic_ex`. -/

namespace Tm.Uni

open Tm.Num Tm.Str

/-- What a caller may expect of a conversion that allocates memory, for each outcome of the allocations: the text, with a terminator if asked for;
or an error and no contents, when there is something invalid and errors are asked for, or when an allocation failed. The input is left alone. -/
def DynOutcome (v : Validate) (rep : List Byte) (nul : Bool) (ps : List (Option Nat)) (enc : Encoding) (allocs : List Bool) (input : Contents) (r : C (DynResult × Input)) : Prop :=
  ∃ res, r = .ok (res, .kept input) ∧ res.encoding = enc ∧
    ((¬ (v = .error ∧ none ∈ ps) ∧ res.ec = .ok ∧ res.invalid = decide (none ∈ ps) ∧
        res.contents.size = (render (if v = .replace then rep else []) ps).length ∧
        ∃ rest, res.contents.data = render (if v = .replace then rep else []) ps ++ (if nul then [0] else []) ++ rest) ∨
      (v = .error ∧ none ∈ ps ∧ res.ec = .einval ∧ res.invalid = true ∧ res.contents = ⟨true, [], 0⟩) ∨
      (false ∈ allocs ∧ res.ec = .enomem ∧ res.contents = ⟨true, [], 0⟩))

theorem take_prefix {α : Type} {l t : List α} (h : l.take t.length = t) : ∃ rest, l = t ++ rest :=
  ⟨l.drop t.length, by conv_lhs => rw [← List.take_append_drop t.length l, h]⟩

theorem start_grew (junk : Byte) (allocs : List Bool) (enc : Encoding) : Grew allocs [] false enc { makeOut true [] true junk allocs with encoding := enc } :=
  ⟨rfl, rfl, rfl, rfl, rfl, by simp, by simp, fun h => by simp [makeOut] at h, fun _ => rfl, fun _ h => h⟩

theorem selected_outcome {sch : Scheme} (hsch : sch ≠ .utf8) {e enc : Encoding} {b s : List Byte} (hsel : Selected b e sch s enc) {ps : List (Option Nat)} (ht : sch.Text s ps) (hp : sch.Paired s)
    (v : Validate) (rep : List Byte) (hm : v = .replace → rep ≠ []) (nul : Bool) (input : Contents) (hin : input.size ≤ input.data.length) (hb : input.data.take input.size = b)
    (junk : Byte) (allocs : List Bool) : DynOutcome v rep nul ps enc allocs input (convertDynamic input e v rep nul junk allocs) := by
  have hw := wideOf hsch
  have hr := hw.run s ps [] ht hp (by cases sch <;> simp [Scheme.width])
  rw [List.append_nil] at hr
  obtain ⟨o1, f, g, hf, ho, heq⟩ := hsel v rep nul (makeOut true [] true junk allocs) hm
  have key : ∃ enc' o', Grew allocs [] false enc' o1 ∧ o1.data = [] ∧ convertBytes sch.width (readOf sch) s v rep nul o1 = .ok o' ∧
      (Failed allocs enc (g o') ∨ (v = .error ∧ none ∈ ps ∧ (g o').ec = .einval ∧ (g o').null = true ∧ (g o').data = [] ∧ (g o').size = 0 ∧ (g o').encoding = enc ∧ (g o').invalid = true) ∨
        (¬ (v = .error ∧ none ∈ ps) ∧ Done (render (subst v rep) ps) nul (ps.contains none) enc (g o'))) ∧ (o'.ec = .ok → f o' = true) ∧ (g o').ec = o'.ec := by
    rcases ho with ⟨rfl, rfl⟩ | ⟨rfl, rfl⟩
    · have hg : Grew allocs [] false .unknown (makeOut true [] true junk allocs) := start_grew junk allocs .unknown
      obtain ⟨o', e1, h1⟩ := convertBytes_grew hm nul hr hg rfl
      refine ⟨.unknown, o', hg, rfl, e1, ?_, hf o', rfl⟩
      rcases h1 with h | ⟨h1, h2, h3, h4, h5, h6, h7, h8⟩ | ⟨h1, h2, h3, h4, h5, h6⟩
      · exact Or.inl ⟨h.ec, h.null, h.data, h.size, rfl, h.why⟩
      · exact Or.inr (Or.inl ⟨h1, h2, h3, h4, h5, h6, rfl, h8⟩)
      · exact Or.inr (Or.inr ⟨h1, h2, h3, rfl, h5, h6⟩)
    · have hg := start_grew junk allocs enc
      obtain ⟨o', e1, h1⟩ := convertBytes_grew hm nul hr hg rfl
      exact ⟨enc, o', hg, rfl, e1, h1, hf o', rfl⟩
  obtain ⟨enc', o', _, _, e1, h1, hfo, hec⟩ := key
  rw [e1, ok_bind] at heq
  rw [convertDynamic, show decide (input.size ≤ input.data.length) = true by simpa using hin, assert, if_pos rfl, ok_bind, hb, heq, ok_bind]
  dsimp only
  rcases h1 with h | ⟨h1, h2, h3, h4, h5, h6, h7, h8⟩ | ⟨h1, h2, h3, h4, h5, h6, h7⟩
  · rw [if_neg (by rw [h.ec]; simp), h.null, h.size, h.data, h.ec]
    exact ⟨_, rfl, h.enc, Or.inr (Or.inr ⟨h.why, rfl, rfl⟩)⟩
  · rw [if_neg (by rw [h3]; simp), h4, h6, h5, h3]
    exact ⟨_, rfl, h7, Or.inr (Or.inl ⟨h1, h2, rfl, h8, rfl⟩)⟩
  · rw [if_pos h2, hfo (hec ▸ h2), if_neg (by simp), h2]
    refine ⟨_, rfl, h4, Or.inl ⟨h1, rfl, ?_, ?_, ?_⟩⟩
    · show (g o').invalid = _
      rw [h3, contains_none]
    · show (g o').size = _
      rw [h5, subst_eq]
    · rw [terminator_eq, subst_eq] at h7
      exact take_prefix h7

/-! ## C63 Conversion into allocated memory -/

/-- UTF-16 and UTF-32 after a byte order mark: the text is put into new memory, for every way the allocations may turn out.
Missing: as for `C43_mark_partial`. -/
theorem C63_mark_partial (sch : Scheme) (hsch : sch ≠ .utf8) (e : Encoding) (he : e = sch.plain ∨ e = sch.marked ∨ e = .unknown) (s : List Byte) (ps : List (Option Nat)) (ht : sch.Text s ps)
    (hs : s ≠ []) (hp : sch.Paired s) (hu : e = .unknown → sch = .utf16le → ¬ ∃ t, t ≠ [] ∧ s = 0 :: 0 :: t)
    (v : Validate) (rep : List Byte) (hm : v = .replace → rep ≠ []) (nul : Bool) (spare : List Byte) (junk : Byte) (allocs : List Bool) :
    DynOutcome v rep nul ps sch.marked allocs ⟨false, sch.mark ++ s ++ spare, (sch.mark ++ s).length⟩
      (convertDynamic ⟨false, sch.mark ++ s ++ spare, (sch.mark ++ s).length⟩ e v rep nul junk allocs) :=
  selected_outcome hsch (selected_marked hsch he hs hu) ht hp v rep hm nul _ (by simp) (by dsimp only; rw [List.take_left' rfl]) junk allocs

/-- UTF-16 and UTF-32 of a declared encoding, without a mark. Missing: as for `C62_declared_partial`. -/
theorem C63_declared_partial (sch : Scheme) (hsch : sch ≠ .utf8) (s : List Byte) (ps : List (Option Nat)) (ht : sch.Text s ps) (h0 : s ≠ []) (hs : ¬ ∃ t, t ≠ [] ∧ s = sch.mark ++ t) (hp : sch.Paired s)
    (v : Validate) (rep : List Byte) (hm : v = .replace → rep ≠ []) (nul : Bool) (spare : List Byte) (junk : Byte) (allocs : List Bool) :
    DynOutcome v rep nul ps sch.plain allocs ⟨false, s ++ spare, s.length⟩ (convertDynamic ⟨false, s ++ spare, s.length⟩ sch.plain v rep nul junk allocs) :=
  selected_outcome hsch (selected_plain hsch h0 hs) ht hp v rep hm nul _ (by simp) (by dsimp only; rw [List.take_left' rfl]) junk allocs

/-- The letter `A` in UTF-16; the second allocation, for the terminator, is not needed. -/
example : convertDynamic ⟨false, [0x41, 0], 2⟩ .utf16le .error [] true 7 [true, false] = .ok (⟨⟨false, [0x41, 0, 7], 1⟩, .ok, .utf16le, false⟩, .kept ⟨false, [0x41, 0], 2⟩) := by decide +kernel
example : convertDynamic ⟨false, [0x41, 0], 2⟩ .utf16le .error [] true 7 [false] = .ok (⟨⟨true, [], 0⟩, .enomem, .utf16le, false⟩, .kept ⟨false, [0x41, 0], 2⟩) := by decide +kernel

/-- The block after the mark, if any, was removed from its start. -/
theorem removeBom_marked {o : Out} {s spare : List Byte} (hs : s ≠ []) (hd : o.data = Scheme.utf8.mark ++ s ++ spare) (hz : o.size = (Scheme.utf8.mark ++ s).length) :
    ∃ spare', removeBom o = .ok { o with data := s ++ spare', size := s.length } ∧ spare'.length = spare.length + 3 := by
  have hm : Scheme.utf8.mark.length = 3 := rfl
  have htake : o.data.take o.size = Scheme.utf8.mark ++ s := by rw [hd, hz, List.take_left' rfl]
  have hb : hasBom utf8Bom (o.data.take o.size) = true := by rw [htake]; exact hasBom_true hs
  rw [removeBom, if_pos hb]
  have hz' : o.size - 3 = s.length := by rw [hz, List.length_append, hm]; omega
  have hl : o.data.length = 3 + s.length + spare.length := by rw [hd]; simp [hm]; omega
  rw [hz', memmove, if_pos (by omega), ok_bind]
  refine ⟨o.data.drop s.length, ?_, by rw [List.length_drop]; omega⟩
  have hdrop : (o.data.drop 3).take s.length = s := by
    rw [hd, List.append_assoc, List.drop_left' hm, List.take_left' rfl]
  rw [hdrop]
  simp

theorem removeBom_plain {o : Out} {s spare : List Byte} (hs : ¬ ∃ t, t ≠ [] ∧ s = Scheme.utf8.mark ++ t) (hd : o.data = s ++ spare) (hz : o.size = s.length) :
    removeBom o = .ok o := by
  have htake : o.data.take o.size = s := by rw [hd, hz, List.take_left' rfl]
  rw [removeBom, htake, show hasBom utf8Bom s = false from hasBom_false hs, if_neg (by simp)]

theorem validRange_all {cs : List Nat} (hcs : Scalars cs) : utf8ValidRange (encode utf8 cs) = .ok (encode utf8 cs).length :=
  (C35_utf8_iff _).2 ⟨cs, hcs, rfl⟩

theorem skip_all {cs : List Nat} (hcs : Scalars cs) : utf8SkipInvalid (encode utf8 cs) = .ok ((encode utf8 cs).length, encode utf8 cs) := by
  obtain ⟨n, h1, h2, _, h4⟩ := C40_utf8_partial (encode utf8 cs)
  have := h4 (encode utf8 cs).length (Nat.le_refl _) (by rw [List.take_length]; exact ⟨cs, hcs, rfl⟩)
  rw [h1, show n = (encode utf8 cs).length by omega]

/-- Validation does nothing to well-formed text. -/
theorem validate_all {o : Out} {cs : List Nat} (hcs : Scalars cs) {spare : List Byte} (hd : o.data = encode utf8 cs ++ spare) (hz : o.size = (encode utf8 cs).length) (hi : o.invalid = false)
    (v : Validate) (rep : List Byte) : validateInplace v rep o = .ok o := by
  have htake : o.data.take o.size = encode utf8 cs := by rw [hd, hz, List.take_left' rfl]
  have hdrop : o.data.drop o.size = spare := by rw [hd, hz, List.drop_left' rfl]
  cases v with
  | skip =>
    rw [validateInplace, htake, skip_all hcs, ok_bind]
    dsimp only
    rw [hdrop, ← hd, ← hz]
    simp only [ne_eq, not_true_eq_false, decide_false, ← hi]
  | error =>
    rw [validateInplace, htake, validRange_all hcs, ok_bind, if_neg (by simp [hz]), ← hz]
  | replace =>
    rw [validateInplace, replaceInvalid]
    have : replaceLoop rep o.size 0 o.size false o = .ok (false, o) := by
      cases hs : o.size with
      | zero => rw [replaceLoop, if_pos rfl]
      | succ n =>
        rw [replaceLoop, if_neg (by omega), if_neg (by rw [Nat.zero_add, ← hs, hz, hd]; simp), List.drop_zero, ← hs, htake, validRange_all hcs, ok_bind,
          if_neg (by simp [hz])]
    rw [this, ok_bind]
    dsimp only
    rw [← hi]

/-- The start of the conversion of UTF-8. -/
theorem utf8_start {e enc : Encoding} {b : List Byte} (h0 : b ≠ [])
    (hsel : ∀ v rep nul o, ModeOk v rep → convertInternal b e v rep nul o = .ok (false, { o with encoding := enc })) (henc : enc = .utf8 ∨ enc = .utf8bom)
    {v : Validate} {rep : List Byte} (hm : ModeOk v rep) (nul : Bool) (spare : List Byte) (junk : Byte) (allocs : List Bool) :
    convertDynamic ⟨false, b ++ spare, b.length⟩ e v rep nul junk allocs =
      (do
        let o ← removeBom ⟨b.length, .ok, enc, false, false, b ++ spare, 0, true, true, junk, allocs⟩
        let o ← validateInplace v rep o
        let o ← terminate o nul
        .ok (takeOver ⟨false, b ++ spare, b.length⟩ o)) := by
  rw [convertDynamic, show decide (b.length ≤ (b ++ spare).length) = true by simp, assert, if_pos rfl, ok_bind]
  dsimp only
  rw [List.take_left' rfl, hsel v rep nul _ hm, ok_bind]
  dsimp only [makeOut]
  rw [show (decide (enc = .utf8) || decide (enc = .utf8bom)) = true by rcases henc with h | h <;> rw [h] <;> rfl]
  rfl

/-- How the encoding of UTF-8 is found. -/
theorem utf8_selected {e : Encoding} {b s : List Byte} {enc : Encoding} (h : (b = Scheme.utf8.mark ++ s ∧ s ≠ [] ∧ (e = .utf8 ∨ e = .utf8bom ∨ e = .unknown) ∧ enc = .utf8bom) ∨
      (b = s ∧ s ≠ [] ∧ ((e = .utf8 ∧ ¬ ∃ t, t ≠ [] ∧ s = Scheme.utf8.mark ++ t) ∨ (e = .unknown ∧ ∀ sch : Scheme, ¬ ∃ t, t ≠ [] ∧ s = sch.mark ++ t)) ∧ enc = .utf8)) :
    ∀ v rep nul o, ModeOk v rep → convertInternal b e v rep nul o = .ok (false, { o with encoding := enc }) := by
  intro v rep nul o hm
  rcases h with ⟨rfl, hs, he, rfl⟩ | ⟨rfl, hs, he, rfl⟩
  · have hb : hasBom utf8Bom (Scheme.utf8.mark ++ s) = true := hasBom_true hs
    refine convertInternal_start (by simp [hs]) hm ?_
    rcases he with rfl | rfl | rfl
    · simp only [hb, if_true]
    · simp only [hb, if_true]
    · simp only [convertUnknown, hb, if_true]
  · refine convertInternal_start hs hm ?_
    rcases he with ⟨rfl, h⟩ | ⟨rfl, h⟩
    · simp only [show hasBom utf8Bom b = false from hasBom_false h]; rfl
    · simp only [convertUnknown, show hasBom utf8Bom b = false from hasBom_false (h .utf8), show hasBom utf32beBom b = false from hasBom_false (h .utf32be),
        show hasBom utf32leBom b = false from hasBom_false (h .utf32le), show hasBom utf16beBom b = false from hasBom_false (h .utf16be),
        show hasBom utf16leBom b = false from hasBom_false (h .utf16le), Bool.false_eq_true, if_false]

/-- The bytes `b`, declared as `e`, are the text `s` in UTF-8: after a mark, or declared as UTF-8, or undeclared and without any mark. -/
def IsUtf8 (b : List Byte) (e : Encoding) (s : List Byte) (enc : Encoding) : Prop :=
  (b = Scheme.utf8.mark ++ s ∧ s ≠ [] ∧ (e = .utf8 ∨ e = .utf8bom ∨ e = .unknown) ∧ enc = .utf8bom) ∨
  (b = s ∧ s ≠ [] ∧ ((e = .utf8 ∧ ¬ ∃ t, t ≠ [] ∧ s = Scheme.utf8.mark ++ t) ∨ (e = .unknown ∧ ∀ sch : Scheme, ¬ ∃ t, t ≠ [] ∧ s = sch.mark ++ t)) ∧ enc = .utf8)

theorem utf8_removed {b s : List Byte} {e enc : Encoding} (h : IsUtf8 b e s enc) (spare : List Byte) (junk : Byte) (allocs : List Bool) :
    ∃ spare', removeBom ⟨b.length, .ok, enc, false, false, b ++ spare, 0, true, true, junk, allocs⟩ =
      .ok ⟨s.length, .ok, enc, false, false, s ++ spare', 0, true, true, junk, allocs⟩ ∧ (s ++ spare').length = (b ++ spare).length := by
  rcases h with ⟨rfl, hs, _, rfl⟩ | ⟨rfl, hs, he, rfl⟩
  · obtain ⟨sp, h1, h2⟩ := removeBom_marked (o := ⟨(Scheme.utf8.mark ++ s).length, .ok, .utf8bom, false, false, Scheme.utf8.mark ++ s ++ spare, 0, true, true, junk, allocs⟩) hs rfl rfl
    exact ⟨sp, h1, by simp [h2, show Scheme.utf8.mark.length = 3 from rfl]; omega⟩
  · refine ⟨spare, removeBom_plain (s := b) (spare := spare) ?_ rfl rfl, rfl⟩
    rcases he with ⟨_, h⟩ | ⟨_, h⟩
    · exact h
    · exact h .utf8

/-- Well-formed UTF-8 is taken over: the block of the caller becomes the result, without the mark, and with a terminator if asked for.
Missing: ill-formed text in the modes `skip` and `replace`, see `C63_not_skip` and `C63_not_replace`, and running out of memory, see `C63_not_owned`. -/
theorem C63_utf8_partial (b s : List Byte) (e enc : Encoding) (h : IsUtf8 b e s enc) (hwf : WellFormed utf8 s) (v : Validate) (rep : List Byte) (hm : v = .replace → rep ≠ [])
    (nul : Bool) (spare : List Byte) (junk : Byte) (allocs : List Bool) (ha : false ∉ allocs) :
    ∃ rest, convertDynamic ⟨false, b ++ spare, b.length⟩ e v rep nul junk allocs =
      .ok (⟨⟨false, s ++ (if nul then [0] else []) ++ rest, s.length⟩, .ok, enc, false⟩, .taken) := by
  obtain ⟨cs, hcs, rfl⟩ := hwf
  have h0 : b ≠ [] := by
    rcases h with ⟨rfl, hs, _⟩ | ⟨rfl, hs, _⟩
    · simp [hs]
    · exact hs
  have henc : enc = .utf8 ∨ enc = .utf8bom := by
    rcases h with ⟨_, _, _, h⟩ | ⟨_, _, _, h⟩
    · exact Or.inr h
    · exact Or.inl h
  have hne : encode utf8 cs ≠ [] := by
    rcases h with ⟨_, hs, _⟩ | ⟨_, hs, _⟩ <;> exact hs
  obtain ⟨sp, h1, h2⟩ := utf8_removed h spare junk allocs
  rw [utf8_start h0 (utf8_selected h) henc hm, h1, ok_bind, validate_all (o := ⟨(encode utf8 cs).length, .ok, enc, false, false, encode utf8 cs ++ sp, 0, true, true, junk, allocs⟩)
    hcs rfl rfl rfl, ok_bind]
  have hg : Grew allocs (encode utf8 cs) false enc ⟨(encode utf8 cs).length, .ok, enc, false, false, encode utf8 cs ++ sp, 0, true, true, junk, allocs⟩ :=
    ⟨rfl, rfl, rfl, rfl, rfl, by simp, by rw [List.take_left' rfl], fun _ => ⟨rfl, by have := List.length_pos_of_ne_nil hne; simp; omega⟩, fun hc => by (cases hc), fun _ hx => hx⟩
  obtain ⟨o', e1, h3⟩ := grew_terminate hg nul
  rw [e1, ok_bind]
  rcases h3 with ⟨k1, k2, k3, k4, k5, k6⟩ | h3
  · rw [terminator_eq] at k6
    obtain ⟨rest, hrest⟩ := take_prefix k6
    have hnull : o'.null = false := by
      cases hn : o'.null with
      | false => rfl
      | true =>
        have := k5 hn
        rw [this] at hrest
        have := congrArg List.length hrest
        have hp := List.length_pos_of_ne_nil hne
        simp at this; omega
    refine ⟨rest, ?_⟩
    rw [takeOver, if_pos k1, k1, k2, k3, k4, hrest, hnull]
  · exact absurd h3.why ha

/-- A mark, two letters and room for the terminator that the mark leaves behind. -/
example : IsUtf8 [0xEF, 0xBB, 0xBF, 0x41, 0x42] .unknown [0x41, 0x42] .utf8bom := Or.inl ⟨rfl, by simp, Or.inr (Or.inr rfl), rfl⟩
example : convertDynamic ⟨false, [0xEF, 0xBB, 0xBF, 0x41, 0x42], 5⟩ .unknown .skip [] true 7 [] =
    .ok (⟨⟨false, [0x41, 0x42, 0, 0x41, 0x42], 2⟩, .ok, .utf8bom, false⟩, .taken) := by decide +kernel

/-- Ill-formed UTF-8 is refused in the mode `error`; the caller keeps the block, with the same size. Its cells may have changed. -/
theorem C63_refused (b s : List Byte) (e enc : Encoding) (h : IsUtf8 b e s enc) (hwf : ¬ WellFormed utf8 s) (rep : List Byte)
    (nul : Bool) (spare : List Byte) (junk : Byte) (allocs : List Bool) :
    ∃ data, data.length = (b ++ spare).length ∧ convertDynamic ⟨false, b ++ spare, b.length⟩ e .error rep nul junk allocs =
      .ok (⟨⟨true, [], 0⟩, .einval, enc, true⟩, .kept ⟨false, data, b.length⟩) := by
  have h0 : b ≠ [] := by
    rcases h with ⟨rfl, hs, _⟩ | ⟨rfl, hs, _⟩
    · simp [hs]
    · exact hs
  have henc : enc = .utf8 ∨ enc = .utf8bom := by
    rcases h with ⟨_, _, _, h⟩ | ⟨_, _, _, h⟩
    · exact Or.inr h
    · exact Or.inl h
  obtain ⟨sp, h1, h2⟩ := utf8_removed h spare junk allocs
  refine ⟨s ++ sp, h2, ?_⟩
  rw [utf8_start h0 (utf8_selected h) henc (fun hc => by cases hc), h1, ok_bind]
  obtain ⟨n, hn, hl, hw, _⟩ := utf8ValidRange_spec s
  have hne : n ≠ s.length := by
    rintro rfl
    rw [List.take_length] at hw
    exact hwf hw
  rw [validateInplace]
  dsimp only
  rw [List.take_left' rfl, hn, ok_bind, if_pos hne, ok_bind, terminate, if_neg (by simp), ok_bind]
  rfl

example : convertDynamic ⟨false, [0xEF, 0xBB, 0xBF, 0x41, 0xFF], 5⟩ .unknown .error [] true 7 [] =
    .ok (⟨⟨true, [], 0⟩, .einval, .utf8bom, true⟩, .kept ⟨false, [0x41, 0xFF, 0xBF, 0x41, 0xFF], 5⟩) := by decide +kernel

/-- In the mode `skip` everything after the first invalid byte is lost. -/
theorem C63_not_skip : convertDynamic ⟨false, [0xFF, 0x41], 2⟩ .utf8 .skip [] false 7 [] = .ok (⟨⟨false, [0xFF, 0x41], 0⟩, .ok, .utf8, true⟩, .taken) := by decide +kernel

/-- In the mode `replace` an invalid byte that is followed by others makes the function move memory outside of the block. -/
theorem C63_not_replace : convertDynamic ⟨false, [0x41, 0xFF, 0x42], 3⟩ .utf8 .replace [0x3F] false 7 [] = .error .oob := by decide +kernel

/-- When it is the last one, the contents end in bytes that were never written. -/
theorem C63_not_replace_last (junk : Byte) : convertDynamic ⟨false, [0x41, 0xFF], 2⟩ .utf8 .replace [0x3F] false junk [] =
    .ok (⟨⟨false, [0x41, 0x3F, junk, junk], 4⟩, .ok, .utf8, true⟩, .taken) := by
  revert junk
  decide +kernel

/-- When there is no memory for the terminator, the block of the caller is freed and the caller is left with the pointer. -/
theorem C63_not_owned : convertDynamic ⟨false, [0x41], 1⟩ .utf8 .error [] true 7 [false] = .ok (⟨⟨true, [], 0⟩, .enomem, .utf8, false⟩, .dangling) := by decide +kernel

/-! ## C64 UTF-16 into a growing buffer -/

/-- What the function returns when the text that the transcoder computes is `text`: it is the contents, in the block of the caller if it fits, else in a new one;
or, if it does not fit and there is no memory, an error and the block of the caller, with its size. -/
theorem dynamic_text {s : List Unit16} {v : Validate} {rep : List Byte} {nul : Bool} {fuel : Nat} {text : List Byte} {inv : Bool}
    (h : ∀ out : List Byte, (text.length + (if nul then 1 else 0) ≤ out.length → utf8FromUtf16Ex fuel s v rep nul out = .ok (⟨text.length, .ok, inv⟩, splice out 0 (text ++ if nul then [0] else []))) ∧
      (out.length < text.length + (if nul then 1 else 0) →
        ∃ out', utf8FromUtf16Ex fuel s v rep nul out = .ok (⟨text.length + (if nul then 1 else 0), .erange, inv⟩, out') ∧ out'.length = out.length))
    (out : Contents) (junk : Byte) (isSbo alloc : Bool) :
    ∃ r c, utf8FromUtf16DynamicEx fuel s v rep nul out junk isSbo alloc = .ok (r, c) ∧ r.invalid = inv ∧
      ((r.ec = .ok ∧ c.size = text.length ∧ (∃ rest, c.data = text ++ (if nul then [0] else []) ++ rest) ∧
          c.data.length = max out.data.length (text.length + (if nul then 1 else 0))) ∨
        (alloc = false ∧ out.data.length < text.length + (if nul then 1 else 0) ∧ r.ec = .enomem ∧ c.size = out.size ∧ c.data.length = out.data.length)) := by
  have hl : (text ++ if nul then [0] else []).length = text.length + (if nul then 1 else 0) := by cases nul <;> simp
  have hsp : ∀ l : List Byte, text.length + (if nul then 1 else 0) ≤ l.length →
      (∃ rest, splice l 0 (text ++ if nul then [0] else []) = text ++ (if nul then [0] else []) ++ rest) ∧ (splice l 0 (text ++ if nul then [0] else [])).length = l.length := by
    intro l hle
    refine ⟨⟨l.drop (text ++ if nul then [0] else []).length, by simp [splice]⟩, ?_⟩
    simp only [splice, List.length_append, List.length_take, List.length_drop] at hl ⊢
    omega
  by_cases hfit : text.length + (if nul then 1 else 0) ≤ out.data.length
  · obtain ⟨h1, h2⟩ := hsp _ hfit
    refine ⟨⟨text.length, .ok, inv⟩, { out with data := splice out.data 0 (text ++ if nul then [0] else []), size := text.length }, ?_, rfl, Or.inl ⟨rfl, rfl, h1, ?_⟩⟩
    · rw [utf8FromUtf16DynamicEx, (h _).1 hfit, ok_bind]
      rfl
    · rw [h2, Nat.max_eq_left hfit]
  · have hlt : out.data.length < text.length + (if nul then 1 else 0) := by omega
    obtain ⟨d, e1, h1⟩ := (h out.data).2 hlt
    cases alloc with
    | false =>
      refine ⟨⟨text.length + (if nul then 1 else 0), .enomem, inv⟩, { out with data := d }, ?_, rfl, Or.inr ⟨rfl, hlt, rfl, rfl, h1⟩⟩
      rw [utf8FromUtf16DynamicEx, e1, ok_bind]
      rfl
    | true =>
      have hblock : ∀ b : Bool, (if b then List.replicate (text.length + if nul then 1 else 0) junk
          else d.take (text.length + if nul then 1 else 0) ++ List.replicate ((text.length + if nul then 1 else 0) - d.length) junk).length = text.length + if nul then 1 else 0 := by
        intro b
        cases b <;> simp
        omega
      have hb := hblock (isSbo || out.null)
      obtain ⟨h2, h3⟩ := hsp _ (Nat.le_of_eq hb.symm)
      refine ⟨⟨text.length, .ok, inv⟩, ⟨false, splice _ 0 (text ++ if nul then [0] else []), text.length⟩, ?_, rfl, Or.inl ⟨rfl, rfl, h2, ?_⟩⟩
      · rw [utf8FromUtf16DynamicEx, e1, ok_bind]
        dsimp only
        rw [if_neg (by simp), if_pos rfl, if_neg (by simp), (h _).1 (Nat.le_of_eq hb.symm), ok_bind]
        rfl
      · rw [h3, hb, Nat.max_eq_right (by omega)]

/-- Well-formed UTF-16 becomes the UTF-8 of the same code points, whatever the block, whether it was allocated, and in every mode; only without memory, and only
if the block is too small, is there an error, and then the caller still has the block and its size. -/
theorem C64_text (cs : List Nat) (hcs : Scalars cs) (v : Validate) (rep : List Byte) (hm : v = .replace → rep ≠ []) (nul : Bool) (out : Contents) (junk : Byte) (isSbo alloc : Bool) :
    ∃ r c, utf8FromUtf16DynamicEx (encode utf16 cs).length (encode utf16 cs) v rep nul out junk isSbo alloc = .ok (r, c) ∧ r.invalid = false ∧
      ((r.ec = .ok ∧ c.size = (encode utf8 cs).length ∧ (∃ rest, c.data = encode utf8 cs ++ (if nul then [0] else []) ++ rest) ∧
          c.data.length = max out.data.length ((encode utf8 cs).length + (if nul then 1 else 0))) ∨
        (alloc = false ∧ out.data.length < (encode utf8 cs).length + (if nul then 1 else 0) ∧ r.ec = .enomem ∧ c.size = out.size ∧ c.data.length = out.data.length)) := by
  refine dynamic_text (fun out => ?_) out junk isSbo alloc
  have := utf8FromUtf16Ex_reads (reads_encode ext16 form16 false cs hcs) v (by simp) rep hm nul out (encode utf16 cs).length (Nat.le_refl _)
  cases nul <;> simpa [terminator, utf8] using this

/-- Ill-formed UTF-16: refused in the mode `error`, and the caller still has the block and its size; in the mode `skip` the contents are well-formed.
Missing: the mode `replace`, in which the function does not return, see `C39_not_terminating_utf16`. -/
theorem C64_ill_formed_partial (s : List Unit16) (v : Validate) (hv : v ≠ .replace) (rep : List Byte) (nul : Bool) (out : Contents) (junk : Byte) (isSbo alloc : Bool) :
    ∃ r c, utf8FromUtf16DynamicEx s.length s v rep nul out junk isSbo alloc = .ok (r, c) ∧
      ((v = .error ∧ ¬ WellFormed utf16 s ∧ r.ec = .einval ∧ r.invalid = true ∧ c.size = out.size ∧ c.data.length = out.data.length) ∨
        (∃ text rest, (v = .error → WellFormed utf16 s) ∧ WellFormed utf8 text ∧ r.ec = .ok ∧ c.size = text.length ∧ c.data = text ++ (if nul then [0] else []) ++ rest) ∨
        (alloc = false ∧ r.ec = .enomem ∧ c.size = out.size ∧ c.data.length = out.data.length)) := by
  by_cases hwf : WellFormed utf16 s
  · obtain ⟨cs, hcs, rfl⟩ := hwf
    obtain ⟨r, c, e, h1, h2⟩ := C64_text cs hcs v rep (fun h => absurd h hv) nul out junk isSbo alloc
    refine ⟨r, c, e, ?_⟩
    rcases h2 with ⟨k1, k2, ⟨rest, k3⟩, _⟩ | ⟨k1, _, k2, k3, k4⟩
    · exact Or.inr (Or.inl ⟨encode utf8 cs, rest, fun _ => ⟨cs, hcs, rfl⟩, ⟨cs, hcs, rfl⟩, k1, k2, k3⟩)
    · exact Or.inr (Or.inr ⟨k1, k2, k3, k4⟩)
  · by_cases hve : v = .error
    · subst hve
      obtain ⟨n, d, e, hl⟩ := C38_ill_formed_utf16 s hwf rep nul out.data s.length (Nat.le_refl _)
      refine ⟨⟨n, .einval, true⟩, { out with data := d }, ?_, Or.inl ⟨rfl, hwf, rfl, rfl, rfl, hl⟩⟩
      rw [utf8FromUtf16DynamicEx, e, ok_bind]
      rfl
    · rcases C38_utf8_from_utf16 s v (fun h => absurd h hv) rep (fun h => absurd h hv) nul s.length (Nat.le_refl _) with ⟨h, _⟩ | ⟨text, inv, hw, h⟩
      · exact absurd h hve
      · obtain ⟨r, c, e, h1, h2⟩ := dynamic_text h out junk isSbo alloc
        refine ⟨r, c, e, ?_⟩
        rcases h2 with ⟨k1, k2, ⟨rest, k3⟩, _⟩ | ⟨k1, _, k2, k3, k4⟩
        · exact Or.inr (Or.inl ⟨text, rest, fun h => absurd h hve, hw, k1, k2, k3⟩)
        · exact Or.inr (Or.inr ⟨k1, k2, k3, k4⟩)

/-- A block of one byte that grows: the euro sign and a terminator. -/
example : utf8FromUtf16DynamicEx 1 [0x20AC] .error [] true ⟨false, [9], 1⟩ 7 false true = .ok (⟨3, .ok, false⟩, ⟨false, [0xE2, 0x82, 0xAC, 0], 3⟩) := by decide +kernel
example : utf8FromUtf16DynamicEx 1 [0x20AC] .error [] true ⟨false, [9], 1⟩ 7 false false = .ok (⟨4, .enomem, false⟩, ⟨false, [9], 1⟩) := by decide +kernel

end Tm.Uni
