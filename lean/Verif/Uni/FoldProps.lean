import Verif.Uni.CmpLemmas
import Verif.Uni.FoldTwice
/-!
# Properties of the Unicode data, of case folding and of the comparisons that ignore the case
-/
namespace Tm.Uni

/-! ## C206 Looking up code points -/

theorem bits_check : ∀ e ∈ ucdEntries, e.bits0 &&& 7 ≤ 6 ∧ (e.bits0 >>> 3) &&& 3 ≤ 3 ∧ e.bits1 &&& 15 ≤ 15 := by decide +kernel

theorem toCategory_ok {n : Nat} (h : n ≤ 6) : ∃ c, toCategory n = .ok c := by
  match n, h with
  | 0, _ | 1, _ | 2, _ | 3, _ | 4, _ | 5, _ | 6, _ => exact ⟨_, rfl⟩

theorem toCaseInfo_ok {n : Nat} (h : n ≤ 3) : ∃ c, toCaseInfo n = .ok c := by
  match n, h with
  | 0, _ | 1, _ | 2, _ | 3, _ => exact ⟨_, rfl⟩

/-- Every code point up to 0x10FFFF has an entry, and all functions agree with it: nothing outside of a table is read, no assertion fails, and
exactly one of the functions for the categories, and one of those for the cases, says yes. -/
theorem C206_total (cp : Nat) (h : cp ≤ 0x10FFFF) : ∃ e w, getEntry cp = .ok e ∧ getCategory cp = .ok e.category ∧ getCaseInfo cp = .ok e.caseInfo ∧
    isWhitespace cp = .ok w ∧ (∀ c, isCategory c cp = .ok (decide (e.category = c))) ∧ ∀ c, isCase c cp = .ok (decide (e.caseInfo = c)) := by
  obtain ⟨e, hm, h1, -⟩ := data cp h
  obtain ⟨h2, h3, -⟩ := bits_check e hm
  obtain ⟨c, h4⟩ := toCategory_ok h2
  obtain ⟨d, h5⟩ := toCaseInfo_ok h3
  have g1 : getCategory cp = .ok c := by rw [getCategory, h1, ok_bind, h4]
  have g2 : getCaseInfo cp = .ok d := by rw [getCaseInfo, h1, ok_bind, h5]
  refine ⟨⟨c, d, e.bits1 &&& 15, folded cp e, e.full⟩, e.bits0 &&& 64 != 0, ?_, g1, g2, ?_, fun x => ?_, fun x => ?_⟩
  · rw [getEntry, h1, ok_bind, h4, ok_bind, h5, ok_bind]
  · rw [isWhitespace, h1, ok_bind]
  · rw [isCategory, g1, ok_bind]
    cases c <;> cases x <;> rfl
  · rw [isCase, g2, ok_bind]
    cases d <;> cases x <;> rfl

/-- Numbers that are no code points are refused with an assertion by all functions. -/
theorem C206_refused (cp : Nat) (h : 0x10FFFF < cp) : getEntry cp = .error .assertion ∧ getCategory cp = .error .assertion ∧
    getCaseInfo cp = .error .assertion ∧ isWhitespace cp = .error .assertion := by
  have h1 : getInternal cp = .error .assertion := by
    rw [getInternal, decide_eq_false (by omega)]
    rfl
  refine ⟨?_, ?_, ?_, ?_⟩
  · rw [getEntry, h1]; rfl
  · rw [getCategory, h1]; rfl
  · rw [getCaseInfo, h1]; rfl
  · rw [isWhitespace, h1]; rfl

example : getEntry 0x10FFFF = .ok ⟨.control, .caseless, 0, 0x10FFFF, 0⟩ := by decide +kernel
example : getEntry 0x41 = .ok ⟨.letter, .upper, 0, 0x61, 0⟩ := by decide +kernel

/-! ## C207 The folding of code points -/

/-- The simple folding of an entry is that of Unicode 13, for every code point. -/
theorem C207_simple (cp : Nat) (h : cp ≤ 0x10FFFF) : ∃ e, getEntry cp = .ok e ∧ e.simpleFold = simpleFold cp := by
  obtain ⟨e, hm, h1, h2, -⟩ := data cp h
  obtain ⟨h3, h4, -⟩ := bits_check e hm
  obtain ⟨c, h5⟩ := toCategory_ok h3
  obtain ⟨d, h6⟩ := toCaseInfo_ok h4
  exact ⟨_, by rw [getEntry, h1, ok_bind, h5, ok_bind, h6, ok_bind], h2⟩

theorem run_takeWhile {i : Nat} {l : List Nat} (h : RunAt i l) : (ucdRuns.drop i).takeWhile (fun c => c != 0) = l := by
  have key : ∀ (l m : List Nat), (∀ (j c : Nat), l[j]? = some c → m[j]? = some c ∧ c ≠ 0) → m[l.length]? = some 0 → m.takeWhile (fun c => c != 0) = l := by
    intro l
    induction l with
    | nil =>
      intro m _ h2
      cases m with
      | nil => rfl
      | cons x m =>
        simp at h2
        simp [h2]
    | cons c l ih =>
      intro m h1 h2
      cases m with
      | nil => simp at h2
      | cons x m =>
        obtain ⟨g1, g2⟩ := h1 0 c rfl
        simp at g1
        subst g1
        rw [List.takeWhile_cons, if_pos (by simpa using g2), ih m (fun j d hj => ?_) (by simpa using h2)]
        simpa using h1 (j + 1) d (by simpa using hj)
  refine key l _ (fun j c hj => ?_) ?_
  · rw [List.getElem?_drop]
    exact h.at' j c hj
  · rw [List.getElem?_drop]
    exact h.stop

/-- The full folding of an entry is that of Unicode 13, for every code point: without a run it is the simple folding; else it is the run in the table, up
to the 0 that ends it. -/
theorem C207_full (cp : Nat) (h : cp ≤ 0x10FFFF) : ∃ e, getEntry cp = .ok e ∧
    fullFold cp = if e.fullFold = 0 then [e.simpleFold] else (ucdRuns.drop e.fullFold).takeWhile (fun c => c != 0) := by
  obtain ⟨e, hm, h1, h2, h3, h4⟩ := data cp h
  obtain ⟨g3, g4, -⟩ := bits_check e hm
  obtain ⟨c, g5⟩ := toCategory_ok g3
  obtain ⟨d, g6⟩ := toCaseInfo_ok g4
  refine ⟨_, by rw [getEntry, h1, ok_bind, g5, ok_bind, g6, ok_bind], ?_⟩
  simp only
  by_cases h0 : e.full = 0
  · rw [if_pos h0, h3 h0, h2]
  · rw [if_neg h0, run_takeWhile (h4 h0)]

example : simpleFold 0x41 = 0x61 ∧ simpleFold 0x1E9E = 0xDF ∧ fullFold 0xDF = [0x73, 0x73] ∧ fullFold 0x1E9E = [0x73, 0x73] ∧ simpleFold 0x130 = 0x130 ∧
    fullFold 0x130 = [0x69, 0x307] ∧ simpleFold 0x3C2 = 0x3C3 := by decide +kernel

/-! ## C208 What ASCII characters are -/

/-- The characters of ASCII are classified as Unicode says.

Missing: white space, and all other characters, see `C208_not_letters` and `C208_not_whitespace`. -/
theorem C208_ascii_partial (c : Nat) (h : c < 128) :
    isCategory .letter c = .ok (decide ((65 ≤ c ∧ c ≤ 90) ∨ (97 ≤ c ∧ c ≤ 122))) ∧
    isCategory .number c = .ok (decide (48 ≤ c ∧ c ≤ 57)) ∧
    isCategory .control c = .ok (decide (c < 32 ∨ c = 127)) ∧
    isCategory .separator c = .ok (decide (c = 32)) ∧
    isCategory .symbol c = .ok (decide (c ∈ [0x24, 0x2B, 0x3C, 0x3D, 0x3E, 0x5E, 0x60, 0x7C, 0x7E])) ∧
    isCategory .mark c = .ok false ∧
    isCase .upper c = .ok (decide (65 ≤ c ∧ c ≤ 90)) ∧
    isCase .lower c = .ok (decide (97 ≤ c ∧ c ≤ 122)) ∧
    isCase .title c = .ok false ∧
    simpleFold c = (if 65 ≤ c ∧ c ≤ 90 then c + 32 else c) ∧ fullFold c = [simpleFold c] := by
  have key : ∀ c : Fin 128, isCategory .letter c = .ok (decide ((65 ≤ c.1 ∧ c.1 ≤ 90) ∨ (97 ≤ c.1 ∧ c.1 ≤ 122))) ∧
    isCategory .number c = .ok (decide (48 ≤ c.1 ∧ c.1 ≤ 57)) ∧
    isCategory .control c = .ok (decide (c.1 < 32 ∨ c.1 = 127)) ∧
    isCategory .separator c = .ok (decide (c.1 = 32)) ∧
    isCategory .symbol c = .ok (decide (c.1 ∈ [0x24, 0x2B, 0x3C, 0x3D, 0x3E, 0x5E, 0x60, 0x7C, 0x7E])) ∧
    isCategory .mark c = .ok false ∧
    isCase .upper c = .ok (decide (65 ≤ c.1 ∧ c.1 ≤ 90)) ∧
    isCase .lower c = .ok (decide (97 ≤ c.1 ∧ c.1 ≤ 122)) ∧
    isCase .title c = .ok false ∧
    simpleFold c = (if 65 ≤ c.1 ∧ c.1 ≤ 90 then c.1 + 32 else c.1) ∧ fullFold c = [simpleFold c] := by decide +kernel
  exact key ⟨c, h⟩

/-- The letters of scripts whose code points are listed as ranges in the Unicode database (Chinese, Korean, Tangut; 110468 code points) are no letters for
`tmu_is_letter`: of each range, only the first and the last one are. U+4E2D and U+AC00 + 1 are "control" characters. -/
theorem C208_not_letters : getCategory 0x4E00 = .ok .letter ∧ getCategory 0x4E2D = .ok .control ∧ isCategory .letter 0x4E2D = .ok false ∧
    getCategory 0xAC00 = .ok .letter ∧ getCategory 0xAC01 = .ok .control := by decide +kernel

/-- Tabs and line ends are no white space for `tmu_is_whitespace`, nor is the no-break space; the space is. -/
theorem C208_not_whitespace : isWhitespace 0x20 = .ok true ∧ isWhitespace 0x09 = .ok false ∧ isWhitespace 0x0A = .ok false ∧ isWhitespace 0x0D = .ok false ∧
    isWhitespace 0xA0 = .ok false ∧ isWhitespace 0x2029 = .ok false := by decide +kernel

/-! ## C209 Folding a text -/

/-- What a function that folds texts writes: `folded` is the text to be written, `out` the buffer before. All of it if it fits; else the code points
that fit, and the error says that the buffer is too small. The result has the size that is needed in both cases, and nothing else changes. -/
def WritesText (folded : List Nat) (out : List Byte) (whole : Errc) (r : (Nat × Errc) × List Byte) : Prop :=
  r.1.1 = (encode utf8 folded).length ∧ ∃ k, r.2 = encode utf8 (folded.take k) ++ out.drop (encode utf8 (folded.take k)).length ∧
    (((encode utf8 folded).length ≤ out.length ∧ k = folded.length ∧ r.1.2 = whole) ∨
      (out.length < (encode utf8 folded).length ∧ r.1.2 = .erange ∧ k < folded.length ∧ (encode utf8 (folded.take k)).length ≤ out.length ∧
        out.length < (encode utf8 (folded.take (k + 1))).length))

theorem encode_take_le (l : List Nat) (k : Nat) : (encode utf8 (l.take k)).length ≤ (encode utf8 l).length := by
  conv => rhs; rw [← List.take_append_drop k l, encode, List.flatMap_append, List.length_append]
  exact Nat.le_add_right _ _

theorem writes_took {step : Nat → Xform → C Xform} {fold : Nat → List Nat} (hstep : StepWrites step fold) {s r : List Byte} {cs : List Nat} (h : Took s cs r)
    (out : List Byte) : ∃ x, xform step s out = .ok x ∧ WritesText (cs.flatMap fold) out (if r = [] then .ok else .einval) x := by
  obtain ⟨k, ec, h1, h2, h3⟩ := xform_took hstep h out
  refine ⟨_, h1, rfl, k, rfl, ?_⟩
  rcases h3 with ⟨rfl, h4⟩ | ⟨h4, h5, h6⟩
  · rw [List.take_length] at h2
    exact .inl ⟨h2, rfl, h4⟩
  · refine .inr ⟨?_, h5, h4, h2, h6⟩
    have := encode_take_le (cs.flatMap fold) (k + 1)
    omega

theorem flatMap_simple (cs : List Nat) : cs.flatMap (fun c => [simpleFold c]) = foldedSimple cs := by
  induction cs with
  | nil => rfl
  | cons c cs ih => rw [List.flatMap_cons, ih]; rfl

/-- The simple folding of a text. -/
theorem C209_simple (cs : List Nat) (hcs : Scalars cs) (out : List Byte) : ∃ r, toCaseFoldSimple (encode utf8 cs) out = .ok r ∧
    WritesText (foldedSimple cs) out .ok r := by
  have h := took_encode hcs (t := []) rfl
  rw [List.append_nil] at h
  have := writes_took simple_writes h out
  rw [flatMap_simple] at this
  exact this

/-- The full folding of a text. -/
theorem C209_full (cs : List Nat) (hcs : Scalars cs) (out : List Byte) : ∃ r, toCaseFold (encode utf8 cs) out = .ok r ∧
    WritesText (foldedFull cs) out .ok r := by
  have h := took_encode hcs (t := []) rfl
  rw [List.append_nil] at h
  exact writes_took full_writes h out

/-- Folding what was folded changes nothing. -/
theorem C209_twice (cs : List Nat) (hcs : Scalars cs) (out : List Byte) : (∃ r, toCaseFoldSimple (encode utf8 (foldedSimple cs)) out = .ok r ∧
    WritesText (foldedSimple cs) out .ok r) ∧ ∃ r, toCaseFold (encode utf8 (foldedFull cs)) out = .ok r ∧ WritesText (foldedFull cs) out .ok r := by
  have h1 := C209_simple _ (foldedSimple_scalars hcs) out
  have h2 := C209_full _ (foldedFull_scalars hcs) out
  rw [foldedSimple_stable] at h1
  rw [foldedFull_stable] at h2
  exact ⟨h1, h2⟩

/-- "Straße" in a buffer of 8, 7 and 6 bytes: the folded text takes 7. -/
example : toCaseFold [0x53, 0x74, 0x72, 0x61, 0xC3, 0x9F, 0x65] (List.replicate 8 9) = .ok ((7, .ok), [0x73, 0x74, 0x72, 0x61, 0x73, 0x73, 0x65, 9]) ∧
    toCaseFold [0x53, 0x74, 0x72, 0x61, 0xC3, 0x9F, 0x65] (List.replicate 6 9) = .ok ((7, .erange), [0x73, 0x74, 0x72, 0x61, 0x73, 0x73]) ∧
    toCaseFoldSimple [0x53, 0xC3, 0x84] [9, 9] = .ok ((3, .erange), [0x73, 9]) := by decide +kernel

/-! ## C210 Malformed texts -/

/-- What can't be the beginning of anything: a byte that is no first byte of a code point, or a code point of which bytes are missing at the end. -/
def Broken (t : List Byte) : Prop := (∃ b u, t = b :: u ∧ (Continuation b ∨ 0xF8 ≤ b.toNat)) ∨
  ∃ c n, Scalar c ∧ 0 < n ∧ n < (utf8 c).length ∧ t = (utf8 c).take n

theorem lead_short {b : Byte} {u : List Byte} (h : (0xC0 ≤ b.toNat ∧ u.length < 1) ∨ (0xE0 ≤ b.toNat ∧ u.length < 2) ∨ (0xF0 ≤ b.toNat ∧ u.length < 3)) :
    utf8Raw (b :: u) = .ok (invalidCodepoint, 0) := by
  rcases utf8Raw_cases (b :: u) with h1 | ⟨a, t, h1, h2⟩ | ⟨a, x, t, h1, h2⟩ | ⟨a, x, d, t, h1, h2⟩ | ⟨a, x, d, e, t, h1, h2⟩
  · exact h1
  all_goals
    obtain ⟨rfl, rfl⟩ := List.cons.inj h1
    try simp only [List.length_cons] at h
    omega

theorem broken_none {t : List Byte} (h : Broken t) : utf8Extract t = .ok none ∧ t ≠ [] := by
  refine ⟨?_, ?_⟩
  · have key : utf8Raw t = .ok (invalidCodepoint, 0) := by
      rcases h with ⟨b, u, rfl, hb⟩ | ⟨c, n, hc, hn, hl, rfl⟩
      · have hb' : (0x80 ≤ b.toNat ∧ b.toNat < 0xC0) ∨ 0xF8 ≤ b.toNat := hb
        rcases utf8Raw_cases (b :: u) with h | ⟨a, t, h1, h⟩ | ⟨a, x, t, h1, h⟩ | ⟨a, x, d, t, h1, h⟩ | ⟨a, x, d, e, t, h1, h⟩
        · exact h
        all_goals
          have := (List.cons.inj h1).1
          subst this
          omega
      · have hm := scalar_le hc
        obtain ⟨k, rfl⟩ : ∃ k, n = k + 1 := ⟨n - 1, by omega⟩
        by_cases h1 : c < 0x80
        · rw [utf8_1 h1, List.length_singleton] at hl
          omega
        · by_cases h2 : c < 0x800
          · rw [utf8_2 (by omega) h2] at hl ⊢
            rw [List.take_succ_cons]
            simp only [List.length_cons, List.length_nil] at hl
            exact lead_short (.inl ⟨by rw [b8 (by omega)]; omega, by rw [List.length_take]; omega⟩)
          · by_cases h3 : c < 0x10000
            · rw [utf8_3 (by omega) h3] at hl ⊢
              rw [List.take_succ_cons]
              simp only [List.length_cons, List.length_nil] at hl
              exact lead_short (.inr (.inl ⟨by rw [b8 (by omega)]; omega, by rw [List.length_take]; omega⟩))
            · rw [utf8_4 (by omega)] at hl ⊢
              rw [List.take_succ_cons]
              simp only [List.length_cons, List.length_nil] at hl
              exact lead_short (.inr (.inr ⟨by rw [b8 (by omega)]; omega, by rw [List.length_take]; omega⟩))
    rw [utf8Extract, key, ok_bind]
    rfl
  · rcases h with ⟨b, u, rfl, -⟩ | ⟨c, n, -, hn, hl, rfl⟩
    · simp
    · intro h
      have := congrArg List.length h
      rw [List.length_take, List.length_nil] at this
      omega

/-- Whatever the bytes are: both functions end, read only the bytes of the text and write only into the buffer; the size in the result is what is
needed, and the result is an error if the buffer is too small or if not everything could be read. -/
theorem C210_every_string (s out : List Byte) : ∃ cs m, Scalars cs ∧ (∃ r, toCaseFoldSimple s out = .ok r ∧ WritesText (foldedSimple cs) out m r) ∧
    (∃ r, toCaseFold s out = .ok r ∧ WritesText (foldedFull cs) out m r) ∧ (m = .ok ∨ m = .einval) := by
  obtain ⟨cs, r, h⟩ := took_all s.length s (Nat.le_refl _)
  have h1 := writes_took simple_writes h out
  rw [flatMap_simple] at h1
  refine ⟨cs, if r = [] then .ok else .einval, took_scalars h, h1, writes_took full_writes h out, ?_⟩
  split
  · exact .inl rfl
  · exact .inr rfl

/-- A text that is broken off, or in which a byte is at a place where a code point must begin, is reported; what is before it is folded.

Missing: overlong forms, and second bytes that are no continuation bytes, are accepted, see `C210_not_overlong`. -/
theorem C210_reported_partial (cs : List Nat) (hcs : Scalars cs) (t : List Byte) (ht : Broken t) (out : List Byte) :
    (∃ r, toCaseFoldSimple (encode utf8 cs ++ t) out = .ok r ∧ WritesText (foldedSimple cs) out .einval r) ∧
    ∃ r, toCaseFold (encode utf8 cs ++ t) out = .ok r ∧ WritesText (foldedFull cs) out .einval r := by
  obtain ⟨h1, h2⟩ := broken_none ht
  have h := took_encode hcs h1
  have h3 := writes_took simple_writes h out
  have h4 := writes_took full_writes h out
  rw [flatMap_simple, if_neg h2] at h3
  rw [if_neg h2] at h4
  exact ⟨h3, h4⟩

example : Broken [0xE2, 0x82] ∧ Broken [0x80, 0x41] ∧ toCaseFold [0x41, 0xE2, 0x82] [9, 9] = .ok ((1, .einval), [0x61, 9]) :=
  ⟨.inr ⟨0x20AC, 2, by unfold Scalar; omega, by omega, by decide, by decide⟩, .inl ⟨_, _, rfl, .inl (by unfold Continuation; decide)⟩, by decide +kernel⟩

/-- Bytes that no text has are accepted: an overlong form of "A" is folded to "a". -/
theorem C210_not_overlong : ¬ WellFormed utf8 [0xC1, 0x81] ∧ toCaseFold [0xC1, 0x81] [9, 9] = .ok ((1, .ok), [0x61, 9]) := by
  refine ⟨?_, by decide +kernel⟩
  rintro ⟨cs, hcs, he⟩
  cases cs with
  | nil => cases he
  | cons c cs =>
    rw [encode_cons] at he
    have h := utf8Extract_utf8 c (scalars_cons.1 hcs).1 (encode utf8 cs)
    rw [← he, show utf8Extract [0xC1, 0x81] = .ok (some (0x41, [])) by decide] at h
    injection h with h; injection h with h; injection h with h1 h2
    rw [← h2, ← h1] at he
    exact absurd he (by decide)

/-! ## C211 Equality that ignores the case -/

theorem prefix_text : ∀ (cs ds : List Nat), Scalars cs → Scalars ds → encode utf8 cs <+: encode utf8 ds → cs <+: ds := by
  intro cs
  induction cs with
  | nil => intro ds _ _ _; exact List.nil_prefix
  | cons c cs ih =>
    intro ds hcs hds h
    obtain ⟨h1, h2⟩ := scalars_cons.1 hcs
    obtain ⟨t, h⟩ := h
    cases ds with
    | nil =>
      have := congrArg List.length h
      rw [encode_cons, List.length_append, List.length_append, encode_nil, List.length_nil] at this
      have := utf8_pos c
      omega
    | cons d ds =>
      obtain ⟨g1, g2⟩ := scalars_cons.1 hds
      have e1 := utf8Extract_utf8 c h1 (encode utf8 cs ++ t)
      have e2 := utf8Extract_utf8 d g1 (encode utf8 ds)
      rw [← List.append_assoc, ← encode_cons, h, encode_cons, e2] at e1
      injection e1 with e1; injection e1 with e1; injection e1 with e3 e4
      subst e3
      exact List.cons_prefix_cons.2 ⟨rfl, ih ds h2 g2 ⟨t, e4.symm⟩⟩

theorem encode_length_lt {cs ds : List Nat} (h : cs <+: ds) : (encode utf8 cs).length ≤ (encode utf8 ds).length ∧
    ((encode utf8 cs).length = (encode utf8 ds).length ↔ cs = ds) := by
  obtain ⟨t, rfl⟩ := h
  have e : encode utf8 (cs ++ t) = encode utf8 cs ++ encode utf8 t := List.flatMap_append
  rw [e, List.length_append]
  cases t with
  | nil => simp [encode_nil]
  | cons d t =>
    have := utf8_pos d
    rw [encode_cons, List.length_append]
    refine ⟨by omega, ⟨fun h => by omega, fun h => ?_⟩⟩
    have := congrArg List.length h
    simp at this

/-- Both texts begin at the same address only if one is the beginning of the other. -/
def Overlaps (same : Bool) (a b : List Byte) : Prop := same = true → a <+: b ∨ b <+: a

theorem folded_prefix {fold : List Nat → List Nat} (happ : ∀ xs ys, fold (xs ++ ys) = fold xs ++ fold ys) (hne : ∀ c cs, fold (c :: cs) ≠ [])
    {cs ds : List Nat} (h : cs <+: ds) (he : fold cs = fold ds) : cs = ds := by
  obtain ⟨t, rfl⟩ := h
  rw [happ] at he
  have : fold t = [] := List.eq_nil_of_length_eq_zero (by have := congrArg List.length he; rw [List.length_append] at this; omega)
  cases t with
  | nil => simp
  | cons d t => exact absurd this (hne d t)

theorem simple_app (xs ys : List Nat) : foldedSimple (xs ++ ys) = foldedSimple xs ++ foldedSimple ys := List.map_append
theorem full_app (xs ys : List Nat) : foldedFull (xs ++ ys) = foldedFull xs ++ foldedFull ys := List.flatMap_append
theorem simple_ne (c : Nat) (cs : List Nat) : foldedSimple (c :: cs) ≠ [] := by simp [foldedSimple]
theorem full_ne (c : Nat) (cs : List Nat) : foldedFull (c :: cs) ≠ [] := by
  rw [foldedFull, List.flatMap_cons]
  intro h
  exact fullFold_ne c (List.append_eq_nil_iff.1 h).1

theorem equals_same {fold : List Nat → List Nat} (happ : ∀ xs ys, fold (xs ++ ys) = fold xs ++ fold ys) (hne : ∀ c cs, fold (c :: cs) ≠ [])
    {cs ds : List Nat} (hcs : Scalars cs) (hds : Scalars ds) (h : encode utf8 cs <+: encode utf8 ds ∨ encode utf8 ds <+: encode utf8 cs) :
    ((encode utf8 cs).length == (encode utf8 ds).length) = decide (fold cs = fold ds) := by
  rw [Bool.eq_iff_iff]
  simp only [beq_iff_eq, decide_eq_true_eq]
  rcases h with h | h
  · have h1 := prefix_text _ _ hcs hds h
    rw [(encode_length_lt h1).2]
    exact ⟨fun h => by rw [h], folded_prefix happ hne h1⟩
  · have h1 := prefix_text _ _ hds hcs h
    rw [eq_comm, (encode_length_lt h1).2]
    exact ⟨fun h => by rw [h], fun h => folded_prefix happ hne h1 h.symm⟩

theorem took_text {cs : List Nat} (h : Scalars cs) : Took (encode utf8 cs) cs [] := by
  have := took_encode h (t := []) rfl
  rwa [List.append_nil] at this

/-- `tmu_utf8_equals_ignore_case_simple` says whether the folded texts are equal.

Missing: if the first text has exactly one code point more than the second one, and is equal up to there, then it is said to be equal, see
`C211_not_simple`. -/
theorem C211_simple_partial (cs ds : List Nat) (hcs : Scalars cs) (hds : Scalars ds) (same : Bool) (hs : Overlaps same (encode utf8 cs) (encode utf8 ds))
    (hm : same = false → ∀ x, foldedSimple cs ≠ foldedSimple ds ++ [x]) :
    equalsSimple same (encode utf8 cs) (encode utf8 ds) = .ok (decide (foldedSimple cs = foldedSimple ds)) := by
  rw [equalsSimple]
  cases same with
  | true => rw [if_pos rfl, equals_same simple_app simple_ne hcs hds (hs rfl)]
  | false =>
    rw [if_neg (by simp), equals_yields (yields_simple (took_text hcs)) _ (yields_simple (took_text hds))
      (by rw [foldedSimple_length]; have := took_length (took_text hcs); omega)]
    congr 1
    rw [Bool.eq_iff_iff, List.isEmpty_nil, eqv_iff, decide_eq_true_eq]
    exact ⟨fun h => h.elim id fun ⟨x, hx⟩ => absurd hx (hm rfl x), .inl⟩

/-- `tmu_utf8_equals_ignore_case` says whether the folded texts are equal.

Missing: as in `C211_simple_partial`, see `C211_not_full`. -/
theorem C211_full_partial (cs ds : List Nat) (hcs : Scalars cs) (hds : Scalars ds) (same : Bool) (hs : Overlaps same (encode utf8 cs) (encode utf8 ds))
    (hm : same = false → ∀ x, foldedFull cs ≠ foldedFull ds ++ [x]) :
    equalsFull same (encode utf8 cs) (encode utf8 ds) = .ok (decide (foldedFull cs = foldedFull ds)) := by
  rw [equalsFull]
  cases same with
  | true => rw [if_pos rfl, equals_same full_app full_ne hcs hds (hs rfl)]
  | false =>
    rw [if_neg (by simp), equals_yields (yields_full (took_text hcs)) _ (yields_full (took_text hds))
      (by have := foldedFull_length cs; have := took_length (took_text hcs); omega)]
    congr 1
    rw [Bool.eq_iff_iff, List.isEmpty_nil, eqv_iff, decide_eq_true_eq]
    exact ⟨fun h => h.elim id fun ⟨x, hx⟩ => absurd hx (hm rfl x), .inl⟩

/-- Whenever the first text has exactly one code point more than the second one, it is said to be equal. -/
theorem C211_not_simple (cs ds : List Nat) (hcs : Scalars cs) (hds : Scalars ds) (x : Nat) (h : foldedSimple cs = foldedSimple ds ++ [x]) :
    equalsSimple false (encode utf8 cs) (encode utf8 ds) = .ok true := by
  rw [equalsSimple, if_neg (by simp), equals_yields (yields_simple (took_text hcs)) _ (yields_simple (took_text hds))
      (by rw [foldedSimple_length]; have := took_length (took_text hcs); omega)]
  congr 1
  rw [List.isEmpty_nil, eqv_iff]
  exact .inr ⟨x, h⟩

/-- The same for the function with full folding. -/
theorem C211_not_full (cs ds : List Nat) (hcs : Scalars cs) (hds : Scalars ds) (x : Nat) (h : foldedFull cs = foldedFull ds ++ [x]) :
    equalsFull false (encode utf8 cs) (encode utf8 ds) = .ok true := by
  rw [equalsFull, if_neg (by simp), equals_yields (yields_full (took_text hcs)) _ (yields_full (took_text hds))
      (by have := foldedFull_length cs; have := took_length (took_text hcs); omega)]
  congr 1
  rw [List.isEmpty_nil, eqv_iff]
  exact .inr ⟨x, h⟩

/-- "ab" is said to be equal to "a", "a" to be equal to "", but not the other way round. -/
theorem C211_not_example : equalsFull false [0x61, 0x62] [0x61] = .ok true ∧ equalsFull false [0x61] [0x61, 0x62] = .ok false ∧
    equalsSimple false [0x61] [] = .ok true ∧ equalsSimple false [] [0x61] = .ok false := by decide +kernel

/-- "STRASSE" and "straße"; the letters of the alphabet in different cases; and texts that are not equal. -/
example : equalsFull false [0x53, 0x54, 0x52, 0x41, 0x53, 0x53, 0x45] [0x73, 0x74, 0x72, 0x61, 0xC3, 0x9F, 0x65] = .ok true ∧
    equalsSimple false [0x53, 0x53] [0xC3, 0x9F] = .ok false ∧ equalsSimple false [0xC3, 0x84] [0xC3, 0xA4] = .ok true := by decide +kernel

/-! ## C212 Order that ignores the case -/

/-- The order of natural numbers. -/
def below (c d : Nat) : Bool := decide (c < d)

theorem encode_empty {cs : List Nat} : (encode utf8 cs).length = 0 ↔ cs = [] := by
  cases cs with
  | nil => simp [encode_nil]
  | cons c cs =>
    have := utf8_pos c
    rw [encode_cons, List.length_append]
    simp
    intro h
    rw [h] at this
    simp at this

theorem lex_prefix {α : Type} (before : α → α → Bool) (hirr : ∀ x, before x x = false) (xs ys : List α) :
    lexBy before xs (xs ++ ys) = (if ys = [] then 0 else -1) ∧ lexBy before (xs ++ ys) xs = if ys = [] then 0 else 1 := by
  induction xs with
  | nil => cases ys <;> simp [lexBy]
  | cons x xs ih =>
    rw [List.cons_append, lexBy, lexBy, hirr]
    simpa using ih

theorem compare_same {α : Type} {before : α → α → Bool} (hirr : ∀ x, before x x = false) {fold : List Nat → List α} (happ : ∀ xs ys, fold (xs ++ ys) = fold xs ++ fold ys)
    (hnil : fold [] = []) (hne : ∀ c cs, fold (c :: cs) ≠ [])
    {cs ds : List Nat} (hcs : Scalars cs) (hds : Scalars ds) (h : encode utf8 cs <+: encode utf8 ds ∨ encode utf8 ds <+: encode utf8 cs) :
    (if (encode utf8 cs).length > (encode utf8 ds).length then 1 else if (encode utf8 cs).length < (encode utf8 ds).length then -1 else 0) =
      lexBy before (fold cs) (fold ds) := by
  have key : ∀ t : List Nat, fold t = [] ↔ t = [] := by
    intro t
    cases t with
    | nil => simp [hnil]
    | cons c t => simp [hne c t]
  rcases h with h | h
  · have h1 := prefix_text _ _ hcs hds h
    obtain ⟨g1, g2⟩ := encode_length_lt h1
    obtain ⟨t, rfl⟩ := h1
    rw [if_neg (by omega), happ, (lex_prefix before hirr _ _).1]
    by_cases ht : t = []
    · subst ht
      rw [if_pos ((key []).2 rfl), if_neg (by simp)]
    · have : (encode utf8 cs).length ≠ (encode utf8 (cs ++ t)).length := fun h => ht (by simpa using g2.1 h)
      rw [if_neg (fun h => ht ((key t).1 h)), if_pos (by omega)]
  · have h1 := prefix_text _ _ hds hcs h
    obtain ⟨g1, g2⟩ := encode_length_lt h1
    obtain ⟨t, rfl⟩ := h1
    rw [happ, (lex_prefix before hirr _ _).2]
    by_cases ht : t = []
    · subst ht
      rw [if_pos ((key []).2 rfl), if_neg (by simp), if_neg (by simp)]
    · have : (encode utf8 ds).length ≠ (encode utf8 (ds ++ t)).length := fun h => ht (by simpa using g2.1 h)
      rw [if_neg (fun h => ht ((key t).1 h)), if_pos (by omega)]

theorem lex_empty {α : Type} {before : α → α → Bool} {fold : List Nat → List α} (hnil : fold [] = []) (hne : ∀ c cs, fold (c :: cs) ≠ [])
    {cs ds : List Nat} (h : cs = [] ∨ ds = []) :
    (b2i ((encode utf8 ds).length == 0) - b2i ((encode utf8 cs).length == 0)) = lexBy before (fold cs) (fold ds) := by
  have z : ∀ (c : Nat) (l : List Nat), ((encode utf8 (c :: l)).length == 0) = false := by
    intro c l
    rw [beq_eq_false_iff_ne]
    intro h
    exact absurd (encode_empty.1 h) (by simp)
  cases cs with
  | nil =>
    cases ds with
    | nil => rw [hnil]; rfl
    | cons d ds =>
      obtain ⟨x, l, hx⟩ := List.exists_cons_of_ne_nil (hne d ds)
      rw [z, hnil, hx]
      rfl
  | cons c cs =>
    cases ds with
    | nil =>
      obtain ⟨x, l, hx⟩ := List.exists_cons_of_ne_nil (hne c cs)
      rw [z, hnil, hx]
      rfl
    | cons d ds => simp at h

theorem scalar_small {cs : List Nat} (h : Scalars cs) : ∀ c ∈ cs, c < 2 ^ 31 := by
  intro c hc
  have := scalar_le (h c hc)
  omega

/-- `tmu_utf8_compare_ignore_case_simple` is the lexicographic order of the folded texts: -1, 0 or 1.

Missing: if the first text has exactly one code point more than the second one, and is equal up to there, then the result is 0, see
`C212_not_simple`. -/
theorem C212_simple_partial (cs ds : List Nat) (hcs : Scalars cs) (hds : Scalars ds) (same : Bool) (hs : Overlaps same (encode utf8 cs) (encode utf8 ds))
    (hm : same = false → ds ≠ [] → ∀ x, foldedSimple cs ≠ foldedSimple ds ++ [x]) :
    compareSimple same (encode utf8 cs) (encode utf8 ds) = .ok (lexBy below (foldedSimple cs) (foldedSimple ds)) := by
  rw [compareSimple, compareWith]
  by_cases h0 : cs = [] ∨ ds = []
  · rw [if_pos (by rwa [encode_empty, encode_empty]), lex_empty rfl simple_ne h0]
  · rw [if_neg (by rwa [encode_empty, encode_empty])]
    cases same with
    | true => rw [if_pos rfl, compare_same (before := below) (by simp [below]) simple_app rfl simple_ne hcs hds (hs rfl)]
    | false =>
      rw [if_neg (by simp), compare_yields (yields_simple (took_text hcs)) _ (yields_simple (took_text hds))
        (by rw [foldedSimple_length]; have := took_length (took_text hcs); omega) (scalar_small (foldedSimple_scalars hcs)) (scalar_small (foldedSimple_scalars hds)),
        List.isEmpty_nil, cmp_lex _ _ (hm rfl fun h => h0 (.inr h))]
      rfl

/-- `tmu_utf8_compare_ignore_case` is the lexicographic order of the folded texts: -1, 0 or 1.

Missing: as in `C212_simple_partial`, see `C212_not_full`. -/
theorem C212_full_partial (cs ds : List Nat) (hcs : Scalars cs) (hds : Scalars ds) (same : Bool) (hs : Overlaps same (encode utf8 cs) (encode utf8 ds))
    (hm : same = false → ds ≠ [] → ∀ x, foldedFull cs ≠ foldedFull ds ++ [x]) :
    compareFull same (encode utf8 cs) (encode utf8 ds) = .ok (lexBy below (foldedFull cs) (foldedFull ds)) := by
  rw [compareFull, compareWith]
  by_cases h0 : cs = [] ∨ ds = []
  · rw [if_pos (by rwa [encode_empty, encode_empty]), lex_empty rfl full_ne h0]
  · rw [if_neg (by rwa [encode_empty, encode_empty])]
    cases same with
    | true => rw [if_pos rfl, compare_same (before := below) (by simp [below]) full_app rfl full_ne hcs hds (hs rfl)]
    | false =>
      rw [if_neg (by simp), compare_yields (yields_full (took_text hcs)) _ (yields_full (took_text hds))
        (by have := foldedFull_length cs; have := took_length (took_text hcs); omega) (scalar_small (foldedFull_scalars hcs)) (scalar_small (foldedFull_scalars hds)),
        List.isEmpty_nil, cmp_lex _ _ (hm rfl fun h => h0 (.inr h))]
      rfl

/-- Whenever the first text has exactly one code point more than the second one, which is not empty, the result is 0; with the arguments swapped, it
is -1: sorting with this function depends on the order in which it is asked. -/
theorem C212_not_simple (cs ds : List Nat) (hcs : Scalars cs) (hds : Scalars ds) (h0 : ds ≠ []) (x : Nat) (h : foldedSimple cs = foldedSimple ds ++ [x]) :
    compareSimple false (encode utf8 cs) (encode utf8 ds) = .ok 0 ∧ compareSimple false (encode utf8 ds) (encode utf8 cs) = .ok (-1) := by
  have hl := congrArg List.length h
  rw [List.length_append, foldedSimple_length, foldedSimple_length, List.length_singleton] at hl
  have hc0 : cs ≠ [] := by rintro rfl; simp at hl
  refine ⟨?_, ?_⟩
  · rw [compareSimple, compareWith, if_neg (by rw [encode_empty, encode_empty]; simp [h0, hc0]), if_neg (by simp),
      compare_yields (yields_simple (took_text hcs)) _ (yields_simple (took_text hds))
        (by rw [foldedSimple_length]; have := took_length (took_text hcs); omega) (scalar_small (foldedSimple_scalars hcs)) (scalar_small (foldedSimple_scalars hds)),
        List.isEmpty_nil, h, cmp_more]
  · rw [C212_simple_partial ds cs hds hcs false (by simp [Overlaps]) (fun _ _ y hy => ?_), h, (lex_prefix below (by simp [below]) _ _).1, if_neg (by simp)]
    have := congrArg List.length hy
    rw [List.length_append, foldedSimple_length, foldedSimple_length, List.length_singleton] at this
    omega

/-- The same for the function with full folding. -/
theorem C212_not_full (cs ds : List Nat) (hcs : Scalars cs) (hds : Scalars ds) (h0 : ds ≠ []) (x : Nat) (h : foldedFull cs = foldedFull ds ++ [x]) :
    compareFull false (encode utf8 cs) (encode utf8 ds) = .ok 0 ∧ compareFull false (encode utf8 ds) (encode utf8 cs) = .ok (-1) := by
  have hl := congrArg List.length h
  rw [List.length_append, List.length_singleton] at hl
  have hc0 : cs ≠ [] := by rintro rfl; simp [foldedFull] at hl
  refine ⟨?_, ?_⟩
  · rw [compareFull, compareWith, if_neg (by rw [encode_empty, encode_empty]; simp [h0, hc0]), if_neg (by simp),
      compare_yields (yields_full (took_text hcs)) _ (yields_full (took_text hds))
        (by have := foldedFull_length cs; have := took_length (took_text hcs); omega) (scalar_small (foldedFull_scalars hcs)) (scalar_small (foldedFull_scalars hds)),
        List.isEmpty_nil, h, cmp_more]
  · rw [C212_full_partial ds cs hds hcs false (by simp [Overlaps]) (fun _ _ y hy => ?_), h, (lex_prefix below (by simp [below]) _ _).1, if_neg (by simp)]
    have := congrArg List.length hy
    rw [List.length_append, List.length_singleton] at this
    omega

/-- "ab" compared with "a". -/
theorem C212_not_example : compareFull false [0x61, 0x62] [0x61] = .ok 0 ∧ compareSimple false [0x61, 0x62] [0x61] = .ok 0 ∧
    compareSimple false [0x61] [0x61, 0x62] = .ok (-1) := by decide +kernel

example : compareFull false [0x61, 0x62, 0x63] [0x61] = .ok 1 ∧ compareFull false [0x53, 0x53, 0x41] [0xC3, 0x9F, 0x62] = .ok (-1) ∧
    compareSimple false [0x42] [0x61] = .ok 1 := by decide +kernel

/-! ## C213 The order for people -/

/-- The order of the tokens is that of the numbers that represent them. -/
theorem code_lex : ∀ (ta tb : List Token), (∀ t ∈ ta, ∀ c, t = .letter c → c < 0x10FFFF) → (∀ t ∈ tb, ∀ c, t = .letter c → c < 0x10FFFF) →
    (∀ t ∈ ta, ∀ n, t = .number n → n < 2 ^ 31 - 0x10FFFF) → (∀ t ∈ tb, ∀ n, t = .number n → n < 2 ^ 31 - 0x10FFFF) →
    lexBy (fun c d => decide (c < d)) (ta.map code) (tb.map code) = lexBy Token.before ta tb := by
  intro ta
  induction ta with
  | nil => intro tb _ _ _ _; cases tb <;> rfl
  | cons a ta ih =>
    intro tb h1 h2 h3 h4
    cases tb with
    | nil => rfl
    | cons b tb =>
      rw [List.map_cons, List.map_cons, lexBy, lexBy, ih tb (fun t ht => h1 t (by simp [ht])) (fun t ht => h2 t (by simp [ht]))
        (fun t ht => h3 t (by simp [ht])) (fun t ht => h4 t (by simp [ht]))]
      have key : ∀ x y : Token, (∀ c, x = .letter c → c < 0x10FFFF) → (∀ c, y = .letter c → c < 0x10FFFF) →
          (∀ n, x = .number n → n < 2 ^ 31 - 0x10FFFF) → (∀ n, y = .number n → n < 2 ^ 31 - 0x10FFFF) → decide (code x < code y) = x.before y := by
        intro x y g1 g2 g3 g4
        cases x with
        | letter c =>
          cases y with
          | letter d => rfl
          | number n =>
            have := g1 c rfl
            have := g4 n rfl
            rw [code, code, Token.before, decide_eq_true_eq]
            omega
        | number m =>
          have := g3 m rfl
          cases y with
          | letter d =>
            have := g2 d rfl
            rw [code, code, Token.before, decide_eq_false_iff_not]
            omega
          | number n =>
            have := g4 n rfl
            rw [code, code, Token.before, decide_eq_decide]
            omega
      rw [key a b (h1 a (by simp)) (h2 b (by simp)) (h3 a (by simp)) (h4 b (by simp)), key b a (h2 b (by simp)) (h1 a (by simp)) (h4 b (by simp)) (h3 a (by simp))]

/-- The tokens that `int` has room for. -/
def Representable (ts : List Token) : Prop := (∀ n, .number n ∈ ts → n < 2 ^ 31 - 0x10FFFF) ∧ .letter 0x10FFFF ∉ ts

theorem tokens_letters (fold : Nat → List Nat) (hf : ∀ c, Scalar c → ∀ x ∈ fold c, x ≤ 0x10FFFF) : ∀ (cs : List Nat) (p : Option Nat), Scalars cs →
    ∀ c, .letter c ∈ tokens fold p cs → c ≤ 0x10FFFF := by
  intro cs
  induction cs with
  | nil => intro p _ c h; cases p <;> simp [tokens] at h
  | cons d cs ih =>
    intro p hs c h
    obtain ⟨h1, h2⟩ := scalars_cons.1 hs
    rw [tokens.eq_3] at h
    split at h
    · exact ih _ h2 c h
    · simp only [List.mem_append, List.mem_map, Option.mem_toList] at h
      rcases h with (h | ⟨x, hx, h⟩) | h
      · cases p <;> simp at h
      · cases h
        exact hf d h1 c hx
      · exact ih _ h2 c h

theorem tokens_some (fold : Nat → List Nat) : ∀ (cs : List Nat) (n : Nat), tokens fold (some n) cs ≠ [] := by
  intro cs
  induction cs with
  | nil => intro n; simp [tokens]
  | cons c cs ih =>
    intro n
    rw [tokens.eq_3]
    split
    · exact ih _
    · simp

theorem tokens_ne (fold : Nat → List Nat) (hf : ∀ c, fold c ≠ []) (c : Nat) (cs : List Nat) : tokens fold none (c :: cs) ≠ [] := by
  rw [tokens.eq_3]
  split
  · exact tokens_some fold cs _
  · simp [hf c]

theorem code_small {ts : List Token} (h : Representable ts) (hl : ∀ c, .letter c ∈ ts → c ≤ 0x10FFFF) : ∀ x ∈ ts.map code, x < 2 ^ 31 := by
  intro x hx
  obtain ⟨t, h1, rfl⟩ := List.mem_map.1 hx
  cases t with
  | letter c =>
    have := hl c h1
    rw [code]
    omega
  | number n =>
    have := h.1 n h1
    rw [code]
    omega

theorem code_more : ∀ (ta tb : List Token), Representable ta → Representable tb → (∀ c, .letter c ∈ ta → c ≤ 0x10FFFF) → (∀ c, .letter c ∈ tb → c ≤ 0x10FFFF) →
    (∀ x, ta ≠ tb ++ [x]) → ∀ x, ta.map code ≠ tb.map code ++ [x] := by
  intro ta
  induction ta with
  | nil => intro tb _ _ _ _ _ x h; simp at h
  | cons a ta ih =>
    intro tb h1 h2 h3 h4 h5 x h
    cases tb with
    | nil =>
      cases ta with
      | nil => exact h5 a rfl
      | cons _ _ => simp at h
    | cons b tb =>
      rw [List.map_cons, List.map_cons, List.cons_append] at h
      obtain ⟨g1, g2⟩ := List.cons.inj h
      have hab : a = b := by
        cases a with
        | letter c =>
          have hc := h3 c (by simp)
          have hc' : c ≠ 0x10FFFF := by rintro rfl; exact h1.2 (by simp)
          cases b with
          | letter d => exact congrArg _ g1
          | number n =>
            have := h2.1 n (by simp)
            rw [code, code] at g1
            omega
        | number m =>
          have := h1.1 m (by simp)
          cases b with
          | letter d =>
            have hd := h4 d (by simp)
            have hd' : d ≠ 0x10FFFF := by rintro rfl; exact h2.2 (by simp)
            rw [code, code] at g1
            omega
          | number n =>
            have := h2.1 n (by simp)
            rw [code, code] at g1
            have : m = n := by omega
            rw [this]
      subst hab
      exact ih tb ⟨fun n hn => h1.1 n (by simp [hn]), fun hc => h1.2 (by simp [hc])⟩ ⟨fun n hn => h2.1 n (by simp [hn]), fun hc => h2.2 (by simp [hc])⟩
        (fun c hc => h3 c (by simp [hc])) (fun c hc => h4 c (by simp [hc])) (fun y hy => h5 y (by rw [hy]; rfl)) x g2

theorem human_key {σ : Type} {next : σ → C (Option (Nat × σ))} {atEnd : σ → Bool} {a b : σ} {ta tb : List Token} {fuel : Nat}
    (ha : Yields next atEnd a (ta.map code) true) (hb : Yields next atEnd b (tb.map code) true) (hf : ta.length < fuel)
    (h1 : Representable ta) (h2 : Representable tb) (h3 : ∀ c, .letter c ∈ ta → c ≤ 0x10FFFF) (h4 : ∀ c, .letter c ∈ tb → c ≤ 0x10FFFF)
    (hm : ∀ x, ta ≠ tb ++ [x]) : compareLoop next atEnd fuel a b = .ok (lexBy Token.before ta tb) := by
  rw [compare_yields ha fuel hb (by rwa [List.length_map]) (code_small h1 h3) (code_small h2 h4), cmp_lex _ _ (code_more ta tb h1 h2 h3 h4 hm), code_lex ta tb]
  · rintro t ht c rfl
    have := h3 c ht
    have : c ≠ 0x10FFFF := by rintro rfl; exact h1.2 ht
    omega
  · rintro t ht c rfl
    have := h4 c ht
    have : c ≠ 0x10FFFF := by rintro rfl; exact h2.2 ht
    omega
  · rintro t ht n rfl
    exact h1.1 n ht
  · rintro t ht n rfl
    exact h2.1 n ht

/-- `tmu_utf8_human_compare_simple` orders texts as people do: numbers by their value, and other characters by their folding.

Missing: numbers of 2146369537 and more and U+10FFFF (see `C213_not_large` and `C213_not_letter`), a first text with one token more than the second one
(see `C213_not_longer`), and texts at the same address, which are ordered by their length (see `C213_not_same`). -/
theorem C213_simple_partial (cs ds : List Nat) (hcs : Scalars cs) (hds : Scalars ds)
    (h1 : Representable (tokens (fun c => [simpleFold c]) none cs)) (h2 : Representable (tokens (fun c => [simpleFold c]) none ds))
    (hm : ds ≠ [] → ∀ x, tokens (fun c => [simpleFold c]) none cs ≠ tokens (fun c => [simpleFold c]) none ds ++ [x]) :
    humanSimple false (encode utf8 cs) (encode utf8 ds) =
      .ok (lexBy Token.before (tokens (fun c => [simpleFold c]) none cs) (tokens (fun c => [simpleFold c]) none ds)) := by
  rw [humanSimple, compareWith]
  by_cases h0 : cs = [] ∨ ds = []
  · rw [if_pos (by rwa [encode_empty, encode_empty]), lex_empty (fold := tokens (fun c => [simpleFold c]) none) rfl (tokens_ne _ (by simp)) h0]
  · rw [if_neg (by rwa [encode_empty, encode_empty]), if_neg (by simp)]
    have hl : ∀ c, Scalar c → ∀ x ∈ [simpleFold c], x ≤ 0x10FFFF := by
      intro c hc x hx
      rw [List.mem_singleton.1 hx]
      exact scalar_le (simpleFold_scalar hc)
    refine human_key (yields_humanSimple _ cs (Nat.le_refl _) hcs) (yields_humanSimple _ ds (Nat.le_refl _) hds) ?_ h1 h2 (tokens_letters _ hl cs none hcs)
      (tokens_letters _ hl ds none hds) (hm fun h => h0 (.inr h))
    have := tokens_length1 cs none
    have := took_length (took_text hcs)
    simp only [Option.toList_none, List.length_nil] at *
    omega

/-- `tmu_utf8_human_compare` orders texts as people do: numbers by their value, and other characters by their folding.

Missing: as in `C213_simple_partial`. -/
theorem C213_full_partial (cs ds : List Nat) (hcs : Scalars cs) (hds : Scalars ds)
    (h1 : Representable (tokens fullFold none cs)) (h2 : Representable (tokens fullFold none ds))
    (hm : ds ≠ [] → ∀ x, tokens fullFold none cs ≠ tokens fullFold none ds ++ [x]) :
    humanFull false (encode utf8 cs) (encode utf8 ds) = .ok (lexBy Token.before (tokens fullFold none cs) (tokens fullFold none ds)) := by
  rw [humanFull, compareWith]
  by_cases h0 : cs = [] ∨ ds = []
  · rw [if_pos (by rwa [encode_empty, encode_empty]), lex_empty (fold := tokens fullFold none) rfl (tokens_ne _ fullFold_ne) h0]
  · rw [if_neg (by rwa [encode_empty, encode_empty]), if_neg (by simp)]
    have hl : ∀ c, Scalar c → ∀ x ∈ fullFold c, x ≤ 0x10FFFF := fun c hc x hx => scalar_le (fullFold_scalar hc x hx)
    refine human_key (yields_human _ cs (Nat.le_refl _) hcs) (yields_human _ ds (Nat.le_refl _) hds) ?_ h1 h2 (tokens_letters _ hl cs none hcs)
      (tokens_letters _ hl ds none hds) (hm fun h => h0 (.inr h))
    have := tokens_length fullFold fullFold_length cs none
    have := took_length (took_text hcs)
    simp only [Option.toList_none, List.length_nil] at *
    omega

/-- "File9" is before "file10", "a2b" is before "A02c". -/
example : Representable (tokens fullFold none [0x46, 0x69, 0x6C, 0x65, 0x39]) ∧ humanFull false [0x46, 0x69, 0x6C, 0x65, 0x39] [0x66, 0x69, 0x6C, 0x65, 0x31, 0x30] = .ok (-1) ∧
    humanSimple false [0x61, 0x32, 0x62] [0x41, 0x30, 0x32, 0x63] = .ok (-1) ∧ humanFull false [0x37] [0x30, 0x30, 0x37] = .ok 0 := by
  refine ⟨⟨?_, by decide +kernel⟩, by decide +kernel⟩
  rw [show tokens fullFold none [0x46, 0x69, 0x6C, 0x65, 0x39] = [.letter 0x66, .letter 0x69, .letter 0x6C, .letter 0x65, .number 9] by decide +kernel]
  intro n hn
  simp at hn
  omega

/-- "3000000000" is before "1", "4294967297" is the same as "1", and to compare "2147483648" with "1" overflows an `int`. -/
theorem C213_not_large : humanFull false [0x33, 0x30, 0x30, 0x30, 0x30, 0x30, 0x30, 0x30, 0x30, 0x30] [0x31] = .ok (-1) ∧
    humanFull false [0x34, 0x32, 0x39, 0x34, 0x39, 0x36, 0x37, 0x32, 0x39, 0x37] [0x31] = .ok 0 ∧
    humanSimple false [0x32, 0x31, 0x34, 0x37, 0x34, 0x38, 0x33, 0x36, 0x34, 0x38] [0x31] = .error .overflow := by decide +kernel

/-- U+10FFFF is the same as the number 0. -/
theorem C213_not_letter : humanFull false (utf8 0x10FFFF) [0x30] = .ok 0 ∧ humanSimple false (utf8 0x10FFFF) [0x30] = .ok 0 := by decide +kernel

/-- "b1" compared with "b" is 0, but "b" compared with "b1" is -1. -/
theorem C213_not_longer : humanFull false [0x62, 0x31] [0x62] = .ok 0 ∧ humanFull false [0x62] [0x62, 0x31] = .ok (-1) ∧ humanSimple false [0x62, 0x31] [0x62] = .ok 0 := by
  decide +kernel

/-- "0" and "00" are the same number; but if both begin at the same address, "0" is before "00". -/
theorem C213_not_same : humanFull false [0x30] [0x30, 0x30] = .ok 0 ∧ humanFull true [0x30] [0x30, 0x30] = .ok (-1) := by decide +kernel

/-- To compare two texts that both have an overlong form of a digit at the same place never ends: no number of rounds is enough. -/
theorem C213_not_ending (fuel : Nat) : compareLoop nextHuman FoldStream.atEnd fuel ⟨[0xC0, 0xB0], none⟩ ⟨[0xC0, 0xB0], none⟩ = .error .diverge ∧
    compareLoop nextHumanSimple List.isEmpty fuel [0xC0, 0xB0] [0xC0, 0xB0] = .error .diverge := by
  have h1 : nextHuman ⟨[0xC0, 0xB0], none⟩ = .ok (some (0x10FFFF, ⟨[0xC0, 0xB0], none⟩)) := by decide +kernel
  have h2 : nextHumanSimple [0xC0, 0xB0] = .ok (some (0x10FFFF, [0xC0, 0xB0])) := by decide +kernel
  have h3 : diff32 0x10FFFF 0x10FFFF = .ok 0 := by decide
  induction fuel with
  | zero => exact ⟨rfl, rfl⟩
  | succ n ih =>
    refine ⟨?_, ?_⟩
    · rw [compareLoop, h1, ok_bind]
      simp only [ok_bind, h3]
      exact ih.1
    · rw [compareLoop, h2, ok_bind]
      simp only [ok_bind, h3]
      exact ih.2

end Tm.Uni
