import Verif.Fmt.Malformed
import Verif.Dbl.PrintProps
/-!
# tm_print.h: what format strings print

The properties C176 to C183. `Spec.lean` says what a format string means.
-/
namespace Tm.Fmt
open Tm.Num Tm.Conv Tm.Dbl

/-! ## a printer with a buffer, a printer with memory -/

theorem fixed_start {buf : List Byte} {len : Nat} (h : len ≤ buf.length) : Fixed buf len [] { data := buf, capacity := len, canGrow := false } :=
  ⟨rfl, rfl, rfl, Nat.zero_le _, h, sameOutside_refl _ _ _, .inl ⟨rfl, rfl, by simp [splice]⟩⟩

theorem toInt32_ofNat {n : Nat} (h : n < 2 ^ 31) : toInt32 n = n := by
  rw [toInt32, BitVec.toInt_eq_toNat_cond, BitVec.toNat_ofNat]
  omega

theorem snprint_ends {mem : List Byte} {last : Nat} {args : List Arg} {out : List Byte}
    (h : Ends noAlloc out (printImpl noAlloc mem last defaultFormat args)) {buf : List Byte} {len : Nat} (hl : len ≤ buf.length)
    (hout : out.length < 2 ^ 31) :
    ∃ b, snprint buf len mem last defaultFormat args = .ok ((out.length : Int), b) ∧ SameOutside buf b 0 len ∧
      (out.length < len → b = out ++ 0 :: buf.drop (out.length + 1)) ∧
      (out.length = len → 0 < len → b = out.take (len - 1) ++ 0 :: buf.drop len) := by
  obtain ⟨p, e1, e2⟩ := h.fixed buf len [] _ (fixed_start hl)
  rw [List.nil_append] at e2
  rw [snprint, e1, ok_bind]
  have hlen := e2.same.1
  rcases e2.state with ⟨s1, s2, s3⟩ | ⟨s1, s2⟩
  · have hs := e2.size
    have hc := e2.cap
    have hr : remaining p = .ok (len - out.length) := by
      rw [remaining, assert, if_pos (by simp; omega), ok_bind, hc, s2]
    have hd : p.data = out ++ buf.drop out.length := by rw [s3, splice]; simp
    rw [if_pos s1, hr, ok_bind, terminate]
    by_cases hlt : out.length < len
    · have hw : p.data.set out.length 0 = out ++ 0 :: buf.drop (out.length + 1) := by
        rw [hd, List.set_append_right _ _ (Nat.le_refl _), Nat.sub_self, List.drop_eq_getElem_cons (by omega)]
        rfl
      refine ⟨out ++ 0 :: buf.drop (out.length + 1), ?_, ⟨by simp; omega, fun i hi => ?_⟩, fun _ => rfl, fun h => by omega⟩
      · rw [if_pos (by omega), s2, wr, if_pos (by omega), hw, ok_bind, toInt32_ofNat hout]
      · rw [List.getElem?_append_right (by omega)]
        obtain ⟨k, hk⟩ : ∃ k, i - out.length = k + 1 := ⟨i - out.length - 1, by omega⟩
        rw [hk, List.getElem?_cons_succ, List.getElem?_drop]
        congr 1; omega
    · have heq : out.length = len := by omega
      rw [if_neg (by omega)]
      by_cases h0 : 0 < len
      · have hw : p.data.set (len - 1) 0 = out.take (len - 1) ++ 0 :: buf.drop len := by
          rw [hd, List.set_append_left _ _ (by omega), heq]
          rw [List.set_eq_take_append_cons_drop, if_pos (by omega), show len - 1 + 1 = len by omega, List.drop_eq_nil_of_le (by omega)]
          simp
        refine ⟨out.take (len - 1) ++ 0 :: buf.drop len, ?_, ⟨by simp; omega, fun i hi => ?_⟩, fun h => by omega, fun _ _ => rfl⟩
        · rw [if_pos h0, wr, if_pos (by omega), hw, ok_bind, s2, toInt32_ofNat hout]
        · rw [List.getElem?_append_right (by simp; omega), List.length_take]
          obtain ⟨k, hk⟩ : ∃ k, i - min (len - 1) out.length = k + 1 := ⟨i - min (len - 1) out.length - 1, by omega⟩
          rw [hk, List.getElem?_cons_succ, List.getElem?_drop]
          congr 1; omega
      · refine ⟨p.data, ?_, e2.same, fun h => by omega, fun _ h => by omega⟩
        rw [if_neg h0, ok_bind, s2, toInt32_ofNat hout]
  · refine ⟨p.data, ?_, e2.same, fun h => by omega, fun h => by omega⟩
    rw [if_neg (by rw [s1]; decide), if_pos s1, e2.nec, toInt32_ofNat hout]

theorem snprint_fails {mem : List Byte} {last : Nat} {args : List Arg} (h : Fails noAlloc (printImpl noAlloc mem last defaultFormat args))
    {buf : List Byte} {len : Nat} (hl : len ≤ buf.length) :
    ∃ b, snprint buf len mem last defaultFormat args = .ok (-1, b) ∧ SameOutside buf b 0 len := by
  obtain ⟨p, e1, e2, e3⟩ := h.fixed buf len [] _ (fixed_start hl)
  refine ⟨p.data, ?_, e3⟩
  rw [snprint, e1, ok_bind, if_neg (by rw [e2]; decide), if_neg (by rw [e2]; decide)]

/-! ## the examples -/

/-- "a{}b{{x{1:#06x}}}" -/
def sampleParts : List Part :=
  [.lit 97, .field {}, .lit 98, .openBrace, .lit 120, .field { index := some 1, spec := some { flags := [35, 48], width := some 6, specifier := some 120 } },
    .closeBrace]

def sampleArgs : List Arg := [.i32 (-42), .u32 255]

theorem sample_text : formatText sampleParts = bytes "a{}b{{x{1:#06x}}}" := by decide +kernel

theorem sample_ok : ∀ x ∈ sampleParts, x.Ok := by
  intro x hx
  simp only [sampleParts, List.mem_cons, List.not_mem_nil, or_false] at hx
  rcases hx with rfl | rfl | rfl | rfl | rfl | rfl | rfl
  · exact ⟨by decide, by decide⟩
  · exact ⟨fun n h => (by cases h), fun s h => (by cases h)⟩
  · exact ⟨by decide, by decide⟩
  · trivial
  · exact ⟨by decide, by decide⟩
  · refine ⟨fun n h => (by cases h; decide), fun s h => ?_⟩
    cases h
    exact ⟨by decide, fun n h => (by cases h; decide), fun n h => (by cases h), fun c h => by cases h; decide⟩
  · trivial

theorem sample_renders : Renders sampleArgs 0 sampleParts (bytes "a-42b{x0x00ff}") :=
  ⟨_, ⟨_, _, _, rfl, rfl, ⟨_, ⟨_, ⟨_, ⟨_, _, _, rfl, rfl, ⟨_, rfl, rfl⟩, rfl⟩, rfl⟩, rfl⟩, rfl⟩, rfl⟩, by decide +kernel⟩

theorem sample_front_renders : Renders sampleArgs 0 sampleParts.dropLast (bytes "a-42b{x0x00ff") :=
  ⟨_, ⟨_, _, _, rfl, rfl, ⟨_, ⟨_, ⟨_, ⟨_, _, _, rfl, rfl, rfl, rfl⟩, rfl⟩, rfl⟩, rfl⟩, rfl⟩, by decide +kernel⟩

theorem sample_fine : AllFine sampleArgs 0 sampleParts ∧ BracesFine false sampleParts :=
  ⟨⟨fun a h => by cases h; exact (by decide : (-42 : BitVec 32) ≠ BitVec.intMin 32), fun a h => by cases h; trivial, trivial⟩, rfl, rfl, trivial⟩

/-! ## C176: what is printed -/

/-- All of the text is in the buffer, with a zero byte behind it; the bytes behind that keep their values. Restricted by `AllFine` and
`BracesFine` (see `Spec.lean`) and to texts shorter than 2^31 bytes. -/
theorem C176_snprint_partial {args : List Arg} (hn : args.length ≤ 16) {ps : List Part} (hok : ∀ x ∈ ps, x.Ok) {out : List Byte}
    (hr : Renders args 0 ps out) (ha : AllFine args 0 ps) (hb : BracesFine false ps) (behind : List Byte)
    {buf : List Byte} {len : Nat} (hl : len ≤ buf.length) (hroom : out.length < len) (hsize : out.length < 2 ^ 31) :
    snprint buf len (formatText ps ++ behind) (formatText ps).length defaultFormat args =
      .ok ((out.length : Int), out ++ 0 :: buf.drop (out.length + 1)) := by
  obtain ⟨b, e1, -, e2, -⟩ := snprint_ends (printImpl_ends noAlloc hn hok hr ha hb behind) hl hsize
  rw [e1, e2 hroom]

/-- "}}" before a placeholder: the code looks for the brace that closes the placeholder from the start of the text on, finds the first one
of "}}" and reads behind the format string. -/
theorem C176_not_escaped_brace : snprint (List.replicate 20 95) 20 (bytes "}}{}" ++ [0]) 4 defaultFormat [.i32 1] = .error .oob := by decide +kernel

/-- "ab" in a field of 5 chars: only the blanks are in the result. -/
theorem C176_not_string_width : snprint (List.replicate 8 95) 8 (bytes "{:5}|" ++ [0]) 5 defaultFormat [.view (bytes "ab")] =
    .ok (3, bytes "  |" ++ 0 :: bytes "b___") := by decide +kernel

/-- A truth value in a field that is wider than its word: chars get lost, or an assertion fails. -/
theorem C176_not_bool_width : snprint (List.replicate 8 95) 8 (bytes "{:6}|" ++ [0]) 5 defaultFormat [.bool true] =
      .ok (5, bytes "  TR|" ++ 0 :: bytes "__") ∧
    snprint (List.replicate 8 95) 4 (bytes "{:6}|" ++ [0]) 5 defaultFormat [.bool true] = .error .assertion := by decide +kernel

/-- The least `int`: its negation overflows. -/
theorem C176_not_least : snprint (List.replicate 20 95) 20 (bytes "{}" ++ [0]) 2 defaultFormat [.i32 (BitVec.intMin 32)] = .error .overflow ∧
    snprint (List.replicate 30 95) 30 (bytes "{}" ++ [0]) 2 defaultFormat [.i64 (BitVec.intMin 64)] = .error .overflow := by decide +kernel

/-- Two signs for a negative zero. -/
theorem C176_not_two_signs : snprint (List.replicate 12 95) 12 (bytes "{:+}" ++ [0]) 4 defaultFormat [.double (true, .fin 0)] =
    .ok (10, bytes "+-0.000000" ++ 0 :: bytes "_") := by decide +kernel

example : snprint (List.replicate 20 95) 18 (bytes "a{}b{{x{1:#06x}}}" ++ [0]) 17 defaultFormat sampleArgs =
    .ok (14, bytes "a-42b{x0x00ff}" ++ 0 :: bytes "_____") := by
  have := C176_snprint_partial (args := sampleArgs) (by decide) sample_ok sample_renders sample_fine.1 sample_fine.2 [0]
    (buf := List.replicate 20 95) (len := 18) (by decide) (by decide) (by decide)
  rw [sample_text] at this
  exact this

/-! ## C177: the result says how much room is necessary -/

/-- The result is the size of the whole text, whatever the room. If it is the room, the last char made way for the zero byte. Restricted as
`C176_snprint_partial`. -/
theorem C177_size_partial {args : List Arg} (hn : args.length ≤ 16) {ps : List Part} (hok : ∀ x ∈ ps, x.Ok) {out : List Byte}
    (hr : Renders args 0 ps out) (ha : AllFine args 0 ps) (hb : BracesFine false ps) (behind : List Byte)
    {buf : List Byte} {len : Nat} (hl : len ≤ buf.length) (hsize : out.length < 2 ^ 31) :
    ∃ b, snprint buf len (formatText ps ++ behind) (formatText ps).length defaultFormat args = .ok ((out.length : Int), b) ∧
      (out.length = len → 0 < len → b = out.take (len - 1) ++ 0 :: buf.drop len) := by
  obtain ⟨b, e1, -, -, e2⟩ := snprint_ends (printImpl_ends noAlloc hn hok hr ha hb behind) hl hsize
  exact ⟨b, e1, e2⟩

/-- Without a buffer the result is the size, too: print twice, first to find out how much memory to allocate. -/
theorem C177_twice_partial {args : List Arg} (hn : args.length ≤ 16) {ps : List Part} (hok : ∀ x ∈ ps, x.Ok) {out : List Byte}
    (hr : Renders args 0 ps out) (ha : AllFine args 0 ps) (hb : BracesFine false ps) (behind : List Byte) (hsize : out.length < 2 ^ 31) :
    ∃ n : Nat, snprint [] 0 (formatText ps ++ behind) (formatText ps).length defaultFormat args = .ok ((n : Int), []) ∧
      ∀ buf : List Byte, buf.length = n + 1 →
        snprint buf (n + 1) (formatText ps ++ behind) (formatText ps).length defaultFormat args = .ok ((n : Int), out ++ [0]) := by
  obtain ⟨b, e1, e2, -⟩ := snprint_ends (printImpl_ends noAlloc hn hok hr ha hb behind) (buf := []) (len := 0) (by simp) hsize
  refine ⟨out.length, ?_, fun buf hbuf => ?_⟩
  · rw [e1, List.eq_nil_of_length_eq_zero e2.1]
  · rw [C176_snprint_partial hn hok hr ha hb behind (by omega) (by omega) hsize, List.drop_eq_nil_of_le (by omega)]

/-- A wide field for a truth value: the result (4) is not the number of chars in the field (6). -/
theorem C177_not_bool_width : snprint (List.replicate 8 95) 8 (bytes "{:6}" ++ [0]) 4 defaultFormat [.bool true] =
    .ok (4, bytes "  TR" ++ 0 :: bytes "E__") := by decide +kernel

example : snprint (List.replicate 20 95) 14 (bytes "a{}b{{x{1:#06x}}}" ++ [0]) 17 defaultFormat sampleArgs =
      .ok (14, bytes "a-42b{x0x00ff" ++ 0 :: bytes "______") ∧
    (∃ b, snprint (List.replicate 20 95) 5 (bytes "a{}b{{x{1:#06x}}}" ++ [0]) 17 defaultFormat sampleArgs = .ok (14, b)) := by
  have h := fun len hl => C177_size_partial (args := sampleArgs) (by decide) sample_ok sample_renders sample_fine.1 sample_fine.2 [0]
    (buf := List.replicate 20 95) (len := len) hl (by decide)
  rw [sample_text] at h
  obtain ⟨b, h1, h2⟩ := h 14 (by decide)
  obtain ⟨c, h3, -⟩ := h 5 (by decide)
  exact ⟨h1.trans (by rw [h2 (by decide) (by decide)]; rfl), c, h3⟩

/-! ## C178: only the buffer is written -/

/-- Whatever the room, the bytes behind the buffer keep their values. Restricted as `C176_snprint_partial`. -/
theorem C178_inside_partial {args : List Arg} (hn : args.length ≤ 16) {ps : List Part} (hok : ∀ x ∈ ps, x.Ok) {out : List Byte}
    (hr : Renders args 0 ps out) (ha : AllFine args 0 ps) (hb : BracesFine false ps) (behind : List Byte)
    {buf : List Byte} {len : Nat} (hl : len ≤ buf.length) (hsize : out.length < 2 ^ 31) :
    ∃ r b, snprint buf len (formatText ps ++ behind) (formatText ps).length defaultFormat args = .ok (r, b) ∧ SameOutside buf b 0 len := by
  obtain ⟨b, e1, e2, -⟩ := snprint_ends (printImpl_ends noAlloc hn hok hr ha hb behind) hl hsize
  exact ⟨_, b, e1, e2⟩

/-- -1.5 in a field of 12 chars, with 10 chars of room: 2 bytes behind the buffer are overwritten, and the result is right. -/
theorem C178_not_inside : snprint (List.replicate 12 95) 10 (bytes "{:12}" ++ [0]) 5 defaultFormat [.double (true, .fin (3 / 2))] =
    .ok (12, bytes "_1.51.500000") := by decide +kernel

example : ∃ r b, snprint (List.replicate 20 95) 5 (formatText sampleParts ++ [0]) (formatText sampleParts).length defaultFormat sampleArgs = .ok (r, b) ∧
    SameOutside (List.replicate 20 95) b 0 5 :=
  C178_inside_partial (by decide) sample_ok sample_renders sample_fine.1 sample_fine.2 [0] (by decide) (by decide)

/-! ## C179: format strings that are not well formed -/

/-- A closing brace that stands alone. -/
theorem C179_closing_partial {args : List Arg} (hn : args.length ≤ 16) {ps : List Part} (hok : ∀ x ∈ ps, x.Ok) {out : List Byte}
    (hr : Renders args 0 ps out) (ha : AllFine args 0 ps) (hb : BracesFine false ps) (more behind : List Byte) (hmore : more.head? ≠ some 125)
    {buf : List Byte} {len : Nat} (hl : len ≤ buf.length) :
    ∃ b, snprint buf len (formatText ps ++ 125 :: more ++ behind) (formatText ps ++ 125 :: more).length defaultFormat args = .ok (-1, b) ∧
      SameOutside buf b 0 len :=
  snprint_fails (printImpl_stray noAlloc hn hok hr ha hb more behind hmore) hl

/-- An opening brace that is not closed, in a format string that ends with a zero byte. -/
theorem C179_opening_partial {args : List Arg} (hn : args.length ≤ 16) {ps : List Part} (hok : ∀ x ∈ ps, x.Ok) {out : List Byte}
    (hr : Renders args 0 ps out) (ha : AllFine args 0 ps) (hb : BracesFine false (ps ++ [.field {}])) (more behind : List Byte)
    (hopen : more.head? ≠ some 123) (hmore : (125 : Byte) ∉ more) {buf : List Byte} {len : Nat} (hl : len ≤ buf.length) :
    ∃ b, snprint buf len (formatText ps ++ 123 :: more ++ 0 :: behind) (formatText ps ++ 123 :: more).length defaultFormat args = .ok (-1, b) ∧
      SameOutside buf b 0 len := by
  cases more with
  | nil => exact snprint_fails (printImpl_unclosed noAlloc hn hok hr ha hb [] (0 :: behind) (c := 0) (by decide) rfl hmore) hl
  | cons c cs => exact snprint_fails (printImpl_unclosed noAlloc hn hok hr ha hb (c :: cs) (0 :: behind) (c := c)
      (by intro e; exact hopen (by rw [e]; rfl)) rfl hmore) hl

/-- The number of placeholders without an index. -/
def automatic (ps : List Part) : Nat := (ps.filter fun x => match x with | .field f => f.index.isNone | _ => false).length

theorem nextArg_eq (i : Nat) (ps : List Part) : nextArg i ps = i + automatic ps := by
  induction ps generalizing i with
  | nil => rfl
  | cons x ps ih =>
    cases x with
    | lit c => exact ih i
    | openBrace => exact ih i
    | closeBrace => exact ih i
    | field f =>
      rw [nextArg, ih, automatic, automatic, List.filter_cons]
      cases h : f.index with
      | none => simp [h]; omega
      | some n => simp [h]

/-- A placeholder for an argument that is not there, because of its index or because there are too many placeholders. -/
theorem C179_index_partial {args : List Arg} (hn : args.length ≤ 16) {ps : List Part} (hok : ∀ x ∈ ps, x.Ok) {out : List Byte}
    (hr : Renders args 0 ps out) (ha : AllFine args 0 ps) {f : Field} (hb : BracesFine false (ps ++ [.field f])) (hf : f.Ok)
    (hindex : args.length ≤ f.index.getD (automatic ps)) (more behind : List Byte) {buf : List Byte} {len : Nat} (hl : len ≤ buf.length) :
    ∃ b, snprint buf len (formatText (ps ++ [.field f]) ++ more ++ behind) (formatText (ps ++ [.field f]) ++ more).length defaultFormat args = .ok (-1, b) ∧
      SameOutside buf b 0 len := by
  have hb' : BracesFine false (ps ++ [.field {}]) := by
    clear hok hr ha hindex
    generalize false = s at hb ⊢
    induction ps generalizing s with
    | nil => exact hb
    | cons x ps ih =>
      cases x with
      | lit c => exact ih _ hb
      | openBrace => exact ih _ hb
      | closeBrace => exact ih _ hb
      | field g => exact ⟨hb.1, ih _ hb.2⟩
  have := snprint_fails (printImpl_index noAlloc hn hok hr ha hb' hf (by rw [nextArg_eq, Nat.zero_add]; exact hindex) more behind) hl
  have e : formatText (ps ++ [.field f]) ++ more = formatText ps ++ 123 :: (f.written ++ 125 :: more) := by
    simp [formatText, Part.written]
  rw [e]
  exact this

/-- "{" without a zero byte behind it: the byte behind the format string is read. -/
theorem C179_not_terminated : snprint (List.replicate 8 95) 8 (bytes "{") 1 defaultFormat [] = .error .oob := by decide +kernel

example : ∃ b, snprint (List.replicate 20 95) 5 (formatText sampleParts ++ 125 :: bytes "{}" ++ [0]) (formatText sampleParts ++ 125 :: bytes "{}").length
      defaultFormat sampleArgs = .ok (-1, b) ∧ SameOutside (List.replicate 20 95) b 0 5 :=
  C179_closing_partial (by decide) sample_ok sample_renders sample_fine.1 sample_fine.2 (bytes "{}") [0] (by decide) (by decide)

example : ∃ b, snprint (List.replicate 20 95) 20 (formatText sampleParts.dropLast ++ 123 :: bytes "0:x" ++ 0 :: [])
      (formatText sampleParts.dropLast ++ 123 :: bytes "0:x").length defaultFormat sampleArgs = .ok (-1, b) ∧
    SameOutside (List.replicate 20 95) b 0 20 :=
  C179_opening_partial (ps := sampleParts.dropLast) (by decide) (fun x hx => sample_ok x (List.dropLast_subset _ hx))
    sample_front_renders
    ⟨sample_fine.1.1, sample_fine.1.2.1, trivial⟩ ⟨rfl, rfl, rfl, trivial⟩ (bytes "0:x") [] (by decide) (by decide) (by decide)

example : ∃ b, snprint (List.replicate 20 95) 20 (formatText (sampleParts.dropLast ++ [.field { index := some 2 }]) ++ bytes "}" ++ [])
      (formatText (sampleParts.dropLast ++ [.field { index := some 2 }]) ++ bytes "}").length defaultFormat sampleArgs = .ok (-1, b) ∧
    SameOutside (List.replicate 20 95) b 0 20 :=
  C179_index_partial (ps := sampleParts.dropLast) (by decide) (fun x hx => sample_ok x (List.dropLast_subset _ hx))
    sample_front_renders
    ⟨sample_fine.1.1, sample_fine.1.2.1, trivial⟩ ⟨rfl, rfl, rfl, trivial⟩ ⟨fun n h => (by cases h; decide), fun s h => (by cases h)⟩ (by decide)
    (bytes "}") [] (by decide)

/-! ## C180: printing to files and into strings -/

/-- All of the text is given to the file, or the memory is refused, ENOMEM is returned and a part of the text from its start on is given to
the file. Restricted by `AllFine` and `BracesFine`. -/
theorem C180_file_partial {alloc : Alloc} (hal : ∀ n k b, alloc n k = some b → k ≤ b.length) {args : List Arg} (hn : args.length ≤ 16) {ps : List Part}
    (hok : ∀ x ∈ ps, x.Ok) {out : List Byte} (hr : Renders args 0 ps out) (ha : AllFine args 0 ps) (hb : BracesFine false ps) (behind : List Byte)
    {sbo : List Byte} (hs : sbo.length = 200) :
    printFile alloc sbo (formatText ps ++ behind) (formatText ps).length defaultFormat args = .ok (.ok, out) ∨
      (∃ n k, alloc n k = none) ∧ ∃ u, u <+: out ∧
        printFile alloc sbo (formatText ps ++ behind) (formatText ps).length defaultFormat args = .ok (.enomem, u) := by
  rcases (printImpl_ends alloc hn hok hr ha hb behind).growing hal [] { data := sbo, capacity := 200, canGrow := true }
    ⟨rfl, rfl, rfl, Nat.zero_le _, by simp [hs], rfl⟩ with ⟨p, e1, e2⟩ | ⟨p, u, e1, e2, e3, e4, e5⟩
  · left
    rw [printFile, e1, ok_bind, e2.ec, e2.out, List.nil_append]
  · right
    refine ⟨e5, u, e4, ?_⟩
    rw [printFile, e1, ok_bind, e2, e3, List.nil_append]

/-- The string is the text, or empty if the memory is refused. Restricted by `AllFine` and `BracesFine`. -/
theorem C180_string_partial {alloc : Alloc} (hal : ∀ n k b, alloc n k = some b → k ≤ b.length) {args : List Arg} (hn : args.length ≤ 16)
    {ps : List Part} (hok : ∀ x ∈ ps, x.Ok) {out : List Byte} (hr : Renders args 0 ps out) (ha : AllFine args 0 ps) (hb : BracesFine false ps)
    (behind : List Byte) :
    stringFormat alloc (formatText ps ++ behind) (formatText ps).length defaultFormat args = .ok out ∨
      (∃ n k, alloc n k = none) ∧ stringFormat alloc (formatText ps ++ behind) (formatText ps).length defaultFormat args = .ok [] := by
  rcases (printImpl_ends alloc hn hok hr ha hb behind).growing hal [] { data := [], capacity := 0, canGrow := true }
    ⟨rfl, rfl, rfl, Nat.le_refl _, Nat.le_refl _, rfl⟩ with ⟨p, e1, e2⟩ | ⟨p, u, e1, e2, e3, e4, e5⟩
  · left
    rw [stringFormat, e1, ok_bind, if_pos e2.ec, e2.out, List.nil_append]
  · right
    refine ⟨e5, ?_⟩
    rw [stringFormat, e1, ok_bind, if_neg (by rw [e2]; decide)]

/-- "ab" in a field of 5 chars. -/
theorem C180_not_string_width : stringFormat (fun _ k => some (List.replicate k 0)) (bytes "{:5}|" ++ [0]) 5 defaultFormat [.view (bytes "ab")] =
    .ok (bytes "  |") := by decide +kernel

example : stringFormat (fun _ k => some (List.replicate k 0)) (formatText sampleParts) (formatText sampleParts).length defaultFormat sampleArgs =
    .ok (bytes "a-42b{x0x00ff}") := by
  have hal : ∀ (n k : Nat) (b : List Byte), (fun _ k => some (List.replicate k 0)) n k = some b → k ≤ b.length := by
    intro n k b h
    obtain rfl : List.replicate k 0 = b := Option.some.inj h
    simp
  have := C180_string_partial hal (args := sampleArgs) (by decide) sample_ok sample_renders sample_fine.1 sample_fine.2 []
  rw [List.append_nil] at this
  rcases this with h | ⟨⟨n, k, h⟩, -⟩
  · exact h
  · cases h

/-! ## C181: integers can be read back -/

/-- A format string with one placeholder. -/
theorem single {s : Spec} (hs : s.Ok) {a : Arg} {t : List Byte} (hf : Fine s a) (ht : ArgText s a t) (behind : List Byte)
    {buf : List Byte} {len : Nat} (hl : len ≤ buf.length) (hroom : t.length < len) (hsize : t.length < 2 ^ 31) :
    snprint buf len (formatText [.field { spec := some s }] ++ behind) (formatText [.field { spec := some s }]).length defaultFormat [a] =
      .ok ((t.length : Int), t ++ 0 :: buf.drop (t.length + 1)) := by
  refine C176_snprint_partial (args := [a]) (by simp) (ps := [.field { spec := some s }]) ?_ (out := t) ?_ ?_ ?_ behind hl hroom hsize
  · intro x hx
    obtain rfl : x = .field { spec := some s } := by simpa using hx
    exact ⟨fun n h => (by cases h), fun s' h => (by cases h; exact hs)⟩
  · exact ⟨a, t, [], rfl, ht, rfl, by simp⟩
  · exact ⟨fun b hb => by cases hb; exact hf, trivial⟩
  · exact ⟨rfl, trivial⟩

theorem plain_int {s : Spec} (h1 : s.flags = []) (h2 : s.width = none) (i : Int) : s.int i = signedText s.base s.lower i := by
  have hh : ∀ c, s.has c = false := fun c => by rw [Spec.has, h1]; simp
  have hm : s.minimum = 0 := by rw [Spec.minimum, h2]; rfl
  have hr : s.radix = [] := by rw [Spec.radix, hh]; rfl
  rw [Spec.int, Spec.layout, hh, hr, hm, Spec.sign, hh, signedText]
  by_cases hi : i < 0 <;> simp [hi]

theorem base_range (s : Spec) : 2 ≤ s.base ∧ s.base ≤ 16 := by
  rw [Spec.base]
  repeat' split
  all_goals omega

theorem no_nul {base : Nat} (hb : 2 ≤ base) (hb' : base ≤ 36) (lower : Bool) (n : Nat) : (0 : Byte) ∉ text base lower n := by
  intro hc
  rw [text, List.mem_map] at hc
  obtain ⟨d, hd, h0⟩ := hc
  have h3 := digitChar_isDigit hb' ((numeral_canonical base n hb).2.1 d hd) lower
  rw [h0] at h3
  unfold IsDigit upperCode lowerCode at h3
  have : (0 : Byte).toNat = 0 := rfl
  rw [this] at h3; split at h3 <;> omega

theorem no_nul_signed {base : Nat} (hb : 2 ≤ base) (hb' : base ≤ 36) (lower : Bool) (i : Int) : (0 : Byte) ∉ signedText base lower i := by
  rw [signedText]
  split
  · intro h
    rcases List.mem_cons.mp h with h | h
    · revert h; decide
    · exact no_nul hb hb' lower _ h
  · exact no_nul hb hb' lower _

theorem text_size {base : Nat} (hb : 2 ≤ base) (lower : Bool) {n : Nat} (hn : n < 2 ^ 64) : (text base lower n).length ≤ 64 := by
  rw [Num.text_length]
  refine (numeral_length_le_iff base n 64 hb (by decide)).mpr (lt_of_lt_of_le hn ?_)
  exact Nat.pow_le_pow_left hb 64

theorem signedText_size {base : Nat} (hb : 2 ≤ base) (lower : Bool) {i : Int} (hi : i.natAbs < 2 ^ 64) : (signedText base lower i).length ≤ 65 := by
  have := text_size hb lower hi
  rw [signedText]
  split
  · simp; omega
  · omega

/-- Printing an unsigned number, in decimal, hexadecimal, octal or binary notation, and scanning it gives the number back. -/
theorem C181_unsigned {s : Spec} (hs : s.Ok) (h1 : s.flags = []) (h2 : s.width = none) (behind : List Byte) {buf : List Byte} {len : Nat}
    (hl : len ≤ buf.length) (hroom : 66 ≤ len) :
    (∀ v o : BitVec 32, ∃ n b, snprint buf len (formatText [.field { spec := some s }] ++ behind) (formatText [.field { spec := some s }]).length
        defaultFormat [.u32 v] = .ok ((n : Nat), b) ∧ scanU 32 (some b) (some o) s.base = .ok (⟨n, .ok⟩, some v)) ∧
    (∀ v o : BitVec 64, ∃ n b, snprint buf len (formatText [.field { spec := some s }] ++ behind) (formatText [.field { spec := some s }]).length
        defaultFormat [.u64 v] = .ok ((n : Nat), b) ∧ scanU 64 (some b) (some o) s.base = .ok (⟨n, .ok⟩, some v)) := by
  obtain ⟨b1, b2⟩ := base_range s
  have key : ∀ (w : Nat) (hw : 7 ≤ w) (v o : BitVec w) (rest : List Byte),
      scanU w (some (s.int v.toNat ++ 0 :: rest)) (some o) s.base = .ok (⟨(s.int v.toNat).length, .ok⟩, some v) := by
    intro w hw v o rest
    have e : s.int v.toNat = text s.base s.lower v.toNat := by
      rw [plain_int h1 h2, signedText, if_neg (by omega)]; rfl
    rw [e, (C10_scan_unsigned hw b1 (by omega) _ rest _ (text_startsWith b1 (by omega) s.lower v.toNat) (some o)).2 (no_nul b1 (by omega) _ _),
      unsignedResult, if_neg (numeral_canonical s.base _ b1).2.2.1, numVal_numeral _ _ b1, if_pos v.isLt, Num.text_length]
    simp
  have size : ∀ n : Nat, n < 2 ^ 64 → (s.int n).length ≤ 65 := fun n hn => by
    rw [plain_int h1 h2]; exact signedText_size b1 _ (by simpa using hn)
  constructor
  · intro v o
    have := size v.toNat (by have := v.isLt; omega)
    exact ⟨_, _, single hs (a := .u32 v) trivial rfl behind hl (by omega) (by omega), key 32 (by decide) v o _⟩
  · intro v o
    have := size v.toNat (by have := v.isLt; omega)
    exact ⟨_, _, single hs (a := .u64 v) trivial rfl behind hl (by omega) (by omega), key 64 (by decide) v o _⟩

/-- The same for signed numbers. Missing: the least numbers. -/
theorem C181_signed_partial {s : Spec} (hs : s.Ok) (h1 : s.flags = []) (h2 : s.width = none) (behind : List Byte) {buf : List Byte} {len : Nat}
    (hl : len ≤ buf.length) (hroom : 66 ≤ len) :
    (∀ v o : BitVec 32, v ≠ BitVec.intMin 32 → ∃ n b, snprint buf len (formatText [.field { spec := some s }] ++ behind)
        (formatText [.field { spec := some s }]).length defaultFormat [.i32 v] = .ok ((n : Nat), b) ∧
        scanI 32 .strict (some b) (some o) s.base = .ok (⟨n, .ok⟩, some v)) ∧
    (∀ v o : BitVec 64, v ≠ BitVec.intMin 64 → ∃ n b, snprint buf len (formatText [.field { spec := some s }] ++ behind)
        (formatText [.field { spec := some s }]).length defaultFormat [.i64 v] = .ok ((n : Nat), b) ∧
        scanI 64 .strict (some b) (some o) s.base = .ok (⟨n, .ok⟩, some v)) := by
  obtain ⟨b1, b2⟩ := base_range s
  have key : ∀ (w : Nat) (hw : 7 ≤ w) (v o : BitVec w) (rest : List Byte), v ≠ BitVec.intMin w →
      scanI w .strict (some (s.int v.toInt ++ 0 :: rest)) (some o) s.base = .ok (⟨(s.int v.toInt).length, .ok⟩, some v) := by
    intro w hw v o rest hv
    have hlo := BitVec.le_toInt v
    have hhi := BitVec.toInt_lt (x := v)
    have h3 := signedText_startsWith b1 (by omega : s.base ≤ 36) s.lower v.toInt
    rw [plain_int h1 h2, (C10_scan_signed_partial hw b1 (by omega) _ rest _ _ h3.1 (some o) (by
      rw [h3.2]
      intro h; apply hv; apply BitVec.eq_of_toInt_eq
      rw [h, BitVec.toInt_intMin_of_pos (by omega)])).2 (no_nul_signed b1 (by omega) _ _), signedResult, h3.2,
      if_neg (numeral_canonical s.base _ b1).2.2.1, if_pos ⟨hlo, hhi⟩]
    simp only [Option.map_some, BitVec.ofInt_toInt]
    congr 2
    by_cases hn : v.toInt < 0
    · simp only [signedText, hn, decide_true, if_true, List.length_cons, Num.text_length]; rw [Nat.add_comm]
    · simp only [signedText, hn, decide_false, if_false, Num.text_length]; simp
  have size : ∀ i : Int, i.natAbs < 2 ^ 64 → (s.int i).length ≤ 65 := fun n hn => by
    rw [plain_int h1 h2]; exact signedText_size b1 _ hn
  constructor
  · intro v o hv
    have := size v.toInt (by have := BitVec.le_toInt v; have := BitVec.toInt_lt (x := v); omega)
    exact ⟨_, _, single hs (a := .i32 v) hv rfl behind hl (by omega) (by omega), key 32 (by decide) v o _ hv⟩
  · intro v o hv
    have := size v.toInt (by have := BitVec.le_toInt v; have := BitVec.toInt_lt (x := v); omega)
    exact ⟨_, _, single hs (a := .i64 v) hv rfl behind hl (by omega) (by omega), key 64 (by decide) v o _ hv⟩

/-- The least `int` cannot be printed. -/
theorem C181_not_least : snprint (List.replicate 20 95) 20 (bytes "{:x}" ++ [0]) 4 defaultFormat [.i32 (BitVec.intMin 32)] = .error .overflow := by
  decide +kernel

/-- The specifier "x". -/
def hexSpec : Spec := { specifier := some 120 }

theorem hexSpec_ok : hexSpec.Ok := ⟨by decide, fun n h => (by cases h), fun n h => (by cases h), fun c h => by cases h; decide⟩

example : ∃ n b, snprint (List.replicate 70 95) 70 (formatText [.field { spec := some hexSpec }] ++ [0]) (formatText [.field { spec := some hexSpec }]).length
      defaultFormat [.i32 (-255)] = .ok ((n : Nat), b) ∧ scanI 32 .strict (some b) (some 7) 16 = .ok (⟨n, .ok⟩, some (-255)) :=
  (C181_signed_partial hexSpec_ok rfl rfl [0] (by decide) (by decide)).1 (-255) 7 (by decide)

example : snprint (List.replicate 8 95) 8 (formatText [.field { spec := some hexSpec }] ++ [0]) (formatText [.field { spec := some hexSpec }]).length
      defaultFormat [.i32 (-255)] = .ok (3, bytes "-ff" ++ 0 :: bytes "____") := by decide +kernel

/-! ## C182: numbers with fractions -/

theorem writesDouble_unique {v : Double} {flags : BitVec 32} {precision : Int} {d d' : List Byte} (h : WritesDouble v flags precision d)
    (h' : WritesDouble v flags precision d') : d = d' := by
  have e := h (List.replicate (d.length + d'.length) 0) 0 (d.length + d'.length) (by simp)
  have e' := h' (List.replicate (d.length + d'.length) 0) 0 (d.length + d'.length) (by simp)
  rw [Printed, if_pos (by omega)] at e e'
  rw [e] at e'
  have := Prod.mk.inj (Except.ok.inj e')
  have hlen : d.length = d'.length := by injection this.1
  have hs := this.2
  rw [splice, splice, hlen] at hs
  simpa using hs

/-- What is printed for a finite number without width: its sign, digits and decimals, accurate as `print_double` is (C172). Missing: numbers
from 2^52 on, numbers just below a whole number, no decimals, and fields that are wider than the number. -/
theorem C182_accuracy_partial {q : ℚ} (hq : Representable q) (hlt : q < 2 ^ 52) {s : Spec} (hs : s.Ok) (h1 : s.flags = []) (h2 : s.width = none)
    (hp : decimals s.doubleFlags s.decimals ≠ 0) (hc : Clear (decimals s.doubleFlags s.decimals) q) (negative : Bool) (behind : List Byte)
    {buf : List Byte} {len : Nat} (hl : len ≤ buf.length) (hroom : 35 ≤ len) :
    ∃ n : Number, n.Ok ∧ n.negative = (negative && decide (q ≠ 0)) ∧ Canonical 10 ⌊q⌋₊ n.whole ∧
      FractionShape s.doubleFlags s.decimals n.fraction ∧ n.exponent = none ∧
      |n.value - q| ≤ 52 / 100 / 10 ^ decimals s.doubleFlags s.decimals ∧
      snprint buf len (formatText [.field { spec := some s }] ++ behind) (formatText [.field { spec := some s }]).length defaultFormat
        [.double (negative, .fin q)] = .ok ((n.text.length : Int), n.text ++ 0 :: buf.drop (n.text.length + 1)) := by
  obtain ⟨n, n1, n2, n3, n4, n5, n6, n7⟩ := C172_accuracy_partial hq (lt_trans hlt (by norm_num)) hp hc false
  obtain ⟨m, -, -, -, m4, m5⟩ := C173_room_partial hq hlt s.doubleFlags s.decimals false
  have hnm : n.text = m.text := writesDouble_unique (v := (false, .fin q)) n7 m5
  have hpos : n.negative = false := by rw [n2, hasMinus]; rfl
  have hh : ∀ c, s.has c = false := fun c => by rw [Spec.has, h1]; simp
  have hm : s.minimum = 0 := by rw [Spec.minimum, h2]; rfl
  have hr : s.radix = [] := by rw [Spec.radix, hh]; rfl
  have hneg : less (negative, .fin q) = (negative && decide (q ≠ 0)) := by
    rw [less]
    by_cases h0 : q = 0 <;> simp [h0]
  have htext : s.layout (s.sign (less (negative, .fin q))) n.text = ({ n with negative := negative && decide (q ≠ 0) } : Number).text := by
    rw [Spec.layout, hh, hr, hm, Spec.sign, hh, hneg, Number.text, Number.text, hpos]
    cases negative && decide (q ≠ 0) <;> simp <;> split <;> simp
  have hlen : ({ n with negative := negative && decide (q ≠ 0) } : Number).text.length ≤ 34 := by
    have : n.text.length ≤ 33 := by rw [hnm]; exact m4
    rw [Number.text, hpos] at this
    rw [Number.text]
    simp only [List.length_append] at this ⊢
    split <;> simp at this ⊢ <;> omega
  refine ⟨{ n with negative := negative && decide (q ≠ 0) }, by obtain ⟨a, b, c⟩ := n1; exact ⟨a, b, c⟩, rfl, n3, n4, n5, n6, ?_⟩
  refine single hs (a := .double (negative, .fin q)) ⟨hr, fun h => (by rw [hh] at h; cases h), fun d hd => ?_⟩ ⟨n.text, n7, htext.symm⟩ behind hl
    (by omega) (by omega)
  rw [writesDouble_unique hd n7, hm, hnm]
  exact ⟨Nat.zero_le _, by omega⟩

/-- The specifier for scientific notation has no effect. -/
theorem C182_not_scientific : snprint (List.replicate 12 95) 12 (bytes "{:e}" ++ [0]) 4 defaultFormat [.double (false, .fin 150)] =
    .ok (10, bytes "150.000000" ++ 0 :: bytes "_") := by decide +kernel

/-- The specifier for hexadecimal notation has no effect, apart from the prefix. -/
theorem C182_not_hexadecimal : snprint (List.replicate 14 95) 14 (bytes "{:#a}" ++ [0]) 5 defaultFormat [.double (false, .fin 150)] =
    .ok (12, bytes "0x150.000000" ++ 0 :: bytes "_") := by decide +kernel

/-- From 2^64 on nothing is printed: the conversion to an integer overflows. -/
theorem C182_not_great : snprint (List.replicate 30 95) 30 (bytes "{}" ++ [0]) 2 defaultFormat [.double (false, .fin 18446744073709551616)] =
    .error .overflow := by decide +kernel

/-- The specifier ".1". -/
def pointOne : Spec := { precision := some 1 }

theorem pointOne_ok : pointOne.Ok := ⟨by decide, fun n h => (by cases h), fun n h => (by cases h; decide), fun c h => by cases h⟩

example : ∃ n : Number, n.Ok ∧ n.negative = (true && decide ((13 / 4 : ℚ) ≠ 0)) ∧ Canonical 10 ⌊(13 / 4 : ℚ)⌋₊ n.whole ∧
      FractionShape pointOne.doubleFlags pointOne.decimals n.fraction ∧ n.exponent = none ∧
      |n.value - 13 / 4| ≤ 52 / 100 / 10 ^ decimals pointOne.doubleFlags pointOne.decimals ∧
      snprint (List.replicate 40 95) 40 (formatText [.field { spec := some pointOne }] ++ [0]) (formatText [.field { spec := some pointOne }]).length
        defaultFormat [.double (true, .fin (13 / 4))] = .ok ((n.text.length : Int), n.text ++ 0 :: (List.replicate 40 (95 : Byte)).drop (n.text.length + 1)) :=
  C182_accuracy_partial sample_clear.1 (by norm_num) pointOne_ok rfl rfl (by decide) sample_clear.2.1 true [0] (by decide) (by decide)

/-! ## C183: format specifiers -/

/-- All of a specifier is read, and the format is what it says: numbers, base and each of the flags. The bits are those of
`PrintFlags::Values` (lines 341-366). The padding matters only with a width. -/
theorem C183_specifier {s : Spec} (h : s.Ok) : ∃ f, parseFormat s.written = .ok (s.written.length, f) ∧
    f.width = (s.width.getD 0 : Nat) ∧ f.precision = (s.precision.getD 6 : Nat) ∧ f.base = (s.base : Nat) ∧
    f.flags.getLsbD 9 = s.has 45 ∧ f.flags.getLsbD 7 = s.has 43 ∧ (s.width ≠ none → f.flags.getLsbD 14 = !s.zeroes) ∧
    f.flags.getLsbD 8 = s.is 99 ∧ f.flags.getLsbD 5 = s.is 110 ∧ f.flags.getLsbD 6 = s.lower ∧
    f.flags.getLsbD 10 = (s.has 35 && (s.is 120 || s.is 88 || s.is 97 || s.is 65)) ∧ f.flags.getLsbD 11 = (s.has 35 && (s.is 98 || s.is 66)) ∧
    f.flags.getLsbD 12 = (s.has 35 && s.is 111) ∧ f.flags &&& 0x7F = s.doubleFlags := by
  obtain ⟨f, e1, e2⟩ := parseFormat_spec h
  refine ⟨f, e1, e2.width, e2.precision, e2.base, e2.left, e2.sign, fun hw => ?_, e2.char, e2.number, e2.lower, e2.hex, e2.bin, e2.oct, ?_⟩
  · rcases e2.pad with h0 | h0
    · obtain ⟨n, hn⟩ := Option.ne_none_iff_exists'.mp hw
      rw [Spec.minimum, hn] at h0
      have := (h.width n hn).1
      simp at h0; omega
    · exact h0
  · have : f.flags &&& 0x7F = (f.flags &&& 0xFF) &&& 0x7F := by
      rw [BitVec.and_assoc]; rfl
    rw [this, e2.low, Spec.doubleFlags]
    generalize s.is 102 = a1; generalize (s.is 101 || s.is 69) = a2; generalize (s.is 103 || s.is 71) = a3
    generalize (s.is 97 || s.is 65) = a4; generalize s.is 110 = a5; generalize s.lower = a6; generalize s.has 43 = a7
    cases a1 <;> cases a2 <;> cases a3 <;> cases a4 <;> cases a5 <;> cases a6 <;> cases a7 <;> rfl

example : parseFormat (bytes "-+#012.3X") = .ok (9, ⟨16, 3, 12, 0x680⟩) ∧
    ({ flags := [45, 43, 35, 48], width := some 12, precision := some 3, specifier := some 88 } : Spec).written = bytes "-+#012.3X" := by decide +kernel

end Tm.Fmt
