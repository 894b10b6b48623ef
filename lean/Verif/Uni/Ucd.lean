import Verif.Uni.Model
import Verif.Uni.UcdTables
/-!
# Model of the functions of `tm_unicode.h` that use the Unicode data

All lines refer to `tm_unicode.h`. Pointers into `tmu_codepoint_runs` are indices. Only the functions that exist with the Unicode data that is part of
the header are modelled (lines 295-306).
-/
namespace Tm.Uni

/-! ## Looking up -/

/-- `tmu_get_stage_one_value_internal`, lines 3292-3316. -/
def stageOneValue (index : Nat) : C Nat :=
  if index ≥ 8704 then .ok 210
  else if index < 1025 then rd ucdStageOne index
  else match ucdSwitchOne.lookup index with
    | some v => .ok v
    | none => if index ≥ 7172 ∧ index < 7200 then .ok 255 else .ok 210

/-- `tmu_ucd_stage_two[i]`: byte `i % 128` of block `i / 128`. -/
def stageTwoAt (i : Nat) : C Nat := do
  let block ← rd ucdStageTwo (i / 128)
  .ok ((block >>> (8 * (i % 128))) &&& 255)

/-- `tmu_get_stage_two_value_internal`, lines 3318-3376. -/
def stageTwoValue (block offset : Nat) : C Nat := do
  assert (block < 258)
  assert (offset < 128)
  if block < 210 then stageTwoAt (block * 128 + offset)
  else .ok (ucdSwitchTwo (block - 210) offset)

/-- `tmu_get_ucd_internal`, lines 3378-3389. -/
def getInternal (cp : Nat) : C UcdEntry := do
  assert (cp ≤ 0x10FFFF)
  let block ← stageOneValue (cp / 128)
  let entry ← stageTwoValue block (cp % 128)
  assert (entry < 239)
  rd ucdEntries entry

/-- `codepoint + internal->simple_case_fold_offset` as a `uint32_t`. -/
def folded (cp : Nat) (e : UcdEntry) : Nat := (((cp : Int) + e.offset) % 2 ^ 32).toNat

/-- `tmu_ucd_category_enum`, lines 272-280. -/
inductive Category where
  | control | letter | mark | number | punctuation | symbol | separator
deriving DecidableEq, Repr

/-- The conversion of a number to the enumeration; a number without an enumerator is a fault. -/
def toCategory : Nat → C Category
  | 0 => .ok .control
  | 1 => .ok .letter
  | 2 => .ok .mark
  | 3 => .ok .number
  | 4 => .ok .punctuation
  | 5 => .ok .symbol
  | 6 => .ok .separator
  | _ => .error .invalid

/-- `tmu_ucd_case_info_enum`, lines 265-270. -/
inductive CaseInfo where
  | caseless | upper | lower | title
deriving DecidableEq, Repr

/-- The conversion of a number to the enumeration. -/
def toCaseInfo : Nat → C CaseInfo
  | 0 => .ok .caseless
  | 1 => .ok .upper
  | 2 => .ok .lower
  | 3 => .ok .title
  | _ => .error .invalid

/-- `tmu_ucd_get_category`, lines 3404-3407. -/
def getCategory (cp : Nat) : C Category := do
  let e ← getInternal cp
  toCategory (e.bits0 &&& 7)

/-- `tmu_ucd_is_whitespace`, lines 3409-3412, and `tmu_is_whitespace`, line 4861. -/
def isWhitespace (cp : Nat) : C Bool := do
  let e ← getInternal cp
  .ok (e.bits0 &&& 64 != 0)

/-- `tmu_ucd_get_case_info`, lines 3414-3417. -/
def getCaseInfo (cp : Nat) : C CaseInfo := do
  let e ← getInternal cp
  toCaseInfo ((e.bits0 >>> 3) &&& 3)

/-- `tmu_is_control` to `tmu_is_separator`, lines 4848-4860: `isCategory .letter` is `tmu_is_letter` and so on. -/
def isCategory (c : Category) (cp : Nat) : C Bool := do
  let d ← getCategory cp
  .ok (d == c)

/-- `tmu_is_upper` to `tmu_is_caseless`, lines 4865-4870. -/
def isCase (c : CaseInfo) (cp : Nat) : C Bool := do
  let d ← getCaseInfo cp
  .ok (d == c)

/-- `tmu_ucd_entry`, lines 282-288. -/
structure EntryInfo where
  category : Category
  caseInfo : CaseInfo
  graphemeBreak : Nat
  simpleFold : Nat
  fullFold : Nat
deriving DecidableEq, Repr

/-- `tmu_ucd_get_entry`, lines 3391-3402. -/
def getEntry (cp : Nat) : C EntryInfo := do
  let e ← getInternal cp
  let category ← toCategory (e.bits0 &&& 7)
  let caseInfo ← toCaseInfo ((e.bits0 >>> 3) &&& 3)
  .ok ⟨category, caseInfo, e.bits1 &&& 15, folded cp e, e.full⟩

/-! ## Transforming a text -/

/-- `tmu_transform_output_stream`, lines 4894-4899: the cells of the buffer (they stay here also when `data` is set to null; then `capacity` is 0),
`size`, `capacity`, and the members of `result`. -/
structure Xform where
  data : List Byte
  size : Nat
  capacity : Nat
  need : Nat
  ec : Errc
deriving DecidableEq, Repr

/-- `tmu_transform_output_append_codepoint`, lines 4901-4914. -/
def appendCp (cp : Nat) (x : Xform) : C Xform := do
  let (size, data) ← utf8Encode cp x.data x.size (x.capacity - x.size)
  if size > x.capacity - x.size then .ok ⟨data, 0, 0, x.need + size, .erange⟩
  else .ok ⟨data, x.size + size, x.capacity, x.need + size, x.ec⟩

/-- Lines 4979-4981, for one code point. -/
def foldSimpleStep (cp : Nat) (x : Xform) : C Xform := do
  let e ← getInternal cp
  appendCp (folded cp e) x

/-- `while (*full)` in lines 5238-5241. The number of rounds is bounded by the number of code points in all runs. -/
def runLoop : Nat → Nat → Xform → C Xform
  | 0, _, _ => .error .diverge
  | fuel + 1, i, x => do
    let c ← rd ucdRuns i
    if c = 0 then .ok x
    else do
      let x ← appendCp c x
      runLoop fuel (i + 1) x

/-- Lines 5235-5245, for one code point. -/
def foldStep (cp : Nat) (x : Xform) : C Xform := do
  let e ← getInternal cp
  if e.full ≠ 0 then runLoop (ucdRuns.length + 1) (0 + e.full) x
  else appendCp (folded cp e) x

/-- The loops in lines 4978-4982 and 5234-5246. The number of rounds is bounded by the number of bytes. -/
def xformLoop (step : Nat → Xform → C Xform) : Nat → List Byte → Xform → C (List Byte × Xform)
  | 0, _, _ => .error .diverge
  | fuel + 1, s, x => do
    let r ← utf8Extract s
    match r with
    | none => .ok (s, x)
    | some (cp, s) => do
      let x ← step cp x
      xformLoop step fuel s x

/-- What both functions do: the result (`size` and `ec`) and the buffer. -/
def xform (step : Nat → Xform → C Xform) (s out : List Byte) : C ((Nat × Errc) × List Byte) := do
  let (rest, x) ← xformLoop step (s.length + 1) s ⟨out, 0, out.length, 0, .ok⟩
  .ok ((x.need, if x.ec = .ok ∧ rest ≠ [] then .einval else x.ec), x.data)

/-- `tmu_utf8_to_case_fold_simple`, lines 4971-4987. -/
def toCaseFoldSimple (s out : List Byte) : C ((Nat × Errc) × List Byte) := xform foldSimpleStep s out

/-- `tmu_utf8_to_case_fold`, lines 5228-5251. -/
def toCaseFold (s out : List Byte) : C ((Nat × Errc) × List Byte) := xform foldStep s out

/-! ## Comparing -/

/-- The next folded code point of a text, lines 5004-5009 (for `a` or `b`; the entry is looked up right after the extraction). -/
def nextSimple (s : List Byte) : C (Option (Nat × List Byte)) := do
  let r ← utf8Extract s
  match r with
  | none => .ok none
  | some (cp, t) => do
    let e ← getInternal cp
    .ok (some (folded cp e, t))

/-- `tmu_utf8_case_fold_stream`, lines 5253-5256. -/
structure FoldStream where
  base : List Byte
  run : Option Nat
deriving DecidableEq, Repr

/-- `*stream->full_case_fold`, and the step to the next one, lines 5264-5267 and 5275-5278. -/
def runNext (i : Nat) : C (Nat × Option Nat) := do
  let c ← rd ucdRuns i
  assert (c ≠ 0)
  let d ← rd ucdRuns (i + 1)
  .ok (c, if d = 0 then none else some (i + 1))

/-- `tmu_utf8_extract_case_folded`, lines 5258-5283. -/
def nextFull (s : FoldStream) : C (Option (Nat × FoldStream)) :=
  match s.run with
  | some i => do
    let (c, run) ← runNext i
    .ok (some (c, ⟨s.base, run⟩))
  | none => do
    let r ← utf8Extract s.base
    match r with
    | none => .ok none
    | some (cp, t) => do
      let e ← getInternal cp
      if e.full ≠ 0 then do
        let (c, run) ← runNext (0 + e.full)
        .ok (some (c, ⟨t, run⟩))
      else .ok (some (folded cp e, ⟨t, none⟩))

/-- Nothing is left, lines 5307-5308. -/
def FoldStream.atEnd (s : FoldStream) : Bool := s.base.isEmpty && s.run.isNone

/-- The loops in lines 5004-5013 and 5304-5308: `a` is advanced first, and stays advanced if `b` can't be. -/
def equalsLoop {σ : Type} (next : σ → C (Option (Nat × σ))) (atEnd : σ → Bool) : Nat → σ → σ → C Bool
  | 0, _, _ => .error .diverge
  | fuel + 1, a, b => do
    let x ← next a
    match x with
    | none => .ok (atEnd a && atEnd b)
    | some (c, a) => do
      let y ← next b
      match y with
      | none => .ok (atEnd a && atEnd b)
      | some (d, b) => if c ≠ d then .ok false else equalsLoop next atEnd fuel a b

/-- `tmu_utf8_equals_ignore_case_simple`, lines 4988-5014; `same` says whether both texts begin at the same address. -/
def equalsSimple (same : Bool) (a b : List Byte) : C Bool :=
  if same then .ok (a.length == b.length)
  else equalsLoop nextSimple List.isEmpty (a.length + 1) a b

/-- `tmu_utf8_equals_ignore_case`, lines 5285-5309. -/
def equalsFull (same : Bool) (a b : List Byte) : C Bool :=
  if same then .ok (a.length == b.length)
  else equalsLoop nextFull FoldStream.atEnd (4 * a.length + 1) ⟨a, none⟩ ⟨b, none⟩

/-- The conversion of a `uint32_t` to `int` (two's complement). -/
def toInt32 (c : Nat) : Int := if c < 2 ^ 31 then c else (c : Int) - 2 ^ 32

/-- `int diff = (int)a_cp - (int)b_cp`, lines 5039, 5095, 5331 and 5389. -/
def diff32 (c d : Nat) : C Int :=
  let x := toInt32 c - toInt32 d
  if -2 ^ 31 ≤ x ∧ x < 2 ^ 31 then .ok x else .error .overflow

/-- The conversion of a truth value to `int`. -/
def b2i (b : Bool) : Int := if b then 1 else 0

/-- The loops in lines 5032-5045, 5094-5101, 5330-5337 and 5388-5395. -/
def compareLoop {σ : Type} (next : σ → C (Option (Nat × σ))) (atEnd : σ → Bool) : Nat → σ → σ → C Int
  | 0, _, _ => .error .diverge
  | fuel + 1, a, b => do
    let x ← next a
    match x with
    | none => .ok (b2i (atEnd b) - b2i (atEnd a))
    | some (c, a) => do
      let y ← next b
      match y with
      | none => .ok (b2i (atEnd b) - b2i (atEnd a))
      | some (d, b) => do
        let x ← diff32 c d
        if x ≠ 0 then .ok (if x < 0 then -1 else 1) else compareLoop next atEnd fuel a b

/-- The beginning of all four comparisons, lines 5023-5028, 5082-5087, 5315-5320 and 5373-5378. -/
def compareWith (same : Bool) (a b : List Byte) (loop : C Int) : C Int :=
  if a.length = 0 ∨ b.length = 0 then .ok (b2i (b.length == 0) - b2i (a.length == 0))
  else if same then .ok (if a.length > b.length then 1 else if a.length < b.length then -1 else 0)
  else loop

/-- `tmu_utf8_compare_ignore_case_simple`, lines 5016-5046. -/
def compareSimple (same : Bool) (a b : List Byte) : C Int :=
  compareWith same a b (compareLoop nextSimple List.isEmpty (a.length + 1) a b)

/-- `tmu_utf8_compare_ignore_case`, lines 5311-5338. -/
def compareFull (same : Bool) (a b : List Byte) : C Int :=
  compareWith same a b (compareLoop nextFull FoldStream.atEnd (4 * a.length + 1) ⟨a, none⟩ ⟨b, none⟩)

/-- The loops in lines 5065-5069 and 5356-5360. -/
def digitsLoop : List Byte → Nat → Nat × List Byte
  | [], value => (value, [])
  | c :: s, value =>
    if 48 ≤ c.toNat ∧ c.toNat ≤ 57 then digitsLoop s ((value * 10 + (c.toNat - 48)) % 2 ^ 32) else (value, c :: s)

/-- `tmu_utf8_extract_human_simple`, lines 5051-5076. -/
def nextHumanSimple (s : List Byte) : C (Option (Nat × List Byte)) := do
  let r ← utf8Extract s
  match r with
  | none => .ok none
  | some (base, t) =>
    if base < 48 ∨ base > 57 then do
      let e ← getInternal base
      .ok (some (folded base e, t))
    else
      let (value, rest) := digitsLoop s 0
      .ok (some ((value + 0x10FFFF) % 2 ^ 32, rest))

/-- `tmu_utf8_extract_human`, lines 5343-5367. -/
def nextHuman (s : FoldStream) : C (Option (Nat × FoldStream)) := do
  let r ← nextFull s
  match r with
  | none => .ok none
  | some (base, t) =>
    if base < 48 ∨ base > 57 then .ok (some (base, t))
    else
      let (value, rest) := digitsLoop s.base 0
      .ok (some ((value + 0x10FFFF) % 2 ^ 32, ⟨rest, t.run⟩))

/-- `tmu_utf8_human_compare_simple`, lines 5078-5102. -/
def humanSimple (same : Bool) (a b : List Byte) : C Int :=
  compareWith same a b (compareLoop nextHumanSimple List.isEmpty (a.length + 1) a b)

/-- `tmu_utf8_human_compare`, lines 5369-5396. -/
def humanFull (same : Bool) (a b : List Byte) : C Int :=
  compareWith same a b (compareLoop nextHuman FoldStream.atEnd (4 * a.length + 1) ⟨a, none⟩ ⟨b, none⟩)

end Tm.Uni
