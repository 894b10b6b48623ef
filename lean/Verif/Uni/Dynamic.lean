import Verif.Uni.Bytes

/-!
# Model of the conversion of bytes into memory that is allocated

`tmu_utf8_convert_from_bytes_dynamic`, `tm_unicode.h` lines 4117-4166 and 4324-4399, and `tmu_utf8_from_utf16_dynamic_ex`, lines 4733-4762.
See `Verif.Uni.Bytes` for how allocations are modelled.
-/

namespace Tm.Uni

/-- Loop of `tmu_output_replace_invalid_utf8`, lines 4122-4138: `cur`, `remaining`, and whether something invalid was found. -/
def replaceLoop (replaceStr : List Byte) : Nat → Nat → Nat → Bool → Out → C (Bool × Out)
  | 0, _, remaining, invalid, o => if remaining = 0 then .ok (invalid, o) else .error .diverge
  | fuel + 1, cur, remaining, invalid, o =>
    if remaining = 0 then .ok (invalid, o)
    else if cur + remaining > o.data.length then .error .oob
    else do
      let range ← utf8ValidRange ((o.data.drop cur).take remaining)
      if range ≠ remaining then do
        let (success, o) ← replacePos o (cur + range) (cur + range + 1) replaceStr
        if !success then .ok (true, destroyOut { o with ec := .enomem })
        else do
          assert (remaining ≥ range + 1)
          replaceLoop replaceStr fuel (cur + replaceStr.length + range) (remaining - (range + 1)) true o
      else .ok (invalid, o)

/-- `tmu_output_replace_invalid_utf8`, lines 4117-4140. -/
def replaceInvalid (replaceStr : List Byte) (o : Out) : C Out := do
  let (invalid, o) ← replaceLoop replaceStr o.size 0 o.size false o
  .ok { o with invalid := invalid }

/-- `tmu_output_validate_inplace`, lines 4142-4166. -/
def validateInplace (validate : Validate) (replaceStr : List Byte) (o : Out) : C Out :=
  match validate with
  | .skip => do
    let (newSize, str) ← utf8SkipInvalid (o.data.take o.size)
    .ok { o with data := str ++ o.data.drop o.size, invalid := decide (newSize ≠ o.size), size := newSize }
  | .replace => replaceInvalid replaceStr o
  | .error => do
    let range ← utf8ValidRange (o.data.take o.size)
    if range ≠ o.size then .ok { o with invalid := true, ec := .einval, size := range } else .ok { o with size := range }

/-- `tmu_contents`, lines 335-343: the cells of the block, how many of them are used, and whether the pointer is null. -/
structure Contents where
  null : Bool
  data : List Byte
  size : Nat
deriving DecidableEq, Repr

/-- No contents. -/
def noContents : Contents := ⟨true, [], 0⟩

/-- `tmu_utf8_conversion_result`, lines 368-373. -/
structure DynResult where
  contents : Contents
  ec : Errc
  encoding : Encoding
  invalid : Bool
deriving DecidableEq, Repr

/-- What became of the memory of the caller. -/
inductive Input where
  /-- the caller still has it -/
  | kept (c : Contents)
  /-- it became part of the result; the caller's pointer was set to null -/
  | taken
  /-- it was freed, and the caller still has the pointer -/
  | dangling
deriving DecidableEq, Repr

/-- Removing the byte order mark, lines 4356-4363. -/
def removeBom (o : Out) : C Out :=
  if hasBom utf8Bom (o.data.take o.size) then do
    let data ← memmove o.data 0 3 (o.size - 3)
    .ok { o with data := data, size := o.size - 3 }
  else .ok o

/-- The end of taking over the input, lines 4375-4389. -/
def takeOver (input : Contents) (o : Out) : DynResult × Input :=
  if o.ec = .ok then (⟨⟨o.null, o.data, o.size⟩, o.ec, o.encoding, o.invalid⟩, .taken)
  else (⟨noContents, o.ec, o.encoding, o.invalid⟩, if o.null then .dangling else .kept ⟨input.null, o.data, input.size⟩)

/-- `tmu_utf8_convert_from_bytes_dynamic`, lines 4324-4399. -/
def convertDynamic (input : Contents) (encoding : Encoding) (validate : Validate) (replaceStr : List Byte) (nullterminate : Bool) (junk : Byte) (allocs : List Bool) :
    C (DynResult × Input) := do
  assert (input.size ≤ input.data.length)
  let (converted, o) ← convertInternal (input.data.take input.size) encoding validate replaceStr nullterminate (makeOut true [] true junk allocs)
  if o.ec = .ok then
    if !converted then do
      assert (o.encoding = .utf8 || o.encoding = .utf8bom)
      assert o.null
      assert (o.size = 0)
      assert (o.data.length = 0)
      let o := { o with null := input.null, data := input.data, size := input.size, owns := true }
      let o ← removeBom o
      let o ← validateInplace validate replaceStr o
      let o ← terminate o nullterminate
      .ok (takeOver input o)
    else .ok (⟨⟨o.null, o.data, o.size⟩, o.ec, o.encoding, o.invalid⟩, .kept input)
  else do
    assert o.null
    assert (o.size = 0)
    assert (o.data.length = 0)
    .ok (⟨noContents, o.ec, o.encoding, o.invalid⟩, .kept input)

/-- `tmu_utf8_from_utf16_dynamic_ex`, lines 4733-4762: `isSbo` says that the block was not allocated and `fuel` bounds the rounds of the loop of the
transcoder. Returns the result and the contents; `alloc` says whether the allocation succeeds. -/
def utf8FromUtf16DynamicEx (fuel : Nat) (s : List Unit16) (validate : Validate) (replaceStr : List Byte) (nullterminate : Bool) (out : Contents) (junk : Byte) (isSbo alloc : Bool) :
    C (ConvResult × Contents) := do
  let (r, data) ← utf8FromUtf16Ex fuel s validate replaceStr nullterminate out.data
  if r.ec = .ok then .ok (r, { out with data := data, size := r.size })
  else if r.ec = .erange then
    if !alloc then .ok ({ r with ec := .enomem }, { out with data := data })
    else do
      let block := if isSbo || out.null then List.replicate r.size junk else data.take r.size ++ List.replicate (r.size - data.length) junk
      let (r, data) ← utf8FromUtf16Ex fuel s validate replaceStr nullterminate block
      if r.ec = .ok then .ok (r, ⟨false, data, r.size⟩) else .ok (r, ⟨false, data, 0⟩)
  else .ok (r, { out with data := data })

end Tm.Uni
