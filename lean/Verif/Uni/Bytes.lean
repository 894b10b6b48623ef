import Verif.Uni.Model

/-!
# Model of the conversion of bytes of any encoding to UTF-8

`tmu_utf8_convert_from_bytes` and `tmu_utf8_convert_from_bytes_dynamic` with everything they call, `tm_unicode.h` lines 3774-4468, and
`tmu_utf8_from_utf16_dynamic_ex`, lines 4733-4762.
The caller's buffer, or the block that was allocated, is the list `data`; its length is `capacity`. Blocks of memory that are allocated
consist of copies of the arbitrary byte `junk`. Whether the next allocations succeed is listed in `allocs`; once the list is used up they succeed.
`size_t` has 64 bits; sizes are assumed to be so small that only the subtractions below can wrap around.
-/

namespace Tm.Uni

/-- `tmu_encoding`, lines 348-360. -/
inductive Encoding where
  | unknown | utf8 | utf8bom | utf16be | utf16beBom | utf16le | utf16leBom | utf32be | utf32beBom | utf32le | utf32leBom
deriving DecidableEq, Repr

/-- `tmu_conversion_output_stream`, lines 3806-3813: `conversion` is unfolded; `null` says that `data` is the null pointer. -/
structure Out where
  size : Nat
  ec : Errc
  encoding : Encoding
  invalid : Bool
  null : Bool
  data : List Byte
  necessary : Nat
  canGrow : Bool
  owns : Bool
  junk : Byte
  allocs : List Bool
deriving DecidableEq, Repr

/-- `tmu_make_conversion_output_stream`, lines 3815-3828. -/
def makeOut (null : Bool) (buffer : List Byte) (canGrow : Bool) (junk : Byte) (allocs : List Bool) : Out :=
  ⟨0, .ok, .unknown, false, null, buffer, 0, canGrow, false, junk, allocs⟩

/-- The outcome of the next allocation. -/
def nextAlloc (o : Out) : Bool × Out :=
  match o.allocs with
  | [] => (true, o)
  | b :: bs => (b, { o with allocs := bs })

/-- `tmu_alloc_output_stream`, lines 3830-3842. The stream cannot be destroyed in between, so that a failed allocation leaves `data` null. -/
def allocOut (o : Out) (capacity : Nat) : Bool × Out :=
  if o.canGrow ∧ o.data.length < capacity then
    let (success, o) := nextAlloc o
    if success then (true, { o with null := false, data := List.replicate capacity o.junk, size := 0, owns := true })
    else (false, { o with null := true, data := [], ec := .enomem })
  else (true, o)

/-- `tmu_destroy_output`, lines 3844-3854. The stream lets go of the memory: `data` is empty afterwards, so that the model does not say what
the buffer of the caller contains then. -/
def destroyOut (o : Out) : Out := { o with null := true, data := [], size := 0, owns := false }

/-- `new_capacity` in `tmu_output_grow`, lines 3861-3862. -/
def grownCapacity (capacity byAtLeast : Nat) : Nat :=
  let n := capacity + capacity / 2
  if n < capacity + byAtLeast then capacity + byAtLeast else n

/-- `tmu_output_grow`, lines 3856-3882. -/
def growOut (o : Out) (byAtLeast : Nat) : C (Bool × Out) := do
  assert o.canGrow
  assert (o.size + byAtLeast > o.data.length)
  assert (o.ec = .ok)
  let newCapacity := grownCapacity o.data.length byAtLeast
  let (success, o) := nextAlloc o
  if !o.null ∧ o.owns then do
    assert (o.data.length > 0)
    if success then
      .ok (true, { o with data := o.data ++ List.replicate (newCapacity - o.data.length) o.junk, null := false, owns := true })
    else .ok (false, destroyOut { o with ec := .enomem })
  else
    if success then
      if o.size > o.data.length then .error .oob
      else .ok (true, { o with data := o.data.take o.size ++ List.replicate (newCapacity - o.size) o.junk, null := false, owns := true })
    else .ok (false, destroyOut { o with ec := .enomem })

/-- `tmu_output_append_codepoint`, lines 3884-3906. -/
def appendCodepoint (o : Out) (cp : Nat) : C (Bool × Out) := do
  let remaining := o.data.length - o.size
  let (writeSize, data) ← utf8Encode cp o.data o.size remaining
  let o := { o with data := data, necessary := o.necessary + writeSize }
  if o.ec = .ok then
    if writeSize > remaining then
      if !o.canGrow then .ok (true, { o with ec := .erange })
      else do
        let (success, o) ← growOut o writeSize
        if !success then .ok (false, o)
        else do
          let remaining := o.data.length - o.size
          let (writeSize, data) ← utf8Encode cp o.data o.size remaining
          assert (writeSize ≤ remaining)
          .ok (true, { o with data := data, size := o.size + writeSize })
    else .ok (true, { o with size := o.size + writeSize })
  else .ok (true, o)

/-- The copy at the end of `tmu_output_append_str`, lines 3924-3926. -/
def appendCopy (o : Out) (str : List Byte) : C (Bool × Out) := do
  assert (str.length ≤ o.data.length - o.size)
  let data ← copyTo o.data o.size str
  .ok (true, { o with data := data, size := o.size + str.length })

/-- `tmu_output_append_str`, lines 3908-3929. -/
def appendStr (o : Out) (str : List Byte) : C (Bool × Out) := do
  assert (str.length > 0)
  let remaining := o.data.length - o.size
  let o := { o with necessary := o.necessary + str.length }
  if o.ec = .ok then
    if remaining < str.length then
      if !o.canGrow then .ok (true, { o with ec := .erange })
      else do
        let (success, o) ← growOut o str.length
        if !success then .ok (false, o) else appendCopy o str
    else appendCopy o str
  else .ok (true, o)

/-- Where the room for the replacement comes from, lines 3953-3962: nothing when the stream could not grow. -/
def replaceRoom (o : Out) (diff : Int) : C (Bool × Out) :=
  let growAmount := diff.toNat
  if diff < 0 then .ok (true, o)
  else if o.data.length - o.size < growAmount then
    if !o.canGrow then .ok (false, o) else growOut o growAmount
  else .ok (true, o)

/-- Making room for the replacement, lines 3967-3969. -/
def replaceMove (data : List Byte) (size «end» offset : Nat) : C (List Byte) :=
  if «end» ≠ size then memmove data offset «end» ((size + 2 ^ 64 - offset) % 2 ^ 64) else .ok data

/-- `tmu_output_replace_pos`, lines 3931-3977. -/
def replacePos (o : Out) (start «end» : Nat) (str : List Byte) : C (Bool × Out) := do
  let size := o.size
  assert (str.length > 0)
  assert (start ≤ size)
  assert («end» ≤ size)
  assert (start ≤ «end»)
  if start = size then appendStr o str
  else
    let len := (start + 2 ^ 64 - «end») % 2 ^ 64
    let diff := (BitVec.ofNat 64 str.length).toInt - (BitVec.ofNat 64 len).toInt
    if diff = 0 then do
      let data ← copyTo o.data start str
      .ok (true, { o with data := data })
    else do
      let (success, o) ← replaceRoom o diff
      if !success then .ok (false, o)
      else do
        let offset := if diff < 0 then start + str.length else «end» + diff.toNat
        let data ← replaceMove o.data size «end» offset
        let data ← copyTo data start str
        assert ((size : Int) + diff ≥ 0)
        .ok (true, { o with data := data, size := ((size : Int) + diff).toNat })

/-- `tmu_extract_u16_be` and `tmu_extract_u16_le`, lines 3774-3787. -/
def u16be (s : List Byte) : C (Nat × List Byte) := do
  assert (s.length ≥ 2)
  let a ← rd s 0
  let b ← rd s 1
  .ok (b.toNat ||| a.toNat <<< 8, s.drop 2)

/-- See `u16be`. -/
def u16le (s : List Byte) : C (Nat × List Byte) := do
  assert (s.length ≥ 2)
  let a ← rd s 0
  let b ← rd s 1
  .ok (a.toNat ||| b.toNat <<< 8, s.drop 2)

/-- `tmu_extract_u32_be` and `tmu_extract_u32_le`, lines 3789-3804. -/
def u32be (s : List Byte) : C (Nat × List Byte) := do
  assert (s.length ≥ 4)
  let a ← rd s 0
  let b ← rd s 1
  let c ← rd s 2
  let d ← rd s 3
  .ok (d.toNat ||| c.toNat <<< 8 ||| b.toNat <<< 16 ||| a.toNat <<< 24, s.drop 4)

/-- See `u32be`. -/
def u32le (s : List Byte) : C (Nat × List Byte) := do
  assert (s.length ≥ 4)
  let a ← rd s 0
  let b ← rd s 1
  let c ← rd s 2
  let d ← rd s 3
  .ok (a.toNat ||| b.toNat <<< 8 ||| c.toNat <<< 16 ||| d.toNat <<< 24, s.drop 4)

/-- Reading a code point in `tmu_convert_bytes_from_utf16`, lines 3990-4004. -/
def read16 (extract : List Byte → C (Nat × List Byte)) (bytes : List Byte) : C (Nat × List Byte) := do
  let (lead, bytes) ← extract bytes
  if lead ≥ 0xD800 ∧ lead ≤ 0xDBFF then
    if bytes.length ≥ 2 then do
      let (trail, bytes) ← extract bytes
      if trail ≥ 0xDC00 ∧ trail ≤ 0xDFFF then .ok ((lead <<< 10 + trail + surrogateOffset) % 2 ^ 32, bytes)
      else .ok (invalidCodepoint, bytes)
    else .ok (invalidCodepoint, bytes)
  else .ok (lead, bytes)

/-- How the loop ended: the function returned, or the loop condition failed with these bytes left. -/
inductive LoopEnd where
  | returned (o : Out)
  | finished (bytes : List Byte) (o : Out)
deriving DecidableEq, Repr

/-- The loops of `tmu_convert_bytes_from_utf16` and `tmu_convert_bytes_from_utf32`, lines 3989-4026 and 4054-4076, which differ in the size of a unit and in how a
code point is read. -/
def convertLoop (unit : Nat) (read : List Byte → C (Nat × List Byte)) (validate : Validate) (replaceStr : List Byte) :
    Nat → List Byte → Out → C LoopEnd
  | 0, bytes, o => if bytes.length ≥ unit then .error .diverge else .ok (.finished bytes o)
  | fuel + 1, bytes, o =>
    if bytes.length ≥ unit then do
      let (cp, bytes) ← read bytes
      if !isValidCodepoint cp then
        let o := { o with invalid := true }
        match validate with
        | .skip => convertLoop unit read validate replaceStr fuel bytes o
        | .error => .ok (.returned (destroyOut { o with ec := .einval }))
        | .replace => do
          let (success, o) ← appendStr o replaceStr
          if !success then .ok (.returned o) else convertLoop unit read validate replaceStr fuel bytes o
      else do
        let (success, o) ← appendCodepoint o cp
        if !success then .ok (.returned o) else convertLoop unit read validate replaceStr fuel bytes o
    else .ok (.finished bytes o)

/-- `--size` on a `size_t`. -/
def decrement (n : Nat) : Nat := if n = 0 then 2 ^ 64 - 1 else n - 1

/-- Appending the null terminator without counting it, lines 4034-4041, 4084-4091, 4368-4373 and 4455-4460. -/
def terminate (o : Out) (nullterminate : Bool) : C Out :=
  if nullterminate ∧ (o.ec = .ok ∨ o.ec = .erange) then do
    let (success, o) ← appendCodepoint o 0
    if success then .ok { o with size := decrement o.size } else .ok o
  else .ok o

/-- What follows the loop, lines 4028-4041 and 4078-4091. -/
def convertEnd (nullterminate : Bool) : LoopEnd → C Out
  | .returned o => .ok o
  | .finished bytes o =>
    if bytes.length > 0 ∧ o.ec = .ok then .ok (destroyOut { o with ec := .einval })
    else terminate o nullterminate

/-- `tmu_convert_bytes_from_utf16` and `tmu_convert_bytes_from_utf32`, lines 3979-4092. -/
def convertBytes (unit : Nat) (read : List Byte → C (Nat × List Byte)) (bytes : List Byte) (validate : Validate) (replaceStr : List Byte)
    (nullterminate : Bool) (o : Out) : C Out := do
  assert (validate ≠ .replace || replaceStr.length > 0)
  let (success, o) := allocOut o (bytes.length + bytes.length / 2)
  if !success then .ok o
  else do
    let e ← convertLoop unit read validate replaceStr bytes.length bytes o
    convertEnd nullterminate e

/-- `tmu_has_utf8_bom` and so on, lines 4094-4115, with the byte order marks of lines 3552-3556. -/
def hasBom (bom bytes : List Byte) : Bool := decide (bytes.length > bom.length) && decide (bytes.take bom.length = bom)

/-- Line 3552. -/
def utf8Bom : List Byte := [0xEF, 0xBB, 0xBF]
/-- Line 3553. -/
def utf16beBom : List Byte := [0xFE, 0xFF]
/-- Line 3554. -/
def utf16leBom : List Byte := [0xFF, 0xFE]
/-- Line 3555. -/
def utf32beBom : List Byte := [0x00, 0x00, 0xFE, 0xFF]
/-- Line 3556. -/
def utf32leBom : List Byte := [0xFF, 0xFE, 0x00, 0x00]

/-- The detection of the encoding, lines 4194-4232. -/
def convertUnknown (bytes : List Byte) (validate : Validate) (replaceStr : List Byte) (nullterminate : Bool) (o : Out) : C (Bool × Out) :=
  if hasBom utf8Bom bytes then .ok (false, { o with encoding := .utf8bom })
  else if hasBom utf32beBom bytes then do
    let o ← convertBytes 4 u32be (bytes.drop 4) validate replaceStr nullterminate { o with encoding := .utf32beBom }
    .ok (true, o)
  else if hasBom utf32leBom bytes then do
    let o ← convertBytes 4 u32le (bytes.drop 4) validate replaceStr nullterminate { o with encoding := .utf32leBom }
    .ok (true, o)
  else if hasBom utf16beBom bytes then do
    let o ← convertBytes 2 (read16 u16be) (bytes.drop 2) validate replaceStr nullterminate { o with encoding := .utf16beBom }
    .ok (true, o)
  else if hasBom utf16leBom bytes then do
    let o ← convertBytes 2 (read16 u16le) (bytes.drop 2) validate replaceStr nullterminate { o with encoding := .utf16leBom }
    .ok (true, o)
  else .ok (false, { o with encoding := .utf8 })

/-- The cases for a known encoding other than UTF-8, lines 4248-4315, which differ in the byte order mark and the way code points are read. -/
def convertKnown (bom : List Byte) (unit : Nat) (read : List Byte → C (Nat × List Byte)) (plain withBom : Encoding) (bomExpected : Bool)
    (bytes : List Byte) (validate : Validate) (replaceStr : List Byte) (nullterminate : Bool) (o : Out) : C (Bool × Out) :=
  if hasBom bom bytes then do
    let o ← convertBytes unit read (bytes.drop bom.length) validate replaceStr nullterminate o
    .ok (decide (o.ec = .ok), { o with encoding := withBom })
  else if bomExpected then .ok (false, { o with ec := .einval })
  else do
    let o ← convertBytes unit read bytes validate replaceStr nullterminate o
    .ok (decide (o.ec = .ok), { o with encoding := plain })

/-- `tmu_convert_bytes_to_utf8_internal`, lines 4168-4322. -/
def convertInternal (bytes : List Byte) (encoding : Encoding) (validate : Validate) (replaceStr : List Byte) (nullterminate : Bool) (o : Out) :
    C (Bool × Out) := do
  assert (validate ≠ .replace || replaceStr.length > 0)
  if bytes.length = 0 then
    if nullterminate then do
      let (success, o) ← appendCodepoint o 0
      if success then .ok (true, { o with size := decrement o.size })
      else .ok (false, { o with ec := .erange, necessary := 1 })
    else .ok (true, o)
  else
    match encoding with
    | .unknown => convertUnknown bytes validate replaceStr nullterminate o
    | .utf8 => .ok (false, { o with encoding := if hasBom utf8Bom bytes then .utf8bom else .utf8 })
    | .utf8bom =>
      if hasBom utf8Bom bytes then .ok (false, { o with encoding := .utf8bom }) else .ok (false, { o with ec := .einval })
    | .utf32be => convertKnown utf32beBom 4 u32be .utf32be .utf32beBom false bytes validate replaceStr nullterminate o
    | .utf32beBom => convertKnown utf32beBom 4 u32be .utf32be .utf32beBom true bytes validate replaceStr nullterminate o
    | .utf32le => convertKnown utf32leBom 4 u32le .utf32le .utf32leBom false bytes validate replaceStr nullterminate o
    | .utf32leBom => convertKnown utf32leBom 4 u32le .utf32le .utf32leBom true bytes validate replaceStr nullterminate o
    | .utf16be => convertKnown utf16beBom 2 (read16 u16be) .utf16be .utf16beBom false bytes validate replaceStr nullterminate o
    | .utf16beBom => convertKnown utf16beBom 2 (read16 u16be) .utf16be .utf16beBom true bytes validate replaceStr nullterminate o
    | .utf16le => convertKnown utf16leBom 2 (read16 u16le) .utf16le .utf16leBom false bytes validate replaceStr nullterminate o
    | .utf16leBom => convertKnown utf16leBom 2 (read16 u16le) .utf16le .utf16leBom true bytes validate replaceStr nullterminate o

/-- Lines 4428-4430. -/
def appendRange (o : Out) (str : List Byte) : C (Bool × Out) := if str.length > 0 then appendStr o str else .ok (true, o)

/-- Loop of `tmu_utf8_convert_from_bytes`, lines 4425-4453. -/
def copyLoop (validate : Validate) (replaceStr : List Byte) : Nat → List Byte → Out → C Out
  | 0, bytes, o => if bytes.length = 0 then .ok o else .error .diverge
  | fuel + 1, bytes, o =>
    if bytes.length = 0 then .ok o
    else do
      let range ← utf8ValidRange bytes
      let (_, o) ← appendRange o (bytes.take range)
      let rest := bytes.drop range
      if range ≠ bytes.length then
        let o := { o with invalid := true }
        match validate with
        | .skip => copyLoop validate replaceStr fuel (rest.drop 1) o
        | .replace => do
          let (_, o) ← appendStr o replaceStr
          copyLoop validate replaceStr fuel (rest.drop 1) o
        | .error => copyLoop validate replaceStr fuel [] { o with ec := .einval }
      else copyLoop validate replaceStr fuel rest o

/-- The result of a conversion into a buffer: `tmu_conversion_result`, lines 412-417. -/
structure BytesResult where
  size : Nat
  ec : Errc
  encoding : Encoding
  invalid : Bool
deriving DecidableEq, Repr

/-- Copying the input that already is UTF-8, lines 4412-4461. -/
def convertCopy (converted : Bool) (input : List Byte) (validate : Validate) (replaceStr : List Byte) (nullterminate : Bool) (o : Out) : C Out :=
  if o.ec = .ok ∧ !converted ∧ input.length > 0 then do
    assert (o.encoding = .utf8 || o.encoding = .utf8bom)
    let bytes := if hasBom utf8Bom input then input.drop 3 else input
    let o ← copyLoop validate replaceStr bytes.length bytes o
    terminate o nullterminate
  else .ok o

/-- `tmu_utf8_convert_from_bytes`, lines 4401-4468. -/
def convertFromBytes (input : List Byte) (encoding : Encoding) (validate : Validate) (replaceStr : List Byte) (nullterminate : Bool) (out : List Byte) :
    C (BytesResult × List Byte) := do
  let (converted, o) ← convertInternal input encoding validate replaceStr nullterminate (makeOut false out false 0 [])
  let o ← convertCopy converted input validate replaceStr nullterminate o
  .ok (⟨if o.ec = .erange then o.necessary else o.size, o.ec, o.encoding, o.invalid⟩, o.data)

end Tm.Uni
