import Verif.File.Os
import Verif.Uni.Dynamic

/-!
The file functions of `tm_unicode.h`, in the variant for UNIX with `stdio.h`. `tm_size_t` is a natural number. The paths are byte strings without the
terminator and without zeros in them; where the code reads the terminator the model appends it.
-/

namespace Tm.File

open Tm.Uni (Validate Encoding)

/-- `tmu_contents`, lines 335-343: the block, its cells and how many are used. A null pointer is `none`. -/
structure Contents where
  block : Option Nat
  cells : List Byte
  size : Nat
deriving DecidableEq, Repr

def noContents : Contents := ⟨none, [], 0⟩

/-- `tmu_contents_result`, lines 362-365. -/
structure ContentsResult where
  contents : Contents
  ec : Errno
deriving DecidableEq, Repr

/-- `(errno != 0) ? errno : TM_EIO`. -/
def errnoOrIo (w : World) : Errno := if w.errno ≠ 0 then w.errno else EIO

/-- `TMU_MEMCPY(data + pos, src, n)`. -/
def copyAt (cells : List Byte) (pos : Nat) (src : List Byte) : C (List Byte) :=
  if pos + src.length ≤ cells.length then .ok (cells.take pos ++ src ++ cells.drop (pos + src.length)) else .error .oob

/-! ## Memory of contents -/

/-- `tmu_destroy_contents`, lines 7571-7581; afterwards there are no contents. -/
def destroyContents (c : Contents) (w : World) : C World :=
  match c.block with
  | none => .ok w
  | some b => do
    assert (decide (0 < c.cells.length))
    free b w

/-- The new capacity in `tmu_grow_by`, lines 7500-7501. -/
def grownCapacity (c : Contents) (amount : Nat) : Nat :=
  if c.cells.length + c.cells.length / 2 < c.size + amount then c.size + amount else c.cells.length + c.cells.length / 2

/-- `realloc` of a block or of null. -/
def reallocAny (b : Option Nat) (w : World) : C (Option Nat × World) :=
  match b with
  | none => .ok (malloc w)
  | some b => realloc b w

/-- `tmu_grow_by`, lines 7493-7508. -/
def growBy (c : Contents) (amount : Nat) (w : World) : C (Bool × Contents × World) := do
  assert (decide (c.size ≤ c.cells.length))
  if c.cells.length - c.size ≥ amount then .ok (true, c, w)
  else do
    let (b, w) ← reallocAny c.block w
    match b with
    | none => .ok (false, c, w)
    | some b => .ok (true, { c with block := some b, cells := resize w.junk c.cells (grownCapacity c amount) }, w)

/-! ## Reading -/

/-- The loop of `tmu_read_file_t`, lines 7024-7032; at most `fuel` rounds. -/
def readMore : Nat → Nat → Contents → World → C (ContentsResult × World)
  | 0, _, _, _ => .error .diverge
  | fuel + 1, f, c, w => do
    let (b, w) ← fread f 1024 w
    if b.length = 0 then .ok (⟨c, 0⟩, w)
    else do
      let (grown, c, w) ← growBy c b.length w
      if !grown then do
        let w ← destroyContents c w
        .ok (⟨noContents, ENOMEM⟩, w)
      else do
        let cells ← copyAt c.cells c.size b
        readMore fuel f { c with cells := cells, size := c.size + b.length } w

/-- Lines 7015-7034 of `tmu_read_file_t`. -/
def readBody (fuel f : Nat) (w : World) : C (ContentsResult × World) := do
  let (b, w) ← fread f 1024 w
  if b.length = 0 then .ok (⟨noContents, 0⟩, w)
  else
    let capacity := if b.length < 1024 then b.length else 2048
    match malloc w with
    | (none, w) => .ok (⟨{ noContents with cells := List.replicate capacity w.junk }, ENOMEM⟩, w)
    | (some blk, w) => do
      let cells ← copyAt (List.replicate capacity w.junk) 0 b
      readMore fuel f ⟨some blk, cells, b.length⟩ w

/-- How much a stream still has: more rounds than that are not needed. -/
def rounds (f : Nat) (w : World) : Nat :=
  match w.stream f with
  | none => 0
  | some s => s.rest.length + 1

/-- `tmu_read_file_t`, lines 7005-7042, and `tmu_read_file`, lines 7630-7638, on UNIX, where `tmu_to_platform_path`, lines 6710-6715, hands the path on. -/
def readFile (p : List Byte) (w : World) : C (ContentsResult × World) :=
  match fopenRead p { w with errno := 0 } with
  | (none, w) => .ok (⟨noContents, errnoOrIo w⟩, w)
  | (some f, w) => do
    let (r, w) ← readBody (rounds f w) f w
    let bad ← ferror f w
    let r := if w.errno ≠ 0 ∨ bad then { r with ec := errnoOrIo w } else r
    let (_, w) ← fclose f w
    .ok (r, w)

/-- An error of the conversions as a number. -/
def errcNat : Errc → Errno
  | .ok => 0
  | .einval => EINVAL
  | .erange => ERANGE
  | .enomem => ENOMEM
  | .eio => EIO
  | .enoent => ENOENT
  | .eoverflow => 75
  | .other => 1

/-- `tmu_utf8_contents_result`, lines 368-373 and 656. -/
structure Utf8Result where
  contents : Contents
  ec : Errno
  encoding : Encoding
  invalid : Bool
deriving DecidableEq, Repr

/-- The blocks after `tmu_utf8_convert_from_bytes_dynamic`: the caller's block became part of the result, is still there, or was freed although the caller
still has the pointer. Returns the result, what the caller's contents are, and the world. If the block of the caller was grown its number stays the same. -/
def adopt (file : Contents) (r : Uni.DynResult × Uni.Input) (w : World) : Utf8Result × Contents × World :=
  let fresh : World := { w with blocks := w.next :: w.blocks, next := w.next + 1 }
  let res (b : Option Nat) : Utf8Result := ⟨⟨b, r.1.contents.data, r.1.contents.size⟩, errcNat r.1.ec, r.1.encoding, r.1.invalid⟩
  match r.2 with
  | .taken =>
    if r.1.contents.null then (res none, noContents, w)
    else match file.block with
      | none => (res (some w.next), noContents, fresh)
      | some b => (res (some b), noContents, w)
  | .kept _ => if r.1.contents.null then (res none, file, w) else (res (some w.next), file, fresh)
  | .dangling => (res none, file, { w with blocks := match file.block with | none => w.blocks | some b => w.blocks.erase b })

/-- `tmu_read_file_as_utf8_ex`, lines 7662-7679. -/
def readFileAsUtf8Ex (p : List Byte) (encoding : Encoding) (validate : Validate) (replaceStr : List Byte) (w : World) : C (Utf8Result × World) := do
  let validate := if validate = .replace ∧ replaceStr = [] then .skip else validate
  let (file, w) ← readFile p w
  if file.ec = 0 then do
    let r ← Uni.convertDynamic ⟨file.contents.block.isNone, file.contents.cells, file.contents.size⟩ encoding validate replaceStr true w.junk w.allocs
    let (res, c, w) := adopt file.contents r w
    let w ← destroyContents c w
    .ok (res, w)
  else .ok (⟨noContents, file.ec, .unknown, false⟩, w)

/-- `tmu_read_file_as_utf8`, lines 7659-7661. -/
def readFileAsUtf8 (p : List Byte) (w : World) : C (Utf8Result × World) := readFileAsUtf8Ex p .unknown .error [] w

/-! ## What exists -/

/-- `tmu_exists_result`, lines 644-647. -/
structure Exists where
  exists_ : Bool
  ec : Errno
deriving DecidableEq, Repr

/-- The end of `tmu_file_exists_t` and `tmu_directory_exists_t`, lines 6943-6967 and 6978-7002. `stat` returns 0 or -1. -/
def existsOf (is : Node → Bool) : Option Node × World → Exists × World
  | (some n, w) => (⟨is n, 0⟩, w)
  | (none, w) => (if w.errno = ENOENT ∨ w.errno = ENOTDIR then ⟨false, 0⟩ else ⟨false, w.errno⟩, w)

/-- `TMU_S_ISREG`, line 6944. -/
def isFile : Node → Bool
  | .file _ => true
  | _ => false

/-- `tmu_file_exists_t`, lines 6935-6968, and `tmu_file_exists`, lines 7583-7591. -/
def fileExists (p : List Byte) (w : World) : Exists × World := existsOf isFile (stat p w)

/-- `tmu_directory_exists_t`, lines 6970-7003, and `tmu_directory_exists`, lines 7592-7600. -/
def directoryExists (p : List Byte) (w : World) : Exists × World := existsOf (fun n => decide (n = .dir)) (stat p w)

/-- `tmu_compare_file_time`, lines 7564-7569. -/
def compareFileTime (a b : BitVec 64) : Int :=
  if (a - b).toInt < 0 then -1 else if (a - b).toInt > 0 then 1 else 0

/-! ## Directories -/

/-- `TMU_SBO_SIZE`, line 900. -/
def sboSize : Nat := 260

/-- `tmu_to_platform_path_t`, lines 7510-7526: `none` when there is no memory, and otherwise the block the copy is in, if it is not in the struct. -/
def toPlatformPath (p : List Byte) (w : World) : Option (Option Nat) × World :=
  if p.length < sboSize then (some none, w)
  else match malloc w with
    | (none, w) => (none, w)
    | (some b, w) => (some (some b), w)

/-- `tmu_destroy_platform_path`, lines 7366-7376. -/
def destroyPath (b : Option Nat) (w : World) : C World :=
  match b with
  | none => .ok w
  | some b => free b w

/-- `tmu_create_single_directory_t`, lines 7178-7188. -/
def createSingle (p : List Byte) (w : World) : Errno × World :=
  match mkdir p w with
  | (true, w) => (0, w)
  | (false, w) => (if w.errno ≠ EEXIST then w.errno else 0, w)

/-- `strchr(p + from, '/') - p`. -/
def strchr (p : List Byte) (start : Nat) : Option Nat := ((p.drop start).findIdx? fun b => b == slash).map (start + ·)

/-- The path up to `end`, which was overwritten by 0, lines 7546-7547. -/
def cutAt (p : List Byte) : Option Nat → List Byte
  | none => p
  | some i => p.take i

/-- The loop of `tmu_create_directory_internal`, lines 7545-7555; at most `fuel` rounds. -/
def createLoop : Nat → List Byte → Option Nat → World → C (Errno × World)
  | 0, _, _, _ => .error .diverge
  | fuel + 1, p, e, w =>
    let r := createSingle (cutAt p e) w
    if r.1 ≠ 0 then .ok r
    else match e with
      | none => .ok r
      | some i => if i + 1 = p.length then .ok r else createLoop fuel p (strchr p (i + 1)) r.2

/-- `tmu_create_directory_internal`, lines 7528-7558; `dir` are the first `dir_len` characters. -/
def createDirectoryInternal (dir : List Byte) (w : World) : C (Errno × World) :=
  if dir.length = 0 then .ok (0, w)
  else if dir = [slash] then .ok (0, w)
  else if dir = [0x2E, slash] ∨ dir = [0x7E, slash] then .ok (0, w)
  else match toPlatformPath dir w with
    | (none, w) => .ok (ENOMEM, w)
    | (some b, w) =>
      match directoryExists dir w with
      | (e, w) =>
        if e.exists_ then do
          let w ← destroyPath b w
          .ok (0, w)
        else do
          let (ec, w) ← createLoop (dir.length + 1) dir (strchr dir 0) w
          let w ← destroyPath b w
          .ok (ec, w)

/-- `tmu_create_directory_t`, lines 7560-7562, and `tmu_create_directory`, lines 7611-7619. -/
def createDirectory (p : List Byte) (w : World) : C (Errno × World) := createDirectoryInternal p w

/-- `tmu_delete_directory_t`, lines 7190-7194, and `tmu_delete_directory`, lines 7620-7628. -/
noncomputable def deleteDirectory (p : List Byte) (w : World) : Errno × World :=
  match rmdir p w with
  | (true, w) => (0, w)
  | (false, w) => (w.errno, w)

/-- The loop of `tmu_get_path_len_internal`, lines 7486-7490. -/
def pathLenLoop (p : List Byte) : Nat → C Nat
  | 0 => .ok 0
  | n + 1 => do
    let b ← rd (p ++ [0]) (n + 1)
    if b ≠ slash ∧ b ≠ 0x5C ∧ b ≠ 0x3A ∧ b ≠ 0x7E then pathLenLoop p n else .ok (n + 1)

/-- `tmu_get_path_len_internal`, lines 7484-7491, with the length 0. -/
def pathLen (p : List Byte) : C Nat := pathLenLoop p p.length

/-! ## Writing -/

/-- The flags, lines 672-679. -/
structure Flags where
  createTree : Bool
  overwrite : Bool
  bom : Bool
  atomic : Bool
deriving DecidableEq, Repr

/-- `tmu_write_file_result`, lines 664-667. -/
structure WriteResult where
  written : Nat
  ec : Errno
deriving DecidableEq, Repr

/-- Creating the directories, lines 7049-7055 and 7101-7104. -/
def createTree (flags : Flags) (p : List Byte) (w : World) : C (Errno × World) :=
  if flags.createTree then do
    let n ← pathLen p
    createDirectoryInternal (p.take n) w
  else .ok (0, w)

/-- Lines 7057-7067 and 7095-7099: an error if there is a file and it must not be overwritten. -/
def checkAbsent (flags : Flags) (p : List Byte) (w : World) : Errno × World :=
  if flags.overwrite then (0, w)
  else match fileExists p w with
    | (e, w) => (if e.ec ≠ 0 then e.ec else if e.exists_ then EEXIST else 0, w)

/-- Opening the file, writing and closing it, lines 7069-7082. -/
def writeOut (p data : List Byte) (w : World) : C (WriteResult × World) :=
  match fopenWrite p w with
  | (none, w) => .ok (⟨0, errnoOrIo w⟩, w)
  | (some f, w) => do
    let (n, w) ← fwrite f data { w with errno := 0 }
    let bad ← ferror f w
    let ec := if n ≠ data.length ∨ w.errno ≠ 0 ∨ bad then errnoOrIo w else 0
    let (_, w) ← fclose f w
    .ok (⟨n, ec⟩, w)

/-- `tmu_write_file_ex_internal`, lines 7044-7083. -/
def writeFileInternal (p data : List Byte) (flags : Flags) (w : World) : C (WriteResult × World) := do
  let (ec, w) ← createTree flags p w
  if ec ≠ 0 then .ok (⟨0, ec⟩, w)
  else match checkAbsent flags p w with
    | (ec, w) => if ec ≠ 0 then .ok (⟨0, ec⟩, w) else writeOut p data w

/-- `tmu_write_file_ex_t`, lines 7122-7155. -/
def writeFileExT (p data : List Byte) (flags : Flags) (w : World) : C (WriteResult × World) :=
  if !flags.atomic then writeFileInternal p data flags w else .ok (⟨0, EIO⟩, w)

/-- `tmu_write_file_ex`, lines 7647-7657. -/
def writeFileEx (p data : List Byte) (flags : Flags) (w : World) : C (WriteResult × World) := writeFileExT p data { flags with bom := false } w

/-- `tmu_write_file`, lines 7640-7642. -/
def writeFile (p data : List Byte) (w : World) : C (WriteResult × World) := writeFileEx p data ⟨false, true, false, false⟩ w

/-- `tmu_write_file_as_utf8_ex`, lines 7680-7689. -/
def writeFileAsUtf8Ex (p data : List Byte) (flags : Flags) (w : World) : C (WriteResult × World) := writeFileExT p data flags w

/-- `tmu_write_file_as_utf8`, lines 7643-7645. -/
def writeFileAsUtf8 (p data : List Byte) (w : World) : C (WriteResult × World) := writeFileAsUtf8Ex p data ⟨false, true, true, false⟩ w

/-! ## Deleting and renaming -/

/-- `tmu_delete_file_t`, lines 7085-7089, and `tmu_delete_file`, lines 7706-7714. -/
noncomputable def deleteFile (p : List Byte) (w : World) : Errno × World :=
  match remove p w with
  | (true, w) => (0, w)
  | (false, w) => (errnoOrIo w, w)

/-- The second attempt of `tmu_rename_file_ex_t`, lines 7112-7116. -/
noncomputable def renameAgain (p q : List Byte) (w : World) : Errno × World :=
  match deleteFile q w with
  | (ec, w) =>
    if ec = 0 then
      match rename p q w with
      | (true, w) => (0, w)
      | (false, w) => (errnoOrIo w, w)
    else (ec, w)

/-- What `tmu_rename_file_ex_t` does when the first attempt fails, lines 7109-7117. -/
noncomputable def renameFailed (p q : List Byte) (flags : Flags) (w : World) : Errno × World :=
  if flags.overwrite then
    match fileExists p w with
    | (e1, w1) =>
      if e1.exists_ then
        match fileExists q w1 with
        | (e2, w2) => if e2.exists_ then renameAgain p q w2 else (errnoOrIo w, w2)
      else (errnoOrIo w, w1)
  else (errnoOrIo w, w)

/-- Lines 7106-7119 of `tmu_rename_file_ex_t`. -/
noncomputable def renameOut (p q : List Byte) (flags : Flags) (w : World) : Errno × World :=
  match rename p q { w with errno := 0 } with
  | (true, w) => (0, w)
  | (false, w) => renameFailed p q flags w

/-- `tmu_rename_file_ex_t`, lines 7091-7120, and `tmu_rename_file_ex`, lines 7692-7704. -/
noncomputable def renameFileEx (p q : List Byte) (flags : Flags) (w : World) : C (Errno × World) :=
  match checkAbsent flags q w with
  | (ec, w) =>
    if ec ≠ 0 then .ok (ec, w)
    else do
      let (ec, w) ← createTree flags q w
      if ec ≠ 0 then .ok (ec, w) else .ok (renameOut p q flags w)

/-- `tmu_rename_file`, line 7691. -/
noncomputable def renameFile (p q : List Byte) (w : World) : C (Errno × World) := renameFileEx p q ⟨false, false, false, false⟩ w

/-! ## The current directory and the program -/

/-- The loop of `tmu_current_working_directory`, lines 6741-6760; at most `fuel` rounds. -/
def cwdLoop : Nat → Contents → World → C (ContentsResult × World)
  | 0, _, _ => .error .diverge
  | fuel + 1, c, w =>
    match getcwd c.cells.length w with
    | (some text, w) => do
      let cells ← copyAt c.cells 0 text
      .ok (⟨{ c with cells := cells }, 0⟩, w)
    | (none, w) =>
      if w.errno = ERANGE then do
        let (b, w) ← reallocAny c.block w
        match b with
        | none => do
          let w ← destroyContents c w
          .ok (⟨noContents, ENOMEM⟩, w)
        | some b => cwdLoop fuel { c with block := some b, cells := resize w.junk c.cells (c.cells.length + 200) } w
      else .ok (⟨c, errnoOrIo w⟩, w)

/-- `strlen`. -/
def strlen (cells : List Byte) : C Nat := if 0 ∈ cells then .ok (cells.takeWhile (· ≠ 0)).length else .error .oob

/-- Room for the slash, lines 6764-6777. -/
def cwdPad (extra : Nat) (c : Contents) (w : World) : C (ContentsResult × World) := do
  let size ← strlen c.cells
  let c := { c with size := size }
  if size + extra + 1 > c.cells.length then do
    let (b, w) ← reallocAny c.block w
    match b with
    | none => do
      let w ← destroyContents c w
      .ok (⟨noContents, ENOMEM⟩, w)
    | some b => .ok (⟨{ c with block := some b, cells := resize w.junk c.cells (size + extra + 1) }, 0⟩, w)
  else .ok (⟨c, 0⟩, w)

/-- Lines 7353-7359 of `tmu_to_tmu_path`: a slash at the end of a directory. -/
def endSlash (c : Contents) : C Contents :=
  if c.size > 0 then do
    let last ← rd c.cells (c.size - 1)
    if last ≠ slash then do
      assert (decide (c.size + 1 < c.cells.length))
      let cells ← wr c.cells c.size slash
      .ok { c with cells := cells, size := c.size + 1 }
    else .ok c
  else .ok c

/-- `tmu_to_tmu_path` of a directory, lines 7342-7364. -/
def toTmuPath (c : Contents) : C Contents := do
  assert (decide (c.block.isSome = decide (0 < c.cells.length)))
  let c ← endSlash c
  assert (decide (c.size < c.cells.length))
  let cells ← wr c.cells c.size 0
  .ok { c with cells := cells }

/-- The allocation and the loop, lines 6735-6761. -/
def cwdGet (w : World) : C (ContentsResult × World) :=
  match malloc w with
  | (none, w) => .ok (⟨noContents, ENOMEM⟩, w)
  | (some b, w) => cwdLoop ((cwdText w.cwd).length + w.plan.length + 1) ⟨some b, List.replicate 200 w.junk, 0⟩ w

/-- `tmu_current_working_directory`, lines 6730-6781. -/
def currentWorkingDirectory (extra : Nat) (w : World) : C (ContentsResult × World) := do
  let (r, w) ← cwdGet w
  if r.ec = 0 then do
    let (r, w) ← cwdPad extra r.contents w
    if r.ec = 0 then do
      let c ← toTmuPath r.contents
      .ok (⟨c, 0⟩, w)
    else .ok (r, w)
  else .ok (r, w)

/-- How the loop of `tmu_module_filename` ends: the buffer, what the call wrote and `result.ec` so far; `none` is a negative size. -/
structure Link where
  /-- the block, or the array in the function -/
  block : Option Nat
  cells : List Byte
  text : Option (List Byte)
  ec : Errno
  lastError : Errno

/-- The loop of `tmu_module_filename`, lines 6802-6817; at most `fuel` rounds. -/
def linkLoop : Nat → Nat → List Byte → World → C (Link × World)
  | 0, _, _, _ => .error .diverge
  | fuel + 1, b, cells, w =>
    match readlink cells.length w with
    | (none, w) => .ok (⟨some b, cells, none, 0, w.errno⟩, w)
    | (some t, w) => do
      let cells ← copyAt cells 0 t
      if t.length ≥ cells.length then do
        let last := w.errno
        let (nb, w) ← realloc b w
        match nb with
        | none => .ok (⟨some b, cells, some t, ENOMEM, last⟩, w)
        | some b => linkLoop fuel b (resize w.junk cells (cells.length * 2)) w
      else .ok (⟨some b, cells, some t, 0, w.errno⟩, w)

/-- Lines 6786-6818 of `tmu_module_filename`; the first component says that it returned at line 6798. -/
def linkGet (w : World) : C (Bool × Link × World) :=
  match readlink 260 w with
  | (none, w) => .ok (false, ⟨none, List.replicate 260 w.junk, none, 0, w.errno⟩, w)
  | (some t, w) => do
    let cells ← copyAt (List.replicate 260 w.junk) 0 t
    let last := w.errno
    if t.length ≥ 260 then
      match malloc w with
      | (none, w) => .ok (true, ⟨none, cells, some t, ENOMEM, last⟩, w)
      | (some b, w) => do
        let (l, w) ← linkLoop (w.exe.length + 1) b (List.replicate 520 w.junk) w
        .ok (false, l, w)
    else .ok (false, ⟨none, cells, some t, 0, last⟩, w)

/-- `TMU_FREE(filename)`, line 6840: freeing the array in the function is undefined. -/
def freeAny (b : Option Nat) (w : World) : C World :=
  match b with
  | none => .error .invalid
  | some b => free b w

/-- Lines 6820-6842 of `tmu_module_filename`. -/
def linkEnd (l : Link) (w : World) : C (ContentsResult × World) :=
  let ec := if l.text = none then l.lastError else l.ec
  if ec = 0 then
    match l.text with
    | none => .error .oob
    | some t =>
      match l.block with
      | none =>
        match malloc w with
        | (none, w) => .ok (⟨noContents, ENOMEM⟩, w)
        | (some b, w) => do
          let cells ← copyAt (List.replicate (t.length + 1) w.junk) 0 (l.cells.take t.length)
          let cells ← wr cells t.length 0
          .ok (⟨⟨some b, cells, t.length⟩, 0⟩, w)
      | some b => do
        assert (decide (t.length < l.cells.length))
        let cells ← wr l.cells t.length 0
        .ok (⟨⟨some b, cells, t.length⟩, 0⟩, w)
  else do
    let w ← freeAny l.block w
    .ok (⟨noContents, ec⟩, w)

/-- `tmu_module_filename`, lines 6783-6843. -/
def moduleFilename (w : World) : C (ContentsResult × World) := do
  let (returned, l, w) ← linkGet w
  if returned then .ok (⟨noContents, l.ec⟩, w) else linkEnd l w

/-- The loop of `tmu_module_directory`, lines 7719-7721. -/
def dirLoop (cells : List Byte) : Nat → C Nat
  | 0 => .ok 0
  | i + 1 => do
    let b ← rd cells i
    if b ≠ slash then dirLoop cells i else .ok (i + 1)

/-- `tmu_module_directory`, lines 7716-7726. -/
def moduleDirectory (w : World) : C (ContentsResult × World) := do
  let (r, w) ← moduleFilename w
  if r.ec = 0 then do
    let size ← dirLoop r.contents.cells r.contents.size
    if r.contents.block.isSome then do
      let cells ← wr r.contents.cells size 0
      .ok (⟨⟨r.contents.block, cells, size⟩, r.ec⟩, w)
    else .ok (⟨{ r.contents with size := size }, r.ec⟩, w)
  else .ok (r, w)

/-! ## Listing a directory -/

/-- `tmu_opened_dir`, lines 702-708, without the buffer, which is not used on UNIX. -/
structure OpenedDir where
  ec : Errno
  handle : Option Nat
deriving DecidableEq, Repr

/-- `tmu_open_directory_t`, lines 6854-6872, and `tmu_open_directory`, lines 7839-7848. -/
def openDirectory (p : List Byte) (w : World) : OpenedDir × World :=
  match opendir (if p = [] then [0x2E] else p) w with
  | (none, w) => (⟨w.errno, none⟩, w)
  | (some d, w) => (⟨0, some d⟩, w)

/-- `tmu_close_directory`, lines 6874-6880. -/
def closeDirectory (d : OpenedDir) (w : World) : C (OpenedDir × World) :=
  match d.handle with
  | none => .ok (⟨0, none⟩, w)
  | some h => do
    let w ← closedir h w
    .ok (⟨0, none⟩, w)

/-- The loop of `tmu_read_directory`, lines 6888-6903: an entry, or the error number at the end; at most `fuel` rounds. -/
def readLoop : Nat → Nat → World → C ((Entry ⊕ Errno) × World)
  | 0, _, _ => .error .diverge
  | fuel + 1, h, w => do
    let (e, w) ← readdir h { w with errno := 0 }
    match e with
    | none => .ok (.inr w.errno, w)
    | some e => if e.name = [0x2E] ∨ e.name = [0x2E, 0x2E] then readLoop fuel h w else .ok (.inl e, w)

/-- How much is left to list. -/
def entriesLeft (h : Nat) (w : World) : Nat :=
  match w.dirs.find? fun x => x.1 == h with
  | none => 0
  | some x => x.2.length

/-- `tmu_read_directory`, lines 6882-6908: the name and whether it is a file, or nothing. `DT_DIR` is 4. -/
def readDirectory (d : OpenedDir) (w : World) : C (Option (List Byte × Bool) × OpenedDir × World) :=
  match d.handle with
  | none => .ok (none, d, w)
  | some h => do
    let (r, w) ← readLoop (entriesLeft h w + 1) h w
    match r with
    | .inr e => .ok (none, if e ≠ 0 then { d with ec := e } else d, w)
    | .inl e => .ok (some (e.name, decide (e.type &&& 4 = 0)), d, w)

/-! ## The variants that take string views, on UNIX -/

/-- What the operating system sees of a string: it ends at the first zero. -/
def cstr (p : List Byte) : List Byte := p.takeWhile (· ≠ 0)

/-- The functions with one path: lines 7852-7887, 7891-7901, 7926-7936, 7954-7981. The path is copied, by `tmu_to_platform_path_n`, lines 6720-6722. -/
def withView {α : Type} (p : List Byte) (refused : α) (run : List Byte → World → C (α × World)) (w : World) : C (α × World) :=
  match toPlatformPath p w with
  | (none, w) => .ok (refused, w)
  | (some b, w) => do
    let (r, w) ← run (cstr p) w
    let w ← destroyPath b w
    .ok (r, w)

/-- Destroying a path that may never have been made: its pointer was set to null, lines 7942, 7944. -/
def destroyMade (b : Option (Option Nat)) (w : World) : C World :=
  match b with
  | none => .ok w
  | some b => destroyPath b w

/-- The functions with two paths, `tmu_rename_file_ex`, lines 7939-7952, `tmu_fopen`, lines 7453-7465: the second path is made only if the first one was. -/
def withViews {α : Type} (p q : List Byte) (refused : α) (run : List Byte → List Byte → World → C (α × World)) (w : World) : C (α × World) :=
  match toPlatformPath p w with
  | (none, w) => .ok (refused, w)
  | (some a, w) =>
    match toPlatformPath q w with
    | (none, w) => do
      let w ← destroyPath a w
      let w ← destroyMade none w
      .ok (refused, w)
    | (some b, w) => do
      let (r, w) ← run (cstr p) (cstr q) w
      let w ← destroyPath a w
      let w ← destroyMade (some b) w
      .ok (r, w)

end Tm.File
