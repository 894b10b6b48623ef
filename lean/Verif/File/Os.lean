import Verif.Basic

/-!
The operating system and the C library, as far as the file functions of `tm_unicode.h` use them (UNIX, `stdio.h`). This is not code of the repository: it
is what POSIX and C promise about the calls, with every freedom they leave made explicit. Each call takes one `Event` from the plan of the world. The event
says what other programs do to the files before the call, whether the call fails, what `errno` is set to, and how far a transfer gets. Each allocation
takes one entry from `allocs`. Theorems quantify over the plans.

Simplifications: there are no links and `..` is a name like any other; a stream that is read sees the bytes the file had when it was opened; a stream that
is written writes to the file of the name it was opened with; sizes do not overflow.
-/

namespace Tm.File

/-- `ENOENT`, `EIO` and so on, as on Linux. `tm_errc` has the same values, lines 181-206. -/
abbrev Errno := Nat
def ENOENT : Errno := 2
def EIO : Errno := 5
def ENXIO : Errno := 6
def ENOMEM : Errno := 12
def EEXIST : Errno := 17
def ENOTDIR : Errno := 20
def EISDIR : Errno := 21
def EINVAL : Errno := 22
def ERANGE : Errno := 34
def ENOTEMPTY : Errno := 39

/-- What is in a file system under a name. -/
inductive Node where
  | file (bytes : List Byte)
  | dir
  /-- neither a regular file nor a directory -/
  | other
deriving DecidableEq, Repr

/-- What is where: the names from the root on. -/
abbrev Tree := List (List Byte) → Option Node

def slash : Byte := 0x2F

/-- The parts of a path between the slashes. -/
def parts : List Byte → List (List Byte)
  | [] => [[]]
  | b :: p => if b = slash then [] :: parts p else match parts p with
    | [] => [[b]]
    | q :: qs => (b :: q) :: qs

/-- The names in a path: empty parts and `.` do not count. -/
def names (p : List Byte) : List (List Byte) := (parts p).filter fun n => decide (n ≠ []) && decide (n ≠ [0x2E])

/-- Where a path leads, from the current directory on. -/
def resolve (cwd : List (List Byte)) (p : List Byte) : List (List Byte) := if p.head? = some slash then names p else cwd ++ names p

/-- What is wrong on the way: everything passed through has to be a directory. -/
def walk (t : Tree) : List (List Byte) → List (List Byte) → Option Errno
  | _, [] => none
  | pre, n :: rest => match t pre with
    | some .dir => walk t (pre ++ [n]) rest
    | some _ => some ENOTDIR
    | none => some ENOENT

/-- A path that ends in a slash. -/
def trailing (p : List Byte) : Bool := decide (p.getLast? = some slash)

/-- Looking up a path. -/
def find (t : Tree) (cwd : List (List Byte)) (p : List Byte) : Except Errno (Option Node) :=
  if p = [] then .error ENOENT
  else match walk t [] (resolve cwd p) with
    | some e => .error e
    | none => match t (resolve cwd p) with
      | some .dir => .ok (some .dir)
      | some n => if trailing p then .error ENOTDIR else .ok (some n)
      | none => .ok none

/-- The tree with one place changed. -/
def place (t : Tree) (at_ : List (List Byte)) (n : Option Node) : Tree := fun q => if q = at_ then n else t q

/-- How one call turns out. -/
structure Event where
  /-- what other programs do before it -/
  others : Tree → Tree := id
  fail : Bool := false
  /-- what `errno` is set to, if not 0 -/
  err : Errno := 0
  /-- how many bytes get through -/
  amount : Nat := 0

/-- A stream of `stdio.h`. -/
structure Stream where
  id : Nat
  at_ : List (List Byte)
  /-- bytes not read yet -/
  rest : List Byte
  /-- a directory was opened -/
  isDir : Bool
  /-- bytes not written to the file yet -/
  pending : List Byte
  error : Bool

/-- An entry of a directory as `readdir` gives it: `d_name` and `d_type`. -/
structure Entry where
  name : List Byte
  type : Nat
deriving DecidableEq, Repr

/-- The world of a program. -/
structure World where
  tree : Tree
  cwd : List (List Byte)
  /-- where `/proc/self/exe` leads -/
  exe : List Byte
  /-- what `opendir` finds in a directory -/
  entries : List (List Byte) → List Entry
  errno : Errno
  /-- the open streams -/
  streams : List Stream
  /-- the open directories, with what has not been read -/
  dirs : List (Nat × List Entry)
  /-- the allocated blocks -/
  blocks : List Nat
  /-- the number of the next stream, directory or block -/
  next : Nat
  plan : List Event
  allocs : List Bool
  /-- what is in new memory -/
  junk : Byte
  /-- the files after each of the calls so far, the last one first -/
  past : List Tree

/-- The event of a call. -/
def World.event (w : World) : Event := w.plan.headD {}

/-- The world when a call starts. -/
def World.start (w : World) : World := { w with tree := w.event.others w.tree, plan := w.plan.tail }

/-- `errno` after a call. -/
def World.setErr (w : World) (e : Errno) : World := { w with errno := if e = 0 then w.errno else e }

/-- The world after a call. -/
def World.stop (w : World) (e : Errno) : World := { w.setErr e with past := w.tree :: w.past }

/-- A call that does nothing but fail or give an answer: it fails because of the event, or with the error of `f`, or succeeds. -/
def World.plain {α : Type} (w : World) (f : Tree → Except Errno (α × Tree)) : Option α × World :=
  if w.event.fail then (none, w.start.stop w.event.err)
  else match f w.start.tree with
    | .error e => (none, w.start.stop e)
    | .ok (a, t) => (some a, { w.start with tree := t }.stop w.event.err)

/-- What `stat` answers. -/
def statOf (cwd : List (List Byte)) (p : List Byte) (t : Tree) : Except Errno (Node × Tree) :=
  match find t cwd p with
  | .error e => .error e
  | .ok none => .error ENOENT
  | .ok (some n) => .ok (n, t)

/-- `stat`: what is there. -/
def stat (p : List Byte) (w : World) : Option Node × World := w.plain (statOf w.cwd p)

/-- `mkdir`. -/
def mkdir (p : List Byte) (w : World) : Bool × World :=
  let r := w.plain fun t => match find t w.cwd p with
    | .error e => .error (if e = ENOTDIR ∧ walk t [] (resolve w.cwd p) = none then EEXIST else e)
    | .ok none => .ok ((), place t (resolve w.cwd p) (some .dir))
    | .ok (some _) => .error EEXIST
  (r.1.isSome, r.2)

/-- Nothing is below a place. -/
def Empty (t : Tree) (at_ : List (List Byte)) : Prop := ∀ q, at_ <+: q → q ≠ at_ → t q = none

open Classical in
/-- `rmdir`. -/
noncomputable def rmdir (p : List Byte) (w : World) : Bool × World :=
  let r := w.plain fun t => match find t w.cwd p with
    | .error e => .error e
    | .ok none => .error ENOENT
    | .ok (some .dir) => if Empty t (resolve w.cwd p) then .ok ((), place t (resolve w.cwd p) none) else .error ENOTEMPTY
    | .ok (some _) => .error ENOTDIR
  (r.1.isSome, r.2)

open Classical in
/-- `remove`: as `rmdir` for a directory. -/
noncomputable def remove (p : List Byte) (w : World) : Bool × World :=
  let r := w.plain fun t => match find t w.cwd p with
    | .error e => .error e
    | .ok none => .error ENOENT
    | .ok (some .dir) => if Empty t (resolve w.cwd p) then .ok ((), place t (resolve w.cwd p) none) else .error ENOTEMPTY
    | .ok (some _) => .ok ((), place t (resolve w.cwd p) none)
  (r.1.isSome, r.2)

/-- A subtree moved. -/
def move (t : Tree) (a b : List (List Byte)) : Tree := fun q =>
  if b <+: q then t (a ++ q.drop b.length) else if a <+: q then none else t q

open Classical in
/-- What `rename` does. -/
noncomputable def renameOf (cwd : List (List Byte)) (p q : List Byte) (t : Tree) : Except Errno (Unit × Tree) :=
  match find t cwd p with
  | .error e => .error e
  | .ok none => .error ENOENT
  | .ok (some n) =>
    match find t cwd q with
    | .error e => .error e
    | .ok m =>
      if resolve cwd p = resolve cwd q then .ok ((), t)
      else if resolve cwd p <+: resolve cwd q then .error EINVAL
      else if n = .dir then
        match m with
        | none => .ok ((), move t (resolve cwd p) (resolve cwd q))
        | some .dir => if Empty t (resolve cwd q) then .ok ((), move t (resolve cwd p) (resolve cwd q)) else .error ENOTEMPTY
        | some _ => .error ENOTDIR
      else
        match m with
        | none => if trailing q then .error ENOTDIR else .ok ((), move t (resolve cwd p) (resolve cwd q))
        | some .dir => .error EISDIR
        | some _ => .ok ((), move t (resolve cwd p) (resolve cwd q))

/-- `rename`. -/
noncomputable def rename (p q : List Byte) (w : World) : Bool × World :=
  let r := w.plain (renameOf w.cwd p q)
  (r.1.isSome, r.2)

/-! ## Streams -/

/-- Another stream. -/
def World.open_ (w : World) (s : Stream) : World := { w with streams := s :: w.streams, next := w.next + 1 }

/-- The stream with a number. -/
def World.stream (w : World) (id : Nat) : Option Stream := w.streams.find? fun s => s.id == id

/-- The streams after a change of one of them. -/
def World.setStream (w : World) (s : Stream) : World := { w with streams := w.streams.map fun s' => if s'.id = s.id then s else s' }

/-- `fopen(p, "rb")`. -/
def fopenRead (p : List Byte) (w : World) : Option Nat × World :=
  let r := w.plain fun t => match find t w.cwd p with
    | .error e => .error e
    | .ok none => .error ENOENT
    | .ok (some .other) => .error ENXIO
    | .ok (some n) => .ok (n, t)
  match r with
  | (none, w) => (none, w)
  | (some (.file b), w) => (some w.next, w.open_ ⟨w.next, resolve w.cwd p, b, false, [], false⟩)
  | (some _, w) => (some w.next, w.open_ ⟨w.next, resolve w.cwd p, [], true, [], false⟩)

/-- `fopen(p, "wb")`. -/
def fopenWrite (p : List Byte) (w : World) : Option Nat × World :=
  let r := w.plain fun t => match find t w.cwd p with
    | .error e => .error e
    | .ok none => if trailing p then .error EISDIR else .ok ((), place t (resolve w.cwd p) (some (.file [])))
    | .ok (some (.file _)) => .ok ((), place t (resolve w.cwd p) (some (.file [])))
    | .ok (some .dir) => .error EISDIR
    | .ok (some .other) => .error ENXIO
  match r with
  | (none, w) => (none, w)
  | (some _, w) => (some w.next, w.open_ ⟨w.next, resolve w.cwd p, [], false, [], false⟩)

/-- `fread(buffer, 1, n, f)`: the bytes read. A read that fails may have got some of them. -/
def fread (f n : Nat) (w : World) : C (List Byte × World) :=
  match w.stream f with
  | none => .error .invalid
  | some s =>
    if w.event.fail then
      let k := min w.event.amount (n - 1)
      .ok (s.rest.take k, (w.start.setStream { s with rest := s.rest.drop k, error := true }).stop w.event.err)
    else if s.isDir then .ok ([], (w.start.setStream { s with error := true }).stop EISDIR)
    else .ok (s.rest.take n, (w.start.setStream { s with rest := s.rest.drop n }).stop w.event.err)

/-- Bytes are added to the end of a file. -/
def extend (t : Tree) (at_ : List (List Byte)) (b : List Byte) : Tree :=
  match t at_ with
  | some (.file old) => place t at_ (some (.file (old ++ b)))
  | _ => t

/-- `fwrite(data, 1, data.size, f)`: how many bytes were accepted. Some of them are in the file, the others wait in the buffer of the stream. A write that
fails accepts fewer. -/
def fwrite (f : Nat) (data : List Byte) (w : World) : C (Nat × World) :=
  match w.stream f with
  | none => .error .invalid
  | some s =>
    if w.event.fail then
      let k := min w.event.amount (data.length - 1)
      .ok (k, ({ w.start with tree := extend w.start.tree s.at_ (data.take k) }.setStream { s with error := true }).stop w.event.err)
    else .ok (data.length, ({ w.start with tree := extend w.start.tree s.at_ (data.take w.event.amount) }.setStream { s with pending := data.drop w.event.amount }).stop w.event.err)

/-- `ferror(f)`. -/
def ferror (f : Nat) (w : World) : C Bool :=
  match w.stream f with
  | none => .error .invalid
  | some s => .ok s.error

/-- `fclose(f)`: what waits is written, or, if that fails, only some of it. Returns whether it succeeds; the stream is closed in any case. -/
def fclose (f : Nat) (w : World) : C (Bool × World) :=
  match w.stream f with
  | none => .error .invalid
  | some s =>
    let out := if w.event.fail then s.pending.take (min w.event.amount (s.pending.length - 1)) else s.pending
    .ok (!w.event.fail, { w.start with tree := extend w.start.tree s.at_ out, streams := w.streams.filter fun s' => s'.id != f }.stop w.event.err)

/-! ## Memory -/

/-- `malloc(n)`: the number of a block, or null. -/
def malloc (w : World) : Option Nat × World :=
  if w.allocs.headD true then (some w.next, { w with blocks := w.next :: w.blocks, next := w.next + 1, allocs := w.allocs.tail })
  else (none, { w with errno := ENOMEM, allocs := w.allocs.tail })

/-- `free(p)` of a block. -/
def free (b : Nat) (w : World) : C World := if b ∈ w.blocks then .ok { w with blocks := w.blocks.erase b } else .error .invalid

/-- `realloc(p, n)` of a block: the number of the new one, or null and the old one stays. -/
def realloc (b : Nat) (w : World) : C (Option Nat × World) :=
  if b ∈ w.blocks then
    if w.allocs.headD true then .ok (some w.next, { w with blocks := w.next :: w.blocks.erase b, next := w.next + 1, allocs := w.allocs.tail })
    else .ok (none, { w with errno := ENOMEM, allocs := w.allocs.tail })
  else .error .invalid

/-- The cells of a block after its size changed. -/
def resize (junk : Byte) (cells : List Byte) (n : Nat) : List Byte := cells.take n ++ List.replicate (n - cells.length) junk

/-! ## Directories, links -/

/-- `opendir`. -/
def opendir (p : List Byte) (w : World) : Option Nat × World :=
  let r := w.plain fun t => match find t w.cwd p with
    | .error e => .error e
    | .ok none => .error ENOENT
    | .ok (some .dir) => .ok ((), t)
    | .ok (some _) => .error ENOTDIR
  match r with
  | (none, w) => (none, w)
  | (some _, w) => (some w.next, { w with dirs := (w.next, w.entries (resolve w.cwd p)) :: w.dirs, next := w.next + 1 })

/-- `readdir`: null at the end and when it fails. -/
def readdir (d : Nat) (w : World) : C (Option Entry × World) :=
  match w.dirs.find? fun x => x.1 == d with
  | none => .error .invalid
  | some x =>
    if w.event.fail then .ok (none, w.start.stop w.event.err)
    else match x.2 with
      | [] => .ok (none, w.start.stop 0)
      | e :: es => .ok (some e, { w.start with dirs := w.dirs.map fun (y : Nat × List Entry) => if y.1 = d then (d, es) else y }.stop w.event.err)

/-- `closedir`. -/
def closedir (d : Nat) (w : World) : C World :=
  if d ∈ w.dirs.map Prod.fst then .ok ({ w.start with dirs := w.dirs.filter fun x => x.1 != d }.stop w.event.err) else .error .invalid

/-- The text of the current directory. -/
def cwdText (cwd : List (List Byte)) : List Byte := if cwd = [] then [slash] else cwd.flatMap fun n => slash :: n

/-- `getcwd(buffer, n)`: what is written to the buffer. -/
def getcwd (n : Nat) (w : World) : Option (List Byte) × World :=
  w.plain fun t => if (cwdText w.cwd).length + 1 ≤ n then .ok (cwdText w.cwd ++ [0], t) else .error ERANGE

/-- `readlink("/proc/self/exe", buffer, n)`: what is written to the buffer, not terminated. -/
def readlink (n : Nat) (w : World) : Option (List Byte) × World := w.plain fun t => .ok (w.exe.take n, t)

end Tm.File
