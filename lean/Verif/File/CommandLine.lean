import Verif.File.Model

/-!
The command line of a program as UTF-8, from `tm_unicode.h`. An argument is the list of its UTF-16 units before the terminator. The buffer is modelled as the
two parts the function divides it into: the array of pointers and the pool of the strings; a pointer to a string is a position in the pool, or null.
-/

namespace Tm.File

open Tm.Uni (utf8FromUtf16Ex Unit16)

/-- `tmu_utf8_command_line`, lines 727-734. -/
structure CommandLine where
  args : List (Option Nat)
  count : Nat
  block : Option Nat
  size : Nat
  pool : List Byte
deriving DecidableEq, Repr

/-- `tmu_utf8_command_line_result`, lines 736-739. -/
structure CommandLineResult where
  line : CommandLine
  ec : Errc
deriving DecidableEq, Repr

/-- Lines 7741-7750: the size of the buffer. -/
def lineSize : List (List Unit16) → Nat → C (Nat × Errc)
  | [], size => .ok (size, .ok)
  | a :: args, size => do
    let (r, _) ← utf8FromUtf16Ex a.length a .error [] true []
    if r.ec ≠ .erange then .ok (size, r.ec) else lineSize args (size + r.size)

/-- What the loop of lines 7774-7791 works on. -/
structure LineState where
  args : List (Option Nat)
  arg : Nat
  pool : List Byte
  current : Nat
  remaining : Nat
deriving DecidableEq, Repr

/-- Lines 7774-7791: the arguments are converted one by one. -/
def lineLoop : List (List Unit16) → LineState → C (Errc × LineState)
  | [], s => .ok (.ok, s)
  | a :: args, s => do
    let (r, cells) ← utf8FromUtf16Ex a.length a .error [] true ((s.pool.drop s.current).take s.remaining)
    let s := { s with pool := s.pool.take s.current ++ cells ++ s.pool.drop (s.current + s.remaining) }
    if r.ec ≠ .ok then .ok (r.ec, s)
    else do
      let slots ← wr s.args s.arg (some s.current)
      assert (decide (r.size + 1 ≤ s.remaining))
      let s := { s with args := slots, arg := s.arg + 1, current := s.current + (r.size + 1), remaining := s.remaining - (r.size + 1) }
      if s.remaining = 0 then .ok (.erange, s) else lineLoop args s

/-- Lines 7794-7802: the end of the array of pointers. -/
def lineEnd (s : LineState) : C (Errc × LineState) :=
  if s.remaining = 0 then .ok (.erange, s)
  else do
    let slots ← wr s.args s.arg (some s.current)
    let pool ← wr s.pool s.current 0
    assert (decide (s.remaining - 1 = 0))
    .ok (.ok, { s with args := slots, pool := pool, current := s.current + 1, remaining := s.remaining - 1 })

/-- Lines 7762-7804. A pointer has `ptr` bytes; `size` is the size of the whole buffer. -/
def lineFill (ptr : Nat) (args : List (List Unit16)) (size : Nat) (junk : Byte) : C (Errc × LineState) := do
  let rest := size - (args.length + 1) * ptr
  assert (decide (rest > 0))
  let (ec, s) ← lineLoop args ⟨List.replicate (args.length + 1) none, 0, List.replicate rest junk, 0, rest⟩
  if ec = .ok then lineEnd s else .ok (ec, s)

/-- `tmu_utf8_command_line_from_utf16`, lines 7728-7825, where a pointer has `ptr` bytes. Simplified: the number of arguments and its product with the size of a
pointer do not overflow. -/
def commandLine (ptr : Nat) (args : List (List Unit16)) (w : World) : C (CommandLineResult × World) := do
  let (size, ec) ← lineSize args ((args.length + 1) * ptr)
  let size := size + 1
  if ec ≠ .ok then .ok (⟨⟨[], 0, none, 0, []⟩, ec⟩, w)
  else
    match malloc w with
    | (none, w) => .ok (⟨⟨[], 0, none, 0, []⟩, .enomem⟩, w)
    | (some b, w) => do
      let (ec, s) ← lineFill ptr args size w.junk
      if ec = .ok then .ok (⟨⟨s.args, args.length, some b, size, s.pool⟩, .ok⟩, w)
      else do
        let w ← free b w
        .ok (⟨⟨[], 0, none, 0, []⟩, ec⟩, w)

/-- `tmu_utf8_destroy_command_line`, lines 7826-7837. -/
def destroyCommandLine (l : CommandLine) (w : World) : C (CommandLine × World) := do
  let w ← match l.block with
    | some b => do
      assert (decide (l.size > 0))
      free b w
    | none => .ok w
  .ok (⟨[], 0, none, 0, []⟩, w)

end Tm.File
