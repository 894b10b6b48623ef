import Verif.Conv.Spec
import Verif.Dbl.PrintSpec
import Verif.Fmt.Model
/-!
# The format language of tm_print.h, as documented in its description (lines 16-53) and at `snprint` (lines 450-481)

A format string is a list of parts; what it prints is defined part by part. Nothing here depends on how the model works: from it only the
types of the interface (`Arg`, `PrintFormat`) and, for floating point numbers, the function `print_double` are used.
-/
namespace Tm.Fmt
open Tm.Num Tm.Conv Tm.Dbl

/-- `[flags][width][.precision][specifier]`. -/
structure Spec where
  flags : List Byte := []
  width : Option Nat := none
  precision : Option Nat := none
  specifier : Option Byte := none
deriving DecidableEq, Repr

/-- The specifiers: x X o b B c, e E f g G a A, n. -/
def specifiers : List Byte := [120, 88, 111, 98, 66, 99, 101, 69, 102, 103, 71, 97, 65, 110]

/-- The flags are among - + blank 0 #, the numbers fit an `int`, a width is not 0 (0 is a flag), the specifier is a documented one. -/
structure Spec.Ok (s : Spec) : Prop where
  flags : ∀ c ∈ s.flags, c ∈ [(45 : Byte), 43, 32, 48, 35]
  width : ∀ n, s.width = some n → 0 < n ∧ n < 2 ^ 31
  precision : ∀ n, s.precision = some n → n < 2 ^ 31
  specifier : ∀ c, s.specifier = some c → c ∈ specifiers

/-- How it is written. -/
def Spec.written (s : Spec) : List Byte :=
  s.flags ++ (match s.width with | none => [] | some n => text 10 false n) ++
    (match s.precision with | none => [] | some n => 46 :: text 10 false n) ++
    (match s.specifier with | none => [] | some c => [c])

/-- `{[index][:spec]}` without the braces. -/
structure Field where
  index : Option Nat := none
  spec : Option Spec := none
deriving DecidableEq, Repr

/-- An index fits an `unsigned int`. -/
structure Field.Ok (f : Field) : Prop where
  index : ∀ n, f.index = some n → n < 2 ^ 32
  spec : ∀ s, f.spec = some s → s.Ok

/-- How it is written. -/
def Field.written (f : Field) : List Byte :=
  (match f.index with | none => [] | some n => text 10 false n) ++ (match f.spec with | none => [] | some s => 58 :: s.written)

/-- A part of a format string: a char that stands for itself, `{{`, `}}` or a placeholder. -/
inductive Part
  | lit (c : Byte)
  | openBrace
  | closeBrace
  | field (f : Field)
deriving DecidableEq, Repr

/-- Chars that stand for themselves are not braces. -/
def Part.Ok : Part → Prop
  | .lit c => c ≠ 123 ∧ c ≠ 125
  | .field f => f.Ok
  | _ => True

/-- How it is written. -/
def Part.written : Part → List Byte
  | .lit c => [c]
  | .openBrace => [123, 123]
  | .closeBrace => [125, 125]
  | .field f => 123 :: f.written ++ [125]

/-- The format string. -/
def formatText (ps : List Part) : List Byte := ps.flatMap Part.written

/-! ## what a value looks like -/

/-- The flag occurs. -/
def Spec.has (s : Spec) (c : Byte) : Bool := decide (c ∈ s.flags)

/-- The specifier is this one. -/
def Spec.is (s : Spec) (c : Byte) : Bool := decide (s.specifier = some c)

/-- Of the flags `' '` and `'0'` the last one counts; blanks are the default. -/
def Spec.zeroes (s : Spec) : Bool := decide ((s.flags.filter fun c => c = 32 || c = 48).getLast? = some 48)

/-- The least number of chars. -/
def Spec.minimum (s : Spec) : Nat := s.width.getD 0

/-- x and X: 16, o: 8, b and B: 2, otherwise 10. -/
def Spec.base (s : Spec) : Nat := if s.is 120 || s.is 88 then 16 else if s.is 111 then 8 else if s.is 98 || s.is 66 then 2 else 10

/-- Small letters: with x, b, e, g and a. -/
def Spec.lower (s : Spec) : Bool := s.is 120 || s.is 98 || s.is 101 || s.is 103 || s.is 97

/-- The prefix that the flag `'#'` asks for. -/
def Spec.radix (s : Spec) : List Byte :=
  if !s.has 35 then []
  else if s.is 120 || s.is 97 then [48, 120] else if s.is 88 || s.is 65 then [48, 88]
  else if s.is 111 then [48]
  else if s.is 98 then [48, 98] else if s.is 66 then [48, 66]
  else []

/-- A sign, a prefix and digits in a field: left justified and filled up with blanks, or zeroes before the digits, or blanks before all. -/
def Spec.layout (s : Spec) (sign digits : List Byte) : List Byte :=
  let fill := s.minimum - (sign ++ s.radix ++ digits).length
  if s.has 45 then sign ++ s.radix ++ digits ++ List.replicate fill 32
  else if s.zeroes then sign ++ s.radix ++ List.replicate fill 48 ++ digits
  else List.replicate fill 32 ++ sign ++ s.radix ++ digits

/-- The sign of a number: minus, and plus if the flag `'+'` asks for it. -/
def Spec.sign (s : Spec) (negative : Bool) : List Byte := if negative then [45] else if s.has 43 then [43] else []

/-- An integer. -/
def Spec.int (s : Spec) (i : Int) : List Byte := s.layout (s.sign (decide (i < 0))) (text s.base s.lower i.natAbs)

/-- A string: filled up with blanks on the left, or on the right if left justified. -/
def Spec.str (s : Spec) (t : List Byte) : List Byte :=
  let fill := List.replicate (s.minimum - t.length) (32 : Byte)
  if s.has 45 then t ++ fill else fill ++ t

/-- The word for a truth value. -/
def Spec.word (s : Spec) (b : Bool) : List Byte :=
  if s.is 110 then (if b then [49] else [48])
  else if s.lower then (if b then [116, 114, 117, 101] else [102, 97, 108, 115, 101])
  else (if b then [84, 82, 85, 69] else [70, 65, 76, 83, 69])

/-- The number of decimals. -/
def Spec.decimals (s : Spec) : Int := (s.precision.getD 6 : Nat)

/-- The flags `print_double` gets (tm_conversion.h:509-519): fixed 1, scientific 2, hexadecimal 4, shortest 8, trailing zeroes 16, truth
values as numbers 32, small letters 64. A sign is not asked for: it is printed before the number. -/
def Spec.doubleFlags (s : Spec) : BitVec 32 :=
  (if s.is 102 then 17 else 0) ||| (if s.is 101 || s.is 69 then 2 else 0) ||| (if s.is 103 || s.is 71 then 11 else 0) |||
    (if s.is 97 || s.is 65 then 4 else 0) ||| (if s.is 110 then 32 else 0) ||| (if s.lower then 64 else 0)

/-- The text that `print_double` writes, wherever there is room for it. -/
def WritesDouble (v : Double) (flags : BitVec 32) (precision : Int) (t : List Byte) : Prop :=
  ∀ (buf : List Byte) (dest maxlen : Nat), dest + maxlen ≤ buf.length →
    Printed buf dest maxlen t (printDouble buf dest maxlen v flags precision)

/-- The bytes of a C string: those before the first zero byte. -/
def IsCString (mem t : List Byte) : Prop := (0 : Byte) ∉ t ∧ ∃ rest, mem = t ++ 0 :: rest

/-- The number is less than zero. -/
def less (v : Double) : Bool := v.1 && decide (v.2 ≠ .fin 0) && decide (v.2 ≠ .nan)

/-- What an argument looks like: a char as a number (or, with c, as itself), integers, words, numbers as `print_double` prints their
magnitude, strings. -/
def ArgText (s : Spec) : Arg → List Byte → Prop
  | .char c, t => t = if s.is 99 then [c] else s.int c.toInt
  | .bool b, t => t = s.str (s.word b)
  | .i32 v, t => t = s.int v.toInt
  | .u32 v, t => t = s.int v.toNat
  | .i64 v, t => t = s.int v.toInt
  | .u64 v, t => t = s.int v.toNat
  | .float v, t => ∃ d, WritesDouble (false, v.2) s.doubleFlags s.decimals d ∧ t = s.layout (s.sign (less v)) d
  | .double v, t => ∃ d, WritesDouble (false, v.2) s.doubleFlags s.decimals d ∧ t = s.layout (s.sign (less v)) d
  | .str none, _ => False
  | .str (some m), t => ∃ b, IsCString m b ∧ t = s.str b
  | .view b, t => t = s.str b

/-- What a format string prints; `i` is the argument that is the next one for a placeholder without an index. -/
def Renders (args : List Arg) : Nat → List Part → List Byte → Prop
  | _, [], out => out = []
  | i, .lit c :: ps, out => ∃ o, Renders args i ps o ∧ out = c :: o
  | i, .openBrace :: ps, out => ∃ o, Renders args i ps o ∧ out = 123 :: o
  | i, .closeBrace :: ps, out => ∃ o, Renders args i ps o ∧ out = 125 :: o
  | i, .field f :: ps, out => ∃ a t o, args[f.index.getD i]? = some a ∧ ArgText (f.spec.getD {}) a t ∧
      Renders args (if f.index = none then i + 1 else i) ps o ∧ out = t ++ o

/-! ## what the library is asked for that it can do

The rest of this file is about the restrictions of the theorems whose names end in `_partial`. -/

/-- The library can print the argument like this: not the least `int`, strings and truth values that are not shorter than the field, numbers
with a fraction in a field that is not wider than they are, without a prefix, and no plus sign before a zero or a nan that has a minus. -/
def Fine (s : Spec) : Arg → Prop
  | .char _ => True
  | .bool b => s.minimum ≤ (s.word b).length
  | .i32 v => v ≠ BitVec.intMin 32
  | .u32 _ => True
  | .i64 v => v ≠ BitVec.intMin 64
  | .u64 _ => True
  | .float v => s.radix = [] ∧ (s.has 43 = true → v.1 = true → less v = true) ∧
      ∀ d, WritesDouble (false, v.2) s.doubleFlags s.decimals d → s.minimum ≤ (s.sign (less v) ++ d).length ∧ d.length < 199
  | .double v => s.radix = [] ∧ (s.has 43 = true → v.1 = true → less v = true) ∧
      ∀ d, WritesDouble (false, v.2) s.doubleFlags s.decimals d → s.minimum ≤ (s.sign (less v) ++ d).length ∧ d.length < 199
  | .str none => False
  | .str (some m) => ∀ b, IsCString m b → s.minimum ≤ b.length ∧ b.length < 2 ^ 31
  | .view b => s.minimum ≤ b.length ∧ b.length < 2 ^ 31

/-- All arguments are fine in the places where they are printed. -/
def AllFine (args : List Arg) : Nat → List Part → Prop
  | _, [] => True
  | i, .field f :: ps => (∀ a, args[f.index.getD i]? = some a → Fine (f.spec.getD {}) a) ∧ AllFine args (if f.index = none then i + 1 else i) ps
  | i, _ :: ps => AllFine args i ps

/-- Between a placeholder and the brace that is opened before it (or the start of the text) there is no `}}`. -/
def BracesFine : Bool → List Part → Prop
  | _, [] => True
  | seen, .lit _ :: ps => BracesFine seen ps
  | _, .closeBrace :: ps => BracesFine true ps
  | _, .openBrace :: ps => BracesFine false ps
  | seen, .field _ :: ps => seen = false ∧ BracesFine false ps

end Tm.Fmt
