import Verif.Json.Value
import Verif.Dbl.FloatModel

/-!
# Model of floating point values of a document: `tm_json.h`

`strtod` follows the C standard (C11, 7.22.1.3) in the "C" locale, with `double` as in IEEE 754 and correct rounding. The default conversion functions
are modelled (`TMJ_TO_DOUBLE` and `TMJ_TO_FLOAT` not defined by the user).
-/

namespace Tm.Json

open Tm

/-- The text begins with these small letters, ignoring case. -/
def beginsIgnoreCase (t word : List Byte) : Bool := (t.take word.length).map toLower = word

/-- The exponent that a text begins with in `strtod`: a mark, a sign and decimal digits. Without digits there is none. -/
def exponentIn (mark : Byte) : List Byte → Int
  | c :: t =>
    if toLower c = mark then
      match t with
      | s :: d => if s = 0x2B then digitsIn 10 0 d else if s = 0x2D then -(digitsIn 10 0 d : Int) else digitsIn 10 0 (s :: d)
      | [] => 0
    else 0
  | [] => 0

/-- Whether a char is a digit. -/
def isDigitIn (base : Nat) (c : Byte) : Bool := (digitIn base c).isSome

/-- A point and digits behind it in `strtod`: the digits and the text behind. -/
def fractionIn (base : Nat) : List Byte → List Byte × List Byte
  | c :: u => if c = 0x2E then (u.takeWhile (isDigitIn base), u.dropWhile (isDigitIn base)) else ([], c :: u)
  | [] => ([], [])

/-- Digits with at most one point in `strtod`: all digits, the number of those behind the point, and the text behind. No result if there are no digits. -/
def mantissaIn (base : Nat) (t : List Byte) : Option (List Byte × Nat × List Byte) :=
  let w := t.takeWhile (isDigitIn base)
  let f := fractionIn base (t.dropWhile (isDigitIn base))
  if w ++ f.1 = [] then none else some (w ++ f.1, f.1.length, f.2)

/-- The absolute value of a number in `strtod`: hexadecimal digits with a binary exponent behind `0x`, or decimal digits with a decimal exponent. Without digits zero. -/
def magnitude (t : List Byte) : ℚ :=
  match if hexPrefix t then mantissaIn 16 (t.drop 2) else none with
  | some (ds, n, r) => (digitsIn 16 0 ds : ℚ) * 2 ^ (exponentIn 0x70 r - 4 * n)
  | none =>
    match mantissaIn 10 t with
    | some (ds, n, r) => (digitsIn 10 0 ds : ℚ) * 10 ^ (exponentIn 0x65 r - n)
    | none => 0

/-- A number, rounded to a `double`. No result means `ERANGE`: the number is too great, or it is too small and the implementation sets `errno` for it, which
it may do or not (C11, 7.22.1.3 paragraph 10); `tiny` says for which numbers it does. -/
def toRange (tiny : ℚ → Bool) (neg : Bool) (q : ℚ) : Option Dbl.Double :=
  match Dbl.rnd q with
  | .fin r => if 0 < q ∧ q < 2 ^ (-1022 : ℤ) ∧ tiny q then none else some (neg, .fin r)
  | _ => none

/-- `strtod` behind the sign. -/
def strtodUnsigned (tiny : ℚ → Bool) (neg : Bool) (t : List Byte) : Option Dbl.Double :=
  if beginsIgnoreCase t [0x69, 0x6E, 0x66] then some (neg, .inf)
  else if beginsIgnoreCase t [0x6E, 0x61, 0x6E] then some (neg, .nan)
  else if hexPrefix t ∨ (mantissaIn 10 t).isSome then toRange tiny neg (magnitude t)
  else some (false, .fin 0)

/-- `strtod`. No result means `ERANGE`. -/
def strtod (tiny : ℚ → Bool) (s : List Byte) : Option Dbl.Double :=
  match s.dropWhile isSpace with
  | [] => some (false, .fin 0)
  | c :: t =>
    if c = 0x2D then strtodUnsigned tiny true t
    else if c = 0x2B then strtodUnsigned tiny false t
    else strtodUnsigned tiny false (c :: t)

/-- `tmj_to_double`, lines 983-996. `s` has no NUL, or is read up to its first one: a NUL is no part of a number. No result if the value is kept. -/
def tmjToDouble (tiny : ℚ → Bool) (s : List Byte) : Option Dbl.Double := if s.length > 511 then none else strtod tiny s

/-- The sign that is looked for in lines 1066-1073 and 1096-1103, and the text behind it. -/
def signOf : List Byte → Bool × List Byte
  | c :: t => if c = 0x2B then (false, t) else if c = 0x2D then (true, t) else (false, c :: t)
  | [] => (false, [])

/-- Infinity and NaN, lines 1061-1085 and 1091-1115. The build defines `TM_INFINITY` and `TM_NAN`, or neither of them (`special`). -/
def specialValue (special : Bool) (t : List Byte) : Option Dbl.Double :=
  if special then
    let (neg, u) := signOf t
    if equalsIgnoreCase u [0x69, 0x6E, 0x66, 0x69, 0x6E, 0x69, 0x74, 0x79] then some (neg, .inf)
    else if equalsIgnoreCase u [0x6E, 0x61, 0x6E] then some (neg, .nan)
    else none
  else none

/-- `jsonToDouble`, lines 1089-1118. -/
def toDouble (special : Bool) (tiny : ℚ → Bool) (str : View) (old : Dbl.Double) : C Dbl.Double :=
  if str.size = 0 then .ok old
  else do
    let t ← str.text
    match specialValue special t with
    | some r => .ok r
    | none => .ok ((tmjToDouble tiny t).getD old)

/-- `jsonToFloat`, lines 1059-1088, with `tmj_to_float`, lines 997-1002. -/
def toFloat (special : Bool) (tiny : ℚ → Bool) (str : View) (old : Dbl.Float) : C Dbl.Float :=
  if str.size = 0 then .ok old
  else do
    let t ← str.text
    match specialValue special t with
    | some r => .ok (r.1, Dbl.narrow r.2)
    | none =>
      match tmjToDouble tiny t with
      | some r => .ok (r.1, Dbl.narrow r.2)
      | none => .ok old

/-- `jsonGetDouble`, lines 3530-3541. -/
def getDouble (special : Bool) (tiny : ℚ → Bool) (v : JVal) (old : Dbl.Double) : C Dbl.Double := getWith (toDouble special tiny) v old

/-- `jsonGetFloat`, lines 3518-3529. -/
def getFloat (special : Bool) (tiny : ℚ → Bool) (v : JVal) (old : Dbl.Float) : C Dbl.Float := getWith (toFloat special tiny) v old

end Tm.Json
