import Verif.Dbl.Model
/-!
# Model of the printing of floating point numbers (`print_double`, tm_conversion.h)

The memory that is printed into is a list of chars. `dest` is an index into it. `precision` is an `int32_t`, `flags` the bits of
`tmc_print_flags` (lines 509-520). `TMC_CLAMP_ON_RANGE_ERROR` is defined (as 0), so that lines 2618-2621 clamp. Arithmetic is that of
`Ieee.lean`; inside of the function numbers can get negative, so that the `q` of an `F.fin q` has a sign here. The sign of a zero is not
kept, because it is not looked at behind line 2570.
-/
namespace Tm.Dbl
open Tm.Conv

/-- `-a`. (The sign of an infinity is not kept: after line 2595 there are none.) -/
def F.neg : F → F
  | .fin q => .fin (-q)
  | f => f

/-- Rounding of a number with a sign. -/
def rndS (q : ℚ) : F := if q < 0 then (rnd (-q)).neg else rnd q

/-- `a + b` for numbers with signs. -/
def F.addS : F → F → F
  | .fin a, .fin b => rndS (a + b)
  | _, _ => .nan

/-- `a - b` for numbers with signs. -/
def F.subS : F → F → F
  | .fin a, .fin b => rndS (a - b)
  | _, _ => .nan

/-- `a * b` for numbers with signs. -/
def F.mulS : F → F → F
  | .fin a, .fin b => rndS (a * b)
  | _, _ => .nan

/-- `a >= b`. -/
def F.ge : F → F → Bool
  | .fin a, .fin b => decide (b ≤ a)
  | .inf, .fin _ => true
  | .inf, .inf => true
  | _, _ => false

/-- `(uint64_t)a`: the number without its fraction; if the `uint64_t` cannot have this number, the behaviour is undefined. -/
def toU64 : F → C (BitVec 64)
  | .fin q => if -1 < q ∧ q < 2 ^ 64 then .ok (BitVec.ofNat 64 q.floor.toNat) else .error .overflow
  | _ => .error .overflow

/-- `(double)n` for a `uint64_t`. -/
def ofU64 (n : BitVec 64) : F := rnd n.toNat

/-- `str_Pow10` of a number with a sign, lines 1469-1495. -/
def pow10S (v : F) (e : Int) : C F :=
  match v with
  | .fin q => if q < 0 then (pow10 (.fin (-q)) e).map F.neg else pow10 v e
  | _ => pow10 v e

/-- `print_PowersOfTen`, lines 1889-1890. -/
def printPowersOfTen : List F := (List.range 15).map fun k => rnd (10 ^ k)

/-- One `if` of `print_magnitude`, lines 1899-1902 (same text up to 1922 with other powers). -/
def magStep (k : Nat) (s : Nat × F) : Nat × F :=
  if s.2.ge (rnd (10 ^ k)) then (s.1 + k, s.2.div (rnd (10 ^ k))) else s

/-- The loop of `print_magnitude`, lines 1898-1923. -/
def magLoop : Nat → Nat × F → C Nat
  | 0, _ => .error .diverge
  | fuel + 1, s =>
    if s.2.ge (.fin 10) then magLoop fuel (magStep 1 (magStep 2 (magStep 4 (magStep 8 (magStep 16 (magStep 32 s))))))
    else .ok s.1

/-- `print_magnitude`, lines 1892-1927. -/
def printMagnitude (v : F) : C Int := do
  let v := match v with
    | .fin q => if q < 0 then F.fin (-q) else .fin q
    | f => f
  let n ← magLoop 20 (0, v)
  .ok ((n : Int) + 1)

/-- What is printed into: `dest` and `maxlen`. -/
structure Out where
  buf : List Byte
  dest : Nat
  maxlen : Nat

/-- `*dest++ = c; --maxlen;`. (A wrap-around of `maxlen` would be a fault of the model.) -/
def put (o : Out) (c : Byte) : C Out :=
  if o.maxlen = 0 then .error .overflow
  else do
    let buf ← wr o.buf o.dest c
    .ok ⟨buf, o.dest + 1, o.maxlen - 1⟩

/-- `maxlen -= interm.size; dest += interm.size;`, lines 2640-2641 and 2691-2692. -/
def advance (o : Out) (r : ConvResult × List Byte) : C Out :=
  if o.maxlen < r.1.size then .error .overflow else .ok ⟨r.2, o.dest + r.1.size, o.maxlen - r.1.size⟩

/-- `tmc_print_zero_padded_u64`, lines 2544-2560. `TM_MEMSET` writes the same char `padding` times. -/
def zeroPadded (o : Out) (width : Nat) (value : BitVec 64) : C (ConvResult × List Byte) := do
  let count ← digitsCountDec64 3 value
  if width > o.maxlen then .ok (⟨o.maxlen, .eoverflow⟩, o.buf)
  else
    let padding := if count < width then width - count else 0
    let buf ← memcpy o.buf o.dest (List.replicate padding 48)
    let r ← printDecW count buf (o.dest + padding) (o.maxlen - padding) count value
    .ok (combine ⟨padding, .ok⟩ r.1, r.2)

/-- `{start - maxlen, ec}`. -/
def done (start : Nat) (o : Out) (ec : Errc) : ConvResult × List Byte := (⟨start - o.maxlen, ec⟩, o.buf)

/-- The part to be printed next, what is left of the value, and the width, lines 2628-2635. -/
def nextPart (v : F) (m : Int) (width : Nat) : C (F × F × Nat) :=
  if m > 14 then do
    let part ← pow10S v (-(m - 14))
    let n ← toU64 part
    let s ← pow10S (ofU64 n) (m - 14)
    .ok (part, v.subS s, width)
  else do
    let n ← toU64 v
    .ok (v, v.subS (ofU64 n), m.toNat)

/-- The loop over the integer part, lines 2625-2646, and the check behind it, lines 2647-2650: either the result is returned, or printing
goes on with what is left of the value. -/
def integerPart (start : Nat) : Nat → Out → F → Int → Nat → C ((ConvResult × List Byte) ⊕ (Out × F))
  | 0, _, _, _, _ => .error .diverge
  | fuel + 1, o, v, m, width =>
    if m > 0 ∧ o.maxlen > 0 then do
      let p ← nextPart v m width
      let digits ← toU64 p.1
      let r ← zeroPadded o p.2.2 digits
      let o ← advance o r
      if r.1.ec ≠ .ok then .ok (.inl (done start o r.1.ec))
      else integerPart start fuel o p.2.1 (m - 14) 14
    else if m > 0 ∧ o.maxlen = 0 then .ok (.inl (done start o .eoverflow))
    else .ok (.inr (o, v))

/-- Removing trailing zeroes, lines 2672-2680. (A wrap-around of `printWidth` would be a fault of the model.) -/
def trim : Nat → BitVec 64 → Nat → C (BitVec 64 × Nat)
  | 0, _, _ => .error .diverge
  | fuel + 1, digits, width =>
    if digits % 10 = 0 then if width = 0 then .error .overflow else trim fuel (digits / 10) (width - 1)
    else .ok (digits, width)

/-- The dot and the checks around it, lines 2660-2669 (same text at 2699-2708). -/
def dot (start : Nat) (o : Out) : C ((ConvResult × List Byte) ⊕ Out) :=
  if o.maxlen = 0 then .ok (.inl (done start o .eoverflow))
  else do
    let o ← put o 46
    if o.maxlen = 0 then .ok (.inl (done start o .eoverflow)) else .ok (.inr o)

/-- The fraction, lines 2651-2727. `trailing` is whether `PF_TRAILING_ZEROES` is set. -/
def fractionPart (start : Nat) (o : Out) (v : F) (precision : Nat) (trailing keepShort : Bool) : C (ConvResult × List Byte) :=
  if precision = 0 then .ok (done start o .ok)
  else do
    let ten ← (printPowersOfTen[precision]?).elim (.error .oob) .ok
    let digits ← toU64 ((v.mulS ten).addS (.fin (1 / 2)))
    if digits ≠ 0 then do
      match ← dot start o with
      | .inl r => .ok r
      | .inr o =>
        let t ← if !trailing || keepShort then trim 65 digits precision else pure (digits, precision)
        if t.2 = 0 then do
          let o ← put o 48
          .ok (done start o .ok)
        else do
          let r ← zeroPadded o t.2 t.1
          let o ← advance o r
          .ok (done start o r.1.ec)
    else if trailing then do
      match ← dot start o with
      | .inl r => .ok r
      | .inr o =>
        if keepShort then do
          let o ← put o 48
          .ok (done start o .ok)
        else do
          let n := if o.maxlen < precision then o.maxlen else precision
          let ec := if o.maxlen < precision then Errc.eoverflow else .ok
          let buf ← memcpy o.buf o.dest (List.replicate n 48)
          .ok (done start ⟨buf, o.dest, o.maxlen - n⟩ ec)
    else .ok (done start o .ok)

/-- The digits of a number, lines 2617-2727. -/
def printDigits (start : Nat) (o : Out) (v : F) (precision : Nat) (trailing keepShort : Bool) : C (ConvResult × List Byte) := do
  let m ← printMagnitude v
  let m := if m ≥ 511 then 510 else m
  match ← integerPart start 64 o v m 0 with
  | .inl r => .ok r
  | .inr (o, v) => fractionPart start o v precision trailing keepShort

/-- A finite number that is not negative, lines 2597-2727. -/
def printFinite (start : Nat) (o : Out) (v : F) (flags : BitVec 32) (precision : Int) : C (ConvResult × List Byte) := do
  let keepShort := decide (precision < 0) || flags.getLsbD 3
  let trailing := if keepShort then flags.getLsbD 4 else true
  let precision : Nat := if keepShort then 14 else if precision > 14 then 14 else precision.toNat
  let half ← pow10S (.fin (1 / 2)) (-(precision : Int))
  let rollover ← toU64 (v.addS half)
  let whole ← toU64 v
  printDigits start o (if rollover > whole then v.addS (.fin 1) else v) precision trailing keepShort

/-- The words for numbers that are not finite, lines 2580-2595. -/
def printWord (start : Nat) (o : Out) (word : List Byte) : C (ConvResult × List Byte) := do
  let r ← printString o.buf o.dest o.maxlen word
  .ok (combine ⟨start - o.maxlen, .ok⟩ r.1, r.2)

/-- The number behind the sign, lines 2580-2727. -/
def printUnsigned (start : Nat) (o : Out) (v : F) (flags : BitVec 32) (precision : Int) : C (ConvResult × List Byte) :=
  match v with
  | .nan => printWord start o (if flags.getLsbD 6 then [110, 97, 110] else [78, 65, 78])
  | .inf => printWord start o (if flags.getLsbD 6 then [105, 110, 102] else [73, 78, 70])
  | .fin _ => printFinite start o v flags precision

/-- `print_double`, lines 2561-2727. `dest` is not null. -/
def printDouble (buf : List Byte) (dest maxlen : Nat) (value : Double) (flags : BitVec 32) (precision : Int) : C (ConvResult × List Byte) :=
  if maxlen = 0 then .ok (⟨0, .eoverflow⟩, buf)
  else do
    let less : Bool := value.1 && decide (value.2 ≠ .fin 0) && decide (value.2 ≠ .nan)
    let minus : Bool := flags.getLsbD 7 && value.1 || less
    let o ← if minus then put ⟨buf, dest, maxlen⟩ 45 else pure ⟨buf, dest, maxlen⟩
    if minus ∧ o.maxlen = 0 then .ok (done maxlen o .eoverflow)
    else printUnsigned maxlen o value.2 flags precision

end Tm.Dbl
