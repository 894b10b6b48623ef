import Verif.Conv.Model
/-! # Specification of the scanners' results -/
namespace Tm.Conv
open Tm.Num

/-- What scanning an unsigned `w` bit number must do when the text starts with the digits `ds`:
no digit, representable number, number too large. -/
def unsignedResult (w base : Nat) (ds : List Nat) (out : Option (BitVec w)) : ConvResult × Option (BitVec w) :=
  if ds = [] then (⟨0, .einval⟩, out)
  else if numVal base ds < 2 ^ w then (⟨ds.length, .ok⟩, out.map fun _ => BitVec.ofNat w (numVal base ds))
  else (⟨ds.length, .erange⟩, out)

/-- The text starts with a minus sign (`neg`) followed by the digits `ds`, or (not `neg`) directly with the digits. -/
def StartsWithSigned (base : Nat) (s : List Byte) (neg : Bool) (ds : List Nat) : Prop :=
  if neg then ∃ s', s = 45 :: s' ∧ StartsWithNumeral base s' ds else s.head? ≠ some 45 ∧ StartsWithNumeral base s ds

/-- The number written by an optional sign and digits. -/
def signedValue (base : Nat) (neg : Bool) (ds : List Nat) : Int := if neg then -(numVal base ds : Int) else numVal base ds

/-- What scanning a signed `w` bit number must do. -/
def signedResult (w base : Nat) (neg : Bool) (ds : List Nat) (out : Option (BitVec w)) : ConvResult × Option (BitVec w) :=
  let size := (if neg then 1 else 0) + ds.length
  if ds = [] then (⟨0, .einval⟩, out)
  else if -2 ^ (w - 1) ≤ signedValue base neg ds ∧ signedValue base neg ds < 2 ^ (w - 1) then
    (⟨size, .ok⟩, out.map fun _ => BitVec.ofInt w (signedValue base neg ds))
  else (⟨size, .erange⟩, out)

/-- What printing the text `t` to `dest` with room for `maxlen` chars must do: all of it, or nothing and an overflow. -/
def printResult (buf : List Byte) (dest maxlen : Nat) (t : List Byte) : ConvResult × List Byte :=
  if t.length ≤ maxlen then (⟨t.length, .ok⟩, splice buf dest t) else (⟨maxlen, .eoverflow⟩, buf)

/-- The text of a signed number: an optional minus sign and the canonical numeral of the magnitude. -/
def signedText (base : Nat) (lower : Bool) (i : Int) : List Byte :=
  if i < 0 then 45 :: text base lower i.natAbs else text base lower i.natAbs

/-- The two buffers agree outside the `n` cells from `lo` on. -/
def SameOutside (buf buf' : List Byte) (lo n : Nat) : Prop :=
  buf'.length = buf.length ∧ ∀ i, (i < lo ∨ lo + n ≤ i) → buf'[i]? = buf[i]?

/-- The hexadecimal dump of a byte sequence: two digits per byte, most significant nibble first. -/
def hexText (lower : Bool) (bytes : List Byte) : List Byte :=
  bytes.flatMap fun b => [digitChar lower (b.toNat / 16), digitChar lower (b.toNat % 16)]

/-- The char `c` is the small letter `l` or the capital letter for it. -/
def SameLetter (c l : Byte) : Prop := c.toNat = l.toNat ∨ c.toNat + 32 = l.toNat

/-- The text `s` spells the word (given in small letters), in any letter case. -/
def Spells (s word : List Byte) : Prop := List.Forall₂ SameLetter s word

/-- What printing a string with room for `maxlen` chars does: as much of it as fits, and an overflow if that is not all. -/
def printStringResult (buf : List Byte) (dest maxlen : Nat) (t : List Byte) : ConvResult × List Byte :=
  (if t.length ≤ maxlen then ⟨t.length, .ok⟩ else ⟨maxlen, .eoverflow⟩, splice buf dest (t.take maxlen))

end Tm.Conv
