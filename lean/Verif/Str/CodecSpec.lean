import Verif.Basic

/-!
# Specification of base64 (RFC 4648) and of percent encoding (RFC 3986, section 2.1)
-/

namespace Tm.Str

/-- RFC 4648, tables 1 and 2: the character of a 6-bit value; the two tables differ in the last two characters. -/
def b64Alphabet (c62 c63 : Byte) (v : Nat) : Byte :=
  if v < 26 then BitVec.ofNat 8 (65 + v)
  else if v < 52 then BitVec.ofNat 8 (97 + (v - 26))
  else if v < 62 then BitVec.ofNat 8 (48 + (v - 52))
  else if v = 62 then c62 else c63

/-- A 24-bit group as four 6-bit groups. -/
def sextets (n : Nat) : List Nat := [n / 2 ^ 18 % 64, n / 2 ^ 12 % 64, n / 2 ^ 6 % 64, n % 64]

/-- RFC 4648, section 4: three bytes form a 24-bit group that is written as four characters. A final group of one or two
bytes is filled up with zero bits and written as two or three characters, followed by padding up to four characters. -/
def rfc4648 (alphabet : Nat → Byte) (pad : Bool) : List Byte → List Byte
  | a :: b :: c :: rest =>
    (sextets (a.toNat * 65536 + b.toNat * 256 + c.toNat)).map alphabet ++ rfc4648 alphabet pad rest
  | [a, b] => ((sextets (a.toNat * 65536 + b.toNat * 256)).take 3).map alphabet ++ (if pad then [61] else [])
  | [a] => ((sextets (a.toNat * 65536)).take 2).map alphabet ++ (if pad then [61, 61] else [])
  | [] => []

/-- The `base64` encoding: `+`, `/`, with padding. -/
def base64Text (bytes : List Byte) : List Byte := rfc4648 (b64Alphabet 43 47) true bytes

/-- The `base64url` encoding: `-`, `_`, without padding. -/
def base64urlText (bytes : List Byte) : List Byte := rfc4648 (b64Alphabet 45 95) false bytes

/-- Letters, digits, `-`, `_` and `.`. -/
def Unreserved (c : Byte) : Prop :=
  (65 ≤ c.toNat ∧ c.toNat ≤ 90) ∨ (97 ≤ c.toNat ∧ c.toNat ≤ 122) ∨ (48 ≤ c.toNat ∧ c.toNat ≤ 57) ∨ c = 45 ∨ c = 95 ∨ c = 46

instance (c : Byte) : Decidable (Unreserved c) := by unfold Unreserved; infer_instance

/-- The upper case hexadecimal digit of a value below 16. -/
def upperHex (n : Nat) : Byte := if n < 10 then BitVec.ofNat 8 (48 + n) else BitVec.ofNat 8 (65 + (n - 10))

/-- The percent encoding of a byte string. -/
def percentText (bytes : List Byte) : List Byte :=
  bytes.flatMap fun c => if Unreserved c then [c] else [37, upperHex (c.toNat / 16), upperHex (c.toNat % 16)]

/-- `Hex c v`: the character `c` is a hexadecimal digit, of either case, with the value `v`. -/
def Hex (c : Byte) (v : Nat) : Prop :=
  (v < 10 ∧ c.toNat = 48 + v) ∨ (10 ≤ v ∧ v < 16 ∧ (c.toNat = 65 + (v - 10) ∨ c.toNat = 97 + (v - 10)))

/-- `PercentDecodes text bytes`: the text is well-formed and stands for the bytes. -/
inductive PercentDecodes : List Byte → List Byte → Prop
  | nil : PercentDecodes [] []
  | plain {c text bytes} : Unreserved c → PercentDecodes text bytes → PercentDecodes (c :: text) (c :: bytes)
  | escape {h l : Byte} {x y : Nat} {text bytes} : Hex h x → Hex l y → PercentDecodes text bytes →
      PercentDecodes (37 :: h :: l :: text) (BitVec.ofNat 8 (16 * x + y) :: bytes)

end Tm.Str
