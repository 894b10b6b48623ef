import Verif.Basic

/-!
# The C library functions used by `tm_stringutil.h`

`tm_stringutil.h` lines 40-103 map `TM_MEMCHR`, `TM_STRCHR`, `TM_STRLEN`, `TM_STRNCMP`, `TM_MEMCMP`, `TM_STRCMP`,
`TM_STRSPN`, `TM_STRCSPN`, `TM_TOUPPER` and `TM_TOLOWER` to the C library. They are modelled here from the C standard
(chapter 7.24 and 7.4, "C" locale).

All pointers are positions in one memory `mem`; reading at or behind the end of `mem` is the fault `oob`.
Null pointers and the assertions against them are not modelled.
-/

namespace Tm.Str

/-- `memchr(p, c, n)`: reads the `n` bytes at `p` one after the other up to the first `c`. -/
def memchr (mem : List Byte) (c : Byte) : Nat → Nat → C (Option Nat)
  | _, 0 => .ok none
  | p, n + 1 => do
    let x ← rd mem p
    if x = c then .ok (some p) else memchr mem c (p + 1) n

/-- `memcmp(a, b, n)`: difference of the first pair of bytes that differ. The standard only fixes the sign; the callers
only look at the sign or pass the result on. -/
def memcmp (mem : List Byte) : Nat → Nat → Nat → C Int
  | _, _, 0 => .ok 0
  | a, b, n + 1 => do
    let x ← rd mem a
    let y ← rd mem b
    if x ≠ y then .ok ((x.toNat : Int) - y.toNat) else memcmp mem (a + 1) (b + 1) n

/-- Loop of `strlen` over the bytes at the pointer. -/
def strlenL : List Byte → C Nat
  | [] => .error .oob
  | x :: xs => if x = 0 then .ok 0 else do
    let n ← strlenL xs
    .ok (n + 1)

/-- `strlen(p)`. -/
def strlen (mem : List Byte) (p : Nat) : C Nat := strlenL (mem.drop p)

/-- Loop of `strchr` over the bytes at the pointer; only whether there is a match is used by the callers. -/
def strchrL (c : Byte) : List Byte → C Bool
  | [] => .error .oob
  | x :: xs => if x = c then .ok true else if x = 0 then .ok false else strchrL c xs

/-- `strchr(p, c) != NULL` (the terminator belongs to the string, so `strchr(p, 0)` is never null). -/
def strchr (mem : List Byte) (p : Nat) (c : Byte) : C Bool := strchrL c (mem.drop p)

/-- Loop of `strncmp` over the bytes at the two pointers. -/
def strncmpL : List Byte → List Byte → Nat → C Int
  | _, _, 0 => .ok 0
  | x :: xs, y :: ys, n + 1 =>
    if x ≠ y then .ok ((x.toNat : Int) - y.toNat) else if x = 0 then .ok 0 else strncmpL xs ys n
  | _, _, _ + 1 => .error .oob

/-- `strncmp(a, b, n)`. -/
def strncmp (mem : List Byte) (a b n : Nat) : C Int := strncmpL (mem.drop a) (mem.drop b) n

/-- Loop of `strcmp` over the bytes at the two pointers. -/
def strcmpL : List Byte → List Byte → C Int
  | x :: xs, y :: ys => if x ≠ y then .ok ((x.toNat : Int) - y.toNat) else if x = 0 then .ok 0 else strcmpL xs ys
  | _, _ => .error .oob

/-- `strcmp(a, b)`. -/
def strcmp (mem : List Byte) (a b : Nat) : C Int := strcmpL (mem.drop a) (mem.drop b)

/-- Loop of `strspn` over the bytes at the pointer; `q` points to the accepted characters. -/
def strspnL (mem : List Byte) (q : Nat) : List Byte → C Nat
  | [] => .error .oob
  | x :: xs => if x = 0 then .ok 0 else do
    let m ← strchr mem q x
    if m then do
      let n ← strspnL mem q xs
      .ok (n + 1)
    else .ok 0

/-- `strspn(p, q)`. -/
def strspn (mem : List Byte) (p q : Nat) : C Nat := strspnL mem q (mem.drop p)

/-- Loop of `strcspn` over the bytes at the pointer; `q` points to the rejected characters. -/
def strcspnL (mem : List Byte) (q : Nat) : List Byte → C Nat
  | [] => .error .oob
  | x :: xs => if x = 0 then .ok 0 else do
    let m ← strchr mem q x
    if m then .ok 0
    else do
      let n ← strcspnL mem q xs
      .ok (n + 1)

/-- `strcspn(p, q)`. -/
def strcspn (mem : List Byte) (p q : Nat) : C Nat := strcspnL mem q (mem.drop p)

/-- `toupper` in the "C" locale. -/
def toupper (c : Byte) : Byte := if 97 ≤ c.toNat ∧ c.toNat ≤ 122 then c - 32 else c

/-- `tolower` in the "C" locale. -/
def tolower (c : Byte) : Byte := if 65 ≤ c.toNat ∧ c.toNat ≤ 90 then c + 32 else c

end Tm.Str
