import Verif.Basic

/-!
# Model of the command line parser (tm_cli.h)

Simplifications, for the whole file:

* A string is the list of its bytes before the null terminator. A pointer into a string is the list of the bytes from there on, so
  that `*p` is the head of the list, or 0. A null pointer is `none`.
* `tmcli_tchar` is `char`. `isdigit`, `isalpha` and `isalnum` are those of the "C" locale.
* `argv` holds exactly `argc` strings, the program name left out, as for `tmcli_make_parser_ex`.
* The objects of type `unsigned` that options point to are cells of a memory, given by their address. Options may share them.
* A validator is a function of the string. `argument_type`, `option_type` and `output_type` hold one of their enumerators.
* The log is the list of the messages written to it, if there is one. A message holds the strings that are printed. Printing a null
  pointer with "%s" is the fault `.invalid`.
* `parsed_option_out` is not null.
-/

namespace Tm.Cli

abbrev Str := List Byte

/-- `enum tmcli_argument_type`, lines 138-143. -/
inductive ArgType
  | none | optional | required
deriving DecidableEq, Repr

/-- `enum tmcli_output_type`, lines 150-155. -/
inductive OutType
  | none | assign | flag | counter
deriving DecidableEq, Repr

/-- `tmcli_option`, lines 157-160 and 170-183. -/
structure Opt where
  short : Option Str
  long : Option Str
  arg : ArgType
  /-- `option_type == CLI_REQUIRED_OPTION` -/
  required : Bool := false
  /-- `multiple.max_amount` -/
  max : Int := 0
  /-- `multiple.counter` -/
  counter : Option Nat := none
  validator : Option (Str → Bool) := none
  outType : OutType := .none
  output : Option Nat := none
  outValue : BitVec 32 := 0

/-- The objects that options point to. -/
abbrev Mem := Nat → BitVec 32

/-- What is printed, lines 402-405, 461-472, 526, 541, 574, 601, 634, 674, 683, 692 and 701. -/
inductive Msg
  | required (short : Option Str) (long : Str)
  | unrecognized (s : Str)
  | unrecognizedShort (c : Byte)
  | freeArgument (s : Str)
  | tooOften (name : Str)
  | format (name : Str)
  | noArgument (name : Str)
  | tooMany (name : Str)
  | needsArgument (name : Str)
  | notValid (arg name : Str)
deriving DecidableEq, Repr

/-- `tmcli_parser`, lines 185-204, and what it reaches. -/
structure Parser where
  argv : List Str
  options : List Opt
  /-- `settings.allow_free_arguments` -/
  free : Bool
  /-- `settings.error_log` is not null -/
  hasLog : Bool
  current : Nat := 0
  given : List (BitVec 32) := [0, 0, 0, 0]
  currentArg : Option Str := none
  error : Bool := false
  mem : Mem
  log : List Msg := []

/-- `tmcli_parsed_option`, lines 226-230. The option is given by `option_index`; `option` is null exactly for `none`. -/
structure Parsed where
  option : Option Nat
  argument : Option Str
deriving DecidableEq, Repr

/-- `*p` -/
def deref (s : Str) : Byte := s.headD 0

/-- `isdigit` of the "C" locale. -/
def isDigit (b : Byte) : Bool := 0x30 ≤ b.toNat && b.toNat ≤ 0x39

/-- `isalpha` of the "C" locale. -/
def isAlpha (b : Byte) : Bool := (0x41 ≤ b.toNat && b.toNat ≤ 0x5A) || (0x61 ≤ b.toNat && b.toNat ≤ 0x7A)

/-- `isalnum` of the "C" locale. -/
def isAlnum (b : Byte) : Bool := isDigit b || isAlpha b

/-! ## Validators, lines 318-371 -/

/-- The loop of `tmcli_skip_digits`, lines 322-326. -/
def skipLoop : Str → Str
  | [] => []
  | b :: s => if isDigit b then skipLoop s else b :: s

/-- `tmcli_skip_digits`, lines 318-327. -/
def skipDigits (s : Str) : Option Str := if isDigit (deref s) then some (skipLoop s.tail) else none

/-- `CLI_ARGUMENT_UINT`, lines 337-341. -/
def argUint (s : Str) : Bool :=
  if deref s = 0 then false
  else
    match skipDigits s with
    | none => false
    | some s => deref s = 0

/-- `CLI_ARGUMENT_INT`, lines 328-336. -/
def argInt (s : Str) : Bool :=
  if deref s = 0 then false
  else
    let s := if deref s = 0x2D then s.tail else s
    if deref s = 0 then false
    else
      match skipDigits s with
      | none => false
      | some s => deref s = 0

/-- Lines 364-370. -/
def argExponent (s : Str) : Bool :=
  if deref s = 0x65 || deref s = 0x45 then
    let s := s.tail
    let s := if deref s = 0x2D || deref s = 0x2B then s.tail else s
    match skipDigits s with
    | none => false
    | some s => deref s = 0
  else deref s = 0

/-- Lines 357-370. -/
def argFraction (s : Str) : Bool :=
  if deref s = 0 then true
  else if deref s = 0x2E then
    match skipDigits s.tail with
    | none => false
    | some s => if deref s = 0 then true else argExponent s
  else argExponent s

/-- `CLI_ARGUMENT_FLOAT`, lines 342-371. -/
def argFloat (s : Str) : Bool :=
  if deref s = 0 then false
  else
    let s := if deref s = 0x2D then s.tail else s
    if deref s = 0 then false
    else if deref s = 0x30 then argFraction s.tail
    else if 0x31 ≤ (deref s).toNat && (deref s).toNat ≤ 0x39 then
      match skipDigits s.tail with
      | none => argFraction s.tail
      | some s => argFraction s
    else false

/-! ## The parser, lines 386-733 -/

/-- Lines 398-399: an option has a short or a long name. -/
def named (o : Opt) : Bool :=
  (match o.short with | some s => deref s != 0 | none => false) || (match o.long with | some s => deref s != 0 | none => false)

/-- `tmcli_make_parser_ex`, lines 386-416, with assertions and `_DEBUG`: the message of lines 402-405 is never printed. -/
def makeParser (argv : List Str) (options : List Opt) (free hasLog : Bool) (mem : Mem) : C Parser :=
  if options.length ≤ 128 then
    if options.all named then
      .ok { argv := argv, options := options, free := free, hasLog := hasLog, mem := mem }
    else .error .assertion
  else .error .assertion

/-- `tmcli_get_flag_pair`, lines 436-448. -/
def flagPair (index : Nat) : C (Nat × BitVec 32) :=
  if index / 32 < 4 then
    if (1#32 <<< (index % 32)) ≠ 0 then .ok (index / 32, 1#32 <<< (index % 32)) else .error .assertion
  else .error .assertion

/-- Print a message if there is a log, and `parser->error = TM_TRUE`. -/
def Parser.fail (p : Parser) (m : Msg) : Parser :=
  { p with error := true, log := if p.hasLog then p.log ++ [m] else p.log }

/-- `*p` for a string that is printed with "%s" if there is a log. -/
def Parser.print (p : Parser) (s : Option Str) : C Str :=
  match s with
  | some s => .ok s
  | none => if p.hasLog then .error .invalid else .ok []

/-- The loop of `tmcli_validate`, lines 456-477, for the options from the index `i` on: the first required option that was not
given. -/
def missing (given : List (BitVec 32)) : Nat → List Opt → C (Option Opt)
  | _, [] => .ok none
  | i, o :: os =>
    if o.required then
      match flagPair i with
      | .error e => .error e
      | .ok (word, flag) =>
        match rd given word with
        | .error e => .error e
        | .ok w => if w &&& flag = 0 then .ok (some o) else missing given (i + 1) os
    else missing given (i + 1) os

/-- `tmcli_validate`, lines 450-479. -/
def validate (p : Parser) : C (Bool × Parser) := do
  if p.error then .ok (false, p)
  else
    match ← missing p.given 0 p.options with
    | none => .ok (true, p)
    | some o =>
      let long ← p.print o.long
      .ok (false, p.fail (.required o.short long))

/-- The loop of lines 510-523, for the options from the index `i` on: the index of the option and what follows its name. -/
def findLong (current : Str) : Nat → List Opt → C (Option (Nat × Str))
  | _, [] => .ok none
  | i, o :: os =>
    match o.long with
    | none => .error .invalid
    | some name =>
      if name.isPrefixOf current && (deref (current.drop name.length) = 0 || deref (current.drop name.length) = 0x3D) then
        .ok (some (i, current.drop name.length))
      else findLong current (i + 1) os

/-- The loop of lines 561-571, for the options from the index `i` on. -/
def findShort (c : Byte) : Nat → List Opt → C (Option Nat)
  | _, [] => .ok none
  | i, o :: os =>
    match o.short with
    | none => findShort c (i + 1) os
    | some name =>
      if deref name = 0 then .error .assertion
      else if c = deref name then .ok (some i)
      else findShort c (i + 1) os

/-- `++*option->multiple.counter`, lines 589-590. -/
def count (mem : Mem) (o : Opt) : Mem :=
  match o.counter with
  | some a => fun x => if x = a then mem a + 1 else mem x
  | none => mem

/-- The variable `counter`, lines 588 and 591. -/
def counterOf (mem : Mem) (o : Opt) : BitVec 32 :=
  match o.counter with
  | some a => mem a
  | none => 0

/-- Lines 588-610: count the option, whether it was given too many times, and the parser with the option marked as given. -/
def mark (p : Parser) (index : Nat) (o : Opt) : C (Bool × Parser) := do
  let p := { p with mem := count p.mem o }
  let (word, flag) ← flagPair index
  let w ← rd p.given word
  if w &&& flag ≠ 0 ∧ (o.max = 0 ∨ o.max = 1 ∨ (0 < o.max ∧ o.max < ((counterOf p.mem o).toNat : Int))) then .ok (true, p)
  else .ok (false, { p with given := p.given.set word (w ||| flag) })

/-- Lines 613-628: the output of an option. -/
def output (mem : Mem) (o : Opt) : Mem :=
  match o.output with
  | none => mem
  | some a =>
    match o.outType with
    | .none => mem
    | .assign => fun x => if x = a then o.outValue else mem x
    | .flag => fun x => if x = a then mem a ||| o.outValue else mem x
    | .counter => fun x => if x = a then mem a + o.outValue else mem x

/-- What a call of `tmcli_next` returns: `none` is `TM_FALSE`. -/
abbrev Next := C (Option Parsed × Parser)

/-- Lines 711-720. -/
def accept (p : Parser) (index : Nat) (argument : Option Str) : Next :=
  .ok (some { option := some index, argument := argument },
    { p with currentArg := if argument.isSome then none else p.currentArg })

/-- Lines 670-708, and what follows. No argument and an empty argument are both wrong on line 690. `following` is `next_is_argument`, `has` is `current_has_argument`. -/
def checkArg (p : Parser) (index : Nat) (o : Opt) (name : Option Str) (following has : Bool) (argument : Option Str) : Next := do
  if o.arg = .none ∧ argument.isSome then
    let name ← p.print name
    .ok (none, p.fail (.noArgument name))
  else if has ∧ following then
    let name ← p.print name
    .ok (none, p.fail (.tooMany name))
  else if o.arg = .required ∧ deref (argument.getD []) = 0 then
    let name ← p.print name
    .ok (none, p.fail (.needsArgument name))
  else
    match argument with
    | none => accept p index argument
    | some a =>
      if (match o.validator with | none => true | some v => v a) then accept p index argument
      else
        let name ← p.print name
        .ok (none, p.fail (.notValid a name))

/-- Lines 644-708, and what follows: look for an argument of an option. `current` is behind its name. -/
def parseArg (p : Parser) (index : Nat) (o : Opt) (name : Option Str) (current : Str) : Next := do
  let (p, following) ←
    if deref current ≠ 0x3D then
      if p.current < p.argv.length then do
        let next ← rd p.argv p.current
        if deref next ≠ 0x2D then pure ({ p with current := p.current + 1 }, some next) else pure (p, none)
      else pure (p, none)
    else pure (p, none)
  if deref current ≠ 0 then
    let current := if deref current = 0x3D then current.tail else current
    checkArg p index o name following.isSome true (some current)
  else checkArg p index o name following.isSome false following

/-- Lines 582-720: an option was found. `current` is behind its name. -/
def found (p : Parser) (index : Nat) (isShort : Bool) (current : Str) : Next := do
  let o ← rd p.options index
  let name := if isShort then o.short else o.long
  match ← mark p index o with
  | (true, p) =>
    let name ← p.print name
    .ok (none, p.fail (.tooOften name))
  | (false, p) =>
    let p := { p with mem := output p.mem o }
    if isShort ∧ deref current ≠ 0 ∧ o.arg = .none then
      if !isAlpha (deref current) then
        let name ← p.print name
        .ok (none, p.fail (.format name))
      else accept p index none
    else parseArg p index o name current

/-- Lines 558-580, and what follows: a short option. -/
def shortOption (p : Parser) (current : Str) : Next := do
  match ← findShort (deref current) 0 p.options with
  | none => .ok (none, p.fail (.unrecognizedShort (deref current)))
  | some index => found { p with currentArg := some current.tail } index true current.tail

/-- Lines 500-533, and what follows: a long option. `current` is behind "--". -/
def longOption (p : Parser) (current : Str) : Next := do
  if !isAlnum (deref current) then .ok (none, p)
  else
    match ← findLong current 0 p.options with
    | none => .ok (none, p.fail (.unrecognized current))
    | some (index, current) => found { p with currentArg := none } index false current

/-- Lines 493-720. -/
def parseWord (p : Parser) (current : Str) : Next :=
  if deref current = 0x2D then
    if deref current.tail = 0x2D then longOption p current.tail.tail
    else shortOption p current.tail
  else if p.currentArg.isSome then shortOption p current
  else if !p.free then .ok (none, p.fail (.freeArgument current))
  else .ok (some { option := none, argument := some current }, p)

/-- `tmcli_next`, lines 481-721. -/
def next (p : Parser) : Next :=
  if p.error then .error .assertion
  else
    if deref (p.currentArg.getD []) ≠ 0 then parseWord p (p.currentArg.getD [])
    else if p.argv.length ≤ p.current then .ok (none, p)
    else do
      let current ← rd p.argv p.current
      parseWord { p with current := p.current + 1 } current

/-- `tmcli_get_remaining_args`, lines 723-733. -/
def remaining (p : Parser) : C (List Str) :=
  if p.current ≤ p.argv.length then .ok (p.argv.drop p.current) else .error .assertion

end Tm.Cli
