import Verif.Cli.Model

/-!
# What a command line says

Independent of how the parser works. The parser is used through `makeParser`, `next`, `validate` and `remaining` alone.

Rules are parametrised by `all`: with `True` they are the conventions for command lines, with `False` those of them that the parser
can be relied on for.
-/

namespace Tm.Cli

/-- A string has no null bytes in front of its terminator. -/
def CString (s : Str) : Prop := 0 ∉ s

/-- A word begins with a dash. -/
def Dashed (w : Str) : Prop := ∃ t, w = 0x2D :: t

/-- There is no word behind an option that could be its argument. -/
def NoneAhead (ws : List Str) : Prop := ∀ w rest, ws = w :: rest → Dashed w

/-- A letter. -/
def Letter (b : Byte) : Prop := (0x41 ≤ b ∧ b ≤ 0x5A) ∨ (0x61 ≤ b ∧ b ≤ 0x7A)

/-- A decimal digit. -/
def Digit (b : Byte) : Prop := 0x30 ≤ b ∧ b ≤ 0x39

/-- A text begins with a letter or a digit. -/
def BeginsWell (s : Str) : Prop := ∃ b t, s = b :: t ∧ (Letter b ∨ Digit b)

/-- The option has a short name that begins with the character. -/
def HasShort (o : Opt) (c : Byte) : Prop := ∃ more, o.short = some (c :: more)

/-- A text names the option by its long name, with or without "=" and an argument. -/
def HasLong (o : Opt) (text : Str) : Prop := ∃ name, o.long = some name ∧ (text = name ∨ ∃ v, text = name ++ 0x3D :: v)

/-- The first option of a list that has some property. -/
def First (opts : List Opt) (P : Opt → Prop) (i : Nat) (o : Opt) : Prop :=
  opts[i]? = some o ∧ P o ∧ ∀ j o', j < i → opts[j]? = some o' → ¬ P o'

/-- `Spells opts all text words ps`: the options and free arguments `ps` are what is spelled by `text`, which is the rest of a word of
short options, and the words behind it. -/
inductive Spells (opts : List Opt) (all : Prop) : Str → List Str → List Parsed → Prop
  /-- the end -/
  | nil : Spells opts all [] [] []
  /-- `input.txt` -/
  | free (w : Str) (ws : List Str) (ps : List Parsed) :
    ¬ Dashed w → Spells opts all [] ws ps → Spells opts all [] (w :: ws) (⟨none, some w⟩ :: ps)
  /-- `--name` -/
  | long (i : Nat) (o : Opt) (name : Str) (ws : List Str) (ps : List Parsed) :
    First opts (HasLong · name) i o → o.long = some name → (all ∨ BeginsWell name) →
    NoneAhead ws ∨ (all ∧ o.arg = .none) → Spells opts all [] ws ps →
    Spells opts all [] ((0x2D :: 0x2D :: name) :: ws) (⟨some i, none⟩ :: ps)
  /-- `--name=value` -/
  | longEq (i : Nat) (o : Opt) (name v : Str) (ws : List Str) (ps : List Parsed) :
    First opts (HasLong · (name ++ 0x3D :: v)) i o → o.long = some name → (all ∨ BeginsWell name) → Spells opts all [] ws ps →
    Spells opts all [] ((0x2D :: 0x2D :: (name ++ 0x3D :: v)) :: ws) (⟨some i, some v⟩ :: ps)
  /-- `--name value` -/
  | longNext (i : Nat) (o : Opt) (name v : Str) (ws : List Str) (ps : List Parsed) :
    First opts (HasLong · name) i o → o.long = some name → (all ∨ BeginsWell name) → o.arg ≠ .none → ¬ Dashed v →
    Spells opts all [] ws ps → Spells opts all [] ((0x2D :: 0x2D :: name) :: v :: ws) (⟨some i, some v⟩ :: ps)
  /-- the begin of `-abc` -/
  | word (c : Byte) (text : Str) (ws : List Str) (ps : List Parsed) :
    c ≠ 0x2D → Spells opts all (c :: text) ws ps → Spells opts all [] ((0x2D :: c :: text) :: ws) ps
  /-- `a` of `-abc` -/
  | flag (i : Nat) (o : Opt) (c d : Byte) (text : Str) (ws : List Str) (ps : List Parsed) :
    First opts (HasShort · c) i o → o.arg = .none → Letter d → Spells opts all (d :: text) ws ps →
    Spells opts all (c :: d :: text) ws (⟨some i, none⟩ :: ps)
  /-- `c` of `-abc` -/
  | short (i : Nat) (o : Opt) (c : Byte) (ws : List Str) (ps : List Parsed) :
    First opts (HasShort · c) i o → NoneAhead ws ∨ (all ∧ o.arg = .none) → Spells opts all [] ws ps →
    Spells opts all [c] ws (⟨some i, none⟩ :: ps)
  /-- `c=value` of `-abc=value` -/
  | shortEq (i : Nat) (o : Opt) (c : Byte) (v : Str) (ws : List Str) (ps : List Parsed) :
    First opts (HasShort · c) i o → Spells opts all [] ws ps → Spells opts all (c :: 0x3D :: v) ws (⟨some i, some v⟩ :: ps)
  /-- `cvalue` of `-abcvalue` -/
  | shortGlued (i : Nat) (o : Opt) (c b : Byte) (v : Str) (ws : List Str) (ps : List Parsed) :
    First opts (HasShort · c) i o → o.arg ≠ .none → b ≠ 0x3D → NoneAhead ws ∨ all → Spells opts all [] ws ps →
    Spells opts all (c :: b :: v) ws (⟨some i, some (b :: v)⟩ :: ps)
  /-- `c value` of `-abc value` -/
  | shortNext (i : Nat) (o : Opt) (c : Byte) (v : Str) (ws : List Str) (ps : List Parsed) :
    First opts (HasShort · c) i o → o.arg ≠ .none → ¬ Dashed v → Spells opts all [] ws ps →
    Spells opts all [c] (v :: ws) (⟨some i, some v⟩ :: ps)

/-- What is left when all options are read: nothing, or a standalone "--" and the words behind it. -/
def Ends (rest behind : List Str) : Prop := (rest = [] ∧ behind = []) ∨ rest = [0x2D, 0x2D] :: behind

/-- An argument, or none, is one that an option may have. -/
def Fits (o : Opt) (argument : Option Str) : Prop :=
  match argument with
  | none => o.arg ≠ .required
  | some v => o.arg ≠ .none ∧ (o.arg = .required → v ≠ []) ∧ ∀ f, o.validator = some f → f v = true

/-- An option is used as it was declared: with an argument or without, and with a valid one. -/
def Obeys (opts : List Opt) (p : Parsed) : Prop := ∀ i o, p.option = some i → opts[i]? = some o → Fits o p.argument

/-- Change what a pointer points to, unless it is null. -/
def change (m : Mem) (a : Option Nat) (f : BitVec 32 → BitVec 32) : Mem := fun x => if a = some x then f (m x) else m x

/-- What the documentation says about outputs. -/
def outputOf (o : Opt) (x : BitVec 32) : BitVec 32 :=
  match o.outType with
  | .none => x
  | .assign => o.outValue
  | .flag => x ||| o.outValue
  | .counter => x + o.outValue

/-- The memory after an option was given: it is counted, then its output is set. -/
def effect (opts : List Opt) (m : Mem) (p : Parsed) : Mem :=
  match p.option.bind (opts[·]?) with
  | none => m
  | some o => change (change m o.counter (· + 1)) o.output (outputOf o)

/-- The memory after some options were given. -/
def effects (opts : List Opt) (m : Mem) (ps : List Parsed) : Mem := ps.foldl (effect opts) m

/-- An option may be given again: it has no maximum, or a maximum above one that its counter does not exceed. -/
def Again (o : Opt) (m : Mem) : Prop :=
  o.max < 0 ∨ (1 < o.max ∧ ∀ a, o.counter = some a → ((m a + 1).toNat : Int) ≤ o.max)

/-- No option is given again although it may not be. -/
def Limited (opts : List Opt) (m : Mem) (ps : List Parsed) : Prop :=
  ∀ pre p post i o, ps = pre ++ p :: post → p.option = some i → opts[i]? = some o → (∃ q ∈ pre, q.option = some i) →
    Again o (effects opts m pre)

/-- How often an option was delivered. -/
def times (i : Nat) (ps : List Parsed) : Nat := ps.countP (fun q => q.option = some i)

/-- The calls of `next` from a parser on, as long as they return true, with what they deliver. -/
inductive Calls (p : Parser) : List Parsed → Parser → Prop
  | nil : Calls p [] p
  | call (ps : List Parsed) (q : Parsed) (p' p'' : Parser) : Calls p ps p' → next p' = .ok (some q, p'') → Calls p (ps ++ [q]) p''

/-- All calls of `next` up to the one that returns false. -/
def Run (p : Parser) (ps : List Parsed) (p' : Parser) : Prop := ∃ p₁, Calls p ps p₁ ∧ next p₁ = .ok (none, p')

/-- Options as they have to be declared: every option has a long name, which may be empty, and no short name that is empty. -/
def Declared (opts : List Opt) : Prop :=
  ∀ o ∈ opts, (∃ name, o.long = some name ∧ CString name) ∧ ∀ name, o.short = some name → name ≠ [] ∧ CString name

/-! ## Numbers -/

/-- One digit or more. -/
def Digits (s : Str) : Prop := s ≠ [] ∧ ∀ b ∈ s, Digit b

/-- A decimal numeral without a superfluous leading zero. -/
def Whole (s : Str) : Prop := Digits s ∧ (s = [0x30] ∨ ∀ t, s ≠ 0x30 :: t)

/-- Nothing, or something. -/
def Maybe (P : Str → Prop) (s : Str) : Prop := s = [] ∨ P s

/-- A fraction. -/
def Fraction (s : Str) : Prop := ∃ ds, Digits ds ∧ s = 0x2E :: ds

/-- An exponent. -/
def Exponent (s : Str) : Prop :=
  ∃ e sign ds, (e = 0x65 ∨ e = 0x45) ∧ (sign = [] ∨ sign = [0x2B] ∨ sign = [0x2D]) ∧ Digits ds ∧ s = e :: (sign ++ ds)

/-- A floating point number. -/
def Float (s : Str) : Prop :=
  ∃ sign whole fraction exponent, (sign = [] ∨ sign = [0x2D]) ∧ Whole whole ∧ Maybe Fraction fraction ∧ Maybe Exponent exponent ∧
    s = sign ++ whole ++ fraction ++ exponent

end Tm.Cli
