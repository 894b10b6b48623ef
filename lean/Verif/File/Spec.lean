import Verif.File.Os

/-! The words the properties of the file functions are stated in. Nothing here mentions the code. -/

namespace Tm.File

/-- No other program changes the files. -/
def Alone (w : World) : Prop := ∀ e ∈ w.plan, e.others = id

/-- No call to the operating system fails without a cause. -/
def NoFail (w : World) : Prop := ∀ e ∈ w.plan, e.fail = false

/-- A call that fails for no cause in the files sets `errno`, and to something else than that there is no such file. -/
def Honest (w : World) : Prop := ∀ e ∈ w.plan, e.fail = true → e.err ≠ 0 ∧ e.err ≠ ENOENT ∧ e.err ≠ ENOTDIR

/-- Everything goes well: no other program interferes, no call and no allocation fails, and `errno` is left alone. -/
structure Quiet (w : World) : Prop where
  calls : ∀ e ∈ w.plan, e.others = id ∧ e.fail = false ∧ e.err = 0
  allocs : ∀ a ∈ w.allocs, a = true

/-- Everything that is open or allocated has a number that was given out. -/
structure Fresh (w : World) : Prop where
  streams : ∀ s ∈ w.streams, s.id < w.next
  dirs : ∀ d ∈ w.dirs, d.1 < w.next
  blocks : ∀ b ∈ w.blocks, b < w.next

/-- A file can be written there. -/
def Writable (t : Tree) (cwd : List (List Byte)) (p : List Byte) : Prop := (find t cwd p = .ok none ∧ trailing p = false) ∨ ∃ b, find t cwd p = .ok (some (.file b))

/-- Directories were added and nothing else was changed. -/
def Grows (t t' : Tree) : Prop := ∀ q, t' q = t q ∨ (t q = none ∧ t' q = some .dir)

/-- The tree when a place and everything above it are directories. -/
def made (t : Tree) (l : List (List Byte)) : Tree := fun q => if q <+: l then some .dir else t q

/-- The current directory exists. -/
def Here (w : World) : Prop := ∀ q, q <+: w.cwd → w.tree q = some .dir

/-- On the way to a place there is nothing but directories. -/
def Clear (t : Tree) (l : List (List Byte)) : Prop := ∀ q, q <+: l → t q = none ∨ t q = some .dir

/-- The text of a directory with a slash at the end. -/
def slashed (text : List Byte) : List Byte := if text.getLast? = some slash then text else text ++ [slash]

end Tm.File
