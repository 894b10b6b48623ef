import Verif.Uni.Ucd
import Verif.Uni.FoldSpec
import Verif.Uni.Lemmas
/-!
# What is in the Unicode data

The tables are finite; all of their entries are examined here, block by block.
-/
namespace Tm.Uni

/-- The entries with which nothing is folded, as bits. -/
def plainMask : Nat := 0x72003c0000010f80000000000000000000000001df001000800000003dff

/-- `0, 8, ..., 1016`. -/
def shifts : List Nat := [0, 8, 16, 24, 32, 40, 48, 56, 64, 72, 80, 88, 96, 104, 112, 120, 128, 136, 144, 152, 160, 168, 176, 184, 192, 200, 208, 216, 224, 232, 240, 248, 256, 264, 272, 280, 288, 296, 304, 312, 320, 328, 336, 344, 352, 360, 368, 376, 384, 392, 400, 408, 416, 424, 432, 440, 448, 456, 464, 472, 480, 488, 496, 504, 512, 520, 528, 536, 544, 552, 560, 568, 576, 584, 592, 600, 608, 616, 624, 632, 640, 648, 656, 664, 672, 680, 688, 696, 704, 712, 720, 728, 736, 744, 752, 760, 768, 776, 784, 792, 800, 808, 816, 824, 832, 840, 848, 856, 864, 872, 880, 888, 896, 904, 912, 920, 928, 936, 944, 952, 960, 968, 976, 984, 992, 1000, 1008, 1016]

/-- The blocks with which something is folded, with the only place in the first table where they are used. -/
def special : List (Nat × Nat) := [
  (0, 0), (1, 1), (2, 2), (3, 3), (4, 4), (6, 6), (7, 7), (8, 8), (9, 9), (10, 10), (11, 11), (33, 33), (39, 37), (57, 51),
  (60, 54), (61, 55), (62, 56), (63, 57), (66, 60), (67, 61), (73, 65), (88, 71), (89, 72), (332, 86), (333, 87), (334, 88), (335, 89), (342, 96),
  (343, 97), (502, 107), (510, 113), (520, 121), (521, 122), (537, 133), (561, 152), (732, 168), (978, 193)]

/-- Nothing is folded with this entry. -/
def plainK (k : Nat) : Bool := Nat.beq 1 (Nat.land 1 (Nat.shiftRight plainMask k))

/-- A byte of a block. -/
def byteAt (b s : Nat) : Nat := Nat.land (Nat.shiftRight b s) 255

/-- The entries of a block with which something is folded, with their position. -/
def scan (b : Nat) : List (Nat × Nat) := shifts.filterMap fun s => bif plainK (byteAt b s) then none else some (s / 8, byteAt b s)

/-- Nothing is folded with the entries of this block. -/
def plainBlock (b : Nat) : Bool := shifts.all fun s => plainK (byteAt b s)

/-- The code points with which something is folded, with the number of their entry. -/
def changed : List (Nat × Nat) := special.flatMap fun p => match ucdStageTwo[p.2]? with
  | some b => (scan b).map fun q => (128 * p.1 + q.1, q.2)
  | none => []

/-- What the table says about simple folding. -/
def tableSimple : List (Nat × Nat) := changed.filterMap fun p => match ucdEntries[p.2]? with
  | some e => if e.offset = 0 then none else some (p.1, folded p.1 e)
  | none => none

/-- What the specification says about simple folding. -/
def specSimple : List (Nat × Nat) := simpleFolding.flatMap fun r => (List.range ((r.last - r.first) / r.step + 1)).map fun j =>
  (r.first + j * r.step, (((r.first + j * r.step : Nat) : Int) + r.delta).toNat)

/-- The run of code points that begins at an index. -/
def runAt (i : Nat) : List Nat := (ucdRuns.drop i).takeWhile (fun c => c != 0)

/-- What the table says about full folding. -/
def tableFull : List (Nat × List Nat) := changed.filterMap fun p => match ucdEntries[p.2]? with
  | some e => if e.full = 0 then none else some (p.1, runAt e.full)
  | none => none

set_option maxRecDepth 20000

theorem two_check : ucdStageTwo.zipIdx.all (fun p => special.any (fun q => Nat.beq q.2 p.2) || plainBlock p.1) = true := by decide +kernel
theorem one_check : ucdStageOne.zipIdx.all (fun p => Nat.ble p.1 255 && (Nat.ble 210 p.1 || !(special.any fun q => Nat.beq q.2 p.1) || special.contains (p.2, p.1))) = true := by
  decide +kernel
theorem special_check : ∀ p ∈ special, ucdStageOne[p.1]? = some p.2 ∧ p.1 < 1025 ∧ p.2 < 210 := by decide +kernel
theorem plain_check : ∀ k < 256, plainK k = true → k < 239 ∧ ∃ e, ucdEntries[k]? = some e ∧ e.full = 0 ∧ e.offset = 0 := by
  have h : (List.range 256).all (fun k => !plainK k || (match ucdEntries[k]? with
      | some e => decide (k < 239) && decide (e.full = 0) && decide (e.offset = 0)
      | none => false)) = true := by decide +kernel
  intro k hk hp
  have h1 := List.all_eq_true.1 h k (List.mem_range.2 hk)
  rw [hp] at h1
  cases h2 : ucdEntries[k]? with
  | none => rw [h2] at h1; simp at h1
  | some e =>
    rw [h2] at h1
    simp only [Bool.not_true, Bool.false_or, Bool.and_eq_true, decide_eq_true_eq] at h1
    exact ⟨h1.1.1, e, rfl, h1.1.2, h1.2⟩
theorem changed_check : changed.all (fun p => Nat.blt p.2 239) = true := by decide +kernel
theorem simple_check : tableSimple = specSimple := by decide +kernel
theorem full_check : tableFull = fullFolding := by decide +kernel
theorem run_check : ucdEntries.all (fun e => decide (e.full = 0) || (!(runAt e.full).isEmpty && decide (ucdRuns[e.full + (runAt e.full).length]? = some 0))) = true := by
  decide +kernel
theorem range_check : simpleFolding.all (fun r => decide (r.first ≤ r.last) && decide (0 < r.step)) = true := by decide +kernel
theorem shifts_eq : shifts = (List.range 128).map (fun o => 8 * o) := by decide +kernel
theorem sizes : ucdStageOne.length = 1025 ∧ ucdStageTwo.length = 210 ∧ ucdEntries.length = 239 := by decide +kernel

end Tm.Uni
