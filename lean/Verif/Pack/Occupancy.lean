import Verif.Pack.Model
import Verif.Util.Float

/-!
# Model of the occupancy of a bin: `tm_bin_packing.h`

`float` operators are those of `Util/Float.lean`.
-/

namespace Tm.Pack

open Util

/-- `guillotineOccupancy`, line 1097, and `maxRectsOccupancy`, line 1678. The product of the sizes is an `int` and converted for the division. -/
def occupancy (p : Pack) : C Dbl.Float := do
  let total ← i32 (p.width * p.height)
  .ok (fdiv (rounded false p.usedArea) (rounded false total))

end Tm.Pack
