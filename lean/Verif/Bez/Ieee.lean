import Verif.Bez.Model
import Verif.Util.Float

/-!
# `float` arithmetic for tm_bezier.h

The parameter of the model in `Model.lean`, with operators as in `Util/Float.lean`.
-/

namespace Tm.Bez

open Util

/-- IEEE 754 binary32. A literal and a conversion of an `int` to `float` are rounded. -/
def ieee : Poly.Arith Dbl.Float where
  lit x := rounded false x
  add := fadd
  sub := fsub
  mul := fmul
  div := fdiv
  neg := fneg
  le := fle
  lt := flt

end Tm.Bez
