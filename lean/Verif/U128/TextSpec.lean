import Verif.Conv.Spec
import Verif.U128.Spec
/-! # Specification of scanning 128-bit numbers -/
namespace Tm.U128
open Tm.Conv Tm.Num

/-- What scanning a 128-bit number must do when the text starts with the digits `ds`. -/
def u128Result (base : Nat) (ds : List Nat) (out : Option U128) : ConvResult × Option U128 :=
  if ds = [] then (⟨0, .einval⟩, out)
  else if numVal base ds < 2 ^ 128 then (⟨ds.length, .ok⟩, out.map fun _ => ofNat (numVal base ds))
  else (⟨ds.length, .erange⟩, out)

end Tm.U128
