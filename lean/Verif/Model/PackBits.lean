import Verif.Model.Array
import Verif.Model.Codes
import Verif.Model.Nd

/-!
# zounds/core/axis.py `ArrayWithUnits.packbits`
-/

namespace Zounds.Arr
open Zounds

/-- The bits at positions `8 * i` to `8 * i + 7`, as far as there are any. -/
def eightBits (n i : Nat) (bit : Nat → Bool) : List Bool := (List.range 8).filterMap fun j => if 8 * i + j < n then some (bit (8 * i + j)) else none

/-- axis.py:162-164 `packbits`: `np.packbits(self, axis)` packs along the axis, or the flattened array without one; the result is given the dimensions of the array.
`nonzero` says which numbers count as one.  (An axis that does not exist: `AxisError`, a ValueError.) -/
def Awu.packbits {δ κ α : Type} (ops : DimOps δ κ) (nonzero : α → Bool) (a : Awu δ α) : Option Nat → Except PyErr (Awu δ UInt8)
  | none =>
    Awu.new ops [(Nd.size a.shape + 7) / 8] (fun idx => Codes.packByte (eightBits (Nd.size a.shape) (idx.headD 0) fun p => nonzero (a.get (Nd.unravel a.shape p)))) a.dims
  | some k =>
    if a.shape.length ≤ k then .error .valueError
    else Awu.new ops (a.shape.set k ((a.shape.getD k 0 + 7) / 8))
      (fun idx => Codes.packByte (eightBits (a.shape.getD k 0) (idx.getD k 0) fun p => nonzero (a.get (idx.set k p)))) a.dims

end Zounds.Arr
