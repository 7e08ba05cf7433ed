import Mathlib.Algebra.Order.Floor.Ring
import Mathlib.Data.Rat.Floor
import Verif.Model.Base
import Verif.Model.Time

/-!
# zounds/timeseries/duration.py: the duration constructors
-/

namespace Zounds.Duration
open Zounds Zounds.Time

/-- A Python number: an integer or a finite float is its value. -/
inductive Num where
  | val (x : ℚ)
  | nan
  | inf

/-- Python's `int(x)`: towards zero; ValueError for NaN and OverflowError for infinities. -/
def pyInt : Num → Except PyErr Int
  | .val x => .ok (if 0 ≤ x then ⌊x⌋ else ⌈x⌉)
  | .nan => .error .valueError
  | .inf => .error .overflowError

/-- duration.py:4-128 `Hours`, `Minutes`, `Seconds`, `Milliseconds`, `Microseconds`, `Nanoseconds`, `Picoseconds`: `np.timedelta64(int(x), unit)` with the unit of
the class.  numpy's 64-bit limit is not modelled. -/
def construct (u : TUnit) (x : Num) : Except PyErr Dur :=
  match pyInt x with
  | .error e => .error e
  | .ok n => .ok ⟨n, u⟩

end Zounds.Duration
