import Verif.Model.Base
import Mathlib.Analysis.SpecialFunctions.Sqrt

/-!
# zounds/nputil/npx.py `safe_unit_norm`

Arrays of real numbers with one, two or three axes; sizes are given beside the numbers of an array with three axes, as numpy
knows them for empty arrays too.
-/

namespace Zounds.UnitNorm
open Zounds

/-- `np.linalg.norm(a)` and `np.sum(np.abs(a) ** 2) ** (1. / 2)` of one vector (npx.py:52, 57). -/
noncomputable def len (v : List ℝ) : ℝ := Real.sqrt ((v.map fun x => |x| ^ 2).sum)

/-- npx.py:51-55: arrays with one axis. -/
noncomputable def vector (v : List ℝ) : List ℝ :=
  open Classical in if len v ≠ 0 then v.map (· / len v) else v

/-- npx.py:57-62: the norm that a vector is divided by, one that is not zero. -/
noncomputable def divisor (v : List ℝ) : ℝ :=
  open Classical in if len v = 0 then -1000000000000 else len v

/-- npx.py:57-63: arrays with two axes; `norm[:, np.newaxis]` has one column. -/
noncomputable def rows (m : List (List ℝ)) : List (List ℝ) := m.map fun v => v.map (· / divisor v)

/-- An index of an axis that has one entry or as many as the result (numpy broadcasting). -/
def at1 (n i : Nat) : Nat := if n = 1 then 0 else i

/-- npx.py:57-63: an array of shape (a, b, c) divided by `norm[:, np.newaxis]`, of shape (a, 1, b).  numpy refuses last axes of different
sizes unless one of them is 1. -/
noncomputable def cube (b c : Nat) (m : List (List (List ℝ))) : Except PyErr (List (List (List ℝ))) :=
  if b = c ∨ b = 1 ∨ c = 1 then
    .ok (m.map fun plane => (List.range b).map fun j => (List.range (if c = 1 then b else c)).map fun k =>
      ((plane.getD j []).getD (at1 c k) 0) / divisor (plane.getD (at1 b k) []))
  else .error .valueError

end Zounds.UnitNorm
