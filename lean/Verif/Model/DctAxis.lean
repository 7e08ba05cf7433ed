import Verif.Model.Spectral

/-!
# zounds/learn/dct_transform.py `DctTransform` with an axis and with coefficients left out

A batch of any shape is the list of its rows along the last axis, each of `c` numbers; `n` is the size of the axis asked for.
-/

namespace Zounds.Spectral
open Zounds Finset

/-- dct_transform.py:47-56 `dct(x, axis)`: the basis has the size of the axis, but `torch.matmul(x, basis)` multiplies along the last axis, which must have that
size (RuntimeError otherwise; ZeroDivisionError for an axis without entries). -/
noncomputable def dctAlong (n c : ℕ) (rows : List (List ℝ)) : Except PyErr (List (List ℝ)) :=
  if n = 0 then .error .zeroDivision
  else if c ≠ n then .error .runtimeError
  else .ok (rows.map fun x => (List.range n).map fun j : ℕ => (∑ i ∈ range n, x.getD i 0 * dctBasis n i j) * Real.sqrt (2 / n))

/-- dct_transform.py:58-60 `idct(x, axis)`. -/
noncomputable def idctAlong (n c : ℕ) (rows : List (List ℝ)) : Except PyErr (List (List ℝ)) :=
  if n = 0 then .error .zeroDivision
  else if c ≠ n then .error .runtimeError
  else .ok (rows.map fun x => (List.range n).map fun j : ℕ => (∑ i ∈ range n, x.getD i 0 * dctBasis n j i) * Real.sqrt (2 / n))

/-- dct_transform.py:62-91 `dct_resample(x, factor, zero_slice=…)` of rows along the last axis: `n = int(factor * c)`, `zero` says which positions are in
`zero_slice`. -/
noncomputable def dctResampleZero (n c : ℕ) (zero : ℕ → Bool) (rows : List (List ℝ)) : Except PyErr (List (List ℝ)) :=
  match dctAlong c c rows with
  | .error e => .error e
  | .ok coeffs => idctAlong n n (coeffs.map fun x => (List.range n).map fun k => if zero k then 0 else x.getD k 0)

/-- dct_transform.py:62-91 `dct_resample(x, factor, axis=0, zero_slice=…)` of a matrix with `c` columns, `n = int(factor * len(x))`: both transforms are called
without the axis. -/
noncomputable def dctResampleFirst (n c : ℕ) (zero : ℕ → Bool) (rows : List (List ℝ)) : Except PyErr (List (List ℝ)) :=
  match dctAlong c c rows with
  | .error e => .error e
  | .ok coeffs => idctAlong c c ((List.range n).map fun i => if zero i then List.replicate c 0 else coeffs.getD i (List.replicate c 0))

end Zounds.Spectral
