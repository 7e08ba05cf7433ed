import Verif.Model.Base
import Mathlib.Analysis.SpecialFunctions.Log.Base

/-!
# zounds/spectral/weighting.py: frequency weightings, and the dimensions' part in them (tfrepresentation.py)

Real numbers stand for floats.
-/

namespace Zounds.Weighting
open Zounds

/-- weighting.py:73-80: the weighting of one centre frequency, before the least is subtracted.  The centre frequencies are not zero
(the logarithm of zero is `-inf` in numpy). -/
noncomputable def aResult (hz : ℝ) : ℝ :=
  let cf := hz ^ 2
  let a := 12200 ^ 2 * cf ^ 2
  let b := cf + (20.6 : ℝ) ^ 2
  let c := cf + (107.7 : ℝ) ^ 2
  let d := cf + (737.9 : ℝ) ^ 2
  let e := cf + 12200 ^ 2
  let f := a / (b * Real.sqrt (c * d) * e)
  2 + 20 * Real.logb 10 f

/-- `np.min`. -/
noncomputable def npMin : List ℝ → Except PyErr ℝ
  | [] => .error .valueError
  | x :: xs => .ok (xs.foldl min x)

/-- weighting.py:72-81 `AWeighting._wdata`, given the scale's centre frequencies. -/
noncomputable def aWeights (centres : List ℝ) : Except PyErr (List ℝ) :=
  let result := centres.map aResult
  match npMin result with
  | .error e => .error e
  | .ok m => .ok (result.map fun r => 1 + (r - m))

/-- weighting.py:12-13 `FrequencyWeighting._wdata`: a one for every band. -/
def ones (centres : List ℝ) : Except PyErr (List ℝ) := .ok (List.replicate centres.length 1)

/-- The dimensions of an array, as far as weightings look at them: without a `scale`, a `FrequencyDimension`, or an
`ExplicitFrequencyDimension` with its slices; scales by their centre frequencies. -/
inductive WDim where
  | plain
  | freq (centres : List ℝ)
  | explicit (centres : List ℝ) (slices : List (Nat × Nat))

/-- `w[sl] = weight`. -/
def assign (w : List ℝ) (sl : Nat × Nat) (weight : ℝ) : List ℝ := w.mapIdx fun i x => if sl.1 ≤ i ∧ i < sl.2 then weight else x

/-- tfrepresentation.py:109-113 `ExplicitFrequencyDimension.weights`. -/
def explicitWeights (weights : List ℝ) (slices : List (Nat × Nat)) : Except PyErr (List ℝ) :=
  match slices.head?, slices.getLast? with
  | some f, some l =>
    if l.2 < f.1 then .error .valueError
    else .ok ((List.zip weights slices).foldl (fun w p => assign w p.2 p.1) (List.replicate (l.2 - f.1) 0))
  | _, _ => .error .indexError

/-- weighting.py:27-36 `_get_factors` with `FrequencyDimension.weights` (tfrepresentation.py:43-46): the axis the factors lie along, and
the factors, from the first dimension that has a scale; those of an explicit frequency dimension lie along the last axis
whatever its place.  `ndim` is the number of axes, `i` the number of the first dimension given. -/
def getFactors (W : List ℝ → Except PyErr (List ℝ)) (ndim : Nat) : Nat → List WDim → Except PyErr (Nat × List ℝ)
  | _, [] => .error .valueError
  | i, .plain :: ds => getFactors W ndim (i + 1) ds
  | i, .freq c :: _ =>
    match W c with
    | .error e => .error e
    | .ok w => .ok (i, w)
  | _, .explicit c sl :: _ =>
    match W c with
    | .error e => .error e
    | .ok w =>
      match explicitWeights w sl with
      | .error e => .error e
      | .ok x => .ok (ndim - 1, x)

/-- An array with units: its dimensions, its shape and its entries, given by an index for every axis. -/
structure Arr where
  dims : List WDim
  shape : List Nat
  data : List Nat → ℝ

/-- The factor for an index along the axis; a single factor is for all. -/
def factorAt (w : List ℝ) (i : Nat) : ℝ := if w.length = 1 then w.getD 0 0 else w.getD i 0

/-- weighting.py:38-48 `__array_ufunc__` of `np.multiply` and `np.divide`; `op x w` combines an entry with a factor.  Factors that fit
neither the axis nor number one do not broadcast (an axis of size one, which would be stretched, is not modelled: a
ValueError here). -/
def apply (op : ℝ → ℝ → ℝ) (W : List ℝ → Except PyErr (List ℝ)) (arr : Arr) : Except PyErr Arr :=
  match getFactors W arr.shape.length 0 arr.dims with
  | .error e => .error e
  | .ok (axis, w) =>
    if w.length = arr.shape.getD axis 0 ∨ w.length = 1 then
      .ok { arr with data := fun idx => op (arr.data idx) (factorAt w (idx.getD axis 0)) }
    else .error .valueError

/-- `arr * weighting` (and, multiplication being commutative, `weighting * arr`). -/
def times (W : List ℝ → Except PyErr (List ℝ)) (arr : Arr) : Except PyErr Arr := apply (fun x w => x * w) W arr

/-- `arr / weighting`. -/
noncomputable def over (W : List ℝ → Except PyErr (List ℝ)) (arr : Arr) : Except PyErr Arr := apply (fun x w => x / w) W arr

/-- weighting.py:40-42: `weighting * arr`, the factors first. -/
def timesLeft (W : List ℝ → Except PyErr (List ℝ)) (arr : Arr) : Except PyErr Arr := apply (fun x w => w * x) W arr

/-- weighting.py:15-25 `weights(other)` for an array: `_wdata(other)` is tried first.  `AWeighting`'s raises AttributeError for an array
(it has no `center_frequencies`), and the scale of the last dimension is used; the base class's does not: it gives a one for every
item along the array's first axis. -/
def weightsOfArray (isA : Bool) (W : List ℝ → Except PyErr (List ℝ)) (arr : Arr) : Except PyErr (List ℝ) :=
  if isA then
    match arr.dims.getLast? with
    | some (.freq c) => W c
    | some (.explicit c _) => W c
    | some .plain => .error .attributeError
    | none => .error .indexError
  else .ok (List.replicate (arr.shape.getD 0 0) 1)

end Zounds.Weighting
