import Verif.Model.Loss
import Verif.Model.Spectral

/-!
# zounds/learn/loss.py `BandLoss` with the decomposition of zounds/learn/dct_transform.py
-/

namespace Zounds.BandLoss
open Zounds Zounds.Spectral Zounds.Loss

/-- dct_transform.py:95-104 `sorted(factors)` and `int(factor * full_size)` for every factor but the leading zero.  The factors are exact numbers here: the
rounding of the product in floating point is not modelled (nor are factors that are not positive). -/
def bandStops (factors : List ℚ) (n : ℕ) : List ℕ := (factors.mergeSort fun a b => decide (a ≤ b)).map fun f : ℚ => (f * (n : ℚ)).floor.toNat

/-- dct_transform.py:93-117 the bands of a row when there are any. -/
noncomputable def bandsOf (factors : List ℚ) (x : List ℝ) : List (List ℝ) :=
  match torchDecompose x (bandStops factors x.length) with
  | .ok bands => bands
  | .error _ => []

/-- loss.py:118-148 `BandLoss(factors, weight)(input, target)` of a batch of pairs of rows of one length: the decomposition of the inputs, of the targets, and
the loss of the features. -/
noncomputable def bandLossDct (factors : List ℚ) (weight : ℝ) (batch : List (List ℝ × List ℝ)) : Except PyErr ℝ :=
  match batch.mapM fun p => torchDecompose p.1 (bandStops factors p.1.length) with
  | .error e => .error e
  | .ok _ =>
    match batch.mapM fun p => torchDecompose p.2 (bandStops factors p.2.length) with
    | .error e => .error e
    | .ok _ => .ok (bandLoss (bandsOf factors) weight batch)

end Zounds.BandLoss
