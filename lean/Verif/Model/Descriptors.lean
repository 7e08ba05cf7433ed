import Verif.Model.Spectral
import Mathlib.Analysis.SpecialFunctions.Log.Basic

/-!
# zounds/spectral/spectral.py:265-335: spectral centroid, spectral flatness and Bark frequency cepstral coefficients

Real numbers stand for floats.  One frame (row) at a time: the nodes act on the last of two axes.  Frames are not empty.
-/

namespace Zounds.Descriptors
open Zounds

/-- spectral.py:280-286 `SpectralCentroid`: the bins are numbered from one; `∑ |x_j| (j + 1) / ∑ (j + 1)`. -/
noncomputable def centroid (row : List ℝ) : ℝ :=
  let bins : List ℝ := (List.range row.length).map fun j : ℕ => ((j : ℝ) + 1)
  (List.zipWith (fun x b => |x| * b) row bins).sum / bins.sum

/-- `scipy.stats.gmean`: `exp(mean(log(a)))`; the logarithm of zero is `-inf`, and `exp(-inf)` zero. -/
noncomputable def gmean (row : List ℝ) : ℝ :=
  if 0 ∈ row then 0 else Real.exp ((row.map Real.log).sum / (row.length : ℝ))

/-- spectral.py:311-316 `SpectralFlatness`: a mean of zero is replaced by `-1e5`. -/
noncomputable def flatness (row : List ℝ) : ℝ :=
  let data := row.map fun x => |x|
  let mean := data.sum / (data.length : ℝ)
  gmean data / (if mean = 0 then -100000 else mean)

/-- nputil/npx.py:36-44 `safe_log` of numbers that are not negative (these are absolute values); `floor` is `1e-12`. -/
noncomputable def safeLog (floor : ℝ) (row : List ℝ) : List ℝ := row.map fun x => Real.log (x + floor)

/-- `scipy.fftpack.dct(x)` without normalisation: `2 ∑ x_t cos(π k (2t + 1) / 2n)`. -/
noncomputable def rawDct (x : List ℝ) : List ℝ :=
  (List.range x.length).map fun k : ℕ =>
    2 * ∑ t ∈ Finset.range x.length, x.getD t 0 * Real.cos (Real.pi * k * (2 * t + 1) / (2 * x.length))

/-- spectral.py:329-335 `BFCC` with `exclude` and `n_coeffs` not negative: coefficients `exclude` to `exclude + n_coeffs`. -/
noncomputable def bfcc (floor : ℝ) (nCoeffs exclude : ℕ) (row : List ℝ) : List ℝ :=
  ((rawDct (safeLog floor (row.map fun x => |x|))).take (exclude + nCoeffs)).drop exclude

end Zounds.Descriptors
