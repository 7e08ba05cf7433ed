import Verif.Model.Spectral

/-!
# zounds/spectral/functional.py: `auto_correlogram`

Real and complex numbers stand for floats (the single precision of the padded array is not modelled); `np.fft` is trusted as in
`Verif.Model.Spectral`.
-/

namespace Zounds.Correlogram
open Finset

/-- `np.fft.fft(a, norm='ortho')`. -/
noncomputable def fftOrtho (a : List ℂ) : List ℂ := (Spectral.fft a a.length).map fun z => ((1 / Real.sqrt a.length : ℝ) : ℂ) * z

/-- `np.fft.ifft(X, norm='ortho')`. -/
noncomputable def ifftOrtho (X : List ℂ) : List ℂ :=
  (List.range X.length).map fun t : ℕ => ((1 / Real.sqrt X.length : ℝ) : ℂ) *
    ∑ k ∈ range X.length, X.getD k 0 * Complex.exp (2 * Real.pi * Complex.I * t * k / X.length)

/-- functional.py:366-377, one window of one filter: padded to twice its length, transformed, squared, transformed back, halves exchanged. -/
noncomputable def correlate (p : List ℝ) : List ℂ :=
  let padded := (p ++ List.replicate p.length 0).map fun v : ℝ => (v : ℂ)
  let coeffs := fftOrtho padded
  let c := ifftOrtho (coeffs.map fun z => ((‖z‖ ^ 2 : ℝ) : ℂ))
  c.drop p.length ++ c.take p.length

/-- functional.py:355-357: `windowed` and `filtered`, `np.dot` of every window of samples with every filter. -/
def filtered (x : List ℝ) (bank : List (List ℝ)) (size : ℕ) : List (List ℝ) :=
  (List.range (x.length - size + 1)).map fun t : ℕ => bank.map fun f => ∑ k ∈ range size, x.getD (t + k) 0 * f.getD k 0

/-- functional.py:350-376 `auto_correlogram`: `size` is `filter_bank.shape[1]`, `window` and `frequency` are the correlation window and the period of
the samples.  `sliding_window` refuses windows larger than the array (ValueError), `np.fft` refuses no samples (ValueError); the second axis of the
result has size one.  Float division of the two times is exact.  The result is indexed by window, 0, lag, filter. -/
noncomputable def autoCorrelogram (x : List ℝ) (bank : List (List ℝ)) (size : ℕ) (window frequency : ℤ) :
    Except PyErr (List (List (List (List ℂ)))) :=
  let w := (window / frequency).toNat
  if x.length < size then .error .valueError
  else
    let fs := filtered x bank size
    if fs.length < w then .error .valueError
    else if w = 0 then .error .valueError
    else .ok ((List.range (fs.length - w + 1)).map fun t : ℕ =>
      let rows := (fs.drop t).take w
      let cols := (List.range bank.length).map fun b : ℕ => correlate (rows.map fun r => r.getD b 0)
      [(List.range (2 * w)).map fun i : ℕ => cols.map fun c => c.getD i 0])

end Zounds.Correlogram
