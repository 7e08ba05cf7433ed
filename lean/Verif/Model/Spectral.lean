import Verif.Model.Synth
import Verif.Model.WindowFunc
import Mathlib.Analysis.SpecialFunctions.Trigonometric.Basic
import Mathlib.Analysis.SpecialFunctions.Complex.Log
import Mathlib.Analysis.SpecialFunctions.Sqrt

/-!
# zounds/spectral/functional.py, spectral.py, zounds/synthesize/synthesize.py, zounds/learn/dct_transform.py: transforms

Real and complex numbers stand for floats.  `np.fft` is trusted to compute the discrete Fourier transform as its documentation
defines it.  One row at a time: the functions act on the last axis of an array.
-/

namespace Zounds.Spectral
open Finset

/-- `np.fft.fft(a, n)`: `a` cut or zero padded to `n` samples, `∑ a_t exp(-2 π i t k / n)`. -/
noncomputable def fft (a : List ℂ) (n : ℕ) : List ℂ :=
  (List.range n).map fun k : ℕ => ∑ t ∈ range n, a.getD t 0 * Complex.exp (-2 * Real.pi * Complex.I * t * k / n)

/-- `np.fft.rfft(x, norm='ortho')` of real samples: the first `n // 2 + 1` coefficients, over `√n`.  No samples: ValueError. -/
noncomputable def rfft (x : List ℝ) : Except PyErr (List ℂ) :=
  if x = [] then .error .valueError
  else .ok ((List.range (x.length / 2 + 1)).map fun k : ℕ =>
    (1 / Real.sqrt x.length : ℝ) * ∑ t ∈ range x.length, (x.getD t 0 : ℂ) * Complex.exp (-2 * Real.pi * Complex.I * t * k / x.length))

/-- `np.fft.irfft(X, norm='ortho')` with the default output length `n = 2 (m - 1)`: the coefficients are extended by conjugates,
the imaginary parts of the first and the last are ignored.  `m ≤ 1`: ValueError. -/
noncomputable def irfft (X : List ℂ) : Except PyErr (List ℝ) :=
  if X.length ≤ 1 then .error .valueError
  else
    let h := X.length - 1
    .ok ((List.range (2 * h)).map fun t : ℕ => 1 / Real.sqrt (2 * h : ℕ) *
      ((X.getD 0 0).re + (X.getD h 0).re * (-1) ^ t +
        ∑ k ∈ range (h - 1), 2 * (X.getD (k + 1) 0 * Complex.exp (2 * Real.pi * Complex.I * (k + 1) * t / (2 * h : ℕ))).re))

/-- functional.py:33-46 `fft`, the numbers of one window: `padding_samples` zeros are appended, then `rfft`. -/
noncomputable def zfft (x : List ℝ) (padding : ℕ) : Except PyErr (List ℂ) := rfft (x ++ List.replicate padding 0)

/-! ## MDCT -/

/-- functional.py:71-81 `mdct` of one window.  An odd number of samples does not broadcast against `2 * l` factors and no samples
cannot be transformed: ValueError. -/
noncomputable def mdct (data : List ℝ) : Except PyErr (List ℝ) :=
  if data.length % 2 = 1 ∨ data = [] then .error .valueError
  else
    let l := data.length / 2
    let a : List ℂ := (List.range (2 * l)).map fun t : ℕ => (data.getD t 0 : ℂ) * Complex.exp (-Complex.I * Real.pi * t / 2 / l)
    let b := fft a (2 * l)
    let c := b.take l
    .ok ((List.range l).map fun f : ℕ => Real.sqrt (2 / l) *
      (c.getD f 0 * Complex.exp (-Complex.I * Real.pi * (f + 1 / 2) * (l + 1) / 2 / l)).re)

/-- functional.py:84-91 `imdct`, and synthesize.py:274-281 `MDCTSynthesizer._transform`, of one frame. No coefficients: ValueError. -/
noncomputable def imdct (frame : List ℝ) : Except PyErr (List ℝ) :=
  if frame = [] then .error .valueError
  else
    let l := frame.length
    let a : List ℂ := (List.range l).map fun f : ℕ =>
      (frame.getD f 0 : ℂ) * Complex.exp (-Complex.I * Real.pi * (f + 1 / 2) * (l + 1) / 2 / l)
    let b := fft a (2 * l)
    .ok ((List.range (2 * l)).map fun t : ℕ => Real.sqrt (2 / l) * (b.getD t 0 * Complex.exp (-Complex.I * Real.pi * t / 2 / l)).re)

/-- synthesize.py:45-48 with 271-281, `MDCTSynthesizer.synthesize`: every frame inverted, weighted by the ogg vorbis window and
overlap-added. -/
noncomputable def mdctSynthesize (f : Synth.Frames ℝ) : Except PyErr (List ℝ) :=
  match f.rows.mapM imdct with
  | .error e => .error e
  | .ok ys => Synth.overlapAdd (some (WindowFunc.oggvorbis (2 * f.n))) ⟨f.td, 2 * f.n, ys⟩

/-- synthesize.py:45-48 with 98-102, `FFTSynthesizer.synthesize`: `f.rows` are frames of `f.n` coefficients. -/
noncomputable def fftSynthesize (f : Synth.Frames ℂ) : Except PyErr (List ℝ) :=
  match f.rows.mapM irfft with
  | .error e => .error e
  | .ok ys => Synth.overlapAdd (some (WindowFunc.oggvorbis (2 * (f.n - 1)))) ⟨f.td, 2 * (f.n - 1), ys⟩

/-! ## DCT (type II) -/

/-- `scipy.fftpack.dct(x, norm='ortho')` (spectral.py:81): `√(2/n) ∑ x_t cos(π k (2t + 1) / 2n)`, the first coefficient over `√2`.
No samples: ValueError. -/
noncomputable def scipyDct (x : List ℝ) : Except PyErr (List ℝ) :=
  if x = [] then .error .valueError
  else .ok ((List.range x.length).map fun k : ℕ => (if k = 0 then Real.sqrt (1 / x.length) else Real.sqrt (2 / x.length)) *
    ∑ t ∈ range x.length, x.getD t 0 * Real.cos (Real.pi * k * (2 * t + 1) / (2 * x.length)))

/-- `scipy.fftpack.idct(X, norm='ortho')` (synthesize.py:160, `DCTSynthesizer._transform`), the type III transform:
`X_0 / √n + √(2/n) ∑ X_k cos(π k (2t + 1) / 2n)`. -/
noncomputable def scipyIdct (X : List ℝ) : Except PyErr (List ℝ) :=
  if X = [] then .error .valueError
  else .ok ((List.range X.length).map fun t : ℕ =>
    ∑ k ∈ range X.length, (if k = 0 then Real.sqrt (1 / X.length) else Real.sqrt (2 / X.length)) *
      X.getD k 0 * Real.cos (Real.pi * k * (2 * t + 1) / (2 * X.length)))

/-- synthesize.py:45-48 with 152-160, `DCTSynthesizer.synthesize`; `w` is the windowing function. -/
noncomputable def dctSynthesize (w : Option (List ℝ)) (f : Synth.Frames ℝ) : Except PyErr (List ℝ) :=
  match f.rows.mapM scipyIdct with
  | .error e => .error e
  | .ok ys => Synth.overlapAdd w ⟨f.td, f.n, ys⟩

/-! ## DCT-IV -/

/-- spectral.py:109-117 `DCTIV._process_raw` of one window, which is also what `DCTIVSynthesizer` (synthesize.py:217-218) applies: the
array `z` is real, only the real part of the first product goes into it. -/
noncomputable def dctiv (data : List ℝ) : Except PyErr (List ℝ) :=
  if data = [] then .error .valueError
  else
    let l := data.length
    let z : List ℂ := (List.range l).map fun t : ℕ =>
      (((data.getD t 0 : ℂ) * Complex.exp (-Complex.I * Real.pi * t / 2 / l)).re : ℂ)
    let z2 := (fft z (2 * l)).take l
    .ok ((List.range l).map fun k : ℕ => Real.sqrt (2 / l) *
      (z2.getD k 0 * Complex.exp (-Complex.I * Real.pi * (k + 1 / 2) / 2 / l)).re)

/-! ## DCT by matrix multiplication -/

/-- functional.py:381-385 `dct_basis`. -/
noncomputable def dctBasis (size i j : ℕ) : ℝ := Real.cos (Real.pi / size * ((i : ℝ) * ((j : ℝ) + 1 / 2)))

/-- dct_transform.py:47-56 `DctTransform.dct` of one row: `matmul(x, basis) * sqrt(2 / n)`.  (Without samples the division `2. / 0`
raises.) -/
noncomputable def torchDct (x : List ℝ) : Except PyErr (List ℝ) :=
  if x = [] then .error .zeroDivision
  else .ok ((List.range x.length).map fun j : ℕ => (∑ i ∈ range x.length, x.getD i 0 * dctBasis x.length i j) * Real.sqrt (2 / x.length))

/-- dct_transform.py:58-60 `DctTransform.idct`: the transposed basis. -/
noncomputable def torchIdct (x : List ℝ) : Except PyErr (List ℝ) :=
  if x = [] then .error .zeroDivision
  else .ok ((List.range x.length).map fun j : ℕ => (∑ i ∈ range x.length, x.getD i 0 * dctBasis x.length j i) * Real.sqrt (2 / x.length))

/-- dct_transform.py:62-91 `dct_resample` of one row, `n` the new number of samples (`int(factor * len)`) and no `zero_slice`. -/
noncomputable def dctResample (x : List ℝ) (n : ℕ) : Except PyErr (List ℝ) :=
  match torchDct x with
  | .error e => .error e
  | .ok c => torchIdct ((List.range n).map fun k : ℕ => c.getD k 0)

/-- dct_transform.py:93-117 `frequency_decomposition` of one row: `stops` are the numbers `int(factor * full_size)` of the sorted
factors; band `i` is the inverse transform of the coefficients from the previous stop up to its own, zeros below.  `available` is the number of
coefficients there are from the previous stop up to its own: with stops beyond the number of coefficients (factors above one) torch refuses
the assignment of fewer numbers (RuntimeError), except of a single one, which it repeats.  An empty band is a ZeroDivisionError of `idct`. -/
noncomputable def torchDecompose (x : List ℝ) (stops : List ℕ) : Except PyErr (List (List ℝ)) :=
  match torchDct x with
  | .error e => .error e
  | .ok c => (List.zip (0 :: stops) stops).mapM fun p =>
      let available := min p.2 x.length - p.1
      if available ≠ p.2 - p.1 ∧ available ≠ 1 then .error .runtimeError
      else torchIdct ((List.range p.2).map fun k : ℕ => if p.1 ≤ k then c.getD (if available = 1 then p.1 else k) 0 else 0)

/-- dct_transform.py:37-45 `window`: coefficients are cached by size alone.  The cache maps sizes to coefficients; `w` is the windowing
function passed in. -/
def cachedWindow {β : Type} (cache : List (ℕ × List β)) (n : ℕ) (w : ℕ → List β) : List (ℕ × List β) × List β :=
  match cache.lookup n with
  | some c => (cache, c)
  | none => ((n, w n) :: cache, w n)

/-- dct_transform.py:119-126 `short_time_dct` of one item of a batch of shape `(batch, 1, n)`: windows of `size` samples every `step`
samples (`unfold`), weighted, transformed, and viewed as `(size, number of windows)`, that is cut anew into rows of as many numbers
as there are windows.  `window` are the coefficients.  Too short a signal: RuntimeError. -/
noncomputable def shortTimeDct (x : List ℝ) (size step : ℕ) (window : List ℝ) : Except PyErr (List (List ℝ)) :=
  if x.length < size ∨ step = 0 ∨ size = 0 then .error .runtimeError
  else
    let nwin := (x.length - size) / step + 1
    match ((List.range nwin).map fun i => List.zipWith (· * ·) ((x.drop (i * step)).take size) window).mapM torchDct with
    | .error e => .error e
    | .ok c =>
      let flat := c.flatten
      .ok ((List.range size).map fun i => (List.range nwin).map fun j => flat.getD (i * nwin + j) 0)

/-! ## phase_shift -/

/-- functional.py:214-237 `phase_shift` of one row of coefficients, over the whole frequency axis; `shift` is the number of samples,
`int(time_shift / samplerate.frequency)`. -/
noncomputable def phaseShift (coeffs : List ℂ) (shift : ℤ) : List ℂ :=
  (List.range coeffs.length).map fun k : ℕ =>
    coeffs.getD k 0 * Complex.exp (-(k * 2 * Complex.I * Real.pi / coeffs.length) * shift)

end Zounds.Spectral
