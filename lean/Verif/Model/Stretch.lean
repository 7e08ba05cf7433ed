import Verif.Model.Spectral
import Mathlib.Algebra.Order.Round
import Mathlib.Algebra.Order.Floor.Ring
import Mathlib.Analysis.SpecialFunctions.Complex.Arg
import Mathlib.Analysis.SpecialFunctions.Pow.Real

/-!
# zounds/spectral/functional.py: `time_stretch` and `pitch_shift`

One row of the batch at a time.  Real numbers stand for floats.
-/

namespace Zounds.Spectral
open Finset

/-- `np.round`: halves go to the even neighbour. -/
noncomputable def npRound (x : ℝ) : ℤ := if Int.fract x = 1 / 2 then (if Even ⌊x⌋ then ⌊x⌋ else ⌊x⌋ + 1) else round x

/-- functional.py:49-68 `stft` of one row: every `hop` samples a window of `wl` samples (samples that do not fill a window are dropped),
weighted and transformed. -/
noncomputable def stftRow (x : List ℝ) (hop wl : ℕ) (win : List ℝ) : Except PyErr (List (List ℂ)) :=
  ((List.range ((x.length - wl) / hop + 1)).map fun i => List.zipWith (· * ·) ((x.drop (i * hop)).take wl) win).mapM rfft

/-- functional.py:115: `np.arange(0, n_frames, factor)` has `⌈n_frames / factor⌉` elements, the multiples of `factor`. -/
noncomputable def nSteps (frames : ℕ) (factor : ℝ) : ℕ := ⌈(frames : ℝ) / factor⌉₊

/-- functional.py:117, 121-143, 155-157, coefficient `k` of the new frames, from the frames `D` (two frames of zeros are appended): magnitudes
interpolated between the frame at time step `i` and the next one, phases accumulated from the phase advances. `adv` is
`exp_phase_advance[k]`. -/
noncomputable def newMag (D : List (List ℂ)) (factor : ℝ) (k i : ℕ) : ℝ :=
  (1 - Int.fract (i * factor)) * ‖(D.getD ⌊(i * factor : ℝ)⌋₊ []).getD k 0‖ +
    Int.fract (i * factor) * ‖(D.getD (⌊(i * factor : ℝ)⌋₊ + 1) []).getD k 0‖

/-- functional.py:137-149: the phase advance of step `i`, wrapped around the expected advance. -/
noncomputable def phaseAdvance (D : List (List ℂ)) (factor adv : ℝ) (k i : ℕ) : ℝ :=
  let first := ((D.getD ⌊(i * factor : ℝ)⌋₊ []).getD k 0).arg
  let second := ((D.getD (⌊(i * factor : ℝ)⌋₊ + 1) []).getD k 0).arg
  let d := second - first - adv
  d - 2 * Real.pi * npRound (d / (2 * Real.pi)) + adv

/-- functional.py:132, 151-153: the first phase and the cumulative sum of the advances. -/
noncomputable def newPhase (D : List (List ℂ)) (factor adv : ℝ) (k i : ℕ) : ℝ :=
  ((D.getD 0 []).getD k 0).arg + ∑ j ∈ range i, phaseAdvance D factor adv k j

/-- functional.py:119 `np.linspace(0, np.pi * hop_length, n_fft_coeffs)`. -/
noncomputable def expectedAdvance (hop n k : ℕ) : ℝ := Real.pi * hop * k / ((n : ℝ) - 1)

/-- functional.py:160: the new frames of `n` coefficients. -/
noncomputable def newCoeffs (D : List (List ℂ)) (factor : ℝ) (hop n : ℕ) : List (List ℂ) :=
  (List.range (nSteps D.length factor)).map fun i => (List.range n).map fun k =>
    (newMag D factor k i : ℂ) * Complex.exp (Complex.I * newPhase D factor (expectedAdvance hop n k) k i)

/-- functional.py:169-175: the new frames added into `n` samples of silence, `hop` samples apart, cut off at the end. -/
noncomputable def addFramesInto (frames : List (List ℝ)) (hop n : ℕ) : List ℝ :=
  (List.range n).map fun t => ∑ i ∈ range frames.length,
    if i * hop ≤ t then (frames.getD i []).getD (t - i * hop) 0 else 0

/-- functional.py:94-177 `time_stretch` of one row; `win` are the coefficients of the Hann window of `wl` samples.  `factor` is positive
and the row is at least one window long (otherwise numpy refuses somewhere on the way). -/
noncomputable def timeStretch (x : List ℝ) (factor : ℝ) (hop wl : ℕ) (win : ℕ → List ℝ) : Except PyErr (List ℝ) :=
  if factor ≤ 0 ∨ x.length < wl ∨ hop = 0 then .error .valueError
  else match stftRow x hop wl (win wl) with
    | .error e => .error e
    | .ok D =>
      match (newCoeffs D factor hop (wl / 2 + 1)).mapM irfft with
      | .error e => .error e
      | .ok fs =>
        let frames := fs.map fun f => List.zipWith (· * ·) f (win f.length)
        .ok (addFramesInto frames hop ⌊(x.length : ℝ) / factor⌋₊)

/-- `scipy.signal.hann(n)`: symmetric, `1/2 - 1/2 cos(2 π i / (n - 1))`. -/
noncomputable def hann (n : ℕ) : List ℝ :=
  if n = 1 then [1] else (List.range n).map fun i : ℕ => 1 / 2 - 1 / 2 * Real.cos (2 * Real.pi * i / ((n : ℝ) - 1))

/-- functional.py:185 `pitch_shift`: `2 ** (-semitones / 12)`. -/
noncomputable def pitchFactor (semitones : ℝ) : ℝ := (2 : ℝ) ^ (-semitones / 12)

/-- functional.py:191-209, the part after the time stretch, of one row: zeros up to the next multiple of 1024 samples (a whole 1024 when
it is one already), every 1024 samples resampled to `int(1024 * factor)`, one after the other, cut to the original number of samples.
`resample` is scipy's. -/
noncomputable def resampleWindows (resample : List ℝ → ℕ → List ℝ) (stretched : List ℝ) (factor : ℝ) (original : ℕ) : List ℝ :=
  let padded := stretched ++ List.replicate (1024 - stretched.length % 1024) 0
  let windows := (List.range (padded.length / 1024)).map fun i => (padded.drop (i * 1024)).take 1024
  ((windows.map fun w => resample w ⌊1024 * factor⌋₊).flatten).take original

/-- functional.py:180-211 `pitch_shift` of one row. -/
noncomputable def pitchShift (resample : List ℝ → ℕ → List ℝ) (x : List ℝ) (semitones : ℝ) (hop wl : ℕ) (win : ℕ → List ℝ) :
    Except PyErr (List ℝ) :=
  match timeStretch x (pitchFactor semitones) hop wl win with
  | .error e => .error e
  | .ok s => .ok (resampleWindows resample s (pitchFactor semitones) x.length)

end Zounds.Spectral
