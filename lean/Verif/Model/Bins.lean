import Verif.Model.Spectral
import Verif.Model.Frequency
import Verif.Model.Float64

/-!
# The coefficients of a spectrum together with the scale that is attached to them
-/

namespace Zounds.Bins
open Zounds Zounds.Time Zounds.Freq

/-- frequencyscale.py:387-398 `LinearScale.from_sample_rate`. -/
def fromSampleRate (sr : SampleRate) (nBands : Nat) : Scale ℚ := .linear ⟨0, (sr.nyquist : ℚ)⟩ nBands false

/-- functional.py:21-47 `fft` (and the node `FFT`, spectral.py:52-58) of one window of samples that are `frequency` picoseconds apart: the coefficients and their scale.
`Seconds(1) / frequency` is taken as an exact quotient. -/
noncomputable def fftNode (frequency : Int) (x : List ℝ) (padding : Nat) : Except PyErr (List ℂ × Scale ℚ) :=
  match Spectral.zfft x padding with
  | .error e => .error e
  | .ok cs =>
    match findRate (10 ^ 12 / frequency) with
    | .error e => .error e
    | .ok sr => .ok (cs, fromSampleRate sr cs.length)

/-- spectral.py:80-90 `DCT._process` of one window of `x.length` samples that are `frequency` picoseconds apart.  Simplification: the rate found is that of exact arithmetic (C321 is about the
one found in double precision). -/
noncomputable def dctNode (frequency : Int) (x : List ℝ) : Except PyErr (List ℝ × Scale ℚ) :=
  match Spectral.scipyDct x with
  | .error e => .error e
  | .ok cs =>
    match findRate (10 ^ 12 / frequency) with
    | .error e => .error e
    | .ok sr => .ok (cs, fromSampleRate sr cs.length)

end Zounds.Bins
