import Verif.Model.Tones
import Verif.Model.Bins

/-!
# Analysing a window of a synthesized sound
-/

namespace Zounds.SineSpectrum
open Zounds Zounds.Freq Zounds.Time

/-- spectral.py:52-58 `FFT._process` of the window of `w` samples of a sound that starts at sample `o`: the coefficients and their scale. -/
noncomputable def windowSpectrum (xs : List ℝ) (r : SampleRate) (o w : Nat) : Except PyErr (List ℂ × Scale ℚ) :=
  Bins.fftNode r.frequency ((xs.drop o).take w) 0

end Zounds.SineSpectrum
