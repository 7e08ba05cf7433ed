import Verif.Model.Filter
import Verif.Model.Bins

/-!
# Analysing windows, keeping a band, going back
-/

namespace Zounds.ToneFilter
open Zounds Zounds.Arr Zounds.Freq

/-- spectral.py:52-58 `FFT._process` of `n` windows of `w` samples: what is stored in memory is, row by row, the transform of the window.
(A statement about memory, for `fft` (functional.py:21-47) with `padding_samples = 0`; how numpy lays out the rows is left open.) -/
def Holds (m : Mem ℂ) (a : Awu (LibDim ℚ) Nat) (n : Nat) (windows : Nat → List ℝ) : Prop :=
  ∀ i < n, ∃ row, Spectral.zfft (windows i) 0 = .ok row ∧ ∀ j < row.length, (m.read a).get [i, j] = row.getD j 0

/-- synthesize.py:101-102 `FFTSynthesizer._transform` of row `i`. -/
noncomputable def back (m : Mem ℂ) (a : Awu (LibDim ℚ) Nat) (width i : Nat) : Except PyErr (List ℝ) :=
  Spectral.irfft ((List.range width).map fun j => (m.read a).get [i, j])

end Zounds.ToneFilter
