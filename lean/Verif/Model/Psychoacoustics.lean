import Verif.Model.Frequency
import Mathlib.Analysis.SpecialFunctions.Pow.Real
/-!
# Perceptual frequency scales (`zounds/spectral/frequencyscale.py:420-584`) over the reals

`np.e` is Euler's number; float rounding is not modelled.
-/

namespace Zounds.Psycho
open Zounds Zounds.Freq

/-- `Bark.to_hz` (frequencyscale.py:520-522). -/
noncomputable def barkToHz (bark : ℝ) : ℝ := 300 * (Real.exp (bark / 6) - Real.exp (-bark / 6))

/-- `Bark.to_bark` (frequencyscale.py:524-526). -/
noncomputable def hzToBark (hz : ℝ) : ℝ := 6 * Real.log (hz / 600 + Real.sqrt ((hz / 600) ^ 2 + 1))

/-- `Mel.to_hz` (frequencyscale.py:553-555). -/
noncomputable def melToHz (mel : ℝ) : ℝ := 700 * (Real.exp (mel / 1127) - 1)

/-- `Mel.to_mel` (frequencyscale.py:557-559). -/
noncomputable def hzToMel (hz : ℝ) : ℝ := 1127 * Real.log (1 + hz / 700)

/-- `np.linspace(start, stop, n)` (used at frequencyscale.py:540, 569). -/
noncomputable def linspace (start stop : ℝ) (n : Nat) : List ℝ :=
  (List.range n).map fun (k : Nat) => start + k * ((stop - start) / ((n : ℝ) - 1))

/-- `np.geomspace(start, stop, num=n)` (used at frequencyscale.py:463), positive arguments. -/
noncomputable def geomspace (start stop : ℝ) (n : Nat) : List ℝ :=
  (List.range n).map fun (k : Nat) => start * (stop / start) ^ ((k : ℝ) / ((n : ℝ) - 1))

/-- The centre frequencies of `BarkScale._compute_bands` (frequencyscale.py:537-541). -/
noncomputable def barkCenters (b : Band ℝ) (n : Nat) : List ℝ :=
  (linspace (hzToBark b.start) (hzToBark b.stop) n).map barkToHz

/-- The centre frequencies of `MelScale._compute_bands` (frequencyscale.py:566-570). -/
noncomputable def melCenters (b : Band ℝ) (n : Nat) : List ℝ :=
  (linspace (hzToMel b.start) (hzToMel b.stop) n).map melToHz

/-- The numerical routines of the frequency model, over the reals. -/
noncomputable def realExt : NumExt ℝ := ⟨geomspace, barkCenters, melCenters⟩

/-- `ChromaScale._semitones_to_hz` (frequencyscale.py:589-590). -/
noncomputable def semitonesToHz (semitone : ℝ) : ℝ := 440 * ((2 : ℝ) ^ ((1 : ℝ) / 12)) ^ semitone

/-- `ChromaScale._hz_to_semitones` (frequencyscale.py:592-597). -/
noncomputable def hzToSemitones (hz : ℝ) : ℝ := Real.log (hz / 440) / Real.log ((2 : ℝ) ^ ((1 : ℝ) / 12))

end Zounds.Psycho
