import Verif.Model.FaTransform
import Verif.Model.Resynth

/-!
# The frequency-adaptive graph (zounds/basic/audiograph.py `frequency_adaptive`) and its synthesizer
-/

namespace Zounds.Adaptive
open Zounds Zounds.Freq Zounds.FaTransform

variable {α : Type} [Field α] [LinearOrder α]

/-- `np.hanning`, multiplying complex coefficients (audiograph.py:120, spectral.py:209-210). -/
noncomputable def hanningC (n : Nat) : List ℂ := (WindowFunc.hanning n).map fun x : ℝ => (x : ℂ)

/-- audiograph.py:102-122: the feature `freq_adaptive` of a sound whose samples arrive in chunks: `SlidingWindow` with the ogg vorbis window, `FFT`, then
`FrequencyAdaptiveTransform` with `np.fft.irfft` and `np.hanning`.  The coefficients lie on the linear scale of `FFT` (functional.py:42-45).
Simplification: the frames are transformed together, in the code as they arrive; the transform is row by row. -/
noncomputable def graphAdaptive (X : NumExt α) (scale : Scale α) (nyquist : α) (hop wl : Nat) (chunks : List (List ℝ)) (last : List ℝ) :
    Except PyErr (FreqAdaptive α ℝ) :=
  match Stft.graphStft hop wl 0 chunks last with
  | .error e => .error e
  | .ok g => analyze X Spectral.irfft hanningC (.linear ⟨0, nyquist⟩ (wl / 2 + 1) false) g scale

/-- `FrequencyAdaptiveFFTSynthesizer(scale, samplerate).synthesize(doc.freq_adaptive)` (synthesize.py:323-340, 500-513): samples are `f0` apart. -/
noncomputable def viaAdaptive (X : NumExt α) (scale : Scale α) (nyquist : α) (f0 : Int) (hop wl : Nat) (chunks : List (List ℝ)) (last : List ℝ) :
    Except PyErr (List ℝ) :=
  match graphAdaptive X scale nyquist hop wl chunks last with
  | .error e => .error e
  | .ok fa => fftSynthesize X scale nyquist f0 (Resynth.frameDim f0 hop wl fa.rows.length) fa

end Zounds.Adaptive
