import Verif.Model.Stft

/-!
# A sound through a graph and back: the graph's features (zounds/basic/audiograph.py `stft`) given to a synthesizer (zounds/synthesize/synthesize.py)
-/

namespace Zounds.Resynth
open Zounds Zounds.Spectral

/-- A graph with `SlidingWindow` (sliding_window.py:136-193, ogg vorbis window) and `MDCT` (spectral.py:144-154): the frames of a sound that arrives in chunks. -/
noncomputable def graphMdct (hop wl : Nat) (chunks : List (List ℝ)) (last : List ℝ) : Except PyErr (List (List ℝ)) :=
  match SlidingWindow.run 0 wl hop chunks last with
  | .error e => .error e
  | .ok wins => (SlidingWindow.applyFunc (· * ·) (WindowFunc.oggvorbis wl) wins).mapM mdct

/-- The time dimension of the frames (sliding_window.py:183-193, timeseries/timeseries.py): windows of `wl` samples every `hop` samples of audio whose samples are `f0` apart. -/
def frameDim (f0 : Int) (hop wl frames : Nat) : Time.Dim := ⟨f0 * hop, f0 * wl, frames⟩

/-- `FFTSynthesizer().synthesize(doc.fft)` (synthesize.py:45-48, 98-102) of the graph's feature (audiograph.py:163-174). -/
noncomputable def viaFft (f0 : Int) (hop wl : Nat) (chunks : List (List ℝ)) (last : List ℝ) : Except PyErr (List ℝ) :=
  match Stft.graphStft hop wl 0 chunks last with
  | .error e => .error e
  | .ok g => fftSynthesize ⟨frameDim f0 hop wl g.length, wl / 2 + 1, g⟩

/-- `MDCTSynthesizer().synthesize(doc.mdct)` (synthesize.py:45-48, 271-281). -/
noncomputable def viaMdct (f0 : Int) (hop wl : Nat) (chunks : List (List ℝ)) (last : List ℝ) : Except PyErr (List ℝ) :=
  match graphMdct hop wl chunks last with
  | .error e => .error e
  | .ok g => mdctSynthesize ⟨frameDim f0 hop wl g.length, wl / 2, g⟩

end Zounds.Resynth
