import Verif.Model.Stft
import Verif.Model.ScaleApply
import Verif.Model.Descriptors
import Verif.Model.Weighting
/-!
# zounds/basic/audiograph.py `audio_graph`: the features of a sound, computed chunk by chunk

From the samples at the graph's rate on (the feature `resampled`); what happens before is in `Model/Resample.lean` and `Model/SoundNodes.lean`.  Real and complex numbers stand
for floats; windows have at least two samples.
-/

namespace Zounds.AudioGraph
open Zounds Zounds.Spectral Zounds.SlidingWindow

/-- As `SlidingWindow.feed`, but what is handed on with each chunk is kept apart (sliding_window.py:185-208): nothing (`NotEnoughData`), or a batch of windows. -/
def feedBatches {α : Type} (z : α) (w s : Int) : St α → List (List α) → Except PyErr (St α × List (List (List α)))
  | st, [] => .ok (st, [])
  | st, c :: cs =>
    match push z w s false st c with
    | .error e => .error e
    | .ok (st', out) =>
      match feedBatches z w s st' cs with
      | .error e => .error e
      | .ok (st'', outs) => .ok (st'', if out.isEmpty then outs else out :: outs)

/-- The batches of windows of a whole sound, as in `SlidingWindow.run`. -/
def batches {α : Type} (z : α) (w s : Int) (chunks : List (List α)) (last : List α) : Except PyErr (List (List (List α))) :=
  match feedBatches z w s {} chunks with
  | .error e => .error e
  | .ok (st, outs) =>
    match push z w s true st last with
    | .error e => .error e
    | .ok (_, out) => .ok (outs ++ if out.isEmpty then [] else [out])

/-- What the graph is made with (audiograph.py:179-194): hop and window size in samples; the scale of the spectra (`LinearScale.from_sample_rate`, functional.py:39-44) and the
centre frequencies of its bands; the band from 20 Hz on, the number of Bark bands (spectral.py:255) and, of `ChromaScale`, the semitones the band begins and ends with and their
frequencies (frequencyscale.py:599-610). -/
structure Config where
  X : Freq.NumExt ℝ
  hop : Nat
  wl : Nat
  scale : Freq.Scale ℝ
  centres : List ℝ
  band : Freq.Band ℝ
  nBands : Nat
  hz : Int → ℝ
  start : Int
  stop : Int

/-- `np.abs` of a spectrum. -/
noncomputable def magnitudes (r : List ℂ) : List ℝ := r.map fun z => ‖z‖

/-- spectral.py:228-235, 251-262: `BarkBands._process` of a batch of spectra. -/
noncomputable def barkNode (c : Config) (b : List (List ℂ)) : Except PyErr (List (List ℝ)) :=
  ScaleApply.barkBands c.X c.band c.nBands c.scale WindowFunc.hanning (b.map magnitudes)

/-- spectral.py:228-248: `Chroma._process` of a batch: magnitudes times `AWeighting()`, then the scale. -/
noncomputable def chromaNode (c : Config) (b : List (List ℂ)) : Except PyErr (List (List ℝ)) :=
  match Weighting.aWeights c.centres with
  | .error e => .error e
  | .ok w => ScaleApply.applyChroma c.X c.scale WindowFunc.hanning c.hz c.start c.stop (b.map fun r => List.zipWith (· * ·) (magnitudes r) w)

/-- spectral.py:329-335: `BFCC._process` of a batch with the default arguments; the node needs `fft` (audiograph.py:255-258), not `bark`. -/
noncomputable def bfccNode (b : List (List ℂ)) : List (List ℝ) := b.map fun r => Descriptors.bfcc (1 / 10 ^ 12) 13 1 (magnitudes r)

/-- spectral.py:284-286: `SpectralCentroid._process` of a batch, with the numbers of bins remembered from the first chunk; other widths do not broadcast. -/
noncomputable def centroidBatch (nBins : Nat) (b : List (List ℝ)) : Except PyErr (List ℝ) :=
  b.mapM fun r =>
    if r.length = nBins then
      .ok ((List.zipWith (fun x k => |x| * k) r ((List.range nBins).map fun j : ℕ => ((j : ℝ) + 1))).sum / ((List.range nBins).map fun j : ℕ => ((j : ℝ) + 1)).sum)
    else .error .valueError

/-- spectral.py:279-286: `SpectralCentroid` of all batches; `width` is the size of their last axis, of which `_first_chunk` makes the numbers of the bins. -/
noncomputable def centroidNode (width : Nat) (bs : List (List (List ℝ))) : Except PyErr (List (List ℝ)) := bs.mapM (centroidBatch width)

/-- The features of a sound. -/
structure Features where
  dct : List (List ℝ)
  fft : List (List ℂ)
  bark : List (List ℝ)
  centroid : List ℝ
  chroma : List (List ℝ)
  bfcc : List (List ℝ)

/-- audiograph.py:222-258: windows, and the nodes that need them, batch by batch; the stored features are the batches one after the other. -/
noncomputable def audioGraph (c : Config) (chunks : List (List ℝ)) (last : List ℝ) : Except PyErr Features := do
  let wins ← batches 0 c.wl c.hop chunks last
  let wins := wins.map (applyFunc (· * ·) (WindowFunc.oggvorbis c.wl))
  let dct ← wins.mapM fun b => b.mapM scipyDct
  let fft ← wins.mapM fun b => b.mapM fun r => zfft r 0
  let bark ← fft.mapM (barkNode c)
  let centroid ← centroidNode c.nBands bark
  let chroma ← fft.mapM (chromaNode c)
  return ⟨dct.flatten, fft.flatten, bark.flatten, centroid.flatten, chroma.flatten, (fft.map bfccNode).flatten⟩

end Zounds.AudioGraph
