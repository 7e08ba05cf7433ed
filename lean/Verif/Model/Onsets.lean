import Verif.Model.Onset
import Verif.Model.SlidingWindow

/-!
# Percussive onsets, spectra to slices: `MeasureOfTransience`, `SlidingWindow`, `MovingAveragePeakPicker` one after the other

The graph of examples/segmentsearch.py:24-50 (and zounds/segment/test_onset.py:88-105).
-/

namespace Zounds.Onset
open Zounds Zounds.SlidingWindow

/-- What `SlidingWindow` hands on, one batch of windows for every chunk that completes any (sliding_window.py:185-208): the chunks of a stream, of which
the last one is final. -/
def batches {α : Type} (z : α) (w s : Int) : St α → List (List α) → Except PyErr (List (List (List α)))
  | _, [] => .ok []
  | st, c :: cs =>
    match push z w s cs.isEmpty st c with
    | .error e => .error e
    | .ok (st', out) =>
      match batches z w s st' cs with
      | .error e => .error e
      | .ok rest => .ok (if out.isEmpty then rest else out :: rest)

/-- The same with `padwith`: `_first_chunk` (sliding_window.py:176-183). -/
def batchesPadded {α : Type} (z : α) (padwith : Nat) (w s : Int) (chunks : List (List α)) : Except PyErr (List (List (List α))) :=
  match chunks with
  | [] => .ok []
  | c :: cs => batches z w s {} (firstChunk z padwith c :: cs)

/-- examples/segmentsearch.py:24-50: chunks of spectra, the slices between onsets.  The windows are of `w` frames every frame after `padwith` zeros;
`freq` is the time from frame to frame, `agg` the aggregate of the picker (onset.py:162-180; np.median in the example). -/
def percussive (freq : Int) (agg : List Rat → Rat) (padwith w : Nat) (spectra : List (List (List Rat))) : Except PyErr (List (Int × Int)) :=
  match motStream none true spectra with
  | .error e => .error e
  | .ok detection =>
    match batchesPadded 0 padwith w 1 detection with
    | .error e => .error e
    | .ok windows => .ok (pick freq (movingAverageIndices agg (w / 2)) Picker.init windows)

end Zounds.Onset
