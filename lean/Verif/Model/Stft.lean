import Verif.Model.Spectral
import Verif.Model.SlidingWindow
import Verif.Model.WindowFunc

/-!
# zounds/spectral/functional.py `stft`; the features `windowed` and `fft` of zounds/basic/audiograph.py `stft`

Real and complex numbers stand for floats.  Windows and hops are numbers of samples; windows of one sample, of which numpy makes no axis, are not
modelled.
-/

namespace Zounds.Stft
open Zounds Zounds.Spectral

/-- functional.py:66-68: the rows weighted by `window._wdata(size)` and transformed.  `none` stands for `window=None`, which is replaced by an
`IdentityWindowingFunc`; its `_wdata` (sliding_window.py:58-60) is None, and an array times None is a TypeError. -/
noncomputable def spectra (win : Option (Nat → List ℝ)) (wl : Nat) (rows : List (List ℝ)) : Except PyErr (List (List ℂ)) :=
  match win with
  | none => .error .typeError
  | some f => (rows.map fun r => List.zipWith (· * ·) r (f wl)).mapM rfft

/-- functional.py:49-55, 66-68 `stft` of a signal with a single time dimension: `sliding_window_with_leftovers(duration, frequency, dopad=True)`. -/
noncomputable def stft1 (x : List ℝ) (hop wl : Nat) (win : Option (Nat → List ℝ)) : Except PyErr (List (List ℂ)) :=
  match SlidingWindow.slidingWindowWithLeftovers 0 x wl hop true with
  | .error e => .error e
  | .ok (_, arr) => spectra win wl arr

/-- functional.py:56-60, 66-68 `stft` of a batch of signals of `n` samples: `sliding_window((1, duration), (1, frequency))` (npx.py:193-255), which refuses
windows longer than the signals and batches of none. -/
noncomputable def stft2 (xs : List (List ℝ)) (n hop wl : Nat) (win : Option (Nat → List ℝ)) : Except PyErr (List (List (List ℂ))) :=
  if n < wl ∨ xs = [] then .error .valueError
  else xs.mapM fun x => spectra win wl ((List.range ((n - wl) / hop + 1)).map fun i => (x.drop (i * hop)).take wl)

/-- audiograph.py:163-174: the features `windowed` and `fft` of a sound whose samples at the graph's rate arrive in chunks: `SlidingWindow` with the ogg vorbis
window, then `FFT` (functional.py:20-46, spectral.py:57-58) with `padding` zeros, row by row. -/
noncomputable def graphStft (hop wl padding : Nat) (chunks : List (List ℝ)) (last : List ℝ) : Except PyErr (List (List ℂ)) :=
  match SlidingWindow.run 0 wl hop chunks last with
  | .error e => .error e
  | .ok wins => (SlidingWindow.applyFunc (· * ·) (WindowFunc.oggvorbis wl) wins).mapM fun r => zfft r padding

end Zounds.Stft
