import Verif.Model.Stft

/-!
# A sound through `SlidingWindow` (zounds/spectral/sliding_window.py) and a transform node (zounds/spectral/spectral.py)

The numbers only; the dimensions of the result are modelled elsewhere (`Pipeline`, `Frequency`).  Real and complex numbers stand for floats.
-/

namespace Zounds.Analysis
open Zounds Zounds.Spectral

/-- sliding_window.py:206-207: the windows as they leave the node: weighted, if the node has a windowing function (`none`: it has none). -/
def weigh (func : Option (List ℝ)) (wins : List (List ℝ)) : List (List ℝ) :=
  match func with
  | none => wins
  | some f => SlidingWindow.applyFunc (· * ·) f wins

/-- sliding_window.py:169-208, then a node that transforms every row: `FFT` (spectral.py:57-58, `T` = `zfft` with the node's padding), `DCT` (spectral.py:79-80, `T` =
`scipyDct`), `DCTIV` (spectral.py:107-116, `T` = `dctiv`) or `MDCT` (spectral.py:149-150, `T` = `mdct`).  The samples arrive in chunks; `padwith` zeros are put in front of the first.
Simplification: the rows a transform node is given one batch after the other are transformed together here, so that what has been emitted before an error is not represented. -/
def analyse {β : Type} (T : List ℝ → Except PyErr (List β)) (func : Option (List ℝ)) (padwith : Nat) (wl hop : Int) (chunks : List (List ℝ)) (last : List ℝ) :
    Except PyErr (List (List β)) :=
  match SlidingWindow.runPadded 0 padwith wl hop chunks last with
  | .error e => .error e
  | .ok wins => (weigh func wins).mapM T

end Zounds.Analysis
