import Verif.Model.ScaleApply
import Verif.Model.Rainbow
import Verif.Model.Psychoacoustics
import Verif.Model.Stretch

/-!
# `apply_scale` without a window, `ChromaScale` from a band in Hertz

zounds/spectral/functional.py:240-244; zounds/spectral/frequencyscale.py:263-274, 577-624; zounds/spectral/spectral.py:238-248.
-/

namespace Zounds.ScaleDefaults
open Zounds Zounds.Freq

section
variable {α : Type} [Field α] [LinearOrder α]

/-- frequencyscale.py:265-268 with `window = None`: `None * np.ones(len)` asks `None` for a product with every one of the ones. -/
def bareRow (X : NumExt α) (other : Scale α) (b : Band α) : Except PyErr (List α) :=
  match other.getSlice X (.band b) with
  | .error e => .error e
  | .ok (.run lo hi) => if min hi other.len - lo = 0 then .ok (List.replicate other.len 0) else .error .typeError
  | .ok (.same _ _) => .error .typeError

/-- frequencyscale.py:263-274 `scale.apply(x, None)`. -/
def applyBare (X : NumExt α) (scale other : Scale α) (rows : List (List α)) : Except PyErr (List (List α)) :=
  match scale.bands X with
  | .error e => .error e
  | .ok bs =>
    match Freq.sequence (bs.map (bareRow X other)) with
    | .error e => .error e
    | .ok bas => .ok (rows.map fun r => bas.map fun b => ScaleApply.dot b r)
end

/-- functional.py:240-244 `apply_scale(x, scale)`, the window left out. -/
noncomputable def applyScaleBare (X : NumExt ℝ) (scale other : Scale ℝ) (coeffs : List (List ℂ)) : Except PyErr (List (List ℝ)) :=
  applyBare X scale other (coeffs.map fun row => row.map fun z => |z.re|)

/-- frequencyscale.py:605-608: `int(np.round(self._hz_to_semitones(hz)))`; the logarithm of zero is minus infinity, that of a negative number is not a
number. -/
noncomputable def semitone (hz : ℝ) : Except PyErr ℤ :=
  if hz = 0 then .error .overflowError
  else if hz < 0 then .error .valueError
  else .ok (Spectral.npRound (Psycho.hzToSemitones hz))

/-- frequencyscale.py:577-624, 271-274: `ChromaScale(band).apply(x, window)`. -/
noncomputable def chroma (X : NumExt ℝ) (band : Band ℝ) (other : Scale ℝ) (window : Nat → List ℝ) (rows : List (List ℝ)) : Except PyErr (List (List ℝ)) :=
  match semitone band.start with
  | .error e => .error e
  | .ok start =>
    match semitone band.stop with
    | .error e => .error e
    | .ok stop => ScaleApply.applyChroma X other window (fun s => Psycho.semitonesToHz s) start stop rows

end Zounds.ScaleDefaults
