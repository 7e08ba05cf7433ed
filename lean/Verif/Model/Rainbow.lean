import Verif.Model.Loudness
import Verif.Model.ScaleApply
import Mathlib.Analysis.SpecialFunctions.Complex.Arg
import Mathlib.Algebra.Order.Floor.Ring

/-!
# zounds/spectral/functional.py: `apply_scale`, `rainbowgram`

Real and complex numbers stand for floats.
-/

namespace Zounds.Rainbow
open Zounds.Loudness

/-- functional.py:240-244 `apply_scale`, the numbers of it: `np.abs(short_time_fft.real)`, then the scale's `apply`. -/
noncomputable def applyScale (X : Freq.NumExt ℝ) (scale other : Freq.Scale ℝ) (window : Nat → List ℝ) (coeffs : List (List ℂ)) :
    Except PyErr (List (List ℝ)) :=
  ScaleApply.applyScale X scale other window (coeffs.map fun row => row.map fun z => |z.re|)

/-- `np.mod(x, y)` for positive `y`. -/
noncomputable def npMod (x y : ℝ) : ℝ := x - y * ⌊x / y⌋

/-- The correction `np.unwrap` makes for a step of `dd` between two angles. -/
noncomputable def phCorrect (dd : ℝ) : ℝ :=
  let m := npMod (dd + Real.pi) (2 * Real.pi) - Real.pi
  let ddmod := if m = -Real.pi ∧ 0 < dd then Real.pi else m
  if |dd| < Real.pi then 0 else ddmod - dd

/-- `np.unwrap` of the angles after `prev`, the corrections so far adding up to `acc`. -/
noncomputable def unwrapFrom (prev acc : ℝ) : List ℝ → List ℝ
  | [] => []
  | a :: as => (a + (acc + phCorrect (a - prev))) :: unwrapFrom a (acc + phCorrect (a - prev)) as

/-- `np.unwrap` of one column. -/
noncomputable def unwrap : List ℝ → List ℝ
  | [] => []
  | a :: as => a :: unwrapFrom a 0 as

/-- `np.gradient` of one column of two or more numbers: central differences inside, one-sided at the ends. -/
noncomputable def gradient (f : List ℝ) : List ℝ :=
  (List.range f.length).map fun i : ℕ =>
    if i = 0 then f.getD 1 0 - f.getD 0 0
    else if i + 1 = f.length then f.getD i 0 - f.getD (i - 1) 0
    else (f.getD (i + 1) 0 - f.getD (i - 1) 0) / 2

/-- Column `j` of an array of rows. -/
def column {β : Type} (rows : List (List β)) (d : β) (j : ℕ) : List β := rows.map fun r => r.getD j d

/-- functional.py:254-256: the angles of a rainbowgram, `rows.length` frames of `n` coefficients; `np.gradient` needs two entries along both axes
(ValueError). -/
noncomputable def phaseRate (coeffs : List (List ℂ)) (n : ℕ) : Except PyErr (List (List ℝ)) :=
  if coeffs.length < 2 ∨ n < 2 then .error .valueError
  else
    let cols := (List.range n).map fun j : ℕ => gradient (unwrap ((column coeffs 0 j).map Complex.arg))
    .ok ((List.range coeffs.length).map fun t : ℕ => cols.map fun c => c.getD t 0)

/-- functional.py:247-269 `rainbowgram`, the colours of all points one after the other: `colormap` gives the colour of a number (an undefined
number, from dividing by zero, stands for NaN), of which three components are kept; a component of a colour times an undefined magnitude is undefined. -/
noncomputable def rainbowgram (colormap : Option ℝ → List ℝ) (coeffs : List (List ℂ)) (n : ℕ) : Except PyErr (List (List (Option ℝ))) :=
  match unitScale (coeffs.flatten.map fun z => logModulus (|z.re| * 1000)) with
  | .error e => .error e
  | .ok mags =>
    match phaseRate coeffs n with
    | .error e => .error e
    | .ok rate =>
      match unitScale rate.flatten with
      | .error e => .error e
      | .ok hues => .ok (List.zipWith (fun h m => ((colormap h).take 3).map fun c => m.map fun m => c * m) hues mags)

end Zounds.Rainbow
