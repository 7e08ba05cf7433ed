import Verif.Model.Conv
import Mathlib.Analysis.SpecialFunctions.Trigonometric.Basic

/-!
# zounds/learn/sinclayer.py: `SincLayer`

Numbers are real numbers or NaN (`none`): a quotient `0 / 0` is NaN, and so is whatever is computed from NaN (multiplication by zero included).  The
rounding of float32 is not modelled; the coordinates of the taps are taken as exact.
-/

namespace Zounds.Sinc
open Zounds Zounds.Conv

/-- sinclayer.py:47-48: `torch.linspace(-math.pi, math.pi, steps=taps)`; with one step torch gives the start. -/
noncomputable def linear (taps t : Nat) : ℝ :=
  if taps = 1 then -Real.pi else -Real.pi + 2 * Real.pi * t / (taps - 1 : ℝ)

/-- sinclayer.py:49-50: `torch.hamming_window(taps)`, which is periodic by default: `0.54 - 0.46 cos(2 pi t / taps)`; with one tap it is 1. -/
noncomputable def window (taps t : Nat) : ℝ :=
  if taps = 1 then 1 else 27 / 50 - 23 / 50 * Real.cos (2 * Real.pi * t / taps)

/-- sinclayer.py:62-64 `_sinc` of one frequency at one tap: `sin(x) / x`, which is NaN for zero. -/
noncomputable def sinc (taps : Nat) (frequency : ℝ) (t : Nat) : Option ℝ :=
  if linear taps t * frequency = 0 then none else some (Real.sin (linear taps t * frequency) / (linear taps t * frequency))

/-- sinclayer.py:73-82 `_filter_bank`, tap `t` of the filter with the parameters `p`. -/
noncomputable def tap (taps : Nat) (p : ℝ × ℝ) (t : Nat) : Option ℝ :=
  match sinc taps (sincStop p) t, sinc taps (sincStart p) t with
  | some a, some b => some ((2 * sincStop p * a - 2 * sincStart p * b) * window taps t)
  | _, _ => none

/-- sinclayer.py:73-82 `_filter_bank`: one filter for every band. -/
noncomputable def filterBank (taps : Nat) (parameters : List (ℝ × ℝ)) : List (List (Option ℝ)) :=
  parameters.map fun p => (List.range taps).map (tap taps p)

/-- A sum in which NaN makes NaN. -/
noncomputable def nanSum : List (Option ℝ) → Option ℝ
  | [] => some 0
  | none :: _ => none
  | some a :: rest => match nanSum rest with
    | none => none
    | some b => some (a + b)

/-- A product in which NaN makes NaN. -/
noncomputable def nanMul : Option ℝ → ℝ → Option ℝ
  | none, _ => none
  | some a, b => some (a * b)

/-- `F.conv1d(x, filters, stride=1, padding=taps // 2)` of one signal with one filter (sinclayer.py:87), as `Conv.conv1d`. -/
noncomputable def convolve (w : List (Option ℝ)) (x : List ℝ) (p : Nat) : Except PyErr (List (Option ℝ)) :=
  if x.length + 2 * p < w.length then .error .runtimeError
  else .ok ((List.range (x.length + 2 * p - w.length + 1)).map fun t =>
    nanSum ((List.range w.length).map fun j => nanMul (w.getD j none) ((padded p x).getD (t + j) 0)))

/-- sinclayer.py:84-88 `forward` of one signal: one row for every band.  (A signal without samples cannot be viewed as `(-1, 1, 0)`: RuntimeError; without taps
`conv1d` refuses its kernel.) -/
noncomputable def forward (taps : Nat) (parameters : List (ℝ × ℝ)) (x : List ℝ) : Except PyErr (List (List (Option ℝ))) :=
  if x = [] ∨ taps = 0 then .error .runtimeError
  else mapE (fun w => convolve w x (taps / 2)) (filterBank taps parameters)

end Zounds.Sinc
