import Verif.Model.Base
import Mathlib.Analysis.SpecialFunctions.Trigonometric.Basic

/-!
# zounds/spectral/sliding_window.py: `WindowingFunc` and the window functions

Real numbers stand for floats.
-/

namespace Zounds.WindowFunc

/-- An array seen along its last axis: the sizes of the leading axes, the size of the last one, and the rows along it, in C order.
-/
structure LastAxis (α : Type) where
  lead : List Nat
  n : Nat
  rows : List (List α)

/-- sliding_window.py:58-87 `WindowingFunc._wdata` and `__array_ufunc__` for multiplication, either way round: the window function
(`none` for the identity) is asked for as many coefficients as the last axis is long, the coefficients are cast to the type of the
array (`wdata.astype(dtype)`, `cast` here), and numpy multiplies along the last axis.  Only window functions that return the
number of coefficients they were asked for are modelled (numpy's broadcasting of others is not). The cache
(58-66) only remembers coefficients already computed. -/
def apply {α β : Type} [Mul α] (cast : β → α) (w : Option (Nat → List β)) (a : LastAxis α) : Except PyErr (LastAxis α) :=
  match w with
  | none => .ok a
  | some f =>
    if (f a.n).length = a.n then .ok { a with rows := a.rows.map fun r => List.zipWith (fun c x => cast c * x) (f a.n) r }
    else .error .notImplemented

/-- `np.hanning(n)` (sliding_window.py:114-115): one half minus half a cosine over `n - 1` steps; `[1]` for `n = 1`. -/
noncomputable def hanning (n : Nat) : List ℝ :=
  if n = 1 then [1] else (List.range n).map fun i : Nat => 1 / 2 - 1 / 2 * Real.cos (2 * Real.pi * (i : ℝ) / ((n : ℝ) - 1))

/-- sliding_window.py:19-20, coefficient `i` of `oggvorbis` before it is scaled: `sin(.5 π sin((i + .5)/n π)²)`. -/
noncomputable def oggRaw (n i : Nat) : ℝ :=
  Real.sin (1 / 2 * Real.pi * Real.sin (((i : ℝ) + 1 / 2) / (n : ℝ) * Real.pi) ^ 2)

/-- `f.max()` (sliding_window.py:21); the coefficients are not negative. -/
noncomputable def oggMax (n : Nat) : ℝ := ((List.range n).map (oggRaw n)).foldr max 0

/-- sliding_window.py:7-21 `oggvorbis`: the coefficients divided by the largest of them (`n = 0`, where `max` raises, is left
empty). -/
noncomputable def oggvorbis (n : Nat) : List ℝ := (List.range n).map fun i => oggRaw n i * (1 / oggMax n)

/-- `astype` from floating point to an integer type: truncation towards zero (wrap-around not modelled; coefficients are small). -/
noncomputable def toIntCast (x : ℝ) : Int := if 0 ≤ x then ⌊x⌋ else ⌈x⌉

end Zounds.WindowFunc
