import Verif.Model.Base
import Mathlib.Analysis.SpecialFunctions.Log.Base
/-!
# `zounds/loudness/loudness.py` and `zounds/timeseries/functional.py`

Samples are real numbers: float rounding is not modelled.  NaN is `none` where it can
occur (`unit_scale`).
-/

namespace Zounds.Loudness
open Zounds

/-- `np.sign`. -/
noncomputable def npSign (x : ℝ) : ℝ := if x < 0 then -1 else if 0 < x then 1 else 0

/-- `log_modulus` (loudness.py:6-7). -/
noncomputable def logModulus (x : ℝ) : ℝ := npSign x * Real.log (|x| + 1)

/-- `inverse_log_modulus` (loudness.py:10-11). -/
noncomputable def inverseLogModulus (x : ℝ) : ℝ := (Real.exp |x| - 1) * npSign x

/-- `decibel` (loudness.py:14-15), for positive arguments (`np.log10` of others is
`-inf` or NaN). -/
noncomputable def decibel (x : ℝ) : ℝ := 20 * Real.logb 10 x

/-- `mu_law` (loudness.py:18-21). -/
noncomputable def muLaw (mu x : ℝ) : ℝ :=
  let s := npSign x
  let x := |x|
  s * (Real.log (1 + mu * x) / Real.log (1 + mu))

/-- `inverse_mu_law` (loudness.py:24-29). -/
noncomputable def inverseMuLaw (mu x : ℝ) : ℝ :=
  let s := npSign x
  let x := |x|
  let x := x * Real.log (1 + mu)
  let x := (Real.exp x - 1) / mu
  x * s

/-- `np.argmax`: index of the first maximum; `ValueError` on an empty vector. -/
noncomputable def argmaxFrom (best : ℝ) (bi : Nat) (i : Nat) : List ℝ → Nat
  | [] => bi
  | x :: xs => if best < x then argmaxFrom x i (i + 1) xs else argmaxFrom best bi (i + 1) xs

/-- `np.argmax` of a vector (used at loudness.py:34 and functional.py:42). -/
noncomputable def argmax : List ℝ → Except PyErr Nat
  | [] => .error .valueError
  | x :: xs => .ok (argmaxFrom x 0 1 xs)

/-- `inverse_one_hot` (loudness.py:32-37) of one vector along the axis. -/
noncomputable def inverseOneHot (x : List ℝ) : Except PyErr ℝ :=
  match argmax x with
  | .error e => .error e
  | .ok i =>
    let n : ℝ := x.length
    let v := (i : ℝ) / n
    .ok ((v - 1 / 2) * 2)

/-- `.max()` of a vector; `ValueError` on an empty one. -/
noncomputable def vmax : List ℝ → Except PyErr ℝ
  | [] => .error .valueError
  | x :: xs => .ok (xs.foldl max x)

/-- `.min()` of a vector; `ValueError` on an empty one. -/
noncomputable def vmin : List ℝ → Except PyErr ℝ
  | [] => .error .valueError
  | x :: xs => .ok (xs.foldl min x)

/-- `instance_scale(.., return_maxes=True)` (loudness.py:40-46) of one vector along the
axis: the maximum and the scaled vector. -/
noncomputable def instanceScale (eps : ℝ) (x : List ℝ) : Except PyErr (ℝ × List ℝ) :=
  match vmax (x.map fun v => |v|) with
  | .error e => .error e
  | .ok mx => .ok (mx, x.map fun v => v / (mx + eps))

/-- Float division of one entry: `0/0` is NaN (`none`).  (A non-zero entry is only ever
divided by a maximum that is at least as large.) -/
noncomputable def fdiv (a b : ℝ) : Option ℝ := if b = 0 then none else some (a / b)

/-- `unit_scale` (loudness.py:49-53).  The mask is `where=max != 0` with Python's
builtin function `max`, which is never equal to zero: the division is always
performed. -/
noncomputable def unitScale (x : List ℝ) : Except PyErr (List (Option ℝ)) :=
  match vmin x with
  | .error e => .error e
  | .ok mn =>
    let scaled := x.map fun v => v - mn
    match vmax scaled with
    | .error e => .error e
    | .ok mx => .ok (scaled.map fun v => fdiv v mx)

/-! ## `zounds/timeseries/functional.py` -/

/-- `astype(np.uint8)` of a non-negative float: truncation, modulo 256. -/
noncomputable def toUint8 (x : ℝ) : Nat := (⌊x⌋₊) % 256

/-- The normalisation step of `categorical` (functional.py:13-16): divide by the
(signed) maximum.  When it is zero the `where` mask leaves the result uninitialised:
`junk` stands for whatever the memory held. -/
noncomputable def normalize (junk : List ℝ) (x : List ℝ) : Except PyErr (List ℝ) :=
  match vmax x with
  | .error e => .error e
  | .ok mx => if mx = 0 then .ok junk else .ok (x.map fun v => v / mx)

/-- The category of every sample, `categorical` up to line 25 (functional.py:13-25).  The
compression is called with its default `mu`, 255. -/
noncomputable def categories (junk : List ℝ) (mu : Nat) (doNormalize : Bool) (x : List ℝ) :
    Except PyErr (List Nat) :=
  match if doNormalize then normalize junk x else .ok x with
  | .error e => .error e
  | .ok x =>
    let x := x.map (muLaw 255)
    match vmin x with
    | .error e => .error e
    | .ok mn =>
      let x := x.map fun v => (v - mn) * (1 / 2)
      .ok (x.map fun v => toUint8 (v * mu))

/-- One row of `c[np.arange(len(c)), x.flatten()] = 1` (functional.py:27-29):
`IndexError` when the category exceeds `mu`. -/
noncomputable def oneHot (mu k : Nat) : Except PyErr (List ℝ) :=
  if k < mu + 1 then .ok ((List.range (mu + 1)).map fun j => if j = k then 1 else 0)
  else .error .indexError

/-- `categorical` (functional.py:7-33); axis bookkeeping is not represented. -/
noncomputable def categorical (junk : List ℝ) (mu : Nat) (doNormalize : Bool) (x : List ℝ) :
    Except PyErr (List (List ℝ)) :=
  match categories junk mu doNormalize x with
  | .error e => .error e
  | .ok ks => ks.mapM (oneHot mu)

/-- `inverse_categorical` (functional.py:37-45) of one sample's distribution. -/
noncomputable def inverseCategorical (mu : Nat) (c : List ℝ) : Except PyErr ℝ :=
  match argmax c with
  | .error e => .error e
  | .ok i => .ok (inverseMuLaw mu ((i : ℝ) / mu - 1 / 2))

end Zounds.Loudness
