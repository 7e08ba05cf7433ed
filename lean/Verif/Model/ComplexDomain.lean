import Verif.Model.Array
import Verif.Model.Rainbow

/-!
# zounds/segment/onset.py:60-102 `ComplexDomain`

Real and complex numbers stand for floats.  The node gets windows of three frames of a spectrum, `(n, 3, m)`.
-/

namespace Zounds.ComplexDomain
open Zounds Zounds.Arr

/-- `np.angle` of a real number: `arctan2(0, x)`. -/
noncomputable def angleOfReal (x : ℝ) : ℝ := if x < 0 then Real.pi else 0

/-- onset.py:73-75: the phases of three frames at one coefficient, unwrapped; the deviation from a steady phase, which then goes through `np.angle`
once more. -/
noncomputable def deviation (z0 z1 z2 : ℂ) : ℝ :=
  let p := Rainbow.unwrap [z0.arg, z1.arg, z2.arg]
  p.getD 2 0 - 2 * p.getD 1 0 + p.getD 0 0

/-- onset.py:75. -/
noncomputable def angle (z0 z1 z2 : ℂ) : ℝ := angleOfReal (deviation z0 z1 z2)

/-- onset.py:78-97: the detection function at one coefficient: the difference of the magnitudes if the angle is zero, otherwise the length of the third
side of a triangle. -/
noncomputable def detect (z0 z1 z2 : ℂ) : ℝ :=
  if angle z0 z1 z2 = 0 then ‖z1‖ - ‖z2‖
  else Real.sqrt (‖z1‖ ^ 2 + ‖z2‖ ^ 2 - 2 * ‖z1‖ * ‖z2‖ * Real.cos (angle z0 z1 z2))

section
variable {φ : Type} [Field φ] [LinearOrder φ]

/-- `Dimension.integer_based_slice` of an array of positions (dimensions.py:73-74, timeseries.py:233-258, frequencyscale.py:289-329): identities and time
dimensions hand it on, a scale asks it for its `start_hz` (a chroma scale is asked for nothing). -/
def arrayOk : LibDim φ → Except PyErr Unit
  | .identity => .ok ()
  | .time _ _ _ => .ok ()
  | .freq (.chroma _) => .error .notImplemented
  | .freq _ => .error .attributeError

/-- axis.py:324-336 `x[np.where(mask)]` for an array of two axes: the two arrays of positions pick numbers along one axis; the dimensions of both axes go
with it: the first axis' (`metaslice` of identities and time dimensions cannot fail), and, as the result has no second axis (IndexError), the second one's own. -/
def whereIndex {α : Type} (a : Awu (LibDim φ) α) (picked : Nat) : Except PyErr Unit :=
  match a.dims with
  | [d0, d1] =>
    match arrayOk d0 with
    | .error e => .error e
    | .ok _ =>
      match arrayOk d1 with
      | .error e => .error e
      | .ok _ => if ([picked].length ≠ a.dims.length) then .error .valueError else .ok ()
  | _ => .error .indexError

/-- onset.py:70-102 `ComplexDomain._process`, for windows with dimensions.  Arrays with units do not have the attributes
`frequency` and `duration` that are asked for at 98-99, after everything else. -/
noncomputable def process (X : Freq.NumExt φ) (data : Awu (LibDim φ) ℂ) : Except PyErr (List ℝ) :=
  match data.getitem (libOps X) [.slice none none none, .int 1, .slice none none none],
      data.getitem (libOps X) [.slice none none none, .int 2, .slice none none none] with
  | .error e, _ => .error e
  | _, .error e => .error e
  | .ok expected, .ok _ =>
    let marks := (allIdx expected.shape).map fun p =>
      angle (data.get [p.headD 0, 0, p.getD 1 0]) (data.get [p.headD 0, 1, p.getD 1 0]) (data.get [p.headD 0, 2, p.getD 1 0])
    match whereIndex expected (marks.countP fun x => decide (x = 0)) with
    | .error e => .error e
    | .ok _ =>
      match whereIndex expected (marks.countP fun x => decide (x ≠ 0)) with
      | .error e => .error e
      | .ok _ => .error .attributeError
end

end Zounds.ComplexDomain
