import Verif.Model.Time
import Mathlib.Data.Real.Basic

/-!
# zounds/spectral/frequencyadaptive.py: `rasterize`, `square`

Coefficients are real numbers.  `scipy.signal.resample` of one row is an arbitrary function `R`; divisions by exactly zero and the rounding of
floats are not modelled: `overlap_ratio` is the exact quotient.
-/

namespace Zounds.Square

open Zounds.Time

/-- `x.max(axis=-1)` of one row; no numbers: ValueError. -/
def rowMax : List ℝ → Except PyErr ℝ
  | [] => .error .valueError
  | x :: xs => .ok (xs.foldl max x)

/-- frequencyadaptive.py:81-92 `_resample` of one frame of one band, `eps` being 1e-8. -/
noncomputable def resampleRow (R : List ℝ → Nat → List ℝ) (eps : ℝ) (n : Nat) (row : List ℝ) : Except PyErr (List ℝ) :=
  match rowMax row, rowMax (R row n) with
  | .error e, _ => .error e
  | _, .error e => .error e
  | .ok bandMax, .ok rsMax =>
    let ratio := rsMax / (bandMax + eps)
    .ok ((R row n).map fun v => v / (ratio + eps))

/-- `[f(x) for x in xs]`, stopping at the first exception. -/
def mapE {β γ : Type} (f : β → Except PyErr γ) : List β → Except PyErr (List γ)
  | [] => .ok []
  | b :: bs =>
    match f b with
    | .error e => .error e
    | .ok c =>
      match mapE f bs with
      | .error e => .error e
      | .ok cs => .ok (c :: cs)

/-- frequencyadaptive.py:94-119 `square(n_coeffs)`, also `rasterize`: `bands` holds for every band its `frames` rows.  Each band's frames are resampled
and put one after the other, the bands are stacked and transposed (`np.vstack(…).T`; no bands: ValueError) and the rows cut into frames again.  The
result is indexed by frame, coefficient, band; its second axis has the sample period returned. -/
noncomputable def square (R : List ℝ → Nat → List ℝ) (eps : ℝ) (td : Dim) (frames n : Nat) (bands : List (List (List ℝ))) :
    Except PyErr (List (List (List ℝ)) × Int) :=
  match mapE (mapE (resampleRow R eps n)) bands with
  | .error e => .error e
  | .ok resampled =>
    if bands = [] then .error .valueError
    else
      let flat := resampled.map List.flatten
      let stacked := (List.range (frames * n)).map fun i => flat.map fun b => b.getD i 0
      .ok ((List.range frames).map fun t => (stacked.drop (t * n)).take n, roundHalfEven td.duration n)

/-- One round of the loop at frequencyadaptive.py:140-143: `output[start: stop] += chunk`; a slice that is cut off at the end does not match the chunk
(ValueError), except that a chunk of one row is broadcast to no rows at all. -/
def addChunk {β : Type} (add : β → β → β) (out : List β) (start : Nat) (chunk : List β) : Except PyErr (List β) :=
  let l := min (start + chunk.length) out.length - start
  if l = chunk.length then .ok (out.take start ++ List.zipWith add ((out.drop start).take l) chunk ++ out.drop (start + l))
  else if chunk.length = 1 then .ok out
  else .error .valueError

/-- frequencyadaptive.py:140-143: the loop, from chunk number `i` on. -/
def addChunks {β : Type} (add : β → β → β) (step : Nat) : Nat → List (List β) → List β → Except PyErr (List β)
  | _, [], out => .ok out
  | i, c :: cs, out =>
    match addChunk add out (step * i) c with
    | .error e => .error e
    | .ok out' => addChunks add step (i + 1) cs out'

/-- frequencyadaptive.py:121-145: the overlap-add part of `square(n_coeffs, do_overlap_add=True)`, given the frames `arr` of `n` rows of `nBands`
numbers.  `overlap_ratio` is (duration - frequency) / duration; frames with gaps between them (frequency above duration) are not
modelled. -/
noncomputable def overlapAdd (td : Dim) (n nBands : Nat) (arr : List (List (List ℝ))) : Except PyErr (List (List ℝ)) :=
  let overlap := td.duration - td.frequency
  if overlap < 0 then .error .notImplemented
  else if overlap = 0 then .ok arr.flatten
  else
    let step := ((n * overlap) / td.duration).toNat
    let first := (roundHalfEven ((arr.length * n + n) * overlap) td.duration).toNat
    addChunks (List.zipWith (· + ·)) step 0 arr (List.replicate first (List.replicate nBands 0))

end Zounds.Square
