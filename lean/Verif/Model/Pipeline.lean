import Verif.Model.Base
import Verif.Model.Loudness

/-!
# zounds/learn/preprocess.py and zounds/learn/functional.py

Numbers are reals (floating point rounding is not modelled).  A batch is a number of examples, each a feature array stored in
row-major order, together with the shape of one example.  `np.divide(..., where=mask)` without `out` leaves the masked entries
uninitialised: the model takes them from an arbitrary function `junk` (finite; NaN and infinities are not modelled).
-/

namespace Zounds.Pipeline
open Zounds

/-! ## Pipeline and PipelineResult (preprocess.py:664-731), for any kind of data -/

/-- What calling `p.op(data)` may return: plain data, or a `ForwardResult` carrying inversion data (preprocess.py:454-457, 696-700). -/
inductive Outcome (D I : Type) where
  | plain (d : D)
  | forward (d : D) (inv : I)

/-- preprocess.py:58-97 `PreprocessResult`, the parts a pipeline uses. -/
structure Proc (D I : Type) where
  op : D → Except PyErr (Outcome D I)
  inversionData : D → Except PyErr I
  inverse : D → I → Except PyErr D

/-- one turn of the loop of preprocess.py:692-703. -/
def Proc.step {D I : Type} (p : Proc D I) (d : D) : Except PyErr (D × I) :=
  match p.op d with
  | .error e => .error e
  | .ok (.forward out inv) => .ok (out, inv)
  | .ok (.plain out) =>
    match p.inversionData d with
    | .error e => .error e
    | .ok inv => .ok (out, inv)

/-- the loop of preprocess.py:692-703: the data and the inversion data of all steps, in order. -/
def forwardAll {D I : Type} : List (Proc D I) → D → Except PyErr (D × List I)
  | [], d => .ok (d, [])
  | p :: ps, d =>
    match p.step d with
    | .error e => .error e
    | .ok (out, inv) =>
      match forwardAll ps out with
      | .error e => .error e
      | .ok (final, invs) => .ok (final, inv :: invs)

/-- preprocess.py:711-717 `PipelineResult`: processors and inversion data reversed.  Simplification: `wrap_data`, which re-attaches
the class and units of the input, is not represented here but in `Model/Fit.lean`. -/
structure Result (D I : Type) where
  data : D
  processors : List (Proc D I)
  inversionData : List I

/-- preprocess.py:689-708 `Pipeline.transform` (without a wrapper). -/
def transform {D I : Type} (ps : List (Proc D I)) (d : D) : Except PyErr (Result D I) :=
  match forwardAll ps d with
  | .error e => .error e
  | .ok (out, invs) => .ok ⟨out, ps.reverse, invs.reverse⟩

/-- the loop of preprocess.py:726-731. -/
def backAll {D I : Type} : List (I × Proc D I) → D → Except PyErr D
  | [], d => .ok d
  | (inv, p) :: rest, d =>
    match p.inverse d inv with
    | .error e => .error e
    | .ok d' => backAll rest d'

/-- preprocess.py:725-731 `PipelineResult.inverse_transform`. -/
def Result.inverseTransform {D I : Type} (r : Result D I) : Except PyErr D :=
  backAll (r.inversionData.zip r.processors) r.data

/-! ## PreprocessingPipeline (preprocess.py:819-836) -/

/-- preprocess.py:823-836 and the node protocol: results arrive one at a time; the entry of the pusher is replaced; when all entries
are there a pipeline is emitted, in the order of `needs`, and the entries are cleared.  Only dependencies push (`src < n`). -/
def assemble {P : Type} (n : Nat) : List (Option P) → List (Nat × P) → List (List P)
  | _, [] => []
  | entries, (src, p) :: rest =>
    let entries' := entries.set src (some p)
    if entries'.all Option.isSome then entries'.filterMap id :: assemble n (List.replicate n none) rest
    else assemble n entries' rest

/-! ## Data -/

/-- A batch: shape of one example, and the examples' values in row-major order. -/
structure Batch where
  fshape : List Nat
  rows : List (List ℝ)

/-- number of values of one example -/
def size (fshape : List Nat) : Nat := fshape.prod

/-- Inversion data of the library's steps. -/
inductive Inv where
  | none
  | norms (n : List ℝ)
  | meanStd (mean std : List ℝ)
  | scaling (maxes : List ℝ) (maxValue : ℝ)
  | factor (f : ℝ)
  | weights (w : List ℝ)
  | shape (n : Nat) (fshape : List Nat)
  | slice (a b : Nat) (fshape : List Nat)

/-- functional.py:25-36: Euclidean norm of one flattened example. -/
noncomputable def norm (row : List ℝ) : ℝ := Real.sqrt ((row.map (fun v => v ^ 2)).sum)

/-- `np.max(np.abs(d))` of one example (zero for an empty one, where numpy raises; see `instanceScaling`). -/
noncomputable def maxAbs (row : List ℝ) : ℝ := (row.map (fun v => |v|)).foldl max 0

/-- the result of `np.divide(row, m, where=m != 0)` for a scalar `m` -/
noncomputable def divWhere (junk : Nat → ℝ) (row : List ℝ) (m : ℝ) : List ℝ :=
  if m ≠ 0 then row.map (· / m) else (List.range row.length).map junk

/-- preprocess.py:176-188 `UnitNorm._forward_func`, functional.py:23-36. -/
noncomputable def unitNorm (junk : Nat → Nat → ℝ) (d : Batch) : Batch × List ℝ :=
  (⟨d.fshape, d.rows.mapIdx (fun i r => divWhere (junk i) r (norm r))⟩, d.rows.map norm)

/-- preprocess.py:190-196 `UnitNorm._backward_func`.  `norm` has two axes, so for examples without axes (one number each) the product
broadcasts to a square. -/
noncomputable def unitNormInv (d : Batch) (norms : List ℝ) : Batch :=
  if d.fshape = [] then
    ⟨[d.rows.length], norms.map (fun n => d.rows.flatten.map (fun v => v * n))⟩
  else ⟨d.fshape, List.zipWith (fun r n => r.map (· * n)) d.rows norms⟩

/-- preprocess.py:425-430 `MeanStdNormalization` forward, one example: `np.divide(d - mean, std, where=std != 0)`. -/
noncomputable def meanStdRow (junk : Nat → ℝ) : Nat → List ℝ → List ℝ → List ℝ → List ℝ
  | j, x :: xs, m :: ms, s :: ss =>
    (if s ≠ 0 then (x - m) / s else junk j) :: meanStdRow junk (j + 1) xs ms ss
  | _, _, _, _ => []

/-- preprocess.py:433-440 backward, one example. -/
noncomputable def meanStdInvRow : List ℝ → List ℝ → List ℝ → List ℝ
  | y :: ys, m :: ms, s :: ss => (y * s + m) :: meanStdInvRow ys ms ss
  | _, _, _ => []

/-- preprocess.py:465-473 `InstanceScaling` forward. -/
noncomputable def instanceScaling (junk : Nat → Nat → ℝ) (maxValue : ℝ) (d : Batch) : Batch × List ℝ :=
  (⟨d.fshape, d.rows.mapIdx (fun i r => (divWhere (junk i) r (maxAbs r)).map (maxValue * ·))⟩, d.rows.map maxAbs)

/-- preprocess.py:477-479 backward: `(d * max) / max_value`. -/
noncomputable def instanceScalingInv (maxValue : ℝ) (maxes : List ℝ) (d : Batch) : Batch :=
  ⟨d.fshape, List.zipWith (fun r m => r.map (fun v => v * m / maxValue)) d.rows maxes⟩

/-- Cut a row into lines of `w` values (the last axis). -/
def linesOf (w : Nat) : Nat → List ℝ → List (List ℝ)
  | 0, _ => []
  | k + 1, row => row.take w :: linesOf w k (row.drop w)

/-- `line[a:b]`. -/
def sliceLine (a b : Nat) (line : List ℝ) : List ℝ := (line.take b).drop a

/-- `z = zeros(w); z[a:b] = part` (preprocess.py:302-306). -/
def unsliceLine (w a b : Nat) (part : List ℝ) : List ℝ :=
  List.replicate (min a w) 0 ++ part ++ List.replicate (w - max (min a w) (min b w)) 0

/-- preprocess.py:283-329 `Slicer` forward, `slicex = slice(a, b)`, along the last axis; examples have at least one axis (without
one the slice would apply to the examples; not modelled). -/
def slicer (a b : Nat) (d : Batch) : Except PyErr Batch :=
  match d.fshape.getLast? with
  | none => .error .indexError
  | some w =>
    let outer := d.fshape.dropLast
    .ok ⟨outer ++ [min b w - min a w], d.rows.map (fun r => ((linesOf w (size outer) r).map (sliceLine a b)).flatten)⟩

/-- preprocess.py:312-319 backward: zeros of the original shape, with the slice filled in.  A mismatch of the slice length is a
ValueError. -/
def slicerInv (a b : Nat) (fshape : List Nat) (d : Batch) : Except PyErr Batch :=
  match fshape.getLast? with
  | none => .error .indexError
  | some w =>
    let outer := fshape.dropLast
    if d.fshape = outer ++ [min b w - min a w] then
      .ok ⟨fshape, d.rows.map (fun r => ((linesOf (min b w - min a w) (size outer) r).map (unsliceLine w a b)).flatten)⟩
    else .error .valueError

/-- The library's preprocessing steps with their learned parameters. -/
inductive Step where
  | unitNorm
  | meanStd (mean std : List ℝ)
  | instanceScaling (maxValue : ℝ)
  | multiply (factor : ℝ)
  | weighted (weights : List ℝ)
  | muLaw
  | log
  | slicer (a b : Nat)
  | reshape (newShape : List Nat)
  | absoluteValue
  | binarize (threshold : ℝ)
  | sharpen (kernel : Option (List ℝ))

/-- The default parameter of `mu_law` (loudness.py:18). -/
noncomputable def mu : ℝ := 255

/-- apply a function to every value -/
noncomputable def mapAll (f : ℝ → ℝ) (d : Batch) : Batch := ⟨d.fshape, d.rows.map (List.map f)⟩

/-- preprocess.py:596-604 `Sharpen`, one example: `convolve(d, kernel[None, ...], mode='same')`, then everything below zero becomes zero.  The middle
part of the convolution begins `(len(kernel) - 1) // 2` in. -/
noncomputable def sharpenRow (kernel row : List ℝ) : List ℝ :=
  (List.range row.length).map fun (j : Nat) =>
    max 0 (((List.range kernel.length).map fun (k : Nat) =>
      if k ≤ j + (kernel.length - 1) / 2 then kernel.getD k 0 * row.getD (j + (kernel.length - 1) / 2 - k) 0 else 0).sum)

/-- The processors of the library: preprocess.py:172-209 UnitNorm, 422-451 MeanStdNormalization, 460-495 InstanceScaling, 498-522 Multiply,
525-549 Weighted, 251-280 MuLawCompressed, 242-248 Log, 283-329 Slicer, 332-362 Reshape, 552-587 AbsoluteValue, 627-661 Binarize, 590-624 Sharpen (for a
kernel with one axis that is not empty, and batches that are not; without a kernel, `None[None, ...]` is a TypeError, and scipy refuses examples with another number of axes).
Arrays that do not have the learned feature shape raise ValueError (other broadcastable shapes are not modelled). -/
noncomputable def Step.proc (junk : Nat → Nat → ℝ) : Step → Proc Batch Inv
  | .unitNorm =>
    { op := fun d => .ok (.forward (Pipeline.unitNorm junk d).1 (.norms (Pipeline.unitNorm junk d).2))
      inversionData := fun _ => .ok .none
      inverse := fun d i => match i with | .norms n => .ok (unitNormInv d n) | _ => .error .typeError }
  | .meanStd mean std =>
    { op := fun d =>
        if mean.length = size d.fshape ∧ std.length = size d.fshape then
          .ok (.plain ⟨d.fshape, d.rows.mapIdx (fun i r => meanStdRow (junk i) 0 r mean std)⟩)
        else .error .valueError
      inversionData := fun _ => .ok (.meanStd mean std)
      inverse := fun d i => match i with
        | .meanStd m s => .ok ⟨d.fshape, d.rows.map (fun r => meanStdInvRow r m s)⟩
        | _ => .error .typeError }
  | .instanceScaling mv =>
    { op := fun d =>
        if d.rows ≠ [] ∧ size d.fshape = 0 then .error .valueError
        else .ok (.forward (Pipeline.instanceScaling junk mv d).1 (.scaling (Pipeline.instanceScaling junk mv d).2 mv))
      inversionData := fun _ => .ok .none
      inverse := fun d i => match i with
        | .scaling m mv => .ok (instanceScalingInv mv m d)
        | _ => .error .typeError }
  | .multiply f =>
    { op := fun d => .ok (.plain (mapAll (· * f) d))
      inversionData := fun _ => .ok (.factor f)
      inverse := fun d i => match i with
        | .factor f => if f = 0 then .error .zeroDivision else .ok (mapAll (· * (1 / f)) d)
        | _ => .error .typeError }
  | .weighted w =>
    { op := fun d =>
        if w.length = size d.fshape then .ok (.plain ⟨d.fshape, d.rows.map (fun r => List.zipWith (· * ·) r w)⟩)
        else .error .valueError
      inversionData := fun _ => .ok (.weights w)
      inverse := fun d i => match i with
        | .weights w => .ok ⟨d.fshape, d.rows.map (fun r => List.zipWith (· / ·) r w)⟩
        | _ => .error .typeError }
  | .muLaw =>
    { op := fun d => .ok (.plain (mapAll (Loudness.muLaw mu) d))
      inversionData := fun _ => .ok .none
      inverse := fun d i => match i with | .none => .ok (mapAll (Loudness.inverseMuLaw mu) d) | _ => .error .typeError }
  | .log =>
    { op := fun d => .ok (.plain (mapAll Loudness.logModulus d))
      inversionData := fun _ => .ok .none
      inverse := fun d i => match i with | .none => .ok (mapAll Loudness.inverseLogModulus d) | _ => .error .typeError }
  | .slicer a b =>
    { op := fun d => (Pipeline.slicer a b d).map .plain
      inversionData := fun d => .ok (.slice a b d.fshape)
      inverse := fun d i => match i with | .slice a b sh => slicerInv a b sh d | _ => .error .typeError }
  | .reshape sh =>
    { op := fun d => if d.rows = [] ∨ size sh = size d.fshape then .ok (.plain ⟨sh, d.rows⟩) else .error .valueError
      inversionData := fun d => .ok (.shape d.rows.length d.fshape)
      inverse := fun d i => match i with
        | .shape n sh => if n * size sh = d.rows.length * size d.fshape ∧ n = d.rows.length then .ok ⟨sh, d.rows⟩ else .error .valueError
        | _ => .error .typeError }
  | .absoluteValue =>
    { op := fun d => .ok (.plain (mapAll (fun v => |v|) d))
      inversionData := fun _ => .ok .none
      inverse := fun _ _ => .error .notImplemented }
  | .binarize t =>
    { op := fun d => .ok (.plain (mapAll (fun v => if v > t then 1 else 0) d))
      inversionData := fun _ => .ok .none
      inverse := fun _ _ => .error .notImplemented }
  | .sharpen kernel =>
    { op := fun d => match kernel with
        | none => .error .typeError
        | some k => if d.fshape.length = 1 then .ok (.plain ⟨d.fshape, d.rows.map (sharpenRow k)⟩) else .error .valueError
      inversionData := fun _ => .ok .none
      inverse := fun _ _ => .error .notImplemented }

/-! ## simhash (functional.py:16-21) -/

/-- `np.dot` of two vectors. -/
def dot : List ℝ → List ℝ → ℝ
  | x :: xs, y :: ys => x * y + dot xs ys
  | _, _ => 0

/-- functional.py:15-20 `simhash` for one (flattened) example: one bit per plane.  Widths that do not match raise ValueError in
`np.dot`. -/
noncomputable def simhash (planes : List (List ℝ)) (x : List ℝ) : Except PyErr (List Bool) :=
  if planes.all (fun p => p.length = x.length) then .ok (planes.map (fun p => decide (0 < dot p x))) else .error .valueError

/-- functional.py:4-13 `hyperplanes`, with `a`, `b` the two random draws. -/
def hyperplanes (means stds : List ℝ) (a b : List (List ℝ)) : Except PyErr (List (List ℝ)) :=
  if means.length ≠ stds.length then .error .valueError
  else .ok (List.zipWith (fun p q => List.zipWith (· - ·) p q) a b)

end Zounds.Pipeline
