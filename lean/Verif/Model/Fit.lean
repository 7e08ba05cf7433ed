import Verif.Model.Pipeline
import Verif.Model.Arith
/-!
# Training preprocessing steps, applying them to a stream, and restoring units

zounds/learn/preprocess.py (`_process` of the steps; `Pipeline.wrap_data`, `PipelineResult.unwrap`), zounds/learn/learn.py `Learned`.
-/

namespace Zounds.Fit
open Zounds Zounds.Pipeline

/-! ## Training -/

/-- `data.mean(axis=0)` (preprocess.py:444), one number per value of an example.  (numpy's mean of no examples is nan; not modelled.) -/
noncomputable def colMean (d : Batch) : List ℝ :=
  (List.range (size d.fshape)).map fun (j : Nat) => (d.rows.map fun r => r.getD j 0).sum / d.rows.length

/-- `data.std(axis=0)` (preprocess.py:445): the root of the mean squared distance from the mean. -/
noncomputable def colStd (d : Batch) : List ℝ :=
  (List.range (size d.fshape)).map fun (j : Nat) =>
    Real.sqrt ((d.rows.map fun r => (r.getD j 0 - (colMean d).getD j 0) ^ 2).sum / d.rows.length)

/-- The library's nodes with the arguments they are made with. -/
inductive Node where
  | unitNorm
  | meanStd
  | instanceScaling (maxValue : ℝ)
  | multiply (factor : ℝ)
  | weighted (weights : List ℝ)
  | muLaw
  | log
  | slicer (a b : Nat)
  | reshape (newShape : List Nat)
  | absoluteValue
  | binarize (threshold : ℝ)
  | sharpen (kernel : Option (List ℝ))

/-- The operation a node makes (the `self.transform(…)` of every `_process`, preprocess.py:200, 231, 271, 323, 357, 446, 485, 517, 544, 576, 616, 653): only
`MeanStdNormalization` takes its parameters from the data (preprocess.py:442-446). -/
noncomputable def Node.learn : Node → Batch → Step
  | .unitNorm, _ => .unitNorm
  | .meanStd, d => .meanStd (colMean d) (colStd d)
  | .instanceScaling m, _ => .instanceScaling m
  | .multiply f, _ => .multiply f
  | .weighted w, _ => .weighted w
  | .muLaw, _ => .muLaw
  | .log, _ => .log
  | .slicer a b, _ => .slicer a b
  | .reshape s, _ => .reshape s
  | .absoluteValue, _ => .absoluteValue
  | .binarize t, _ => .binarize t
  | .sharpen k, _ => .sharpen k

/-- Which exceptions of its own operation a node ignores, going on with None: preprocess.py:203-207 UnitNorm an AttributeError; 580-583 AbsoluteValue, 619-622
Sharpen and 656-659 Binarize everything. -/
def Node.ignores : Node → PyErr → Bool
  | .unitNorm, e => decide (e = .attributeError)
  | .absoluteValue, _ => true
  | .sharpen _, _ => true
  | .binarize _, _ => true
  | _, _ => false

/-- A node that is given None (the data of a node before it that ignored an exception): the exception of its operation on None. -/
def Node.onNone : Node → PyErr
  | .unitNorm => .attributeError
  | .meanStd => .attributeError
  | .instanceScaling _ => .attributeError
  | .reshape _ => .attributeError
  | .binarize _ => .attributeError
  | _ => .typeError

/-- The data of what `p.op(data)` returned (preprocess.py:204-205, 489-490). -/
def outcomeData {D I : Type} : Outcome D I → D
  | .plain d => d
  | .forward d _ => d

/-- `_process` of a node (preprocess.py:198-209, 229-236, 269-280, 321-329, 355-362, 442-451, 483-495, 515-522, 542-549, 574-587, 614-624, 651-661): the operation that is
stored, and the data that is handed on; none is None. -/
noncomputable def fit (junk : Nat → Nat → ℝ) (n : Node) : Option Batch → Except PyErr (Step × Option Batch)
  | none => if n.ignores n.onNone then .ok (n.learn ⟨[], []⟩, none) else .error n.onNone
  | some d =>
    match ((n.learn d).proc junk).op d with
    | .ok o => .ok (n.learn d, some (outcomeData o))
    | .error e => if n.ignores e then .ok (n.learn d, none) else .error e

/-- Nodes one after the other, each trained on what the one before it hands on (preprocess.py:163-169 `_extract_data`); memory that numpy does not initialise differs from
call to call (`junk`). -/
noncomputable def fitAll (junk : Nat → Nat → Nat → ℝ) : Nat → List Node → Option Batch → Except PyErr (List Step × Option Batch)
  | _, [], d => .ok ([], d)
  | k, n :: ns, d =>
    match fit (junk k) n d with
    | .error e => .error e
    | .ok (s, d') =>
      match fitAll junk (k + 1) ns d' with
      | .error e => .error e
      | .ok (ss, out) => .ok (s :: ss, out)

/-! ## A learned feature of a stream -/

/-- learn.py:78-83 `Learned._process`, for one chunk: the data of the pipeline's result, given to the wrapper (preprocess.py:705-706). -/
def learned {D I : Type} (ps : List (Proc D I)) (cast wrapper : D → D) (chunk : D) : Except PyErr D :=
  match Pipeline.transform ps (cast chunk) with
  | .error e => .error e
  | .ok r => .ok (wrapper r.data)

/-- The chunks of a document, one after the other. -/
def learnedAll {D I : Type} (ps : List (Proc D I)) (cast wrapper : D → D) : List D → Except PyErr (List D)
  | [] => .ok []
  | c :: cs =>
    match learned ps cast wrapper c with
    | .error e => .error e
    | .ok d =>
      match learnedAll ps cast wrapper cs with
      | .error e => .error e
      | .ok ds => .ok (d :: ds)

/-! ## Units -/

open Zounds.Arr (Val Awu DimOps)

/-- preprocess.py:681-687 `wrap_data`, for numpy arrays and arrays with units (`ArrayWithUnits`, or `FrequencyAdaptive`, whose keyword arguments are its two
dimensions, frequencyadaptive.py:57-60; `AudioSamples`, whose keyword argument is a sample rate, is not modelled). -/
def wrapData {K δ α : Type} (d : Val K δ α) : Option (K × List δ) := d.owner

/-- preprocess.py:719-723 `unwrap`: without keyword arguments the data as it is; otherwise the class is called with the data (axis.py:44-63). A number has no `ndim`:
AttributeError. -/
def unwrap {K δ κ α : Type} (ops : DimOps δ κ) (d : Val K δ α) : Option (K × List δ) → Except PyErr (Val K δ α)
  | none => .ok d
  | some (c, dims) =>
    match d with
    | .num _ => .error .attributeError
    | d =>
      match Awu.new ops d.shape d.at dims with
      | .error e => .error e
      | .ok a => .ok (.units c a)

/-- preprocess.py:689-703, the loop of `transform`, with what is remembered of the data before each step. -/
def forwardAllU {K δ α I : Type} : List (Proc (Val K δ α) I) → Val K δ α → Except PyErr (Val K δ α × List (I × Option (K × List δ)))
  | [], d => .ok (d, [])
  | p :: ps, d =>
    match p.step d with
    | .error e => .error e
    | .ok (out, i) =>
      match forwardAllU ps out with
      | .error e => .error e
      | .ok (res, is) => .ok (res, (i, wrapData d) :: is)

/-- preprocess.py:726-731, the loop of `inverse_transform`. -/
def backAllU {K δ κ α I : Type} (ops : DimOps δ κ) : List ((I × Option (K × List δ)) × Proc (Val K δ α) I) → Val K δ α → Except PyErr (Val K δ α)
  | [], d => .ok d
  | ((i, w), p) :: rest, d =>
    match p.inverse d i with
    | .error e => .error e
    | .ok x =>
      match unwrap ops x w with
      | .error e => .error e
      | .ok y => backAllU ops rest y

/-- `pipeline.transform(data)`, then `edit` of the result's data, then `inverse_transform()` (preprocess.py:689-731). -/
def roundTrip {K δ κ α I : Type} (ops : DimOps δ κ) (ps : List (Proc (Val K δ α) I)) (d : Val K δ α) (edit : Val K δ α → Val K δ α) : Except PyErr (Val K δ α) :=
  match forwardAllU ps d with
  | .error e => .error e
  | .ok (out, is) => backAllU ops (is.reverse.zip ps.reverse) (edit out)

end Zounds.Fit
