import Verif.Model.Pipeline
import Verif.Model.Codebook

/-!
# A learned audio encoder: examples/mdct_synth.py

Frames are given unit norm (and before that a logarithmic weight, in the second pipeline), then encoded by k-means; `full_pass` decodes them again
(examples/mdct_synth.py:150-158).  Real numbers stand for floats.
-/

namespace Zounds.Vq
open Zounds Zounds.Pipeline

/-- Inversion data of these pipelines: that of a library step, or the codebook (learn.py:40-45). -/
inductive VInv where
  | step (i : Inv)
  | book (codebook : List (List ℝ))

/-- What a step returns, with its inversion data (preprocess.py:696-700). -/
def liftOut : Outcome Batch Inv → Outcome Batch VInv
  | .plain d => .plain d
  | .forward d i => .forward d (.step i)

/-- A library step in such a pipeline.  `reshape((len(x), -1))` of no examples is a ValueError (functional.py:28). -/
def lift (p : Proc Batch Inv) (flattens : Bool) : Proc Batch VInv :=
  { op := fun d => if flattens ∧ d.rows = [] then .error .valueError else (p.op d).map liftOut
    inversionData := fun d => (p.inversionData d).map .step
    inverse := fun d i => match i with | .step i => p.inverse d i | .book _ => .error .typeError }

/-- A code as an array's row. -/
def ofCode (code : List ℕ) : List ℝ := code.map fun (n : ℕ) => (n : ℝ)

/-- `np.where(d == 1)` compares numbers; codes hold zeros and ones (learn.py:35). -/
noncomputable def toCode (row : List ℝ) : List ℕ := row.map fun v => if v = 1 then 1 else 0

/-- learn.py:6-48 `KMeans` with a codebook of codewords of `dim` numbers, as a step of a pipeline. -/
noncomputable def kmeans (dim : ℕ) (codebook : List (List ℝ)) : Proc Batch VInv :=
  { op := fun d =>
      match Codebook.encode dim codebook d.rows with
      | .error e => .error e
      | .ok codes => .ok (.plain ⟨[codebook.length], codes.map ofCode⟩)
    inversionData := fun _ => .ok (.book codebook)
    inverse := fun d i => match i with
      | .step _ => .error .typeError
      | .book codebook =>
        match Codebook.decode codebook (d.rows.map toCode) with
        | .error e => .error e
        | .ok rows => .ok ⟨[dim], rows⟩ }

/-- examples/mdct_synth.py:37-73 `DctKmeans.pipeline`. -/
noncomputable def plainPipeline (junk : Nat → Nat → ℝ) (dim : ℕ) (codebook : List (List ℝ)) : List (Proc Batch VInv) :=
  [lift (Step.unitNorm.proc junk) true, kmeans dim codebook]

/-- examples/mdct_synth.py:76-117 `DctKmeansWithLogAmplitude.pipeline`. -/
noncomputable def logPipeline (junk : Nat → Nat → ℝ) (dim : ℕ) (codebook : List (List ℝ)) : List (Proc Batch VInv) :=
  [lift (Step.log.proc junk) false, lift (Step.unitNorm.proc junk) true, kmeans dim codebook]

/-- examples/mdct_synth.py:150-157 `full_pass`, up to synthesis. -/
noncomputable def fullPass (pipeline : List (Proc Batch VInv)) (frames : Batch) : Except PyErr Batch :=
  match transform pipeline frames with
  | .error e => .error e
  | .ok r => r.inverseTransform

end Zounds.Vq
