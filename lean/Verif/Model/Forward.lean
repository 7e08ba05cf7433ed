import Verif.Model.Learn
import Verif.Model.Ops
import Verif.Model.Fit

/-!
# What trained networks and hashes hand on: zounds/learn/pytorch_model.py, zounds/learn/preprocess.py `SimHash`

The trained network is a function of batches; what it computes, and training itself, are parameters.
-/

open Zounds.Learn (applyNetwork)
open Zounds.Arr (DimOps Awu)

namespace Zounds.Forward

/-! ## Units -/

/-- An array, with or without units. -/
inductive Data (δ α : Type) where
  | plain (shape : List Nat) (get : List Nat → α)
  | units (a : Awu δ α)

/-- `try: return ArrayWithUnits(result, dims)`, with the exceptions that are caught: then the result is returned as it is. -/
def wrap {δ κ α : Type} (ops : DimOps δ κ) (caught : List PyErr) (shape : List Nat) (get : List Nat → α) (dims : List δ) :
    Except PyErr (Data δ α) :=
  match Awu.new ops shape get dims with
  | .ok a => .ok (.units a)
  | .error e => if e ∈ caught then .ok (.plain shape get) else .error e

/-- pytorch_model.py:100-105: the result of `PyTorchNetwork`; `dims` are the dimensions of the data it was given, if it has any. -/
def networkUnits {δ κ α : Type} (ops : DimOps δ κ) (dims : Option (List δ)) (shape : List Nat) (get : List Nat → α) : Except PyErr (Data δ α) :=
  match dims with
  | none => .ok (.plain shape get)
  | some [] => .error .indexError
  | some (d :: _) => wrap ops [.attributeError, .valueError] shape get [d, ops.identity]

/-- pytorch_model.py:196-203: the result of `PyTorchGan`. -/
def ganUnits {δ κ α : Type} (ops : DimOps δ κ) (dims : Option (List δ)) (shape : List Nat) (get : List Nat → α) : Except PyErr (Data δ α) :=
  match dims with
  | none => .ok (.plain shape get)
  | some ds => wrap ops [.attributeError, .valueError] shape get (ds.dropLast ++ [ops.identity])

/-- pytorch_model.py:258-263: the result of `PyTorchAutoEncoder`. -/
def autoUnits {δ κ α : Type} (ops : DimOps δ κ) (dims : Option (List δ)) (shape : List Nat) (get : List Nat → α) : Except PyErr (Data δ α) :=
  match dims with
  | none => .ok (.plain shape get)
  | some ds => wrap ops [.attributeError] shape get (ds.take 1 ++ List.replicate (shape.length - 1) ops.identity)

/-- preprocess.py:395-399: the result of `SimHash`, `n` codes of `bits` numbers. -/
def simhashUnits {δ κ α : Type} (ops : DimOps δ κ) (dims : Option (List δ)) (n bits : Nat) (get : List Nat → α) : Except PyErr (Data δ α) :=
  match dims with
  | none => .ok (.plain [n, bits] get)
  | some [] => .error .indexError
  | some (d :: _) => wrap ops [.attributeError] [n, bits] get [d, ops.identity]

/-! ## Training -/

/-- What a node yields: the data it hands on to the nodes after it, and the operation that is stored. -/
structure Result (R S : Type) where
  handed : List S
  stored : List R → Except PyErr (List S)

/-- Handling a RuntimeError reads `e.message`, which does not exist (pytorch_model.py:154-157, 226-229, 292-295). -/
def onRuntime : PyErr → PyErr
  | .runtimeError => .attributeError
  | e => e

/-- `[f(x) for x in rows]`. -/
def mapRows {α β : Type} (f : α → Except PyErr β) : List α → Except PyErr (List β)
  | [] => .ok []
  | x :: xs => (f x).bind fun y => (mapRows f xs).map (y :: ·)

/-- The slices `x[i: i + c] for i in range(0, len(x), c)` (learn/util.py:107-109). -/
def chunksOf {α : Type} (x : List α) (c : Int) : List (List α) :=
  if c < 0 then [] else (Learn.rangeStep x.length c.toNat).map fun i => (x.take (i + c.toNat)).drop i

/-- learn/util.py:92-109 `apply_network` with a network that may fail (out of memory is a RuntimeError): chunks are computed one after the other. -/
def applyFailing {α β : Type} (net : List α → Except PyErr (List β)) (x : List α) (chunksize : Option Int) : Except PyErr (List β) :=
  match chunksize with
  | none => net x
  | some c =>
    if c = 0 then .error .valueError
    else match mapRows net (chunksOf x c) with
      | .error e => .error e
      | .ok [] => .error .valueError
      | .ok cs => .ok cs.flatten

/-- pytorch_model.py:140-169 `PyTorchNetwork._process`: `prep` is `training_set_prep`, `post` is `post_training_func`. -/
def netProcessE {R L S : Type} (prep : List R × List L → List R × List L) (train : List R × List L → List R → Except PyErr (List S)) (post : List R → List R)
    (chunksize : Option Int) (batchSize : Int) (data : List R × List L) : Except PyErr (Result R S) :=
  let data := prep data
  let net := train data
  match applyFailing net (post data.1) (some (Ops.trainingChunk chunksize batchSize)) with
  | .error e => .error (onRuntime e)
  | .ok s => .ok ⟨s, fun x => applyFailing net x (some (Ops.storedChunk chunksize batchSize))⟩

/-- pytorch_model.py:216-241 `PyTorchGan._process`: training gives a generator and a discriminator; `generator` is `apply_network == 'generator'`. -/
def ganProcessE {R S : Type} (train : List R → (List R → Except PyErr (List S)) × (List R → Except PyErr (List S))) (generator : Bool) (data : List R) :
    Except PyErr (Result R S) :=
  let net := train data
  match applyFailing net.2 data (some 128) with
  | .error e => .error (onRuntime e)
  | .ok s => .ok ⟨s, fun x => applyFailing (if generator then net.1 else net.2) x (some 128)⟩

/-- pytorch_model.py:173-181: the constructor of `PyTorchGan`. -/
def ganInit (name : String) : Except PyErr Bool :=
  if name = "generator" then .ok true else if name = "discriminator" then .ok false else .error .valueError

/-- pytorch_model.py:279-312 `PyTorchAutoEncoder._process`: the data are the labels.  A ValueError ends the attempts, nothing is handed on. -/
def autoProcessE {R S : Type} (train : List R × List R → List R → Except PyErr (List S)) (data : List R) :
    Except PyErr (Option (List S) × (List R → Except PyErr (List S))) :=
  let enc := train (data, data)
  match applyFailing enc data (some 128) with
  | .error .valueError => .ok (none, fun x => applyFailing enc x (some 128))
  | .error e => .error (onRuntime e)
  | .ok s => .ok (some s, fun x => applyFailing enc x (some 128))

/-- pytorch_model.py:140-169, a network that does not fail. -/
def netProcess {R L S : Type} (prep : List R × List L → List R × List L) (train : List R × List L → List R → List S) (post : List R → List R)
    (chunksize : Option Int) (batchSize : Int) (data : List R × List L) : Except PyErr (Result R S) :=
  netProcessE prep (fun d x => .ok (train d x)) post chunksize batchSize data

/-- pytorch_model.py:216-241, networks that do not fail. -/
def ganProcess {R S : Type} (train : List R → (List R → List S) × (List R → List S)) (generator : Bool) (data : List R) :
    Except PyErr (Result R S) :=
  ganProcessE (fun d => (fun x => .ok ((train d).1 x), fun x => .ok ((train d).2 x))) generator data

/-- pytorch_model.py:279-312, an encoder that does not fail. -/
def autoProcess {R S : Type} (train : List R × List R → List R → List S) (data : List R) :
    Except PyErr (Option (List S) × (List R → Except PyErr (List S))) :=
  autoProcessE (fun d x => .ok (train d x)) data

/-- preprocess.py:409-419 `SimHash._process`, the codes not packed: planes through the mean and standard deviation of the flattened examples, `a` and `b` the
two draws of the random generator for those (functional.py:4-13). -/
noncomputable def simProcess (a b : List ℝ → List ℝ → List (List ℝ)) (d : Pipeline.Batch) : Except PyErr (Result (List ℝ) (List Bool)) :=
  match Pipeline.hyperplanes (Fit.colMean d) (Fit.colStd d) (a (Fit.colMean d) (Fit.colStd d)) (b (Fit.colMean d) (Fit.colStd d)) with
  | .error e => .error e
  | .ok planes =>
    match mapRows (Pipeline.simhash planes) d.rows with
    | .error e => .error e
    | .ok codes => .ok ⟨codes, mapRows (Pipeline.simhash planes)⟩

end Zounds.Forward
