import Verif.Model.Base
import Verif.Model.Array
import Verif.Model.Learn

/-!
# zounds/learn/preprocess.py `Op`, `BasePreprocessor`, `Pipeline`; zounds/learn/pytorch_model.py; zounds/learn/graph.py

Python functions are modelled by what calling them needs: the names of their parameters, default values, the module names they read
and their body, an arbitrary function.  md5 is an arbitrary function of bytes (`H` below).
-/

namespace Zounds.Ops
open Zounds

/-- Exceptions of a call. -/
inductive Err where
  | typeError
  | nameError
  | valueError
  | indexError
  | keyError
  | attributeError
  | runtimeError
  | notImplemented
  deriving DecidableEq, Repr

/-- A Python dict with string keys, in insertion order. -/
abbrev Dict (V : Type) := List (String × V)

/-- `d.get(k)`. -/
def get {V : Type} (d : Dict V) (k : String) : Option V := (d.find? fun kv => kv.1 = k).map (·.2)

/-- `d[k] = v`: an existing key keeps its place. -/
def put {V : Type} (d : Dict V) (k : String) (v : V) : Dict V :=
  if d.any fun kv => kv.1 = k then d.map fun kv => if kv.1 = k then (k, v) else kv else d ++ [(k, v)]

/-- `a.update(b)`. -/
def update {V : Type} (a b : Dict V) : Dict V := b.foldl (fun d kv => put d kv.1 kv.2) a

/-- A code object (`func.__code__`), with `marshal.dumps` of it. `body` takes the module's names, the values of the parameters and the
surplus keyword arguments; `freevars` is `co_freevars`, names of enclosing functions. -/
structure Code (V R : Type) where
  bytes : List Nat
  params : List String
  varkw : Bool
  freevars : List String
  body : (String → Option V) → Dict V → Dict V → Except Err R

/-- A function object: its code, the default values of parameters, the names of its module. The values of enclosing functions' names are part of
the body. -/
structure Func (V R : Type) where
  code : Code V R
  defaults : Dict V
  globals : String → Option V

/-- A parameter's name and value: the keyword argument, or the default value. -/
def param {V : Type} (defaults kwargs : Dict V) (q : String) : Option (String × V) :=
  match get kwargs q with
  | some v => some (q, v)
  | none => (get defaults q).map fun v => (q, v)

/-- Binding of the arguments of `f(arg, **kwargs)`: the values of the parameters and the surplus keyword arguments. Every mismatch is a
TypeError. -/
def bind {V R : Type} (f : Func V R) (arg : V) (kwargs : Dict V) : Except Err (Dict V × Dict V) :=
  match f.code.params with
  | [] => .error .typeError
  | p :: ps =>
    if kwargs.any fun kv => kv.1 = p then .error .typeError
    else if !f.code.varkw && kwargs.any fun kv => kv.1 ∉ ps then .error .typeError
    else
      match ps.mapM (param f.defaults kwargs) with
      | none => .error .typeError
      | some vs => .ok ((p, arg) :: vs, kwargs.filter fun kv => kv.1 ∉ ps)

/-- `f(arg, **kwargs)`. -/
def call {V R : Type} (f : Func V R) (arg : V) (kwargs : Dict V) : Except Err R :=
  match bind f arg kwargs with
  | .error e => .error e
  | .ok (ps, extra) => f.code.body f.globals ps extra

/-- preprocess.py:12-21 `Op`: the marshalled code and the keyword arguments. -/
structure Op (V R : Type) where
  code : Code V R
  kwargs : Dict V

/-- preprocess.py:13-20 `Op(func, **kwargs)` of a function. -/
def Op.ofFunc {V R : Type} (f : Func V R) (kwargs : Dict V) : Op V R := ⟨f.code, kwargs⟩

/-- preprocess.py:48-55 `Op.__call__`: a function made of the code, with the names of the module zounds.learn.preprocess (`here`), no default values
and no enclosing functions (`types.FunctionType` refuses code with free variables: TypeError); own keyword arguments replace those of the call. -/
def Op.call {V R : Type} (here : String → Option V) (op : Op V R) (arg : V) (kwargs : Dict V) : Except Err R :=
  if op.code.freevars ≠ [] then .error .typeError
  else Ops.call ⟨op.code, [], here⟩ arg (update kwargs op.kwargs)

/-- preprocess.py:39-46 `Op.__getattr__`. -/
def Op.getattr {V R : Type} (op : Op V R) (k : String) : Except Err V :=
  if k = "_kwargs" then .error .attributeError
  else match get op.kwargs k with
    | some v => .ok v
    | none => .error .attributeError

/-- preprocess.py:216-217: the function that stands for a missing inverse; it takes no arguments. -/
def notImplemented {V R : Type} : Func V R := ⟨⟨[], [], false, [], fun _ _ _ => .error .notImplemented⟩, [], fun _ => none⟩

/-- preprocess.py:213-221, 226-227, 160-161: the inverse of a `BasePreprocessor`, given the user's backward function or None. -/
def baseInverse {V R : Type} (backward : Option (Func V R)) : Op V R := Op.ofFunc (backward.getD notImplemented) []

/-! ## Versions -/

/-- What `Op._compute_version` sees of a parameter: an object with a `version` that is a string (an Op, a Pipeline), anything numpy makes an array
of numbers of (its bytes; `false` if it is not stored in C order), or any other object: an array that holds its address. -/
inductive Kind where
  | versioned (v : String)
  | numbers (bytes : List Nat) (corder : Bool)
  | object (address : List Nat)
  deriving DecidableEq, Repr

/-- preprocess.py:32-35, one parameter: the bytes given to `h.update`. hashlib does not accept strings (TypeError, not AttributeError) nor
arrays that are not contiguous (ValueError). -/
def Kind.hashed : Kind → Except Err (List Nat)
  | .versioned _ => .error .typeError
  | .numbers b true => .ok b
  | .numbers _ false => .error .valueError
  | .object a => .ok a

/-- all parameters' bytes, in order -/
def hashedAll : List Kind → Except Err (List Nat)
  | [] => .ok []
  | k :: ks =>
    match k.hashed with
    | .error e => .error e
    | .ok b =>
      match hashedAll ks with
      | .error e => .error e
      | .ok bs => .ok (b ++ bs)

/-- preprocess.py:30-37 `_compute_version`: the digest of the code followed by the parameters. -/
def opVersion {V R : Type} (H : List Nat → List Char) (kind : V → Kind) (op : Op V R) : Except Err (List Char) :=
  match hashedAll (op.kwargs.map fun kv => kind kv.2) with
  | .error e => .error e
  | .ok bs => .ok (H (op.code.bytes ++ bs))

/-- preprocess.py:669-672 `Pipeline.__init__`: the version of a pipeline, from those of its operations; `str.encode` of hexadecimal digits is one byte
each. -/
def pipelineVersion (H : List Nat → List Char) (versions : List (List Char)) : List Char := H (versions.flatten.map Char.toNat)

/-- learn.py:70-76 `Learned.version`. -/
def learnedVersion (explicit : Option (List Char)) (pipeline : List Char) : List Char :=
  match explicit with
  | some v => v
  | none => pipeline

/-! ## Parts of a pipeline -/

/-- What a pipeline is indexed with. -/
inductive Index where
  | int (i : Int)
  | list (is : List Int)
  | slice (a b step : Option Int)
  | numpyInt (i : Int)
  deriving DecidableEq, Repr

/-- What indexing gives. -/
inductive Part (P : Type) where
  | processor (p : P)
  | pipeline (ps : List P)
  deriving DecidableEq, Repr

/-- The elements at the positions, all of which exist. -/
def at' {P : Type} (ps : List P) (is : List Nat) : List P := is.filterMap fun i => ps[i]?

/-- preprocess.py:674-679 `Pipeline.__getitem__`.  A numpy integer is no `int`: the processor it selects is given to `Pipeline`, which cannot iterate
over it (TypeError). -/
def getItem {P : Type} (ps : List P) : Index → Except PyErr (Part P)
  | .int i =>
    match Arr.normIndex ps.length i with
    | .error e => .error e
    | .ok k =>
      match ps[k]? with
      | some p => .ok (.processor p)
      | none => .error .indexError
  | .list is =>
    match Arr.normList ps.length is with
    | .error e => .error e
    | .ok ks => .ok (.pipeline (at' ps ks))
  | .slice a b step =>
    match Arr.sliceRange ps.length a b step with
    | .error e => .error e
    | .ok (start, st, n) => .ok (.pipeline (at' ps ((List.range n).map fun (j : Nat) => (start + (j : Int) * st).toNat)))
  | .numpyInt i =>
    match Arr.normIndex ps.length i with
    | .error e => .error e
    | .ok _ => .error .typeError

/-! ## pytorch_model.py -/

/-- pytorch_model.py:115-119 `_enqueue`: after a dequeue the cache is None. -/
def enqueue {D : Type} (cache : Option (Dict D)) (k : String) (d : D) : Dict D := put (cache.getD []) k d

/-- pytorch_model.py:121-132 `_dequeue` of a node with `n` needs: none is NotEnoughData. -/
def dequeue {D : Type} (n : Nat) (cache : Option (Dict D)) : Option (Dict D) :=
  match cache with
  | none => none
  | some c => if c.length ≠ n then none else some c

/-- The node's protocol: data arrives from its needs one by one; after each the node tries to dequeue; what it processes, in order. `none`
for arrivals after which nothing is processed. -/
def network {D : Type} (n : Nat) : Option (Dict D) → List (String × D) → List (Option (Dict D))
  | _, [] => []
  | cache, (k, d) :: rest =>
    match dequeue n (some (enqueue cache k d)) with
    | none => none :: network n (some (enqueue cache k d)) rest
    | some c => some c :: network n none rest

/-- What happens when the trained network is applied to the data it was trained with. -/
inductive Applied (D : Type) where
  | ok (d : D)
  | runtimeError
  | valueError

/-- Which node. -/
inductive Kind3 where
  | network
  | gan
  | autoencoder
  deriving DecidableEq, Repr

/-- pytorch_model.py:140-169, 216-241, 279-312: the processed data that the result is made with.  Handling a RuntimeError reads `e.message`, which
exceptions do not have in Python 3: AttributeError. -/
def processed {D : Type} : Kind3 → Applied D → Except Err (Option D)
  | _, .ok d => .ok (some d)
  | _, .runtimeError => .error .attributeError
  | .autoencoder, .valueError => .ok none
  | _, .valueError => .error .valueError

/-- pytorch_model.py:147 `self.chunksize or self.trainer.batch_size`. -/
def trainingChunk (chunksize : Option Int) (batchSize : Int) : Int :=
  match chunksize with
  | some c => if c = 0 then batchSize else c
  | none => batchSize

/-- pytorch_model.py:159-160: the chunk size of the stored operation. -/
def storedChunk (_chunksize : Option Int) (batchSize : Int) : Int := batchSize

/-- The batches that `apply_network` with chunk size `c > 0` gives to the network (learn/util.py:104-109). -/
def batches {α : Type} (x : List α) (c : Nat) : List (List α) := (Learn.rangeStep x.length c).map fun i => (x.take (i + c)).drop i

/-! ### Storing a trained network -/

/-- A torch module: its class (named), its `__dict__`, its weights, where it is in memory, and whether it is in training mode. -/
structure Net (A W : Type) where
  cls : String
  dict : Dict A
  weights : Dict W
  address : Nat
  training : Bool

/-- A class: the names of its constructor's arguments and the constructor, which makes a new module in training mode. -/
structure NetClass (A W : Type) where
  args : List String
  make : List A → Nat → Except Err (Net A W)

/-- A keyword argument of an operation of a trained network. -/
inductive KV (A W : Type) where
  | net (n : Net A W)
  | other (a : A)

/-- What is stored. -/
structure State (A W R : Type) where
  forward : Code (KV A W) R
  opKwargs : Dict (KV A W)
  invData : Code (KV A W) R
  backward : Code (KV A W) R
  weights : Dict W
  name : String
  cls : String
  initArgs : List A

/-- A `PyTorchPreprocessResult` without its data. -/
structure NetResult (A W R : Type) where
  op : Op (KV A W) R
  invData : Op (KV A W) R
  inverse : Op (KV A W) R
  name : String

/-- persistence/util.py:25-33 `extract_init_args`: a missing member is a KeyError. -/
def initArgs {A : Type} (dict : Dict A) : List String → Except Err (List A)
  | [] => .ok []
  | k :: ks =>
    match get dict k with
    | none => .error .keyError
    | some v =>
      match initArgs dict ks with
      | .error e => .error e
      | .ok vs => .ok (v :: vs)

/-- pytorch_model.py:13-40 `__getstate__`. -/
def getstate {A W R : Type} (classes : String → Option (NetClass A W)) (r : NetResult A W R) : Except Err (State A W R) :=
  match r.op.getattr "network" with
  | .error e => .error e
  | .ok (.other _) => .error .attributeError
  | .ok (.net n) =>
    match classes n.cls with
    | none => .error .typeError
    | some c =>
      match initArgs n.dict c.args with
      | .error e => .error e
      | .ok args =>
        .ok { forward := r.op.code, opKwargs := r.op.kwargs.filter fun kv => kv.1 ≠ "network", invData := r.invData.code, backward := r.inverse.code,
              weights := n.weights, name := r.name, cls := n.cls, initArgs := args }

/-- torch's `load_state_dict` (strict): every weight of the module, and nothing else, must be there: RuntimeError otherwise. -/
def loadStateDict {A W : Type} (n : Net A W) (ws : Dict W) : Except Err (Net A W) :=
  if (∀ k ∈ n.weights.map (·.1), k ∈ ws.map (·.1)) ∧ (∀ k ∈ ws.map (·.1), k ∈ n.weights.map (·.1)) then
    .ok { n with weights := n.weights.map fun kv => (kv.1, (get ws kv.1).getD kv.2) }
  else .error .runtimeError

/-- pytorch_model.py:40-67 `__setstate__`; `address` is where the new module is.  Moving it to a GPU is not modelled. -/
def setstate {A W R : Type} (classes : String → Option (NetClass A W)) (address : Nat) (s : State A W R) : Except Err (NetResult A W R) :=
  match classes s.cls with
  | none => .error .typeError
  | some c =>
    match c.make s.initArgs address with
    | .error e => .error e
    | .ok n =>
      match loadStateDict n s.weights with
      | .error e => .error e
      | .ok n =>
        let n := { n with training := false }
        .ok { op := ⟨s.forward, ("network", .net n) :: s.opKwargs⟩, invData := ⟨s.invData, [("network", .net n)]⟩, inverse := ⟨s.backward, []⟩, name := s.name }

/-- What the version of an operation sees of a keyword argument: a module is an object. `bytes` are those of an address, `enc` those of other
arguments. -/
def KV.kind {A W : Type} (bytes : Nat → List Nat) (enc : A → List Nat) : KV A W → Kind
  | .net n => .object (bytes n.address)
  | .other a => .numbers (enc a) true

/-! ## graph.py -/

/-- A feature of a model class: its name and the names of the features it needs; no needs: a root. -/
structure Feature where
  name : String
  needs : List String
  deriving DecidableEq, Repr

/-- graph.py:21-59 `infinite_streaming_learning_pipeline`: the features of the new class and those of the given class afterwards (feature objects
are shared between a class and its subclasses, and the root's needs are changed in place). -/
def infinitePipeline (fs : List Feature) : Except PyErr (List Feature × List Feature) :=
  match fs.filter fun f => f.needs = [] with
  | [root] =>
    let fs' := fs.map fun f => if f = root then { f with needs := ["dataset"] } else f
    .ok (fs' ++ [⟨"dataset", []⟩, ⟨"pipeline", fs.map (·.name)⟩], fs')
  | _ => .error .valueError

/-- graph.py:41-53: the loop over the operations of the pipeline. -/
def firstNetwork {V R : Type} : List (Op V R) → Except Err V
  | [] => .error .runtimeError
  | op :: ops =>
    match op.getattr "network" with
    | .ok n => .ok n
    | .error _ => firstNetwork ops

/-- graph.py:41-54 `load_network`: `stored` are the operations of the stored pipeline, none if nothing has been stored. -/
def loadNetwork {V R : Type} (stored : Option (List (Op V R))) : Except Err V :=
  match stored with
  | none => .error .runtimeError
  | some ops => firstNetwork ops

end Zounds.Ops
