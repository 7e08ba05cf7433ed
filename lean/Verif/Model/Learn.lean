import Verif.Model.Base

/-!
# zounds/learn/util.py `apply_network`, zounds/learn/trainer.py, and the epoch loops of its subclasses
-/

namespace Zounds.Learn

/-- Python's `range(0, n, step)`, `step > 0`. -/
def rangeStep (n step : Nat) : List Nat := (List.range ((n + step - 1) / step)).map (· * step)

/-- learn/util.py:92-109 `apply_network`.  A network maps a batch of rows to a batch of rows; `chunksize` is None or an int.  With a
chunk size: `range` refuses a step of 0; a negative step gives no chunks at all, and `np.concatenate` refuses an empty
list.  Moving tensors between devices is not modelled. -/
def applyNetwork {α β : Type} (net : List α → List β) (x : List α) (chunksize : Option Int) : Except PyErr (List β) :=
  match chunksize with
  | none => .ok (net x)
  | some c =>
    if c = 0 then .error .valueError
    else
      let chunks := if c < 0 then [] else (rangeStep x.length c.toNat).map fun i => net ((x.take (i + c.toNat)).drop i)
      match chunks with
      | [] => .error .valueError
      | cs => .ok cs.flatten

/-! ## Trainers -/

/-- The state of a `Trainer` (learn/trainer.py:7-15) that the epoch loop depends on. `callbacks` is
`_batch_complete_callbacks`: keyed by `id(callback)`, in insertion order; here a callback is its identity. -/
structure Trainer where
  epochs : Nat
  batchSize : Nat
  checkpointEpochs : Nat
  currentEpoch : Nat
  callbacks : List Nat
  deriving Repr

/-- Which classes stop at `epoch >= self.epochs` (supervised.py:82, wgan.py:168) and which at `epoch > self.epochs`
(trainer.py:64, embedding.py:64). -/
inductive Stop where
  | atEpochs
  | afterEpochs
  deriving DecidableEq, Repr

/-- The test that breaks the epoch loop. -/
def Stop.done (s : Stop) (epochs epoch : Nat) : Bool :=
  match s with
  | .atEpochs => decide (epochs ≤ epoch)
  | .afterEpochs => decide (epochs < epoch)

/-- learn/trainer.py:86-88 `on_batch_complete`: every registered callback is called. -/
def onBatchComplete (t : Trainer) (epoch batch : Nat) : List (Nat × Nat × Nat) :=
  t.callbacks.map fun c => (c, epoch, batch)

/-- learn/trainer.py:60-74, supervised.py:77-122, wgan.py:164-168: the epochs `start … stop-1` of one call of `train`: `fuel` epochs are
left to do from `epoch` on.  Result: the calls made to callbacks, as (callback, epoch, batch), and the number of epochs
completed.  (Callbacks do not register or unregister anything while they run.) -/
def epochLoop (s : Stop) (t : Trainer) (batches : List Nat) : Nat → Nat → List (Nat × Nat × Nat) × Nat
  | 0, _ => ([], 0)
  | fuel + 1, epoch =>
    if s.done t.epochs epoch then ([], 0)
    else
      let r := epochLoop s t batches fuel (epoch + 1)
      ((batches.map (onBatchComplete t epoch)).flatten ++ r.1, r.2 + 1)

/-- One call `train(data)` with `n` examples; the batches are `range(0, n, batch_size)`; a batch size of 0 makes `range` raise once an
epoch is actually started. -/
def train (s : Stop) (t : Trainer) (n : Nat) : Except PyErr (List (Nat × Nat × Nat) × Trainer) :=
  if t.batchSize = 0 ∧ t.checkpointEpochs ≠ 0 ∧ s.done t.epochs t.currentEpoch = false then .error .valueError
  else
    let r := epochLoop s t (rangeStep n t.batchSize) t.checkpointEpochs t.currentEpoch
    .ok (r.1, { t with currentEpoch := t.currentEpoch + r.2 })

/-- embedding.py:59-70 `_driver`: `len(data) // batch_size` batches in every epoch, numbered from 0; `//` by 0 raises at once. -/
def trainTriplet (t : Trainer) (n : Nat) : Except PyErr (List (Nat × Nat × Nat) × Trainer) :=
  if t.batchSize = 0 then .error .zeroDivision
  else
    let r := epochLoop .afterEpochs t (List.range (n / t.batchSize)) t.checkpointEpochs t.currentEpoch
    .ok (r.1, { t with currentEpoch := t.currentEpoch + r.2 })

/-- Calling `train` once for every data set of a stream (`PyTorchNetwork` does so for every chunk it is given). -/
def trainMany (s : Stop) : Trainer → List Nat → Except PyErr (List (Nat × Nat × Nat) × Trainer)
  | t, [] => .ok ([], t)
  | t, n :: ns =>
    match train s t n with
    | .error e => .error e
    | .ok (ev, t') =>
      match trainMany s t' ns with
      | .error e => .error e
      | .ok (ev', t'') => .ok (ev ++ ev', t'')

/-- learn/trainer.py:76-77 `register_batch_complete_callback`: a dict entry keyed by the callback's identity; an existing entry keeps
its place. -/
def Trainer.register (t : Trainer) (c : Nat) : Trainer :=
  if c ∈ t.callbacks then t else { t with callbacks := t.callbacks ++ [c] }

/-- learn/trainer.py:79-84 `unregister_batch_complete_callback`: a missing entry is ignored. -/
def Trainer.unregister (t : Trainer) (c : Nat) : Trainer := { t with callbacks := t.callbacks.filter (· ≠ c) }

/-- A bound method: `obj.method` makes a new object every time it is written, so its identity differs from that of every object still
alive, in particular from that of the bound method registered before.  `alive` are the identities of live objects. -/
def FreshBoundMethod (alive : List Nat) (c : Nat) : Prop := c ∉ alive

/-- supervised.py:115-120: the error values reported to callbacks, given the errors of the training batch and of the test
batch (`none`: no test data, reported as 'n/a'). -/
structure Report (E : Type) where
  trainError : Option E
  testError : Option E
  deriving DecidableEq, Repr

/-- supervised.py:104-120: `e` is the training batch's error, `te` the test batch's. -/
def supervisedReport {E : Type} (e : E) (te : Option E) : Report E := { trainError := te, testError := some e }

/-- supervised.py:54-58: the split into test and training data; `holdout` is `holdout_percent`, `int` truncates
(`holdout ≥ 0`). -/
def holdoutSplit {α : Type} (holdout : Rat) (data : List α) : List α × List α :=
  let k := (holdout * data.length).floor.toNat
  (data.take k, data.drop k)

end Zounds.Learn
