import Verif.Model.Reservoir

/-!
# zounds/learn/random_samples.py `InfiniteSampler`: passes over a data set, one document after the other or with threads
-/

namespace Zounds.Sampler
open Zounds Zounds.Reservoir

/-! ## Without threads -/

/-- The random numbers drawn for one document: which of its rows (random_samples.py:197) and which slots of the reservoir (:46). -/
structure Draw where
  picks : List Nat
  slots : List Int

/-- random_samples.py:173-200 `_update_reservoir` of a document with these rows: ZeroDivisionError if no document has any rows, and `np.random.randint(0, 0, …)` is a
ValueError if this one has none. -/
def update {α : Type} (z : α) (total : Nat) (res : Res α) (doc : List α) (d : Draw) : Res α × Except PyErr Unit :=
  if total = 0 then (res, .error .zeroDivision)
  else if doc.length = 0 then (res, .error .valueError)
  else res.add z (rowsAt doc d.picks) d.slots

/-- random_samples.py:217-218: one pass over the documents. -/
def onePass {α : Type} (z : α) (total : Nat) : Res α → List (List α × Draw) → Res α × Except PyErr Unit
  | res, [] => (res, .ok ())
  | res, (doc, d) :: rest =>
    match update z total res doc d with
    | (res', .error e) => (res', .error e)
    | (res', .ok ()) => onePass z total res' rest

/-- random_samples.py:153-171, 202-220 `_process` with `parallel=False`: passes, after each of which the content of the reservoir is yielded; the arrays yielded, and
the exception that ended it, if any.  `draws`: for every pass the numbers drawn for every document. -/
def passes {α : Type} (z : α) (docs : List (List α)) : Res α → List (List Draw) → List (List α) × Option PyErr
  | _, [] => ([], none)
  | res, ds :: rest =>
    match onePass z (docs.map List.length).sum res (docs.zip ds) with
    | (_, .error e) => ([], some e)
    | (res', .ok ()) =>
      match res'.get with
      | .error e => ([], some e)
      | .ok x => (x :: (passes z docs res' rest).1, (passes z docs res' rest).2)

/-! ## With threads -/

/-- Where a thread is in `Reservoir.add` (random_samples.py:29-31, 34, 54, 54, 55): before looking whether there is an array, before making one, before reading
`self.arr` to write to it, before writing to the array it has read, before `self.indices.update`, or done. -/
inductive At where
  | check
  | make
  | read
  | write (arr : Nat)
  | update
  | done
  deriving DecidableEq, Repr

/-- A thread that adds rows at slots. -/
structure Thread (α : Type) where
  rows : List α
  slots : List Nat
  pc : At

/-- The reservoir as threads share it: all arrays ever made, `self.arr` (which of them), and `self.indices`. -/
structure Shared (α : Type) where
  heap : List (List α)
  arr : Option Nat
  indices : List Nat

/-- The reservoir and the threads of `pool.imap_unordered` (random_samples.py:210-215). -/
structure World (α : Type) where
  shared : Shared α
  threads : List (Thread α)

/-- One step of `Reservoir.add(samples)` with plain arrays (for arrays with units :36-40 wraps the array made): every step is done while holding the interpreter lock. -/
def stepThread {α : Type} (n : Nat) (z : α) (s : Shared α) (t : Thread α) : Shared α × Thread α :=
  match t.pc with
  | .check => if s.arr.isNone then (s, { t with pc := .make }) else (s, { t with pc := .read })
  | .make => ({ s with heap := s.heap ++ [List.replicate n z], arr := some s.heap.length }, { t with pc := .read })
  | .read => (s, { t with pc := .write (s.arr.getD 0) })
  | .write a => ({ s with heap := s.heap.set a (assign (s.heap.getD a []) t.slots t.rows) }, { t with pc := .update })
  | .update => ({ s with indices := s.indices ++ t.slots.filter (· ∉ s.indices) }, { t with pc := .done })
  | .done => (s, t)

/-- Thread `i` makes a step. -/
def step {α : Type} (n : Nat) (z : α) (w : World α) (i : Nat) : World α :=
  match w.threads[i]? with
  | none => w
  | some t => ⟨(stepThread n z w.shared t).1, w.threads.set i (stepThread n z w.shared t).2⟩

/-- A schedule. -/
def run {α : Type} (n : Nat) (z : α) : World α → List Nat → World α
  | w, [] => w
  | w, i :: is => run n z (step n z w i) is

/-- random_samples.py:57-62 `get`, after all threads are done (`indices` in the order of `sorted`). -/
def content {α : Type} (n : Nat) (s : Shared α) : Except PyErr (List α) :=
  match s.arr with
  | none => .error .typeError
  | some a => .ok (rowsAt (s.heap.getD a []) ((List.range n).filter (· ∈ s.indices)))

end Zounds.Sampler
