import Verif.Model.Reservoir

/-!
# zounds/learn/random_samples.py `MultiplexedReservoir.add` from several threads
-/

namespace Zounds.MuxThreads
open Zounds Zounds.Reservoir

/-- A thread in `MultiplexedReservoir.add` (random_samples.py:111-119) after the slots are drawn (:117): the slots, and the keys it has not written yet with their rows,
in the order of `samples.items()`. -/
structure Adder (κ α : Type) where
  slots : List Nat
  todo : List (κ × List α)

/-- The arrays of the reservoirs (random_samples.py:96-98; all of them are there already), by key, and the threads of the pool (:210-215). -/
structure World (κ α : Type) where
  arrs : κ → List α
  threads : List (Adder κ α)

/-- random_samples.py:54, 119: `self.reservoir[k].add(v, indices=indices)` writes the rows of one key. -/
def put {κ α : Type} [DecidableEq κ] (arrs : κ → List α) (slots : List Nat) (q : κ) (rows : List α) : κ → List α :=
  fun p => if p = q then assign (arrs p) slots rows else arrs p

/-- Thread `i` writes its next key: numpy assigns the rows while it holds the interpreter lock (random_samples.py:115-119). -/
def step {κ α : Type} [DecidableEq κ] (w : World κ α) (i : Nat) : World κ α :=
  match w.threads[i]? with
  | none => w
  | some t =>
    match t.todo with
    | [] => w
    | (q, rows) :: rest => ⟨put w.arrs t.slots q rows, w.threads.set i ⟨t.slots, rest⟩⟩

/-- A schedule of the threads of the pool (random_samples.py:210-215). -/
def run {κ α : Type} [DecidableEq κ] : World κ α → List Nat → World κ α
  | w, [] => w
  | w, i :: is => run (step w i) is

end Zounds.MuxThreads
