import Verif.Model.Base

/-!
# zounds/datasets/ingest.py

The pool is modelled as a transition system: the workers of a `ThreadPool` or `Pool` take tasks from one queue in order, at most
`cores` of them are in flight, and every interleaving of their steps is allowed.  A worker's step is an atomic test of
`cls.exists` or the completion (or failure) of `cls.process`.
-/

namespace Zounds.Ingest

/-- An element of the data set, seen through `metadata.request` (soundfile/audio_metadata.py:61-64): the url of its request, or
`none` when the element has no request (its `uri` has no `url`, or it is not an `AudioMetaData`), for which `request.url`
raises outside of `ingest_one`'s `try`. -/
abbrev Item := Option Nat

/-- A task taken by a worker: about to test whether the url exists (`false`), or inside `cls.process` (`true`). -/
abbrev Task := Item × Bool

/-- The state of a call of `ingest`.  `db`: the ids in the database; `started`: the urls for which `cls.process` was called, in order of
the calls; `skipped`: those reported as already processed; `failed`: calls of `cls.process` that raised; `lost`: the number
of tasks that raised outside the `try`, whose exceptions the pool stores in a result that nobody reads. -/
structure St where
  queue : List Item
  inflight : List Task
  db : List Nat
  started : List Nat
  skipped : List Nat
  failed : List Nat
  lost : Nat
  deriving DecidableEq, Repr

/-- The state in which `ingest` starts working. -/
def St.init (data : List Item) (db : List Nat) : St := ⟨data, [], db, [], [], [], 0⟩

/-- ingest.py:6-19 `ingest_one` run by the workers of a pool of `cores` workers (ingest.py:31-46, `imap_unordered`). -/
inductive Step (cores : Nat) (skipIfExists : Bool) : St → St → Prop
  /-- an idle worker takes the next task -/
  | take {s : St} {x : Item} {q : List Item} (hq : s.queue = x :: q) (hc : s.inflight.length < cores) :
      Step cores skipIfExists s { s with queue := q, inflight := s.inflight ++ [(x, false)] }
  /-- ingest.py:8-9: no request, an exception outside the `try` -/
  | noRequest {s : St} {a b : List Task} (hi : s.inflight = a ++ (none, false) :: b) :
      Step cores skipIfExists s { s with inflight := a ++ b, lost := s.lost + 1 }
  /-- ingest.py:10-12 -/
  | skip {s : St} {a b : List Task} {u : Nat} (hi : s.inflight = a ++ (some u, false) :: b)
      (hs : skipIfExists = true) (he : u ∈ s.db) :
      Step cores skipIfExists s { s with inflight := a ++ b, skipped := s.skipped ++ [u] }
  /-- ingest.py:14-16: `cls.process` is called -/
  | start {s : St} {a b : List Task} {u : Nat} (hi : s.inflight = a ++ (some u, false) :: b)
      (hs : ¬ (skipIfExists = true ∧ u ∈ s.db)) :
      Step cores skipIfExists s { s with inflight := a ++ (some u, true) :: b, started := s.started ++ [u] }
  /-- ingest.py:16: `cls.process` completes, the document is in the database -/
  | finish {s : St} {a b : List Task} {u : Nat} (hi : s.inflight = a ++ (some u, true) :: b) :
      Step cores skipIfExists s { s with inflight := a ++ b, db := u :: s.db }
  /-- ingest.py:17-18: `cls.process` raises, the exception is printed -/
  | fail {s : St} {a b : List Task} {u : Nat} (hi : s.inflight = a ++ (some u, true) :: b) :
      Step cores skipIfExists s { s with inflight := a ++ b, failed := s.failed ++ [u] }

/-- Executions. -/
inductive Reaches (cores : Nat) (skipIfExists : Bool) (s : St) : St → Prop
  | refl : Reaches cores skipIfExists s s
  | step {t u : St} : Reaches cores skipIfExists s t → Step cores skipIfExists t u → Reaches cores skipIfExists s u

/-- `pool.close(); pool.join()` (ingest.py:49-50) returns when all tasks are done. -/
def St.done (s : St) : Prop := s.queue = [] ∧ s.inflight = []

/-- The keyword arguments of `ingest` (ingest.py:21-29). -/
structure Flags where
  skipIfExists : Bool
  multiProcess : Bool
  multiThreaded : Bool
  cores : Option Int
  deriving Repr

/-- ingest.py:32-36: the number of workers: `cores or cpu_count()`; a pool of fewer than one worker is refused. -/
def workers (f : Flags) (cpuCount : Nat) : Except PyErr Nat :=
  let n : Int := match f.cores with
    | some c => if c = 0 then cpuCount else c
    | none => cpuCount
  if n < 1 then .error .valueError else .ok n.toNat

/-- ingest.py:22-50 `ingest`: `Ingests f cpu data db r` when a call with these arguments can end with `r`.  Without a pool `map_func`
is Python 3's `map`, whose result is dropped without being iterated: the data set is not read and the state
stays as it was. -/
def Ingests (f : Flags) (cpuCount : Nat) (data : List Item) (db : List Nat) (r : Except PyErr St) : Prop :=
  if f.multiProcess || f.multiThreaded then
    match workers f cpuCount with
    | .error e => r = .error e
    | .ok n => ∃ s, Reaches n f.skipIfExists (St.init data db) s ∧ s.done ∧ r = .ok s
  else r = .ok (St.init data db)

end Zounds.Ingest
