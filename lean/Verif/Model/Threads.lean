import Verif.Model.HammingDb

/-!
# zounds/index/hammingdb.py: one HammingDb object used by several threads

`HammingIndex(.., listen=True)` (index.py:94-97) appends in a thread of its own while others search the same object.  A thread may be interrupted between any two of the
steps below.  The object has one buffer for codes (`_code_buffer`) and one row that is filled before it is appended (`_append_buffer`).  One process: all ids in the store are
known in memory, so that catching up (hammingdb.py:134-136) adds nothing and is left out.
-/

namespace Zounds.Threads
open Zounds.HammingDb (Bytes)

/-- A thread that appends the codes `todo`, each with the id it draws; `pc` is the next step of the append of the first one. -/
structure Appender where
  todo : List (Nat × Bytes)
  pc : Nat := 0
  deriving DecidableEq, Repr

/-- A thread that makes one search. -/
structure Searcher (A : Type) where
  query : Bytes
  pc : Nat := 0
  answer : Option A := none
  deriving DecidableEq, Repr

/-- The object, its store and the threads. `writer`: which thread's write transaction is open. -/
structure State (A : Type) where
  store : List (Nat × Bytes) := []
  mem : List (Nat × Bytes) := []
  buf : Bytes := []
  row : Nat × Bytes := (0, [])
  writer : Option Nat := none
  appenders : List Appender
  searchers : List (Searcher A)

/-- The next step of an appending thread (hammingdb.py:141-156, 124-132, 113-115):
0. `env.begin(write=True)` waits for other writers; 1. `arr[0]['id'] = _id`; 2. `_np_code` fills the buffer; 3. `arr[0]['code'] = ` the buffer; 4. `_codes.append(arr)`;
5. the transaction commits. The size of the code has been checked before. -/
def stepAppender {A : Type} (s : State A) (k : Nat) (a : Appender) : State A :=
  match a.todo with
  | [] => s
  | (id, code) :: rest =>
    if a.pc = 0 then
      if s.writer = none then { s with writer := some k, appenders := s.appenders.set k { a with pc := 1 } } else s
    else if a.pc = 1 then { s with row := (id, s.row.2), appenders := s.appenders.set k { a with pc := 2 } }
    else if a.pc = 2 then { s with buf := code, appenders := s.appenders.set k { a with pc := 3 } }
    else if a.pc = 3 then { s with row := (s.row.1, s.buf), appenders := s.appenders.set k { a with pc := 4 } }
    else if a.pc = 4 then { s with mem := s.mem ++ [s.row], appenders := s.appenders.set k { a with pc := 5 } }
    else { s with store := s.store ++ [(id, code)], writer := none, appenders := s.appenders.set k { todo := rest, pc := 0 } }

/-- The next step of a searching thread (hammingdb.py:172-218): 0. `query = self._np_code(code)` fills the buffer, `query` is that buffer; 1. distances to all codes in memory,
then the nearest of them, as `answer` computes it from query and codes. -/
def stepSearcher {A : Type} (answer : Bytes → List (Nat × Bytes) → A) (s : State A) (k : Nat) (t : Searcher A) : State A :=
  if t.pc = 0 then { s with buf := t.query, searchers := s.searchers.set k { t with pc := 1 } }
  else if t.pc = 1 then { s with searchers := s.searchers.set k { t with pc := 2, answer := some (answer s.buf s.mem) } }
  else s

/-- Whose turn it is. -/
inductive Turn where
  | appender (k : Nat)
  | searcher (k : Nat)
  deriving DecidableEq, Repr

/-- One turn. -/
def turn {A : Type} (answer : Bytes → List (Nat × Bytes) → A) (s : State A) : Turn → State A
  | .appender k =>
    match s.appenders[k]? with
    | none => s
    | some a => stepAppender s k a
  | .searcher k =>
    match s.searchers[k]? with
    | none => s
    | some t => stepSearcher answer s k t

/-- A schedule. -/
def sched {A : Type} (answer : Bytes → List (Nat × Bytes) → A) (s : State A) : List Turn → State A
  | [] => s
  | t :: ts => sched answer (turn answer s t) ts

end Zounds.Threads
