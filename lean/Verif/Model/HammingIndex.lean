import Verif.Model.HammingDb
/-!
# `HammingIndex` event processing (`zounds/index/index.py:22-168`)

The durable state is what the LMDB environment holds: whether the code size has been
recorded, the rows appended so far, and the stored position in the event stream.  Every
`with env.begin(write=True)` block is one atomic transaction (hammingdb.py:69-71,
141-156); a crash can happen between any two of them.  Codes of a wrong size are property
C15 and not modelled here.
-/

namespace Zounds.HammingIndex
open Zounds

/-- An entry of the event log (index.py:158-162): its position in the stream (the ids are
ordered), the document, feature name and feature version it is about. -/
structure Event where
  timestamp : Nat
  docId : Nat
  name : String
  version : String
  deriving DecidableEq

/-- One row of the index: document, and what is stored for one of its segments. -/
structure Row where
  docId : Nat
  segment : Nat
  deriving DecidableEq

/-- The indexed feature (index.py:35-42): its key, version, and the number of segments
that `iter_slices` yields for each document (index.py:123-131). -/
structure Feature where
  key : String
  version : String
  segments : Nat → Nat

/-- The durable state.  `timestamp = some 0` is the empty position `b''`. -/
structure Durable where
  initialised : Bool := false
  rows : List Row := []
  timestamp : Option Nat := none
  deriving DecidableEq

/-- One write transaction. -/
inductive Txn where
  | init
  | append (r : Row)
  | stamp (t : Nat)
  deriving DecidableEq

/-- The effect of a committed transaction: `HammingDb.__init__` writes `codesize`
(hammingdb.py:43), `append` a row (hammingdb.py:141-156), `set_metadata(b'timestamp', ..)`
the position (hammingdb.py:69-71, index.py:141). -/
def Durable.apply (d : Durable) : Txn → Durable
  | .init => { d with initialised := true }
  | .append r => { d with rows := d.rows ++ [r] }
  | .stamp t => { d with timestamp := some t }

/-- Committing a sequence of transactions. -/
def Durable.run (d : Durable) (ts : List Txn) : Durable := ts.foldl Durable.apply d

/-- The rows of a document, in the order of `iter_slices`. -/
def docRows (f : Feature) (docId : Nat) : List Row :=
  (List.range (f.segments docId)).map fun k => ⟨docId, k⟩

/-- The transactions of `HammingIndex.add` (index.py:121-141) once the database is open:
per segment, an append and then the position. -/
def addTxns (f : Feature) (docId : Nat) (timestamp : Nat) : List Txn :=
  (docRows f docId).flatMap fun r => [.append r, .stamp timestamp]

/-- Is the event about the indexed feature (index.py:165-166)? -/
def Feature.concerns (f : Feature) (e : Event) : Bool :=
  decide (e.name = f.key) && decide (e.version = f.version)

/-- The transactions of the loop of `_listen` (index.py:158-168). -/
def loopTxns (f : Feature) (evs : List Event) : List Txn :=
  evs.flatMap fun e => if f.concerns e then addTxns f e.docId e.timestamp else []

/-- `_init_hamming_db` (index.py:99-104, 139) creates the database before the first append. -/
def withInit (d : Durable) (ts : List Txn) : List Txn :=
  if d.initialised || ts.isEmpty then ts else .init :: ts

/-- `HammingIndex(..)` followed by `_listen` (index.py:53-57, 143-168) on a durable state: the
transactions it performs when it is not interrupted.  `strKeys` tells whether the LMDB
binding accepts the text key of `get_metadata('timestamp')` (index.py:146); py-lmdb on
Python 3 does not and raises `TypeError`.  `subscribe(last_id)` yields the events behind
that position. -/
def listen (strKeys : Bool) (f : Feature) (d : Durable) (log : List Event) : Except PyErr (List Txn) :=
  if d.initialised then
    if strKeys then
      let last := d.timestamp.getD 0
      .ok (withInit d (loopTxns f (log.filter fun e => decide (last < e.timestamp))))
    else .error .typeError
  else .ok (withInit d (loopTxns f log))

/-- `add_all` (index.py:109-111): every document, with the empty position. -/
def addAll (f : Feature) (d : Durable) (docs : List Nat) : List Txn :=
  withInit d (docs.flatMap fun doc => addTxns f doc 0)

end Zounds.HammingIndex
