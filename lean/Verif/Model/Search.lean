import Verif.Model.Codes
import Verif.Model.Persist

/-!
# zounds/index/index.py: an index over the documents of a database, as its users see it

The database of codes is Model/HammingDb.lean; its files are shared by every index over the same path, in this process or another.  The event
stream and crashes between transactions are Model/HammingIndex.lean; `set_metadata(b'timestamp', ..)` is left out here.
-/

namespace Zounds.Search
open Zounds Zounds.HammingDb Zounds.Time Zounds.Persist

/-- What is kept beside a code (index.py:133-138): the document's id, the encoded start and duration, extra data if there is any. -/
structure Entry (X : Type) where
  docId : List Char
  times : (List Char × TUnit) × (List Char × TUnit)
  extra : Option X

/-- ujson's `dumps` and `loads` (index.py:1, 140, 171). -/
structure Json (X : Type) where
  dumps : Entry X → List Char
  loads : List UInt8 → Except PyErr (Entry X)

/-- A pair that `iter_slices` yields (index.py:131): when, and the code's array. -/
structure Segment where
  ts : TimeSlice
  data : Codes.Feature

/-- A `HammingIndex` object (index.py:23-64): `db` is the number of its open HammingDb, if it has one; `extra` is the result of all extra_data functions. -/
structure Index (X : Type) where
  writeonly : Bool
  extra : Option (List Char → TimeSlice → X)
  db : Option Nat := none

/-- `HammingIndex.__init__` (index.py:53-57): a ValueError of HammingDb means that there is no database yet. -/
def create {X : Type} (w : World) (wo : Bool) (extra : Option (List Char → TimeSlice → X)) : World × Except PyErr (Index X) :=
  match openDb w none wo with
  | (w', .ok ()) => (w', .ok ⟨wo, extra, some w.insts.length⟩)
  | (w', .error .valueError) => (w', .ok ⟨wo, extra, none⟩)
  | (w', .error e) => (w', .error e)

/-- `len(code) if code else None` (index.py:102). -/
def sizeArg : Option (List UInt8) → Option Nat
  | some (_ :: bs) => some (bs.length + 1)
  | _ => none

/-- `_init_hamming_db` (index.py:99-104). -/
def initDb {X : Type} (w : World) (x : Index X) (code : Option (List UInt8)) : World × Except PyErr (Index X) :=
  match x.db with
  | some _ => (w, .ok x)
  | none =>
    match openDb w (sizeArg code) x.writeonly with
    | (w', .ok ()) => (w', .ok { x with db := some w.insts.length })
    | (w', .error e) => (w', .error e)

/-- One round of the loop of `add` (index.py:131-140); `newId` is the random id that `append` draws. -/
def addSegment {X : Type} (np : Numpy) (js : Json X) (w : World) (x : Index X) (doc : List Char) (s : Segment) (newId : Nat) :
    World × Index X × Except PyErr Unit :=
  match Codes.encodeQuery s.data with
  | .error e => (w, x, .error e)
  | .ok code =>
    match encodeTimeSlice s.ts with
    | .error e => (w, x, .error e)
    | .ok times =>
      match initDb w x (some code) with
      | (w', .error e) => (w', x, .error e)
      | (w', .ok x') =>
        match step np w' (.append (x'.db.getD 0) (.bytes code) (.str (js.dumps ⟨doc, times, x.extra.map fun f => f doc s.ts⟩)) newId true) with
        | (w'', .ok _) => (w'', x', .ok ())
        | (w'', .error e) => (w'', x', .error e)

/-- `add` (index.py:121-141): segment after segment, until one fails. -/
def add {X : Type} (np : Numpy) (js : Json X) (w : World) (x : Index X) (doc : List Char) : List (Segment × Nat) → World × Index X × Except PyErr Unit
  | [] => (w, x, .ok ())
  | s :: ss =>
    match addSegment np js w x doc s.1 s.2 with
    | (w', x', .ok ()) => add np js w' x' doc ss
    | (w', x', .error e) => (w', x', .error e)

/-- A search result: document, time, extra data of an index with extra_data. -/
structure Result (X : Type) where
  docId : List Char
  ts : TimeSlice
  extra : Option X

/-- `_parse_result` (index.py:170-177). -/
def parse {X : Type} (js : Json X) (x : Index X) (raw : List UInt8) : Except PyErr (Result X) :=
  match js.loads raw with
  | .error e => .error e
  | .ok d =>
    match decodeTimeSlice d.times with
    | .error e => .error e
    | .ok ts =>
      match x.extra with
      | none => .ok ⟨d.docId, ts, none⟩
      | some _ =>
        match d.extra with
        | none => .error .keyError
        | some y => .ok ⟨d.docId, ts, some y⟩

/-- Reading all results of a search (index.py:17-19, 207). -/
def parseAll {X : Type} (js : Json X) (x : Index X) : List (List UInt8) → Except PyErr (List (Result X))
  | [] => .ok []
  | r :: rs =>
    match parse js x r with
    | .error e => .error e
    | .ok y =>
      match parseAll js x rs with
      | .error e => .error e
      | .ok ys => .ok (y :: ys)

/-- What becomes of the raw results. -/
def parsed {X : Type} (js : Json X) (x : Index X) : Except PyErr (List (List UInt8)) → Except PyErr (List (Result X))
  | .error e => .error e
  | .ok raw => parseAll js x raw

/-- `list(search(feature, n_results, ..))` (index.py:202-208). -/
def search {X : Type} (np : Numpy) (js : Json X) (w : World) (x : Index X) (q : Codes.Feature) (n : Nat) (mt sort : Bool) :
    World × Index X × Except PyErr (List (Result X)) :=
  match initDb w x none with
  | (w', .error e) => (w', x, .error e)
  | (w', .ok x') =>
    match Codes.encodeQuery q with
    | .error e => (w', x', .error e)
    | .ok code =>
      match step np w' (.search (x'.db.getD 0) (.bytes code) n mt sort) with
      | (w'', r) => (w'', x', parsed js x r)

/-- What users do with the indexes over one path. -/
inductive Act (X : Type) where
  | create (writeonly : Bool) (extra : Option (List Char → TimeSlice → X))
  | add (k : Nat) (doc : List Char) (segs : List (Segment × Nat))
  | search (k : Nat) (q : Codes.Feature) (n : Nat) (mt sort : Bool)

/-- The files and the index objects. -/
structure State (X : Type) where
  world : World := {}
  indexes : List (Index X) := []

/-- One action: the state and what the user gets.  An action on an object that does not exist changes nothing. -/
def act {X : Type} (np : Numpy) (js : Json X) (s : State X) : Act X → State X × Except PyErr (List (Result X))
  | .create wo extra =>
    match create s.world wo extra with
    | (w, .ok x) => (⟨w, s.indexes ++ [x]⟩, .ok [])
    | (w, .error e) => (⟨w, s.indexes⟩, .error e)
  | .add k doc segs =>
    match s.indexes[k]? with
    | none => (s, .error .indexError)
    | some x =>
      match add np js s.world x doc segs with
      | (w, x', .ok ()) => (⟨w, s.indexes.set k x'⟩, .ok [])
      | (w, x', .error e) => (⟨w, s.indexes.set k x'⟩, .error e)
  | .search k q n mt sort =>
    match s.indexes[k]? with
    | none => (s, .error .indexError)
    | some x =>
      match search np js s.world x q n mt sort with
      | (w, x', r) => (⟨w, s.indexes.set k x'⟩, r)

/-- A history on a fresh directory. -/
def acts {X : Type} (np : Numpy) (js : Json X) (s : State X) : List (Act X) → State X
  | [] => s
  | a :: as => acts np js (act np js s a).1 as

/-- `len(index)` (index.py:86-89, hammingdb.py:89-94). -/
def len {X : Type} (w : World) (x : Index X) : Nat :=
  match x.db with
  | none => 0
  | some _ => w.store.length

/-! ## random_search -/

/-- The loop of `_random_code` (hammingdb.py:158-166) (index.py:195-200) over the ids it draws: the first key at or after a drawn one; `none` when the given draws do not suffice. -/
def randomCode (st : Store) (codeSize : Nat) : List Nat → Option (List UInt8)
  | [] => none
  | d :: ds =>
    match st.find? fun p => decide (d ≤ p.1) with
    | some p => some (p.2.take codeSize)
    | none => randomCode st codeSize ds

end Zounds.Search
