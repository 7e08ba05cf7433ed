import Verif.Model.Time
import Verif.Model.PopCount

/-!
# zounds/index/brute_force.py and `SearchResults` of zounds/index/index.py
-/

namespace Zounds.BruteForce
open Zounds.Time

/-- A document's feature as `BaseBruteForceSearch` sees it: its first dimension (`none` when that is not a `TimeDimension`, or the value is
not an `ArrayWithUnits`) and its rows. -/
structure Example (Row : Type) where
  time : Option Dim
  rows : List Row

/-- A time slice as `iter_slices` makes it: start and duration in picoseconds. -/
abbrev Slice := Int × Int

/-- The state of a search object: the rows and, for each, the id and time slice. -/
structure Index (Id Row : Type) where
  index : List Row
  ids : List (Id × Slice)

/-- The loop of `__init__` (brute_force.py:13-17): `ConstantRateTimeSeries(example)` (constantrate.py:6-15) refuses an example whose
first dimension is not a time dimension. -/
def collect {Id Row : Type} : List (Id × Example Row) → Except PyErr (Index Id Row)
  | [] => .ok ⟨[], []⟩
  | (i, e) :: rest =>
    match e.time with
    | none => .error .valueError
    | some td =>
      match collect rest with
      | .error x => .error x
      | .ok r => .ok ⟨e.rows ++ r.index, ((iterSlices e.rows td).map fun p => (i, p.1)) ++ r.ids⟩

/-- `BaseBruteForceSearch.__init__` (brute_force.py:10-18): `np.concatenate` refuses an empty list.  All rows have the same shape. -/
def build {Id Row : Type} (gen : List (Id × Example Row)) : Except PyErr (Index Id Row) :=
  match collect gen with
  | .error x => .error x
  | .ok r => if gen = [] then .error .valueError else .ok r

/-- `BruteForceSearch.search` and `HammingDistanceBruteForceSearch.search` (brute_force.py:33-37, 44-47): `argsort` of the
distances from the query to every row, the first `n_results` of them, and the ids found there.  `dist` is scipy's `cdist`
with the chosen metric, or `packed_hamming_distance`. -/
def search {Id Row K : Type} (argsort : List K → List Nat) (dist : Row → Row → K) (ix : Index Id Row) (query : Row)
    (nResults : Int) : List (Id × Slice) :=
  (pySlice (argsort (ix.index.map (dist query))) 0 nResults).filterMap fun i => ix.ids[i]?

/-- `packed_hamming_distance` (brute_force.py:46) of packed codes. -/
def hammingDist (q r : List (BitVec 64)) : Nat := (PopCount.packedDistance q [r]).headD 0

/-! ## SearchResults -/

/-- `SearchResults` (index.py:11-19): `results` is a generator, i.e. the values it has not produced yet. -/
structure SearchResults (Row R : Type) where
  query : Row
  results : List R

/-- Iterating over search results and stopping after at most `k` values (index.py:17-19): the values come out of the one
generator, which keeps its position. -/
def SearchResults.consume {Row R : Type} (s : SearchResults Row R) (k : Nat) : List R × SearchResults Row R :=
  (s.results.take k, { s with results := s.results.drop k })

end Zounds.BruteForce
