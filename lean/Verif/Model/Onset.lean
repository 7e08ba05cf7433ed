import Verif.Model.Base
import Verif.Model.Time

/-!
# zounds/segment/onset.py

Node protocol as recorded in DESIGN.md: every incoming chunk is enqueued, dequeued and processed; `_first_chunk` is applied
to the first dequeued chunk; `_last_chunk` is called once after the last one.  Times are picoseconds (`Int`).
-/

namespace Zounds.Onset
open Zounds.Time (slices)

/-- onset.py:132-133: `_pos` and `_leftover_timestamp`. -/
structure Picker where
  pos : Int
  leftover : Int
  deriving Repr

/-- onset.py:131-134 `BasePeakPicker.__init__`. -/
def Picker.init : Picker := ⟨0, 0⟩

/-- onset.py:146-159 `BasePeakPicker._process` for a chunk of `len` rows with onsets at `indices`: the emitted slices and the
new state. -/
def process (freq : Int) (st : Picker) (indices : List Nat) (len : Nat) : List (Int × Int) × Picker :=
  let timestamps := st.leftover :: indices.map (fun (i : Nat) => st.pos + (i : Int) * freq)
  (slices timestamps, ⟨st.pos + (len : Int) * freq, timestamps.getLast (by simp [timestamps])⟩)

/-- onset.py:139-144 `_last_chunk`: one slice from the last onset to the end. -/
def lastChunk (st : Picker) : Int × Int := (st.leftover, st.pos - st.leftover)

/-- A whole stream: the slices emitted for each chunk; then `_last_chunk`.  `onsets` is the subclass's `_onset_indices`. -/
def pick {α : Type} (freq : Int) (onsets : List α → List Nat) : Picker → List (List α) → List (Int × Int)
  | st, [] => [lastChunk st]
  | st, c :: cs =>
    let r := process freq st (onsets c) c.length
    r.1 ++ pick freq onsets r.2 cs

/-- `np.where(mask)[0]`: the positions of the rows that satisfy the predicate, counting from `k`. -/
def whereFrom {α : Type} (p : α → Bool) : Nat → List α → List Nat
  | _, [] => []
  | k, x :: xs => if p x then k :: whereFrom p (k + 1) xs else whereFrom p (k + 1) xs

/-- onset.py:171-180, one row of `MovingAveragePeakPicker._onset_indices`: `row` is a window of the detection function, `c` its
center (`shape[1] // 2`, 167-169), `agg` the aggregate (mean by default).  `diff` of columns c−2 … c; a peak when it rises then
falls; over the threshold when column `c` exceeds 1.25 times the aggregate.  Rows of at least four columns (c ≥ 2). -/
def movingAverageOnset (agg : List Rat → Rat) (c : Nat) (row : List Rat) : Bool :=
  let d0 := row.getD (c - 1) 0 - row.getD (c - 2) 0
  let d1 := row.getD c 0 - row.getD (c - 1) 0
  decide (d0 > 0) && decide (d1 < 0) && decide (row.getD c 0 > agg row * (5 / 4))

/-- `np.mean` of a row. -/
def mean (row : List Rat) : Rat := row.sum / row.length

/-- onset.py:171-180 `MovingAveragePeakPicker._onset_indices`. -/
def movingAverageIndices (agg : List Rat → Rat) (c : Nat) (data : List (List Rat)) : List Nat :=
  whereFrom (movingAverageOnset agg c) 0 data

/-- axis.py:43-47 `ArrayWithUnits.__new__`: an array of `axes` axes given `dims` dimensions. -/
def attach {β : Type} (axes dims : Nat) (x : β) : Except PyErr β := if axes ≠ dims then .error .valueError else .ok x

/-- onset.py:111-119 `Flux._enqueue`: (cache, memory) after a chunk of rows; an empty chunk raises IndexError at `data[0]` / `data[-1]`. -/
def fluxEnqueue {α : Type} (memory : Option α) (c : List α) : Except PyErr (List α × α) :=
  match c.head?, c.getLast? with
  | some first, some last => .ok (memory.getD first :: c, last)
  | _, _ => .error .indexError

/-- onset.py:121-127 `Flux._process`: `unit` is `safe_unit_norm` or the identity, row by row; `dist` is the norm of the difference of two neighbouring
rows.  The norms have one axis, and are given the `data.dimensions` of the two axes of `data`. -/
def fluxProcess {α β : Type} (unit : α → α) (dist : α → α → β) (cache : List α) : Except PyErr (List β) :=
  let data := cache.map unit
  attach 1 2 (List.zipWith dist data data.tail)

/-- onset.py:105-127 `Flux` over a stream of chunks of rows. -/
def fluxStream {α β : Type} (unit : α → α) (dist : α → α → β) : Option α → List (List α) → Except PyErr (List (List β))
  | _, [] => .ok []
  | memory, c :: cs =>
    match fluxEnqueue memory c with
    | .error e => .error e
    | .ok (cache, last) =>
      match fluxProcess unit dist cache with
      | .error e => .error e
      | .ok out =>
        match fluxStream unit dist (some last) cs with
        | .error e => .error e
        | .ok rest => .ok (out :: rest)

/-- onset.py:49-57: `magnitude = data[:, 2:] ** 2`, for one row (already passed through `np.abs`). -/
def magnitude (row : List Rat) : List Rat := (row.drop 2).map (fun x => x ^ 2)

/-- onset.py:50, 52: energy of one row, never zero. -/
def energy (row : List Rat) : Rat :=
  let e := (magnitude row).sum
  if e = 0 then 1 / 1000000000000 else e

/-- Sum weighted by 3, 4, 5, … (`_bin_numbers[2:]`, onset.py:26, 51). -/
def weighted (k : Nat) : List Rat → Rat
  | [] => 0
  | x :: xs => x * k + weighted (k + 1) xs

/-- onset.py:51, 53: high frequency content of one row, never zero. -/
def hfc (row : List Rat) : Rat :=
  let h := weighted 3 (magnitude row)
  if h = 0 then 1 / 1000000000000 else h

/-- `np.abs` of one number. -/
def absR (x : Rat) : Rat := if x < 0 then -x else x

/-- onset.py:47: `np.abs(data)`, one row. -/
def absRow (row : List Rat) : List Rat := row.map absR

/-- onset.py:54, one output: from the previous row and this one. -/
def mot (prev cur : List Rat) : Rat := (hfc cur / hfc prev) * (hfc cur / energy cur)

/-- onset.py:49-57 `MeasureOfTransience._process`. -/
def motProcess (data : List (List Rat)) : List Rat :=
  let d := data.map absRow
  List.zipWith mot d d.tail

/-- onset.py:24-55 `MeasureOfTransience` over a stream: `_enqueue` appends to the cache, `_dequeue` leaves the last row in it,
`_first_chunk` puts a copy of the first row (made absolute) in front of the first chunk. -/
def motStream : Option (List (List Rat)) → Bool → List (List (List Rat)) → Except PyErr (List (List Rat))
  | _, _, [] => .ok []
  | cache, isFirst, c :: cs =>
    let data := match cache with | none => c | some x => x ++ c
    match data.head?, data.getLast? with
    | some first, some last =>
      let inp := if isFirst then absRow first :: data.map absRow else data
      match motStream (some [last]) false cs with
      | .error e => .error e
      | .ok rest => .ok (motProcess inp :: rest)
    | _, _ => .error .indexError

end Zounds.Onset
