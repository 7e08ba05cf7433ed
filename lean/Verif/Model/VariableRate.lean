import Verif.Model.Base
/-!
# `zounds/timeseries/variablerate.py`

Times in picoseconds. An example is a time slice (start, duration) and its data.
-/

namespace Zounds.VariableRate

/-- One record of the series (variablerate.py:23-26). -/
structure Ex (α : Type u) where
  start : Int
  duration : Int
  data : α
  deriving DecidableEq, Repr

/-- `TimeSlice.end` of a record. -/
def Ex.end_ (x : Ex α) : Int := x.start + x.duration

/-- Python's stable `sorted(..., key=timeslice)` (variablerate.py:15), where
slices compare by start (timeseries.py:65-69). -/
def ctor {α : Type u} (data : List (Ex α)) : List (Ex α) :=
  data.mergeSort (fun a b => decide (a.start ≤ b.start))

/-- `__getitem__` with a `TimeSlice` (variablerate.py:65-74). -/
def getSlice {α : Type u} (data : List (Ex α)) (start : Int) (duration : Option Int) :
    List (Ex α) :=
  ctor (data.filter fun x =>
    decide (x.end_ > start) &&
      match duration with
      | none => true
      | some d => decide (x.start < start + d))

/-- `concat` (variablerate.py:31-33). -/
def concat {α : Type u} (a b : List (Ex α)) : List (Ex α) := ctor (a ++ b)

/-- `end` (variablerate.py:58-63): the end of the last record. -/
def endOf {α : Type u} (data : List (Ex α)) : Int :=
  match data.getLast? with
  | some x => x.end_
  | none => 0

/-- `span` (variablerate.py:50-56): (start, duration). -/
def span {α : Type u} (data : List (Ex α)) : Int × Int :=
  match data with
  | [] => (0, 0)
  | x :: _ => (x.start, endOf data - x.start)

/-- `VariableRateTimeSeriesEncoder._prepare_data` (variablerate.py:85-95): the
integer columns.  Quotients by one picosecond are exact; int64 range not
modelled. -/
def encode {α : Type u} (data : List (Ex α)) : List (Int × Int × α) :=
  data.map fun x => (x.start, x.duration, x.data)

/-- `VariableRateTimeSeriesDecoder._gen`/`_wrap_array` (variablerate.py:102-110):
rebuild the slices and construct the series again. -/
def decode {α : Type u} (raw : List (Int × Int × α)) : List (Ex α) :=
  ctor (raw.map fun (s, d, x) => ⟨s, d, x⟩)

end Zounds.VariableRate
