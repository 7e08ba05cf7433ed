import Verif.Model.Base
import Verif.Model.Time
/-!
# Derived sample rates: `zounds/timeseries/samplerate.py`, `zounds/timeseries/timeseries.py`

`SampleRate.resample`, `TimeDimension.resample`, `HalfLapped`, the order of `TimeSlice`s and the node `ComplexDomain`.
A ratio is an exact rational number; numpy computes `timedelta64 * float` in double precision and cuts the fraction off
(the rounding of the product is not modelled, the cut is).
-/

namespace Zounds.Rates
open Zounds.Time

/-- C's conversion of a float to an integer, which numpy applies to `timedelta64 * float` and `timedelta64 / float`: towards zero. -/
def truncate (q : Rat) : Int := if 0 ≤ q then q.floor else -((-q).floor)

/-- samplerate.py:120-125 `SampleRate.resample` (frequency and duration in picoseconds). -/
def resample (r : SampleRate) (ratio : Rat) : Except PyErr SampleRate :=
  SampleRate.new (truncate ((r.frequency : Rat) * ratio)) (truncate ((r.duration : Rat) * ratio))

/-- timeseries.py:185-187 `TimeDimension.samplerate`. -/
def samplerate (td : Dim) : Except PyErr SampleRate := SampleRate.new td.frequency td.duration

/-- timeseries.py:181-183 `TimeDimension.resample`; the size is not passed on (a pair frequency, duration is returned). -/
def dimResample (td : Dim) (ratio : Rat) : Except PyErr (Int × Int) :=
  match samplerate td with
  | .error e => .error e
  | .ok r => match resample r ratio with
    | .error e => .error e
    | .ok s => .ok (s.frequency, s.duration)

/-- samplerate.py:83-89 `SampleRate.overlap_ratio` (an exact quotient here). -/
def overlapRatio (r : SampleRate) : Rat := (r.overlap : Rat) / (r.duration : Rat)

/-- samplerate.py:280-284 `HalfLapped.__init__`: `Picoseconds(10 ** 12) / 44100.` is cut to whole picoseconds, then multiplied. -/
def halfLapped (window hop : Int) : Except PyErr SampleRate :=
  let one := truncate ((10 ^ 12 : Rat) / 44100)
  SampleRate.new (one * hop) (one * window)

/-- The time dimension of audio at one of the supported rates (samplerate.py:128-133): samples of `10 ** 12 // n` picoseconds. -/
def audioDim (n size : Int) : Dim := ⟨10 ^ 12 / n, 10 ^ 12 / n, size⟩

/-- timeseries.py:71-75 `TimeSlice.__gt__` between slices. -/
def gt (a b : TimeSlice) : Bool := b.start.lt a.start
/-- timeseries.py:77-81 `TimeSlice.__le__` between slices. -/
def le (a b : TimeSlice) : Bool := a.start.lt b.start || a.start.eq b.start
/-- timeseries.py:83-87 `TimeSlice.__ge__` between slices. -/
def ge (a b : TimeSlice) : Bool := b.start.lt a.start || a.start.eq b.start
/-- timeseries.py:105-106 `TimeSlice.__ne__`. -/
def ne (a b : TimeSlice) : Bool := !(a.eq b)
/-- timeseries.py:65-69 `TimeSlice.__lt__` with an instant: an instant has no `start` (AttributeError), so it is compared itself. -/
def ltTime (a : TimeSlice) (t : Dur) : Bool := a.start.lt t
/-- timeseries.py:71-75 `TimeSlice.__gt__` with an instant. -/
def gtTime (a : TimeSlice) (t : Dur) : Bool := t.lt a.start

/-! ## ComplexDomain (zounds/segment/onset.py) -/

/-- The classes of arrays: plain numpy, `ArrayWithUnits` (no attribute `frequency`), `AudioSamples` (audiosamples.py:126-132 has `frequency` and
`duration`; its constructor, audiosamples.py:44-56, refuses more than two axes). -/
inductive Cls where
  | ndarray | arrayWithUnits | audioSamples
  deriving DecidableEq, Repr

/-- An array: its class and its shape. -/
structure Arr where
  cls : Cls
  shape : List Nat

/-- onset.py:69-102 `ComplexDomain._process`, as far as it depends on class and shape: `np.unwrap(…, axis=1)` of an array with one axis and `data[:, 1, :]` of one with two are
IndexErrors (numpy's AxisError is one), so is `angle[:, 2]` with fewer than three frames; `data.frequency` (99) needs the attribute.  With it the detection function's shape would be returned. -/
def complexDomain (a : Arr) : Except PyErr (List Nat) :=
  match a.shape with
  | n :: k :: rest =>
    if k < 3 then .error .indexError
    else if rest = [] then .error .indexError
    else if a.cls = .audioSamples then .ok (n :: rest.drop 1) else .error .attributeError
  | _ => .error .indexError

end Zounds.Rates
