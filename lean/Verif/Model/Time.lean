import Verif.Model.Base
/-!
# `zounds/timeseries/{duration,timeseries,samplerate,constantrate}.py`

`np.timedelta64` is a pair of an integer count and a unit; arithmetic is exact
(64-bit overflow is not modelled).  Quotients of two durations, which numpy
computes in float64, are exact here: only their `floor`, `ceil`, `round` and
`int` are ever taken, and these are integer operations.
-/

namespace Zounds.Time

/-- The units used by the code (`duration.py:4-120`; `timedelta64` unit codes). -/
inductive TUnit where
  | h | m | s | ms | us | ns | ps
  deriving DecidableEq, Repr

/-- Picoseconds in one unit. -/
def TUnit.ps1 : TUnit → Nat
  | .h => 3600000000000000
  | .m => 60000000000000
  | .s => 1000000000000
  | .ms => 1000000000
  | .us => 1000000
  | .ns => 1000
  | .ps => 1

/-- A `np.timedelta64` (`Hours`..`Picoseconds`, duration.py:4-120). -/
structure Dur where
  count : Int
  unit : TUnit
  deriving DecidableEq, Repr

/-- The time a duration stands for, in picoseconds. -/
def Dur.toPs (d : Dur) : Int := d.count * d.unit.ps1

/-- numpy casts both operands of a binary operation to the finer unit. -/
def TUnit.finer (a b : TUnit) : TUnit := if a.ps1 ≤ b.ps1 then a else b

/-- Cast to a finer unit (`u` divides the unit of `d`). -/
def Dur.cast (d : Dur) (u : TUnit) : Dur := ⟨d.count * ((d.unit.ps1 / u.ps1 : Nat) : Int), u⟩

/-- `timedelta64 + timedelta64`. -/
def Dur.add (a b : Dur) : Dur :=
  let u := a.unit.finer b.unit
  ⟨(a.cast u).count + (b.cast u).count, u⟩

/-- `timedelta64 - timedelta64`. -/
def Dur.sub (a b : Dur) : Dur :=
  let u := a.unit.finer b.unit
  ⟨(a.cast u).count - (b.cast u).count, u⟩

/-- `timedelta64 < timedelta64` (compared in the finer unit). -/
def Dur.lt (a b : Dur) : Bool :=
  let u := a.unit.finer b.unit
  decide ((a.cast u).count < (b.cast u).count)

/-- `timedelta64 == timedelta64` (compared in the finer unit). -/
def Dur.eq (a b : Dur) : Bool :=
  let u := a.unit.finer b.unit
  decide ((a.cast u).count = (b.cast u).count)

/-- Python's builtin `max(a, b)`: keeps the first unless the second is larger. -/
def Dur.max (a b : Dur) : Dur := if a.lt b then b else a
/-- Python's builtin `min(a, b)`: keeps the first unless the second is smaller. -/
def Dur.min (a b : Dur) : Dur := if b.lt a then b else a

/-- `TimeSlice` (timeseries.py:7-47).  The type checks of the constructor are
enforced by typing. -/
structure TimeSlice where
  start : Dur
  duration : Option Dur
  deriving DecidableEq, Repr

/-- `TimeSlice.__init__` (timeseries.py:35-47): a missing (or zero) start is
zero picoseconds. -/
def TimeSlice.mk' (duration : Option Dur) (start : Option Dur) : TimeSlice :=
  ⟨match start with
    | none => ⟨0, .ps⟩
    | some d => if d.count = 0 then ⟨0, .ps⟩ else d, duration⟩

/-- `TimeSlice.end` (timeseries.py:61-63); `None` duration is a `TypeError`. -/
def TimeSlice.end? (t : TimeSlice) : Except PyErr Dur :=
  match t.duration with
  | none => .error .typeError
  | some d => .ok (t.start.add d)

/-- `TimeSlice.__add__` / `__radd__` (timeseries.py:55-59). -/
def TimeSlice.add (t : TimeSlice) (o : Dur) : TimeSlice :=
  TimeSlice.mk' t.duration (some (t.start.add o))

/-- `TimeSlice.__lt__` between slices (timeseries.py:65-69). -/
def TimeSlice.lt (a b : TimeSlice) : Bool := a.start.lt b.start

/-- `TimeSlice.__and__` (timeseries.py:89-93).  Note that the result is built
without a start. -/
def TimeSlice.and (a b : TimeSlice) : Except PyErr TimeSlice :=
  match a.end?, b.end? with
  | .ok ea, .ok eb =>
    let delta := Dur.max ⟨0, .ps⟩ ((Dur.min ea eb).sub (Dur.max a.start b.start))
    .ok (TimeSlice.mk' (some delta) none)
  | .error e, _ => .error e
  | _, .error e => .error e

/-- `TimeSlice.__contains__` for a slice (timeseries.py:98-99): `b in a`.
Python's `and` does not evaluate the ends when the first test fails. -/
def TimeSlice.containsSlice (a b : TimeSlice) : Except PyErr Bool :=
  if a.start.lt b.start then
    match b.end?, a.end? with
    | .ok eb, .ok ea => .ok (eb.lt ea)
    | .error e, _ => .error e
    | _, .error e => .error e
  else .ok false

/-- `TimeSlice.__contains__` for an instant (timeseries.py:96-97). -/
def TimeSlice.containsTime (a : TimeSlice) (t : Dur) : Except PyErr Bool :=
  if a.start.lt t then
    match a.end? with
    | .ok ea => .ok (t.lt ea)
    | .error e => .error e
  else .ok false

/-- `TimeSlice.__eq__` (timeseries.py:102-103); `timedelta64 == None` is false. -/
def TimeSlice.eq (a b : TimeSlice) : Bool :=
  a.start.eq b.start &&
    match a.duration, b.duration with
    | none, none => true
    | some x, some y => x.eq y
    | _, _ => false

/-- `TimeSlice.__hash__` (timeseries.py:108-112): the hashed tuple.  The float
quotients by one picosecond are exact counts here. -/
def TimeSlice.hashKey (a : TimeSlice) : Int × Option Int :=
  (a.start.toPs, a.duration.map Dur.toPs)

/-- Insertion into a sorted list, the order `np.sort` produces. -/
def insertSorted (x : Int) : List Int → List Int
  | [] => [x]
  | y :: ys => if x ≤ y then x :: y :: ys else y :: insertSorted x ys

/-- `np.sort` on timestamps (picoseconds). -/
def npSort (l : List Int) : List Int := l.foldr insertSorted []

/-- `np.diff`. -/
def npDiff : List Int → List Int
  | a :: b :: rest => (b - a) :: npDiff (b :: rest)
  | _ => []

/-- `TimeSlice.slices` (timeseries.py:49-53) on timestamps in picoseconds;
a slice is a pair (start, duration). -/
def slices (ts : List Int) : List (Int × Int) :=
  let srt := npSort ts
  srt.zip (npDiff srt)

/-! ## Time dimensions (picoseconds) -/

/-- `TimeDimension` (timeseries.py:158-169), frequency and duration in
picoseconds, `size` the number of samples. -/
structure Dim where
  frequency : Int
  duration : Int
  size : Int
  deriving DecidableEq, Repr

/-- `TimeDimension.__init__`'s `duration or frequency` (timeseries.py:168). -/
def Dim.mk' (f : Int) (d : Option Int) (size : Int) : Dim :=
  ⟨f, match d with | none => f | some d => if d = 0 then f else d, size⟩

/-- `TimeDimension.span`/`end` (timeseries.py:205-212). -/
def Dim.end_ (td : Dim) : Int :=
  let overlap := td.duration - td.frequency
  td.size * td.frequency + overlap

/-- `TimeDimension.modified_dimension` (timeseries.py:221-232), first yielded
dimension: windows of `w` samples every `step` samples. -/
def Dim.modified (td : Dim) (w : Int) (step : Option Int) (newSize : Int) : Dim :=
  let s := match step with | none => w | some s => if s = 0 then w else s
  Dim.mk' (td.frequency * s) (some (td.frequency * w + (td.duration - td.frequency))) newSize

/-- `np.round(n / d)` (round half to even) of an exact quotient, `d > 0`. -/
def roundHalfEven (n d : Int) : Int :=
  let q := n / d
  let r := 2 * (n - q * d)
  if r < d then q
  else if r > d then q + 1
  else if q % 2 = 0 then q else q + 1

/-- `np.ceil(n / d)` of an exact quotient, `d > 0`. -/
def ceilDiv (n d : Int) : Int := -((-n) / d)

/-- The body of `TimeDimension.integer_based_slice` for a `TimeSlice`
(timeseries.py:260-275): start index and stop index.
`np.round(x, 2)` is `rint(100 x) / 100`. -/
def Dim.intSlice (td : Dim) (start : Int) (duration : Option Int) : Int × Int :=
  let diff := td.duration - td.frequency
  let startIndex := max 0 ((start - diff) / td.frequency)
  let e := match duration with
    | none => td.end_
    | some u => start + u
  let hundredths := roundHalfEven (100 * e) td.frequency
  (startIndex, ceilDiv hundredths 100)

/-- The Python-slice branch (timeseries.py:244-255): resolve negative and
missing bounds against the end of the dimension. -/
def Dim.resolve (td : Dim) (a b : Option Int) : Int × Int :=
  let start := match a with | none => 0 | some x => x
  let start := if start < 0 then td.end_ + start else start
  let stop := match b with | none => td.end_ | some x => x
  let stop := if stop < 0 then td.end_ + stop else stop
  (start, stop)

/-- `integer_based_slice(slice(a, b))` for time valued bounds. -/
def Dim.intSliceOfPySlice (td : Dim) (a b : Option Int) : Int × Int :=
  let (start, stop) := td.resolve a b
  td.intSlice start (some (stop - start))

/-- Indexing a one-dimensional array whose only axis is `td` with a `TimeSlice`
(core/axis.py:324-336, 259-262): translate, then let numpy slice. -/
def getTimeSlice {α : Type u} (arr : List α) (td : Dim) (start : Int) (duration : Option Int) :
    List α :=
  let (i, j) := { td with size := arr.length }.intSlice start duration
  pySlice arr i j

/-- Indexing with `arr[a:b]`, `a`, `b` times. -/
def getPySlice {α : Type u} (arr : List α) (td : Dim) (a b : Option Int) : List α :=
  let (i, j) := { td with size := arr.length }.intSliceOfPySlice a b
  pySlice arr i j

/-- `ConstantRateTimeSeries.iter_slices` (constantrate.py:21-24): pairs of
((start, duration), row). -/
def iterSlices {α : Type u} (arr : List α) (td : Dim) : List ((Int × Int) × α) :=
  arr.zipIdx.map fun (x, i) => ((td.frequency * i, td.duration), x)

/-! ## Sample rates -/

/-- `SampleRate` (samplerate.py:46-54), picoseconds. -/
structure SampleRate where
  frequency : Int
  duration : Int
  deriving DecidableEq, Repr

/-- `SampleRate.__init__` (samplerate.py:46-54). -/
def SampleRate.new (f d : Int) : Except PyErr SampleRate :=
  if f ≤ 0 then .error .valueError
  else if d ≤ 0 then .error .valueError
  else .ok ⟨f, d⟩

/-- `SampleRate.overlap` (samplerate.py:75-81). -/
def SampleRate.overlap (r : SampleRate) : Int := r.duration - r.frequency

/-- `SampleRate.samples_per_second` (samplerate.py:91-93); frequency positive. -/
def SampleRate.samplesPerSecond (r : SampleRate) : Int := (10 ^ 12 : Int) / r.frequency

/-- `SampleRate.nyquist` (samplerate.py:98-100). -/
def SampleRate.nyquist (r : SampleRate) : Int := r.samplesPerSecond / 2

/-- `SampleRate.__mul__` with a pair (samplerate.py:102-112). -/
def SampleRate.mul (r : SampleRate) (h w : Int) : Except PyErr SampleRate :=
  SampleRate.new (r.frequency * h) (r.frequency * w + r.overlap)

/-- `SampleRate.discrete_samples` (samplerate.py:114-118), for the time
dimension of the series; returns (step, window). -/
def SampleRate.discreteSamples (r : SampleRate) (td : Dim) : Int × Int :=
  (roundHalfEven r.frequency td.frequency,
   roundHalfEven (r.duration - (td.duration - td.frequency)) td.frequency)

/-- `AudioSampleRate.__init__` (samplerate.py:128-133).  A rate of zero makes numpy's `//`
give `NaT`, whose integer value is negative, so the constructor's check (samplerate.py:47)
refuses it with `ValueError`; Lean's `_ / 0 = 0` is refused by the same check. -/
def audioSampleRate (samplesPerSecond : Int) : Except PyErr SampleRate :=
  let one := (10 ^ 12 : Int) / samplesPerSecond
  SampleRate.new one one

/-- `AudioSampleRate.windowing_scheme` (samplerate.py:140-144). -/
def SampleRate.windowingScheme (r : SampleRate) (durationSamples : Int)
    (frequencySamples : Option Int) : Except PyErr SampleRate :=
  let fs := match frequencySamples with
    | none => durationSamples
    | some x => if x = 0 then durationSamples else x
  SampleRate.new (r.frequency * fs) (r.duration * durationSamples)

/-- `AudioSampleRate.half_lapped` (samplerate.py:135-138), given the suggested
window and hop. -/
def SampleRate.halfLapped (r : SampleRate) (window hop : Int) : Except PyErr SampleRate :=
  SampleRate.new (r.frequency * hop) (r.frequency * window)

/-- The table `_samplerates` (samplerate.py:147-258): rate, window, hop. -/
def rateTable : List (Int × Int × Int) :=
  [(96000, 4096, 2048), (48000, 2048, 1024), (44100, 2048, 1024),
   (22050, 1024, 512), (16000, 512, 256), (11025, 512, 256)]

/-- The sample rates built from the table (samplerate.py:261-262). -/
def supportedRates : List SampleRate :=
  rateTable.map fun (n, _, _) => ⟨10 ^ 12 / n, 10 ^ 12 / n⟩

/-- `audio_sample_rate` (samplerate.py:265-270). -/
def findRate (n : Int) : Except PyErr SampleRate :=
  match supportedRates.find? (fun r => r.samplesPerSecond = n) with
  | some r => .ok r
  | none => .error .valueError

/-- `np.argmin` of the distances, first minimum wins (samplerate.py:273-276). -/
def argminFirst {β : Type u} (key : β → Int) : β → List β → β
  | best, [] => best
  | best, x :: xs => if key x < key best then argminFirst key x xs else argminFirst key best xs

/-- `nearest_audio_sample_rate` (samplerate.py:273-276). -/
def nearestRate (n : Int) : SampleRate :=
  match supportedRates with
  | [] => ⟨1, 1⟩
  | r :: rs => argminFirst (fun r => (n - r.samplesPerSecond).natAbs) r rs

end Zounds.Time
