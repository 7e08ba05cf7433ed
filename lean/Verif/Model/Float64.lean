import Mathlib.Data.Int.Log
import Mathlib.Data.Rat.Floor
import Mathlib.Algebra.Order.Round
import Verif.Model.Time
import Verif.Model.Synth
import Verif.Model.Spectral

/-!
# Quotients of durations as the machine computes them

Model/Time.lean takes quotients of two `np.timedelta64` exactly.  Here they are double precision numbers: numpy's `timedelta64 / timedelta64` casts both counts to
`double` and divides.  Doubles are rational numbers; infinities, not-a-number, overflow and subnormal numbers are not modelled (no quotient of durations that fit in 64
bits comes near them).  All durations are counted in picoseconds, the unit the frequencies of the audio sample rates have.
-/

namespace Zounds.Float64
open Zounds Zounds.Time

/-- `np.rint`: to the nearest integer, ties to even. -/
def rint (x : ℚ) : ℤ := roundHalfEven x.num x.den

/-- IEEE 754 rounding to a 53 bit significand, ties to even. -/
def fl64 (x : ℚ) : ℚ :=
  if x = 0 then 0
  else rint (x / 2 ^ (Int.log 2 |x| - 52)) * 2 ^ (Int.log 2 |x| - 52)

/-- numpy's `timedelta64 / timedelta64` (loop `mm->d`), the divisor not zero. -/
def quot (a b : ℤ) : ℚ := fl64 (fl64 a / fl64 b)

/-- Python's `int(x)` of a float. -/
def trunc (x : ℚ) : ℤ := if x < 0 then ⌈x⌉ else ⌊x⌋

/-- samplerate.py:91-93, timeseries.py:201-203, audiosamples.py:102-104 `samples_per_second`, for a positive frequency. -/
def samplesPerSecond (f : ℤ) : ℤ := trunc (quot (10 ^ 12) f)

/-- audiosamples.py:87, chunksize.py:30, functional.py:222 and 354, synthesize.py:427 and 512: `int(duration / samplerate.frequency)`, the number of samples in a
duration. -/
def sampleCount (duration f : ℤ) : ℤ := trunc (quot duration f)

/-- samplerate.py:114-118 `SampleRate.discrete_samples`: (step, window). -/
def discreteSamples (r : SampleRate) (td : Dim) : ℤ × ℤ :=
  (rint (quot r.frequency td.frequency), rint (quot (r.duration - (td.duration - td.frequency)) td.frequency))

/-- timeseries.py:270 `np.round(x, 2)`, which multiplies by a hundred, rounds and divides by a hundred, each in double precision. -/
def round2 (x : ℚ) : ℚ := fl64 (rint (fl64 (x * 100)) / 100)

/-- timeseries.py:258-275, the body of `TimeDimension.integer_based_slice` for a `TimeSlice`. -/
def intSlice (td : Dim) (start : ℤ) (duration : Option ℤ) : ℤ × ℤ :=
  let diff := td.duration - td.frequency
  let startIndex := max 0 ⌊quot (start - diff) td.frequency⌋
  let e := match duration with
    | none => td.end_
    | some u => start + u
  (startIndex, ⌈round2 (quot e td.frequency)⌉)

/-- core/axis.py:324-336, 259-262 with the slice above: indexing a one-dimensional array whose only axis is `td` with a `TimeSlice`. -/
def getTimeSlice {α : Type} (arr : List α) (td : Dim) (start : ℤ) (duration : Option ℤ) : List α :=
  pySlice arr (intSlice { td with size := arr.length } start duration).1 (intSlice { td with size := arr.length } start duration).2

/-- synthesize.py:29-30, 33: the window size, the hop size and the number of samples of `_overlap_add`. -/
def synthSizes {α : Type} (f : Synth.Frames α) : ℤ × ℤ × ℤ :=
  (rint (quot f.td.duration (Synth.sampleFreq f)), rint (quot f.td.frequency (Synth.sampleFreq f)), trunc (quot f.td.end_ (Synth.sampleFreq f)))

/-- spectral.py:83-84, 121-122: `int(data.shape[1] / data.dimensions[0].duration_in_seconds)` with timeseries.py:197-199, for windows of `w` samples that last
`duration`.  (numpy casts the length to a double before it divides.) -/
def windowRate (w : ℕ) (duration : ℤ) : ℤ := trunc (fl64 (fl64 w / quot duration (10 ^ 12)))

/-- spectral.py:80-90 `DCT._process` (over the last axis) of `rows`, windows of `w` samples, along a time dimension `td`: the coefficients, the time dimension and the
band, from 0 to the nyquist frequency, that `LinearScale.from_sample_rate` (frequencyscale.py:387-398) divides into as many parts as there are coefficients. -/
noncomputable def dctNode (w : ℕ) (td : Dim) (rows : List (List ℝ)) : Except PyErr (List (List ℝ) × Dim × ℤ × ℕ) :=
  match rows.mapM Spectral.scipyDct with
  | .error e => .error e
  | .ok cs =>
    match findRate (windowRate w td.duration) with
    | .error e => .error e
    | .ok sr => .ok (cs, td, sr.nyquist, w)

/-- spectral.py:119-126 `DCTIV._process`. -/
noncomputable def dctivNode (w : ℕ) (td : Dim) (rows : List (List ℝ)) : Except PyErr (List (List ℝ) × Dim × ℤ × ℕ) :=
  match rows.mapM Spectral.dctiv with
  | .error e => .error e
  | .ok cs =>
    match findRate (windowRate w td.duration) with
    | .error e => .error e
    | .ok sr => .ok (cs, td, sr.nyquist, w)

/-- synthesize.py:608 and 652-653: `int(sr * (duration / Seconds(1)))`, the number of samples of ticks and of noise. -/
def toneCount (sr duration : ℤ) : ℤ := trunc (fl64 (fl64 sr * quot duration (10 ^ 12)))

/-- synthesize.py:605: `int(sr * .1)`, the number of samples of one tick. -/
def tickLength (sr : ℤ) : ℤ := trunc (fl64 (fl64 sr * fl64 (1 / 10)))

/-- synthesize.py:609, 611: `int(sr // (Seconds(1) / tick_frequency))` for a positive tick frequency.  numpy's `//` of two doubles is the floor of their exact
quotient (it subtracts the remainder, which it computes exactly, before it divides). -/
def tickStep (sr tickFrequency : ℤ) : ℤ := ⌊fl64 sr / quot (10 ^ 12) tickFrequency⌋

/-- synthesize.py:559-561: the number of elements of `np.arange(0, ts * c, c)`, `⌈(ts * c) / c⌉`, for a positive frequency `hz` (a double). -/
def sineCount (sr duration : ℤ) (hz : ℚ) : ℤ :=
  let c := fl64 (hz / fl64 sr)
  let ts := fl64 (quot duration (10 ^ 12) * fl64 sr)
  ⌈fl64 (fl64 (ts * c) / c)⌉

/-- synthesize.py:561-562: the length of the sum of the sines, `none` if the arrays of phases differ in length: `np.array` then makes an array of arrays (or refuses) and
`np.sin` of it raises. -/
def sineLength (sr duration : ℤ) : List ℚ → Option ℤ
  | [] => none
  | f :: fs => if fs.all (fun g => sineCount sr duration g = sineCount sr duration f) then some (sineCount sr duration f) else none

end Zounds.Float64
