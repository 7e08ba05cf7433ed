import Verif.Model.Time
import Mathlib.Algebra.Field.Defs

/-!
# zounds/synthesize/synthesize.py: overlap-add

Times are picoseconds; samples are elements of a field.
-/

namespace Zounds.Synth
open Zounds.Time (Dim roundHalfEven supportedRates SampleRate)

/-- Frames with a time dimension: `rows` frames of `n` samples each. -/
structure Frames (α : Type) where
  td : Dim
  n : Nat
  rows : List (List α)

/-- synthesize.py:37-40: `arr[start:stop] += f[:l]` where `l` is the number of samples of `arr[start:stop]`; numpy refuses the sum
when the lengths differ, unless `f[:l]` has one sample, which is then added everywhere. -/
def addAt {α : Type} [Add α] (arr : List α) (start stop : Nat) (f : List α) : Except PyErr (List α) :=
  let target := (arr.take stop).drop start
  let g := f.take target.length
  if g.length = target.length then
    .ok (arr.take start ++ List.zipWith (· + ·) target g ++ arr.drop (start + target.length))
  else match g with
    | [x] => .ok (arr.take start ++ target.map (· + x) ++ arr.drop (start + target.length))
    | _ => .error .valueError

/-- synthesize.py:36-40: the loop, from frame number `i` on. -/
def addFrames {α : Type} [Add α] (hop ws : Nat) : Nat → List (List α) → List α → Except PyErr (List α)
  | _, [], arr => .ok arr
  | i, f :: fs, arr =>
    match addAt arr (i * hop) (i * hop + ws) f with
    | .error e => .error e
    | .ok arr' => addFrames hop ws (i + 1) fs arr'

/-- synthesize.py:28-30: duration of one sample, samples per window, samples per hop.  `timedelta / int` truncates,
`timedelta / timedelta` is taken exactly and rounded by `np.round`. -/
def sampleFreq (f : Frames α) : Int := f.td.duration.tdiv f.n
def windowSize (f : Frames α) : Int := roundHalfEven f.td.duration (sampleFreq f)
def hopSize (f : Frames α) : Int := roundHalfEven f.td.frequency (sampleFreq f)

/-- synthesize.py:33: `int(time_dim.end / sample_freq)`. -/
def totalSize (f : Frames α) : Int := f.td.end_.tdiv (sampleFreq f)

/-- synthesize.py:26-43 `_overlap_add`, the samples.  `w` is the windowing function's coefficients (`none`: identity), applied to
every frame (34).  Frames without samples: `timedelta / 0` is not-a-time and `int` of it a ValueError; frames shorter
than a picosecond per sample: a division by zero duration is infinite, and `int` of that an OverflowError; a negative
length is a ValueError of `np.zeros`.  Frequencies and durations are positive, so hops are not negative. -/
def overlapAdd {α : Type} [Field α] (w : Option (List α)) (f : Frames α) : Except PyErr (List α) :=
  if f.n = 0 then .error .valueError
  else if sampleFreq f = 0 then .error .overflowError
  else if totalSize f < 0 then .error .valueError
  else
    let rows := match w with
      | none => f.rows
      | some c => f.rows.map fun r => List.zipWith (· * ·) c r
    addFrames (hopSize f).toNat (windowSize f).toNat 0 rows (List.replicate (totalSize f).toNat 0)

/-- `np.argmin(np.abs(x - rates))` with `x = Seconds(1) / sample_freq`, exactly (synthesize.py:42, samplerate.py:273-276): the distance
of `10¹²/sf` from `s`, times `sf`. -/
def rateDist (sf : Int) (r : SampleRate) : Nat := (10 ^ 12 - r.samplesPerSecond * sf).natAbs

/-- synthesize.py:42: the sample rate of the result. -/
def resultRate (sf : Int) : SampleRate :=
  match supportedRates with
  | [] => ⟨1, 1⟩
  | r :: rs => rs.foldl (fun best x => if rateDist sf x < rateDist sf best then x else best) r

end Zounds.Synth
