import Verif.Model.Array
import Verif.Model.Windowed
/-!
# `zounds/timeseries/audiosamples.py`: indexing and windowing `AudioSamples`
-/

namespace Zounds.AudioIndex
open Zounds Zounds.Arr
open Zounds.Time (SampleRate findRate Dim)

section
variable {φ : Type} [Field φ] [LinearOrder φ]

/-- What an index expression evaluates to: a number, an `ArrayWithUnits`, an `AudioSamples`. -/
inductive Got (φ α : Type) where
  | number (x : α)
  | plain (a : Awu (LibDim φ) α)
  | audio (a : Awu (LibDim φ) α)

/-- audiosamples.py:44-56 `AudioSamples.__new__` with an audio sample rate. -/
def newAudio {α : Type} (X : Freq.NumExt φ) (shape : List Nat) (get : List Nat → α) (r : SampleRate) : Except PyErr (Awu (LibDim φ) α) :=
  match shape with
  | [_] => Awu.new (libOps X) shape get [.time r.frequency r.duration none]
  | [_, _] => Awu.new (libOps X) shape get [.time r.frequency r.duration none, .identity]
  | _ => .error .valueError

/-- audiosamples.py:102-104 `samples_per_second` and 144-146 `samplerate` (the later definition): from the first dimension. -/
def rateOf {α : Type} (a : Awu (LibDim φ) α) : Except PyErr SampleRate :=
  match a.dims with
  | .time f u _ :: _ => findRate (SampleRate.mk f u).samplesPerSecond
  | _ => .error .attributeError

/-- audiosamples.py:169-170: the dimensions are compared; if they are the same, the array is made audio. -/
def asAudio {α : Type} (X : Freq.NumExt φ) (a r : Awu (LibDim φ) α) : Except PyErr (Got φ α) :=
  match dimsEq (libOps X) r.dims a.dims with
  | .error e => .error e
  | .ok false => .ok (.plain r)
  | .ok true =>
    match rateOf a with
    | .error e => .error e
    | .ok sr =>
      match newAudio X r.shape r.get sr with
      | .error e => .error e
      | .ok b => .ok (.audio b)

/-- audiosamples.py:168-173: an AttributeError on the way (`TimeDimension.__eq__` with an identity) leaves what `ArrayWithUnits.__getitem__`
returned. -/
def rewrap {α : Type} (X : Freq.NumExt φ) (a r : Awu (LibDim φ) α) : Except PyErr (Got φ α) :=
  match asAudio X a r with
  | .error .attributeError => .ok (.plain r)
  | x => x

/-- audiosamples.py:166-173 `AudioSamples.__getitem__`, index after `_tuplify`; a Python int on a mono array gives a number
(axis.py:329-330), which has no dimensions. -/
def getitem {α : Type} (X : Freq.NumExt φ) (a : Awu (LibDim φ) α) (index : List (Item (LibIdx φ))) : Except PyErr (Got φ α) :=
  match a.shape, index with
  | [_], [.int i] =>
    match a.getNumber i with
    | .error e => .error e
    | .ok x => .ok (.number x)
  | _, _ =>
    match a.getitem (libOps X) index with
    | .error e => .error e
    | .ok r => rewrap X a r
end

/-- axis.py:228-233 `_compute_span` of `TimeSlice(duration=d)`: the number of positions the slice stands for. -/
def spanOf (td : Dim) (d : Int) : Int := let r := td.intSlice 0 (some d); r.2 - r.1

/-- Result of windowing along time: the windows (or bare rows), and the dimensions in front of those of a row: (frequency, duration,
size). -/
structure Windows (α : Type) where
  out : Npx.Out α
  dims : List (Int × Int × Nat)

/-- audiosamples.py:175-179 `sliding_window` by way of axis.py:190-217: rows are samples or frames; the first dimension is a
`TimeDimension(f, u)`.  With a window size of one numpy's result has no new axis, but there are two time dimensions: `ArrayWithUnits`
refuses (axis.py:44-47).  No windows: the result keeps the dimensions of the audio. -/
def slidingWindow {α : Type} (z : α) (xs : List α) (f u : Int) (wr : SampleRate) (padding : Bool) : Except PyErr (Windows α) :=
  let td := Dim.mk f u xs.length
  let w := spanOf td wr.duration
  let s := spanOf td wr.frequency
  match Npx.windowed z xs w (some s) padding with
  | .error e => .error e
  | .ok (_, .rows []) => .ok ⟨.rows [], [(f, u, 0)]⟩
  | .ok (_, .wins []) => .ok ⟨.wins [], [(f, u, 0)]⟩
  | .ok (_, .rows _) => .error .valueError
  | .ok (_, .wins ws) => .ok ⟨.wins ws, [(f * s, f * w + (u - f), ws.length), (f, u, w.toNat)]⟩

end Zounds.AudioIndex
