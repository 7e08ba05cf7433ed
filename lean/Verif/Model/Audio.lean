import Verif.Model.Time
import Mathlib.Algebra.Field.Defs

/-!
# zounds/timeseries/audiosamples.py: `AudioSamples`

Numbers are the elements of a field `α` (float rounding is not modelled).  Times are picoseconds.
-/

set_option linter.dupNamespace false

namespace Zounds.Audio
open Zounds.Time (SampleRate findRate)

/-- A numpy array by its number of axes: none, one, two (`rows × cols`, with the number of columns), or more. -/
inductive Raw (α : Type) where
  | scalar (x : α)
  | vec (xs : List α)
  | mat (cols : Nat) (rows : List (List α))
  | more (ndim : Nat)
  deriving DecidableEq, Repr

/-- The sample rate argument: frequency and duration, and whether it is an instance of `AudioSampleRate`
(audiosamples.py:53). -/
structure RateArg where
  rate : SampleRate
  isAudio : Bool
  deriving DecidableEq, Repr

/-- An `AudioSamples` instance: the first dimension's frequency and duration (audiosamples.py:45-51) and the numbers; `data` is
one-dimensional or two-dimensional (`samples × channels`). -/
structure Audio (α : Type) where
  rate : SampleRate
  data : Raw α
  deriving DecidableEq, Repr

/-- audiosamples.py:44-56 `__new__`. -/
def Audio.new {α : Type} (arr : Raw α) (r : RateArg) : Except PyErr (Audio α) :=
  match arr with
  | .vec _ => if r.isAudio then .ok ⟨r.rate, arr⟩ else .error .typeError
  | .mat _ _ => if r.isAudio then .ok ⟨r.rate, arr⟩ else .error .typeError
  | _ => .error .valueError

/-- audiosamples.py:102-104 `samples_per_second` and 134-136 (the later of the two definitions of) `samplerate`: the known rate
with that many samples per second, a ValueError if there is none. -/
def Audio.samplerate {α : Type} (a : Audio α) : Except PyErr SampleRate := findRate a.rate.samplesPerSecond

/-- audiosamples.py:138-142 `channels`. -/
def Audio.channels {α : Type} (a : Audio α) : Nat :=
  match a.data with
  | .mat c _ => c
  | _ => 1

/-- `len(samples)`. -/
def Audio.length {α : Type} (a : Audio α) : Nat :=
  match a.data with
  | .vec xs => xs.length
  | .mat _ rows => rows.length
  | _ => 0

variable {α : Type} [Field α]

/-- `AudioSamples(y, self.samplerate)`: the sample rate looked up, then `__new__`.  Looked-up rates are audio rates. -/
def Audio.rewrap (a : Audio α) (y : Raw α) : Except PyErr (Audio α) :=
  match a.samplerate with
  | .error e => .error e
  | .ok r => Audio.new y ⟨r, true⟩

/-- audiosamples.py:148-158 `mono`: more (or fewer) than one channel: `self.sum(axis=1) * 0.5`, then `x * 0.5`. -/
def Audio.mono (a : Audio α) : Except PyErr (Audio α) :=
  if a.channels = 1 then .ok a
  else match a.data with
    | .mat _ rows =>
      let x := rows.map fun r => r.sum * (1 / 2)
      let y := x.map fun v => v * (1 / 2)
      a.rewrap (.vec y)
    | _ => .ok a

/-- `(np.vstack([d, d])).T` (audiosamples.py:154).  A vector becomes one row of `vstack`, so a column of the result; a matrix
with `c` columns and `n` rows becomes one with `c` rows and `2 n` columns. -/
def stackT (d : Raw α) : Raw α :=
  match d with
  | .vec xs => .mat 2 (xs.map fun x => [x, x])
  | .mat c rows => .mat (2 * rows.length) ((List.range c).map fun j => (rows ++ rows).map fun r => r.getD j 0)
  | d => d

/-- audiosamples.py:160-164 `stereo`. -/
def Audio.stereo (a : Audio α) : Except PyErr (Audio α) :=
  if a.channels = 2 then .ok a else a.rewrap (stackT a.data)

/-- `np.full((n, c), v).squeeze()`: axes of size one are dropped. -/
def squeezed (n c : Nat) (v : α) : Raw α :=
  if n = 1 then (if c = 1 then .scalar v else .vec (List.replicate c v))
  else if c = 1 then .vec (List.replicate n v) else .mat c (List.replicate n (List.replicate c v))

/-- audiosamples.py:85-89 `silence`: `int(duration / samplerate.frequency)` truncates towards zero (the quotient taken exactly); a
negative number of samples is refused by `np.zeros`. -/
def silence (r : RateArg) (duration : Int) (channels : Nat) : Except PyErr (Audio α) :=
  let n := duration.tdiv r.rate.frequency
  if n < 0 then .error .valueError else Audio.new (squeezed n.toNat channels 0) r

/-- `x[:] = v`. -/
def fill (v : α) : Raw α → Raw α
  | .scalar _ => .scalar v
  | .vec xs => .vec (xs.map fun _ => v)
  | .mat c rows => .mat c (rows.map fun r => r.map fun _ => v)
  | d => d

/-- audiosamples.py:91-95 `silence_like`: silence of the same rate and number of channels, then `x[:] = 1`. -/
def Audio.silenceLike (a : Audio α) (duration : Int) : Except PyErr (Audio α) :=
  match a.samplerate with
  | .error e => .error e
  | .ok r =>
    match silence (α := α) ⟨r, true⟩ duration a.channels with
    | .error e => .error e
    | .ok x => .ok { x with data := fill 1 x.data }

/-- audiosamples.py:97-100 `pad_with_silence`: the silence is made with the default number of channels, one;
`np.concatenate` refuses arrays of different numbers of axes. -/
def Audio.padWithSilence (a : Audio α) (duration : Int) : Except PyErr (Audio α) :=
  match a.samplerate with
  | .error e => .error e
  | .ok r =>
    match silence (α := α) ⟨r, true⟩ duration 1 with
    | .error e => .error e
    | .ok s =>
      match a.data, s.data with
      | .vec xs, .vec ys => a.rewrap (.vec (xs ++ ys))
      | _, _ => .error .valueError

/-- numpy's broadcasting along one axis. -/
def broadcast {β : Type} (f : β → β → Except PyErr β) (xs ys : List β) : Except PyErr (List β) :=
  if xs.length = ys.length then (xs.zip ys).mapM fun p => f p.1 p.2
  else match xs, ys with
    | [x], ys => ys.mapM fun y => f x y
    | xs, [y] => xs.mapM fun x => f x y
    | _, _ => .error .valueError

/-- Element-wise sum of two arrays of the same number of axes (mixed numbers of axes are not modelled: the result is then
no longer an `AudioSamples`, core/axis.py:153-156). -/
def addRaw : Raw α → Raw α → Except PyErr (Raw α)
  | .vec xs, .vec ys => match broadcast (fun x y => .ok (x + y)) xs ys with
    | .ok zs => .ok (.vec zs)
    | .error e => .error e
  | .mat c xs, .mat d ys => if c ≠ d ∧ c ≠ 1 ∧ d ≠ 1 then .error .valueError else match broadcast (broadcast fun x y => .ok (x + y)) xs ys with
    | .ok zs => .ok (.mat (if c = 1 then d else c) zs)
    | .error e => .error e
  | _, _ => .error .notImplemented

/-- audiosamples.py:58-67 `__add__`: sample rates are looked up and compared (samplerate.py:70-73) before numpy adds. -/
def Audio.add (a b : Audio α) : Except PyErr (Audio α) :=
  match a.samplerate, b.samplerate with
  | .ok r, .ok s =>
    if r.frequency = s.frequency ∧ r.duration = s.duration then
      match addRaw a.data b.data with
      | .ok d => .ok { a with data := d }
      | .error e => .error e
    else .error .valueError
  | .error e, _ => .error e
  | _, .error e => .error e

/-- Subtraction, which the class does not override: numpy subtracts without looking at the sample rates (one-dimensional arrays
only). -/
def Audio.sub (a b : Audio α) : Except PyErr (Audio α) :=
  match a.data, b.data with
  | .vec xs, .vec ys => match broadcast (fun x y => .ok (x - y)) xs ys with
    | .ok zs => .ok { a with data := .vec zs }
    | .error e => .error e
  | _, _ => .error .notImplemented

/-- audiosamples.py:79-83 `from_file`: the decoded samples (libsndfile's) and the file's sample rate; a rate that is not one of the
known ones is a ValueError. -/
def fromFile (samples : Raw α) (samplesPerSecond : Int) : Except PyErr (Audio α) :=
  match findRate samplesPerSecond with
  | .error e => .error e
  | .ok r => Audio.new samples ⟨r, true⟩

/-- audiosamples.py:106-108 `duration_in_seconds`: `duration` is the first dimension's sample duration. -/
def Audio.durationInSeconds (a : Audio α) : Rat := (a.rate.duration : Rat) / 1000000000000

/-- audiosamples.py:203-214, the OGG branch of `encode`: the pieces written, `self[i: i + chunksize]` for `i` in
`range(0, len(self), chunksize)`.  `chunk` is `samples_per_second * 20`; a chunk size of 0 makes `range` raise. -/
def oggPieces {β : Type} (xs : List β) (chunk : Nat) : Except PyErr (List (List β)) :=
  if chunk = 0 then .error .valueError
  else .ok ((List.range ((xs.length + chunk - 1) / chunk)).map fun i => (xs.take (i * chunk + chunk)).drop (i * chunk))

end Zounds.Audio
