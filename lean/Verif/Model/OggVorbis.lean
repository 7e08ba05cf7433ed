import Verif.Model.Base

/-!
# zounds/soundfile/ogg_vorbis.py: `OggVorbisWrapper`

The sound file is its list of frames.  Times are picoseconds (`Nat`).  `timedelta / timedelta` is exact here; in Python
it is a float64, whose rounding is not modelled.  libsndfile refuses to seek beyond the end (RuntimeError).
-/

namespace Zounds.Ogg

/-- `Seconds(1)` in picoseconds, and `int(1e12)` (ogg_vorbis.py:14, 49). -/
def sec : Nat := 1000000000000

/-- ogg_vorbis.py:14 `Picoseconds(int(1e12)) / samplerate`: numpy divides a timedelta by an int with truncation. -/
def freq (rate : Nat) : Nat := sec / rate

/-- ogg_vorbis.py:28-31 `_n_samples`: `None` (to the end) is −1.  `f` is `self._freq`. -/
def nSamples (f : Nat) : Option Nat → Int
  | none => -1
  | some d => (d / f : Nat)

/-- ogg_vorbis.py:33-46 `__getitem__` for a TimeSlice: seek to `int(start / freq)`, read `n` frames (−1: all). -/
def getItem {α : Type} (f : Nat) (frames : List α) (start : Nat) (duration : Option Nat) : Except PyErr (List α) :=
  let s := start / f
  if frames.length < s then .error .runtimeError
  else
    let n := nSamples f duration
    .ok (if n < 0 then frames.drop s else (frames.drop s).take n.toNat)

/-- ogg_vorbis.py:36-38 `wrapper[slice(None)]`: the whole file. -/
def getAll {α : Type} (frames : List α) : List α := frames.take frames.length

/-- ogg_vorbis.py:46-54 `iter_chunks`, from chunk number `k` on: read second number `k`; go on while the chunk was full.
`one` is `Seconds(1)`, `f` is `self._freq`.  `fuel` bounds the number of chunks (`none`: more were needed); an error ends
the iteration with that exception. -/
def iterChunksFrom {α : Type} (f one : Nat) (frames : List α) : Nat → Nat → Option (List (List α) × Option PyErr)
  | 0, _ => none
  | fuel + 1, k =>
    match getItem f frames (k * one) (some one) with
    | .error e => some ([], some e)
    | .ok sl =>
      if nSamples f (some one) ≤ (sl.length : Int) then
        match iterChunksFrom f one frames fuel (k + 1) with
        | none => none
        | some (rest, e) => some (sl :: rest, e)
      else some ([sl], none)

/-- ogg_vorbis.py:46-54 `iter_chunks` of a file with the given sample rate. -/
def iterChunks {α : Type} (rate : Nat) (frames : List α) (fuel : Nat) : Option (List (List α) × Option PyErr) :=
  iterChunksFrom (freq rate) sec frames fuel 0

/-- Consecutive slices: read the intervals `[t0, t0+d1), [t0+d1, t0+d1+d2), …` one after the other (how a player or a feature
extractor walks through the file with ogg_vorbis.py:33-44); first frame and number of frames of each read. -/
def spans (f : Nat) : Nat → List Nat → List (Nat × Nat)
  | _, [] => []
  | t, d :: ds => (t / f, d / f) :: spans f (t + d) ds

end Zounds.Ogg
