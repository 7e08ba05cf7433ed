import Verif.Model.ContentRange
import Verif.Model.OggVorbis
import Verif.Model.Time

/-!
# Requests for a stretch of time: zounds/ui/serializer.py `OggVorbisSerializer`, `ConstantRateTimeSeriesSerializer`, zounds/ui/baseapp.py:122-145

Frames are what the sound file gives before it is encoded again (Vorbis is lossy; the encoder is not modelled).
-/

namespace Zounds.TimeRequest

/-- An answer with content range: status, what was sent, and the numbers of the header `seconds start-stop/total`. -/
structure Answer (α : Type) where
  status : Nat
  body : List α
  contentRange : Rat × Rat × Rat

/-- ogg_vorbis.py:33-44 `__getitem__` for any TimeSlice: `int` truncates; libsndfile refuses to seek to a negative position or beyond the end
(RuntimeError); reading a negative number of frames reads to the end. -/
def excerpt {α : Type} (f : Nat) (frames : List α) (start : Int) (duration : Option Int) : Except PyErr (List α) :=
  let s := start.tdiv f
  if s < 0 ∨ (frames.length : Int) < s then .error .runtimeError
  else
    let n : Int := match duration with
      | none => -1
      | some d => d.tdiv f
    .ok (if n < 0 then frames.drop s.toNat else (frames.drop s.toNat).take n.toNat)

/-- serializer.py:130-131 `Picoseconds(int(1e12 * wrapper.duration_seconds))` with ogg_vorbis.py:25-26; exact here. -/
def oggTotal (rate n : Nat) : Int := ((Ogg.sec * n / rate : Nat) : Int)

/-- serializer.py:115-137 `OggVorbisSerializer.serialize` and baseapp.py:133-145; `is_partial` is `slce != TimeSlice()`. -/
def serveOgg {α : Type} (rate : Nat) (frames : List α) (start : Int) (duration : Option Int) : Except PyErr (Answer α) :=
  match excerpt (Ogg.freq rate) frames start duration with
  | .error e => .error e
  | .ok b => .ok ⟨if start = 0 ∧ duration = none then 200 else 206, b, Http.contentRangeTime start duration (oggTotal rate frames.length)⟩

/-- baseapp.py:122-145 for an ogg feature and a header asking for a stretch of time; `none`: the header does not (it is answered with stored bytes,
Model/ContentRange.lean). -/
def getOgg {α : Type} (pyFloat : List Char → Option Rat) (rate : Nat) (frames : List α) (header : Option (List Char)) :
    Except Http.RangeErr (Option (Answer α)) :=
  match Http.range pyFloat header with
  | .error e => .error e
  | .ok (.bytes _ _) => .ok none
  | .ok (.time s d) => match serveOgg rate frames s d with
    | .error e => .error (.py e)
    | .ok a => .ok (some a)

/-- serializer.py:181-192 `ConstantRateTimeSeriesSerializer.serialize`: what is drawn, always as a part; `td` is the dimension of the first axis. -/
def serveArray {α : Type} (td : Time.Dim) (rows : List α) (start : Int) (duration : Option Int) : Answer α :=
  ⟨206, Time.getTimeSlice rows td start duration,
    Http.contentRangeTime start duration (Time.Dim.end_ { td with size := rows.length })⟩

/-- baseapp.py:122-145 for an array over time. -/
def getArray {α : Type} (pyFloat : List Char → Option Rat) (td : Time.Dim) (rows : List α) (header : Option (List Char)) :
    Except Http.RangeErr (Option (Answer α)) :=
  match Http.range pyFloat header with
  | .error e => .error e
  | .ok (.bytes _ _) => .ok none
  | .ok (.time s d) => .ok (some (serveArray td rows s d))

end Zounds.TimeRequest
