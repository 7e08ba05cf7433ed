import Verif.Model.Float64
import Verif.Model.TimeRequest

/-!
# Requests for a stretch of time as the machine computes them: zounds/ui/contentrange.py:27-36, zounds/soundfile/ogg_vorbis.py:28-44

Model/ContentRange.lean and Model/TimeRequest.lean take `1e12 * x` exactly; here every operation rounds to double precision (Model/Float64.lean).  `decimal` gives the
exact value of a number written in decimal notation (`none`: `float` raises ValueError; infinities and not-a-number are not modelled); `float(text)` is the double
nearest to it.
-/

namespace Zounds.FloatRange
open Zounds Zounds.Float64

/-- ui/contentrange.py:28, 35: `int(1e12 * float(start))`. -/
def startOf (a : ℚ) : ℤ := trunc (fl64 (10 ^ 12 * fl64 a))

/-- ui/contentrange.py:28-34: `int(1e12 * (float(stop) - float(start)))`. -/
def durationOf (a b : ℚ) : ℤ := trunc (fl64 (10 ^ 12 * fl64 (fl64 b - fl64 a)))

/-- ui/contentrange.py:27-36 `time_slice`. -/
def timeSlice (decimal : List Char → Option ℚ) (start stop : List Char) : Except Http.RangeErr Http.Range :=
  match decimal start with
  | none => .error (.py .valueError)
  | some a =>
    .ok (.time (startOf a)
      (match decimal stop with
       | some b => some (durationOf a b)
       | none => none))

/-- ui/contentrange.py:46-64 `range`, as `Http.range` with the slice above. -/
def range (decimal : List Char → Option ℚ) (header : Option (List Char)) : Except Http.RangeErr Http.Range :=
  match header with
  | none => .ok (.bytes none none)
  | some raw =>
    if raw = [] then .ok (.bytes none none) else
    match Http.reMatch raw with
    | none => .ok (.bytes none none)
    | some (unit, start, stop) =>
      if unit = ['b', 'y', 't', 'e', 's'] then Http.byteSlice start stop
      else if unit = ['s', 'e', 'c', 'o', 'n', 'd', 's'] then timeSlice decimal start stop
      else .error (.unitUnsupported unit)

/-- ogg_vorbis.py:28-44: `int(duration / freq)` frames from frame `int(start / freq)` on, in double precision. -/
def excerpt {α : Type} (f : ℕ) (frames : List α) (start : ℤ) (duration : Option ℤ) : Except PyErr (List α) :=
  let s := sampleCount start f
  if s < 0 ∨ (frames.length : ℤ) < s then .error .runtimeError
  else
    let n : ℤ := match duration with
      | none => -1
      | some d => sampleCount d f
    .ok (if n < 0 then frames.drop s.toNat else (frames.drop s.toNat).take n.toNat)

/-- baseapp.py:122-145, serializer.py:115-137: the status and the frames sent for an ogg feature; `none`: the header does not ask for a stretch of time. -/
def getOgg {α : Type} (decimal : List Char → Option ℚ) (rate : ℕ) (frames : List α) (header : Option (List Char)) :
    Except Http.RangeErr (Option (ℕ × List α)) :=
  match range decimal header with
  | .error e => .error e
  | .ok (.bytes _ _) => .ok none
  | .ok (.time s d) => match excerpt (Ogg.freq rate) frames s d with
    | .error e => .error (.py e)
    | .ok b => .ok (some (if s = 0 ∧ d = none then 200 else 206, b))

end Zounds.FloatRange
