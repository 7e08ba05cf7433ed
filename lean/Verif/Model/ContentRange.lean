import Verif.Model.Midi

/-!
# zounds/ui/contentrange.py, the byte-serving part of zounds/ui/serializer.py and the range part of
# zounds/ui/baseapp.py `FeatureHandler`

Text is `List Char`; `int(str)` and decimal formatting are those of `Verif.Model.Midi`.
`float(str)` is an arbitrary partial function into the rationals (infinities and NaN not modelled).
-/

namespace Zounds.Http
open Zounds.Midi (pyInt fmtInt fmtNat)

/-- What `RangeRequest.range` returns (ui/contentrange.py:46-64): `slice(start, stop)` (bytes), or a `TimeSlice`
with start and duration in picoseconds (seconds). `slice(None)` is `bytes none none`. -/
inductive Range where
  | bytes (start stop : Option Int)
  | time (start : Int) (duration : Option Int)
  deriving DecidableEq, Repr

/-- Exceptions leaving `RangeRequest.range`: a Python one, or `RangeUnitUnsupportedException` (ui/contentrange.py:5-10). -/
inductive RangeErr where
  | py (e : PyErr)
  | unitUnsupported (unit : List Char)
  deriving DecidableEq, Repr

/-- Split at the first occurrence of `c`; `none` when there is none. -/
def splitFirst (c : Char) : List Char → Option (List Char × List Char)
  | [] => none
  | x :: xs => if x = c then some ([], xs) else
    match splitFirst c xs with
    | none => none
    | some (a, b) => some (x :: a, b)

/-- `.*?$` at the end of the pattern (ui/contentrange.py:25): `.` does not match a newline, and `$` also matches just
before one newline that ends the string. -/
def lazyTail (rest : List Char) : Option (List Char) :=
  if '\n' ∉ rest then some rest
  else if rest.getLast? = some '\n' ∧ '\n' ∉ rest.dropLast then some rest.dropLast
  else none

/-- ui/contentrange.py:24-25: `re.match(r'^(?P<unit>[^=]+)=(?P<start>[^-]+)-(?P<stop>.*?)$', raw)`.  The unit runs to the
first `=` (it cannot contain one and must be followed by one), the start to the first `-` after that. -/
def reMatch (raw : List Char) : Option (List Char × List Char × List Char) :=
  match splitFirst '=' raw with
  | none => none
  | some (unit, r) =>
    if unit = [] then none else
    match splitFirst '-' r with
    | none => none
    | some (start, rest) =>
      if start = [] then none else
      match lazyTail rest with
      | none => none
      | some stop => some (unit, start, stop)

/-- ui/contentrange.py:40-43: the stop of `byte_slice`; `except ValueError: stop = None`. -/
def stopOf (stop : List Char) : Option Int :=
  match pyInt stop with
  | .ok b => some b
  | .error _ => none

/-- ui/contentrange.py:38-44 `byte_slice`: a start that is not an int is a ValueError, a stop that is not an int is
"no stop". -/
def byteSlice (start stop : List Char) : Except RangeErr Range :=
  match pyInt start with
  | .error e => .error (.py e)
  | .ok a => .ok (.bytes (some a) (stopOf stop))

/-- Truncation towards zero, Python's `int(float)` on a finite value. -/
def truncRat (q : Rat) : Int := if 0 ≤ q then q.floor else q.ceil

/-- ui/contentrange.py:27-36 `time_slice`.  `1e12 * x` is exact here (float rounding not modelled).  A zero start is
replaced by `Picoseconds(0)` in `TimeSlice.__init__`, which is the same value. -/
def timeSlice (pyFloat : List Char → Option Rat) (start stop : List Char) : Except RangeErr Range :=
  match pyFloat start with
  | none => .error (.py .valueError)
  | some a =>
    .ok (.time (truncRat (1000000000000 * a))
      (match pyFloat stop with
       | some b => some (truncRat (1000000000000 * (b - a)))
       | none => none))

/-- ui/contentrange.py:46-64 `range`.  `header = none` stands for the request without a `Range` header, which
`FeatureHandler.get` (ui/baseapp.py:125-128) also turns into `slice(None)`. -/
def range (pyFloat : List Char → Option Rat) (header : Option (List Char)) : Except RangeErr Range :=
  match header with
  | none => .ok (.bytes none none)
  | some raw =>
    if raw = [] then .ok (.bytes none none) else
    match reMatch raw with
    | none => .ok (.bytes none none)
    | some (unit, start, stop) =>
      if unit = ['b', 'y', 't', 'e', 's'] then byteSlice start stop
      else if unit = ['s', 'e', 'c', 'o', 'n', 'd', 's'] then timeSlice pyFloat start stop
      else .error (.unitUnsupported unit)

/-- ui/contentrange.py:67-72, 91-96: a content range, unit `bytes`; `stop = none` is Python's None.  The text is
`'bytes {start}-{stop or total}/{total}'`; `None` prints as `None`, and a stop of 0 is falsy. -/
def contentRangeBytes (start stop : Option Int) (total : Nat) : List Char :=
  ['b', 'y', 't', 'e', 's', ' '] ++ (match start with | some a => fmtInt a | none => ['N', 'o', 'n', 'e']) ++ ['-'] ++
    fmtInt (match stop with | some b => if b = 0 then (total : Int) else b | none => (total : Int)) ++ ['/'] ++ fmtNat total

/-- The response of `FeatureHandler.get` (ui/baseapp.py:122-145): status, body, `Content-Range`. -/
structure Response (α : Type) where
  status : Nat
  body : List α
  contentRange : List Char

/-- `flo.read(n)` at position `pos` of a file: a negative count reads everything to the end. -/
def fileRead {α : Type} (file : List α) (pos : Nat) (n : Int) : List α :=
  if n < 0 then file.drop pos else (file.drop pos).take n.toNat

/-- ui/serializer.py:48-66 `DefaultSerializer.serialize`, and ui/baseapp.py:122-145.  `if slce.start:` and
`if slce.stop:` are falsy for both None and 0.  Seeking to a negative position is a ValueError, `stop - None` a
TypeError.  A TimeSlice has no `stop` (AttributeError). `total` is the size of the stored value. -/
def serve {α : Type} (file : List α) (r : Range) : Except PyErr (Response α) :=
  match r with
  | .time _ _ => .error .attributeError
  | .bytes start stop =>
    let a := start.getD 0
    if a < 0 then .error .valueError else
    let body : Except PyErr (List α) :=
      match stop with
      | none => .ok (file.drop a.toNat)
      | some b =>
        if b = 0 then .ok (file.drop a.toNat)
        else match start with
          | none => .error .typeError
          | some a' => .ok (fileRead file a.toNat (b - a'))
    match body with
    | .error e => .error e
    | .ok v => .ok {
        status := if start.isSome || stop.isSome then 206 else 200
        body := v
        contentRange := contentRangeBytes start stop file.length }

/-- ui/baseapp.py:122-145 for a feature served as plain bytes: parse the header, then serialize. -/
def getBytes {α : Type} (pyFloat : List Char → Option Rat) (file : List α) (header : Option (List Char)) :
    Except RangeErr (Response α) :=
  match range pyFloat header with
  | .error e => .error e
  | .ok r => match serve file r with
    | .error e => .error (.py e)
    | .ok x => .ok x

/-- ui/contentrange.py:74-85 `from_timeslice` followed by the choice of `stop` in `__str__` (92): start, stop and
total in seconds, as exact rationals. -/
def contentRangeTime (start : Int) (duration : Option Int) (total : Int) : Rat × Rat × Rat :=
  let s : Rat := start / 1000000000000
  let t : Rat := total / 1000000000000
  (s, (match duration with
       | some d => if s + (d : Rat) / 1000000000000 = 0 then t else s + (d : Rat) / 1000000000000
       | none => t), t)

end Zounds.Http
