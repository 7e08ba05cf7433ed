import Verif.Model.Base

/-!
# zounds/util/midi.py

Strings are lists of characters.  Python's decimal formatting of an `int` and the part of `int(str)` that is
about ASCII are written out here, because the property is about what survives the round trip through text.
-/

namespace Zounds.Midi

/-- util/midi.py:1 `NOTES`. -/
def notes : List (List Char) :=
  ["C".toList, "C#".toList, "D".toList, "D#".toList, "E".toList, "F".toList, "F#".toList, "G".toList,
   "G#".toList, "A".toList, "A#".toList, "B".toList]

/-- The character of a decimal digit (CPython formatting, used by util/midi.py:8). -/
def digitChar (d : Nat) : Char := Char.ofNat (48 + d)

/-- CPython's decimal formatting of a non-negative int, as used by the f-string in util/midi.py:8. -/
def fmtNat (n : Nat) : List Char :=
  if h : n < 10 then [digitChar n] else fmtNat (n / 10) ++ [digitChar (n % 10)]
termination_by n
decreasing_by omega

/-- CPython's decimal formatting of an int (util/midi.py:8). -/
def fmtInt (i : Int) : List Char :=
  match i with
  | .ofNat n => fmtNat n
  | .negSucc n => '-' :: fmtNat (n + 1)

/-- util/midi.py:5-8 `midi_to_note` for an `int` argument.  `//` and `%` are Python's floor division and modulus;
`12 = len(NOTES)`; the list index is always in range, so the default is never used. -/
def midiToNote (n : Int) : List Char :=
  notes.getD (n.fmod 12).toNat [] ++ fmtInt (n.fdiv 12)

/-- util/midi.py:5-8 `midi_to_note` for a `float` argument with the integral value `n` (|n| < 12·10^16, where Python
prints floats positionally): `midi_number // 12` is then a float, and prints with a trailing `.0`. -/
def midiToNoteFloat (n : Int) : List Char :=
  notes.getD (n.fmod 12).toNat [] ++ fmtInt (n.fdiv 12) ++ ['.', '0']

/-- ASCII whitespace stripped by Python's `int(str)` (util/midi.py:17). -/
def isWs (c : Char) : Bool := c == ' ' || c == '\t' || c == '\n' || c == '\r' || c.toNat == 11 || c.toNat == 12

/-- Value of an ASCII decimal digit (non-ASCII decimal digits, which `int` also takes, are not modelled). -/
def digitVal (c : Char) : Option Nat :=
  if 48 ≤ c.toNat ∧ c.toNat ≤ 57 then some (c.toNat - 48) else none

/-- Digits with single underscores between them; `acc` is the value so far, `prev` says that the last character was a
digit.  Grammar of `int(str)` (util/midi.py:17). -/
def digits (acc : Nat) (prev : Bool) : List Char → Option Nat
  | [] => if prev then some acc else none
  | c :: cs =>
    if c = '_' then (if prev then digits acc false cs else none)
    else match digitVal c with
      | some d => digits (acc * 10 + d) true cs
      | none => none

/-- Strip whitespace at both ends (start of `int(str)`). -/
def strip (s : List Char) : List Char := ((s.dropWhile isWs).reverse.dropWhile isWs).reverse

/-- Python's `int(str)` on ASCII text, used by util/midi.py:17: whitespace, sign, digits with single underscores;
anything else is a `ValueError`. -/
def pyInt (s : List Char) : Except PyErr Int :=
  match strip s with
  | '-' :: r => match digits 0 false r with
    | some n => .ok (-(n : Int))
    | none => .error .valueError
  | '+' :: r => match digits 0 false r with
    | some n => .ok n
    | none => .error .valueError
  | r => match digits 0 false r with
    | some n => .ok n
    | none => .error .valueError

/-- util/midi.py:2 `NOTE_INDICES[name]`: position of the name in `NOTES`, or KeyError. -/
def noteIndex (name : List Char) : Except PyErr Nat :=
  match notes.idxOf? name with
  | some i => .ok i
  | none => .error .keyError

/-- util/midi.py:11-18 `note_to_midi`.  `note[1]` on a shorter string is an IndexError; `int(...)` is evaluated before
the dictionary lookup. -/
def noteToMidi (note : List Char) : Except PyErr Int :=
  match note[1]? with
  | none => .error .indexError
  | some c =>
    let len := if c = '#' then 2 else 1
    match pyInt (note.drop len) with
    | .error e => .error e
    | .ok octave =>
      match noteIndex (note.take len) with
      | .error e => .error e
      | .ok i => .ok (octave * 12 + i)

end Zounds.Midi
