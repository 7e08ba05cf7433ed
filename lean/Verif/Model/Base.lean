/-!
# Shared vocabulary of the model

Python exceptions are values.  Nothing in this file models a particular
function of `/repo`; it only fixes the names of the exception classes that the
modelled functions raise and Python's slice semantics on sequences (language
reference, "Common sequence operations"), which the code relies on everywhere.
-/

namespace Zounds

/-- Names of the Python exceptions raised by the modelled code. -/
inductive PyErr where
  | valueError
  | indexError
  | typeError
  | keyError
  | attributeError
  | runtimeError
  | overflowError
  | notImplemented
  | zeroDivision
  | notEnoughData
  | stopIteration
  | bufferError
  | timeout
  | unicodeError
  | assertionError
  | connectionError
  | httpError
  | recursionError
  | nameError
  deriving DecidableEq, Repr

deriving instance DecidableEq for Except

/-- Python's normalisation of one slice bound against a length
(CPython `PySlice_AdjustIndices`, positive step): negative bounds count from
the end, everything is clamped to `[0, len]`.  Used for every `a[i:j]` in the
modelled code. -/
def pyBound (len : Nat) (i : Int) : Nat :=
  if i < 0 then (i + len).toNat else min i.toNat len

/-- Python `l[i:j]` for integer bounds `i`, `j` of any sign. -/
def pySlice {α : Type u} (l : List α) (i j : Int) : List α :=
  (l.take (pyBound l.length j)).drop (pyBound l.length i)

/-- Python `l[::k]`, `k ≥ 1`: every `k`-th element. -/
def everyNth {α : Type u} (k : Nat) (l : List α) : List α :=
  (List.range ((l.length + k - 1) / k)).filterMap fun i => l[i * k]?

end Zounds
