import Verif.Model.AudioIndex
/-!
# `zounds/timeseries/audiosamples.py`: what the array methods inherited from `zounds/core/axis.py` give on `AudioSamples`
-/

namespace Zounds.AudioOps
open Zounds Zounds.Arr Zounds.AudioIndex
open Zounds.Time (SampleRate findRate Dim)

variable {φ : Type} [Field φ] [LinearOrder φ]

/-- The `axis` argument of a reduction: None, an int, a tuple of ints. -/
inductive Axis where
  | all
  | one (i : Int)
  | many (l : List Int)
  deriving DecidableEq, Repr

/-- util/handy.py:2-6 `tuplify` of an axis that is not None. -/
def Axis.list : Axis → List Int
  | .all => []
  | .one i => [i]
  | .many l => l

/-- axis.py:148-156, 127-146 `ArrayWithUnits.sum` and `.max`, without `keepdims` when `axis` is None (line 128-129: numpy's result, a number, as it is). -/
def reduceWhole {α : Type} (X : Freq.NumExt φ) (red : List α → α) (a : Awu (LibDim φ) α) (axis : Axis) (keep : Bool) : Except PyErr (Got φ α) :=
  match axis with
  | .all => .ok (.number (red ((allIdx a.shape).map a.get)))
  | axis =>
    match a.reduce (libOps X) red axis.list keep with
    | .error e => .error e
    | .ok r => .ok (.plain r)

/-- `axis == 1` (audiosamples.py:74): a tuple is not equal to a number. -/
def Axis.isOne : Axis → Bool
  | .one i => decide (i = 1)
  | _ => false

/-- audiosamples.py:72-77 `AudioSamples.sum`: audio again only for `axis == 1` of an array with two axes. -/
def sum {α : Type} (X : Freq.NumExt φ) (add : List α → α) (a : Awu (LibDim φ) α) (axis : Axis) (keep : Bool) : Except PyErr (Got φ α) :=
  match reduceWhole X add a axis keep with
  | .error e => .error e
  | .ok (.plain r) =>
    if a.shape.length = 2 ∧ axis.isOne = true then
      match rateOf a with
      | .error e => .error e
      | .ok sr =>
        match newAudio X r.shape r.get sr with
        | .error e => .error e
        | .ok b => .ok (.audio b)
    else .ok (.plain r)
  | .ok g => .ok g

/-- axis.py:153-156 `max`, which `AudioSamples` inherits. -/
def max {α : Type} (X : Freq.NumExt φ) (mx : List α → α) (a : Awu (LibDim φ) α) (axis : Axis) (keep : Bool) : Except PyErr (Got φ α) :=
  reduceWhole X mx a axis keep

/-- timeseries.py:158-170 `TimeDimension(*args)` for a tuple of dimensions: the first two arguments must be `timedelta64`s; a missing or a fourth argument is refused as well (`TimeDimension()` has a frequency
of None: ValueError; four positional arguments: TypeError). -/
def timeDimensionOf (args : List (LibDim φ)) : PyErr := if 3 < args.length then .typeError else .valueError

/-- audiosamples.py:44-56 `AudioSamples.__new__` with a tuple of dimensions in place of the sample rate. -/
def newWithDims {α : Type} (shape : List Nat) (_get : List Nat → α) (dims : List (LibDim φ)) : Except PyErr (Awu (LibDim φ) α) :=
  match shape with
  | [_] => .error (timeDimensionOf dims)
  | [_, _] => .error (timeDimensionOf dims)
  | _ => .error .valueError

/-- Shape of numpy's `a.dot(b)`: a scalar operand multiplies; otherwise the last axis of `a` against the last but one of `b` (its only one, if it has one). -/
def dotShape (a b : List Nat) : Except PyErr (List Nat) :=
  if a = [] ∨ b = [] then .ok (a ++ b)
  else
    let k := if b.length = 1 then b.getLastD 0 else b.dropLast.getLastD 0
    if a.getLastD 0 ≠ k then .error .valueError
    else .ok (a.dropLast ++ (if b.length = 1 then [] else b.dropLast.dropLast ++ [b.getLastD 0]))

/-- axis.py:158-160 `dot` on audio: `self.__class__` is `AudioSamples`, whose second argument is a sample rate.  `get` gives the numbers of the product. -/
def dot {α : Type} (a : Awu (LibDim φ) α) (bshape : List Nat) (get : List Nat → α) : Except PyErr (Awu (LibDim φ) α) :=
  match dotShape a.shape bshape with
  | .error e => .error e
  | .ok s => newWithDims s get (a.dims.take s.length)

/-- audiosamples.py:134-136 `from_example`, which takes only the sample rate of the example. -/
def fromExample {α : Type} (X : Freq.NumExt φ) (shape : List Nat) (get : List Nat → α) (ex : Awu (LibDim φ) α) : Except PyErr (Got φ α) :=
  match rateOf ex with
  | .error e => .error e
  | .ok sr =>
    match newAudio X shape get sr with
    | .error e => .error e
    | .ok b => .ok (.audio b)

/-- axis.py:122-128 `zeros_like`. -/
def zerosLike {α : Type} (X : Freq.NumExt φ) (zero : α) (a : Awu (LibDim φ) α) : Except PyErr (Got φ α) :=
  fromExample X a.shape (fun _ => zero) a

/-- axis.py:107-112 `AudioSamples.concat(arrs, axis)`. -/
def concat {α : Type} (X : Freq.NumExt φ) (arrs : List (Awu (LibDim φ) α)) (axis : Nat) : Except PyErr (Got φ α) :=
  match arrs with
  | [] => .error .valueError
  | a :: rest =>
    match allMatch (libOps X) a rest with
    | .error e => .error e
    | .ok _ =>
      match npConcat ((a :: rest).map fun b => (b.shape, b.get)) axis with
      | .error e => .error e
      | .ok r => fromExample X r.1 r.2 a

/-- axis.py:65-68 `T`. -/
def transpose {α : Type} (X : Freq.NumExt φ) (a : Awu (LibDim φ) α) : Except PyErr (Got φ α) :=
  match a.transpose (libOps X) with
  | .error e => .error e
  | .ok r => .ok (.plain r)

end Zounds.AudioOps
