import Verif.Model.DimCodec
import Verif.Model.Persist
import Verif.Model.Time

/-!
# Features stored and read back: zounds/persistence/{arraywithunits,audiosamples,frequencyadaptive}.py

The array codec of `Model/Persist.lean` with the dimensions of `Model/DimCodec.lean` and the constructor of the array that is read.
-/

namespace Zounds.Stored
open Zounds Zounds.Freq Zounds.Time Zounds.Persist Zounds.DimCodec

variable {α Meta : Type} [Field α] [LinearOrder α]

/-- One piece of an array feature: its dimensions, its dtype and row shape, and the bytes of each row. -/
structure Piece (α Meta : Type) where
  dims : List (Dim α)
  header : Meta
  rows : List Bytes

/-- An `ArrayWithUnits`: dimensions, dtype and row shape, rows. -/
structure Arr (α Meta : Type) where
  dims : List (Dim α)
  header : Meta
  rows : List Bytes

/-- arraywithunits.py:27-38 over a stream of pieces: only the dimensions of the first piece are encoded.  No piece: nothing is written. -/
def store (X : NumExt α) (E : ExtCodec (List (Json α)) Meta) : List (Piece α Meta) → Except PyErr Bytes
  | [] => .ok []
  | c :: cs =>
    match encodeDims X c.dims with
    | .error e => .error e
    | .ok js => encodeAll E {} (⟨js, c.header, c.rows⟩ :: cs.map fun k => ⟨[], k.header, k.rows⟩)

/-- axis.py:50-60 for the library's dimensions: a copy that is told its size.  `FrequencyDimension.validate` (tfrepresentation.py:57-69) refuses a size other than its
number of bands; `ExplicitFrequencyDimension.validate` (tfrepresentation.py:145-146) looks at the last slice and its answer is ignored. -/
def installDim (d : Dim α) (n : Nat) : Except PyErr (Dim α) :=
  match d with
  | .identity => .ok .identity
  | .time f u _ => .ok (.time f u (some n))
  | .freq s => if n = s.scale.len then .ok (.freq s) else .error .valueError
  | .explicit s sl k => if sl = [] then .error .indexError else .ok (.explicit s sl k)
  | .custom c => .ok (.custom c)

/-- axis.py:50-60, all dimensions. -/
def installDims : List (Dim α) → List Nat → Except PyErr (List (Dim α))
  | d :: ds, n :: ns =>
    match installDim d n with
    | .error e => .error e
    | .ok d' =>
      match installDims ds ns with
      | .error e => .error e
      | .ok ds' => .ok (d' :: ds')
  | _, _ => .ok []

/-- axis.py:44-63 `ArrayWithUnits(raw, dimensions)`: `shape` is the shape of a row. -/
def newArr (shape : List Nat) (dims : List (Dim α)) (header : Meta) (rows : List Bytes) : Except PyErr (Arr α Meta) :=
  if shape.length + 1 ≠ dims.length then .error .valueError
  else
    match installDims dims (rows.length :: shape) with
    | .error e => .error e
    | .ok ds => .ok ⟨ds, header, rows⟩

/-- arraywithunits.py:71-85 `ArrayWithUnitsDecoder.__call__`. -/
def read (X : NumExt α) (E : ExtCodec (List (Json α)) Meta) (shapeOf : Meta → List Nat) (bytes : Bytes) : Except PyErr (Arr α Meta) :=
  match decodeArray E bytes with
  | .error e => .error e
  | .ok (js, h, rows) =>
    match decodeDims X js with
    | .error e => .error e
    | .ok ds => newArr (shapeOf h) ds h rows

/-- `raw.dimensions[0].samples_per_second` (timeseries.py:201-203), which only a TimeDimension has. -/
def perSecond : List (Dim α) → Except PyErr Int
  | [] => .error .indexError
  | .time f _ _ :: _ => .ok ((10 ^ 12 : Int) / f.toPs)
  | _ :: _ => .error .attributeError

/-- audiosamples.py:11-14 `AudioSamplesDecoder.__call__`: the rate and the samples of an `AudioSamples` (timeseries/audiosamples.py:44-56: one or two axes). -/
def readAudio (X : NumExt α) (E : ExtCodec (List (Json α)) Meta) (shapeOf : Meta → List Nat) (bytes : Bytes) : Except PyErr (SampleRate × Meta × List Bytes) :=
  match read X E shapeOf bytes with
  | .error e => .error e
  | .ok a =>
    match perSecond a.dims with
    | .error e => .error e
    | .ok n =>
      match findRate n with
      | .error e => .error e
      | .ok r => if (shapeOf a.header).length ≤ 1 then .ok (r, a.header, a.rows) else .error .valueError

/-- Each row of a two-dimensional array as its numbers, `item` bytes each. -/
def numbers (item : Nat) (rows : List Bytes) : Except PyErr (List (List Bytes)) := sequence (rows.map (splitRows item))

/-- frequencyadaptive.py:10-12 `FrequencyAdaptiveDecoder.__call__`, with frequencyadaptive.py:156-161 of spectral: `arr.dimensions[1]` must have a scale and slices
(a FrequencyDimension, which has no slices, is not modelled: AttributeError here). -/
def readAdaptive (X : NumExt α) (E : ExtCodec (List (Json α)) Meta) (shapeOf : Meta → List Nat) (item : Meta → Nat) (bytes : Bytes) :
    Except PyErr (FreqAdaptive α Bytes) :=
  match read X E shapeOf bytes with
  | .error e => .error e
  | .ok a =>
    match a.dims with
    | [_, .explicit s sl k] =>
      match numbers (item a.header) a.rows with
      | .error e => .error e
      | .ok rows => FreqAdaptive.fromArray X ⟨(shapeOf a.header).sum, rows, ⟨s.scale, sl, k⟩⟩
    | [] => .error .indexError
    | [_] => .error .indexError
    | _ => .error .attributeError

end Zounds.Stored
