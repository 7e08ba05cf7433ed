import Verif.Model.Time
import Verif.Model.Codes
/-!
# `zounds/persistence/{util,timeslice,arraywithunits}.py`

`base64` and `np.frombuffer`/`tostring` are modelled concretely.  `json` and
featureflow's `NumpyMetaData` are external: they appear as parameters with the
stated contract (see `ExtCodec`).
-/

namespace Zounds.Persist
open Zounds Zounds.Time

abbrev Bytes := List UInt8

/-! ## base64 (RFC 4648, Python's `base64` module) -/

/-- The character of a six-bit group. -/
def b64Char (n : Nat) : Char :=
  "ABCDEFGHIJKLMNOPQRSTUVWXYZabcdefghijklmnopqrstuvwxyz0123456789+/".toList.getD n '='

/-- The six-bit group of a character. -/
def b64Val (c : Char) : Option Nat :=
  "ABCDEFGHIJKLMNOPQRSTUVWXYZabcdefghijklmnopqrstuvwxyz0123456789+/".toList.findIdx? (· == c)

/-- `base64.b64encode` (used at util.py:12). -/
def b64encode : Bytes → List Char
  | [] => []
  | [a] => [b64Char (a.toNat / 4), b64Char (a.toNat % 4 * 16), '=', '=']
  | [a, b] =>
    [b64Char (a.toNat / 4), b64Char (a.toNat % 4 * 16 + b.toNat / 16), b64Char (b.toNat % 16 * 4), '=']
  | a :: b :: c :: r =>
    b64Char (a.toNat / 4) :: b64Char (a.toNat % 4 * 16 + b.toNat / 16) ::
      b64Char (b.toNat % 16 * 4 + c.toNat / 64) :: b64Char (c.toNat % 64) :: b64encode r

/-- `base64.b64decode` (used at util.py:18) on well-formed text; anything else is
the `binascii.Error` (a `ValueError`).  Simplification: Python skips characters
outside the alphabet, here they are errors. -/
def b64decode : List Char → Except PyErr Bytes
  | [] => .ok []
  | c0 :: c1 :: c2 :: c3 :: r =>
    match b64Val c0, b64Val c1 with
    | some s0, some s1 =>
      if c2 = '=' ∧ c3 = '=' ∧ r = [] then .ok [UInt8.ofNat (s0 * 4 + s1 / 16)]
      else
        match b64Val c2 with
        | none => .error .valueError
        | some s2 =>
          if c3 = '=' ∧ r = [] then
            .ok [UInt8.ofNat (s0 * 4 + s1 / 16), UInt8.ofNat (s1 % 16 * 16 + s2 / 4)]
          else
            match b64Val c3 with
            | none => .error .valueError
            | some s3 =>
              match b64decode r with
              | .error e => .error e
              | .ok bs => .ok (UInt8.ofNat (s0 * 4 + s1 / 16) :: UInt8.ofNat (s1 % 16 * 16 + s2 / 4)
                  :: UInt8.ofNat (s2 % 4 * 64 + s3) :: bs)
    | _, _ => .error .valueError
  | _ => .error .valueError

/-! ## time deltas -/

/-- Little-endian bytes of a number. -/
def leBytes (n : Nat) : Nat → Bytes
  | 0 => []
  | k + 1 => UInt8.ofNat (n % 256) :: leBytes (n / 256) k

/-- The number of little-endian bytes. -/
def leNat : Bytes → Nat
  | [] => 0
  | b :: bs => b.toNat + 256 * leNat bs

/-- `encode_timedelta` (util.py:9-13).  `astype(np.uint64)` of an `int64` count
reduces it modulo `2^64`. -/
def encodeTimedelta (td : Dur) : List Char × TUnit :=
  (b64encode (leBytes (td.count % 2 ^ 64).toNat 8), td.unit)

/-- `decode_timedelta` on an encoded pair (util.py:16-20): `np.timedelta64(int(v), s)`
raises `OverflowError` when the count does not fit a signed 64-bit integer;
`np.frombuffer` refuses an empty or ragged buffer. -/
def decodeTimedelta (t : List Char × TUnit) : Except PyErr Dur :=
  match b64decode t.1 with
  | .error e => .error e
  | .ok bs =>
    if bs.length % 8 ≠ 0 ∨ bs = [] then .error .valueError
    else
      let v := leNat (bs.take 8)
      if v < 2 ^ 63 then .ok ⟨v, t.2⟩ else .error .overflowError

/-- `TimeSliceEncoder.dict` (timeslice.py:8-11): a missing duration has no dtype. -/
def encodeTimeSlice (ts : TimeSlice) : Except PyErr ((List Char × TUnit) × (List Char × TUnit)) :=
  match ts.duration with
  | none => .error .attributeError
  | some d => .ok (encodeTimedelta ts.start, encodeTimedelta d)

/-- `TimeSlice(**TimeSliceDecoder.kwargs(d))` (timeslice.py:18-21, index.py:172). -/
def decodeTimeSlice (p : (List Char × TUnit) × (List Char × TUnit)) : Except PyErr TimeSlice :=
  match decodeTimedelta p.1, decodeTimedelta p.2 with
  | .ok s, .ok d => .ok (TimeSlice.mk' (some d) (some s))
  | .error e, _ => .error e
  | _, .error e => .error e

/-! ## arrays -/

/-- The external codecs: `json.dumps`/`json.loads` of the dimension list (ASCII text)
and featureflow's `NumpyMetaData.pack`/`unpack` (self-delimiting header holding
dtype and row shape) with `totalsize` the number of bytes of a row. -/
structure ExtCodec (Dims Meta : Type) where
  dumps : Dims → Bytes
  loads : Bytes → Except PyErr Dims
  pack : Meta → Bytes
  unpack : Bytes → Except PyErr (Meta × Bytes)
  totalsize : Meta → Nat

/-- One chunk of an array feature: dimensions, dtype and row shape, and the bytes of
each row (`tostring()` is row-major). -/
structure Chunk (Dims Meta : Type) where
  dims : Dims
  header : Meta
  rows : List Bytes

/-- State of an `ArrayWithUnitsEncoder` (arraywithunits.py:21-25): whether
`dimensions` and `nmpy` are set. -/
structure EncState where
  dimsDone : Bool := false
  metaDone : Bool := false

/-- `ArrayWithUnitsEncoder._process` (arraywithunits.py:27-38).  `struct.pack('I', n)`
raises for `n ≥ 2^32`. -/
def encodeChunk {Dims Meta : Type} (E : ExtCodec Dims Meta) (s : EncState) (c : Chunk Dims Meta) :
    Except PyErr (EncState × Bytes) :=
  let data := c.rows.flatten
  let hdr := if s.metaDone then [] else E.pack c.header
  if s.dimsDone then .ok ({ s with metaDone := true }, hdr ++ data)
  else
    let encoded := E.dumps c.dims
    if encoded.length < 2 ^ 32 then
      .ok ({ dimsDone := true, metaDone := true }, leBytes encoded.length 4 ++ encoded ++ hdr ++ data)
    else .error .valueError

/-- The bytes written for a stream of chunks. -/
def encodeAll {Dims Meta : Type} (E : ExtCodec Dims Meta) (s : EncState) :
    List (Chunk Dims Meta) → Except PyErr Bytes
  | [] => .ok []
  | c :: cs =>
    match encodeChunk E s c with
    | .error e => .error e
    | .ok (s', bs) =>
      match encodeAll E s' cs with
      | .error e => .error e
      | .ok r => .ok (bs ++ r)

/-- Rows of a buffer: `frombuffer(...).reshape((first_dim,) + shape)`
(arraywithunits.py:9-15, 80-83): `reshape` needs the sizes to agree. -/
def splitRows (size : Nat) (b : Bytes) : Except PyErr (List Bytes) :=
  if size = 0 then .error .zeroDivision
  else
    let first := b.length / size
    if first * size ≠ b.length then .error .valueError
    else .ok ((List.range first).map fun k => (b.drop (k * size)).take size)

/-- `ArrayWithUnitsDecoder.__call__` (arraywithunits.py:71-85; the enclosing `ArrayWithUnits(..)` is
modelled in `Model/Axis`). -/
def decodeArray {Dims Meta : Type} (E : ExtCodec Dims Meta) (flo : Bytes) :
    Except PyErr (Dims × Meta × List Bytes) :=
  if (flo.take 4).length < 4 then .error .valueError
  else
    let jsonLen := leNat (flo.take 4)
    match E.loads ((flo.drop 4).take jsonLen) with
    | .error e => .error e
    | .ok dims =>
      match E.unpack ((flo.drop 4).drop jsonLen) with
      | .error e => .error e
      | .ok (m, rest) =>
        match splitRows (E.totalsize m) rest with
        | .error e => .error e
        | .ok rows => .ok (dims, m, rows)

/-! ## packed arrays -/

/-- A chunk of a boolean feature: each row is the list of its last-axis vectors. -/
structure BoolChunk (Dims : Type) where
  dims : Dims
  rows : List (List (List Bool))

/-- `PackedArrayWithUnitsEncoder._process` (arraywithunits.py:50-64): dimensions are
those of the unpacked data, the array header describes the packed data
(`np.packbits(.., axis=-1)`).  `header` is the dtype and row shape of the packed
array. -/
def packedChunk {Dims Meta : Type} (header : Meta) (c : BoolChunk Dims) : Chunk Dims Meta :=
  ⟨c.dims, header, c.rows.map fun r => (r.map Codes.packbits).flatten⟩

/-- Python's check in `super(cls, self)`: `type(self)` must be a subclass of `cls`,
else `TypeError`. -/
def pySuper (mro : List String) (cls : String) : Except PyErr Unit :=
  if cls ∈ mro then .ok () else .error .typeError

/-- `PackedArrayWithUnitsFeature.__init__` (arraywithunits.py:111-128) calls
`super(ArrayWithUnitsFeature, self)`; `subclasses` are the names of the user's
subclasses preceding it in the method resolution order. -/
def packedFeatureInit (subclasses : List String) : Except PyErr Unit :=
  pySuper (subclasses ++ ["PackedArrayWithUnitsFeature", "Feature", "object"]) "ArrayWithUnitsFeature"

/-- `ArrayWithUnitsFeature.__init__` (arraywithunits.py:91-108). -/
def featureInit (subclasses : List String) : Except PyErr Unit :=
  pySuper (subclasses ++ ["ArrayWithUnitsFeature", "Feature", "object"]) "ArrayWithUnitsFeature"

end Zounds.Persist
