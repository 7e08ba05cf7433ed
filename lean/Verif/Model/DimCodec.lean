import Verif.Model.Persist
import Verif.Model.Frequency
/-!
# `zounds/persistence/{basedimension,dimension,identitydimension,timedimension,frequencydimension}.py`

Dimensions to JSON trees and back.  The JSON text itself (`json.dumps`/`json.loads`) is
not modelled here: on these trees it is the identity, with tuples becoming lists (both
are `arr`) and numbers preserved.
-/

namespace Zounds.DimCodec
open Zounds Zounds.Time Zounds.Persist Zounds.Freq

/-- JSON values with the numbers the dimensions contain. -/
inductive Json (α : Type) where
  | null
  | bool (b : Bool)
  | int (i : Int)
  | num (x : α)
  | str (s : String)
  | arr (l : List (Json α))
  | obj (l : List (String × Json α))

variable {α : Type} [Field α] [LinearOrder α]

/-- `d[key]` on a dictionary. -/
def Json.get (j : Json α) (k : String) : Except PyErr (Json α) :=
  match j with
  | .obj l => match l.find? (fun p => p.1 == k) with
    | some p => .ok p.2
    | none => .error .keyError
  | _ => .error .typeError

/-- A number where one is needed. -/
def Json.asNum : Json α → Except PyErr α
  | .num x => .ok x
  | .int i => .ok (i : α)
  | _ => .error .typeError

/-- A count where one is needed. -/
def Json.asNat : Json α → Except PyErr Nat
  | .int (.ofNat n) => .ok n
  | _ => .error .typeError

def Json.asInt : Json α → Except PyErr Int
  | .int i => .ok i
  | _ => .error .typeError

def Json.asBool : Json α → Except PyErr Bool
  | .bool b => .ok b
  | _ => .error .typeError

def Json.asStr : Json α → Except PyErr String
  | .str s => .ok s
  | _ => .error .typeError

def Json.asArr : Json α → Except PyErr (List (Json α))
  | .arr l => .ok l
  | _ => .error .typeError

/-- A scale instance: the scale, and the class name when it is an instance of a user's
subclass of the scale class. -/
structure ScaleObj (α : Type) where
  scale : Scale α
  sub : Option String := none
  deriving DecidableEq

/-- The library class of a scale. -/
def baseName : Scale α → String
  | .linear .. => "LinearScale"
  | .geometric .. => "GeometricScale"
  | .explicit _ => "ExplicitScale"
  | .bark .. => "BarkScale"
  | .mel .. => "MelScale"
  | .chroma _ => "ChromaScale"

/-- `scale.__class__.__name__`. -/
def ScaleObj.clsName (s : ScaleObj α) : String := s.sub.getD (baseName s.scale)

/-- The strategies (frequencydimension.py:141-148). -/
inductive Strategy where
  | linear | geometric | explicit | bark | mel | chroma
  deriving DecidableEq

/-- `cls.__name__` of a strategy. -/
def Strategy.name : Strategy → String
  | .linear => "LinearScale"
  | .geometric => "GeometricScale"
  | .explicit => "ExplicitScale"
  | .bark => "BarkScale"
  | .mel => "MelScale"
  | .chroma => "ChromaScale"

/-- `CompositeScaleEncoderDecoder.strategies` (frequencydimension.py:141-148). -/
def strategies : List Strategy := [.linear, .geometric, .explicit, .bark, .mel, .chroma]

/-- `can_encode`: `isinstance` (frequencydimension.py:29-30, 74-75, 97-98, 125-126). -/
def Strategy.canEncode (st : Strategy) (s : ScaleObj α) : Bool := baseName s.scale == st.name

/-- `can_decode`: compare names (frequencydimension.py:32-33, 77-78, 100-101, 128-129). -/
def Strategy.canDecode (st : Strategy) (name : String) : Bool := name == st.name

/-- `GenericScaleEncoderDecoder.encode` (frequencydimension.py:35-40). -/
def encodeGeneric (X : NumExt α) (s : ScaleObj α) : Except PyErr (List (String × Json α)) :=
  match s.scale.band X with
  | .error e => .error e
  | .ok b => .ok [("start_hz", .num b.start), ("stop_hz", .num b.stop), ("n_bands", .int s.scale.len),
      ("name", .str s.clsName)]

/-- The `encode` of each strategy (frequencydimension.py:35-40, 80-86, 103-110, 131-133). -/
def Strategy.encode (X : NumExt α) (st : Strategy) (s : ScaleObj α) :
    Except PyErr (List (String × Json α)) :=
  match st, s.scale with
  | .linear, .linear b n ev =>
    .ok [("start_hz", .num b.start), ("stop_hz", .num b.stop), ("n_bands", .int n),
      ("name", .str s.clsName), ("always_even", .bool ev)]
  | .geometric, .geometric a b r n ev =>
    .ok [("start_center_hz", .num a), ("stop_center_hz", .num b), ("bandwidth_ratio", .num r),
      ("n_bands", .int n), ("name", .str "GeometricScale"), ("always_even", .bool ev)]
  | .explicit, .explicit bs =>
    .ok [("bands", .arr (bs.map fun b => .arr [.num b.start, .num b.stop])), ("name", .str "ExplicitScale")]
  | _, _ => encodeGeneric X s

/-- `CompositeScaleEncoderDecoder.encode` (frequencydimension.py:153-157, 165-166). -/
def encodeScale (X : NumExt α) (s : ScaleObj α) : Except PyErr (List (String × Json α)) :=
  match strategies.find? fun st => st.canEncode s with
  | none => .error .notImplemented
  | some st => st.encode X s

/-- `_decode_frequency_band` (frequencydimension.py:42-43). -/
def decodeBand (d : Json α) : Except PyErr (Band α) := do
  let a ← (← d.get "start_hz").asNum
  let b ← (← d.get "stop_hz").asNum
  Band.new a b

/-- A pair of numbers, `FrequencyBand(*b)` (frequencydimension.py:136). -/
def decodePair (j : Json α) : Except PyErr (Band α) :=
  match j with
  | .arr [a, b] =>
    match a.asNum, b.asNum with
    | .ok x, .ok y => Band.new x y
    | .error e, _ => .error e
    | _, .error e => .error e
  | _ => .error .typeError

/-- The `decode` of each strategy (frequencydimension.py:45-49, 66-67, 88-90, 112-118,
135-137). -/
def Strategy.decode (X : NumExt α) (st : Strategy) (d : Json α) : Except PyErr (Scale α) :=
  match st with
  | .linear => do
    let b ← decodeBand d
    let n ← (← d.get "n_bands").asNat
    let ev ← (← d.get "always_even").asBool
    pure (.linear b n ev)
  | .geometric => do
    let a ← (← d.get "start_center_hz").asNum
    let b ← (← d.get "stop_center_hz").asNum
    let r ← (← d.get "bandwidth_ratio").asNum
    let n ← (← d.get "n_bands").asNat
    let ev ← (← d.get "always_even").asBool
    newGeometric X a b r n ev
  | .explicit => do
    let l ← (← d.get "bands").asArr
    let bs ← sequence (l.map decodePair)
    newExplicit bs
  | .bark => do
    let b ← decodeBand d
    let n ← (← d.get "n_bands").asNat
    pure (.bark b n)
  | .mel => do
    let b ← decodeBand d
    let n ← (← d.get "n_bands").asNat
    pure (.mel b n)
  | .chroma => do
    let b ← decodeBand d
    pure (.chroma b)

/-- `CompositeScaleEncoderDecoder.decode` (frequencydimension.py:159-163, 168-169): the
decoded object is of the library class. -/
def decodeScale (X : NumExt α) (d : Json α) : Except PyErr (ScaleObj α) :=
  match d.get "name" with
  | .error e => .error e
  | .ok (.str name) =>
    match strategies.find? fun st => st.canDecode name with
    | none => .error .notImplemented
    | some st =>
      match st.decode X d with
      | .error e => .error e
      | .ok s => .ok ⟨s, none⟩
  | .ok _ => .error .notImplemented

/-- Dimensions.  `custom` is any user-defined subclass of `Dimension`. -/
inductive Dim (α : Type) where
  | identity
  | time (frequency duration : Dur) (size : Option Int)
  | freq (scale : ScaleObj α)
  | explicit (scale : ScaleObj α) (slices : List (Int × Int)) (isList : Bool)
  | custom (name : String)
  deriving DecidableEq

/-- The encoders/decoders (dimension.py:9-14, 31-36). -/
inductive DimKind where
  | identity | time | freq | explicit
  deriving DecidableEq

/-- `dim_type.__name__`. -/
def DimKind.name : DimKind → String
  | .identity => "IdentityDimension"
  | .time => "TimeDimension"
  | .freq => "FrequencyDimension"
  | .explicit => "ExplicitFrequencyDimension"

/-- `DimensionEncoder.encoders` / `DimensionDecoder.decoders` (dimension.py:9-14, 31-36). -/
def kinds : List DimKind := [.identity, .time, .freq, .explicit]

/-- `BaseDimensionEncoder.matches` (basedimension.py:7-8). -/
def DimKind.encodes : DimKind → Dim α → Bool
  | .identity, .identity => true
  | .time, .time .. => true
  | .freq, .freq _ => true
  | .explicit, .explicit .. => true
  | _, _ => false

/-- An encoded time value as JSON. -/
def tdJson (d : Dur) (unitName : TUnit → String) : Json α :=
  let e := encodeTimedelta d
  .arr [.str (String.ofList e.1), .str (unitName e.2)]

/-- numpy's unit names. -/
def unitName : TUnit → String
  | .h => "h" | .m => "m" | .s => "s" | .ms => "ms" | .us => "us" | .ns => "ns" | .ps => "ps"

/-- The units by name. -/
def unitOf (s : String) : Option TUnit :=
  [TUnit.h, .m, .s, .ms, .us, .ns, .ps].find? fun u => unitName u == s

/-- `decode_timedelta` on JSON (util.py:16-20). -/
def tdOfJson (j : Json α) : Except PyErr Dur :=
  match j with
  | .arr [.str v, .str u] =>
    match unitOf u with
    | some u => decodeTimedelta (v.toList, u)
    | none => .error .typeError
  | _ => .error .typeError

/-- The `dict` of each encoder (identitydimension.py:9-10, timedimension.py:11-15,
frequencydimension.py:177-178, 196-200). -/
def DimKind.dict (X : NumExt α) (d : Dim α) : Except PyErr (List (String × Json α)) :=
  match d with
  | .identity => .ok []
  | .time f du size =>
    .ok [("frequency", tdJson f unitName), ("duration", tdJson du unitName),
      ("size", match size with | none => .null | some n => .int n)]
  | .freq s => encodeScale X s
  | .explicit s sls _ =>
    match encodeScale X s with
    | .error e => .error e
    | .ok l => .ok (l ++ [("slices", .arr (sls.map fun p => .arr [.int p.1, .int p.2]))])
  | .custom _ => .error .notImplemented

/-- `DimensionEncoder.encode` of one dimension (dimension.py:19-27, basedimension.py:13-14). -/
def encodeDim (X : NumExt α) (d : Dim α) : Except PyErr (Json α) :=
  match kinds.find? fun k => k.encodes d with
  | none => .error .notImplemented
  | some k =>
    match DimKind.dict X d with
    | .error e => .error e
    | .ok l => .ok (.obj [("type", .str k.name), ("data", .obj l)])

/-- A pair of slice bounds (frequencydimension.py:211). -/
def slicePair (j : Json α) : Except PyErr (Int × Int) :=
  match j with
  | .arr [.int a, .int b] => .ok (a, b)
  | _ => .error .typeError

/-- `TimeDimension(frequency=.., duration=.., size=..)`: `duration or frequency`
(timeseries.py:158-169, timedimension.py:22-26). -/
def decodeTime (d : Json α) : Except PyErr (Dim α) := do
  let f ← tdOfJson (← d.get "frequency")
  let du ← tdOfJson (← d.get "duration")
  let size ← d.get "size"
  let size ← match size with
    | .null => pure none
    | .int n => pure (some n)
    | _ => .error .typeError
  pure (.time f (if du.count = 0 then f else du) size)

/-- `ExplicitFrequencyDimensionDecoder.args` and the constructor
(frequencydimension.py:209-212, tfrepresentation.py:97-104). -/
def decodeExplicit (X : NumExt α) (d : Json α) : Except PyErr (Dim α) := do
  let s ← decodeScale X d
  let l ← (← d.get "slices").asArr
  let sls ← sequence (l.map slicePair)
  let _ ← ExplicitDim.new X s.scale sls true
  pure (.explicit s sls true)

/-- The `decode` of each decoder (basedimension.py:31-33). -/
def DimKind.decode (X : NumExt α) (k : DimKind) (data : Json α) : Except PyErr (Dim α) :=
  match k with
  | .identity => .ok .identity
  | .time => decodeTime data
  | .freq =>
    match decodeScale X data with
    | .error e => .error e
    | .ok s => .ok (.freq s)
  | .explicit => decodeExplicit X data

/-- `DimensionDecoder.decode` of one dimension (dimension.py:41-49, basedimension.py:22-23). -/
def decodeDim (X : NumExt α) (j : Json α) : Except PyErr (Dim α) :=
  match j.get "type" with
  | .error e => .error e
  | .ok (.str t) =>
    match kinds.find? fun k => t == k.name with
    | none => .error .notImplemented
    | some k =>
      match j.get "data" with
      | .error e => .error e
      | .ok data => k.decode X data
  | .ok _ => .error .notImplemented

/-- `list(DimensionEncoder().encode(dims))` (dimension.py:19-27). -/
def encodeDims (X : NumExt α) (ds : List (Dim α)) : Except PyErr (List (Json α)) :=
  sequence (ds.map (encodeDim X))

/-- `list(DimensionDecoder().decode(d))` (dimension.py:41-49). -/
def decodeDims (X : NumExt α) (js : List (Json α)) : Except PyErr (List (Dim α)) :=
  sequence (js.map (decodeDim X))

/-- `==` on scale instances: `FrequencyScale.__eq__` compares the classes
(frequencyscale.py:276-280), `ExplicitScale.__eq__` does not (511-512). -/
def ScaleObj.eq (X : NumExt α) (a b : ScaleObj α) : Except PyErr Bool :=
  match a.scale with
  | .explicit _ => a.scale.eq X b.scale
  | _ => if a.clsName = b.clsName then a.scale.eq X b.scale else .ok false

/-- `==` on dimensions (dimensions.py:76-77, timeseries.py:277-280,
tfrepresentation.py:71-72, 148-149).  A frequency dimension has no `slices`, which an explicit
one only looks at when the scales are equal. -/
def Dim.eq (X : NumExt α) (a b : Dim α) : Except PyErr Bool :=
  match a, b with
  | .identity, .identity => .ok true
  | .identity, _ => .ok false
  | .time f d _, .time f' d' _ => .ok (f.eq f' && d.eq d')
  | .freq s, .freq t => s.eq X t
  | .freq s, .explicit t _ _ => s.eq X t
  | .explicit s sl k, .explicit t tl k' =>
    match s.eq X t with
    | .error e => .error e
    | .ok false => .ok false
    | .ok true => .ok (decide (k = k') && decide (sl = tl))
  | .explicit s _ _, .freq t =>
    match s.eq X t with
    | .error e => .error e
    | .ok false => .ok false
    | .ok true => .error .attributeError
  | .custom a, .custom b => .ok (decide (a = b))
  | _, _ => .error .attributeError

end Zounds.DimCodec
