import Verif.Model.Base
import Mathlib.Algebra.Order.Field.Basic
/-!
# `zounds/spectral/{frequencyscale,tfrepresentation}.py`

Frequencies are elements of an ordered field: float64 rounding is not modelled.
`np.geomspace` and the centre frequencies of the Bark and Mel scales involve
logarithms; they enter as the parameter `NumExt` (instantiated with real numbers in
`Model/Psychoacoustics.lean`).
-/

namespace Zounds.Freq
open Zounds

variable {α : Type} [Field α] [LinearOrder α]

/-! ## Bands -/

/-- A `FrequencyBand` instance (frequencyscale.py:31-53). -/
structure Band (α : Type) where
  start : α
  stop : α
  deriving DecidableEq, Repr

/-- `FrequencyBand.__init__` (frequencyscale.py:48-53). -/
def Band.new (s t : α) : Except PyErr (Band α) :=
  if t ≤ s then .error .valueError else .ok ⟨s, t⟩

/-- `FrequencyBand.__eq__` between bands (frequencyscale.py:55-59). -/
def Band.eq (a b : Band α) : Bool := decide (a.start = b.start) && decide (a.stop = b.stop)

/-- `FrequencyBand.intersect` (frequencyscale.py:81-83). -/
def Band.intersect (a b : Band α) : Except PyErr (Band α) :=
  Band.new (max a.start b.start) (min a.stop b.stop)

/-- `FrequencyBand.bandwidth` (frequencyscale.py:116-120). -/
def Band.bandwidth (a : Band α) : α := a.stop - a.start

/-- `FrequencyBand.center_frequency` (frequencyscale.py:123-124). -/
def Band.center (a : Band α) : α := a.start + a.bandwidth / 2

/-- `FrequencyBand.bandwidth_ratio` (frequencyscale.py:89-90). -/
def Band.bandwidthRatio (a b : Band α) : α := b.bandwidth / a.bandwidth

/-- `FrequencyBand.intersection_ratio` (frequencyscale.py:92-94). -/
def Band.intersectionRatio (a b : Band α) : Except PyErr α :=
  match a.intersect b with
  | .error e => .error e
  | .ok i => .ok (a.bandwidthRatio i)

/-- `FrequencyBand.from_start` (frequencyscale.py:107). -/
def Band.fromStart (s bw : α) : Except PyErr (Band α) := Band.new s (s + bw)

/-- `FrequencyBand.from_center` (frequencyscale.py:111-113). -/
def Band.fromCenter (c bw : α) : Except PyErr (Band α) := Band.new (c - bw / 2) (c + bw / 2)

/-! ## Scales -/

/-- Numerical routines that are not modelled: `np.geomspace` and the centre
frequencies computed by `BarkScale._compute_bands` / `MelScale._compute_bands`
(frequencyscale.py:538-541, 567-570). -/
structure NumExt (α : Type) where
  geomspace : α → α → Nat → List α
  barkCenters : Band α → Nat → List α
  melCenters : Band α → Nat → List α

/-- The scale classes (frequencyscale.py:354-577) with the attributes given to their
constructors. -/
inductive Scale (α : Type) where
  | linear (band : Band α) (n : Nat) (even : Bool)
  | geometric (startC stopC ratio : α) (n : Nat) (even : Bool)
  | explicit (bands : List (Band α))
  | bark (band : Band α) (n : Nat)
  | mel (band : Band α) (n : Nat)
  | chroma (band : Band α)
  deriving DecidableEq, Repr

/-- Collect a list of results, stopping at the first exception. -/
def sequence {β : Type} : List (Except PyErr β) → Except PyErr (List β)
  | [] => .ok []
  | .error e :: _ => .error e
  | .ok b :: r =>
    match sequence r with
    | .error e => .error e
    | .ok bs => .ok (b :: bs)

/-- `LinearScale._compute_bands` (frequencyscale.py:400-405): `np.linspace` without
the endpoint; `freqs[1]` raises when there are fewer than two. -/
def linearBands (b : Band α) (n : Nat) : Except PyErr (List (Band α)) :=
  let freqs := (List.range n).map fun (k : Nat) => b.start + (k : α) * ((b.stop - b.start) / (n : α))
  match freqs with
  | f0 :: f1 :: _ => sequence (freqs.map fun f => Band.new f (f + (f1 - f0)))
  | _ => .error .indexError

/-- `equivalent_rectangular_bandwidth` (frequencyscale.py:529-530). -/
def erb (hz : α) : α := 108 / 1000 * hz + 247 / 10

/-- `GeometricScale.__init__`'s bands (frequencyscale.py:461-464). -/
def geometricBands (X : NumExt α) (startC stopC ratio : α) (n : Nat) : Except PyErr (List (Band α)) :=
  sequence ((X.geomspace startC stopC n).map fun cf => Band.fromCenter cf (cf * ratio))

/-- `FrequencyScale.bands` (frequencyscale.py:166-173) and the `_compute_bands` of
the classes (400-405, 482-483, 508-509, 537-545, 566-574, 583-584). -/
def Scale.bands (X : NumExt α) : Scale α → Except PyErr (List (Band α))
  | .linear b n _ => linearBands b n
  | .geometric s e r n _ => geometricBands X s e r n
  | .explicit bs => .ok bs
  | .bark b n => sequence ((X.barkCenters b n).map fun c => Band.fromCenter c (erb c))
  | .mel b n => sequence ((X.melCenters b n).map fun c => Band.fromCenter c (erb c))
  | .chroma _ => .error .notImplemented

/-- The span of a list of bands, `FrequencyBand(bands[0].start_hz, bands[-1].stop_hz)`
(frequencyscale.py:286, 465, 500). -/
def spanOf (bs : List (Band α)) : Except PyErr (Band α) :=
  match bs.head?, bs.getLast? with
  | some f, some l => Band.new f.start l.stop
  | _, _ => .error .indexError

/-- `GeometricScale.__init__` (frequencyscale.py:454-470). -/
def newGeometric (X : NumExt α) (s e r : α) (n : Nat) (even : Bool) : Except PyErr (Scale α) :=
  match geometricBands X s e r n with
  | .error err => .error err
  | .ok bs =>
    match spanOf bs with
    | .error err => .error err
    | .ok _ => .ok (.geometric s e r n even)

/-- `ExplicitScale.__init__` (frequencyscale.py:498-503). -/
def newExplicit (bs : List (Band α)) : Except PyErr (Scale α) :=
  match spanOf bs with
  | .error err => .error err
  | .ok _ => .ok (.explicit bs)

/-- `FrequencyScale.frequency_band` (frequencyscale.py:161, 465-467, 500-502). -/
def Scale.band (X : NumExt α) : Scale α → Except PyErr (Band α)
  | .linear b _ _ => .ok b
  | .geometric s e r n _ =>
    match geometricBands X s e r n with
    | .error err => .error err
    | .ok bs => spanOf bs
  | .explicit bs => spanOf bs
  | .bark b _ => .ok b
  | .mel b _ => .ok b
  | .chroma b => .ok b

/-- `FrequencyScale.__len__` / `n_bands` (frequencyscale.py:190-191, 502, 581). -/
def Scale.len : Scale α → Nat
  | .linear _ n _ => n
  | .geometric _ _ _ n _ => n
  | .explicit bs => bs.length
  | .bark _ n => n
  | .mel _ n => n
  | .chroma _ => 12

/-- `FrequencyScale.always_even` (frequencyscale.py:159, 467, 502, 535, 564, 581). -/
def Scale.alwaysEven : Scale α → Bool
  | .linear _ _ e => e
  | .geometric _ _ _ _ e => e
  | _ => false

/-- `bisect.bisect_left`'s loop (CPython `Lib/bisect.py`), used at
frequencyscale.py:319-322. -/
def bisectLoop (a : List α) (x : α) (lo hi : Nat) : Nat :=
  if h : lo < hi then
    let mid := (lo + hi) / 2
    match a[mid]? with
    | some v => if v < x then bisectLoop a x (mid + 1) hi else bisectLoop a x lo mid
    | none => lo
  else lo
  termination_by hi - lo

/-- `bisect.bisect_left(a, x)`. -/
def bisectLeft (a : List α) (x : α) : Nat := bisectLoop a x 0 a.length

/-- The two indices computed by `get_slice` for a frequency band
(frequencyscale.py:319-329), before Python clamps the slice. -/
def bandRun (even : Bool) (bs : List (Band α)) (q : Band α) : Nat × Nat :=
  let lo := bisectLeft (bs.map Band.stop) q.start
  let hi := bisectLeft (bs.map Band.start) q.stop
  if even && decide (((hi : Int) - lo) % 2 ≠ 0) then (lo, hi + 1) else (lo, hi)

/-- A bound of a Python slice.  `perceptual fval hz` is a `Bark` or a `Mel`: as a
`float` its value is the one passed to the constructor, `fval`, although its `hz`
attribute holds the converted frequency (frequencyscale.py:6-24, 515-518, 548-551). -/
inductive Bnd (α : Type) where
  | none
  | int (i : Int)
  | num (x : α)
  | hz (x : α)
  | perceptual (fval hz : α)
  deriving DecidableEq, Repr

/-- The value Python's float arithmetic and comparisons see. -/
def Bnd.value : Bnd α → Option α
  | .none => Option.none
  | .int i => some (i : α)
  | .num x => some x
  | .hz x => some x
  | .perceptual f _ => some f

/-- Is the class of the bound exactly `Hertz` (frequencyscale.py:299-305)? -/
def Bnd.isHertz : Bnd α → Bool
  | .hz _ => true
  | _ => false

/-- What may be used to index a frequency axis. -/
inductive Index (α : Type) where
  | int (i : Int)
  | slice (a b : Bnd α)
  | band (b : Band α)
  deriving DecidableEq, Repr

/-- The result of `get_slice`: the very slice it was given, or two positions. -/
inductive SliceOut (α : Type) where
  | same (a b : Bnd α)
  | run (lo hi : Nat)
  deriving DecidableEq, Repr

/-- The frequency band a slice with a `Hertz` bound stands for
(frequencyscale.py:308-317).  When `FrequencyBand` raises `ValueError`, the `slice`
itself goes on to `frequency_band.start_hz`: `AttributeError`.  Simplification: a negative `Bark` or
`Mel` bound of a scale whose own `stop_hz` is a `Hertz` instance is added by its `hz` attribute
(frequencyscale.py:16-21), here by its value. -/
def hertzSliceBand (stopHz : α) (a b : Bnd α) : Except PyErr (Band α) :=
  let start := a.value.getD 0
  let start := if start < 0 then stopHz + start else start
  let stop := b.value.getD stopHz
  let stop := if stop < 0 then stopHz + stop else stop
  match Band.new start stop with
  | .error _ => .error .attributeError
  | .ok q => .ok q

/-- `FrequencyScale.get_slice` (frequencyscale.py:289-329) and `ChromaScale.get_slice`
(586-587).  An integer has no `start_hz`. -/
def Scale.getSlice (X : NumExt α) (s : Scale α) (ix : Index α) : Except PyErr (SliceOut α) :=
  match s with
  | .chroma _ => .error .notImplemented
  | _ =>
    match ix with
    | .int _ => .error .attributeError
    | .band q =>
      match s.bands X with
      | .error e => .error e
      | .ok bs => let r := bandRun s.alwaysEven bs q; .ok (.run r.1 r.2)
    | .slice a b =>
      if !a.isHertz && !b.isHertz then .ok (.same a b)
      else
        match s.band X with
        | .error e => .error e
        | .ok sb =>
          match hertzSliceBand sb.stop a b with
          | .error e => .error e
          | .ok q =>
            match s.bands X with
            | .error e => .error e
            | .ok bs => let r := bandRun s.alwaysEven bs q; .ok (.run r.1 r.2)

/-- Integer bounds of a slice; any other kind of bound is Python's `TypeError`. -/
def Bnd.asInt : Bnd α → Except PyErr (Option Int)
  | .none => .ok Option.none
  | .int i => .ok (some i)
  | _ => .error .typeError

/-- `l[a:b]` on a list or tuple. -/
def sliceList {β : Type} (l : List β) (a b : Bnd α) : Except PyErr (List β) :=
  match a.asInt, b.asInt with
  | .ok a, .ok b => .ok (pySlice l (a.getD 0) (b.getD l.length))
  | .error e, _ => .error e
  | _, .error e => .error e

/-- `l[out]` for the result of `get_slice`. -/
def SliceOut.select {β : Type} (out : SliceOut α) (l : List β) : Except PyErr (List β) :=
  match out with
  | .same a b => sliceList l a b
  | .run lo hi => .ok ((l.take hi).drop lo)

/-- `_construct_scale_from_slice` (frequencyscale.py:285-287, 472-473, 505-506).  Note
that the class's own constructor is called, so `always_even` is dropped and the bands
are computed anew. -/
def Scale.fromSlice (s : Scale α) (bs : List (Band α)) : Except PyErr (Scale α) :=
  match s with
  | .geometric .. => newExplicit bs
  | .explicit _ => newExplicit bs
  | .linear .. => match spanOf bs with
    | .error e => .error e
    | .ok b => .ok (.linear b bs.length false)
  | .bark .. => match spanOf bs with
    | .error e => .error e
    | .ok b => .ok (.bark b bs.length)
  | .mel .. => match spanOf bs with
    | .error e => .error e
    | .ok b => .ok (.mel b bs.length)
  | .chroma _ => .error .typeError

/-- Python's `l[i]`. -/
def pyGet {β : Type} (l : List β) (i : Int) : Except PyErr β :=
  let k := if i < 0 then i + l.length else i
  if k < 0 then .error .indexError
  else match l[k.toNat]? with
    | some x => .ok x
    | none => .error .indexError

/-- `FrequencyScale.__getitem__` with an integer (frequencyscale.py:331-341). -/
def Scale.getInt (X : NumExt α) (s : Scale α) (i : Int) : Except PyErr (Band α) :=
  match s.bands X with
  | .error e => .error e
  | .ok bs => pyGet bs i

/-- `FrequencyScale.__getitem__` with a slice or a band (frequencyscale.py:331-343):
first `bands[index]`, and when that is a `TypeError`, `bands[get_slice(index)]`. -/
def Scale.getScale (X : NumExt α) (s : Scale α) (ix : Index α) : Except PyErr (Scale α) :=
  match s.bands X with
  | .error e => .error e
  | .ok bs =>
    let direct := match ix with
      | .slice a b => sliceList bs a b
      | _ => .error .typeError
    match direct with
    | .ok sel => s.fromSlice sel
    | .error _ =>
      match s.getSlice X ix with
      | .error e => .error e
      | .ok out =>
        match out.select bs with
        | .error e => .error e
        | .ok sel => s.fromSlice sel

/-- Python's `all([a == b for (a, b) in zip(self, other)])` (frequencyscale.py:512). -/
def zipAllEq : List (Band α) → List (Band α) → Bool
  | a :: as, b :: bs => a.eq b && zipAllEq as bs
  | _, _ => true

/-- `self == other` on scales: `FrequencyScale.__eq__` (frequencyscale.py:276-280),
`GeometricScale.__eq__` (475-480), `ExplicitScale.__eq__` (511-512). -/
def Scale.eq (X : NumExt α) (s t : Scale α) : Except PyErr Bool :=
  match s, t with
  | .explicit bs, t =>
    match t.bands X with
    | .error e => .error e
    | .ok cs => .ok (zipAllEq bs cs)
  | .linear b n _, .linear c m _ => .ok (b.eq c && decide (n = m))
  | .bark b n, .bark c m => .ok (b.eq c && decide (n = m))
  | .mel b n, .mel c m => .ok (b.eq c && decide (n = m))
  | .chroma b, .chroma c => .ok (b.eq c)
  | .geometric s e r n ev, .geometric s' e' r' n' ev' =>
    match (Scale.geometric s e r n ev).band X, (Scale.geometric s' e' r' n' ev').band X with
    | .ok b, .ok c => .ok (b.eq c && decide (n = n') && decide (s = s') && decide (e = e') && decide (r = r'))
    | .error x, _ => .error x
    | _, .error x => .error x
  | _, _ => .ok false

/-- `FrequencyScale.ensure_overlap_ratio` (frequencyscale.py:207-238). -/
def ensureOverlapRatio (required : α) : List (Band α) → Except PyErr Unit
  | b1 :: b2 :: rest =>
    let ratio := match b1.intersectionRatio b2 with
      | .ok r => r
      | .error _ => 0
    if ratio < required then .error .assertionError else ensureOverlapRatio required (b2 :: rest)
  | _ => .ok ()

/-! ## Frequency dimensions -/

/-- `FrequencyDimension.validate` (tfrepresentation.py:57-69). -/
def validateFreq (s : Scale α) (size : Nat) : Except PyErr Unit :=
  if size ≠ s.len then .error .valueError else .ok ()

/-- An `ExplicitFrequencyDimension` (tfrepresentation.py:81-104).  `isList` records
whether `slices` was given as a list or a tuple, which `==` distinguishes. -/
structure ExplicitDim (α : Type) where
  scale : Scale α
  slices : List (Int × Int)
  isList : Bool := true
  deriving DecidableEq, Repr

/-- `ExplicitFrequencyDimension.__init__` (tfrepresentation.py:97-104); building the
lookup iterates over the scale's bands. -/
def ExplicitDim.new (X : NumExt α) (scale : Scale α) (slices : List (Int × Int)) (isList : Bool) :
    Except PyErr (ExplicitDim α) :=
  if scale.len ≠ slices.length then .error .valueError
  else
    match scale.bands X with
    | .error e => .error e
    | .ok _ => .ok ⟨scale, slices, isList⟩

/-- `dict(zip(scale, slices))[band]` (tfrepresentation.py:104): the last entry with an
equal key wins. -/
def lookupBand (bs : List (Band α)) (sls : List (Int × Int)) (q : Band α) : Option (Int × Int) :=
  ((bs.zip sls).reverse.find? fun p => p.1.eq q).map Prod.snd

/-- The span of a list of slices, `slice(slices[0].start, slices[-1].stop)`
(tfrepresentation.py:143). -/
def sliceSpan (sls : List (Int × Int)) : Except PyErr (Int × Int) :=
  match sls.head?, sls.getLast? with
  | some f, some l => .ok (f.1, l.2)
  | _, _ => .error .indexError

/-- `ExplicitFrequencyDimension.integer_based_slice` for a `FrequencyBand`
(tfrepresentation.py:132-143). -/
def ExplicitDim.intSlice (X : NumExt α) (d : ExplicitDim α) (q : Band α) : Except PyErr (Int × Int) :=
  match d.scale.bands X with
  | .error e => .error e
  | .ok bs =>
    match lookupBand bs d.slices q with
    | some sl => .ok sl
    | none =>
      match d.scale.getSlice X (.band q) with
      | .error e => .error e
      | .ok out =>
        match out.select d.slices with
        | .error e => .error e
        | .ok sls => sliceSpan sls

/-- `ExplicitFrequencyDimension.metaslice` for a `FrequencyBand`
(tfrepresentation.py:118-130). -/
def ExplicitDim.metaslice (X : NumExt α) (d : ExplicitDim α) (q : Band α) :
    Except PyErr (ExplicitDim α) :=
  match d.scale.bands X with
  | .error e => .error e
  | .ok bs =>
    match lookupBand bs d.slices q with
    | some sl =>
      match newExplicit [q] with
      | .error e => .error e
      | .ok s => ExplicitDim.new X s [sl] true
    | none =>
      match d.scale.getSlice X (.band q) with
      | .error e => .error e
      | .ok out =>
        match out.select bs, out.select d.slices with
        | .ok sel, .ok sls =>
          match d.scale.fromSlice sel with
          | .error e => .error e
          | .ok s => ExplicitDim.new X s sls d.isList
        | .error e, _ => .error e
        | _, .error e => .error e

/-- `ExplicitFrequencyDimension.__eq__` (tfrepresentation.py:148-149). -/
def ExplicitDim.eq (X : NumExt α) (a b : ExplicitDim α) : Except PyErr Bool :=
  match a.scale.eq X b.scale with
  | .error e => .error e
  | .ok false => .ok false
  | .ok true => .ok (decide (a.isList = b.isList) && decide (a.slices = b.slices))

/-- `ExplicitFrequencyDimension.validate` (tfrepresentation.py:145-146): returns a
truth value, which the caller (core/axis.py:59) ignores. -/
def ExplicitDim.validate (d : ExplicitDim α) (size : Int) : Except PyErr Bool :=
  match d.slices.getLast? with
  | none => .error .indexError
  | some l => .ok (decide (size = l.2))

/-! ## Frequency-adaptive representations -/

/-- `np.cumsum` of the band sizes paired as slices (frequencyadaptive.py:49-51). -/
def cumSlices (start : Nat) : List Nat → List (Int × Int)
  | [] => []
  | n :: ns => ((start : Int), ((start + n : Nat) : Int)) :: cumSlices (start + n) ns

/-- A frequency-adaptive array: number of columns, for every time step the flat row of
coefficients, and the frequency dimension. -/
structure FreqAdaptive (α β : Type) where
  width : Nat
  rows : List (List β)
  dim : ExplicitDim α

/-- `FrequencyAdaptive.__new__` from per-band arrays (frequencyadaptive.py:49-55).
`arrs` lists, per band, the width of the band and its rows; `np.concatenate(axis=1)`
raises `ValueError` unless all have the same number of rows (and there is one). -/
def FreqAdaptive.new {β : Type} (X : NumExt α) (arrs : List (Nat × List (List β))) (scale : Scale α) :
    Except PyErr (FreqAdaptive α β) :=
  match ExplicitDim.new X scale (cumSlices 0 (arrs.map Prod.fst)) true with
  | .error e => .error e
  | .ok d =>
    match arrs with
    | [] => .error .valueError
    | (_, first) :: _ =>
      if arrs.all fun a => decide (a.2.length = first.length) then
        .ok ⟨(arrs.map Prod.fst).sum, (List.range first.length).map fun t => (arrs.map fun a => a.2.getD t []).flatten, d⟩
      else .error .valueError

/-- `fa[:, band]` (core/axis.py:324-336 with tfrepresentation.py:132-143): the columns
of every row. -/
def FreqAdaptive.getBand {β : Type} (X : NumExt α) (fa : FreqAdaptive α β) (q : Band α) :
    Except PyErr (List (List β)) :=
  match fa.dim.intSlice X q with
  | .error e => .error e
  | .ok (a, b) => .ok (fa.rows.map fun r => pySlice r a b)

/-- `arr[:, band]` as `FrequencyAdaptive.__new__` sees it (frequencyadaptive.py:159, 49):
its number of columns (numpy's, whatever the number of rows) and its rows. -/
def FreqAdaptive.bandArray {β : Type} (X : NumExt α) (fa : FreqAdaptive α β) (q : Band α) :
    Except PyErr (Nat × List (List β)) :=
  match fa.dim.intSlice X q with
  | .error e => .error e
  | .ok (a, b) =>
    .ok ((pySlice (List.replicate fa.width ()) a b).length, fa.rows.map fun r => pySlice r a b)

/-- `FrequencyAdaptive.from_array_with_units` (frequencyadaptive.py:156-161). -/
def FreqAdaptive.fromArray {β : Type} (X : NumExt α) (fa : FreqAdaptive α β) :
    Except PyErr (FreqAdaptive α β) :=
  match fa.dim.scale.bands X with
  | .error e => .error e
  | .ok bs =>
    match sequence (bs.map fun b => fa.bandArray X b) with
    | .error e => .error e
    | .ok arrs => FreqAdaptive.new X arrs fa.dim.scale

end Zounds.Freq
