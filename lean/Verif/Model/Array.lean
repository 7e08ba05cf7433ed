import Verif.Model.Nd
import Verif.Model.Time
import Verif.Model.Frequency
/-!
# `zounds/core/axis.py`, `zounds/core/dimensions.py`: arrays whose axes carry dimensions

Values are a function of the index, so that an operation is described by where each value of its result comes from.  Dimensions are
abstract (`DimOps`); `LibDim` at the end of the file gives the library's own dimensions.
-/

namespace Zounds.Arr
open Zounds

/-! ## What a user may write between the brackets -/

/-- One item of an index.  `int` is a Python int, `npInt` a numpy integer, `custom` a semantic slice (TimeSlice, FrequencyBand, a
slice of seconds, ...). -/
inductive Item (κ : Type) where
  | newaxis
  | int (i : Int)
  | npInt (i : Int)
  | slice (a b step : Option Int)
  | list (l : List Int)
  | ellipsis
  | custom (c : κ)
  deriving DecidableEq, Repr

/-- What numpy gets. -/
inductive NpItem where
  | newaxis
  | int (i : Int)
  | slice (a b step : Option Int)
  | list (l : List Int)
  | ellipsis
  deriving DecidableEq, Repr

/-- The methods of a `Dimension` (dimensions.py:1-80) that arrays use. -/
structure DimOps (δ κ : Type) where
  /-- `IdentityDimension()` -/
  identity : δ
  /-- `copy()`, then `size = n` and `validate(n)` (axis.py:50-60) -/
  install : δ → Nat → Except PyErr δ
  /-- `metaslice(index, size)` -/
  metaslice : δ → Item κ → Nat → Except PyErr δ
  /-- `integer_based_slice(index)`; the result is a slice or an integer -/
  intSlice : δ → Item κ → Except PyErr NpItem
  /-- `modified_dimension(size, windowsize, stepsize)`; `none` is `slice(None)` -/
  modified : δ → Nat → Option Nat → Option Nat → Except PyErr (List δ)
  /-- `==` (which may raise: a TimeDimension or FrequencyDimension asks the other one for an attribute it may not have) -/
  eq : δ → δ → Except PyErr Bool

/-! ## numpy's indexing -/

/-- First bound of a slice with a positive step (CPython `PySlice_AdjustIndices`). -/
def upFrom (n : Nat) : Option Int → Int
  | none => 0
  | some a => pyBound n a

/-- Second bound of a slice with a positive step. -/
def upTo (n : Nat) : Option Int → Int
  | none => n
  | some b => pyBound n b

/-- A bound of a slice with a negative step: `-1` is before the first position. -/
def downBound (n : Nat) (i : Int) : Int := if i < 0 then max (-1) (i + n) else min i (n - 1)

/-- First bound of a slice with a negative step. -/
def downFrom (n : Nat) : Option Int → Int
  | none => n - 1
  | some a => downBound n a

/-- Second bound of a slice with a negative step. -/
def downTo (n : Nat) : Option Int → Int
  | none => -1
  | some b => downBound n b

/-- `slice(a, b, step).indices(n)` (CPython `PySlice_AdjustIndices`): first position, step and number of positions. -/
def sliceRange (n : Nat) (a b step : Option Int) : Except PyErr (Int × Int × Nat) :=
  let st := step.getD 1
  if st = 0 then .error .valueError
  else if 0 < st then .ok (upFrom n a, st, ((upTo n b - upFrom n a + st - 1) / st).toNat)
  else .ok (downFrom n a, st, ((downFrom n a - downTo n b + (-st) - 1) / (-st)).toNat)

/-- One normalised position of an axis of length `n`. -/
def normIndex (n : Nat) (i : Int) : Except PyErr Nat :=
  if i < -(n : Int) ∨ (n : Int) ≤ i then .error .indexError
  else .ok (if i < 0 then i + n else i).toNat

/-- normalise a list of positions -/
def normList (n : Nat) : List Int → Except PyErr (List Nat)
  | [] => .ok []
  | i :: l =>
    match normIndex n i with
    | .error e => .error e
    | .ok k =>
      match normList n l with
      | .error e => .error e
      | .ok ks => .ok (k :: ks)

/-- Does the item use up an axis? -/
def NpItem.consumes : NpItem → Bool
  | .newaxis => false
  | .ellipsis => false
  | _ => true

/-- numpy: replace the ellipsis by full slices, or append full slices. -/
def expand (nd : Nat) (items : List NpItem) : Except PyErr (List NpItem) :=
  let c := items.countP NpItem.consumes
  if 1 < items.count .ellipsis then .error .indexError
  else if nd < c then .error .indexError
  else
    let fill := List.replicate (nd - c) (NpItem.slice none none none)
    if items.count .ellipsis = 0 then .ok (items ++ fill)
    else .ok (items.flatMap fun it => if it = .ellipsis then fill else [it])

/-- What an index item does to its axis. -/
inductive Piece where
  | fresh
  | run (start step : Int) (n : Nat)
  | fixed (i : Nat)
  | pick (l : List Nat)
  deriving DecidableEq, Repr

/-- Apply expanded items to a shape, one axis after another. -/
def pieces : List NpItem → List Nat → Except PyErr (List Piece)
  | [], _ => .ok []
  | .newaxis :: items, shape =>
    match pieces items shape with
    | .error e => .error e
    | .ok ps => .ok (.fresh :: ps)
  | .ellipsis :: _, _ => .error .indexError
  | _ :: _, [] => .error .indexError
  | .int i :: items, n :: shape =>
    match normIndex n i with
    | .error e => .error e
    | .ok k =>
      match pieces items shape with
      | .error e => .error e
      | .ok ps => .ok (.fixed k :: ps)
  | .slice a b st :: items, n :: shape =>
    match sliceRange n a b st with
    | .error e => .error e
    | .ok (s, t, c) =>
      match pieces items shape with
      | .error e => .error e
      | .ok ps => .ok (.run s t c :: ps)
  | .list l :: items, n :: shape =>
    match normList n l with
    | .error e => .error e
    | .ok ks =>
      match pieces items shape with
      | .error e => .error e
      | .ok ps => .ok (.pick ks :: ps)

/-- The axis of the result a piece makes by itself. -/
def Piece.axis : Piece → Option Nat
  | .fresh => some 1
  | .run _ _ n => some n
  | .fixed _ => none
  | .pick _ => none

/-- Takes part in advanced indexing when there is a list (numpy treats integers like lists then). -/
def Piece.adv : Piece → Bool
  | .fixed _ => true
  | .pick _ => true
  | _ => false

/-- Is the piece a list? -/
def Piece.isPick : Piece → Bool
  | .pick _ => true
  | _ => false

/-- Lengths of the lists. -/
def pickLengths (ps : List Piece) : List Nat := ps.filterMap fun p => match p with | .pick l => some l.length | _ => none

/-- Broadcast length of the lists. -/
def broadcastLen (ls : List Nat) : Except PyErr Nat :=
  match ls.filter (· ≠ 1) with
  | [] => .ok 1
  | n :: rest => if rest.all (· = n) then .ok n else .error .indexError

/-- numpy: the advanced indices are next to each other.  (An ellipsis that stands for no axis is treated as absent; numpy versions
differ here.) -/
def contiguous (ps : List Piece) : Bool :=
  (((ps.map Piece.adv).dropWhile (! ·)).reverse.dropWhile (! ·)).all id

/-- Source index of a result index: `k` is the position along the axis made by the lists, `rest` the positions along the others. -/
def walk : List Piece → Nat → List Nat → List Nat
  | [], _, _ => []
  | .fresh :: ps, k, rest => walk ps k rest.tail
  | .run s t _ :: ps, k, rest => (s + (rest.headD 0 : Int) * t).toNat :: walk ps k rest.tail
  | .fixed i :: ps, k, rest => i :: walk ps k rest
  | .pick l :: ps, k, rest => (if l.length = 1 then l.getD 0 0 else l.getD k 0) :: walk ps k rest

/-- The result of indexing: its shape, and where its values come from. -/
structure View where
  shape : List Nat
  src : List Nat → List Nat

/-- numpy's indexing, basic and with lists. -/
def view (ps : List Piece) : Except PyErr View :=
  let own := ps.filterMap Piece.axis
  if ps.any Piece.isPick then
    match broadcastLen (pickLengths ps) with
    | .error e => .error e
    | .ok len =>
      let p := if contiguous ps then (ps.takeWhile (fun x => ! x.adv)).length else 0
      .ok ⟨own.insertIdx p len, fun idx => walk ps (idx.getD p 0) (idx.eraseIdx p)⟩
  else .ok ⟨own, fun idx => walk ps 0 idx⟩

/-- `ndarray.__getitem__`. -/
def npIndex (shape : List Nat) (items : List NpItem) : Except PyErr View :=
  match expand shape.length items with
  | .error e => .error e
  | .ok full =>
    match pieces full shape with
    | .error e => .error e
    | .ok ps => view ps

/-! ## Arrays with units -/

/-- `ArrayWithUnits` (axis.py:12-63): shape, dimensions, values. -/
structure Awu (δ α : Type) where
  shape : List Nat
  dims : List δ
  get : List Nat → α

/-- axis.py:50-60: copy every dimension, tell it its size. -/
def installAll {δ κ : Type} (ops : DimOps δ κ) : List δ → List Nat → Except PyErr (List δ)
  | d :: ds, n :: shape =>
    match ops.install d n with
    | .error e => .error e
    | .ok d' =>
      match installAll ops ds shape with
      | .error e => .error e
      | .ok ds' => .ok (d' :: ds')
  | _, _ => .ok []

/-- axis.py:44-63 `ArrayWithUnits.__new__`. -/
def Awu.new {δ κ α : Type} (ops : DimOps δ κ) (shape : List Nat) (get : List Nat → α) (dims : List δ) : Except PyErr (Awu δ α) :=
  if shape.length ≠ dims.length then .error .valueError
  else
    match installAll ops dims shape with
    | .error e => .error e
    | .ok ds => .ok ⟨shape, ds, get⟩

/-- axis.py:235-244 `_is_integer_based_slice`: a bound of zero has bit length zero, which is false. -/
def isIntSlice (a b : Option Int) : Bool := decide (a ≠ some 0) && decide (b ≠ some 0)

/-- Python's `l[i]` for a tuple of dimensions. -/
def pyAt {δ : Type} (l : List δ) (i : Int) : Except PyErr δ :=
  let k := if i < 0 then i + l.length else i
  if k < 0 then .error .indexError
  else match l[k.toNat]? with
    | some x => .ok x
    | none => .error .indexError

/-- Items the loop of axis.py:246-262 passes on unchanged. -/
def Item.raw {κ : Type} : Item κ → Option NpItem
  | .newaxis => some .newaxis
  | .int i => some (.int i)
  | .slice a b st => if isIntSlice a b then some (.slice a b st) else none
  | .list l => some (.list l)
  | .ellipsis => some .ellipsis
  | _ => none

/-- axis.py:246-262 `_compute_indices`; `n` is the length of the index, `pos` is `dims_pos`. -/
def computeIndices {δ κ : Type} (ops : DimOps δ κ) (dims : List δ) (n : Nat) : Int → List (Item κ) → Except PyErr (List NpItem)
  | _, [] => .ok []
  | pos, .ellipsis :: rest =>
    match computeIndices ops dims n (pos + ((dims.length : Int) - ((n : Int) - 1))) rest with
    | .error e => .error e
    | .ok out => .ok (.ellipsis :: out)
  | pos, it :: rest =>
    match it.raw with
    | some r =>
      match computeIndices ops dims n (pos + 1) rest with
      | .error e => .error e
      | .ok out => .ok (r :: out)
    | none =>
      match pyAt dims pos with
      | .error e => .error e
      | .ok d =>
        match ops.intSlice d it with
        | .error e => .error e
        | .ok r =>
          match computeIndices ops dims n (pos + 1) rest with
          | .error e => .error e
          | .ok out => .ok (r :: out)

/-- The `else` branch of axis.py:285-293: a dimension for a slice; an IndexError of `metaslice`, or of looking up the size, keeps
the old dimension. -/
def metasliceOr {δ κ : Type} (ops : DimOps δ κ) (d : δ) (it : Item κ) (size : Option Nat) : Except PyErr δ :=
  match size with
  | none => .ok d
  | some n =>
    match ops.metaslice d it n with
    | .error .indexError => .ok d
    | .error e => .error e
    | .ok d' => .ok d'

/-- axis.py:264-297 `_new_dims`; `m` counts the items that are neither ellipsis nor None, `newShape` is the shape of the indexed array. -/
def newDims {δ κ : Type} (ops : DimOps δ κ) (dims : List δ) (m : Nat) (newShape : List Nat) :
    Nat → Nat → List (Item κ) → Except PyErr (List δ)
  | pos, _, [] => .ok (dims.drop pos)
  | pos, spos, .newaxis :: rest =>
    match newDims ops dims m newShape pos spos rest with
    | .error e => .error e
    | .ok out => .ok (ops.identity :: out)
  | pos, spos, .int _ :: rest => newDims ops dims m newShape (pos + 1) spos rest
  | pos, spos, .list _ :: rest =>
    match newDims ops dims m newShape (pos + 1) (spos + 1) rest with
    | .error e => .error e
    | .ok out => .ok (ops.identity :: out)
  | pos, spos, .ellipsis :: rest =>
    let k := dims.length - m
    if dims.length < pos + k then .error .indexError
    else
      match newDims ops dims m newShape (pos + k) (spos + k) rest with
      | .error e => .error e
      | .ok out => .ok ((dims.drop pos).take k ++ out)
  | pos, spos, it :: rest =>
    match dims[pos]? with
    | none => .error .indexError
    | some d =>
      match metasliceOr ops d it newShape[spos]? with
      | .error e => .error e
      | .ok d' =>
        match newDims ops dims m newShape (pos + 1) (spos + 1) rest with
        | .error e => .error e
        | .ok out => .ok (d' :: out)

/-- Items other than `...` and `None`. -/
def Item.counts {κ : Type} : Item κ → Bool
  | .newaxis => false
  | .ellipsis => false
  | _ => true

/-- axis.py:324-336 `__getitem__` after `_tuplify`, for an index that is not a boolean array.  The special case of a one-dimensional
array and a Python int returns a bare number (axis.py:329-330): see `getNumber`. -/
def Awu.getitem {δ κ α : Type} (ops : DimOps δ κ) (a : Awu δ α) (index : List (Item κ)) : Except PyErr (Awu δ α) :=
  match computeIndices ops a.dims index.length 0 index with
  | .error e => .error e
  | .ok items =>
    match npIndex a.shape items with
    | .error e => .error e
    | .ok v =>
      match newDims ops a.dims (index.countP Item.counts) v.shape 0 0 index with
      | .error e => .error e
      | .ok ds => Awu.new ops v.shape (fun idx => a.get (v.src idx)) ds

/-- axis.py:329-330: `arr[i]` on a one-dimensional array. -/
def Awu.getNumber {δ α : Type} (a : Awu δ α) (i : Int) : Except PyErr α :=
  match normIndex (a.shape.headD 0) i with
  | .error e => .error e
  | .ok k => .ok (a.get [k])

/-- axis.py:299-313 `_tuplify` for the forms modelled: a single item, a tuple, or an integer array, which is taken for a tuple. -/
inductive Written (κ : Type) where
  | one (it : Item κ)
  | tuple (its : List (Item κ))
  | intArray (l : List Int)

/-- axis.py:299-313; an empty list has no class to look at (`list(set())[0]`). -/
def tuplify {κ : Type} : Written κ → Except PyErr (List (Item κ))
  | .one (.list []) => .error .indexError
  | .one it => .ok [it]
  | .tuple its => .ok its
  | .intArray l => .ok (l.map .npInt)

/-- axis.py:65-68 `T`. -/
def Awu.transpose {δ κ α : Type} (ops : DimOps δ κ) (a : Awu δ α) : Except PyErr (Awu δ α) :=
  Awu.new ops a.shape.reverse (fun idx => a.get idx.reverse) a.dims.reverse

/-! ### Reductions -/

/-- All indices of an array, in C order. -/
def allIdx : List Nat → List (List Nat)
  | [] => [[]]
  | n :: shape => (List.range n).flatMap fun i => (allIdx shape).map (i :: ·)

/-- Drop the reduced axes of an index (or put 0 there, with `keepdims`). -/
def project (reduced : Nat → Bool) (keep : Bool) : Nat → List Nat → List Nat
  | _, [] => []
  | k, i :: idx =>
    if reduced k then (if keep then 0 :: project reduced keep (k + 1) idx else project reduced keep (k + 1) idx)
    else i :: project reduced keep (k + 1) idx

/-- Shape of a reduction. -/
def reducedShape (reduced : Nat → Bool) (keep : Bool) : Nat → List Nat → List Nat
  | _, [] => []
  | k, n :: shape =>
    if reduced k then (if keep then 1 :: reducedShape reduced keep (k + 1) shape else reducedShape reduced keep (k + 1) shape)
    else n :: reducedShape reduced keep (k + 1) shape

/-- axis.py:130-146: the dimensions after a reduction. -/
def reducedDims {δ κ : Type} (ops : DimOps δ κ) (reduced : Nat → Bool) (keep : Bool) : Nat → List δ → List δ
  | _, [] => []
  | k, d :: dims =>
    if reduced k then
      (if keep then ops.identity :: reducedDims ops reduced keep (k + 1) dims else reducedDims ops reduced keep (k + 1) dims)
    else d :: reducedDims ops reduced keep (k + 1) dims

/-- axis.py:148-156 `sum` and `max` along the given axes (`axis` not None), for any reduction `red` of the values; numpy refuses axes out of
range and repeated axes.  If nothing is left of the axes, `__array_wrap__` (axis.py:171-174) returns a Python number, which has no `ndim`
(axis.py:45).  (`max` of no numbers, which numpy refuses, is whatever `red []` is.) -/
def Awu.reduce {δ κ α : Type} (ops : DimOps δ κ) (red : List α → α) (a : Awu δ α) (axes : List Int) (keep : Bool) :
    Except PyErr (Awu δ α) :=
  match normList a.shape.length axes with
  | .error e => .error e
  | .ok npAxes =>
    if ¬ npAxes.Nodup then .error .valueError
    else
      let npRed := fun k => decide (k ∈ npAxes)
      let ownAxes := axes.map fun x => if x < 0 then (a.dims.length : Int) + x else x
      let ownRed := fun (k : Nat) => decide ((k : Int) ∈ ownAxes)
      if reducedShape npRed keep 0 a.shape = [] ∧ a.dims ≠ [] then .error .attributeError
      else Awu.new ops (reducedShape npRed keep 0 a.shape)
        (fun idx => red (((allIdx a.shape).filter fun s => project npRed keep 0 s = idx).map a.get))
        (reducedDims ops ownRed keep 0 a.dims)

/-! ### Reshaping -/

/-- axis.py:101-105 `squeeze`; numpy reshapes in C order. -/
def Awu.squeeze {δ κ α : Type} (ops : DimOps δ κ) (a : Awu δ α) : Except PyErr (Awu δ α) :=
  let zipped := (a.shape.zip a.dims).filter (fun x => decide (1 < x.1))
  let shape := zipped.map Prod.fst
  if Nd.size shape ≠ Nd.size a.shape then .error .valueError
  else Awu.new ops shape (fun idx => a.get (Nd.unravel a.shape (Nd.ravel shape idx))) (zipped.map Prod.snd)

/-- `[IdentityDimension() if abs(size) == 1 else next(dims) for size in shape]` (axis.py:88-92). -/
def withUnitAxes {δ κ : Type} (ops : DimOps δ κ) : List Nat → List δ → Except PyErr (List δ)
  | [], _ => .ok []
  | 1 :: shape, dims =>
    match withUnitAxes ops shape dims with
    | .error e => .error e
    | .ok out => .ok (ops.identity :: out)
  | _ :: _, [] => .error .stopIteration
  | _ :: shape, d :: dims =>
    match withUnitAxes ops shape dims with
    | .error e => .error e
    | .ok out => .ok (d :: out)

/-- axis.py:79-102 `reshape` to a shape without -1, C order. -/
def Awu.reshape {δ κ α : Type} (ops : DimOps δ κ) (a : Awu δ α) (shape : List Nat) : Except PyErr (Awu δ α) :=
  let get := fun idx => a.get (Nd.unravel a.shape (Nd.ravel shape idx))
  if shape = a.shape.filter (· ≠ 1) then a.squeeze ops
  else if a.shape = shape.filter (· ≠ 1) then
    match withUnitAxes ops shape a.dims with
    | .error e => .error e
    | .ok ds => if Nd.size shape ≠ Nd.size a.shape then .error .valueError else Awu.new ops shape get ds
  else if Nd.size shape ≠ Nd.size a.shape then .error .valueError
  else Awu.new ops shape get (shape.map fun _ => ops.identity)

/-! ### Concatenation and products -/

/-- Tuple equality of dimensions: the items are compared in order, up to the first difference; then the lengths. -/
def dimsEq {δ κ : Type} (ops : DimOps δ κ) : List δ → List δ → Except PyErr Bool
  | a :: as, b :: bs =>
    match ops.eq a b with
    | .error e => .error e
    | .ok false => .ok false
    | .ok true => dimsEq ops as bs
  | [], [] => .ok true
  | _, _ => .ok false

/-- `np.concatenate` of arrays given by shape and values, along an axis: number of places along it, and the value at each index. -/
def alongAxis {α : Type} (axis : Nat) : List (List Nat × (List Nat → α)) → Nat × (List Nat → Option α)
  | [] => (0, fun _ => none)
  | (shape, get) :: rest =>
    let r := alongAxis axis rest
    let n := shape.getD axis 0
    (n + r.1, fun idx => if idx.getD axis 0 < n then some (get idx) else r.2 (idx.set axis (idx.getD axis 0 - n)))

/-- `np.concatenate(arrs, axis)`: no arrays, an axis that does not exist, and shapes that differ elsewhere are ValueErrors (the second is
numpy's AxisError, which is one). -/
def npConcat {α : Type} (arrs : List (List Nat × (List Nat → α))) (axis : Nat) : Except PyErr (List Nat × (List Nat → α)) :=
  match arrs with
  | [] => .error .valueError
  | (shape, get) :: rest =>
    if axis < shape.length ∧ rest.all (fun b => decide (b.1.set axis 0 = shape.set axis 0)) = true then
      let r := alongAxis axis arrs
      .ok (shape.set axis r.1, fun idx => (r.2 idx).getD (get idx))
    else .error .valueError

/-- axis.py:109-111: every further array has the dimensions of the first one. -/
def allMatch {δ κ α : Type} (ops : DimOps δ κ) (a : Awu δ α) : List (Awu δ α) → Except PyErr Unit
  | [] => .ok ()
  | b :: rest =>
    match dimsEq ops b.dims a.dims with
    | .error e => .error e
    | .ok false => .error .valueError
    | .ok true => allMatch ops a rest

/-- axis.py:114-120 `from_example(np.concatenate(arrs, axis), example)`. -/
def joined {δ κ α : Type} (ops : DimOps δ κ) (dims : List δ) (arrs : List (Awu δ α)) (axis : Nat) : Except PyErr (Awu δ α) :=
  match npConcat (arrs.map fun a => (a.shape, a.get)) axis with
  | .error e => .error e
  | .ok r => Awu.new ops r.1 r.2 dims

/-- axis.py:107-112 `concat`. -/
def concat {δ κ α : Type} (ops : DimOps δ κ) (arrs : List (Awu δ α)) (axis : Nat) : Except PyErr (Awu δ α) :=
  match arrs with
  | [] => .error .valueError
  | a :: rest =>
    match allMatch ops a rest with
    | .error e => .error e
    | .ok _ => joined ops a.dims arrs axis

/-- axis.py:73-77 `concatenate`: along the first axis. -/
def Awu.concatenate {δ κ α : Type} (ops : DimOps δ κ) (a b : Awu δ α) : Except PyErr (Awu δ α) :=
  match dimsEq ops a.dims b.dims with
  | .error e => .error e
  | .ok false => .error .valueError
  | .ok true => joined ops a.dims [a, b] 0

/-- axis.py:158-160 `dot`, two two-dimensional arrays; `mac` computes the inner product. -/
def Awu.dot {δ κ α : Type} (ops : DimOps δ κ) (mac : List (α × α) → α) (a : Awu δ α) (bshape : List Nat) (b : List Nat → α) :
    Except PyErr (Awu δ α) :=
  match a.shape, bshape with
  | [n, k], [k', m] =>
    if k ≠ k' then .error .valueError
    else Awu.new ops [n, m] (fun idx => mac ((List.range k).map fun j => (a.get [idx.headD 0, j], b [j, idx.tail.headD 0])))
      (a.dims.take 2)
  | _, _ => .error .valueError

/-! ### Windows -/

/-- One turn of axis.py:219-226: a NotImplementedError keeps the dimension. -/
def modifiedOr {δ κ : Type} (ops : DimOps δ κ) (d : δ) (n : Nat) (w s : Option Nat) : Except PyErr (List δ) :=
  match ops.modified d n w s with
  | .error .notImplemented => .ok [d]
  | .error e => .error e
  | .ok ms => .ok ms

/-- axis.py:219-226 `_compute_new_dims`. -/
def computeNewDims {δ κ : Type} (ops : DimOps δ κ) : List δ → List Nat → List (Option Nat) → List (Option Nat) → Except PyErr (List δ)
  | d :: ds, n :: shape, w :: ws, s :: ss =>
    match modifiedOr ops d n w s with
    | .error e => .error e
    | .ok ms =>
      match computeNewDims ops ds shape ws ss with
      | .error e => .error e
      | .ok rest => .ok (ms ++ rest)
  | _, _, _, _ => .ok []

/-- axis.py:178-188 `sliding_window` for integer window sizes and steps; a ValueError while computing the dimensions makes them all
identities. -/
def Awu.slidingWindow {δ κ α : Type} (ops : DimOps δ κ) (a : Awu δ α) (ws ss : List Nat) : Except PyErr (Awu δ α) :=
  if a.shape.length ≠ ws.length ∨ ws.length ≠ ss.length then .error .valueError
  else if Nd.tooLarge ws a.shape then .error .valueError
  else if ws = [] then .error .typeError
  else
    let cs := Nd.counts a.shape ws ss
    let shape := Nd.size cs :: ws
    let get := fun (idx : List Nat) =>
      a.get (List.zipWith (fun (is : Nat × Nat) (j : Nat) => is.1 * is.2 + j) ((Nd.unravel cs (idx.headD 0)).zip ss) idx.tail)
    match computeNewDims ops a.dims a.shape (ws.map some) (ss.map some) with
    | .error .valueError => Awu.new ops shape get (List.replicate (ws.length + 1) ops.identity)
    | .error e => .error e
    | .ok ds => Awu.new ops shape get ds

/-- axis.py:203-215 `sliding_window_with_leftovers`, the dimensions of the windows: the first axis is windowed with `w`, `s`, the others
with `slice(None)`; `nwin` windows were found (at least one). -/
def Awu.windowedDims {δ κ α : Type} (ops : DimOps δ κ) (a : Awu δ α) (w s nwin : Nat) : Except PyErr (List δ) :=
  let shape := nwin :: w :: a.shape.tail
  let rest := a.shape.tail.map fun _ => (none : Option Nat)
  match computeNewDims ops a.dims a.shape (some w :: rest) (some s :: rest) with
  | .error .valueError => installAll ops (List.replicate (a.shape.length + 1) ops.identity) shape
  | .error e => .error e
  | .ok ds => if ds.length ≠ shape.length then .error .valueError else installAll ops ds shape

/-! ## The library's dimensions -/

/-- IdentityDimension (dimensions.py:49-80), TimeDimension (timeseries.py:125-280, picoseconds), FrequencyDimension
(tfrepresentation.py:8-78).  ExplicitFrequencyDimension is treated in `Model/Frequency.lean`. -/
inductive LibDim (φ : Type) where
  | identity
  | time (frequency duration : Int) (size : Option Nat)
  | freq (scale : Freq.Scale φ)
  deriving DecidableEq, Repr

/-- Semantic slices: `TimeSlice(start=..., duration=...)`, a Python slice of time values, a FrequencyBand, a Python slice of frequencies. -/
inductive LibIdx (φ : Type) where
  | timeSlice (start : Int) (duration : Option Int)
  | timePy (a b : Option Int)
  | band (b : Freq.Band φ)
  | freqPy (a b : Freq.Bnd φ)
  deriving DecidableEq, Repr

section
variable {φ : Type} [Field φ] [LinearOrder φ]

/-- A bound of a Python int slice. -/
def intBound : Option Int → Freq.Bnd φ
  | none => .none
  | some i => .int i

/-- What an index of a frequency axis is for `get_slice` (frequencyscale.py:289-329), which does not look at the step of a slice. -/
def freqIndex : Item (LibIdx φ) → Option (Freq.Index φ)
  | .slice a b _ => some (.slice (intBound a) (intBound b))
  | .custom (.band q) => some (.band q)
  | .custom (.freqPy a b) => some (.slice a b)
  | _ => none

/-- `l[a:b:step]` for a list. -/
def stepped {β : Type} (l : List β) (a b step : Option Int) : Except PyErr (List β) :=
  match sliceRange l.length a b step with
  | .error e => .error e
  | .ok (s, t, c) => .ok ((List.range c).filterMap fun i : Nat => l[(s + (i : Int) * t).toNat]?)

/-- `self.scale[index]` (tfrepresentation.py:49-50, frequencyscale.py:331-343): with a step, the bands the slice picks are handed to
`_construct_scale_from_slice` like any others. -/
def freqScale (X : Freq.NumExt φ) (s : Freq.Scale φ) (it : Item (LibIdx φ)) : Except PyErr (Freq.Scale φ) :=
  match it with
  | .slice a b (some st) =>
    match s.bands X with
    | .error e => .error e
    | .ok bs =>
      match stepped bs a b (some st) with
      | .error e => .error e
      | .ok sel => s.fromSlice sel
  | it =>
    match freqIndex it with
    | none => .error .typeError
    | some ix => s.getScale X ix

/-- The library dimensions as `DimOps`.  Simplifications: integers and integer slices that reach `TimeDimension.integer_based_slice` pass
through (timeseries.py:244-255: TimeSlice's constructor refuses them; for `[:0]` and `[-n:0]` the time branch gives the same empty
selection); a FrequencyDimension is not given another dimension's slices (TypeError here). -/
def libOps (X : Freq.NumExt φ) : DimOps (LibDim φ) (LibIdx φ) where
  identity := .identity
  install := fun d n => match d with
    | .identity => .ok .identity
    | .time f u _ => .ok (.time f u (some n))
    | .freq s =>
      match Freq.validateFreq s n with
      | .error e => .error e
      | .ok _ => .ok (.freq s)
  metaslice := fun d it n => match d with
    | .identity => .ok .identity
    | .time f u _ => .ok (.time f u (some n))
    | .freq s =>
      match freqScale X s it with
      | .error e => .error e
      | .ok s' => .ok (.freq s')
  intSlice := fun d it => match d, it with
    | .freq s, it =>
      match freqIndex it with
      | none => .error .attributeError
      | some ix =>
        match s.getSlice X ix with
        | .error e => .error e
        | .ok (.run lo hi) => .ok (.slice (some lo) (some hi) none)
        | .ok (.same _ _) =>
          match it with
          | .slice a b st => .ok (.slice a b st)
          | _ => .error .typeError
    | _, .slice a b st => .ok (.slice a b st)
    | _, .npInt i => .ok (.int i)
    | .time f u size, .custom (.timeSlice s dur) =>
      match size with
      | none => .error .typeError
      | some n =>
        let r := (Time.Dim.mk f u n).intSlice s dur
        .ok (.slice (some r.1) (some r.2) none)
    | .time f u size, .custom (.timePy a b) =>
      match size with
      | none => .error .typeError
      | some n =>
        let r := (Time.Dim.mk f u n).intSliceOfPySlice a b
        .ok (.slice (some r.1) (some r.2) none)
    | _, _ => .error .indexError
  modified := fun d n w s => match d with
    | .identity =>
      match w with
      | none => .ok [.identity]
      | some w => if w = 0 then .error .zeroDivision else if n = w then .ok [.identity] else .error .valueError
    | .time f u size =>
      match w, s with
      | some w, some s =>
        let s := if s = 0 then w else s
        .ok [.time (f * s) (if f * w + (u - f) = 0 then f * s else f * w + (u - f)) none, .time f u size]
      | _, _ => .ok [.time f u size]
    | .freq _ => .error .notImplemented
  eq := fun a b => match a, b with
    | .identity, .identity => .ok true
    | .identity, _ => .ok false
    | .time f u _, .time f' u' _ => .ok (decide (f = f') && decide (u = u'))
    | .time _ _ _, _ => .error .attributeError
    | .freq s, .freq s' => s.eq X s'
    | .freq _, _ => .error .attributeError
end

end Zounds.Arr
