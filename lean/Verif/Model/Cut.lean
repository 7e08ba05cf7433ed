import Verif.Model.Frequency

/-!
# Cutting frequency-adaptive arrays along the frequency axis

Indexing `fa[:, band]` and `fa[:, i:j]` as a whole: the columns that come out and the
frequency dimension they carry.
-/

namespace Zounds.Freq

variable {α : Type} [Field α] [LinearOrder α] {β : Type}

/-- The new dimension of a sliced axis (core/axis.py:286-291): an IndexError raised by
`metaslice` keeps the old dimension. -/
def keepOnIndexError (old : ExplicitDim α) (new : Except PyErr (ExplicitDim α)) : Except PyErr (ExplicitDim α) :=
  match new with
  | .ok d => .ok d
  | .error .indexError => .ok old
  | .error e => .error e

/-- Giving columns a frequency dimension, `ArrayWithUnits.__new__` (core/axis.py:44-62):
the dimension is copied (tfrepresentation.py:106-107), and `validate`'s answer is ignored. -/
def FreqAdaptive.install (X : NumExt α) (width : Nat) (rows : List (List β)) (d : ExplicitDim α) :
    Except PyErr (FreqAdaptive α β) :=
  match ExplicitDim.new X d.scale d.slices d.isList with
  | .error e => .error e
  | .ok d' =>
    match d'.validate width with
    | .error e => .error e
    | .ok _ => .ok ⟨width, rows, d'⟩

/-- `fa[:, band]` (core/axis.py:324-336): the columns (tfrepresentation.py:132-143), then
their dimension (118-130).  Simplification: the time axis, kept whole, is not part of the
model; neither is what `metaslice` prints (tfrepresentation.py:129). -/
def FreqAdaptive.cut (X : NumExt α) (fa : FreqAdaptive α β) (q : Band α) : Except PyErr (FreqAdaptive α β) :=
  match fa.bandArray X q with
  | .error e => .error e
  | .ok (w, rows) =>
    match keepOnIndexError fa.dim (fa.dim.metaslice X q) with
    | .error e => .error e
    | .ok d => FreqAdaptive.install X w rows d

/-- `ExplicitFrequencyDimension.metaslice` for a slice of positions
(tfrepresentation.py:126-130): the same positions of the scale and of the slices. -/
def ExplicitDim.metaslicePositions (X : NumExt α) (d : ExplicitDim α) (i j : Option Int) :
    Except PyErr (ExplicitDim α) :=
  match d.scale.bands X with
  | .error e => .error e
  | .ok bs =>
    match d.scale.fromSlice (pySlice bs (i.getD 0) (j.getD bs.length)) with
    | .error e => .error e
    | .ok s => ExplicitDim.new X s (pySlice d.slices (i.getD 0) (j.getD d.slices.length)) d.isList

/-- `fa[:, i:j]` (core/axis.py:324-336): a slice of positions goes to numpy as it is
(tfrepresentation.py:133-134). -/
def FreqAdaptive.cutPositions (X : NumExt α) (fa : FreqAdaptive α β) (i j : Option Int) :
    Except PyErr (FreqAdaptive α β) :=
  match keepOnIndexError fa.dim (fa.dim.metaslicePositions X i j) with
  | .error e => .error e
  | .ok d =>
    FreqAdaptive.install X (pySlice (List.replicate fa.width ()) (i.getD 0) (j.getD fa.width)).length
      (fa.rows.map fun r => pySlice r (i.getD 0) (j.getD r.length)) d

end Zounds.Freq
