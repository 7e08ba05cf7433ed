import Verif.Model.Array
/-!
# `zounds/core/axis.py`: assignment, `zeros`, and the memory shared by an array and its views

Numbers live in memory cells.  An array in memory is an array of cell addresses (`Awu δ Nat`): a view of an array is an array of
addresses of the same cells, a copy one of new cells.
-/

namespace Zounds.Arr
open Zounds

/-- Memory: the cells, and the first address never handed out. -/
structure Mem (α : Type) where
  cells : Nat → α
  next : Nat

/-- The array as read from memory. -/
def Mem.read {δ α : Type} (m : Mem α) (a : Awu δ Nat) : Awu δ α := ⟨a.shape, a.dims, fun idx => m.cells (a.get idx)⟩

/-- One store. -/
def Mem.store {α : Type} (m : Mem α) (addr : Nat) (x : α) : Mem α := ⟨fun i => if i = addr then x else m.cells i, m.next⟩

/-- Stores, one after the other. -/
def Mem.storeAll {α : Type} (m : Mem α) (l : List (Nat × α)) : Mem α := l.foldl (fun m p => m.store p.1 p.2) m

/-- A new array in new cells (numpy, C order). -/
def Mem.alloc {δ α : Type} (m : Mem α) (a : Awu δ α) : Mem α × Awu δ Nat :=
  (⟨fun i => if m.next ≤ i ∧ i < m.next + Nd.size a.shape then a.get (Nd.unravel a.shape (i - m.next)) else m.cells i,
    m.next + Nd.size a.shape⟩,
   ⟨a.shape, a.dims, fun idx => m.next + Nd.ravel a.shape idx⟩)

/-- Does numpy hand out a view (no lists; integers for all axes without an ellipsis give a number, which `ArrayWithUnits` copies into a
new array without axes)? -/
def sharesMemory {κ : Type} (index : List (Item κ)) (shape : List Nat) : Bool :=
  (index.all fun it => match it with | .list _ => false | _ => true) &&
    (! shape.isEmpty || index.any fun it => match it with | .ellipsis => true | _ => false)

/-- axis.py:324-336 `__getitem__` with memory: `np.asarray(arr).view(cls)` (axis.py:49) does not copy. -/
def getitemIn {δ κ α : Type} (ops : DimOps δ κ) (m : Mem α) (a : Awu δ Nat) (index : List (Item κ)) :
    Except PyErr (Mem α × Awu δ Nat) :=
  match a.getitem ops index with
  | .error e => .error e
  | .ok r => if sharesMemory index r.shape then .ok (m, r) else .ok (m.alloc (m.read r))

/-- numpy's rule for assigning a value of one shape to a selection of another, both given from the last axis on: an axis of the value is
equal to the selection's or one; axes the selection does not have must be one. -/
def fitsRev : List Nat → List Nat → Bool
  | [], _ => true
  | n :: vs, [] => decide (n = 1) && fitsRev vs []
  | n :: vs, t :: ts => decide (n = t ∨ n = 1) && fitsRev vs ts

/-- The value's index for an index of the selection, both from the last axis on. -/
def bcastIdxRev : List Nat → List Nat → List Nat
  | [], _ => []
  | _ :: vs, [] => 0 :: bcastIdxRev vs []
  | n :: vs, i :: idx => (if n = 1 then 0 else i) :: bcastIdxRev vs idx

/-- Can a value of shape `vs` be assigned to a selection of shape `ts`, and where does each number come from? -/
def bcast (vs ts : List Nat) : Option (List Nat → List Nat) :=
  if fitsRev vs.reverse ts.reverse then some fun j => (bcastIdxRev vs.reverse j.reverse).reverse else none

/-- axis.py:319-322 `__setitem__` after `_tuplify`: the index is translated as for reading, then numpy stores the values in C order of
the selection. -/
def setitem {δ κ α : Type} (ops : DimOps δ κ) (m : Mem α) (a : Awu δ Nat) (index : List (Item κ)) (vshape : List Nat)
    (val : List Nat → α) : Except PyErr (Mem α) :=
  match computeIndices ops a.dims index.length 0 index with
  | .error e => .error e
  | .ok items =>
    match npIndex a.shape items with
    | .error e => .error e
    | .ok v =>
      match bcast vshape v.shape with
      | none => .error .valueError
      | some f => .ok (m.storeAll ((allIdx v.shape).map fun j => (a.get (v.src j), val (f j))))

/-- axis.py:114-125 `from_example` and `zeros`: an array of the example's shape and dimensions. -/
def zerosOf {δ κ α : Type} (ops : DimOps δ κ) (zero : α) (ex : Awu δ α) : Except PyErr (Awu δ α) :=
  Awu.new ops ex.shape (fun _ => zero) ex.dims

/-- axis.py:127-128 `zeros_like`, for an `ArrayWithUnits`. -/
def zerosLike {δ κ α : Type} (ops : DimOps δ κ) (zero : α) (a : Awu δ α) : Except PyErr (Awu δ α) := zerosOf ops zero a

end Zounds.Arr
