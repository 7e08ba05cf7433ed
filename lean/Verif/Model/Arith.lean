import Verif.Model.ArrayWrite
/-!
# Arithmetic with `ArrayWithUnits`: `zounds/core/axis.py` `__array_finalize__` and `__array_wrap__`, called by numpy (1.x)

Operators, comparisons and numpy's elementwise functions of arrays with units; numpy's methods that `ArrayWithUnits` does not override;
augmented assignment.
-/

namespace Zounds.Arr
open Zounds

/-- What numpy's operators are given and return: a number, a numpy array, or an array with units of class `K` (`ArrayWithUnits`,
`AudioSamples`, …; none of them overrides `__array_priority__`; of the operators, only `AudioSamples.__add__` is overridden: it compares sample rates
first, audiosamples.py:58-67, which `Model/Audio.lean` models, and goes on to numpy's). -/
inductive Val (K δ α : Type) where
  | num (x : α)
  | plain (shape : List Nat) (get : List Nat → α)
  | units (cls : K) (a : Awu δ α)

/-- `np.shape`. -/
def Val.shape {K δ α : Type} : Val K δ α → List Nat
  | .num _ => []
  | .plain s _ => s
  | .units _ a => a.shape

/-- The number at a position. -/
def Val.at {K δ α : Type} : Val K δ α → List Nat → α
  | .num x, _ => x
  | .plain _ g, i => g i
  | .units _ a, i => a.get i

/-- One axis of two arrays that are combined (numpy's broadcasting). -/
def bcAxis (m n : Nat) : Except PyErr Nat := if m = n ∨ n = 1 then .ok m else if m = 1 then .ok n else .error .valueError

/-- The shape of the combination, both shapes given from the last axis on. -/
def broadcastRev : List Nat → List Nat → Except PyErr (List Nat)
  | [], ts => .ok ts
  | s :: ss, [] => .ok (s :: ss)
  | s :: ss, t :: ts =>
    match bcAxis s t with
    | .error e => .error e
    | .ok n =>
      match broadcastRev ss ts with
      | .error e => .error e
      | .ok l => .ok (n :: l)

/-- numpy's broadcasting: the shape of the combination of two arrays. -/
def broadcast (s t : List Nat) : Except PyErr (List Nat) :=
  match broadcastRev s.reverse t.reverse with
  | .error e => .error e
  | .ok l => .ok l.reverse

/-- The operand's index for an index of the result. -/
def pull (s idx : List Nat) : List Nat := (bcastIdxRev s.reverse idx.reverse).reverse

/-- The operand whose `__array_wrap__` numpy calls: its class and dimensions. -/
def Val.owner {K δ α : Type} : Val K δ α → Option (K × List δ)
  | .units c a => some (c, a.dims)
  | _ => none

/-- axis.py:171-176 `__array_wrap__` of the owner, then axis.py:166-169 `__array_finalize__`: the result gets the owner's dimensions as they
are.  Without an owner numpy returns an array, or a number. -/
def finish {K δ α : Type} (owner : Option (K × List δ)) (shape : List Nat) (get : List Nat → α) : Val K δ α :=
  match owner with
  | none => if shape = [] then .num (get []) else .plain shape get
  | some (c, ds) =>
    if ds.length ≠ shape.length then (if shape = [] then .num (get []) else .plain shape get)
    else .units c ⟨shape, ds, get⟩

/-- A function of every number: `np.abs(x)`, `-x`, … (axis.py:166-176). -/
def ufunc1 {K δ α β : Type} (f : α → β) (x : Val K δ α) : Val K δ β := finish x.owner x.shape fun idx => f (x.at idx)

/-- A function of two operands: `x + y`, `x * y`, `x > y`, `np.maximum(x, y)`, … (axis.py:166-176).  numpy asks the first operand with units to
wrap the result. -/
def ufunc2 {K δ α β γ : Type} (f : α → β → γ) (x : Val K δ α) (y : Val K δ β) : Except PyErr (Val K δ γ) :=
  match broadcast x.shape y.shape with
  | .error e => .error e
  | .ok s => .ok (finish (x.owner.or y.owner) s fun idx => f (x.at (pull x.shape idx)) (y.at (pull y.shape idx)))

/-- Reductions that `ArrayWithUnits` does not override (`mean`, `min`, `std`, `prod`, `any`, …), along the given axes: numpy reduces, then
`__array_wrap__` (axis.py:171-176). -/
def npReduce {K δ α β : Type} (red : List α → β) (c : K) (a : Awu δ α) (axes : List Int) (keep : Bool) : Except PyErr (Val K δ β) :=
  match normList a.shape.length axes with
  | .error e => .error e
  | .ok npAxes =>
    if ¬ npAxes.Nodup then .error .valueError
    else
      let npRed := fun k => decide (k ∈ npAxes)
      .ok (finish (some (c, a.dims)) (reducedShape npRed keep 0 a.shape)
        (fun idx => red (((allIdx a.shape).filter fun s => project npRed keep 0 s = idx).map a.get)))

/-- `a.transpose()`, `np.transpose(a)`: numpy makes a view, `__array_finalize__` (axis.py:166-169) hands on the dimensions. -/
def npTranspose {δ α : Type} (a : Awu δ α) : Awu δ α := ⟨a.shape.reverse, a.dims, fun idx => a.get idx.reverse⟩

/-- `a.flatten()`, `a.ravel()`: numpy's, with `__array_finalize__` (axis.py:166-169). -/
def npFlatten {δ α : Type} (a : Awu δ α) : Awu δ α := ⟨[Nd.size a.shape], a.dims, fun idx => a.get (Nd.unravel a.shape (idx.headD 0))⟩

/-- `x += v` for an array in memory: numpy stores into the array's own cells (operands that overlap are read first), and refuses what would not
fit. -/
def inPlace {K δ α : Type} (f : α → α → α) (m : Mem α) (x : Awu δ Nat) (v : Val K δ α) : Except PyErr (Mem α) :=
  match broadcast x.shape v.shape with
  | .error e => .error e
  | .ok s =>
    if s = x.shape then .ok (m.storeAll ((allIdx x.shape).map fun j => (x.get j, f (m.cells (x.get j)) (v.at (pull v.shape j)))))
    else .error .valueError

/-- `a[index] += v`: Python reads `x = a[index]` (axis.py:324-336), does `x += v`, and assigns `a[index] = x` (axis.py:319-322). -/
def augmented {K δ κ α : Type} (ops : DimOps δ κ) (f : α → α → α) (m : Mem α) (a : Awu δ Nat) (index : List (Item κ)) (v : Val K δ α) :
    Except PyErr (Mem α) :=
  match getitemIn ops m a index with
  | .error e => .error e
  | .ok (m1, x) =>
    match inPlace f m1 x v with
    | .error e => .error e
    | .ok m2 => setitem ops m2 a index x.shape fun j => m2.cells (x.get j)

end Zounds.Arr
