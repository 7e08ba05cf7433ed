import Verif.Model.Base
/-!
# `zounds/nputil/npx.py`: `Growable` (lines 258-366)

The wrapped numpy array is a list of cells; memory obtained from
`np.ndarray(...)` is uninitialised, which is represented by `none`.
-/

namespace Zounds.Growable

/-- A `Growable` (npx.py:266-285). `rateNum / rateDen` is the growth rate. -/
structure G (α : Type u) where
  data : List (Option α)
  position : Nat
  rateNum : Nat
  rateDen : Nat
  deriving DecidableEq, Repr

/-- `__init__` (npx.py:266-285): a growth rate that is not positive is refused.
`rate` is the exact rational `num/den`, `den > 0`. -/
def new {α : Type u} (data : List (Option α)) (position : Nat) (num : Int) (den : Nat) :
    Except PyErr (G α) :=
  if num ≤ 0 then .error .valueError
  else .ok ⟨data, position, num.toNat, den⟩

variable {α : Type u}

/-- `logical_size` (npx.py:295-301). -/
def G.logicalSize (g : G α) : Nat := g.position

/-- `physical_size` (npx.py:303-308). -/
def G.physicalSize (g : G α) : Nat := g.data.length

/-- `logical_data` (npx.py:310-315). -/
def G.logicalData (g : G α) : List (Option α) := g.data.take g.position

/-- `_tmp_size` (npx.py:317-320). -/
def G.tmpSize (g : G α) : Nat :=
  let n := g.data.length * g.rateNum / g.rateDen
  if n = 0 then 1 else n

/-- `_grow` (npx.py:322-329). -/
def G.grow (g : G α) (amt : Option Nat) : G α :=
  { g with data := g.data ++ List.replicate (amt.getD g.tmpSize) none }

/-- `self._data[i] = item`: `IndexError` out of range. -/
def setCell (d : List (Option α)) (i : Nat) (x : α) : Except PyErr (List (Option α)) :=
  if i < d.length then .ok (d.set i (some x)) else .error .indexError

/-- `append` (npx.py:331-342). -/
def G.append (g : G α) (x : α) : Except PyErr (G α) :=
  match setCell g.data g.position x with
  | .ok d => .ok { g with data := d, position := g.position + 1 }
  | .error .indexError =>
    let g := g.grow none
    match setCell g.data g.position x with
    | .ok d => .ok { g with data := d, position := g.position + 1 }
    | .error e => .error e
  | .error e => .error e

/-- `self._data[pos:stop] = items` (npx.py:363-364): numpy requires the target
slice (clamped to the array) to have as many rows as `items`. -/
def setRange (d : List (Option α)) (pos : Nat) (xs : List α) : Except PyErr (List (Option α)) :=
  let target := ((d.take (pos + xs.length)).drop pos).length
  if target = xs.length then
    .ok (d.take pos ++ xs.map some ++ d.drop (pos + xs.length))
  else .error .valueError

/-- `extend` (npx.py:344-366). -/
def G.extend (g : G α) (items : List α) : Except PyErr (G α) :=
  let pos := items.length + g.logicalSize
  let g :=
    if pos > g.physicalSize then
      let amt := g.tmpSize
      let amt := if g.physicalSize + amt < pos then pos - g.physicalSize else amt
      g.grow (some amt)
    else g
  match setRange g.data g.position items with
  | .ok d => .ok { g with data := d, position := g.position + items.length }
  | .error e => .error e

/-- A client's operation. -/
inductive Op (α : Type u) where
  | append (x : α)
  | extend (xs : List α)
  deriving Repr

/-- Perform one operation. -/
def G.step (g : G α) : Op α → Except PyErr (G α)
  | .append x => g.append x
  | .extend xs => g.extend xs

/-- Perform a sequence of operations, stopping at the first exception. -/
def G.steps : G α → List (Op α) → Except PyErr (G α)
  | g, [] => .ok g
  | g, o :: os =>
    match g.step o with
    | .ok g' => g'.steps os
    | .error e => .error e

end Zounds.Growable
