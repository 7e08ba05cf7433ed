import Verif.Model.Base
/-!
# `zounds/nputil/npx.py`: `pad`, `_wpad`, `_wcut`, `windowed`

Arrays are lists of rows (axis 0); a row is an arbitrary value of type `α`.
-/

namespace Zounds.Npx

variable {α : Type u}

/-- `pad` (npx.py:66-83): append zero rows until `desired` rows; unchanged when
already long enough.  `z` is the zero row (`np.zeros(shape[1:])`).
Simplification: list-vs-array return type ignored. -/
def pad (z : α) (a : List α) (desired : Int) : List α :=
  if (a.length : Int) ≥ desired then a
  else a ++ List.replicate (desired - a.length).toNat z

/-- `_wpad` (npx.py:86-106).  Integer arithmetic, branch by branch. `l`, `w`,
`s` are non-negative in all calls, so Python `//` is `Int` floor division. -/
def wpad (l w s : Int) : Int :=
  if l ≤ w then w
  else
    let nsteps := (l / s) * s
    let overlap := w - s
    if overlap ≠ 0 then nsteps + overlap
    else
      let diff := l - nsteps
      let left := max 0 (w - diff)
      if diff ≠ 0 then l + left else l

/-- `_wcut` (npx.py:109-125): the length to cut the array to, and the index the
leftovers start at. -/
def wcut (l w s : Int) : Int × Int :=
  let e := l - w
  if l ≤ w then (0, 0)
  else
    let l := if e % s ≠ 0 then w + (e / s) * s else l
    (l, l - (w - s))

/-- Reading one window out of the strided buffer (npx.py:178-188):
element `j` of window `i` is the buffer element `i * s + j`.  `numpy` raises
`ValueError` when strides and shape leave the buffer. -/
def readWindow (a : List α) (w s i : Nat) : Except PyErr (List α) :=
  (List.range w).mapM fun j =>
    match a[i * s + j]? with
    | some x => .ok x
    | none => .error .valueError

/-- The array part of `windowed`'s result: when `windowsize == 1` the rows come
back without an extra axis (npx.py:152-158), otherwise there is one more axis. -/
inductive Out (α : Type u) where
  | rows (r : List α)
  | wins (ws : List (List α))
  deriving Repr, DecidableEq

/-- View of the result as a list of windows; a bare row is a window of one. -/
def Out.windows : Out α → List (List α)
  | .rows r => r.map fun x => [x]
  | .wins ws => ws

/-- `windowed` (npx.py:128-190).  Returns `(leftover, result)`.
`stepsize = none` defaults to the window size (line 143).
Simplifications: contiguity copy (149-150) and dtype are not represented; the
empty result `np.zeros(a.shape)` of line 176 is `wins []`. -/
def windowed (z : α) (a : List α) (w : Int) (step : Option Int) (dopad : Bool) :
    Except PyErr (List α × Out α) :=
  if w < 1 then .error .valueError
  else
    let s := step.getD w
    if s < 1 then .error .valueError
    else if w = 1 ∧ s = 1 then .ok ([], .rows a)
    else if w = 1 ∧ s > 1 then .ok ([], .rows (everyNth s.toNat a))
    else
      let l : Int := a.length
      let (leftover, a') :=
        if dopad then
          ([], pad z a (wpad l w s))
        else
          let (c, lc) := wcut l w s
          (pySlice a lc a.length, pySlice a 0 c)
      if a'.length = 0 then .ok (leftover, .wins [])
      else
        let n : Int := 1 + ((a'.length : Int) - w) / s
        match (List.range n.toNat).mapM (readWindow a' w.toNat s.toNat) with
        | .ok ws => .ok (leftover, .wins ws)
        | .error e => .error e

end Zounds.Npx
