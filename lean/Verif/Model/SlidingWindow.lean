import Verif.Model.Windowed
/-!
# `zounds/spectral/sliding_window.py`: the streaming `SlidingWindow` node
-/

namespace Zounds.SlidingWindow
open Zounds Zounds.Npx

variable {α : Type u}

/-- Node state: `_cache` (sliding_window.py:174). -/
structure St (α : Type u) where
  cache : Option (List α) := none
  deriving Repr, DecidableEq

/-- `_first_chunk` (sliding_window.py:176-183): zero rows in front of the first
chunk when `padwith` is non-zero. -/
def firstChunk (z : α) (padwith : Nat) (data : List α) : List α :=
  if padwith ≠ 0 then List.replicate padwith z ++ data else data

/-- `_enqueue` (sliding_window.py:185-189). -/
def enqueue (st : St α) (data : List α) : St α :=
  match st.cache with
  | none => ⟨some data⟩
  | some c => ⟨some (c ++ data)⟩

/-- `ArrayWithUnits.sliding_window_with_leftovers` (core/axis.py:201-217) along
axis 0, for window and step already converted to sample counts: when the result
is empty the whole input is handed back as leftover.
Simplification: rows are non-empty arrays, so `result.size == 0` iff there are
no windows; dimension bookkeeping is modelled separately. -/
def slidingWindowWithLeftovers (z : α) (a : List α) (w s : Int) (dopad : Bool) :
    Except PyErr (List α × List (List α)) :=
  match windowed z a w (some s) dopad with
  | .error e => .error e
  | .ok (left, out) =>
    if out.windows.isEmpty then .ok (a, []) else .ok (left, out.windows)

/-- `_dequeue` (sliding_window.py:191-208), with `w`, `s` the scheme's window
and step in samples.  `NotEnoughData` leaves the state alone.  Simplification:
the pointwise multiplication by the windowing function (line 207) is applied to
each emitted window afterwards and is not represented.  Calling it with no cache is an `AttributeError` (`None` has no
`sliding_window_with_leftovers`). -/
def dequeue (z : α) (w s : Int) (finalized : Bool) (st : St α) :
    Except PyErr (St α × List (List α)) :=
  match st.cache with
  | none => .error .attributeError
  | some c =>
    match slidingWindowWithLeftovers z c w s finalized with
    | .error e => .error e
    | .ok (left, wins) =>
      if wins.isEmpty then .error .notEnoughData
      else .ok (⟨some left⟩, wins)

/-- One round of the featureflow `Node` protocol for one incoming chunk:
`_enqueue`, then `_dequeue`; `NotEnoughData` means nothing is emitted.
(featureflow is not in this repository; this is the recorded assumption.) -/
def push (z : α) (w s : Int) (finalized : Bool) (st : St α) (data : List α) :
    Except PyErr (St α × List (List α)) :=
  let st := enqueue st data
  match dequeue z w s finalized st with
  | .ok r => .ok r
  | .error .notEnoughData => .ok (st, [])
  | .error e => .error e

/-- Feed non-final chunks one after the other, collecting what is emitted. -/
def feed (z : α) (w s : Int) : St α → List (List α) → Except PyErr (St α × List (List α))
  | st, [] => .ok (st, [])
  | st, c :: cs =>
    match push z w s false st c with
    | .error e => .error e
    | .ok (st', out) =>
      match feed z w s st' cs with
      | .error e => .error e
      | .ok (st'', out') => .ok (st'', out ++ out')

/-- A complete run: all chunks but the last non-final, the last one final. -/
def run (z : α) (w s : Int) (chunks : List (List α)) (last : List α) :
    Except PyErr (List (List α)) :=
  match feed z w s {} chunks with
  | .error e => .error e
  | .ok (st, out) =>
    match push z w s true st last with
    | .error e => .error e
    | .ok (_, out') => .ok (out ++ out')

/-- A complete run with zero padding in front: featureflow hands the first chunk to
`_first_chunk` before it is enqueued (sliding_window.py:176-183). -/
def runPadded (z : α) (padwith : Nat) (w s : Int) (chunks : List (List α)) (last : List α) :
    Except PyErr (List (List α)) :=
  match chunks with
  | [] => run z w s [] (firstChunk z padwith last)
  | c :: cs => run z w s (firstChunk z padwith c :: cs) last

/-- The window function applied to the emitted windows, `self._func * arr`
(sliding_window.py:207; `WindowingFunc.__array_ufunc__`, sliding_window.py:68-87), for
one-channel windows: sample `j` of every window is multiplied by coefficient `j`. -/
def applyFunc {β : Type v} (mul : β → α → α) (func : List β) (wins : List (List α)) : List (List α) :=
  wins.map fun win => List.zipWith mul func win

end Zounds.SlidingWindow
