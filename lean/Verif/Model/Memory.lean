import Verif.Model.Windowed
import Verif.Model.SlidingWindow
import Verif.Model.Growable
import Verif.Model.Sampler
import Verif.Model.ArrayWrite

/-!
# Which results share memory with what they were made of: `windowed`, `Growable.logical_data`, `Reservoir.get`
-/

namespace Zounds.Memory
open Zounds

/-! ## npx.py `windowed` -/

/-- A new block of memory: cells with these values, and their addresses (numpy, one axis). -/
def fresh {α : Type} (m : Arr.Mem α) (xs : List α) : Arr.Mem α × List Nat :=
  (⟨fun i => if m.next ≤ i then (xs[i - m.next]?).getD (m.cells i) else m.cells i, m.next + xs.length⟩, (List.range xs.length).map (m.next + ·))

/-- npx.py:149-150: `a.copy()` unless the array is contiguous. -/
def settle {α : Type} (m : Arr.Mem α) (a : List Nat) (contiguous : Bool) : Arr.Mem α × List Nat :=
  if contiguous then (m, a) else fresh m (a.map m.cells)

/-- npx.py:66-83 `pad`: the array itself if it is long enough, otherwise a copy with zeros after it. -/
def padIn {α : Type} (z : α) (m : Arr.Mem α) (a : List Nat) (desired : Int) : Arr.Mem α × List Nat :=
  if (a.length : Int) ≥ desired then (m, a) else fresh m (Npx.pad z (a.map m.cells) desired)

/-- npx.py:175-188: the windows of an array that is cut or padded already: `np.ndarray.__new__(…, buffer=a)` does not copy. -/
def views (a : List Nat) (w s : Nat) : Except PyErr (List (List Nat)) :=
  if a.length = 0 then .ok []
  else (List.range (1 + ((a.length : Int) - w) / s).toNat).mapM (Npx.readWindow a w s)

/-- npx.py:128-190 `windowed` of an array in memory, given by the addresses of its numbers (one axis), for windows of at least two: the leftover and the windows are made of addresses.
Cutting (:170-173) is slicing, so without padding this is `Npx.windowed` of the addresses. -/
def windowedIn {α : Type} (z : α) (m : Arr.Mem α) (a : List Nat) (contiguous : Bool) (w s : Nat) (dopad : Bool) : Arr.Mem α × Except PyErr (List Nat × List (List Nat)) :=
  let p := settle m a contiguous
  if dopad then
    let q := padIn z p.1 p.2 (Npx.wpad p.2.length w s)
    (q.1, (views q.2 w s).map fun ws => ([], ws))
  else (p.1, (Npx.windowed 0 p.2 w (some (s : Int)) false).map fun r => (r.1, r.2.windows))

/-- sliding_window.py:185-189: the samples of a `SlidingWindow` node when a chunk arrives: the first chunk is kept as it is (:187), a later one is concatenated with what is kept to a new array (:189). -/
def joined {α : Type} (m : Arr.Mem α) (cache : Option (List Nat)) (chunk : List Nat) : Arr.Mem α × List Nat :=
  match cache with
  | none => (m, chunk)
  | some c => fresh m ((c ++ chunk).map m.cells)

/-- sliding_window.py:185-208: a chunk arrives at a `SlidingWindow` node without a windowing function, for windows of at least two samples: the windows handed on and the leftover that is kept are those
of `windowed` (axis.py:207: nothing is left of the cache if there are windows; otherwise all of it, axis.py:209-210).  Simplification: a first chunk is contiguous (one that is not would be copied by
npx.py:150); what `concatenate` makes always is. -/
def pushIn {α : Type} (z : α) (w s : Nat) (m : Arr.Mem α) (cache : Option (List Nat)) (chunk : List Nat) : Arr.Mem α × Except PyErr (List Nat × List (List Nat)) :=
  match windowedIn z (joined m cache chunk).1 (joined m cache chunk).2 true w s false with
  | (m', .error e) => (m', .error e)
  | (m', .ok (left, ws)) => if ws.isEmpty then (m', .ok ((joined m cache chunk).2, [])) else (m', .ok (left, ws))

/-! ## npx.py `Growable` -/

/-- A `Growable` whose memory others may hold: the arrays made so far, and which of them is `self._data` (npx.py:266-285). -/
structure Shared (α : Type) where
  heap : List (List (Option α))
  block : Nat
  position : Nat
  rateNum : Nat
  rateDen : Nat

/-- The `Growable` without its history. -/
def Shared.now {α : Type} (g : Shared α) : Growable.G α := ⟨g.heap.getD g.block [], g.position, g.rateNum, g.rateDen⟩

/-- npx.py:310-315 `logical_data`: a view of the first `position` rows of an array. -/
structure View where
  block : Nat
  size : Nat

/-- npx.py:310-315. -/
def Shared.logicalData {α : Type} (g : Shared α) : View := ⟨g.block, g.position⟩

/-- What a view reads (npx.py:315). -/
def Shared.read {α : Type} (g : Shared α) (v : View) : List (Option α) := (g.heap.getD v.block []).take v.size

/-- A store through a view (`view[k] = x`; IndexError outside of it). -/
def Shared.write {α : Type} (g : Shared α) (v : View) (k : Nat) (x : α) : Except PyErr (Shared α) :=
  if k < v.size ∧ k < (g.heap.getD v.block []).length then .ok { g with heap := g.heap.set v.block ((g.heap.getD v.block []).set k (some x)) } else .error .indexError

/-- npx.py:331-366 `append` and `extend`: if there is room the array is written to, otherwise `np.concatenate` (:329) makes a new one, and the old one stays as it is for those who hold it.
`step` of `Model/Growable` is what they do to the contents. -/
def Shared.step {α : Type} (g : Shared α) (o : Growable.Op α) : Except PyErr (Shared α) :=
  match g.now.step o with
  | .error e => .error e
  | .ok g' =>
    if g'.data.length = (g.heap.getD g.block []).length then
      .ok { g with heap := g.heap.set g.block g'.data, position := g'.position }
    else .ok { g with heap := g.heap ++ [g'.data], block := g.heap.length, position := g'.position }

/-- Operations one after the other (npx.py:331-366). -/
def Shared.steps {α : Type} : Shared α → List (Growable.Op α) → Except PyErr (Shared α)
  | g, [] => .ok g
  | g, o :: os =>
    match g.step o with
    | .ok g' => g'.steps os
    | .error e => .error e

/-! ## random_samples.py `Reservoir.get` -/

/-- What `get` (random_samples.py:57-62) hands out: `self.arr` itself if the reservoir is full (:58-59), otherwise the rows an index with a list has copied (:61). -/
inductive Batch (α : Type) where
  | own
  | copy (rows : List α)

/-- random_samples.py:57-62. -/
def handOut {α : Type} (r : Reservoir.Res α) : Except PyErr (Batch α) :=
  match r.get with
  | .error e => .error e
  | .ok x => if r.indices.length = r.nsamples then .ok .own else .ok (.copy x)

/-- What a batch reads when the reservoir is `r` (`self.arr` is never replaced: random_samples.py:30-31). -/
def readBatch {α : Type} (r : Reservoir.Res α) : Batch α → List α
  | .own => r.arr.getD []
  | .copy rows => rows

/-- random_samples.py:153-171, 202-220: passes of `InfiniteSampler` without threads, keeping all batches: the batches and the reservoir at the end. -/
def keepAll {α : Type} (z : α) (docs : List (List α)) : Reservoir.Res α → List (List Sampler.Draw) → Except PyErr (List (Batch α) × Reservoir.Res α)
  | r, [] => .ok ([], r)
  | r, ds :: rest =>
    match Sampler.onePass z (docs.map List.length).sum r (docs.zip ds) with
    | (_, .error e) => .error e
    | (r', .ok ()) =>
      match handOut r' with
      | .error e => .error e
      | .ok b =>
        match keepAll z docs r' rest with
        | .error e => .error e
        | .ok (bs, rEnd) => .ok (b :: bs, rEnd)

end Zounds.Memory
