import Verif.Model.Memory

/-!
# Arrays that are held, made from each other and stored to: which are read-only, and which share memory
-/

namespace Zounds.Desk
open Zounds

/-- An array somebody holds: the addresses of its numbers (in the order of its elements), the size of its second axis (one if there is none; audiosamples.py:138-142 `channels`), and whether stores are
refused (numpy's `flags.writeable`). -/
structure Held where
  addrs : List Nat
  channels : Nat
  locked : Bool

/-- The memory and the arrays made so far. -/
structure Desk (α : Type) where
  mem : Arr.Mem α
  arrays : List Held

/-- What is done with arrays.
* `decode`: persistence/arraywithunits.py:10-15,60-77, an array read back from storage: `np.frombuffer` of bytes does not copy and is read-only; no bytes at all become a new array (`np.fromstring`, :14).
* `compute`: anything that makes a new array (constructors of the library's synthesizers, `np.concatenate` in axis.py:75 and audiosamples.py:100, arithmetic, `copy`, indices with lists), whatever it makes it from.
* `view`: the array again or some of its elements, without a copy: axis.py:50 `np.asarray(arr).view(cls)` (so `ArrayWithUnits(arr, …)`, `AudioSamples(arr, …)` and `from_example`), slices (axis.py:334-336), `T` (axis.py:65-68),
  the windows of npx.py:175-188.
* `convert`: audiosamples.py:148-164, `mono` for one channel and `stereo` for two: the array itself if it has as many, otherwise a new one; `f` is what is computed (it is the subject of other properties).
* `store`: `array[k] = x`. -/
inductive Act (α : Type) where
  | decode (xs : List α) (channels : Nat)
  | compute (f : List (List α) → List α) (channels : Nat)
  | view (h : Nat) (pick : List Nat) (channels : Nat)
  | convert (h : Nat) (channels : Nat) (f : List α → List α)
  | store (h k : Nat) (x : α)

/-- What an array reads. -/
def Desk.read {α : Type} (d : Desk α) (a : Held) : List α := a.addrs.map d.mem.cells

/-- A new array. -/
def Desk.add {α : Type} (d : Desk α) (xs : List α) (channels : Nat) (locked : Bool) : Desk α :=
  ⟨(Memory.fresh d.mem xs).1, d.arrays ++ [⟨(Memory.fresh d.mem xs).2, channels, locked⟩]⟩

/-- One more name for memory that is there. -/
def Desk.share {α : Type} (d : Desk α) (a : Held) : Desk α := ⟨d.mem, d.arrays ++ [a]⟩

/-- numpy's assignment: first it asks whether the array is writeable (ValueError), then for the index (IndexError). -/
def Desk.put {α : Type} (d : Desk α) (a : Held) (k : Nat) (x : α) : Desk α × Option PyErr :=
  if a.locked then (d, some .valueError)
  else match a.addrs[k]? with
    | none => (d, some .indexError)
    | some ad => (⟨d.mem.store ad x, d.arrays⟩, none)

/-- What happens to an array that is named (files and lines: see `Act`). -/
def Desk.use {α : Type} (d : Desk α) (a : Held) : Act α → Desk α × Option PyErr
  | .view _ pick c => (d.share ⟨pick.filterMap (a.addrs[·]?), c, a.locked⟩, none)
  | .convert _ c f => if a.channels = c then (d.share a, none) else (d.add (f (d.read a)) c false, none)
  | .store _ k x => d.put a k x
  | _ => (d, none)

/-- One action (files and lines: see `Act`); an error leaves everything as it is. -/
def Desk.step {α : Type} (d : Desk α) : Act α → Desk α × Option PyErr
  | .decode xs c => (d.add xs c (!xs.isEmpty), none)
  | .compute f c => (d.add (f (d.arrays.map d.read)) c false, none)
  | .view h pick c => match d.arrays[h]? with
    | none => (d, some .nameError)
    | some a => d.use a (.view h pick c)
  | .convert h c f => match d.arrays[h]? with
    | none => (d, some .nameError)
    | some a => d.use a (.convert h c f)
  | .store h k x => match d.arrays[h]? with
    | none => (d, some .nameError)
    | some a => d.use a (.store h k x)

/-- A program; it goes on after errors (`try`/`except`). -/
def Desk.run {α : Type} (d : Desk α) (acts : List (Act α)) : Desk α := acts.foldl (fun d a => (d.step a).1) d

/-- Nothing in memory. -/
def Desk.empty {α : Type} (z : α) : Desk α := ⟨⟨fun _ => z, 0⟩, []⟩

end Zounds.Desk
