import Verif.Model.Base
/-!
# n-dimensional arrays and `sliding_window` (`zounds/nputil/npx.py:8-33, 193-255`)

A numpy array is a block of memory, a shape and strides.  Strides are counted in items, not bytes.
-/

namespace Zounds.Nd
open Zounds

/-- number of items of an array of this shape -/
def size : List Nat → Nat
  | [] => 1
  | n :: shape => n * size shape

/-- Memory position of an index relative to the first item. -/
def offsetOf : List Nat → List Int → Int
  | i :: idx, s :: strides => i * s + offsetOf idx strides
  | _, _ => 0

/-- A numpy array: memory block, position of the first item, shape, strides. -/
structure Strided (α : Type) where
  mem : List α
  base : Int
  shape : List Nat
  strides : List Int

/-- Read an item; `none` when the address lies outside the memory block. -/
def Strided.read {α : Type} (a : Strided α) (idx : List Nat) : Option α :=
  let p := a.base + offsetOf idx a.strides
  if p < 0 then none else a.mem[p.toNat]?

/-- C-order position of an index in an array of the given shape (numpy: `np.ravel_multi_index`). -/
def ravel : List Nat → List Nat → Nat
  | _ :: shape, i :: idx => i * size shape + ravel shape idx
  | _, _ => 0

/-- Index of a C-order position (`np.unravel_index`). -/
def unravel : List Nat → Nat → List Nat
  | [], _ => []
  | _ :: shape, k => k / size shape :: unravel shape (k % size shape)

/-- An array that owns its items (the result of a copying reshape): the C-order contents. -/
structure Nd (α : Type) where
  shape : List Nat
  get : List Nat → Option α

/-- `strided.reshape(dim)` (numpy, C order): a copy whose item at an index is the item of the same C-order position. -/
def Strided.reshape {α : Type} (a : Strided α) (dim : List Nat) : Except PyErr (Nd α) :=
  if size dim = size a.shape then .ok ⟨dim, fun idx => a.read (unravel a.shape (ravel dim idx))⟩
  else .error .valueError

/-- number of windows along one axis (npx.py:239); numpy's integer division by zero gives 0, as `Nat` division does. -/
def counts : List Nat → List Nat → List Nat → List Nat
  | n :: shape, w :: ws, s :: ss => ((n - w) / s + 1) :: counts shape ws ss
  | _, _, _ => []

/-- `ws > shape` in some axis (npx.py:232). -/
def tooLarge : List Nat → List Nat → Bool
  | w :: ws, n :: shape => decide (w > n) || tooLarge ws shape
  | _, _ => false

/-- `np.array(a.strides) * ss` (npx.py:245). -/
def scaleStrides : List Int → List Nat → List Int
  | st :: strides, s :: ss => (st * s) :: scaleStrides strides ss
  | _, _ => []

/-- npx.py:215-247: `sliding_window` up to the strided view.  Windows and steps are natural numbers; `ws`, `ss` already are tuples
(`norm_shape`, npx.py:8-33, makes a one-tuple of an int). -/
def windowView {α : Type} (a : Strided α) (ws : List Nat) (ss : Option (List Nat)) : Except PyErr (Strided α) :=
  let ss := ss.getD ws
  if a.shape.length ≠ ws.length ∨ ws.length ≠ ss.length then .error .valueError
  else if tooLarge ws a.shape then .error .valueError
  else .ok { mem := a.mem, base := a.base, shape := counts a.shape ws ss ++ ws, strides := scaleStrides a.strides ss ++ a.strides }

/-- npx.py:193-255 `sliding_window` with `flatten=True`: `newshape[:-meat]` are the window counts, `newshape[-meat:]` the window.  For
an array without axes `np.product(())` is a float, which `reshape` refuses. -/
def slidingWindow {α : Type} (a : Strided α) (ws : List Nat) (ss : Option (List Nat)) : Except PyErr (Nd α) :=
  match windowView a ws ss with
  | .error e => .error e
  | .ok v =>
    let meat := ws.length
    if meat = 0 then .error .typeError
    else v.reshape (size (v.shape.take (v.shape.length - meat)) :: v.shape.drop (v.shape.length - meat))

end Zounds.Nd
