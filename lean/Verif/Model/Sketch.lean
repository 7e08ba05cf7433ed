import Verif.Model.Codebook
import Verif.Model.Codes
import Verif.Model.Pipeline
import Verif.Model.SlidingWindow

/-!
# Features made to be searched for: examples/timbre.py, zounds/learn/learn.py `KMeans`, zounds/basic/basic.py `Max`, zounds/learn/preprocess.py `SimHash`

Frames are encoded with a learned codebook, the codes of a stretch of frames are combined by `Max` (examples/timbre.py:61-77), and the result is a feature for a
`HammingIndex`.  Real numbers stand for floats.
-/

namespace Zounds.Sketch
open Zounds

/-- `data.max(axis=1)` for one window of codes of `k` numbers each (basic.py:106-115).  The numbers are unsigned and windows are not empty, so that the maximum may start at zero. -/
def maxRow (k : Nat) (win : List (List Nat)) : List Nat := (List.range k).map fun j => (win.map fun row => row.getD j 0).foldl max 0

/-- The chunks of a stream, each through `KMeans`' forward function (learn.py:15-30, 78-83). -/
noncomputable def encodeChunks (dim : Nat) (codebook : List (List ℝ)) : List (List (List ℝ)) → Except PyErr (List (List (List Nat)))
  | [] => .ok []
  | c :: cs =>
    match Codebook.encode dim codebook c with
    | .error e => .error e
    | .ok r =>
      match encodeChunks dim codebook cs with
      | .error e => .error e
      | .ok rs => .ok (r :: rs)

/-- examples/timbre.py:61-77: `Learned` (k-means), `SlidingWindow` with windows of `w` frames every `s` frames, `Max(axis=1)`, for a stream that arrives as `chunks` and `last`.  Rows of zeros
continue the stream in the last window (npx.py, sliding_window.py).  Simplification: a chunk that cannot be encoded ends the stream before anything of the others is returned. -/
noncomputable def sketch (dim : Nat) (codebook : List (List ℝ)) (w s : Nat) (chunks : List (List (List ℝ))) (last : List (List ℝ)) : Except PyErr (List (List Nat)) :=
  match encodeChunks dim codebook chunks with
  | .error e => .error e
  | .ok cs =>
    match Codebook.encode dim codebook last with
    | .error e => .error e
    | .ok l =>
      match SlidingWindow.run (List.replicate codebook.length 0) w s cs l with
      | .error e => .error e
      | .ok wins => .ok (wins.map (maxRow codebook.length))

/-- `Pooled(op=np.max, axis=0)` of the codes of one slice (examples/segmentsearch.py:89-94, basic.py:66-71): numpy has no maximum of no rows. -/
def poolMax (k : Nat) (rows : List (List Nat)) : Except PyErr (List Nat) := if rows = [] then .error .valueError else .ok (maxRow k rows)

/-- A row of a `uint8` array as the index sees it (index.py:131-132). -/
def feature (code : List Nat) : Codes.Feature := .uint8 (code.map UInt8.ofNat)

/-- `UnitNorm` before `KMeans` (examples/timbre.py:43-57; functional.py:23-36), one frame; `junk` is what was in the memory of a frame whose norm is zero. -/
noncomputable def unitRow (junk : Nat → ℝ) (x : List ℝ) : List ℝ := Pipeline.divWhere junk x (Pipeline.norm x)

/-- `np.packbits(bits, axis=-1).view(np.uint64)`, one row (preprocess.py:392-393): a ValueError if the bytes do not fill words. -/
def packWords (bits : List Bool) : Except PyErr (List (BitVec 64)) :=
  if (Codes.packbits bits).length % 8 ≠ 0 then .error .valueError else .ok (HammingDb.toWords (Codes.packbits bits))

/-- preprocess.py:383-401 `SimHash`' forward function for one example: the bits of functional.py:15-20, packed if asked. -/
noncomputable def simHash (planes : List (List ℝ)) (pack : Bool) (x : List ℝ) : Except PyErr Codes.Feature :=
  match Pipeline.simhash planes x with
  | .error e => .error e
  | .ok bits =>
    if pack then
      match packWords bits with
      | .error e => .error e
      | .ok ws => .ok (.uint64 ws)
    else .ok (.uint8 (bits.map fun b => if b then 1 else 0))

end Zounds.Sketch
