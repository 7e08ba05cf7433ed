import Verif.Model.Frequency
import Mathlib.Data.List.Sort
import Mathlib.Data.Rat.Defs
import Mathlib.Algebra.Order.Field.Rat
/-!
# Resampled frequency bands

zounds/spectral/functional.py:388-419 `frequency_decomposition` and zounds/synthesize/synthesize.py:284-300
`FrequencyDecompositionSynthesizer`.

Samples are elements of a commutative group; `scipy.signal.resample(·, n, axis=-1)` is a parameter `R` that turns a row of samples
into one of `n` samples.  Frequencies are rational numbers.  The samples are floating point (an integer array cannot be reduced in
place).
-/

namespace Zounds.Decompose
open Zounds Zounds.Freq

variable {β : Type} [AddCommGroup β]

/-- `a + b` of two rows of the same length. -/
def addRow (a b : List β) : List β := List.zipWith (· + ·) a b

/-- `a - b` of two rows of the same length. -/
def subRow (a b : List β) : List β := List.zipWith (· - ·) a b

/-- functional.py:406-409: the band of one size, resampled from what remains unless it has the original size. -/
def bandOf (R : List β → Nat → List β) (n : Nat) (data : List (List β)) (size : Nat) : List (List β) :=
  if size ≠ n then data.map fun r => R r size else data

/-- functional.py:405-412, the loop's arrays: one band for every size, each subtracted from what remains for the next. -/
def bandsLoop (R : List β → Nat → List β) (n : Nat) (data : List (List β)) : List Nat → List (Nat × List (List β))
  | [] => []
  | size :: sizes =>
    let s := bandOf R n data size
    (size, s) :: bandsLoop R n (List.zipWith subRow data (s.map fun r => R r n)) sizes

/-- functional.py:403, 414-416, the loop's frequency bands. -/
def bandsHz (nyquist : Rat) (n : Nat) (start : Rat) : List Nat → Except PyErr (List (Band Rat))
  | [] => .ok []
  | size :: sizes =>
    let stop := nyquist * ((size : Rat) / (n : Rat))
    match Band.new start stop with
    | .error e => .error e
    | .ok b =>
      match bandsHz nyquist n stop sizes with
      | .error e => .error e
      | .ok bs => .ok (b :: bs)

/-- functional.py:389 `sorted(sizes)`. -/
def sorted (l : List Nat) : List Nat := l.insertionSort (· ≤ ·)

/-- functional.py:388-419 `frequency_decomposition` of `rows` windows of `n` samples each (a one dimensional `x` is one window,
391-394) at a sample rate with the given Nyquist frequency.  An `n` of zero: ValueError from `resample`, which has no
samples to transform.  Of the other exceptions only those about the bands' frequencies are modelled. -/
def frequencyDecomposition (X : NumExt Rat) (R : List β → Nat → List β) (nyquist : Rat) (n : Nat) (rows : List (List β))
    (sizes : List Nat) : Except PyErr (FreqAdaptive Rat β) :=
  let sizes := sorted sizes
  if n = 0 ∧ sizes ≠ [] then .error .valueError
  else
    match bandsHz nyquist n 0 sizes with
    | .error e => .error e
    | .ok hz =>
      match newExplicit hz with
      | .error e => .error e
      | .ok scale => FreqAdaptive.new X (bandsLoop R n rows sizes) scale

/-- synthesize.py:296, the condition under which a band is left out: `bands and i not in bands`. -/
def skips (chosen : Option (List Nat)) (i : Nat) : Bool :=
  match chosen with
  | none => false
  | some [] => false
  | some l => ! l.contains i

/-- synthesize.py:295-298, the loop over the bands of the scale numbered from `i`. -/
def synthLoop (X : NumExt Rat) (R : List β → Nat → List β) (outputSize : Nat) (fa : FreqAdaptive Rat β) (chosen : Option (List Nat)) :
    Nat → List (Band Rat) → List (List β) → Except PyErr (List (List β))
  | _, [], out => .ok out
  | i, b :: bs, out =>
    if skips chosen i then
      synthLoop X R outputSize fa chosen (i + 1) bs out
    else
      match fa.getBand X b with
      | .error e => .error e
      | .ok rows => synthLoop X R outputSize fa chosen (i + 1) bs (List.zipWith addRow out (rows.map fun r => R r outputSize))

/-- synthesize.py:290-300 `FrequencyDecompositionSynthesizer.synthesize`, the numbers. -/
def synthesize (X : NumExt Rat) (R : List β → Nat → List β) (outputSize : Nat) (fa : FreqAdaptive Rat β) (chosen : Option (List Nat)) :
    Except PyErr (List (List β)) :=
  match fa.dim.scale.bands X with
  | .error e => .error e
  | .ok bs => synthLoop X R outputSize fa chosen 0 bs (fa.rows.map fun _ => List.replicate outputSize 0)

end Zounds.Decompose
