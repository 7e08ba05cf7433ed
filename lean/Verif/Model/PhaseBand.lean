import Verif.Model.Arith
import Mathlib.Analysis.SpecialFunctions.Complex.Log

/-!
# zounds/spectral/functional.py `phase_shift` of arrays with units, along any axis and within a frequency band

The numbers are exact complex numbers.  Memory (who shares cells with whom) is that of Model/ArrayWrite.lean.
-/

namespace Zounds.PhaseBand
open Zounds Zounds.Arr

variable {φ : Type} [Field φ] [LinearOrder φ]

/-- functional.py:222-223: the factor of coefficient `k` of `n` for a shift of `s` samples. -/
noncomputable def turn (n : Nat) (s : Int) (k : Nat) : ℂ :=
  Complex.exp (-((k : ℂ) * 2 * Complex.I * Real.pi / n) * s)

/-- functional.py:226 `frequency_band or slice(None)`: neither a FrequencyBand nor a slice is ever false. -/
def partOf (band : Option (Item (LibIdx φ))) : Item (LibIdx φ) :=
  match band with
  | none => .slice none none none
  | some it => it

/-- functional.py:229-230 and 233-235: the index is the band alone for one axis, otherwise a tuple with the band in place `axis`. -/
def indexOf (nd : Nat) (axis : Nat) (it : Item (LibIdx φ)) : List (Item (LibIdx φ)) :=
  if nd = 1 then [it] else (List.replicate nd (.slice none none none)).set axis it

/-- Python's `l[axis]` for a list of `n` things: the place counted from the front. -/
def place (n : Nat) (axis : Int) : Except PyErr Nat :=
  if 0 ≤ axis ∧ axis < n then .ok axis.toNat
  else if axis < 0 ∧ 0 ≤ n + axis then .ok (n + axis).toNat
  else .error .indexError

/-- functional.py:227-237: `new_coeffs = coeffs.copy()`, then `new_coeffs[index] *= shift[frequency_band]`: the left side is read first. -/
noncomputable def apply (X : Freq.NumExt φ) (m : Mem ℂ) (a : Awu (LibDim φ) Nat) (axis : Nat) (it : Item (LibIdx φ)) (shift : Awu (LibDim φ) ℂ) :
    Except PyErr (Mem ℂ × Awu (LibDim φ) Nat) :=
  let c := m.alloc (m.read a)
  match getitemIn (libOps X) c.1 c.2 (indexOf a.shape.length axis it) with
  | .error e => .error e
  | .ok _ =>
    match shift.getitem (libOps X) [it] with
    | .error e => .error e
    | .ok sh =>
      match augmented (libOps X) (· * ·) c.1 c.2 (indexOf a.shape.length axis it) (Val.units () sh) with
      | .error e => .error e
      | .ok m' => .ok (m', c.2)

/-- functional.py:214-237 `phase_shift(coeffs, samplerate, time_shift, axis, frequency_band)`; times are picoseconds, `frequency` is
`samplerate.frequency`. -/
noncomputable def phaseShift (X : Freq.NumExt φ) (m : Mem ℂ) (a : Awu (LibDim φ) Nat) (frequency timeShift : Int) (axis : Int)
    (band : Option (Item (LibIdx φ))) : Except PyErr (Mem ℂ × Awu (LibDim φ) Nat) :=
  match place a.dims.length axis with
  | .error e => .error e
  | .ok k =>
    match a.dims[k]? with
    | some (.freq s) =>
      let n := a.shape.getD k 0
      match Awu.new (libOps X) [n] (fun idx => turn n (timeShift.tdiv frequency) (idx.headD 0)) [.freq s] with
      | .error e => .error e
      | .ok shift => apply X m a k (partOf band) shift
    | _ => .error .valueError

end Zounds.PhaseBand
