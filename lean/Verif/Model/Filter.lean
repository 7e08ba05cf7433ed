import Verif.Model.ArrayWrite

/-!
# examples/demo.py:44-51: keeping only a part of the spectrum
-/

namespace Zounds.Filter
open Zounds Zounds.Arr

/-- examples/demo.py:46-51 (README.md gives the same recipe): `a440 = x[:, freq_band]`, `filtered = x.zeros_like()` and
`filtered[:, freq_band] = a440`.  The first is a view, the second a new array, the third stores into the new one.
`zero` is the zero of the array's dtype. -/
def bandPass {δ κ α : Type} (ops : DimOps δ κ) (zero : α) (m : Mem α) (x : Awu δ Nat) (band : Item κ) :
    Except PyErr (Mem α × Awu δ Nat) :=
  match getitemIn ops m x [.slice none none none, band] with
  | .error e => .error e
  | .ok (m1, part) =>
    match zerosLike ops zero (m1.read x) with
    | .error e => .error e
    | .ok z =>
      match setitem ops (m1.alloc z).1 (m1.alloc z).2 [.slice none none none, band] part.shape ((m1.alloc z).1.read part).get with
      | .error e => .error e
      | .ok m3 => .ok (m3, (m1.alloc z).2)

end Zounds.Filter
