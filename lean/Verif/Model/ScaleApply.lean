import Verif.Model.Frequency

/-!
# Applying a scale to a spectrum: `FrequencyScale.apply`, `BarkBands`, `Chroma`

zounds/spectral/frequencyscale.py:263-274, 577-624; zounds/spectral/spectral.py:219-262.

`α` are frequencies and coefficients.  `window` gives the window's coefficients for a number of samples, what `window * np.ones(n)`
computes.
-/

namespace Zounds.ScaleApply
open Zounds Zounds.Freq

variable {α : Type} [Field α] [LinearOrder α]

/-- `weights[i, lo:hi] = window * np.ones(len)` in a row of `n` zeros (frequencyscale.py:266-268). -/
def weightRow (window : Nat → List α) (n lo hi : Nat) : List α :=
  (List.range n).map fun j => if lo ≤ j ∧ j < hi then (window (min hi n - lo)).getD (j - lo) 0 else 0

/-- The row for one band (frequencyscale.py:265-268). -/
def bandRow (X : NumExt α) (other : Scale α) (window : Nat → List α) (b : Band α) : Except PyErr (List α) :=
  match other.getSlice X (.band b) with
  | .error e => .error e
  | .ok (.run lo hi) => .ok (weightRow window other.len lo hi)
  | .ok (.same _ _) => .error .typeError

/-- frequencyscale.py:263-269 `_basis`. -/
def basis (X : NumExt α) (scale other : Scale α) (window : Nat → List α) : Except PyErr (List (List α)) :=
  match scale.bands X with
  | .error e => .error e
  | .ok bs => Freq.sequence (bs.map (bandRow X other window))

/-- One entry of `np.dot`. -/
def dot (a b : List α) : α := (List.zipWith (· * ·) a b).sum

/-- frequencyscale.py:271-274 `apply`: `np.dot(basis, x.T).T`, for `rows` of as many coefficients as `other`, their scale, has bands. -/
def applyScale (X : NumExt α) (scale other : Scale α) (window : Nat → List α) (rows : List (List α)) : Except PyErr (List (List α)) :=
  match basis X scale other window with
  | .error e => .error e
  | .ok bas => .ok (rows.map fun r => bas.map fun b => dot b r)

/-- spectral.py:251-262 with 228-235 `BarkBands._process`. -/
def barkBands (X : NumExt α) (band : Band α) (nBands : Nat) (other : Scale α) (window : Nat → List α) (rows : List (List α)) :
    Except PyErr (List (List α)) := applyScale X (.bark band nBands) other window (rows.map fun r => r.map fun x => |x|)

/-- frequencyscale.py:605-610: the semitones `np.arange(start - 1, stop)`, and of these the ones that get a band (614: all but the last
two).  `start` and `stop` are the rounded numbers of semitones above A440 of the frequency band. -/
def chromaTones (start stop : Int) : List Int :=
  (List.range ((stop - start + 1).toNat - 2)).map fun i : Nat => start - 1 + i

/-- frequencyscale.py:618-622, for one tone: the chroma row, and the weights for it; `hz` gives the frequency of a semitone. -/
def chromaTone (X : NumExt α) (other : Scale α) (window : Nat → List α) (hz : Int → α) (s : Int) : Except PyErr (Nat × List α) :=
  match Band.new (hz s) (hz (s + 2)) with
  | .error e => .error e
  | .ok b =>
    match bandRow X other window b with
    | .error e => .error e
    | .ok r => .ok ((s % 12).toNat, r)

/-- frequencyscale.py:599-624 `ChromaScale._basis`. -/
def chromaBasis (X : NumExt α) (other : Scale α) (window : Nat → List α) (hz : Int → α) (start stop : Int) :
    Except PyErr (List (List α)) :=
  match Freq.sequence ((chromaTones start stop).map (chromaTone X other window hz)) with
  | .error e => .error e
  | .ok tones => .ok ((List.range 12).map fun c => (List.range other.len).map fun j =>
      (tones.map fun p => if p.1 = c then p.2.getD j 0 else 0).sum)

/-- `ChromaScale.apply` (frequencyscale.py:271-274). -/
def applyChroma (X : NumExt α) (other : Scale α) (window : Nat → List α) (hz : Int → α) (start stop : Int) (rows : List (List α)) :
    Except PyErr (List (List α)) :=
  match chromaBasis X other window hz start stop with
  | .error e => .error e
  | .ok bas => .ok (rows.map fun r => bas.map fun b => dot b r)

end Zounds.ScaleApply
