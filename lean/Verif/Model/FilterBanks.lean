import Verif.Model.Base
import Mathlib.Analysis.SpecialFunctions.Trigonometric.Basic
import Mathlib.Analysis.SpecialFunctions.Pow.Real
import Mathlib.Analysis.SpecialFunctions.Sqrt

/-!
# zounds/spectral/functional.py: `morlet_filter_bank`, `fir_filter_bank`

Real numbers stand for floats.  `scipy.signal.morlet` is trusted to compute the formula of its documentation, `scipy.signal.firwin2` is an arbitrary
function that may raise.  Dimensions of the results are not modelled.
-/

namespace Zounds.FilterBanks

/-- Sample `k` of `np.linspace(-s * 2 * pi, s * 2 * pi, M)`. -/
noncomputable def linspace (M : ℕ) (s : ℝ) (k : ℕ) : ℝ := -s * 2 * Real.pi + k * ((s * 2 * Real.pi - -s * 2 * Real.pi) / ((M : ℝ) - 1))

/-- The real part of `scipy.signal.morlet(M, w, s)`: `exp(1j w x) - exp(-0.5 w²)`, times `exp(-0.5 x²) π^(-0.25)`. -/
noncomputable def morlet (M : ℕ) (w s : ℝ) : List ℝ :=
  (List.range M).map fun k : ℕ =>
    (Real.cos (w * linspace M s k) - Real.exp (-0.5 * w ^ 2)) * (Real.exp (-0.5 * linspace M s k ^ 2) * Real.pi ^ (-0.25 : ℝ))

/-- What is given as `scaling_factor`: a number, a collection, or something with neither `len` nor `float`. -/
inductive Scaling where
  | number (s : ℝ)
  | list (l : List ℝ)
  | other

/-- functional.py:322-326: one scaling per band. -/
def scalings (n : ℕ) : Scaling → Except PyErr (List ℝ)
  | .list l => if l.length ≠ n then .error .valueError else .ok l
  | .number s => .ok (List.replicate n s)
  | .other => .error .typeError

/-- `np.linalg.norm` of a row. -/
noncomputable def norm (row : List ℝ) : ℝ := Real.sqrt (row.map fun v => v ^ 2).sum

/-- functional.py:332: `w` for a band; `sr` is `int(samplerate)`. -/
noncomputable def omega (sr kernel : ℕ) (center scaling : ℝ) : ℝ := center / (scaling * 2 * sr / kernel)

/-- functional.py:292-347 `morlet_filter_bank`: `centers` are the centre frequencies of the scale's bands, `eps` is 1e-8.  A kernel of no samples divides by
zero (when there is a band); scalings of zero are not modelled. -/
noncomputable def morletBank (eps : ℝ) (sr kernel : ℕ) (centers : List ℝ) (scaling : Scaling) (normalize : Bool) : Except PyErr (List (List ℝ)) :=
  match scalings centers.length scaling with
  | .error e => .error e
  | .ok ss =>
    if kernel = 0 ∧ centers ≠ [] then .error .zeroDivision
    else
      let basis := List.zipWith (fun c s => morlet kernel (omega sr kernel c s) s) centers ss
      .ok (if normalize then basis.map fun row => row.map fun v => v / (norm row + eps) else basis)

/-! ## `fir_filter_bank` -/

/-- `window`: one array for all bands, or one row for each. -/
inductive Window where
  | one (w : List ℝ)
  | rows (ws : List (List ℝ))

/-- functional.py:281-286: the arguments `freqs` and `gains` of `firwin2`.  `np.linspace(a, b, n, endpoint=False)` is `a + j (b - a) / n`. -/
noncomputable def design (nyq start stop : ℝ) (win : List ℝ) : List ℝ × List ℝ :=
  let a := max 0 start / nyq
  let b := min nyq stop / nyq
  ([0] ++ (List.range win.length).map (fun j : ℕ => a + j * ((b - a) / win.length)) ++ [1], [0] ++ win ++ [0])

/-- functional.py:280-287: the loop over the bands; `zip` ends with the shorter of bands and windows, what is left of `basis` stays zero. -/
noncomputable def firLoop (firwin2 : ℕ → List ℝ → List ℝ → Except PyErr (List ℝ)) (nyq : ℝ) (taps : ℕ) :
    List (ℝ × ℝ) → List (List ℝ) → Except PyErr (List (List ℝ))
  | [], _ => .ok []
  | bands, [] => .ok (bands.map fun _ => List.replicate taps 0)
  | b :: bands, w :: ws =>
    match firwin2 taps (design nyq b.1 b.2 w).1 (design nyq b.1 b.2 w).2 with
    | .error e => .error e
    | .ok row =>
      match firLoop firwin2 nyq taps bands ws with
      | .error e => .error e
      | .ok rows => .ok (row :: rows)

/-- functional.py:269-289 `fir_filter_bank`; `bands` are the start and stop frequencies of the scale's bands. -/
noncomputable def firBank (firwin2 : ℕ → List ℝ → List ℝ → Except PyErr (List ℝ)) (nyq : ℝ) (taps : ℕ) (bands : List (ℝ × ℝ)) :
    Window → Except PyErr (List (List ℝ))
  | .one w => firLoop firwin2 nyq taps bands (List.replicate bands.length w)
  | .rows ws => firLoop firwin2 nyq taps bands ws

end Zounds.FilterBanks
