import Verif.Model.Base
import Mathlib.Analysis.SpecialFunctions.Sqrt
import Mathlib.LinearAlgebra.Matrix.NonsingularInverse

/-!
# zounds/learn/learn.py:6-48 `KMeans`, zounds/learn/sklearn_preprocessor.py

Real numbers stand for floats.  Fitting (scipy's `kmeans`, scikit-learn's `fit`) is not modelled: the codebook and the fitted model are
arbitrary.
-/

namespace Zounds.Codebook

/-- Euclidean distance, `scipy.spatial.distance.cdist` of two rows. -/
noncomputable def dist (x y : List ℝ) : ℝ := Real.sqrt ((List.zipWith (fun a b => (a - b) ^ 2) x y).sum)

/-- `np.argmin` of a list whose first element is `x`: the position of the first least element. `i` is the position of the next element,
`b` the best position so far and `x` its value. -/
noncomputable def argminFrom (b : ℕ) (x : ℝ) : ℕ → List ℝ → ℕ
  | _, [] => b
  | i, y :: ys => if y < x then argminFrom i y (i + 1) ys else argminFrom b x (i + 1) ys

/-- `np.argmin`. -/
noncomputable def argmin : List ℝ → Except PyErr ℕ
  | [] => .error .valueError
  | x :: xs => .ok (argminFrom 0 x 1 xs)

/-- learn.py:22-25, one row: a one at the nearest codeword, zeros elsewhere. -/
noncomputable def encodeRow (codebook : List (List ℝ)) (x : List ℝ) : Except PyErr (List ℕ) :=
  match argmin (codebook.map (dist x)) with
  | .error e => .error e
  | .ok b => .ok ((List.range codebook.length).map fun j => if j = b then 1 else 0)

/-- learn.py:15-30, `KMeans`' forward function: rows of the wrong size are a ValueError of `cdist`. -/
noncomputable def encode (dim : ℕ) (codebook d : List (List ℝ)) : Except PyErr (List (List ℕ)) :=
  if ∃ x ∈ d, x.length ≠ dim then .error .valueError
  else d.mapM (encodeRow codebook)

/-- The positions of ones in a row: `np.where(d == 1)[1]`. -/
def onesOf (code : List ℕ) : List ℕ := (List.range code.length).filter fun j => code.getD j 0 = 1

/-- `codebook[i]`. -/
def codeword (codebook : List (List ℝ)) (i : ℕ) : Except PyErr (List ℝ) :=
  match codebook[i]? with
  | none => .error .indexError
  | some c => .ok c

/-- learn.py:34-38, `KMeans`' backward function: `codebook[np.where(d == 1)[1]]`. -/
def decode (codebook : List (List ℝ)) (codes : List (List ℕ)) : Except PyErr (List (List ℝ)) :=
  ((codes.map onesOf).flatten).mapM (codeword codebook)

/-! ## sklearn_preprocessor.py -/

/-- An array: its shape and its numbers in row-major order. -/
structure Arr where
  shape : List ℕ
  data : List ℝ

/-- The rows of `n` runs of `m` numbers. -/
def rows (n m : ℕ) (data : List ℝ) : List (List ℝ) := (List.range n).map fun i => (data.drop (i * m)).take m

/-- `d.reshape((d.shape[0], -1))` (sklearn_preprocessor.py:12, 29): numpy cannot tell the missing size when the first is zero. The rows. -/
def reshapeRows (d : Arr) : Except PyErr (List (List ℝ)) :=
  match d.shape with
  | [] => .error .indexError
  | n :: _ => if n = 0 ∨ d.data.length % n ≠ 0 then .error .valueError else .ok (rows n (d.data.length / n) d.data)

/-- `a.reshape((-1,) + shape)` (sklearn_preprocessor.py:22): again the missing size must be determined. -/
def reshapeBack (shape : List ℕ) (data : List ℝ) : Except PyErr Arr :=
  if shape.prod = 0 ∨ data.length % shape.prod ≠ 0 then .error .valueError else .ok ⟨(data.length / shape.prod) :: shape, data⟩

/-- sklearn_preprocessor.py:9-19: the forward function. `transform` is the model's, row by row. The rows of the result. -/
def forward (transform : List ℝ → List ℝ) (d : Arr) : Except PyErr (List (List ℝ)) :=
  match reshapeRows d with
  | .error e => .error e
  | .ok rs => .ok (rs.map transform)

/-- sklearn_preprocessor.py:21-25: the backward function; `inverse` is the model's `inverse_transform`, row by row. -/
def backward (inverse : List ℝ → List ℝ) (shape : List ℕ) (codes : List (List ℝ)) : Except PyErr Arr :=
  reshapeBack shape (codes.map inverse).flatten

/-- The transform of a scikit-learn decomposition (PCA) of `m` features into `k` components: centred, then projected. -/
noncomputable def pcaTransform {k m : ℕ} (components : Matrix (Fin k) (Fin m) ℝ) (mean : Fin m → ℝ) (x : Fin m → ℝ) : Fin k → ℝ :=
  components.mulVec (x - mean)

/-- sklearn_preprocessor.py:44-50 `WithComponents`' backward function: `np.dot(d, model.components_)`, for one row. -/
def withComponents {k m : ℕ} (components : Matrix (Fin k) (Fin m) ℝ) (y : Fin k → ℝ) : Fin m → ℝ := Matrix.vecMul y components

end Zounds.Codebook
