import Verif.Model.Conv
import Mathlib.Data.Real.Sign
import Mathlib.Algebra.Order.Floor.Semiring

/-!
# Losses and normalizations: zounds/learn/{loss,sample_embedding,util}.py

Over the real numbers; torch's float32 rounding, and the gradients themselves, are not modelled.  A tensor is given by its numbers in
row-major order together with the shape facts the code looks at.
-/

namespace Zounds.Loss

open Zounds.Conv

/-! ### loss.py: `CategoricalLoss` -/

/-- loss.py:169-175 `_mu_law` of one number (also sample_embedding.py:27-33): `sign(x) * log(1 + n |x|) / log(n + 1)`. -/
noncomputable def muLaw (n : Nat) (x : ℝ) : ℝ := Real.sign x * (Real.log (1 + n * |x|) / Real.log (n + 1))

/-- loss.py:177-180 `_shift_and_scale` of one number. -/
noncomputable def shiftAndScale (n : Nat) (x : ℝ) : ℝ := (x + 1) * (n / 2)

/-- `torch.abs(x).max()` of a tensor that is not empty. -/
def maxAbs (xs : List ℝ) : ℝ := (xs.map fun x => |x|).foldr max 0

/-- loss.py:188-193 `_discretized` of all the numbers of a batch: the maximum is that of the whole batch.  RuntimeError for an empty
batch; a silent one is divided by zero (`none`: all NaN). -/
noncomputable def discretized (n : Nat) (xs : List ℝ) : Except PyErr (Option (List ℝ)) :=
  if xs = [] then .error .runtimeError
  else if maxAbs xs = 0 then .ok none
  else .ok (some (xs.map fun x => shiftAndScale n (muLaw n (x / maxAbs xs))))

/-- loss.py:182-186 `_one_hot` of one number: `log_softmax` of minus 1e12 times the squared distances from 0, 1, …, n. -/
noncomputable def oneHot (n : Nat) (d : ℝ) : List ℝ :=
  let z := (List.range (n + 1)).map fun (c : Nat) => -((d - (c : ℝ)) ^ 2 * 10 ^ 12)
  z.map fun v => v - Real.log ((z.map Real.exp).sum)

/-- loss.py:195-198 `_categorical`: one row of `n + 1` log probabilities per number. -/
noncomputable def categorical (n : Nat) (xs : List ℝ) : Except PyErr (Option (List (List ℝ))) :=
  match discretized n xs with
  | .error e => .error e
  | .ok none => .ok none
  | .ok (some ds) => .ok (some (ds.map (oneHot n)))

/-- What is given as the input: numbers of shape (batch, 1, w), or log probabilities of shape (batch, n + 1, w), row-major. -/
inductive Input
  | raw (xs : List ℝ)
  | logProbs (ps : List ℝ)

/-- `nn.NLLLoss2d` of `inp` viewed as (-1, n + 1, 2, h) and categories `t` viewed as (-1, 2, h): minus the mean of the entries the categories
select. -/
noncomputable def nll (n h : Nat) (inp : List ℝ) (t : List Nat) : ℝ :=
  -mean ((List.range t.length).map fun k => inp.getD ((k / (2 * h) * (n + 1) + t.getD k 0) * (2 * h) + k % (2 * h)) 0)

/-- loss.py:200-212 `CategoricalLoss.forward`; `w` and `w'` are the last dimensions of input and target.  The views need whole numbers of examples
(RuntimeError), the loss as many categories as input positions (ValueError); NaN is no category (IndexError), and NaN among the input gives
NaN (`none`).  `.long()` truncates. -/
noncomputable def categoricalLoss (n : Nat) (inp : Input) (w : Nat) (target : List ℝ) (w' : Nat) : Except PyErr (Option ℝ) :=
  match (match inp with
    | .logProbs ps => .ok (some ps)
    | .raw xs =>
      match categorical n xs with
      | .error e => .error e
      | .ok none => .ok none
      | .ok (some rows) => .ok (some rows.flatten) : Except PyErr (Option (List ℝ))) with
  | .error e => .error e
  | .ok categories =>
    match discretized n target with
    | .error e => .error e
    | .ok ds =>
      let size := match inp with
        | .logProbs ps => ps.length
        | .raw xs => xs.length * (n + 1)
      let h := w / 2
      let h' := w' / 2
      if h = 0 ∨ size % ((n + 1) * (2 * h)) ≠ 0 then .error .runtimeError
      else if h' = 0 ∨ target.length % (2 * h') ≠ 0 then .error .runtimeError
      else if h ≠ h' ∨ size / ((n + 1) * (2 * h)) ≠ target.length / (2 * h') then .error .valueError
      else
        match ds, categories with
        | none, _ => .error .indexError
        | some _, none => .ok none
        | some ds, some ps => .ok (some (nll n h ps (ds.map fun d => ⌊d⌋₊)))

/-! ### sample_embedding.py: `RawSampleEmbedding` -/

/-- sample_embedding.py:35-38 `_shift_and_scale`: unlike the loss's, by `(n + 1) / 2`. -/
noncomputable def embeddingShift (n : Nat) (x : ℝ) : ℝ := (x + 1) * ((n + 1) / 2)

/-- `nn.Linear` without its bias: rows of `cols` numbers, weights of `inFeatures` columns; RuntimeError unless these agree, also for no
rows at all. -/
noncomputable def linear (inFeatures : Nat) (weights : List (List ℝ)) (cols : Nat) (rows : List (List ℝ)) : Except PyErr (List (List ℝ)) :=
  if cols ≠ inFeatures then .error .runtimeError
  else .ok (rows.map fun r => weights.map fun w => (List.zipWith (· * ·) w r).sum)

/-- sample_embedding.py:53-67 `RawSampleEmbedding.forward` up to the linear layer, which is made for `n` inputs (line 18-19) and given the
`n + 1` columns of the one-hot encoding; what follows it is not modelled. -/
noncomputable def rawEmbedding (n : Nat) (weights : List (List ℝ)) (xs : List ℝ) : Except PyErr (List (List ℝ)) :=
  let rows := xs.map fun x =>
    let d := embeddingShift n (muLaw n x)
    let z := (List.range (n + 1)).map fun (c : Nat) => -((d - (c : ℝ)) ^ 2 * 10 ^ 12)
    z.map fun v => Real.exp v / (z.map Real.exp).sum
  linear n weights (n + 1) rows

/-! ### loss.py: Wasserstein losses -/

/-- loss.py:246-248 `LearnedWassersteinLoss.forward`; the critic maps a batch to one number per example. -/
noncomputable def learnedWasserstein {X : Type} (critic : List X → List ℝ) (x : List X) : ℝ := -mean (critic x)

/-- loss.py:259-264 `WassersteinCriticLoss.forward`. -/
noncomputable def wassersteinCritic {X : Type} (critic : List X → List ℝ) (real fake : List X) : ℝ :=
  mean (critic fake) - mean (critic real)

/-- loss.py:292 `alpha * real + (1 - alpha) * fake` of one example: rows (dimension 1) of numbers. -/
noncomputable def interpolate (alpha : ℝ) (real fake : List (List ℝ)) : List (List ℝ) :=
  List.zipWith (List.zipWith fun r f => alpha * r + (1 - alpha) * f) real fake

/-- loss.py:309: `((gradients.norm(2, dim=1) - 1) ** 2).mean() * weight` of examples with rows of `n` numbers: the norm is taken over the rows, for
every column separately. -/
noncomputable def penalty (weight : ℝ) (n : Nat) (grads : List (List (List ℝ))) : ℝ :=
  mean (grads.map fun g => (List.range n).map fun t => (Real.sqrt ((g.map fun r => (r.getD t 0) ^ 2).sum) - 1) ^ 2).flatten * weight

/-- loss.py:276-309 `WassersteinGradientPenaltyLoss.forward`, and wgan.py:61-99 `_gradient_penalty` (the same with weight 10): `alphas` are the random numbers drawn, `grad` gives the critic's gradients at a
batch.  Batches of one shape; different numbers of examples cannot be viewed alike (RuntimeError). -/
noncomputable def gradientPenalty (weight : ℝ) (n : Nat) (grad : List (List (List ℝ)) → List (List (List ℝ))) (alphas : List ℝ)
    (real fake : List (List (List ℝ))) : Except PyErr ℝ :=
  if real.length ≠ fake.length then .error .runtimeError
  else .ok (penalty weight n (grad (List.zipWith (fun a (p : List (List ℝ) × List (List ℝ)) => interpolate a p.1 p.2) alphas (real.zip fake))))

/-! ### util.py: normalizations -/

/-- util.py:112-126 `sample_norm` of one example of shape (channels, w): every column divided by the root of its mean square plus 1e-7. -/
noncomputable def sampleNorm (w : Nat) (x : List (List ℝ)) : List (List ℝ) :=
  x.map fun r => (List.range w).map fun t =>
    r.getD t 0 / Real.sqrt ((x.map fun q => (q.getD t 0) ^ 2).sum * (1 / x.length) + 1 / 10 ^ 7)

/-- util.py:129-135 `batchwise_unit_norm` of one example, flattened. -/
noncomputable def unitNorm (eps : ℝ) (v : List ℝ) : List ℝ :=
  v.map fun a => a / (Real.sqrt ((v.map fun b => b ^ 2).sum) + eps)

/-! ### loss.py: `BandLoss` -/

/-- The Euclidean norm, `torch.norm`. -/
noncomputable def norm2 (v : List ℝ) : ℝ := Real.sqrt ((v.map fun b => b ^ 2).sum)

/-- loss.py:129-141 `BandLoss._transform` of one row; `bands` is the decomposition into frequency bands (dct_transform.py, modelled in Decompose).
First the bands of norm one, one after the other, then the vector of their norms, normalised itself. -/
noncomputable def bandFeatures (bands : List ℝ → List (List ℝ)) (x : List ℝ) : List ℝ × List ℝ :=
  let bs := bands x
  let norms := bs.map norm2
  ((bs.map fun b => b.map fun v => v / (norm2 b + 1 / 10 ^ 8)).flatten, norms.map fun v => v / (norm2 norms + 1 / 10 ^ 8))

/-- `nn.MSELoss` of two batches of rows. -/
noncomputable def mse (xs ys : List (List ℝ)) : ℝ :=
  mean (List.zipWith (fun f g => List.zipWith (fun a b => (a - b) ^ 2) f g) xs ys).flatten

/-- loss.py:143-148 `BandLoss.forward` on a batch of pairs of rows. -/
noncomputable def bandLoss (bands : List ℝ → List (List ℝ)) (weight : ℝ) (batch : List (List ℝ × List ℝ)) : ℝ :=
  let f := batch.map fun p => bandFeatures bands p.1
  let g := batch.map fun p => bandFeatures bands p.2
  mse (f.map Prod.fst) (g.map Prod.fst) + mse (f.map Prod.snd) (g.map Prod.snd) * weight

end Zounds.Loss
