import Verif.Model.Time
import Mathlib.Analysis.SpecialFunctions.Log.Basic
import Mathlib.Analysis.SpecialFunctions.Trigonometric.DerivHyp
import Mathlib.Analysis.SpecialFunctions.Sigmoid
import Mathlib.Algebra.Field.Basic

/-!
# Convolutional building blocks: zounds/learn/{spectral,loss,multiresolution,gated,util}.py

Signals are lists of real numbers; a torch tensor of shape (batch, 1, n) is a list of signals, handled one by one.  Torch's own
operations are modelled from its documentation: `conv1d` is cross-correlation with zero padding, `conv_transpose1d` adds a copy
of the filter for every input sample and cuts the padding off, `avg_pool1d` averages over the window, padding included.  Rounding
to float32 is not modelled.
-/

namespace Zounds.Conv

/-- The signal with `p` zeros on both sides (torch's `padding=p`). -/
def padded (p : Nat) (x : List ℝ) : List ℝ := List.replicate p 0 ++ x ++ List.replicate p 0

/-- `F.conv1d` with one input channel and one filter (used at spectral.py:67-71, loss.py:88-89, sinclayer.py:87): RuntimeError when the
filter is longer than the padded signal or the stride is zero. -/
def conv1d (w x : List ℝ) (stride p : Nat) : Except PyErr (List ℝ) :=
  if stride = 0 ∨ x.length + 2 * p < w.length then .error .runtimeError
  else .ok ((List.range ((x.length + 2 * p - w.length) / stride + 1)).map fun t =>
    ((List.range w.length).map fun j => w.getD j 0 * (padded p x).getD (t * stride + j) 0).sum)

/-- `[f(x) for x in xs]`, stopping at the first exception. -/
def mapE {β γ : Type} (f : β → Except PyErr γ) : List β → Except PyErr (List γ)
  | [] => .ok []
  | b :: bs =>
    match f b with
    | .error e => .error e
    | .ok c =>
      match mapE f bs with
      | .error e => .error e
      | .ok cs => .ok (c :: cs)

/-- spectral.py:67-71 `FilterBank.convolve` of one signal: one row per filter, padding `kernel_size // 2`.  `k` is the kernel size. -/
def convolve (bank : List (List ℝ)) (k : Nat) (x : List ℝ) : Except PyErr (List (List ℝ)) :=
  mapE (fun w => conv1d w x 1 (k / 2)) bank

/-- spectral.py:73-76 `FilterBank.transposed_convolve` of one example: rows `ys` of `m` samples, filters of `k` taps; the copies of the
filters added up, `k // 2` samples cut off on both sides.  RuntimeError if nothing is left. -/
def transposedConvolve (bank : List (List ℝ)) (k m : Nat) (ys : List (List ℝ)) : Except PyErr (List ℝ) :=
  let p := k / 2
  if m + k ≤ 1 + 2 * p then .error .runtimeError
  else .ok ((List.range (m + k - 1 - 2 * p)).map fun i =>
    (List.zipWith (fun w y => ((List.range m).map fun t =>
      if t ≤ i + p ∧ i + p - t < k then y.getD t 0 * w.getD (i + p - t) 0 else 0).sum) bank ys).sum)

/-- `F.relu`. -/
noncomputable def relu (v : ℝ) : ℝ := max v 0

/-- spectral.py:78-81 `FilterBank.log_magnitude`: `20 * log10(1 + relu(x))`. -/
noncomputable def logMagnitude (v : ℝ) : ℝ := 20 * (Real.log (1 + relu v) / Real.log 10)

/-- `F.avg_pool1d(x, k, s, padding=k // 2)` (spectral.py:83-85 `temporal_pooling`); zero kernel or stride: RuntimeError. -/
noncomputable def temporalPooling (k s : Nat) (x : List ℝ) : Except PyErr (List ℝ) :=
  if k = 0 ∨ s = 0 ∨ x.length + 2 * (k / 2) < k then .error .runtimeError
  else .ok ((List.range ((x.length + 2 * (k / 2) - k) / s + 1)).map fun t =>
    ((List.range k).map fun j => (padded (k / 2) x).getD (t * s + j) 0).sum / k)

/-- The average of a list of numbers (`x.mean`). -/
noncomputable def mean (v : List ℝ) : ℝ := v.sum / v.length

/-- torch's `x.std`, unbiased; not a number for fewer than two numbers. -/
noncomputable def std (v : List ℝ) : Option ℝ :=
  if v.length ≤ 1 then none
  else some (Real.sqrt ((v.map fun a => (a - mean v) ^ 2).sum / ((v.length : ℝ) - 1)))

/-- util.py:138-144 `batchwise_mean_std_normalization` of one example (flattened); `none`: every number is NaN. -/
noncomputable def meanStdNormalize (eps : ℝ) (v : List ℝ) : Option (List ℝ) :=
  let c := v.map fun a => a - mean v
  match std c with
  | none => none
  | some s => some (c.map fun a => a / (s + eps))

/-- spectral.py:109-117 `FilterBank.forward` of one signal, without normalization: `convolve`, `log_magnitude`, the first `nsamples`
samples of every band. -/
noncomputable def forwardPlain (bank : List (List ℝ)) (k : Nat) (x : List ℝ) : Except PyErr (List (List ℝ)) :=
  match convolve bank k x with
  | .error e => .error e
  | .ok rows => .ok (rows.map fun r => (r.map logMagnitude).take x.length)

/-- spectral.py:109-117 `FilterBank.forward` with normalization (over all bands and samples together, before the bands are cut to
`nsamples`); rows of `m` samples are put back from the flattened example.  `none`: NaN. -/
noncomputable def forwardNormalized (eps : ℝ) (bank : List (List ℝ)) (k : Nat) (x : List ℝ) : Except PyErr (Option (List (List ℝ))) :=
  match convolve bank k x with
  | .error e => .error e
  | .ok rows =>
    let m := x.length + 2 * (k / 2) - k + 1
    .ok ((meanStdNormalize eps (rows.map fun r => r.map logMagnitude).flatten).map fun flat =>
      (List.range rows.length).map fun b => ((flat.drop (b * m)).take m).take x.length)

/-- spectral.py:87-107 `FilterBank.transform` of one-channel audio: per band the pooled log magnitudes, transposed to one row per frame, and the
time dimension the rows are labelled with (`freq` is the audio's sample period in picoseconds).  A single band or a single frame is
squeezed away, after which there are more dimensions than axes (ValueError). -/
noncomputable def transform (bank : List (List ℝ)) (k : Nat) (pk ps : Nat) (freq : Int) (x : List ℝ) :
    Except PyErr (List (List ℝ) × Int × Int) :=
  match convolve bank k x with
  | .error e => .error e
  | .ok rows =>
    match mapE (fun r => temporalPooling pk ps (r.map logMagnitude)) rows with
    | .error e => .error e
    | .ok pooled =>
      let frames := (pooled.headD []).length
      if bank.length = 1 ∨ frames = 1 then .error .valueError
      else .ok ((List.range frames).map (fun t => pooled.map fun r => r.getD t 0), freq * ps, freq * pk)

/-! ### loss.py: `PerceptualLoss` -/

/-- loss.py:84-101 `_transform` of one example: filters of `basis` taps, stride `lap`, padding `basis`; rectified, compressed, weighted.
Bands one after the other (the `view` at loss.py:107-108). -/
noncomputable def perceptual (bank : List (List ℝ)) (basis lap : Nat) (logFactor : ℝ) (weights : Option (List ℝ)) (x : List ℝ) :
    Except PyErr (List ℝ) :=
  match mapE (fun w => conv1d w x lap basis) bank with
  | .error e => .error e
  | .ok rows =>
    let logs := rows.map fun r => r.map fun v => Real.log (1 + relu v * logFactor)
    match weights with
    | none => .ok logs.flatten
    | some ws => .ok (List.zipWith (fun w r => r.map fun v => v * w) ws logs).flatten

/-- `F.cosine_similarity` with its default `eps`: `x·y / max(‖x‖ ‖y‖, eps)`. -/
noncomputable def cosine (eps : ℝ) (x y : List ℝ) : ℝ :=
  (List.zipWith (· * ·) x y).sum /
    max (Real.sqrt ((x.map fun a => a ^ 2).sum) * Real.sqrt ((y.map fun a => a ^ 2).sum)) eps

/-- loss.py:103-115 `PerceptualLoss.forward` on a batch of pairs (input, target): minus the mean cosine similarity of the features, or
their mean squared difference.  Different numbers of features: RuntimeError. -/
noncomputable def perceptualLoss (cos : Bool) (eps : ℝ) (bank : List (List ℝ)) (basis lap : Nat) (logFactor : ℝ)
    (weights : Option (List ℝ)) (batch : List (List ℝ × List ℝ)) : Except PyErr ℝ :=
  match mapE (fun p => perceptual bank basis lap logFactor weights p.1) batch,
      mapE (fun p => perceptual bank basis lap logFactor weights p.2) batch with
  | .error e, _ => .error e
  | _, .error e => .error e
  | .ok fs, .ok gs =>
    if fs.map List.length ≠ gs.map List.length then .error .runtimeError
    else if cos then .ok (-mean (List.zipWith (cosine eps) fs gs))
    else .ok (mean (List.zipWith (fun f g => List.zipWith (fun a b => (a - b) ^ 2) f g) fs gs).flatten)

/-! ### multiresolution.py, gated.py, sinclayer.py, util.py -/

/-- multiresolution.py:22-41 `MultiResolutionBlock`: the number of samples each layer makes of `n` samples: kernel `k`, stride `s`, padding
`k // 2` unless one is given (torch's formula for convolutions). -/
def multiResolutionSizes (kernels : List Nat) (s : Nat) (padding : Option Nat) (n : Nat) : List Nat :=
  kernels.map fun k =>
    let p := match padding with
      | none => k / 2
      | some p => p
    (n + 2 * p - k) / s + 1

/-- util.py:147-148 `feature_map_size`: the division is a true division on Python 3. -/
def featureMapSize (inp kernel stride padding : Int) : Rat := ((inp - kernel + 2 * padding : Int) : Rat) / stride + 1

/-- gated.py:11-12, 49-55: output of a gated layer from the two pre-activations, with the default activation functions. -/
noncomputable def gate (c g : ℝ) : ℝ := Real.tanh c * Real.sigmoid g

/-- sinclayer.py:54-58: the two parameters of a band as they are initialised. -/
noncomputable def sincInit (sr startHz stopHz : ℝ) : ℝ × ℝ := (sr / startHz, sr / stopHz)

/-- sinclayer.py:66-67 `_start_frequencies` of one band. -/
noncomputable def sincStart (p : ℝ × ℝ) : ℝ := |p.1|

/-- sinclayer.py:69-71 `_stop_frequencies` of one band. -/
noncomputable def sincStop (p : ℝ × ℝ) : ℝ := sincStart p + |p.2 - sincStart p|

end Zounds.Conv
