import Verif.Model.Loss
import Mathlib.Algebra.BigOperators.Ring.Finset

/-!
# Layers of networks: zounds/learn/util.py `ConvLayer`, `Conv1d`, `ConvTranspose1d`, `Conv2d`, `sample_norm`, `model_hash`, `gradients`;
zounds/learn/wgan.py `_debug_network_gradient`

A tensor of shape (batch, channels, samples) is a list of examples, an example a list of channels of equal length.  Numbers are real:
rounding to float32 is not modelled.  Torch's own operations follow its documentation: convolution is cross-correlation with zero
padding, the transposed convolution adds a copy of the kernel for every input sample and cuts the padding off, batch normalization uses
the statistics of the batch while training (biased variance; the running variance takes the unbiased one) and the running ones otherwise.
-/

open Zounds.Loss (sampleNorm)

namespace Zounds.Blocks

/-- The hyperparameters of a convolution: util.py:152-175. -/
structure Spec where
  /-- `kernel_size` -/
  kernel : Nat
  /-- `stride` -/
  stride : Nat
  /-- `padding` -/
  padding : Nat
  /-- `dilation` -/
  dilation : Nat
  deriving DecidableEq, Repr

/-- torch refuses kernels, strides and dilations of zero (RuntimeError). -/
def Spec.Legal (c : Spec) : Prop := 0 < c.kernel ∧ 0 < c.stride ∧ 0 < c.dilation

instance (c : Spec) : Decidable c.Legal := by unfold Spec.Legal; infer_instance

/-- The number of samples a dilated kernel extends over. -/
def Spec.extent (c : Spec) : Nat := c.dilation * (c.kernel - 1) + 1

/-- The number of samples `nn.Conv1d` makes of `n` (util.py:170-177 with `layer_type = nn.Conv1d`, called at :209).  Inputs have a sample. -/
def convLen (c : Spec) (n : Nat) : Except PyErr Nat :=
  if c.Legal ∧ 0 < n ∧ c.extent ≤ n + 2 * c.padding then .ok ((n + 2 * c.padding - c.extent) / c.stride + 1)
  else .error .runtimeError

/-- The number of samples `nn.ConvTranspose1d` makes of `m` (util.py:170-177 with `layer_type = nn.ConvTranspose1d`; no `output_padding`). -/
def convTLen (c : Spec) (m : Nat) : Except PyErr Nat :=
  if c.Legal ∧ 0 < m ∧ 2 * c.padding < (m - 1) * c.stride + c.extent then .ok ((m - 1) * c.stride + c.extent - 2 * c.padding)
  else .error .runtimeError

/-- An encoder: layers one after the other. -/
def encodeLen : List Spec → Nat → Except PyErr Nat
  | [], n => .ok n
  | c :: cs, n => (convLen c n).bind (encodeLen cs)

/-- The decoder that mirrors the encoder: its transposed layers in reverse order. -/
def decodeLen : List Spec → Nat → Except PyErr Nat
  | [], n => .ok n
  | c :: cs, n => (decodeLen cs n).bind (convTLen c)

/-- Sample `i` of channel `c`. -/
def at2 (x : List (List ℝ)) (c i : Nat) : ℝ := (x.getD c []).getD i 0

/-- The same in the padded signal. -/
def atPad (p : Nat) (x : List (List ℝ)) (c i : Nat) : ℝ := if i < p then 0 else at2 x c (i - p)

/-- `nn.Conv1d(inC, outC, ..., bias=False)` of one example of shape (inC, n); `w o c j` is the weight tensor (outC, inC, kernel). -/
noncomputable def conv (s : Spec) (inC outC : Nat) (w : Nat → Nat → Nat → ℝ) (n : Nat) (x : List (List ℝ)) : Except PyErr (List (List ℝ)) :=
  if x.length = inC then
    (convLen s n).map fun m => (List.range outC).map fun o => (List.range m).map fun t =>
      ∑ c ∈ Finset.range inC, ∑ j ∈ Finset.range s.kernel, w o c j * atPad s.padding x c (t * s.stride + j * s.dilation)
  else .error .runtimeError

/-- `nn.ConvTranspose1d(inC, outC, ..., bias=False)` of one example of shape (inC, m); the weight tensor is (inC, outC, kernel). -/
noncomputable def convT (s : Spec) (inC outC : Nat) (w : Nat → Nat → Nat → ℝ) (m : Nat) (y : List (List ℝ)) : Except PyErr (List (List ℝ)) :=
  if y.length = inC then
    (convTLen s m).map fun n => (List.range outC).map fun c => (List.range n).map fun i =>
      ∑ o ∈ Finset.range inC, ∑ t ∈ Finset.range m, ∑ j ∈ Finset.range s.kernel,
        if t * s.stride + j * s.dilation = i + s.padding then at2 y o t * w o c j else 0
  else .error .runtimeError

/-- The state of `nn.BatchNorm1d`: the running mean and variance, the factor and the shift of every channel. -/
structure Norm where
  /-- running mean -/
  mean : Nat → ℝ
  /-- running variance -/
  var : Nat → ℝ
  /-- factor (`weight`) -/
  weight : Nat → ℝ
  /-- shift (`bias`) -/
  bias : Nat → ℝ

/-- A `ConvLayer` of one dimension: util.py:150-186. -/
structure Layer where
  /-- `layer_type` is `nn.ConvTranspose1d` -/
  transposed : Bool
  /-- hyperparameters -/
  spec : Spec
  /-- `in_channels` -/
  inC : Nat
  /-- `out_channels` -/
  outC : Nat
  /-- the weights -/
  w : Nat → Nat → Nat → ℝ
  /-- `sample_norm` -/
  sampleNorm : Bool
  /-- `bn`: `None` without `batch_norm` -/
  bn : Option Norm
  /-- `activation`, a function of single numbers here -/
  activation : Option (ℝ → ℝ)
  /-- `dropout` -/
  dropout : Bool

/-- `self.l1(x)` for one example (util.py:209). -/
noncomputable def Layer.l1 (L : Layer) (n : Nat) (x : List (List ℝ)) : Except PyErr (List (List ℝ)) :=
  if L.transposed then convT L.spec L.inC L.outC L.w n x else conv L.spec L.inC L.outC L.w n x

/-- The number of samples `self.l1` makes of `n`. -/
def Layer.len (L : Layer) (n : Nat) : Except PyErr Nat := if L.transposed then convTLen L.spec n else convLen L.spec n

/-- The values of channel `c` in all examples. -/
def channel (batch : List (List (List ℝ))) (c : Nat) : List ℝ := (batch.map fun x => x.getD c []).flatten

/-- The biased variance. -/
noncomputable def variance (v : List ℝ) : ℝ := Conv.mean (v.map fun a => (a - Conv.mean v) ^ 2)

/-- Channel `c` of an example, shifted and scaled: `(x - mean) / sqrt(var + 1e-5) * weight + bias`. -/
noncomputable def normalize (mean var weight bias : ℝ) (r : List ℝ) : List ℝ :=
  r.map fun a => (a - mean) / Real.sqrt (var + 1 / 10 ^ 5) * weight + bias

/-- `nn.BatchNorm1d` of a batch with `m` samples per channel: the new state and the result (util.py:213-214).  While training a single value per
channel is refused with ValueError, and the running statistics move by a tenth towards those of the batch. -/
noncomputable def batchNorm (b : Norm) (training : Bool) (m : Nat) (batch : List (List (List ℝ))) :
    Except PyErr (Norm × List (List (List ℝ))) :=
  if training then
    if batch.length * m = 1 then .error .valueError
    else
      let mu (c : Nat) := Conv.mean (channel batch c)
      let va (c : Nat) := variance (channel batch c)
      .ok ({ b with
              mean := fun c => 9 / 10 * b.mean c + 1 / 10 * mu c
              var := fun c => 9 / 10 * b.var c + 1 / 10 * (va c * ((batch.length * m : Nat) / ((batch.length * m : Nat) - 1))) },
        batch.map fun x => x.mapIdx fun c r => normalize (mu c) (va c) (b.weight c) (b.bias c) r)
  else .ok (b, batch.map fun x => x.mapIdx fun c r => normalize (b.mean c) (b.var c) (b.weight c) (b.bias c) r)

/-- `F.dropout(x, 0.2, training)`: while training the numbers that are kept are divided by 0.8 (util.py:219-220); `keep` are the random choices. -/
noncomputable def applyDropout (training : Bool) (keep : Nat → Nat → Nat → Bool) (batch : List (List (List ℝ))) : List (List (List ℝ)) :=
  if training then batch.mapIdx fun e x => x.mapIdx fun c r => r.mapIdx fun i a => if keep e c i then a / (4 / 5) else 0
  else batch

/-- The normalization step of a layer (util.py:211-214): `sample_norm` comes first, batch normalization only without it. -/
noncomputable def Layer.norm (L : Layer) (training : Bool) (m : Nat) (batch : List (List (List ℝ))) :
    Except PyErr (Layer × List (List (List ℝ))) :=
  if L.sampleNorm then .ok (L, batch.map (Loss.sampleNorm m))
  else match L.bn with
    | none => .ok (L, batch)
    | some b => (batchNorm b training m batch).map fun r => ({ L with bn := some r.1 }, r.2)

/-- util.py:216-217. -/
def Layer.activate (L : Layer) (batch : List (List (List ℝ))) : List (List (List ℝ)) :=
  match L.activation with
  | none => batch
  | some f => batch.map fun x => x.map fun r => r.map f

/-- util.py:208-221 `ConvLayer.forward` of a batch of examples of shape (channels, n): the layer with its new running statistics, and the result. -/
noncomputable def Layer.forward (L : Layer) (training : Bool) (keep : Nat → Nat → Nat → Bool) (n : Nat) (batch : List (List (List ℝ))) :
    Except PyErr (Layer × List (List (List ℝ))) :=
  match Conv.mapE (L.l1 n) batch with
  | .error e => .error e
  | .ok ys =>
    match L.len n with
    | .error e => .error e
    | .ok m =>
      match L.norm training m ys with
      | .error e => .error e
      | .ok (L', zs) => .ok (L', if L.dropout then applyDropout training keep (L'.activate zs) else L'.activate zs)

/-! ### two-dimensional layers: `sample_norm` of a tensor of shape (N, C, H, W) -/

/-- util.py:112-126 `sample_norm` of a tensor of four dimensions, `x e c h v`: the sums over the feature maps, shape (N, H, W), are viewed as
(N*H, 1, W), which is then aligned with the last three dimensions of the input.  Result: the shape and the numbers. -/
noncomputable def sampleNorm4 (N C H W : Nat) (x : Nat → Nat → Nat → Nat → ℝ) :
    Except PyErr ((Nat × Nat × Nat × Nat) × (Nat → Nat → Nat → Nat → ℝ)) :=
  let s (e h v : Nat) : ℝ := Real.sqrt ((∑ c ∈ Finset.range C, x e c h v ^ 2) * (1 / C) + 1 / 10 ^ 7)
  let viewed (q v : Nat) : ℝ := s (q / H) (q % H) v
  if C = N * H then .ok ((N, C, H, W), fun e c h v => x e c h v / viewed c v)
  else if N * H = 1 then .ok ((N, C, H, W), fun e c h v => x e c h v / viewed 0 v)
  else if C = 1 then .ok ((N, N * H, H, W), fun e c h v => x e 0 h v / viewed c v)
  else .error .runtimeError

/-! ### `model_hash`, `gradients` -/

/-- What `hashlib` takes: bytes, or an object with a buffer (an array). -/
inductive Hashed
  | text (s : String)
  | bytes (b : List UInt8)

/-- `h.update(x)` on Python 3. -/
def update (h : List UInt8) : Hashed → Except PyErr (List UInt8)
  | .text _ => .error .typeError
  | .bytes b => .ok (h ++ b)

/-- util.py:55-60 `model_hash`: the digest of what has been fed. -/
def modelHash (digest : List UInt8 → String) (repr : String) (params : List (List UInt8)) : Except PyErr String :=
  ((update [] (.text repr)).bind fun h => params.foldlM (fun h p => update h (.bytes p)) h).map digest

/-- A tensor for the purpose of `t[0]`: its shape. -/
def firstOf (shape : List Nat) : Except PyErr Unit :=
  match shape with
  | [] => .error .indexError
  | 0 :: _ => .error .indexError
  | _ :: _ => .ok ()

/-- util.py:63-68 `gradients`, wgan.py:117-124 `_debug_network_gradient`: `g.min().data[0]` of every parameter that has a gradient, where
`g.min()` has no dimensions.  The parameters are given by whether they have a gradient; the names reported. -/
def gradients : List (String × Bool) → Except PyErr (List String)
  | [] => .ok []
  | (_, false) :: ps => gradients ps
  | (n, true) :: ps => (firstOf []).bind fun _ => (gradients ps).map (n :: ·)

/-- What happens to gradients in a batch of `WassersteinGanTrainer.train`. -/
inductive Event
  | zeroG
  | zeroD
  | stepD
  | stepG
  deriving DecidableEq, Repr

/-- wgan.py:176-231: the order of these in one batch with `n` iterations of the critic. -/
def batchEvents (n : Nat) : List Event :=
  [.zeroG, .zeroD] ++ (List.replicate n [Event.zeroD, .stepD]).flatten ++ [.zeroD, .zeroG, .stepG]

/-- Whether the parameters of the networks have gradients, and how many steps were made. -/
structure Grads where
  /-- the generator's parameters have gradients -/
  g : Bool
  /-- the critic's parameters have gradients -/
  d : Bool
  /-- steps of the generator's optimizer -/
  stepsG : Nat
  /-- steps of the critic's optimizer -/
  stepsD : Nat
  deriving DecidableEq, Repr

/-- wgan.py:126-132 `zero_generator_gradients`, `zero_discriminator_gradients` (with :117-124), :209-210, :229-230.  `dropped`: `zero_grad` sets gradients to
`None` (torch 2) instead of zero.  Each network has a parameter. -/
def event (debug dropped : Bool) (s : Grads) : Event → Except PyErr Grads
  | .zeroG => (if debug then gradients [("p", s.g)] else .ok []).map fun _ => { s with g := s.g && !dropped }
  | .zeroD => (if debug then gradients [("p", s.d)] else .ok []).map fun _ => { s with d := s.d && !dropped }
  | .stepD => .ok { s with d := true, stepsD := s.stepsD + 1 }
  | .stepG => .ok { s with g := true, stepsG := s.stepsG + 1 }

/-- A sequence of these: where it ends, and the exception if there is one. -/
def events (debug dropped : Bool) : Grads → List Event → Grads × Option PyErr
  | s, [] => (s, none)
  | s, e :: es =>
    match event debug dropped s e with
    | .error x => (s, some x)
    | .ok s' => events debug dropped s' es

end Zounds.Blocks
