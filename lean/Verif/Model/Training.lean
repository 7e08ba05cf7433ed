import Verif.Model.Learn
import Verif.Model.Loss

/-!
# zounds/learn/supervised.py, zounds/learn/wgan.py and zounds/learn/embedding.py: what a training run does to the networks

Networks, losses, gradients and optimizers are parameters: a network has parameters `θ` and buffers `β` (running statistics), `backward` adds a gradient to the
gradients already there, an optimizer step reads the gradients and its own state.  Random draws come from an explicit source.  Moving tensors to a
device and conversions of the number type are not modelled; callbacks do not change the trainer.
-/

namespace Zounds.Training
open Zounds.Learn (rangeStep Report supervisedReport)

/-! ## supervised.py -/

/-- What a `SupervisedTrainer` is given (supervised.py:7-31), and the libraries behind it.  `forward` is the network in training mode: its output, one
value per row, and its buffers afterwards.  `gradient` is what `error.backward()` adds.  `raises` is the error, if any, that the network, the loss or
`backward` raises.  `draw r n k` is `np.random.randint(0, n, k)`. -/
structure Sup (θ β γ σ ρ R T L E : Type) where
  forward : θ → β → List R → List T × β
  loss : List T → List L → E
  gradient : θ → β → List R → List L → γ
  zero : γ
  add : γ → γ → γ
  opt : θ → γ → σ → θ × σ
  raises : θ → β → List R → List L → Option PyErr
  dataPre : List R → List R
  labelPre : List L → List L
  draw : ρ → Nat → Nat → List Nat × ρ

/-- The keyword arguments of `on_batch_complete` (supervised.py:115-120). -/
structure Entry (R T E : Type) where
  epoch : Nat
  batch : Nat
  report : Report E
  samples : List (R × T)
  deriving DecidableEq, Repr

/-- The trainer, its network and its optimizer between two steps; `log` are the calls of the callbacks so far. -/
structure SupState (θ β γ σ ρ R T E : Type) where
  net : θ
  buf : β
  grads : γ
  optim : σ
  rng : ρ
  samples : Option (List (R × T))
  epoch : Nat
  log : List (Entry R T E)
  deriving DecidableEq, Repr

variable {θ β γ σ ρ R T L E : Type}

/-- supervised.py:60-75, the local function `batch`. -/
def runBatch (P : Sup θ β γ σ ρ R T L E) (s : SupState θ β γ σ ρ R T E) (d : List R) (l : List L) (test : Bool) :
    Except PyErr (SupState θ β γ σ ρ R T E × E) :=
  let x := P.dataPre d
  let y := P.labelPre l
  match P.raises s.net s.buf x y with
  | some e => .error e
  | none =>
    let r := P.forward s.net s.buf x
    let e := P.loss r.1 y
    let g := if test then s.grads else P.add s.grads (P.gradient s.net s.buf x y)
    let o := if test then (s.net, s.optim) else P.opt s.net g s.optim
    .ok ({ s with net := o.1, buf := r.2, grads := g, optim := o.2, samples := some (x.zip r.1) }, e)

/-- supervised.py:97-102: `except RuntimeError as e` reads `e.message`, which exceptions do not have. -/
def onRaise : PyErr → PyErr
  | .runtimeError => .attributeError
  | e => e

/-- supervised.py:105-113: the test batch (`None` when nothing is held out): random held out rows, with repetition. -/
def testBatch (P : Sup θ β γ σ ρ R T L E) (b : Nat) (testD : List R) (testL : List L) (k : Nat) (s : SupState θ β γ σ ρ R T E) :
    Except PyErr (SupState θ β γ σ ρ R T E × Option E) :=
  if k = 0 then .ok (s, none)
  else
    let r := P.draw s.rng k b
    match runBatch P { s with rng := r.2 } (r.1.filterMap fun (i : Nat) => testD[i]?) (r.1.filterMap fun (i : Nat) => testL[i]?) true with
    | .error e => .error e
    | .ok (s', e) => .ok (s', some e)

/-- supervised.py:87-120, one round of the batch loop at row `i` of the training data `d`, `l`. -/
def supStep (P : Sup θ β γ σ ρ R T L E) (b : Nat) (testD : List R) (testL : List L) (k : Nat) (d : List R) (l : List L) (epoch : Nat)
    (s : SupState θ β γ σ ρ R T E) (i : Nat) : Except PyErr (SupState θ β γ σ ρ R T E) :=
  match runBatch P { s with grads := P.zero } ((d.drop i).take b) ((l.drop i).take b) false with
  | .error e => .error (onRaise e)
  | .ok (s1, e) =>
    match testBatch P b testD testL k s1 with
    | .error e => .error e
    | .ok (s2, te) =>
      .ok { s2 with log := s2.log ++ [⟨epoch, i, supervisedReport e te, s2.samples.getD []⟩] }

/-- A loop over batches that stops at the first error. -/
def batches {S : Type} (f : S → Nat → Except PyErr S) : S → List Nat → Except PyErr S
  | s, [] => .ok s
  | s, i :: is =>
    match f s i with
    | .error e => .error e
    | .ok s' => batches f s' is

/-- The loop over epochs of supervised.py:77-122 and wgan.py:164-238: `fuel` epochs are left before the checkpoint. `body` runs one epoch. -/
def epochs {S : Type} (total : Nat) (body : Nat → S → Except PyErr S) : Nat → Nat → S → Except PyErr S
  | 0, _, s => .ok s
  | fuel + 1, epoch, s =>
    if total ≤ epoch then .ok s
    else
      match body epoch s with
      | .error e => .error e
      | .ok s' => epochs total body fuel (epoch + 1) s'

/-- supervised.py:85-122, one epoch: the batches `range(0, len(data), batch_size)` (ValueError for a batch size of 0), then `_current_epoch += 1`. -/
def supEpoch (P : Sup θ β γ σ ρ R T L E) (b : Nat) (testD : List R) (testL : List L) (k : Nat) (d : List R) (l : List L) (epoch : Nat)
    (s : SupState θ β γ σ ρ R T E) : Except PyErr (SupState θ β γ σ ρ R T E) :=
  if b = 0 then .error .valueError
  else
    match batches (supStep P b testD testL k d l epoch) s (rangeStep d.length b) with
    | .error e => .error e
    | .ok s' => .ok { s' with epoch := s'.epoch + 1 }

/-- supervised.py:53-129 `SupervisedTrainer.train`: `holdout ≥ 0`; as many labels as rows. -/
def supTrain (P : Sup θ β γ σ ρ R T L E) (total b checkpoint : Nat) (holdout : Rat) (data : List R) (labels : List L)
    (s : SupState θ β γ σ ρ R T E) : Except PyErr (SupState θ β γ σ ρ R T E) :=
  let k := (holdout * data.length).floor.toNat
  epochs total (supEpoch P b (data.take k) (labels.take k) k (data.drop k) (labels.drop k)) checkpoint s.epoch s

/-- supervised.py:41-47 `random_sample`, for the random index `i`. -/
def randomSample (s : SupState θ β γ σ ρ R T E) (i : Nat) : Except PyErr (R × T) :=
  match s.samples with
  | none => .error .runtimeError
  | some l => if l = [] then .error .valueError else match l[i]? with | some p => .ok p | none => .error .indexError

/-! ## wgan.py -/

/-- What a `WassersteinGanTrainer` is given (wgan.py:23-48), and the libraries behind it.  `κ` are the keyword arguments the networks get.  `gen` is
the generator, `dGrad` and `gGrad` are the gradients of the critic's loss (with penalty at the random mixtures `alpha`) and of the generator's
loss with respect to their own parameters, `leak` is the gradient of the generator's loss with respect to the critic's.  `prep` is
`preprocess_minibatch`, the identity if there is none. -/
structure Gan (θg θd γg γd σg σd κ ρn ρt R Z A E : Type) where
  gen : κ → θg → Z → List R
  dGrad : κ → θd → List R → List R → A → γd
  dLoss : κ → θd → List R → List R → A → E
  realMean : κ → θd → List R → E
  gGrad : κ → Nat → θg → θd → Z → γg
  gLoss : κ → θd → List R → E
  leak : κ → θd → List R → γd
  zeroG : γg
  addG : γg → γg → γg
  zeroD : γd
  addD : γd → γd → γd
  optG : θg → γg → σg → θg × σg
  optD : θd → γd → σd → θd × σd
  newOptG : θg → σg
  newOptD : θd → σd
  prep : Nat → List R → List R
  args : Nat → κ
  draw : ρn → Nat → Nat → List Nat × ρn
  normal : ρt → Z × ρt
  alpha : ρt → A × ρt

/-- The keyword arguments of `on_batch_complete` (wgan.py:237-244). -/
structure GanEntry (R E : Type) where
  epoch : Nat
  batch : Nat
  generatorScore : E
  realScore : E
  criticLoss : E
  samples : List R
  deriving DecidableEq, Repr

/-- The trainer and its networks between two steps.  `trainG`, `trainD`: `requires_grad` of the generator's and the critic's parameters. -/
structure GanState (θg θd γg γd σg σd ρn ρt R E : Type) where
  g : θg
  d : θd
  gradG : γg
  gradD : γd
  optimG : Option σg
  optimD : Option σd
  trainG : Bool
  trainD : Bool
  rngNp : ρn
  rngTorch : ρt
  samples : Option (List R)
  epoch : Nat
  log : List (GanEntry R E)
  deriving DecidableEq, Repr

variable {θg θd γg γd σg σd κ ρn ρt Z A : Type}

/-- What the critic's loop leaves behind in local variables: `d_loss` and `real_mean`, unbound before the first iteration. -/
abbrev Scores (E : Type) := Option (E × E)

/-- wgan.py:183-210, one iteration of the critic: zero its gradients, draw real rows, make fakes (detached from the generator), add the gradient of the critic's loss if its parameters
require one, step. -/
def criticIter (G : Gan θg θd γg γd σg σd κ ρn ρt R Z A E) (b : Nat) (data : List R) (epoch : Nat)
    (s : GanState θg θd γg γd σg σd ρn ρt R E) : GanState θg θd γg γd σg σd ρn ρt R E × (E × E) :=
  let s := { s with gradD := G.zeroD }
  let a := G.args epoch
  let i := G.draw s.rngNp data.length b
  let real := G.prep epoch (i.1.filterMap fun (j : Nat) => data[j]?)
  let z := G.normal s.rngTorch
  let fake := G.prep epoch (G.gen a s.g z.1)
  let al := G.alpha z.2
  let grad := if s.trainD then G.addD s.gradD (G.dGrad a s.d real fake al.1) else s.gradD
  let o := G.optD s.d grad (s.optimD.getD (G.newOptD s.d))
  ({ s with d := o.1, optimD := some o.2, gradD := grad, rngNp := i.2, rngTorch := al.2 },
    (G.dLoss a s.d real fake al.1, G.realMean a s.d real))

/-- wgan.py:180-208: the critic's loop. -/
def criticLoop (G : Gan θg θd γg γd σg σd κ ρn ρt R Z A E) (b : Nat) (data : List R) (epoch : Nat) :
    Nat → GanState θg θd γg γd σg σd ρn ρt R E → Scores E → GanState θg θd γg γd σg σd ρn ρt R E × Scores E
  | 0, s, e => (s, e)
  | n + 1, s, _ =>
    let r := criticIter G b data epoch s
    criticLoop G b data epoch n r.1 (some r.2)

/-- wgan.py:212-231: zero both gradients, unfreeze the generator, freeze the critic, one step of the generator; the gradient of its loss is also added to the critic's if that is not frozen. -/
def genStep (G : Gan θg θd γg γd σg σd κ ρn ρt R Z A E) (epoch : Nat)
    (s : GanState θg θd γg γd σg σd ρn ρt R E) : GanState θg θd γg γd σg σd ρn ρt R E × E :=
  let s := { s with gradD := G.zeroD, gradG := G.zeroG }
  let s := { s with trainG := true, trainD := false }
  let a := G.args epoch
  let z := G.normal s.rngTorch
  let fake := G.prep epoch (G.gen a s.g z.1)
  let gradG := if s.trainG then G.addG s.gradG (G.gGrad a epoch s.g s.d z.1) else s.gradG
  let gradD := if s.trainD then G.addD s.gradD (G.leak a s.d fake) else s.gradD
  let o := G.optG s.g gradG (s.optimG.getD (G.newOptG s.g))
  ({ s with g := o.1, optimG := some o.2, gradG := gradG, gradD := gradD, rngTorch := z.2, samples := some fake },
    G.gLoss a s.d fake)

/-- wgan.py:176-244, one round of the batch loop.  Without an iteration of the critic `d_loss` is unbound when it is read for the callbacks: UnboundLocalError, after the generator's step. -/
def ganStep (G : Gan θg θd γg γd σg σd κ ρn ρt R Z A E) (nCritic b : Nat) (data : List R) (epoch : Nat)
    (s : GanState θg θd γg γd σg σd ρn ρt R E) (i : Nat) : Except PyErr (GanState θg θd γg γd σg σd ρn ρt R E) :=
  let s := { s with gradG := G.zeroG, gradD := G.zeroD }
  let s := { s with trainG := false, trainD := true }
  let c := criticLoop G b data epoch nCritic s none
  let r := genStep G epoch c.1
  match c.2 with
  | none => .error .nameError
  | some (dl, rl) =>
    .ok { r.1 with log := r.1.log ++ [⟨epoch, i, r.2, rl, dl, r.1.samples.getD []⟩] }

/-- wgan.py:164-238, one epoch. -/
def ganEpoch (G : Gan θg θd γg γd σg σd κ ρn ρt R Z A E) (nCritic b : Nat) (data : List R) (epoch : Nat)
    (s : GanState θg θd γg γd σg σd ρn ρt R E) : Except PyErr (GanState θg θd γg γd σg σd ρn ρt R E) :=
  if b = 0 then .error .valueError
  else
    match batches (ganStep G nCritic b data epoch) s (rangeStep data.length b) with
    | .error e => .error e
    | .ok s' => .ok { s' with epoch := s'.epoch + 1 }

/-- wgan.py:134-145 `_init_optimizers`: new optimizers if either is missing. -/
def initOptimizers (G : Gan θg θd γg γd σg σd κ ρn ρt R Z A E) (s : GanState θg θd γg γd σg σd ρn ρt R E) :
    GanState θg θd γg γd σg σd ρn ρt R E :=
  match s.optimG, s.optimD with
  | some _, some _ => s
  | _, _ => { s with optimG := some (G.newOptG s.g), optimD := some (G.newOptD s.d) }

/-- wgan.py:151-240 `WassersteinGanTrainer.train`. -/
def ganTrain (G : Gan θg θd γg γd σg σd κ ρn ρt R Z A E) (total nCritic b checkpoint : Nat) (data : List R)
    (s : GanState θg θd γg γd σg σd ρn ρt R E) : Except PyErr (GanState θg θd γg γd σg σd ρn ρt R E) :=
  let s := { s with trainD := true }
  let s := { s with trainG := true }
  let s := initOptimizers G s
  epochs total (ganEpoch G nCritic b data) checkpoint s.epoch s

/-! ## embedding.py -/

/-- What a `TripletEmbeddingTrainer` is given (embedding.py:34-53): `anchor` cuts the anchor out of a wide row; `gradient` is the gradient of the triplet loss for anchors, positives and negatives.  `pick r n` is
the index that `random.choice` takes of `n` elements. -/
structure Tri (θ γ σ ρ R S E : Type) where
  anchor : R → S
  gradient : θ → List S → List S → List S → γ
  loss : θ → List S → List S → List S → E
  zero : γ
  add : γ → γ → γ
  opt : θ → γ → σ → θ × σ
  newOpt : θ → σ
  deformations : Option (List (List S → List R → List S))
  draw : ρ → Nat → Nat → List Nat × ρ
  pick : ρ → Nat → Nat × ρ

/-- The trainer and its network between two steps; the optimizer lives in one call of `train`. -/
structure TriState (θ γ ρ E : Type) where
  net : θ
  grads : γ
  rng : ρ
  epoch : Nat
  log : List (Nat × Nat × E)
  deriving DecidableEq, Repr

variable {S : Type}

/-- `random.choice(seq)`: TypeError for None, IndexError for an empty sequence. -/
def choose {D : Type} (pick : ρ → Nat → Nat × ρ) (r : ρ) (l : Option (List D)) : Except PyErr (D × ρ) :=
  match l with
  | none => .error .typeError
  | some l =>
    match l[(pick r l.length).1]? with
    | none => .error .indexError
    | some d => .ok (d, (pick r l.length).2)

/-- embedding.py:80-83 `_select_batch`: random indices, with repetition, and the anchors of these rows. -/
def selectBatch (P : Tri θ γ σ ρ R S E) (b : Nat) (data : List R) (r : ρ) : List Nat × List S × ρ :=
  let i := P.draw r data.length b
  (i.1, i.1.filterMap fun (j : Nat) => data[j]?.map P.anchor, i.2)

/-- embedding.py:93-122, one round of the loop; `o` is the optimizer's state. -/
def triStep (P : Tri θ γ σ ρ R S E) (b : Nat) (data : List R) (epoch : Nat) (so : TriState θ γ ρ E × σ) (i : Nat) :
    Except PyErr (TriState θ γ ρ E × σ) :=
  let s := { so.1 with grads := P.zero }
  let a := selectBatch P b data s.rng
  let n := selectBatch P b data a.2.2
  match choose P.pick n.2.2 P.deformations with
  | .error e => .error e
  | .ok (f, r) =>
    let pos := f a.2.1 (a.1.filterMap fun (j : Nat) => data[j]?)
    let g := P.add s.grads (P.gradient s.net a.2.1 pos n.2.1)
    let o := P.opt s.net g so.2
    .ok ({ s with net := o.1, grads := g, rng := r, log := s.log ++ [(epoch, i, P.loss s.net a.2.1 pos n.2.1)] }, o.2)

/-- embedding.py:59-70 `_driver`, one epoch: `len(data) // batch_size` rounds. -/
def triEpoch (P : Tri θ γ σ ρ R S E) (b : Nat) (data : List R) (epoch : Nat) (so : TriState θ γ ρ E × σ) :
    Except PyErr (TriState θ γ ρ E × σ) :=
  match batches (triStep P b data epoch) so (List.range (data.length / b)) with
  | .error e => .error e
  | .ok so' => .ok ({ so'.1 with epoch := so'.1.epoch + 1 }, so'.2)

/-- embedding.py:85-124 `TripletEmbeddingTrainer.train`: a new optimizer (91), then the driver's rounds, stopping at `epoch > epochs`. -/
def triTrain (P : Tri θ γ σ ρ R S E) (total b checkpoint : Nat) (data : List R) (s : TriState θ γ ρ E) : Except PyErr (TriState θ γ ρ E) :=
  if b = 0 then .error .zeroDivision
  else
    match epochs (total + 1) (triEpoch P b data) checkpoint s.epoch (s, P.newOpt s.net) with
    | .error e => .error e
    | .ok so => .ok so.1

/-- The distance `nn.TripletMarginLoss` uses (torch `pairwise_distance`, `eps` added to every difference). -/
noncomputable def pairDistance (eps : ℝ) (x y : List ℝ) : ℝ := Real.sqrt ((List.zipWith (fun a b => (a - b + eps) ^ 2) x y).sum)

/-- One row of `nn.TripletMarginLoss(margin)` (embedding.py:51-53). -/
noncomputable def tripletRow (eps margin : ℝ) (t : List ℝ × List ℝ × List ℝ) : ℝ :=
  max (pairDistance eps t.1 t.2.1 - pairDistance eps t.1 t.2.2 + margin) 0

/-- `nn.TripletMarginLoss(margin)` of a batch (embedding.py:53, 114) with embeddings normalized to unit norm (72-78, `unitEps` is the small number in `batchwise_unit_norm`). -/
noncomputable def tripletLoss (unitEps eps margin : ℝ) (ts : List (List ℝ × List ℝ × List ℝ)) : ℝ :=
  (ts.map fun t => tripletRow eps margin (Loss.unitNorm unitEps t.1, Loss.unitNorm unitEps t.2.1, Loss.unitNorm unitEps t.2.2)).sum / ts.length

end Zounds.Training
