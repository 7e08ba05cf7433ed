import Mathlib.Data.Real.Basic
import Verif.Model.Learn

/-!
# zounds/learn/gan_experiment.py: training with the experiment's settings, the sounds it shows

Networks and optimizers are parameters of Model/Training.lean; here only their steps are counted.
-/

namespace Zounds.Experiment
open Zounds.Learn (rangeStep)

/-! ## Training -/

/-- A Python function of `arity` positional parameters, given an epoch and a minibatch. -/
structure PyFun (R : Type) where
  arity : Nat
  run : Nat → List R → List R

/-- gan_experiment.py:36 `preprocess_minibatch=lambda x: x`. -/
def defaultPrep (R : Type) : PyFun R := ⟨1, fun _ x => x⟩

/-- wgan.py:190-191, 201-202, 221-222: `self.preprocess(epoch, x)` if there is one; called with two arguments. -/
def callPrep {R : Type} (p : Option (PyFun R)) (epoch : Nat) (x : List R) : Except PyErr (List R) :=
  match p with
  | none => .ok x
  | some f => if f.arity = 2 then .ok (f.run epoch x) else .error .typeError

/-- Steps made by the optimizers of critic and generator. -/
structure Steps where
  critic : Nat
  generator : Nat
  deriving DecidableEq, Repr

/-- What happens: the steps made, and the exception that ended training, if any. -/
abbrev Run := Steps × Option PyErr

/-- wgan.py:183-210: `n` iterations of the critic; real and fake examples are preprocessed before the step. -/
def critics {R : Type} (p : Option (PyFun R)) (real fake : List R) (epoch : Nat) : Nat → Steps → Run
  | 0, s => (s, none)
  | n + 1, s =>
    match callPrep p epoch real with
    | .error e => (s, some e)
    | .ok _ =>
      match callPrep p epoch fake with
      | .error e => (s, some e)
      | .ok _ => critics p real fake epoch n { s with critic := s.critic + 1 }

/-- wgan.py:176-244, one batch; without an iteration of the critic `d_loss` is unbound when it is read. -/
def oneBatch {R : Type} (p : Option (PyFun R)) (nCritic : Nat) (real fake : List R) (epoch : Nat) (s : Steps) : Run :=
  match critics p real fake epoch nCritic s with
  | (s', some e) => (s', some e)
  | (s', none) =>
    match callPrep p epoch fake with
    | .error e => (s', some e)
    | .ok _ =>
      let s'' := { s' with generator := s'.generator + 1 }
      if nCritic = 0 then (s'', some .nameError) else (s'', none)

/-- wgan.py:175-244: `k` batches. -/
def manyBatches {R : Type} (p : Option (PyFun R)) (nCritic : Nat) (real fake : List R) (epoch : Nat) : Nat → Steps → Run
  | 0, s => (s, none)
  | k + 1, s =>
    match oneBatch p nCritic real fake epoch s with
    | (s', some e) => (s', some e)
    | (s', none) => manyBatches p nCritic real fake epoch k s'

/-- wgan.py:164-248: the epochs of one call of `train`; `n` examples. -/
def manyEpochs {R : Type} (p : Option (PyFun R)) (epochs nCritic b n : Nat) (real fake : List R) : Nat → Nat → Steps → Run
  | 0, _, s => (s, none)
  | fuel + 1, epoch, s =>
    if epochs ≤ epoch then (s, none)
    else if b = 0 then (s, some .valueError)
    else
      match manyBatches p nCritic real fake epoch (rangeStep n b).length s with
      | (s', some e) => (s', some e)
      | (s', none) => manyEpochs p epochs nCritic b n real fake fuel (epoch + 1) s'

/-- gan_experiment.py:140-184 `run`: the trainer is made with the experiment's settings (checkpoint_epochs is its default of one); one call of `train`
with `n` examples, in the trainer's epoch `epoch`. -/
def train {R : Type} (p : Option (PyFun R)) (epochs nCritic b n : Nat) (real fake : List R) (epoch : Nat) : Run :=
  manyEpochs p epochs nCritic b n real fake 1 epoch ⟨0, 0⟩

/-- wgan.py:148-250 with any `checkpoint_epochs`: `train` goes through as many epochs from the current one on, and not beyond `epochs`. -/
def trainFor {R : Type} (checkpoint : Nat) (p : Option (PyFun R)) (epochs nCritic b n : Nat) (real fake : List R) (epoch : Nat) : Run :=
  manyEpochs p epochs nCritic b n real fake checkpoint epoch ⟨0, 0⟩

/-! ## The sounds shown -/

/-- An array: shape and numbers. -/
structure Nd (α : Type) where
  shape : List Nat
  get : List Nat → α

/-- The index into an array of which the squeezed array's index is `idx`. -/
def unsqueeze : List Nat → List Nat → List Nat
  | [], _ => []
  | n :: ns, idx => if n = 1 then 0 :: unsqueeze ns idx else idx.headD 0 :: unsqueeze ns idx.tail

/-- `ndarray.squeeze()`. -/
def Nd.squeeze {α : Type} (a : Nd α) : Nd α := ⟨a.shape.filter (· ≠ 1), fun idx => a.get (unsqueeze a.shape idx)⟩

/-- gan_experiment.py:101-103 `batch_complete`: keep the generator's samples without axes of size one. -/
def batchComplete {α : Type} (samples : Nd α) : Option (Nd α) := some samples.squeeze

/-- `random.choice(seq)`, with the random index: None and an array without axes have no length, an empty one is an IndexError. -/
def choice {α : Type} (seq : Option (Nd α)) (draw : Nat → Nat) : Except PyErr (Nd α) :=
  match seq with
  | none => .error .typeError
  | some a => match a.shape with
    | [] => .error .typeError
    | 0 :: _ => .error .indexError
    | n :: rest => .ok ⟨rest, fun idx => a.get (draw n :: idx)⟩

/-- gan_experiment.py:105-109 `fake_audio`, before the second of silence is appended (Model/Audio.lean): AudioSamples accepts one or two axes (audiosamples.py:44-52). -/
def fakeAudio {α : Type} (transform : Nd α → Nd α) (fake : Option (Nd α)) (draw : Nat → Nat) : Except PyErr (Nd α) :=
  match choice fake draw with
  | .error e => .error e
  | .ok s => if (transform s).shape.length = 1 ∨ (transform s).shape.length = 2 then .ok (transform s) else .error .valueError

/-- `ndarray.max()` of a list of numbers, `none` for an empty one (ValueError). -/
noncomputable def listMax : List ℝ → Option ℝ
  | [] => none
  | x :: xs => match listMax xs with
    | none => some x
    | some m => some (max x m)

/-- gan_experiment.py:112 `samples / np.abs(samples.max())`: ValueError for no samples; division by zero gives no numbers (`none`). -/
noncomputable def scaled (xs : List ℝ) : Except PyErr (Option (List ℝ)) :=
  match listMax xs with
  | none => .error .valueError
  | some m => .ok (if |m| = 0 then none else some (xs.map (· / |m|)))

end Zounds.Experiment
