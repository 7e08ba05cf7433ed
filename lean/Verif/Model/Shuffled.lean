import Verif.Model.Reservoir

/-!
# zounds/learn/random_samples.py `ShuffledSamples`, zounds/learn/graph.py `learning_pipeline`
-/

namespace Zounds.Shuffled
open Zounds.Reservoir

/-- random_samples.py:137-140: what `get` gives is emitted. -/
def emit {β : Type} : Except PyErr β → Except PyErr (List β)
  | .error e => .error e
  | .ok x => .ok [x]

/-- random_samples.py:123-140 `ShuffledSamples` (`multiplexed=False`), the only node of `learning_pipeline` (graph.py:7-17) after the samples: every chunk is added to
the reservoir (with the row numbers drawn for it), and nothing is emitted (NotEnoughData) before the last chunk, with which `_finalized` is set; then the
content of the reservoir.  The list is what the node emits.  Plain arrays, or arrays with units with at least one row. -/
def node {α : Type} (z : α) (res : Res α) : List (List α × List Int) → Except PyErr (List (List α))
  | [] => .ok []
  | (chunk, draw) :: rest =>
    match res.add z chunk draw with
    | (_, .error e) => .error e
    | (res', .ok ()) =>
      if rest.isEmpty then emit res'.get else node z res' rest

/-- `ShuffledSamples(nsamples)` over a whole stream. -/
def shuffled {α : Type} (z : α) (nsamples : Int) (cs : List (List α × List Int)) : Except PyErr (List (List α)) :=
  match Res.new α nsamples with
  | .error e => .error e
  | .ok r => node z r cs

end Zounds.Shuffled
