import Verif.Model.Base

/-!
# zounds/learn/random_samples.py

Rows are values of an arbitrary type.  Every call to numpy's random number generator is an explicit argument of the model, so a
theorem that quantifies over it holds for every sequence of draws.
-/

namespace Zounds.Reservoir

/-- numpy fancy assignment `arr[indices, ...] = rows` with indices already in range: left to right, so that the last of several
equal indices wins. -/
def assign {α : Type} : List α → List Nat → List α → List α
  | arr, i :: is, x :: xs => assign (arr.set i x) is xs
  | arr, _, _ => arr

/-! ## ReservoirSampler (random_samples.py:223-279) -/

/-- random_samples.py:231-237: `_r` (already allocated; before the first chunk it is all `z`) and `_index`. -/
structure Sampler (α : Type) where
  r : List α
  index : Nat
  deriving Repr, DecidableEq

/-- random_samples.py:231-237 and 242-244: `nsamples` rows of zeros. -/
def Sampler.init {α : Type} (nsamples : Nat) (z : α) : Sampler α := ⟨List.replicate nsamples z, 0⟩

/-- random_samples.py:245-250: fill the free rows first. -/
def fill {α : Type} (nsamples : Nat) (s : Sampler α) (data : List α) : Sampler α × List α :=
  if s.index < nsamples then
    let diff := nsamples - s.index
    let head := data.take diff
    (⟨s.r.take s.index ++ head ++ s.r.drop (s.index + head.length), s.index + head.length⟩, data.drop diff)
  else (s, data)

/-- random_samples.py:260-266: `draw k` is the k-th number of `random_integers(0, _index, size=remaining)`.  Accepted draws
are those below `nsamples`; the rows written are the *first* `len(indices)` rows of the remainder. -/
def replace {α : Type} (nsamples : Nat) (s : Sampler α) (rest : List α) (draw : Nat → Nat) : Sampler α :=
  if rest.length = 0 then s
  else
    let indices := ((List.range rest.length).map draw).filter (fun i => decide (i < nsamples))
    ⟨assign s.r indices (rest.take indices.length), s.index + rest.length⟩

/-- random_samples.py:241-266 `_enqueue`. -/
def enqueue {α : Type} (nsamples : Nat) (s : Sampler α) (data : List α) (draw : Nat → Nat) : Sampler α :=
  let f := fill nsamples s data
  replace nsamples f.1 f.2 draw

/-- A stream of chunks, each with the random numbers drawn for it. -/
def feed {α : Type} (nsamples : Nat) : Sampler α → List (List α × (Nat → Nat)) → Sampler α
  | s, [] => s
  | s, (c, d) :: cs => feed nsamples (enqueue nsamples s c d) cs

/-- random_samples.py:268-279 `_dequeue` after the last chunk; `shuffle` is the permutation chosen by `np.random.shuffle`. -/
def dequeue {α : Type} (nsamples : Nat) (s : Sampler α) (shuffle : List α → List α) : List α :=
  if s.index ≤ nsamples then shuffle (s.r.take s.index) else s.r

/-- random_samples.py:260-264: the rows left over when the free rows are filled cannot be written: line 264 indexes them with a list of
`len(indices)` numbers, and an ArrayWithUnits (`units`) does not accept an empty list (axis.py:299-304 takes the first of the classes of its elements). -/
def refused (units : Bool) (nsamples left : Nat) (draw : Nat → Nat) : Bool :=
  units && decide (left ≠ 0) && (((List.range left).map draw).filter (fun i => decide (i < nsamples))).isEmpty

/-- random_samples.py:241-266 `_enqueue` of a chunk of a plain array or of an ArrayWithUnits (`units`). -/
def enqueueOf {α : Type} (units : Bool) (nsamples : Nat) (s : Sampler α) (data : List α) (draw : Nat → Nat) : Except PyErr (Sampler α) :=
  if refused units nsamples (fill nsamples s data).2.length draw then .error .indexError else .ok (enqueue nsamples s data draw)

/-- A stream of chunks, up to the first error. -/
def feedOf {α : Type} (units : Bool) (nsamples : Nat) : Sampler α → List (List α × (Nat → Nat)) → Except PyErr (Sampler α)
  | s, [] => .ok s
  | s, (c, d) :: cs =>
    match enqueueOf units nsamples s c d with
    | .error e => .error e
    | .ok s' => feedOf units nsamples s' cs

/-- random_samples.py:223-279 `ReservoirSampler` over a whole stream; without any chunk `_r` is None, which cannot be indexed. -/
def sample {α : Type} (units : Bool) (nsamples : Nat) (z : α) (cs : List (List α × (Nat → Nat))) (shuffle : List α → List α) :
    Except PyErr (List α) :=
  if cs.isEmpty then .error .typeError
  else
    match feedOf units nsamples (Sampler.init nsamples z) cs with
    | .error e => .error e
    | .ok s => .ok (dequeue nsamples s shuffle)

/-! ## Reservoir (random_samples.py:8-83) -/

/-- random_samples.py:18-20: `arr` (`none` before the first `add`) and the set of occupied row numbers, as a list without
duplicates. -/
structure Res (α : Type) where
  nsamples : Nat
  arr : Option (List α)
  indices : List Int
  deriving Repr, DecidableEq

/-- random_samples.py:9-22 `Reservoir.__init__` with an `int` argument. -/
def Res.new (α : Type) (nsamples : Int) : Except PyErr (Res α) :=
  if nsamples ≤ 0 then .error .valueError else .ok ⟨nsamples.toNat, none, []⟩

/-- `set.update` (random_samples.py:56). -/
def setUpdate : List Int → List Int → List Int
  | s, [] => s
  | s, i :: is => setUpdate (if i ∈ s then s else s ++ [i]) is

/-- numpy index normalisation: negative indices count from the end; out of range raises IndexError before anything is
written. -/
def normIndex (n : Nat) (i : Int) : Option Nat :=
  if 0 ≤ i ∧ i < n then some i.toNat
  else if -(n : Int) ≤ i ∧ i < 0 then some (i + n).toNat
  else none

/-- All indices normalised, or `none` if one is out of range. -/
def normAll (n : Nat) : List Int → Option (List Nat)
  | [] => some []
  | i :: is =>
    match normIndex n i, normAll n is with
    | some k, some ks => some (k :: ks)
    | _, _ => none

/-- random_samples.py:29-55 `_init_arr` and `add(samples, indices)`; `indices` is the given or the random choice.  The array is
allocated (zeros) even when the call then fails. -/
def Res.add {α : Type} (z : α) (res : Res α) (samples : List α) (indices : List Int) : Res α × Except PyErr Unit :=
  let arr := res.arr.getD (List.replicate res.nsamples z)
  let res' : Res α := { res with arr := some arr }
  if indices.length ≠ samples.length then (res', .error .valueError)
  else
    match normAll res.nsamples indices with
    | none => (res', .error .indexError)
    | some ks => ({ res' with arr := some (assign arr ks samples), indices := setUpdate res.indices indices }, .ok ())

/-- random_samples.py:23-24 `__len__`. -/
def Res.len {α : Type} (res : Res α) : Nat := res.indices.length

/-- insertion into a sorted list (for `sorted(self.indices)`, random_samples.py:62). -/
def insertInt (x : Int) : List Int → List Int
  | [] => [x]
  | y :: ys => if x ≤ y then x :: y :: ys else y :: insertInt x ys

/-- `sorted(...)`. -/
def sortInt (l : List Int) : List Int := l.foldr insertInt []

/-- rows by normalised index. -/
def rowsAt {α : Type} (arr : List α) : List Nat → List α
  | [] => []
  | k :: ks =>
    match arr[k]? with
    | some x => x :: rowsAt arr ks
    | none => rowsAt arr ks

/-- random_samples.py:57-62 `get`.  Before the first add `self.arr` is None and indexing it raises TypeError. -/
def Res.get {α : Type} (res : Res α) : Except PyErr (List α) :=
  match res.arr with
  | none => .error .typeError
  | some arr =>
    if res.indices.length = res.nsamples then .ok arr
    else
      match normAll res.nsamples (sortInt res.indices) with
      | none => .error .indexError
      | some ks => .ok (rowsAt arr ks)

/-- random_samples.py:65-83 `get_batch`; `choice` is what `np.random.choice(list(indices), batch_size)` returned.  A batch
of zero rows out of nothing is an error of `np.random.choice` (ValueError). -/
def Res.getBatch {α : Type} (res : Res α) (batchSize : Nat) (choice : List Int) : Except PyErr (List α) :=
  if batchSize > res.nsamples then .error .valueError
  else if batchSize > res.indices.length then .error .valueError
  else
    match res.arr with
    | none => .error .valueError
    | some arr =>
      match normAll res.nsamples choice with
      | none => .error .indexError
      | some ks => .ok (rowsAt arr ks)

/-! ## MultiplexedReservoir (random_samples.py:86-120) -/

/-- random_samples.py:86-91; keys are in dictionary (insertion) order. -/
structure Mux (κ α : Type) where
  nsamples : Nat
  reservoir : Option (List (κ × Res α))
  deriving Repr, DecidableEq

/-- `self.reservoir[k].add(v, indices)` for one key, replacing the entry (random_samples.py:119). -/
def muxAddOne {κ α : Type} [DecidableEq κ] (z : α) (k : κ) (v : List α) (indices : List Int) :
    List (κ × Res α) → List (κ × Res α) × Except PyErr Unit
  | [] => ([], .error .keyError)
  | (k', r) :: rest =>
    if k = k' then
      let out := r.add z v indices
      ((k', out.1) :: rest, out.2)
    else
      let out := muxAddOne z k v indices rest
      ((k', r) :: out.1, out.2)

/-- the loop of random_samples.py:112-117: keys in the order of `samples.items()`, stopping at the first exception. -/
def muxAddAll {κ α : Type} [DecidableEq κ] (z : α) (indices : List Int) :
    List (κ × List α) → List (κ × Res α) → List (κ × Res α) × Except PyErr Unit
  | [], rs => (rs, .ok ())
  | (k, v) :: rest, rs =>
    match muxAddOne z k v indices rs with
    | (rs', .ok ()) => muxAddAll z indices rest rs'
    | (rs', .error e) => (rs', .error e)

/-- same keys as sets (random_samples.py:103-104). -/
def sameKeys {κ : Type} [DecidableEq κ] (a b : List κ) : Bool := a.all (fun k => decide (k ∈ b)) && b.all (fun k => decide (k ∈ a))

/-- random_samples.py:114-117: one random row number per sample of the first key. -/
def muxIndices {κ α : Type} : List (κ × List α) → (Nat → List Int) → List Int
  | [], _ => []
  | s :: _, draw => draw s.2.length

/-- random_samples.py:108-117 `add`; `draw n` is `np.random.randint(0, nsamples, n)` (one number per sample of the first key). -/
def Mux.add {κ α : Type} [DecidableEq κ] (z : α) (m : Mux κ α) (samples : List (κ × List α)) (draw : Nat → List Int) :
    Mux κ α × Except PyErr Unit :=
  let rs := m.reservoir.getD (samples.map (fun s => (s.1, (⟨m.nsamples, none, []⟩ : Res α))))
  if sameKeys (rs.map (·.1)) (samples.map (·.1)) then
    let out := muxAddAll z (muxIndices samples draw) samples rs
    ({ m with reservoir := some out.1 }, out.2)
  else ({ m with reservoir := some rs }, .error .valueError)

/-! ## InfiniteSampler (random_samples.py:143-220) -/

/-- random_samples.py:181-188: rows that a feature of `size` rows contributes in one pass: `max(1, int(nsamples * ratio))`,
with the float ratio as an exact fraction. -/
def contribution (nsamples size total : Nat) : Nat := max 1 (nsamples * size / total)

end Zounds.Reservoir
