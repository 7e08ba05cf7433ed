import Verif.Model.Base
import Verif.Model.VariableRate

/-!
# zounds/basic/basic.py

Sources are numbered in the order of `needs.values()`.  A chunk of a source is a list of rows, a row a list of numbers.
-/

namespace Zounds.Merge

/-- basic.py:21: the cache: one entry per source, `none` before its first chunk. -/
abbrev Cache (β : Type) := List (Option (List (List β)))

/-- basic.py:15-21 `__init__` with `n` dependencies. -/
def new (β : Type) (n : Nat) : Except PyErr (Cache β) :=
  if n < 2 then .error .valueError else .ok (List.replicate n none)

/-- numpy `array.size` of a two dimensional array. -/
def size {β : Type} (v : List (List β)) : Nat := (v.map List.length).sum

/-- basic.py:25-28: what the cache entry of the pushing source becomes. -/
def push {β : Type} (old : Option (List (List β))) (data : List (List β)) : List (List β) :=
  match old with
  | none => data
  | some v => if size v = 0 then data else v ++ data

/-- basic.py:23-28 `_enqueue`; a pusher that is not a dependency is a KeyError. -/
def enqueue {β : Type} (c : Cache β) (src : Nat) (data : List (List β)) : Except PyErr (Cache β) :=
  match c[src]? with
  | none => .error .keyError
  | some old => .ok (c.set src (some (push old data)))

/-- basic.py:31: some source has nothing (None or no rows). -/
def starved {β : Type} (c : Cache β) : Bool :=
  c.any (fun v => match v with | none => true | some rows => decide (rows.length = 0))

/-- basic.py:33 `shortest`. -/
def shortest {β : Type} : Cache β → Nat
  | [] => 0
  | [v] => (v.getD []).length
  | v :: vs => min (v.getD []).length (shortest vs)

/-- basic.py:30-38 `_dequeue`: (output per source, new cache). -/
def dequeue {β : Type} (c : Cache β) : Except PyErr (List (List (List β)) × Cache β) :=
  if starved c then .error .notEnoughData
  else
    let k := shortest c
    .ok (c.map (fun v => (v.getD []).take k), c.map (fun v => some ((v.getD []).drop k)))

/-- basic.py:40-41 `_process`: concatenation along axis 1, row by row.  All parts have the same number of rows. -/
def hconcat {β : Type} : List (List (List β)) → List (List β)
  | [] => []
  | [p] => p
  | p :: ps => List.zipWith (· ++ ·) p (hconcat ps)

/-- The featureflow protocol: each arriving chunk is enqueued, then the node tries to dequeue and process (NotEnoughData means
nothing is emitted).  Returns everything emitted, chunk by chunk. -/
def run {β : Type} : Cache β → List (Nat × List (List β)) → Except PyErr (List (List (List β)))
  | _, [] => .ok []
  | c, (src, data) :: rest =>
    match enqueue c src data with
    | .error e => .error e
    | .ok c' =>
      match dequeue c' with
      | .error _ => run c' rest
      | .ok (out, c'') =>
        match run c'' rest with
        | .error e => .error e
        | .ok outs => .ok (hconcat out :: outs)

/-! ## Pooled (basic.py:44-71) -/

/-- What arrives at a `Pooled` node: a chunk of time slices or a chunk of the series. -/
inductive Arrival (α : Type) where
  | slices (s : List (VariableRate.Ex Unit))
  | series (rows : List α)

/-- basic.py:52-59 `_enqueue` over all arrivals: the time slices (kept sorted by start) and the series (`none` if none came). -/
def pooledState {α : Type} : List (Arrival α) → List (VariableRate.Ex Unit) × Option (List α) → List (VariableRate.Ex Unit) × Option (List α)
  | [], st => st
  | .slices s :: rest, (ts, ser) => pooledState rest (VariableRate.concat ts s, ser)
  | .series rows :: rest, (ts, ser) => pooledState rest (ts, some ((ser.getD []) ++ rows))

/-- basic.py:61-71 `_dequeue` at the end and `_process`: `slice` is the series' own time slicing, `op` the pooling operation.  With time
slices but no series the indexing of None is a TypeError. -/
def pooled {α γ : Type} (slice : List α → Int → Int → List α) (op : List α → γ) (arrivals : List (Arrival α)) :
    Except PyErr (List (VariableRate.Ex γ)) :=
  let st := pooledState arrivals ([], none)
  match st.2 with
  | none => if st.1 = [] then .ok [] else .error .typeError
  | some series => .ok (VariableRate.ctor (st.1.map (fun x => ⟨x.start, x.duration, op (slice series x.start x.duration)⟩)))

/-! ## Sum and Max (basic.py:84-115) -/

/-- basic.py:89-98 `Sum._process`: `np.sum(axis=...)` is called without its array; the TypeError is not a ValueError. -/
def sumProcess {α : Type} (_data : List (List α)) : Except PyErr (List α) := .error .typeError

/-- maximum of a non-empty row -/
def rowMax (x : Rat) : List Rat → Rat
  | [] => x
  | y :: ys => rowMax (if x < y then y else x) ys

/-- basic.py:106-115 `Max._process` with `axis = 1` on a chunk of rows: the maximum of each row; rows of width zero raise ValueError in
numpy, in which case the data is passed on unchanged (`inr`); nothing is emitted for an empty result. -/
def maxProcess (data : List (List Rat)) : Option (List Rat ⊕ List (List Rat)) :=
  if data = [] then none
  else if data.any (fun r => r.isEmpty) then some (.inr data)
  else some (.inl (data.map (fun r => rowMax (r.headD 0) r.tail)))

end Zounds.Merge
