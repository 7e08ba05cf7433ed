import Verif.Model.Array
import Verif.Model.Merge

/-!
# zounds/basic/basic.py `Merge`, on arrays with units

`Verif.Model.Merge` treats the chunks as lists of rows; here they are `ArrayWithUnits`, whose dimensions decide whether chunks can be joined.
-/

namespace Zounds.MergeUnits
open Zounds Zounds.Arr

/-- basic.py:21: one entry per source, `none` before its first chunk. -/
abbrev Cache (δ α : Type) := List (Option (Awu δ α))

/-- `len(v)`. -/
def rows {δ α : Type} (v : Awu δ α) : Nat := v.shape.headD 0

/-- basic.py:25-28: what the cache entry of the pushing source becomes. -/
def push {δ κ α : Type} (ops : DimOps δ κ) (old : Option (Awu δ α)) (data : Awu δ α) : Except PyErr (Awu δ α) :=
  match old with
  | none => .ok data
  | some v => if Nd.size v.shape = 0 then .ok data else v.concatenate ops data

/-- basic.py:23-28 `_enqueue`. -/
def enqueue {δ κ α : Type} (ops : DimOps δ κ) (c : Cache δ α) (src : Nat) (data : Awu δ α) : Except PyErr (Cache δ α) :=
  match c[src]? with
  | none => .error .keyError
  | some old =>
    match push ops old data with
    | .error e => .error e
    | .ok v => .ok (c.set src (some v))

/-- basic.py:31: the entries, if every source has rows. -/
def present {δ α : Type} : Cache δ α → Option (List (Awu δ α))
  | [] => some []
  | none :: _ => none
  | some v :: rest =>
    if rows v = 0 then none
    else
      match present rest with
      | none => none
      | some vs => some (v :: vs)

/-- basic.py:33 `shortest`. -/
def shortest {δ α : Type} : List (Awu δ α) → Nat
  | [] => 0
  | [v] => rows v
  | v :: vs => min (rows v) (shortest vs)

/-- `v[index]` for all entries. -/
def cutAll {δ κ α : Type} (ops : DimOps δ κ) (index : List (Item κ)) : List (Awu δ α) → Except PyErr (List (Awu δ α))
  | [] => .ok []
  | v :: vs =>
    match v.getitem ops index with
    | .error e => .error e
    | .ok x =>
      match cutAll ops index vs with
      | .error e => .error e
      | .ok xs => .ok (x :: xs)

/-- basic.py:30-41 `_dequeue` and `_process`: what is emitted (nothing if a source has no rows), and the new cache. -/
def emit {δ κ α : Type} (ops : DimOps δ κ) (c : Cache δ α) : Except PyErr (Option (Awu δ α) × Cache δ α) :=
  match present c with
  | none => .ok (none, c)
  | some vs =>
    let k := shortest vs
    match cutAll ops [.slice none (some k) none] vs with
    | .error e => .error e
    | .ok out =>
      match cutAll ops [.slice (some k) none none] vs with
      | .error e => .error e
      | .ok left =>
        match concat ops out 1 with
        | .error e => .error e
        | .ok r => .ok (some r, left.map some)

/-- Everything emitted over a schedule of arrivals. -/
def run {δ κ α : Type} (ops : DimOps δ κ) : Cache δ α → List (Nat × Awu δ α) → Except PyErr (List (Awu δ α))
  | _, [] => .ok []
  | c, (src, data) :: rest =>
    match enqueue ops c src data with
    | .error e => .error e
    | .ok c' =>
      match emit ops c' with
      | .error e => .error e
      | .ok (o, c'') =>
        match run ops c'' rest with
        | .error e => .error e
        | .ok outs => .ok (o.toList ++ outs)

end Zounds.MergeUnits
