import Verif.Model.PopCount
/-!
# `zounds/index/hammingdb.py`

The LMDB environment is shared by all instances that open the same path.  It is
modelled as a finite map (an association list kept in key order, the order in
which a cursor iterates); a write transaction is atomic.  An id is a 128 bit
random number (`_new_id`, hammingdb.py:138-139), modelled as a natural number
supplied with each operation: `hexlify` preserves order.  `Growable` is replaced
by the list it refines (property C10).
-/

namespace Zounds.HammingDb
open Zounds

abbrev Bytes := List UInt8

/-- A Python argument that is either `bytes` or `str` (a list of code points). -/
inductive PyText where
  | bytes (b : Bytes)
  | str (cs : List Char)
  deriving DecidableEq, Repr

/-- `len(x)`: bytes of a `bytes`, code points of a `str` (used at hammingdb.py:118). -/
def PyText.len : PyText → Nat
  | .bytes b => b.length
  | .str cs => cs.length

/-- The `try: x = x.encode() except AttributeError: pass` blocks
(hammingdb.py:147-154): UTF-8 for `str`, `bytes` unchanged. -/
def PyText.encode : PyText → Bytes
  | .bytes b => b
  | .str cs => cs.flatMap String.utf8EncodeChar

/-- The LMDB index database: key/value pairs in key order. -/
abbrev Store := List (Nat × Bytes)

/-- `txn.put(key, value, db=self.index)` (hammingdb.py:155): overwrites. -/
def Store.put (k : Nat) (v : Bytes) : Store → Store
  | [] => [(k, v)]
  | (k', v') :: r =>
    if k < k' then (k, v) :: (k', v') :: r
    else if k = k' then (k, v) :: r
    else (k', v') :: Store.put k v r

/-- `txn.get(key, db=self.index)` (hammingdb.py:164, 218). -/
def Store.get? (k : Nat) : Store → Option Bytes
  | [] => none
  | (k', v') :: r => if k = k' then some v' else Store.get? k r

/-- One `HammingDb` object (hammingdb.py:10-55).  `mem` is `_codes.logical_data`
(id and code columns), `ids` is `_ids`. -/
structure Inst where
  codeSize : Nat
  writeonly : Bool
  mem : List (Nat × Bytes) := []
  ids : List Nat := []
  deriving DecidableEq, Repr

/-- `_np_code` (hammingdb.py:113-115) assigns into a bytearray whose buffer is
exported to numpy, so a code of any other length raises `BufferError`; then
`_add_code` (hammingdb.py:124-132) appends a row and remembers the id. -/
def addCode (i : Inst) (id : Nat) (code : Bytes) : Except PyErr Inst :=
  if i.writeonly then .ok i
  else if code.length ≠ i.codeSize then .error .bufferError
  else .ok { i with mem := i.mem ++ [(id, code)], ids := i.ids ++ [id] }

/-- The loop of `_catch_up_on_in_memory_store` (hammingdb.py:81-87). -/
def catchUpLoop (i : Inst) : Store → Except PyErr Inst
  | [] => .ok i
  | (id, value) :: r =>
    if id ∈ i.ids then catchUpLoop i r
    else
      match addCode i id (value.take i.codeSize) with
      | .error e => .error e
      | .ok i' => catchUpLoop i' r

/-- `_catch_up_on_in_memory_store` (hammingdb.py:77-87). -/
def catchUp (st : Store) (i : Inst) : Except PyErr Inst := catchUpLoop i st

/-- `_check_for_external_modifications` (hammingdb.py:134-136). -/
def checkExternal (st : Store) (i : Inst) : Except PyErr Inst :=
  if st.length ≠ i.mem.length then catchUp st i else .ok i

/-- `_validate_code_size` (hammingdb.py:117-122). -/
def validate (i : Inst) (code : PyText) : Except PyErr Unit :=
  if code.len ≠ i.codeSize then .error .valueError else .ok ()

/-- The decision part of `__init__` (hammingdb.py:29-44): the code size of the
opened database and the new `codesize` metadata.  Simplification: code sizes are
natural numbers. -/
def openSize (meta? : Option Nat) (arg : Option Nat) : Except PyErr (Nat × Option Nat) :=
  match meta? with
  | some cs =>
    match arg with
    | none => .ok (cs, some cs)
    | some a => if a ≠ 0 ∧ a ≠ cs then .error .valueError else .ok (cs, some cs)
  | none =>
    match arg with
    | none => .error .valueError
    | some a => if a % 8 ≠ 0 then .error .valueError else .ok (a, some a)

/-- The shared directory and the open instances. -/
structure World where
  codesize : Option Nat := none
  store : Store := []
  insts : List Inst := []
  deriving DecidableEq, Repr

/-- `HammingDb(path, code_size=arg, writeonly=wo)` (hammingdb.py:11-55). -/
def openDb (w : World) (arg : Option Nat) (wo : Bool) : World × Except PyErr Unit :=
  match openSize w.codesize arg with
  | .error e => (w, .error e)
  | .ok (cs, m) =>
    let w' := { w with codesize := m }
    match catchUp w.store { codeSize := cs, writeonly := wo } with
    | .error e => (w', .error e)
    | .ok i => ({ w' with insts := w.insts ++ [i] }, .ok ())

/-- `append(code, data)` by one instance (hammingdb.py:141-156): the new store,
the new instance and the outcome.  An exception inside the `with` block aborts
the transaction.  `commitOk = false` models a failing commit: LMDB discards the
transaction but the in-memory row stays. -/
def append (st : Store) (i : Inst) (code data : PyText) (id : Nat) (commitOk : Bool) :
    Store × Inst × Except PyErr Unit :=
  match validate i code with
  | .error e => (st, i, .error e)
  | .ok () =>
    match addCode i id code.encode with
    | .error e => (st, i, .error e)
    | .ok i' =>
      if commitOk then (Store.put id (code.encode ++ data.encode) st, i', .ok ())
      else (st, i', .error .runtimeError)

/-- Little-endian value of a group of bytes (`np.frombuffer(.., np.uint64)`,
hammingdb.py:49, on a little-endian machine). -/
def leValue : List UInt8 → Nat
  | [] => 0
  | b :: bs => b.toNat + 256 * leValue bs

/-- `np.frombuffer(code, dtype=np.uint64)` (hammingdb.py:49). -/
def toWords : Bytes → List (BitVec 64)
  | b0 :: b1 :: b2 :: b3 :: b4 :: b5 :: b6 :: b7 :: r =>
    BitVec.ofNat 64 (leValue [b0, b1, b2, b3, b4, b5, b6, b7]) :: toWords r
  | _ => []

/-- The parts of numpy and of the machine that the search depends on:
`np.argpartition`, `np.argsort` and `cpu_count()`. -/
structure Numpy where
  argpartition : List Nat → Nat → List Nat
  argsort : List Nat → List Nat
  threads : Nat

/-- `(codes[i: i + chunksize] for i in range(0, n_codes, chunksize))`
(hammingdb.py:194-195), `chunksize ≥ 1`. -/
def chunks {α : Type} (c : Nat) (l : List α) : List (List α) :=
  (List.range ((l.length + c - 1) / c)).map fun k => (l.drop (k * c)).take c

/-- The scores, single- or multi-threaded (hammingdb.py:187-195). `pool.map`
keeps the order of its inputs; `np.concatenate` of nothing raises. -/
def scores (np : Numpy) (multithreaded : Bool) (query : List (BitVec 64))
    (codes : List (List (BitVec 64))) : Except PyErr (List Nat) :=
  if ¬ multithreaded then .ok (PopCount.packedDistance query codes)
  else
    let chunksize := max 1 (codes.length / np.threads)
    let parts := (chunks chunksize codes).map (PopCount.packedDistance query)
    if parts = [] then .error .valueError else .ok parts.flatten

/-- Selecting the rows (hammingdb.py:197-214).  `np.argpartition` raises
`ValueError` when `kth` is out of bounds. -/
def select (np : Numpy) (sc : List Nat) (n : Nat) (sort : Bool) : Except PyErr (List Nat) :=
  if sc.length ≤ n then .error .valueError
  else
    let part := (np.argpartition sc n).take n
    if sort then
      let order := np.argsort (part.map fun k => sc.getD k 0)
      .ok (order.map fun k => part.getD k 0)
    else .ok part

/-- The final loop of the generator (hammingdb.py:216-218): `None[...]` is a
`TypeError`. -/
def fetch (st : Store) (cs : Nat) : List Nat → Except PyErr (List Bytes)
  | [] => .ok []
  | id :: r =>
    match Store.get? id st with
    | none => .error .typeError
    | some v =>
      match fetch st cs r with
      | .error e => .error e
      | .ok vs => .ok (v.drop cs :: vs)

/-- `list(search(code, n_results, multithreaded, sort))` (hammingdb.py:172-218).
A `str` query passes the length check and then fails in `_np_code` (assigning a
`str` into a bytearray slice is a `TypeError`). -/
def search (np : Numpy) (st : Store) (i : Inst) (code : PyText) (n : Nat)
    (multithreaded sort : Bool) : Inst × Except PyErr (List Bytes) :=
  if i.writeonly then (i, .error .runtimeError)
  else
    match validate i code with
    | .error e => (i, .error e)
    | .ok () =>
      match checkExternal st i with
      | .error e => (i, .error e)
      | .ok i' =>
        match code with
        | .str _ => (i', .error .typeError)
        | .bytes q =>
          match scores np multithreaded (toWords q) (i'.mem.map fun r => toWords r.2) with
          | .error e => (i', .error e)
          | .ok sc =>
            match select np sc n sort with
            | .error e => (i', .error e)
            | .ok idx => (i', fetch st i'.codeSize (idx.map fun k => (i'.mem.getD k (0, [])).1))

/-- The operations a user performs. -/
inductive Op where
  | open (codeSize : Option Nat) (writeonly : Bool)
  | append (inst : Nat) (code data : PyText) (newId : Nat) (commitOk : Bool)
  | search (inst : Nat) (code : PyText) (n : Nat) (multithreaded sort : Bool)
  deriving Repr

/-- What the caller sees. -/
abbrev Out := Except PyErr (List Bytes)

/-- One operation on the shared world.  An operation on an instance that was never
opened is not a program a user can write; it changes nothing. -/
def step (np : Numpy) (w : World) : Op → World × Out
  | .open arg wo =>
    match openDb w arg wo with
    | (w', .ok ()) => (w', .ok [])
    | (w', .error e) => (w', .error e)
  | .append k code data id commitOk =>
    match w.insts[k]? with
    | none => (w, .error .indexError)
    | some i =>
      match append w.store i code data id commitOk with
      | (st, i', r) =>
        ({ w with store := st, insts := w.insts.set k i' },
          match r with | .ok () => .ok [] | .error e => .error e)
  | .search k code n mt sort =>
    match w.insts[k]? with
    | none => (w, .error .indexError)
    | some i =>
      match search np w.store i code n mt sort with
      | (i', r) => ({ w with insts := w.insts.set k i' }, r)

/-- A history of operations on a fresh directory. -/
def run (np : Numpy) (w : World) : List Op → World
  | [] => w
  | op :: ops => run np (step np w op).1 ops

end Zounds.HammingDb
