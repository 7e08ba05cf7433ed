import Verif.Model.Base

/-!
# zounds/datasets: freesound.py, util.py, cache.py, composite.py
-/

namespace Zounds.Datasets

/-! ## FreeSoundSearch -/

/-- One page of search results: the ids on it and the link to the next page (`null` on the last page). -/
structure Page (α : Type) where
  results : List α
  next : Option Nat

/-- The search service: the page the query leads to, and the page behind every link.  Every request succeeds, and the metadata request of
each result too; a result stands for its metadata. -/
structure Server (α : Type) where
  first : Page α
  page : Nat → Page α

/-- freesound.py:86-94: `if link:` — without a link the query is sent again. -/
def Server.get {α : Type} (s : Server α) : Option Nat → Page α
  | some l => s.page l
  | none => s.first

/-- The pages that the nested generators `_iter_results` (freesound.py:76-98) fetch: each one ends by iterating over
`_iter_results(results['next'])`. -/
def Server.nth {α : Type} (s : Server α) : Nat → Page α
  | 0 => s.get none
  | k + 1 => s.get (s.nth k).next

/-- What `_iter_results()` yields before the interpreter's recursion limit stops it: every page needs one more nested generator, and
`limit` of them fit.  The generator has no other way to end. -/
def iterResults {α : Type} (s : Server α) (limit : Nat) : List α := (List.range limit).flatMap fun k => (s.nth k).results

/-- freesound.py:100-104 `__iter__`: the loop over `enumerate(self._iter_results())`; result: what was yielded, and the exception
that ended the iteration, if any. -/
def searchLoop {α : Type} (nResults : Int) : Nat → List α → List α × Option PyErr
  | _, [] => ([], some .recursionError)
  | i, x :: xs =>
    if (i : Int) > nResults then ([], none)
    else ((x :: (searchLoop nResults (i + 1) xs).1), (searchLoop nResults (i + 1) xs).2)

/-- Iterating over a `FreeSoundSearch`. -/
def freeSound {α : Type} (s : Server α) (limit : Nat) (nResults : Int) : List α × Option PyErr :=
  searchLoop nResults 0 (iterResults s limit)

/-- composite.py:22-25 `CompositeDataset.__iter__`. -/
def composite {α : Type} (datasets : List (List α)) : List α := datasets.flatMap fun d => d

/-! ## ensure_local_file -/

abbrev Bytes := List Nat

/-- A url: its path, and everything else (scheme, host, query). -/
structure Url where
  path : List Char
  rest : List Char
  deriving DecidableEq

/-- util.py:7-8: the last component of the path. -/
def fileName (u : Url) : List Char := (u.path.reverse.takeWhile (· ≠ '/')).reverse

/-- What the other side does with one request: it cannot be reached, or it answers with a status, perhaps a `Content-Length`, and content
in chunks; the connection may break after them. -/
inductive Remote where
  | unreachable
  | reply (status : Nat) (contentLength : Option Int) (chunks : List Bytes) (breaks : Bool)

/-- All content that the other side sends. -/
def Remote.body : Remote → Bytes
  | .unreachable => []
  | .reply _ _ chunks _ => chunks.flatten

/-- The files of a directory, by name. -/
abbrev Disk := List Char → Option Bytes

/-- Writing a file. -/
def Disk.write (d : Disk) (name : List Char) (c : Bytes) : Disk := fun n => if n = name then some c else d n

/-- `os.path.exists(local)`: joining the empty file name gives the directory itself, which exists. -/
def Disk.exists (d : Disk) (name : List Char) : Bool := name.isEmpty || (d name).isSome

/-- util.py:15-18: the loop over the chunks: each is written, then the progress is computed, which divides by the total. -/
def writeLoop (total : Int) : Bytes → List Bytes → Bytes × Option PyErr
  | acc, [] => (acc, none)
  | acc, c :: cs => if total = 0 then (acc ++ c, some .zeroDivision) else writeLoop total (acc ++ c) cs

/-- util.py:6-20 `ensure_local_file`, not interrupted.  The file is opened before the request is made; the status is not looked at. -/
def ensureLocalFile (d : Disk) (u : Url) (r : Remote) : Disk × Except PyErr (List Char) :=
  let name := fileName u
  if d.exists name then (d, .ok name)
  else
    match r with
    | .unreachable => (d.write name [], .error .connectionError)
    | .reply _ none _ _ => (d.write name [], .error .keyError)
    | .reply _ (some total) chunks breaks =>
      match writeLoop total [] chunks with
      | (c, some e) => (d.write name c, .error e)
      | (c, none) => (d.write name c, if breaks then .error .connectionError else .ok name)

/-- The disk after the process died during `ensure_local_file`: as before, or with the file holding some beginning of what would have been
written (writes are buffered and reach the disk in order). -/
def Interrupted (d : Disk) (u : Url) (r : Remote) (d' : Disk) : Prop :=
  d' = d ∨ (d.exists (fileName u) = false ∧ ∃ p, p <+: r.body ∧ d' = d.write (fileName u) p)

/-- One call in the life of a directory. -/
inductive Call (d : Disk) (u : Url) (r : Remote) (d' : Disk) : Prop
  | returned (h : (ensureLocalFile d u r).1 = d')
  | died (h : Interrupted d u r d')

/-- A history of calls. -/
inductive History : Disk → List (Url × Remote) → Disk → Prop
  | nil (d : Disk) : History d [] d
  | cons {d d' d'' : Disk} {u : Url} {r : Remote} {es : List (Url × Remote)} :
      Call d u r d' → History d' es d'' → History d ((u, r) :: es) d''

/-! ## DataSetCache -/

/-- What a data set yields: a request with a text url, a request with a bytes url, or an `AudioMetaData`, which has no attribute
`url`. -/
inductive Elem where
  | textUrl (u : List Char)
  | bytesUrl (u : List Nat)
  | audioMetaData

/-- cache.py:14-31 `DataSetCache.__iter__` for one element: `hashlib.md5` (here `md5`, giving the file name) takes bytes only; the
status is checked before the file is opened. -/
def cacheOne (md5 : List Nat → List Char) (d : Disk) (e : Elem) (r : Remote) : Disk × Except PyErr (List Char) :=
  match e with
  | .audioMetaData => (d, .error .attributeError)
  | .textUrl _ => (d, .error .typeError)
  | .bytesUrl u =>
    if d.exists (md5 u) then (d, .ok (md5 u))
    else
      match r with
      | .unreachable => (d, .error .connectionError)
      | .reply status _ chunks breaks =>
        if 400 ≤ status ∧ status < 600 then (d, .error .httpError)
        else (d.write (md5 u) chunks.flatten, if breaks then .error .connectionError else .ok (md5 u))

/-- Iterating over the whole data set: the paths yielded and the exception that ends the iteration, if any. -/
def cacheIter (md5 : List Nat → List Char) : Disk → List (Elem × Remote) → Disk × List (List Char) × Option PyErr
  | d, [] => (d, [], none)
  | d, (e, r) :: es =>
    match cacheOne md5 d e r with
    | (d', .error x) => (d', [], some x)
    | (d', .ok p) =>
      let rest := cacheIter md5 d' es
      (rest.1, p :: rest.2.1, rest.2.2)

end Zounds.Datasets
