import Verif.Model.Base

/-!
# The web application's serializers, the search page and the in-browser REPL

zounds/ui/serializer.py, zounds/ui/baseapp.py:56-74, 104-113 (choosing a serializer), 122-145 (feature requests), zounds/ui/search.py,
zounds/ui/api.py (REPL and temporary results), zounds/ui/featureparser.py.

What the libraries around it produce (the encoded ogg file, the png image, the text of a traceback) is represented by the data they
are given.  The Python interpreter is a parameter of the REPL.
-/

namespace Zounds.Repl

/-- Content types of features and responses. -/
inductive CType where
  | json | ogg | octet | png | onsets | searchResults | other (n : Nat)
  deriving DecidableEq, Repr

/-- The feature classes that the serializers distinguish. `other` is any other class, `AudioSamplesFeature` and
`FrequencyAdaptiveFeature` among them: both extend `Feature` directly (persistence/audiosamples.py:17, frequencyadaptive.py:15). -/
inductive FeatKind where
  | oggVorbis | arrayWithUnits | timeSlice | other
  deriving DecidableEq, Repr

/-- A feature of a document: its class, its encoder's content type, the shape of the value stored for the document (number of
dimensions and size of the last one) and whether the first dimension is time. -/
structure Feat where
  key : List Char
  kind : FeatKind
  contentType : CType
  ndim : Nat
  last : Nat
  timeFirst : Bool
  deriving DecidableEq, Repr

/-- The slice of a request: none at all (a search), of bytes, or of time; with whether it is the full slice. -/
inductive Slce where
  | none | bytes (full : Bool) | time (full : Bool)
  deriving DecidableEq, Repr

/-- A time slice in picoseconds, and the document it belongs to. -/
structure Hit where
  id : List Char
  start : Int
  duration : Int
  deriving DecidableEq, Repr

/-- The values that the serializers distinguish: `AudioSamples` (which are arrays too), other arrays, `VariableRateTimeSeries`,
`SearchResults`, anything else. `none` is Python's None. -/
inductive Value (A : Type) where
  | none
  | audio (rate : Nat) (samples : List A)
  | array (ndim last : Nat)
  | slices (l : List (Int × Int))
  | results (query : List UInt8) (l : List Hit)
  | other

/-- baseapp.py:21-41 `RequestContext`; the document is its identifier. -/
structure Ctx (A : Type) where
  doc : Option (List Char)
  feature : Option Feat
  slce : Slce
  value : Value A

/-- The JSON values that are built here; `bytes` is a Python bytes object, which is not one. -/
inductive Json where
  | str (s : List Char)
  | bytes (b : List UInt8)
  | num (q : Rat)
  | arr (l : List Json)
  | obj (l : List (List Char × Json))

/-- `json.dumps` accepts a value exactly when there is no bytes object in it; otherwise it raises a TypeError. -/
def Json.dumps : Json → Except PyErr Json
  | .bytes _ => .error .typeError
  | .str s => .ok (.str s)
  | .num q => .ok (.num q)
  | .arr l =>
    let rec all : List Json → Except PyErr Unit
      | [] => .ok ()
      | j :: js => match j.dumps with
        | .error e => .error e
        | .ok _ => all js
    match all l with
    | .error e => .error e
    | .ok _ => .ok (.arr l)
  | .obj l =>
    let rec allObj : List (List Char × Json) → Except PyErr Unit
      | [] => .ok ()
      | (_, j) :: js => match j.dumps with
        | .error e => .error e
        | .ok _ => allObj js
    match allObj l with
    | .error e => .error e
    | .ok _ => .ok (.obj l)

/-- What a response consists of: the runs of samples written into an ogg file, the bytes stored for a feature (all or a range), a
stretch of time of a stored ogg file, an image, a JSON text. -/
inductive Payload (A : Type) where
  | encoded (rate : Nat) (writes : List (List A))
  | stored (doc key : List Char) (full : Bool)
  | excerpt (doc key : List Char) (full : Bool)
  | image (ndim : Nat)
  | text (j : Json)

/-- serializer.py:20-31 `TempResult`, without the time stamp and the content range. -/
structure Response (A : Type) where
  contentType : CType
  payload : Payload A
  isPartial : Bool

/-- The serializers (serializer.py). -/
inductive Ser where
  | audioSamples | oggVorbis | constantRate | dflt (c : CType) | numpy | onsets | searchResults
  deriving DecidableEq, Repr

/-- baseapp.py:56-74, the order in which the serializers are asked. -/
def serializers : List Ser :=
  [.audioSamples, .oggVorbis, .constantRate, .dflt .json, .dflt .ogg, .numpy, .onsets, .searchResults]

/-- `isinstance(context.slce, TimeSlice)`. -/
def Slce.isTime : Slce → Bool
  | .time _ => true
  | _ => false

/-- `matches` of every serializer (serializer.py:39-42, 73-74, 104-109, 172-175, 199-202, 270-271, 286-287). -/
def Ser.matches {A : Type} (s : Ser) (c : Ctx A) : Bool :=
  match s with
  | .audioSamples => match c.value with
    | .audio _ _ => true
    | _ => false
  | .oggVorbis => match c.feature with
    | none => false
    | some f => f.kind = .oggVorbis ∧ c.slce.isTime
  | .constantRate => match c.feature with
    | none => false
    | some f => f.kind = .arrayWithUnits ∧ c.slce.isTime
  | .dflt t => match c.feature with
    | none => false
    | some f => f.contentType = t
  | .numpy => match c.value with
    | .audio _ _ => true
    | .array n _ => n = 1 ∨ n = 2 ∨ n = 3
    | _ => false
  | .onsets => match c.feature with
    | none => false
    | some f => f.kind = .timeSlice
  | .searchResults => match c.value with
    | .results _ _ => true
    | _ => false

/-- serializer.py:140-170 `generate_image` accepts one dimension, two, or three of which the last has 3 or 4 entries. -/
def generateImage {A : Type} (ndim last : Nat) (isPartial : Bool) : Except PyErr (Response A) :=
  if ndim = 1 ∨ ndim = 2 ∨ (ndim = 3 ∧ (last = 3 ∨ last = 4)) then .ok ⟨.png, .image ndim, isPartial⟩ else .error .valueError

/-- serializer.py:90-91, the loop over `range(0, len(samples), rate)`: the runs of samples written. -/
def audioWrites {A : Type} (rate : Nat) (samples : List A) : Except PyErr (List (List A)) :=
  if rate = 0 then .error .valueError
  else .ok ((List.range ((samples.length + rate - 1) / rate)).map fun i => (samples.drop (i * rate)).take rate)

/-- serializer.py:235-239 `_seconds`: a time divided by one second. -/
def seconds (ps : Int) : Rat := (ps : Rat) / 1000000000000

/-- serializer.py:241-247 `_result`; `audioPath` and `visPath` are `feature_path` (Model/WebApp.lean) of the audio and of the
visualization feature. -/
def hitJson (audioPath visPath : List Char → List Char) (h : Hit) : Json :=
  .obj [(['a', 'u', 'd', 'i', 'o'], .str (audioPath h.id)),
    (['v', 'i', 's', 'u', 'a', 'l', 'i', 'z', 'a', 't', 'i', 'o', 'n'], .str (visPath h.id)),
    (['s', 'l', 'i', 'c', 'e'], .obj [(['s', 't', 'a', 'r', 't'], .num (seconds h.start)),
      (['d', 'u', 'r', 'a', 't', 'i', 'o', 'n'], .num (seconds h.duration))])]

/-- serializer.py:255-259 `AudioSliceSerializer.serialize`. -/
def listing {A : Type} (t : CType) (audioPath visPath : List Char → List Char) (hits : List Hit) (extra : List (List Char × Json)) :
    Except PyErr (Response A) :=
  match Json.dumps (.obj ((['r', 'e', 's', 'u', 'l', 't', 's'], .arr (hits.map (hitJson audioPath visPath))) :: extra)) with
  | .error e => .error e
  | .ok j => .ok ⟨t, .text j, false⟩

/-- `slce.start is not None or slce.stop is not None`, `slce != TimeSlice()`. -/
def Slce.isFull : Slce → Bool
  | .none => true
  | .bytes f => f
  | .time f => f

/-- `serialize` of every serializer.  The requests that reach `dflt`, `oggVorbis` and `constantRate` come with a document; reading the stored
bytes and cutting out an excerpt are modelled in Model/ContentRange.lean and Model/OggVorbis.lean.  `slce.start` of a `TimeSlice` in
`DefaultSerializer` is a timedelta, with which `seek` raises a TypeError unless it is zero and falsy; `slce.stop` does not exist, an
AttributeError before or after: any time slice is an error there. -/
def Ser.serialize {A : Type} (audioPath visPath : List Char → List Char) (s : Ser) (c : Ctx A) : Except PyErr (Response A) :=
  match s with
  | .audioSamples => match c.value with
    | .audio r x => match audioWrites r x with
      | .error e => .error e
      | .ok w => .ok ⟨.ogg, .encoded r w, false⟩
    | _ => .error .attributeError
  | .oggVorbis => match c.doc, c.feature with
    | some d, some f => .ok ⟨.ogg, .excerpt d f.key c.slce.isFull, !c.slce.isFull⟩
    | _, _ => .error .attributeError
  | .constantRate => match c.doc, c.feature with
    | some _, some f => if f.timeFirst then generateImage f.ndim f.last true else .error .attributeError
    | _, _ => .error .attributeError
  | .dflt t => match c.doc, c.feature with
    | some d, some f => match c.slce with
      | .bytes full => .ok ⟨t, .stored d f.key full, !full⟩
      | _ => .error .attributeError
    | _, _ => .error .attributeError
  | .numpy => match c.value with
    | .audio _ _ => generateImage 1 0 false
    | .array n l => generateImage n l false
    | _ => .error .attributeError
  | .onsets => match c.value with
    | .slices l => match c.doc with
      | some d => listing .onsets audioPath visPath (l.map fun p => ⟨d, p.1, p.2⟩) []
      | none => .error .attributeError
    | _ => .error .attributeError
  | .searchResults => match c.value with
    | .results q l => listing .searchResults audioPath visPath l [(['q', 'u', 'e', 'r', 'y'], .bytes q)]
    | _ => .error .attributeError

/-- What `serialize` may raise: NoMatchingSerializerException, or something else. -/
inductive SerErr where
  | noMatching
  | py (e : PyErr)
  deriving DecidableEq, Repr

/-- baseapp.py:104-109 `find_serializer` and `serialize`. -/
def serialize {A : Type} (audioPath visPath : List Char → List Char) (c : Ctx A) : Except SerErr (Response A) :=
  match serializers.find? (fun s => s.matches c) with
  | none => .error .noMatching
  | some s => match s.serialize audioPath visPath c with
    | .error e => .error (.py e)
    | .ok r => .ok r

/-- baseapp.py:122-145 `FeatureHandler.get`: the request for a feature of a document comes without a value; `slice(None)` without a
Range header.  The outcome: a response, or an exception, which tornado answers with status 500. -/
def getFeature {A : Type} (audioPath visPath : List Char → List Char) (doc : List Char) (f : Feat) (range : Option Slce) :
    Except SerErr (Response A) :=
  serialize audioPath visPath ⟨some doc, some f, range.getD (.bytes true), .none⟩

/-- search.py:35-48 `SearchHandler.get`, after the search: the results are serialized without document, feature and slice. -/
def getSearch {A : Type} (audioPath visPath : List Char → List Char) (query : List UInt8) (hits : List Hit) : Except SerErr (Response A) :=
  serialize audioPath visPath ⟨none, none, .none, .results query hits⟩

/-! ## featureparser.py -/

/-- The expressions that the parser distinguishes: a name, an attribute of an expression, anything else. -/
inductive Expr where
  | name (id : List Char)
  | attr (e : Expr) (name : List Char)
  | other

/-- A statement: an expression statement, or anything else, with the statements nested in it in the order in which
`ast.NodeVisitor.generic_visit` comes to them. -/
inductive Stmt where
  | expr (e : Expr)
  | compound (body : List Stmt)

/-- What `ExpressionVisitor` looks up: `document.features` (none if the document class is None) and, for a name that is bound in the
locals to an instance of the document class, that document. -/
structure Env (D : Type) where
  features : Option (List Char → Option Feat)
  docs : List Char → Option D

/-- featureparser.py:4-10: the state of the visitor: `doc` and `feature_name`. -/
structure Visitor (D : Type) where
  doc : Option D
  featureName : Option (List Char)

/-- featureparser.py:20-46 `visit_Expr`; `none` is a ValueError. -/
def visitExpr {D : Type} (env : Env D) (e : Expr) : Option (Visitor D) :=
  match env.features with
  | none => none
  | some fs => match e with
    | .attr inner a => if (fs a).isSome then
        match inner with
        | .name id => match env.docs id with
          | some d => some ⟨some d, some a⟩
          | none => none
        | _ => none
      else none
    | _ => none

mutual
/-- `NodeVisitor.visit` of a statement: what the visitor's state is afterwards, and whether it went to the end. -/
def visitStmt {D : Type} (env : Env D) (v : Visitor D) : Stmt → Visitor D × Bool
  | .expr e => match visitExpr env e with
    | none => (v, false)
    | some v' => (v', true)
  | .compound body => visitStmts env v body
/-- `NodeVisitor.generic_visit`: one statement after the other until one raises. -/
def visitStmts {D : Type} (env : Env D) (v : Visitor D) : List Stmt → Visitor D × Bool
  | [] => (v, true)
  | s :: ss => match visitStmt env v s with
    | (v', false) => (v', false)
    | (v', true) => visitStmts env v' ss
end

/-- featureparser.py:12-18 `result`: the feature's name is never empty text here. -/
def Visitor.result {D : Type} (env : Env D) (v : Visitor D) : Option D × Option Feat :=
  (v.doc, match v.featureName, env.features with
    | some n, some fs => if n = [] then none else fs n
    | _, _ => none)

/-- featureparser.py:56-62 `FeatureParser.parse_feature`: the visitor is made once per parser. -/
def parseFeature {D : Type} (env : Env D) (v : Visitor D) (module_ : List Stmt) : Visitor D × (Option D × Option Feat) :=
  let v' := (visitStmts env v module_).1
  (v', v'.result env)

/-! ## api.py -/

/-- How the evaluation of a statement ends. -/
inductive Ended (V : Type) where
  | value (v : V)
  | syntaxError
  | raised

/-- The Python interpreter: `S` are the variables, `Code` the statements, `V` the values.  `eval` and `exec` give the new variables, the text
that was printed, what `sys.stdout` was set to if it was set, and how it ended (`exec`: with a value when it went through, whatever it raises
counts as raised).  `parse` is `ast.parse`, none if it raises a SyntaxError.  `str` is taken to succeed. -/
structure Python (S Code V A : Type) where
  eval : Code → S → S × List Char × Option Nat × Ended V
  exec : Code → S → S × List Char × Option Nat × Bool
  parse : Code → Option (List Stmt)
  str : V → List Char
  value : V → Value A
  env : S → Env (List Char)

/-- The application: the variables, `sys.stdout` (a number for the object), and `self.temp` (api.py:39). -/
structure World (S A : Type) where
  vars : S
  stdout : Nat
  temp : List (Nat × Response A)

/-- The answer to a REPL request (api.py:93-117): the status (ok or 400) and the fields of the JSON object. -/
structure Reply where
  ok : Bool
  result : Option (List Char)
  url : Option Nat
  contentType : Option CType
  error : Bool
  deriving DecidableEq, Repr

/-- `sys.stdout` after the user's code, if it set it. -/
def setStdout (old : Nat) : Option Nat → Nat
  | none => old
  | some n => n

/-- api.py:109-113, the part after a SyntaxError: `exec`, and what was printed so far is the result. `before` is what was printed by then,
`result` what the output holds already. -/
def runExec {S Code V A : Type} (P : Python S Code V A) (code : Code) (w : World S A) (before : List Char)
    (result : Option (List Char)) : World S A × Reply :=
  match P.exec code w.vars with
  | (vars, printed, so, true) => (⟨vars, setStdout w.stdout so, w.temp⟩, ⟨true, some (before ++ printed), none, none, false⟩)
  | (vars, _, so, false) => (⟨vars, setStdout w.stdout so, w.temp⟩, ⟨false, result, none, none, true⟩)

/-- api.py:75-91 `_add_url` with the statement parsed already, and 108, 114-117: the reply once there is a value. -/
def addUrl {S Code V A : Type} (P : Python S Code V A) (ser : Ctx A → Except SerErr (Response A)) (m : List Stmt) (fresh : Nat)
    (w : World S A) (v : V) : World S A × Reply :=
  let pf := (parseFeature (P.env w.vars) ⟨none, none⟩ m).2
  match ser ⟨pf.1, pf.2, .bytes true, P.value v⟩ with
  | .error .noMatching => (w, ⟨true, some (P.str v), none, none, false⟩)
  | .error (.py _) => (w, ⟨false, some (P.str v), none, none, true⟩)
  | .ok r => ({ w with temp := (fresh, r) :: w.temp }, ⟨true, some (P.str v), some fresh, some r.contentType, false⟩)

/-- api.py:104-117, inside the `try`: `ser` is `app.serialize`, `fresh` the uuid. -/
def postBody {S Code V A : Type} (P : Python S Code V A) (ser : Ctx A → Except SerErr (Response A)) (code : Code) (fresh : Nat)
    (w : World S A) : World S A × Reply :=
  match P.eval code w.vars with
  | (vars, printed, so, .value v) =>
    let w' : World S A := ⟨vars, setStdout w.stdout so, w.temp⟩
    match P.parse code with
    | none => runExec P code w' printed (some (P.str v))
    | some m => addUrl P ser m fresh w' v
  | (vars, printed, so, .syntaxError) => runExec P code ⟨vars, setStdout w.stdout so, w.temp⟩ printed none
  | (vars, _, so, .raised) => (⟨vars, setStdout w.stdout so, w.temp⟩, ⟨false, none, none, none, true⟩)

/-- api.py:93-117 `ReplHandler.post`: `sys.stdout` is a new object (`sio`) meanwhile, and is set back at the end in any case. -/
def post {S Code V A : Type} (P : Python S Code V A) (ser : Ctx A → Except SerErr (Response A)) (sio : Nat) (code : Code) (fresh : Nat)
    (w : World S A) : World S A × Reply :=
  let (w', r) := postBody P ser code fresh { w with stdout := sio }
  ({ w' with stdout := w.stdout }, r)

/-- api.py:52-63 `TempHandler.get`: none is a 404. -/
def getTemp {S A : Type} (w : World S A) (id : Nat) : Option (Response A) := w.temp.lookup id

end Zounds.Repl
