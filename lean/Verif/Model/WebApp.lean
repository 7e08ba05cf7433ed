import Verif.Model.Base

/-!
# zounds/ui/baseapp.py (routing, security, feature urls), with the route tables of zounds/ui/api.py,
# zounds/ui/training_monitor.py and zounds/ui/search.py

Tornado 4.5.3 (requirements.txt:6) is modelled by: the first route whose pattern matches the whole path handles the
request; a method the handler class does not define answers 405; `@authenticated` answers GET and HEAD with a redirect
to the login page and everything else with 403 when there is no current user; a signed cookie is accepted only if it
was signed with the application's own `cookie_secret`.
-/

namespace Zounds.Web

/-- `RequestHandler.SUPPORTED_METHODS` of tornado 4.5.3. -/
inductive Method where
  | get | head | post | delete | patch | put | options
  deriving DecidableEq, Repr

/-- A signed cookie: the key that signed it and its value. -/
structure Cookie where
  key : Nat
  value : List Char
  deriving DecidableEq, Repr

/-- A request, as far as the modelled code looks at it: `secret` is the body argument of the login form. -/
structure Request where
  method : Method
  path : List Char
  cookie : Option Cookie
  secret : Option (List Char)

/-- What happened: the body of a handler method ran (with its response, and the cookie it set, if any), or it was answered
before that. -/
inductive Outcome (R : Type) where
  | ran (r : R) (setCookie : Option Cookie)
  | redirectToLogin
  | forbidden
  | methodNotAllowed
  | notFound
  | badRequest

/-- A handler class: what each method does with a request. -/
abbrev Handler (R : Type) := Method → Request → Outcome R

/-- A route `(pattern, handler_cls)`; `accepts` is what the regular expression `pattern` matches. -/
structure Route (R : Type) where
  pattern : List Char
  accepts : List Char → Bool
  handler : Handler R

/-- The application: `secret` (baseapp.py:51), tornado's `cookie_secret`, a fresh uuid4 per `_make_app` (baseapp.py:253). -/
structure App where
  secret : Option (List Char)
  cookieKey : Nat

/-- `self.get_secure_cookie('user')` (baseapp.py:202-203): the value of a cookie signed with this application's key. -/
def secureCookie (app : App) (req : Request) : Option (List Char) :=
  match req.cookie with
  | none => none
  | some c => if c.key = app.cookieKey then some c.value else none

/-- `if not self.current_user` in tornado's `authenticated`: None and the empty value are falsy. -/
def loggedIn (app : App) (req : Request) : Bool :=
  match secureCookie app req with
  | none => false
  | some v => !v.isEmpty

/-- tornado.web.authenticated around a method. -/
def authenticated {R : Type} (app : App) (m : Method) (f : Request → Outcome R) (req : Request) : Outcome R :=
  if loggedIn app req then f req
  else if m = .get ∨ m = .head then .redirectToLogin
  else .forbidden

/-- baseapp.py:198-227 the class `Secured`: get, post, put, delete, head and options are wrapped; patch is inherited as it
is. -/
def secured {R : Type} (app : App) (h : Handler R) : Handler R := fun m req =>
  match m with
  | .get => authenticated app .get (h .get) req
  | .post => authenticated app .post (h .post) req
  | .put => authenticated app .put (h .put) req
  | .delete => authenticated app .delete (h .delete) req
  | .head => authenticated app .head (h .head) req
  | .options => authenticated app .options (h .options) req
  | .patch => h .patch req

/-- The text `login`. -/
def loginText : List Char := ['l', 'o', 'g', 'i', 'n']

/-- baseapp.py:191-232 `_secure_route`: patterns in which `login` occurs are left alone. -/
def secureRoute {R : Type} (app : App) (r : Route R) : Route R :=
  if loginText <:+: r.pattern then r else { r with handler := secured app r.handler }

/-- baseapp.py:234-243 `_make_app`: custom routes first; secured only if the secret is truthy. -/
def makeApp {R : Type} (app : App) (custom base : List (Route R)) : List (Route R) :=
  let routes := custom ++ base
  match app.secret with
  | none => routes
  | some s => if s = [] then routes else routes.map (secureRoute app)

/-- Dispatch: the first route that accepts the path. -/
def dispatch {R : Type} : List (Route R) → Request → Outcome R
  | [], _ => .notFound
  | r :: rs, req => if r.accepts req.path then r.handler req.method req else dispatch rs req

/-- baseapp.py:164-177 `LoginHandler`: GET shows the page; POST with the right secret sets the signed cookie; a wrong secret
is answered 401 with the page again (also a handler response, no cookie); a missing argument is a 400. -/
def loginHandler {R : Type} (app : App) (page unauthorized redirectHome : R) : Handler R := fun m req =>
  match m with
  | .get => .ran page none
  | .post => match req.secret with
    | none => .badRequest
    | some s => if some s = app.secret then .ran redirectHome (some ⟨app.cookieKey, s⟩) else .ran unauthorized none
  | _ => .methodNotAllowed

/-- A handler class that defines only GET (`UIHandler` baseapp.py:152-157, `FeatureHandler` 120-145, `TempHandler` api.py:50-63,
`GraphHandler`, `SearchHandler`), with an arbitrary body. -/
def getOnly {R : Type} (f : Request → R) : Handler R := fun m req =>
  match m with
  | .get => .ran (f req) none
  | _ => .methodNotAllowed

/-- A handler class that defines only POST (`ReplHandler`, api.py:73-117), with an arbitrary body. -/
def postOnly {R : Type} (f : Request → R) : Handler R := fun m req =>
  match m with
  | .post => .ran (f req) none
  | _ => .methodNotAllowed

/-- `/zounds/` as characters. -/
def zoundsText : List Char := ['/', 'z', 'o', 'u', 'n', 'd', 's', '/']

/-- Remove one trailing slash if something is left before it: `(.+?)/?$` captures this. -/
def stripSlash (s : List Char) : List Char :=
  if s.getLast? = some '/' ∧ s.length ≠ 1 then s.dropLast else s

/-- `(.+?)/(.+?)/?$` on a single-line text: the first group is the shortest non-empty prefix that is followed by a slash
with something after it; the second group loses one trailing slash. -/
def twoGroups : List Char → List Char → Option (List Char × List Char)
  | _, [] => none
  | acc, c :: cs =>
    if acc ≠ [] ∧ c = '/' ∧ cs ≠ [] then some (acc, stripSlash cs) else twoGroups (acc ++ [c]) cs

/-- `s` without the prefix `p`, if it has it. -/
def dropPrefix? : List Char → List Char → Option (List Char)
  | [], s => some s
  | _ :: _, [] => none
  | p :: ps, c :: cs => if p = c then dropPrefix? ps cs else none

/-- baseapp.py:187 `r'/zounds/(.+?)/(.+?)/?'`: the two captured groups (single-line paths). -/
def featureMatch (path : List Char) : Option (List Char × List Char) :=
  match dropPrefix? zoundsText path with
  | none => none
  | some rest => twoGroups [] rest

/-- `/zounds/<name>/?`. -/
def namedMatch (name path : List Char) : Bool :=
  path == zoundsText ++ name || path == zoundsText ++ name ++ ['/']

/-- api.py:49 `r'/zounds/temp/(.+?)/?'`: the captured group. -/
def tempMatch (path : List Char) : Option (List Char) :=
  match dropPrefix? (zoundsText ++ ['t', 'e', 'm', 'p', '/']) path with
  | none => none
  | some [] => none
  | some rest => some (stripSlash rest)

/-- baseapp.py:181-186 `base_routes`. -/
def baseRoutes {R : Type} (app : App) (ui feature : Request → R) (page unauthorized home : R) : List (Route R) :=
  [ ⟨['/'], fun p => p == ['/'], getOnly ui⟩,
    ⟨zoundsText ++ ['(', '.', '+', '?', ')', '/', '(', '.', '+', '?', ')', '/', '?'], fun p => (featureMatch p).isSome,
      getOnly feature⟩,
    ⟨zoundsText ++ loginText ++ ['/', '?'], namedMatch loginText, loginHandler app page unauthorized home⟩ ]

/-- api.py:40-44 `ZoundsApp.custom_routes`. -/
def replRoutes {R : Type} (temp repl : Request → R) : List (Route R) :=
  [ ⟨zoundsText ++ ['t', 'e', 'm', 'p', '/', '(', '.', '+', '?', ')', '/', '?'], fun p => (tempMatch p).isSome, getOnly temp⟩,
    ⟨zoundsText ++ ['r', 'e', 'p', 'l', '/', '?'], namedMatch ['r', 'e', 'p', 'l'], postOnly repl⟩ ]

/-- training_monitor.py:52-58 `TrainingMonitorApp.custom_routes` (the websocket handler is a GET). -/
def monitorRoutes {R : Type} (temp repl training graph : Request → R) : List (Route R) :=
  replRoutes temp repl ++
  [ ⟨zoundsText ++ ['t', 'r', 'a', 'i', 'n', 'i', 'n', 'g', '/', '?'], namedMatch ['t', 'r', 'a', 'i', 'n', 'i', 'n', 'g'],
      getOnly training⟩,
    ⟨zoundsText ++ ['g', 'r', 'a', 'p', 'h', '/', '?'], namedMatch ['g', 'r', 'a', 'p', 'h'], getOnly graph⟩ ]

/-! ## Feature urls -/

/-- Characters `urllib.parse.quote` never quotes: letters, digits and `_.-~`. -/
def unreserved (b : UInt8) : Bool :=
  (65 ≤ b && b ≤ 90) || (97 ≤ b && b ≤ 122) || (48 ≤ b && b ≤ 57) || b == 95 || b == 46 || b == 45 || b == 126

/-- One upper-case hexadecimal digit. -/
def hexDigit (n : Nat) : Char := if n < 10 then Char.ofNat (48 + n) else Char.ofNat (55 + n)

/-- `urllib.parse.quote(_id, safe='')` on the UTF-8 bytes of the id (baseapp.py:101). -/
def quote : List UInt8 → List Char
  | [] => []
  | b :: bs =>
    (if unreserved b then [Char.ofNat b.toNat] else ['%', hexDigit (b.toNat / 16), hexDigit (b.toNat % 16)]) ++ quote bs

/-- Value of a hexadecimal digit, either case. -/
def hexVal (c : Char) : Option Nat :=
  let n := c.toNat
  if 48 ≤ n ∧ n ≤ 57 then some (n - 48)
  else if 65 ≤ n ∧ n ≤ 70 then some (n - 55)
  else if 97 ≤ n ∧ n ≤ 102 then some (n - 87)
  else none

/-- tornado's unescaping of a captured path group (`urllib.parse.unquote_to_bytes`): `%XX` is a byte, a `%` not followed by
two hexadecimal digits stays as it is.  ASCII characters only (a path cannot contain others). -/
def unquote : List Char → List UInt8
  | [] => []
  | '%' :: a :: b :: rest =>
    match hexVal a, hexVal b with
    | some x, some y => UInt8.ofNat (16 * x + y) :: unquote rest
    | _, _ => 37 :: unquote (a :: b :: rest)
  | c :: rest => UInt8.ofNat c.toNat :: unquote rest
termination_by s => s.length

/-- baseapp.py:99-102 `feature_path`. -/
def featurePath (basePath : List Char) (id : List UInt8) (feature : List Char) : List Char :=
  basePath ++ quote id ++ '/' :: feature

/-- The arguments `FeatureHandler.get(_id, feature)` receives for a path, if the feature route matches it. -/
def featureArgs (path : List Char) : Option (List UInt8 × List UInt8) :=
  match featureMatch path with
  | none => none
  | some (a, b) => some (unquote a, unquote b)

/-! ## Training history -/

/-- training_monitor.py:60-75 `_collect_training_history` for one key: skip unless the batch number is a multiple of the batch
frequency; keep the last `n` points (`[-n:]`, which for `n = 0` keeps all), append the new value if there is one. -/
def collect {V : Type} (frequency n : Nat) (history : List V) (batch : Nat) (value : Option V) : List V :=
  if batch % frequency ≠ 0 then history
  else
    let h := if n = 0 then history else history.drop (history.length - n)
    match value with
    | some v => h ++ [v]
    | none => h

end Zounds.Web
