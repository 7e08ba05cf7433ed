import Verif.Model.FloatRange
import Verif.Model.WebApp
import Verif.Model.Persist
/-!
# The pages' scripts

`zounds/ui/zounds.js`, `client.js`, `audioslice.js` and `search.js`, run by a browser one callback at a time.  The DOM is modelled by the lists of things the
scripts append to it, the network by requests that are answered at any later time in any order, or never.  jQuery 1.11.3 (html files) is modelled as documented:
`always`, `done` and `fail` callbacks run in the order they were added, `off(events)` removes every handler of those events, `val(undefined)` empties a field.
-/

namespace Zounds.Browser
open Zounds

/-! ## The console -/

/-- What comes back for a command: the result, with the url and content type of a feature if there is one; an error; or no answer with a JSON body
(connection lost). -/
inductive Answer (F : Type) where
  | done (result : String) (feature : Option F)
  | failed (error : String)
  | lost

/-- A line of the output (zounds.js:191-205). -/
inductive Line where
  | statement (s : String)
  | result (s : String)
  | error (s : String)
  deriving DecidableEq

/-- The state of `Console`: the history (zounds.js:143, oldest first), `history_pos` (166), the text of the input field, every command sent so far in order (the
requests, numbered from 0), the numbers of those not yet answered, the output and the features published. -/
structure Console (F : Type) where
  history : List String
  pos : Nat
  input : String
  sent : List String
  waiting : List Nat
  output : List Line
  published : List F

/-- The page just opened. -/
def Console.start {F : Type} : Console F := ⟨[], 0, "", [], [], [], []⟩

/-- zounds.js:145-148 `History.push`. -/
def pushItem (history : List String) (item : String) : List String := if item = "" then history else history ++ [item]

/-- zounds.js:150-153 `History.fetch` and `input.val(value)` (170): what the field shows; an index past the end is `undefined`, which empties it. -/
def fetchItem (history : List String) (index : Nat) : String := history.getD (history.length - index) ""

/-- What happens on the page. -/
inductive Event (F : Type) where
  | type (text : String)
  | up
  | down
  | enter
  | answer (n : Nat) (a : Answer F)

/-- zounds.js:195-208: the lines after the statement. -/
def Answer.lines {F : Type} : Answer F → List Line
  | .done r _ => [.result r]
  | .failed e => [.error e]
  | .lost => []

/-- zounds.js:196-198: the feature published. -/
def Answer.features {F : Type} : Answer F → List F
  | .done _ (some f) => [f]
  | _ => []

/-- zounds.js:177-213: the handlers of the keys and of the answers. -/
def Console.step {F : Type} (c : Console F) : Event F → Console F
  | .type text => { c with input := text }
  | .up => if c.pos < c.history.length then { c with pos := c.pos + 1, input := fetchItem c.history (c.pos + 1) } else c
  | .down => if 0 < c.pos then { c with pos := c.pos - 1, input := fetchItem c.history (c.pos - 1) } else c
  | .enter => { c with sent := c.sent ++ [c.input], waiting := c.waiting ++ [c.sent.length], input := "" }
  | .answer n a =>
    if n ∈ c.waiting then
      { c with
        waiting := c.waiting.erase n
        history := pushItem c.history (c.sent.getD n "")
        pos := 0
        output := c.output ++ .statement (c.sent.getD n "") :: a.lines
        published := c.published ++ a.features }
    else c

/-- A history of the page. -/
def Console.run {F : Type} (c : Console F) (es : List (Event F)) : Console F := es.foldl Console.step c

/-! ## Search results, one at a time -/

/-- One `AudioSlice` made for the results (audioslice.js:1-46): which result it is for, and whether its audio and its image have arrived. -/
structure Slice where
  result : Nat
  loaded : Bool
  deriving DecidableEq

/-- The state of `SearchResults` (zounds.js:54-98): the number of results, `position`, the slices made so far (numbered from 0; `self.slice` is the last one) and
the slices whose images are in the container, in order. -/
structure Carousel where
  n : Nat
  position : Int
  slices : List Slice
  shown : List Nat

/-- Keys and arrivals: `arrive k` is the moment both requests of slice `k` are answered (audioslice.js:33-45). -/
inductive Turn where
  | next
  | previous
  | arrive (k : Nat)
  deriving DecidableEq

/-- zounds.js:61-65 `render` (of a position that exists). -/
def Carousel.render (c : Carousel) : Carousel := { c with slices := c.slices ++ [⟨c.position.toNat, false⟩], shown := [] }

/-- zounds.js:55-59, 85-93: the constructor; with no results `data[0].slice` is a TypeError (audioslice.js:6), before anything is subscribed. -/
def Carousel.make (n : Nat) : Except PyErr Carousel :=
  if n = 0 then .error .typeError else .ok (Carousel.render ⟨n, 0, [], []⟩)

/-- audioslice.js:33-45: the image is appended and the audio kept. -/
def load (s : Slice) : Slice := { s with loaded := true }

/-- zounds.js:67-81 `next`, `previous`; audioslice.js:33-45. -/
def Carousel.step (c : Carousel) : Turn → Carousel
  | .next => Carousel.render { c with position := if c.position + 1 ≥ c.n then 0 else c.position + 1 }
  | .previous => Carousel.render { c with position := if c.position - 1 < 0 then c.n - 1 else c.position - 1 }
  | .arrive k =>
    match c.slices[k]? with
    | some s => if s.loaded then c else { c with slices := c.slices.set k (load s), shown := c.shown ++ [k] }
    | none => c

def Carousel.run (c : Carousel) (ts : List Turn) : Carousel := ts.foldl Carousel.step c

/-- audioslice.js:14-19: the result whose audio a slice plays; nothing (silence) before it has arrived. -/
def heard (s : Slice) : Option Nat := if s.loaded then some s.result else none

/-- zounds.js:83-85, 91: what the space key plays. -/
def Carousel.play (c : Carousel) : Option Nat := (c.slices.getLast?).bind heard

/-- audioslice.js:42-44: what a click on the `j`-th image plays. -/
def Carousel.click (c : Carousel) (j : Nat) : Option Nat := (c.shown[j]?).bind fun k => (c.slices[k]?).bind heard

/-! ## The visualization -/

/-- The content types the page tells apart (zounds.js:112-135). -/
inductive Kind where
  | image
  | audio
  | results
  | other
  deriving DecidableEq

/-- A view: what it is and the number of the feature it shows. -/
structure View where
  kind : Kind
  feature : Nat
  deriving DecidableEq

/-- The state of `Visualization` (zounds.js:100-139) and of the bus: what the element holds, `self.view`, the handlers of `PLAY`, `PREVIOUS` and `NEXT`, how many
features have come and which requests for results are open. -/
structure Visual where
  area : List View
  view : Option View
  onPlay : List View
  onPrevious : List View
  onNext : List View
  count : Nat
  waiting : List Nat
  deriving DecidableEq

def Visual.start : Visual := ⟨[], none, [], [], [], 0, []⟩

/-- zounds.js:21-23, 49-51, 95-97: `destroy`, by the kind of the view: `off` removes every handler of the events named; an image has no `destroy`. -/
def Visual.destroy (v : Visual) : Visual :=
  match v.view with
  | some ⟨.audio, _⟩ => { v with onPlay := [] }
  | some ⟨.results, _⟩ => { v with onPlay := [], onPrevious := [], onNext := [] }
  | _ => v

/-- `found n k`: the results asked for by feature `n` arrive, `k` of them. -/
inductive Arrival where
  | feature (kind : Kind)
  | found (n k : Nat)
  deriving DecidableEq

/-- zounds.js:105-136. -/
def Visual.step (v : Visual) : Arrival → Visual
  | .feature kind =>
    let w := { (Visual.destroy { v with area := [] }) with count := v.count + 1 }
    match kind with
    | .image => { w with area := [⟨.image, v.count⟩], view := some ⟨.image, v.count⟩ }
    | .audio => { w with area := [⟨.audio, v.count⟩], view := some ⟨.audio, v.count⟩, onPlay := w.onPlay ++ [⟨.audio, v.count⟩] }
    | .results => { w with waiting := v.waiting ++ [v.count] }
    | .other => w
  | .found n k =>
    if n ∈ v.waiting then
      if k = 0 then { v with waiting := v.waiting.erase n }
      else
        { v with
          waiting := v.waiting.erase n
          area := v.area ++ [⟨.results, n⟩]
          view := some ⟨.results, n⟩
          onPlay := v.onPlay ++ [⟨.results, n⟩]
          onPrevious := v.onPrevious ++ [⟨.results, n⟩]
          onNext := v.onNext ++ [⟨.results, n⟩] }
    else v

def Visual.run (v : Visual) (as : List Arrival) : Visual := as.foldl Visual.step v

/-! ## The client's endpoints -/

/-- client.js:5-14: the methods the client gets for the keys a `for ... in` loop runs through (with whether the key is the object's own), each with the endpoint it
calls: `var key` is one variable for all of them, and after the loop it holds the last key. -/
def clientMethods {K : Type} (keys : List (K × Bool)) : List (K × Option K) :=
  (keys.filter (·.2)).map fun k => (k.1, keys.getLast?.map (·.1))

/-! ## Asking for a stretch of sound -/

/-- audioslice.js:4-8: the start and the end asked for, of a result with the start and duration the server sent. -/
def sliceOf (start duration : ℚ) : ℚ × ℚ := (start, Float64.fl64 (start + duration))

/-- serializer.py:235-239: seconds as a float: a time in picoseconds over one second. -/
def seconds (ps : ℤ) : ℚ := Float64.quot ps (10 ^ 12)

/-- client.js:20-23: the header; `txt` is JavaScript's `Number.prototype.toString`. -/
def rangeHeader (txt : ℚ → List Char) (slice : ℚ × ℚ) : List Char :=
  ['s', 'e', 'c', 'o', 'n', 'd', 's', '='] ++ txt slice.1 ++ ['-'] ++ txt slice.2

/-! ## The address of a search -/

/-- Characters `encodeURIComponent` leaves alone: letters, digits and `-_.!~*'()`. -/
def plainChar (c : Char) : Bool :=
  let n := c.toNat
  (65 ≤ n && n ≤ 90) || (97 ≤ n && n ≤ 122) || (48 ≤ n && n ≤ 57) || n == 45 || n == 95 || n == 46 || n == 33 || n == 126 || n == 42 || n == 39 || n == 40 || n == 41

/-- `%` and two upper-case digits. -/
def percent (c : Char) : List Char := ['%', Web.hexDigit (c.toNat / 16), Web.hexDigit (c.toNat % 16)]

/-- `encodeURIComponent`, of ASCII text. -/
def encodeComponent (s : List Char) : List Char := s.flatMap fun c => if plainChar c then [c] else percent c

/-- A browser's normalisation of the query part of an address: it percent-encodes `'`. -/
def normalize (s : List Char) : List Char := s.flatMap fun c => if c = '\'' then percent c else [c]

/-- search.js:30-31: the query part of the address pushed for a query (`location.search`). -/
def searchPart (query : List Char) : List Char := normalize (['?', 'q', 'u', 'e', 'r', 'y', '='] ++ encodeComponent query)

/-- `s.split(sep)`, for a separator that is not empty: `acc` is the piece so far. -/
def splitOn (sep : List Char) (acc : List Char) : List Char → List (List Char)
  | [] => [acc]
  | c :: rest =>
    if sep.isPrefixOf (c :: rest) ∧ sep ≠ [] then acc :: splitOn sep [] (rest.drop (sep.length - 1))
    else splitOn sep (acc ++ [c]) rest
termination_by s => s.length

/-- search.js:20-22: `window.location.search.substring(1).split('query=')[1]`; the empty text counts as none (search.js:8). -/
def queryOf (part : List Char) : Option (List Char) :=
  match (splitOn ['q', 'u', 'e', 'r', 'y', '='] [] (part.drop 1))[1]? with
  | some [] => none
  | q => q

/-- jQuery's `param` (search.js:8): the value, encoded, with `%20` written as `+`. -/
def plusSpaces : List Char → List Char
  | '%' :: '2' :: '0' :: rest => '+' :: plusSpaces rest
  | c :: rest => c :: plusSpaces rest
  | [] => []

/-- What is sent for a query. -/
def sendArgument (query : List Char) : List Char := plusSpaces (encodeComponent query)

/-- Bytes as text (ASCII). -/
def asText (bs : List UInt8) : List Char := bs.map fun b => Char.ofNat b.toNat

/-- A character of which `str.strip` and tornado's cleaning of control characters leave nothing (ASCII). -/
def blank (c : Char) : Bool := c.toNat ≤ 32 || c.toNat == 127

/-- Both ends stripped. -/
def strip (s : List Char) : List Char := (((s.dropWhile blank).reverse).dropWhile blank).reverse

/-- search.py:35-37 `urllib.parse.unquote(self.get_argument('query'))`: tornado turns `+` into a space, unquotes and strips; then it is unquoted again.  ASCII only;
control characters, which tornado turns into spaces, are stripped at the ends and not modelled inside. -/
def receiveArgument (arg : List Char) : List Char :=
  asText (Web.unquote (strip (asText (Web.unquote (arg.map fun c => if c = '+' then ' ' else c)))))

/-! ## The search page -/

/-- An entry of the browser's history: the query of its address, and whether it was made by `pushState` (then its `state` is not null). -/
structure Entry where
  query : Option (List Char)
  pushed : Bool
  deriving DecidableEq

/-- The search page: the entries of the history up to the last one, which one is current, which query's results are shown, and the requests not yet answered: `none`
is a random search. -/
structure Page where
  entries : List Entry
  current : Nat
  shown : Option (List Char)
  waiting : List (Option (List Char))
  deriving DecidableEq

/-- The query of the address the browser shows. -/
def Page.address (p : Page) : Option (List Char) := (p.entries[p.current]?).bind (·.query)

/-- search.js:43, 18-23: the page is opened at an address. -/
def Page.open (query : Option (List Char)) : Page := ⟨[⟨query, false⟩], 0, none, [query]⟩

/-- `click`: the button (search.js:36); `go i`: back or forward to entry `i` (38-41); `answer k q`: the `k`-th open request is answered, with results for `q`. -/
inductive Act where
  | click
  | go (i : Nat)
  | answer (k : Nat) (q : List Char)
  deriving DecidableEq

/-- search.js:24-33: the results replace those shown; after a random search the address becomes that of its query, and entries after the current one are dropped. -/
def Page.answered (p : Page) (r : Option (List Char)) (q : List Char) : Page :=
  match r with
  | some _ => { p with shown := some q }
  | none => { p with shown := some q, entries := p.entries.take (p.current + 1) ++ [⟨some q, true⟩], current := p.current + 1 }

/-- search.js:17-43. -/
def Page.step (p : Page) : Act → Page
  | .click => { p with waiting := p.waiting ++ [none] }
  | .go i =>
    match p.entries[i]? with
    | none => p
    | some e => if e.pushed then { p with current := i, waiting := p.waiting ++ [e.query] } else { p with current := i }
  | .answer k q =>
    match p.waiting[k]? with
    | none => p
    | some r => Page.answered { p with waiting := p.waiting.eraseIdx k } r q

def Page.run (p : Page) (as : List Act) : Page := as.foldl Page.step p

end Zounds.Browser
