import Verif.Model.Base

/-!
# zounds/soundfile/audio_metadata.py

Texts are lists of characters.  `os.path.exists` and libsndfile's reading of a file's header are given by the world the program runs in.
`requests.Request` keeps its headers in a plain dictionary, in the order in which they were put in; when it is sent, headers that differ
in upper and lower case only are the same header and the last one wins.
-/

namespace Zounds.MetaData

abbrev Text := List Char

/-- `requests.Request`: method, url and headers. -/
structure Request where
  method : Text
  url : Text
  headers : List (Text × Text)
deriving DecidableEq, Repr

/-- Whatever can be given as a uri: text, a request, an in-memory file, a member of a zip file, any other file object.  Files are told apart by a
number. -/
inductive Uri
  | text (s : Text)
  | request (r : Request)
  | bytesIO (id : Nat)
  | zip (id : Nat)
  | file (id : Nat)
deriving DecidableEq, Repr

/-- Values of attributes: `None`, text, integers, and things JSON has no notation for. -/
inductive Attr
  | none
  | text (s : Text)
  | int (n : Int)
  | opaque (id : Nat)
deriving DecidableEq, Repr

/-- audio_metadata.py:11-59 `AudioMetaData`: the attributes, `extra` the ones given as keywords of other names. -/
structure AudioMetaData where
  uri : Uri
  samplerate : Attr
  channels : Attr
  licensing : Attr
  description : Attr
  tags : Attr
  extra : List (Text × Attr)
deriving DecidableEq, Repr

def nRequest : Text := ['r', 'e', 'q', 'u', 'e', 's', 't']
def nUri : Text := ['u', 'r', 'i']
def nSamplerate : Text := ['s', 'a', 'm', 'p', 'l', 'e', 'r', 'a', 't', 'e']
def nChannels : Text := ['c', 'h', 'a', 'n', 'n', 'e', 'l', 's']
def nLicensing : Text := ['l', 'i', 'c', 'e', 'n', 's', 'i', 'n', 'g']
def nDescription : Text := ['d', 'e', 's', 'c', 'r', 'i', 'p', 't', 'i', 'o', 'n']
def nTags : Text := ['t', 'a', 'g', 's']
def hRange : Text := ['R', 'a', 'n', 'g', 'e']
def hrange : Text := ['r', 'a', 'n', 'g', 'e']
def vRange : Text := ['b', 'y', 't', 'e', 's', '=', '0', '-']
def mGet : Text := ['G', 'E', 'T']

/-- audio_metadata.py:37-59 `__init__`: ValueError without a uri (`None` or empty text); the keyword `request` is taken by a property without a
setter (AttributeError). -/
def AudioMetaData.new (uri : Option Uri) (samplerate channels licensing description tags : Attr) (extra : List (Text × Attr)) :
    Except PyErr AudioMetaData :=
  match uri with
  | none => .error .valueError
  | some u =>
    if u = .text [] then .error .valueError
    else if nRequest ∈ extra.map Prod.fst then .error .attributeError
    else .ok ⟨u, samplerate, channels, licensing, description, tags, extra⟩

/-- audio_metadata.py:61-64 `request`: `None` unless the uri has an attribute `url`. -/
def AudioMetaData.request (m : AudioMetaData) : Option Request :=
  match m.uri with
  | .request r => some r
  | _ => none

/-- audio_metadata.py:66-72 `__eq__`.  Requests and file objects are compared by identity, taken here as equality. -/
def AudioMetaData.eq (a b : AudioMetaData) : Bool :=
  a.uri = b.uri && a.samplerate = b.samplerate && a.channels = b.channels && a.licensing = b.licensing &&
    a.description = b.description && a.tags = b.tags

/-- audio_metadata.py:87-93 `AudioMetaDataEncoder._uri`, as the value of an attribute. -/
def encodeUri : Uri → Attr
  | .request r => .text r.url
  | .bytesIO _ => .none
  | .zip _ => .none
  | .text s => .text s
  | .file id => .opaque id

/-- `json` has no notation for it. -/
def Attr.isOpaque : Attr → Bool
  | .opaque _ => true
  | _ => false

/-- audio_metadata.py:95-98 `_process`: the attributes in the order in which they were set, with the uri's text; `json.dumps` raises TypeError on
anything it has no notation for.  The notation itself is not modelled: the result is the JSON object. -/
def encode (m : AudioMetaData) : Except PyErr (List (Text × Attr)) :=
  let d := [(nUri, encodeUri m.uri), (nSamplerate, m.samplerate), (nChannels, m.channels), (nLicensing, m.licensing),
    (nDescription, m.description), (nTags, m.tags)] ++ m.extra
  if d.any (fun p => p.2.isOpaque) then .error .typeError
  else .ok d

/-- Python's `urllib.parse.scheme_chars`. -/
def schemeChar (c : Char) : Bool := c.isAlphanum || c = '+' || c = '-' || c = '.'

/-- audio_metadata.py:105-110 `_is_url` of text: `urlparse(s).scheme and urlparse(s).netloc`.  The scheme is what stands before the first colon
if it begins with a letter and consists of letters, digits, `+`, `-` and `.`; then the network location is what stands after `//` up to the
next `/`, `?` or `#`, and brackets that do not match in it are a ValueError.  Control characters, which some versions of Python strip,
are not modelled. -/
def isUrl (s : Text) : Except PyErr Bool :=
  let before := s.takeWhile (· ≠ ':')
  let hasScheme := before ≠ s ∧ before ≠ [] ∧ (before.headD ' ').isAlpha ∧ before.all schemeChar
  let rest := if hasScheme then s.drop (before.length + 1) else s
  if rest.take 2 = ['/', '/'] then
    let netloc := (rest.drop 2).takeWhile fun c => c ≠ '/' ∧ c ≠ '?' ∧ c ≠ '#'
    if ('[' ∈ netloc ∧ ']' ∉ netloc) ∨ (']' ∈ netloc ∧ '[' ∉ netloc) then .error .valueError
    else .ok (decide (hasScheme ∧ netloc ≠ []))
  else .ok false

/-- The world: `os.path.exists`, and `SoundFile(data)`: sample rate and number of channels, or an exception. -/
structure World where
  exist : Text → Bool
  soundFile : Uri → Except PyErr (Int × Int)

/-- What the node `MetaData` is given. -/
inductive Source
  | given (m : AudioMetaData)
  | uri (u : Uri)
deriving DecidableEq, Repr

/-- audio_metadata.py:141-145: metadata of something libsndfile can open. -/
def fromFile (w : World) (u : Uri) : Except PyErr AudioMetaData :=
  match w.soundFile u with
  | .error e => .error e
  | .ok (sr, ch) => AudioMetaData.new (some u) (.int sr) (.int ch) .none .none .none []

/-- audio_metadata.py:127-147 `MetaData._process`: the one value it yields.  In-memory files, zip members and files all have `tell`. -/
def process (w : World) : Source → Except PyErr AudioMetaData
  | .given m => .ok m
  | .uri (.text s) =>
    match isUrl s with
    | .error e => .error e
    | .ok true => AudioMetaData.new (some (.request ⟨mGet, s, [(hRange, vRange)]⟩)) .none .none .none .none .none []
    | .ok false =>
      if w.exist s then fromFile w (.text s)
      else AudioMetaData.new (some (.text s)) .none .none .none .none .none []
  | .uri (.request r) =>
    let r' := if hrange ∈ r.headers.map Prod.fst then r else { r with headers := r.headers ++ [(hrange, vRange)] }
    AudioMetaData.new (some (.request r')) .none .none .none .none .none []
  | .uri u => fromFile w u

/-- What is sent as header `name` (in lower case): of the headers that differ from it in case only, the last (`requests`' case-insensitive
dictionary). -/
def sent (r : Request) (name : Text) : Option Text :=
  ((r.headers.filter fun p => p.1.map Char.toLower = name).getLast?).map Prod.snd

end Zounds.MetaData
