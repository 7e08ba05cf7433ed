import Verif.Model.Ops

/-!
# zounds/datasets: internetarchive.py, nsynth.py, musicnet.py, phatdrumloops.py, predownload.py, filesystem.py, freesound.py (one sound)

Generators are modelled by what they yield and the exception that ends them, if any.  Every yielded `AudioMetaData` is given by its uri and
its keyword arguments (audio_metadata.py:37-59).
-/

namespace Zounds.Archives
open Zounds Zounds.Ops

/-- Exceptions: Python's, and `csv.Error`, which is none of them. -/
inductive Fail where
  | py (e : PyErr)
  | csvError
  deriving DecidableEq, Repr

/-- JSON values, as far as it matters: text or anything else. -/
inductive Val where
  | text (s : String)
  | other (n : Nat)
  deriving DecidableEq, Repr

/-- `AudioMetaData(uri=…, **kwargs)` (audio_metadata.py:37-59): keywords given twice are a TypeError, `request` is a property without a
setter (AttributeError).  `given` are the keywords the caller writes out besides the uri. -/
def audioMetaData {U V : Type} (uri : U) (given : List String) (kwargs : Dict V) : Except Fail (U × Dict V) :=
  if kwargs.any fun kv => kv.1 = "uri" ∨ kv.1 = "self" ∨ kv.1 ∈ given then .error (.py .typeError)
  else if kwargs.any fun kv => kv.1 = "request" then .error (.py .attributeError)
  else .ok (uri, kwargs)

/-! ## InternetArchive -/

/-- What the archive says of one file. -/
abbrev Entry := Dict Val

/-- internetarchive.py:37-39: what can be given as `format_filter`. -/
inductive Filter where
  | default
  | text (s : String)
  | func (f : Entry → Except Fail Bool)

/-- internetarchive.py:42-43 and 63: applying the filter to a file.  The empty text is replaced with the default, other text cannot be called. -/
def Filter.apply : Filter → Entry → Except Fail Bool
  | .text s, e =>
    if s = "" then
      match get e "format" with
      | none => .error (.py .keyError)
      | some v => .ok (v = .text "Ogg Vorbis")
    else .error (.py .typeError)
  | .default, e =>
    match get e "format" with
    | none => .error (.py .keyError)
    | some v => .ok (v = .text "Ogg Vorbis")
  | .func f, e => f e

/-- internetarchive.py:41-45 `_get_metadata`: the name of the file whose entry is used.  For any other source it returns `None`, which has no
`update` (AttributeError, line 68). -/
def metadataOf (files : Dict Entry) (k : String) (e : Entry) : Except Fail String :=
  match get e "source" with
  | none => .error (.py .keyError)
  | some s =>
    if s = .text "original" then .ok k
    else if s = .text "derivative" then
      match get e "original" with
      | none => .error (.py .keyError)
      | some (.other _) => .error (.py .typeError)
      | some (.text o) => if (get files ("/" ++ o)).isSome then .ok ("/" ++ o) else .error (.py .keyError)
    else .error (.py .attributeError)

/-- internetarchive.py:65-68: the entry after both updates, which change it in place. -/
def enriched (attrs : Entry) (archiveId : String) (e : Entry) : Entry :=
  put (update e attrs) "web_url" (.text ("https://archive.org//details/" ++ archiveId))

/-- internetarchive.py:64-65: the url of a file; `join` is `urllib.parse.urljoin`. -/
def soundUrl (join : String → String → String) (archiveId k : String) : String :=
  join "https://archive.org/" ("/download/" ++ archiveId ++ k)

/-- internetarchive.py:60-69: one file. The files after it, and what is yielded. -/
def archiveStep (join : String → String → String) (flt : Filter) (attrs : Entry) (archiveId : String) (files : Dict Entry) (k : String) :
    Except Fail (Dict Entry × Option (String × Entry)) :=
  let e := (get files k).getD []
  match flt.apply e with
  | .error x => .error x
  | .ok false => .ok (files, none)
  | .ok true =>
    match metadataOf files k e with
    | .error x => .error x
    | .ok m =>
      let e' := enriched attrs archiveId ((get files m).getD [])
      match audioMetaData (soundUrl join archiveId k) [] e' with
      | .error x => .error x
      | .ok y => .ok (put files m e', some y)

/-- internetarchive.py:59-69: the loop over the files. -/
def archiveLoop (join : String → String → String) (flt : Filter) (attrs : Entry) (archiveId : String) :
    Dict Entry → List String → List (String × Entry) × Option Fail
  | _, [] => ([], none)
  | files, k :: ks =>
    match archiveStep join flt attrs archiveId files k with
    | .error x => ([], some x)
    | .ok (files', none) => archiveLoop join flt attrs archiveId files' ks
    | .ok (files', some y) =>
      (y :: (archiveLoop join flt attrs archiveId files' ks).1, (archiveLoop join flt attrs archiveId files' ks).2)

/-- What archive.org answers: nothing, something that is not JSON, a JSON object without `files`, or one with it. -/
inductive Answer where
  | unreachable
  | notJson
  | noFiles
  | files (fs : Dict Entry)

/-- internetarchive.py:30-39 `__init__` and 47-69 `__iter__`: ValueError without an id; only a ValueError of the answer is caught. -/
def internetArchive (join : String → String → String) (archiveId : String) (flt : Filter) (attrs : Entry) (a : Answer) :
    List (String × Entry) × Option Fail :=
  if archiveId = "" then ([], some (.py .valueError))
  else
    match a with
    | .unreachable => ([], some (.py .connectionError))
    | .notJson => ([], none)
    | .noFiles => ([], some (.py .keyError))
    | .files fs => archiveLoop join flt attrs archiveId fs (fs.map (·.1))

/-! ## PreDownload -/

abbrev Bytes := List Nat
abbrev Text := List Char

/-- predownload.py:4-9 `PreDownload`: bytes in memory with a url. -/
structure PreDownload where
  content : Bytes
  url : Text
  deriving DecidableEq, Repr

/-- predownload.py:5-9 `__init__`. -/
def PreDownload.new (content : Bytes) (url : Text) : Except Fail PreDownload :=
  if url = [] then .error (.py .valueError) else .ok ⟨content, url⟩

/-- audio_metadata.py:87-93 `AudioMetaDataEncoder._uri` of a `PreDownload`, which is a `BytesIO`: `None`. -/
def PreDownload.encodedUri (_ : PreDownload) : Option Text := none

/-- audio_metadata.py:61-64 `AudioMetaData.request` of a `PreDownload`: it has a url, so it is returned itself. -/
def PreDownload.request (p : PreDownload) : Option PreDownload := some p

/-! ## NSynth -/

/-- A member of the tar file: its name, whether it is a regular file, and its content. -/
structure Member where
  name : Text
  isFile : Bool
  content : Bytes
  deriving DecidableEq

/-- `os.path.split(p)[1]`. -/
def baseName (p : Text) : Text := (p.reverse.takeWhile (· ≠ '/')).reverse

/-- `os.path.splitext(b)[0]` of a name without slashes: everything before the last dot, unless only dots precede it. -/
def stem (b : Text) : Text :=
  if '.' ∈ b ∧ (b.take (b.length - 1 - b.reverse.idxOf '.')).any (· ≠ '.') then b.take (b.length - 1 - b.reverse.idxOf '.') else b

/-- `'.json'`. -/
def dotJson : Text := ['.', 'j', 's', 'o', 'n']

/-- nsynth.py:32 and 38: `fnmatch.fnmatch(info.name, '*.json')` on a case-sensitive system. -/
def isJson (m : Member) : Bool := m.name.drop (m.name.length - 5) = dotJson

/-- The sounds' descriptions, by id; `parse` is `json.load`. -/
abbrev Catalogue := Text → Option (Dict Val)

/-- nsynth.py:28-34: the last JSON file wins.  Of a directory there is nothing to load (AttributeError). -/
def lastJson (parse : Bytes → Except Fail Catalogue) : Option Catalogue → List Member → Except Fail (Option Catalogue)
  | c, [] => .ok c
  | c, m :: ms =>
    if isJson m then
      if m.isFile then
        match parse m.content with
        | .error x => .error x
        | .ok c' => lastJson parse (some c') ms
      else .error (.py .attributeError)
    else lastJson parse c ms

/-- `'https://magenta.tensorflow.org/datasets/nsynth/'`, kept abstract. -/
def nsynthUrl (pre : Text) (i : Text) : Text := pre ++ i

/-- nsynth.py:41-52: one sound.  Without a JSON file there is nothing to look it up in (TypeError). -/
def nsynthSound (pre : Text) (c : Option Catalogue) (m : Member) : Except Fail (PreDownload × Dict Val) :=
  let i := stem (baseName m.name)
  match PreDownload.new m.content (nsynthUrl pre i) with
  | .error x => .error x
  | .ok p =>
    match c with
    | none => .error (.py .typeError)
    | some c =>
      match c i with
      | none => .error (.py .keyError)
      | some d => audioMetaData p ["web_url"] d

/-- nsynth.py:36-52: the second pass; JSON files and whatever is no regular file are passed over. -/
def nsynthLoop (pre : Text) (c : Option Catalogue) : List Member → List (PreDownload × Dict Val) × Option Fail
  | [] => ([], none)
  | m :: ms =>
    if isJson m ∨ m.isFile = false then nsynthLoop pre c ms
    else
      match nsynthSound pre c m with
      | .error x => ([], some x)
      | .ok y => (y :: (nsynthLoop pre c ms).1, (nsynthLoop pre c ms).2)

/-- nsynth.py:25-52 `__iter__`, with the local file in place. -/
def nsynth (pre : Text) (parse : Bytes → Except Fail Catalogue) (members : List Member) : List (PreDownload × Dict Val) × Option Fail :=
  match lastJson parse none members with
  | .error x => ([], some x)
  | .ok c => nsynthLoop pre c members

/-! ## MusicNet -/

/-- `csv.DictReader` over a file: lines are text or, from a file opened with `'rb'`, bytes.  Reading the header asks for the first line; only the
end of the file is caught. -/
def csvRows {Row : Type} (binary : Bool) (parse : List Text → List Row) (lines : List Text) : Except Fail (List Row) :=
  match lines with
  | [] => .ok []
  | _ :: _ => if binary then .error .csvError else .ok (parse lines)

/-- musicnet.py:28-51 `__iter__` with the metadata file in place: `parse` reads rows of the csv file, `idOf` is `row['id']`; `sound` is
`AudioSamples.from_file(…).encode().read()`.  Yielded: the id, the bytes and the row. -/
def musicNet {Row : Type} (parse : List Text → List Row) (idOf : Row → Text) (sound : Text → Except Fail Bytes) (metadata : List Text)
    (listing : List Text) : List (Text × Bytes × Row) × Option Fail :=
  match csvRows true parse metadata with
  | .error x => ([], some x)
  | .ok rows =>
    let rec loop : List Text → List (Text × Bytes × Row) × Option Fail
      | [] => ([], none)
      | f :: fs =>
        match rows.reverse.find? fun r => idOf r = stem f with
        | none => ([], some (.py .keyError))
        | some r =>
          match sound f with
          | .error x => ([], some x)
          | .ok b => ((stem f, b, r) :: (loop fs).1, (loop fs).2)
    loop listing

/-! ## PhatDrumLoops -/

/-- What `re` is given to search in. -/
inductive Haystack where
  | str (s : Text)
  | bytes (b : Bytes)

/-- `re.compile(<str>).finditer(…)`: a text pattern does not apply to bytes. -/
def finditer {M : Type} (matches_ : Text → List M) : Haystack → Except Fail (List M)
  | .str s => .ok (matches_ s)
  | .bytes _ => .error (.py .typeError)

/-- phatdrumloops.py:32-42 `__iter__`: the page, or no connection; `resp.content` is bytes. -/
def phatDrumLoops {M : Type} (matches_ : Text → List M) (page : Option Bytes) : List M × Option Fail :=
  match page with
  | none => ([], some (.py .connectionError))
  | some b =>
    match finditer matches_ (.bytes b) with
    | .error x => ([], some x)
    | .ok ms => (ms, none)

/-! ## Directory -/

/-- `os.path.join(path, name)` for a name without slashes. -/
def joinPath (path name : Text) : Text :=
  if path = [] ∨ path.getLast? = some '/' then path ++ name else path ++ '/' :: name

/-- filesystem.py:8-12 `Directory.__iter__`: `names` is `os.listdir(path)`. -/
def directory (path : Text) (names : List Text) (isDir : Text → Bool) : List Text :=
  (names.filter fun f => !isDir (joinPath path f)).map fun f => joinPath path f

/-! ## FreeSoundSearch: one sound -/

/-- What freesound.org says of a sound; every property may be missing, and the previews are a dictionary of their own. -/
structure Sound where
  previews : Option (Dict String)
  props : Dict Val

/-- What `_freesound_to_audio_metadata` makes of it: the request's url and token, and the metadata. -/
structure FreeSound where
  url : String
  token : String
  samplerate : Val
  channels : Val
  licensing : Val
  description : Val
  tags : Val
  webUrl : String × Val × Val
  deriving DecidableEq

/-- `data[k]`. -/
def item (d : Dict Val) (k : String) : Except Fail Val :=
  match get d k with
  | none => .error (.py .keyError)
  | some v => .ok v

/-- freesound.py:53-69 `_freesound_to_audio_metadata`, in the order in which the properties are asked for.  The web url is given by its constant
part, the user's name and the sound's id. -/
def freeSoundMetaData (apiKey : String) (s : Sound) : Except Fail FreeSound :=
  match s.previews with
  | none => .error (.py .keyError)
  | some pv =>
    match get pv "preview-hq-ogg" with
    | none => .error (.py .keyError)
    | some url => do
      let user ← item s.props "username"
      let i ← item s.props "id"
      let sr ← item s.props "samplerate"
      let ch ← item s.props "channels"
      let li ← item s.props "license"
      let de ← item s.props "description"
      let ta ← item s.props "tags"
      pure ⟨url, apiKey, sr, ch, li, de, ta, ("https://freesound.org/people/", user, i)⟩

end Zounds.Archives
