import Verif.Model.WebApp

/-! Model of `zounds/ui/baseapp.py`, lines 82-97: the HTML page of a web application is
read once, when the application object is built, and every `<script src="/file"></script>`
tag in it is replaced by the text of that file.

Simplification: a page and a script are lists of characters, and the file system is a
function from paths to contents or to an error (the exception `open` raises). -/

namespace Zounds.Page

open Zounds.Web (dropPrefix?)

/-- The characters the `\s` of a Python regular expression matches in a `str`
(baseapp.py:82; the white space of the `re` module is `str.isspace`). -/
def isSpace (c : Char) : Bool :=
  let n := c.toNat
  (9 ≤ n && n ≤ 13) || (28 ≤ n && n ≤ 32) || n == 133 || n == 160 || n == 5760 ||
    (8192 ≤ n && n ≤ 8202) || n == 8232 || n == 8233 || n == 8239 || n == 8287 || n == 12288

/-- `<script`, the literal head of the pattern (baseapp.py:82). -/
def head : List Char := ['<', 's', 'c', 'r', 'i', 'p', 't']

/-- `src="/`, the literal middle of the pattern (baseapp.py:82). -/
def middle : List Char := ['s', 'r', 'c', '=', '"', '/']

/-- `"></script>`, the literal end of the pattern (baseapp.py:82). -/
def tail : List Char := ['"', '>', '<', '/', 's', 'c', 'r', 'i', 'p', 't', '>']

/-- `<script>` (baseapp.py:95). -/
def openTag : List Char := ['<', 's', 'c', 'r', 'i', 'p', 't', '>']

/-- `</script>` (baseapp.py:95). -/
def closeTag : List Char := ['<', '/', 's', 'c', 'r', 'i', 'p', 't', '>']

/-- What the pattern finds at the beginning of a text: the file name and what is left after
the match (baseapp.py:82).  Both repetitions are greedy, and neither could be followed by
the next literal if it stopped earlier, so no backtracking is needed. -/
def tagAt (h : List Char) : Option (List Char × List Char) :=
  match dropPrefix? head h with
  | none => none
  | some r1 =>
    if r1.takeWhile isSpace = [] then none
    else match dropPrefix? middle (r1.dropWhile isSpace) with
      | none => none
      | some r2 =>
        if r2.takeWhile (· != '"') = [] then none
        else match dropPrefix? tail (r2.dropWhile (· != '"')) with
          | none => none
          | some rest => some (r2.takeWhile (· != '"'), rest)

/-- `[(filename, html[m.start(): m.end()]) for m in SCRIPT_TAG.finditer(html)]`
(baseapp.py:89-90).  The first argument counts the characters that still belong to the
previous match. -/
def findTags : Nat → List Char → List (List Char × List Char)
  | _, [] => []
  | k + 1, _ :: t => findTags k t
  | 0, c :: t =>
    match tagAt (c :: t) with
    | some (fn, rest) =>
      let tag := (c :: t).take ((c :: t).length - rest.length)
      (fn, tag) :: findTags (tag.length - 1) t
    | none => findTags 0 t

/-- `html.replace(old, new)`: every non-overlapping occurrence, from the left
(baseapp.py:94-95). -/
def replaceAll (old new : List Char) : Nat → List Char → List Char
  | _, [] => []
  | k + 1, _ :: t => replaceAll old new k t
  | 0, c :: t =>
    if old.isPrefixOf (c :: t) then new ++ replaceAll old new (old.length - 1) t
    else c :: replaceAll old new 0 t

/-- `'<script>{}</script>'.format(text)` (baseapp.py:95). -/
def wrap (s : List Char) : List Char := openTag ++ s ++ closeTag

/-- `os.path.join(directory, name)`: a name that starts with a slash is absolute
(baseapp.py:86, 93). -/
def join (dir name : List Char) : List Char :=
  if name.head? = some '/' then name
  else if dir = [] ∨ dir.getLast? = some '/' then dir ++ name
  else dir ++ '/' :: name

/-- The loop over the tags found (baseapp.py:92-95). -/
def inlineAll (dir : List Char) (fs : List Char → Except PyErr (List Char)) :
    List (List Char × List Char) → List Char → Except PyErr (List Char)
  | [], html => .ok html
  | (fn, tag) :: more, html =>
    match fs (join dir fn) with
    | .error e => .error e
    | .ok s => inlineAll dir fs more (replaceAll tag (wrap s) 0 html)

/-- `_get_html` (baseapp.py:84-97). -/
def getHtml (dir : List Char) (fs : List Char → Except PyErr (List Char)) (name : List Char) :
    Except PyErr (List Char) :=
  match fs (join dir name) with
  | .error e => .error e
  | .ok html => inlineAll dir fs (findTags 0 html) html

end Zounds.Page
