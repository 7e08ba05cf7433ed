import Verif.Model.Base

/-!
# zounds/soundfile/audiostream.py: `MemoryBuffer`, and the sample loop of `AudioStream`

`io.BytesIO` is a list of bytes and a position (which may lie beyond the end).
-/

namespace Zounds.Buffer

/-- audiostream.py:127-135: `_buf` (content and position), `_max_size`, `_content_length`, and which of `_tell` /
`_tell_end` the attribute `tell` currently is. `_total_bytes_written/_read` are never used. -/
structure Buf (α : Type) where
  data : List α
  pos : Nat
  maxSize : Nat
  contentLength : Nat
  tellIsEnd : Bool

/-- audiostream.py:127-135 `__init__` (`max_size` defaults to 10·1024·1024, here a parameter). -/
def init {α : Type} (contentLength maxSize : Nat) : Buf α := ⟨[], 0, maxSize, contentLength, false⟩

/-- audiostream.py:137-141 `read(count)`: `BytesIO.read` with any negative count reads to the end.  The position moves
by the number of bytes returned. -/
def read {α : Type} (b : Buf α) (count : Int) : List α × Buf α :=
  let out := if count < 0 then b.data.drop b.pos else (b.data.drop b.pos).take count.toNat
  (out, { b with pos := b.pos + out.length })

/-- audiostream.py:143-147 `readinto(buf)`: `size` is the length of the caller's buffer, `old` its content; result: new
content of the caller's buffer and the number of bytes. -/
def readinto {α : Type} (b : Buf α) (old : List α) : List α × Nat × Buf α :=
  let r := read b old.length
  (r.1 ++ old.drop r.1.length, r.1.length, r.2)

/-- audiostream.py:149-159 `write(data)`: if the read position is beyond `max_size`, keep only what has not been read;
append at the end; go back to the read position. -/
def write {α : Type} (b : Buf α) (d : List α) : Nat × Buf α :=
  let b' : Buf α := if b.pos > b.maxSize then { b with data := b.data.drop b.pos, pos := 0 } else b
  (d.length, { b' with data := b'.data ++ d })

/-- `os.SEEK_SET`, `os.SEEK_CUR`, `os.SEEK_END`. -/
inductive Whence where
  | set | cur | fromEnd
  deriving DecidableEq, Repr

/-- audiostream.py:168-173 `seek`.  `BytesIO.seek`: a negative absolute position is a ValueError; relative ones are
clamped at 0; positions beyond the end are allowed.  (`tell` is switched before the inner seek.) -/
def seek {α : Type} (b : Buf α) (offset : Int) (w : Whence) : Except PyErr (Buf α) :=
  match w with
  | .set => if offset < 0 then .error .valueError else .ok { b with pos := offset.toNat }
  | .cur => .ok { b with pos := ((b.pos : Int) + offset).toNat }
  | .fromEnd => .ok { b with pos := ((b.data.length : Int) + offset).toNat, tellIsEnd := true }

/-- audiostream.py:132, 161-166 `tell()`: `_tell_end` answers the content length once and reinstalls `_tell`. -/
def tell {α : Type} (b : Buf α) : Nat × Buf α :=
  if b.tellIsEnd then (b.contentLength, { b with tellIsEnd := false }) else (b.pos, b)

/-- The calls libsndfile's virtual io makes. -/
inductive Op (α : Type) where
  | write (d : List α)
  | read (count : Int)
  | seek (offset : Int) (w : Whence)
  | tell

/-- One call; `none` output for calls that return no bytes.  A failing seek leaves the buffer as it was. -/
def step {α : Type} (b : Buf α) : Op α → List α × Buf α
  | .write d => ([], (write b d).2)
  | .read n => read b n
  | .seek o w => ([], match seek b o w with | .ok b' => b' | .error _ => b)
  | .tell => ([], (tell b).2)

/-- A history of calls: the bytes returned by each, and the final buffer. -/
def run {α : Type} (b : Buf α) : List (Op α) → List (List α) × Buf α
  | [] => ([], b)
  | op :: ops => let r := step b op; let rs := run r.2 ops; (r.1 :: rs.1, rs.2)

/-- A sound file as `AudioStream` uses it: a list of samples and a read position (libsndfile; a read returns the next
samples that exist).  Decoding itself is not modelled; nor is the behaviour byte_depth.py:20-26 works around, that
libsndfile returns nothing ever again after an ogg or flac read that asked for more than was there. -/
def sfRead {α : Type} (samples : List α) (pos n : Nat) : List α := (samples.drop pos).take n

/-- audiostream.py:108-112 `_last_chunk`: keep reading `n` samples until a read is empty (`n > 0`; see
`byte_depth.chunk_size_samples`, which is at least the sample rate). -/
def lastChunks {α : Type} (samples : List α) (pos n : Nat) (hn : 0 < n) : List (List α) :=
  if h : pos < samples.length then
    sfRead samples pos n :: lastChunks samples (pos + n) n hn
  else []
termination_by samples.length - pos
decreasing_by omega

/-- audiostream.py:83-112: `_process` reads one chunk of `n` samples for every incoming chunk of bytes.  `avail` gives, for
each incoming chunk, how many samples can be decoded from the bytes so far; then `_last_chunk`.  `samples` are all the
samples of the file. -/
def audioStream {α : Type} (samples : List α) (n : Nat) (hn : 0 < n) : Nat → List Nat → List (List α)
  | pos, [] => lastChunks samples pos n hn
  | pos, a :: as =>
    let out := sfRead (samples.take a) pos n
    out :: audioStream samples n hn (pos + out.length) as

/-- byte_depth.py:2-16 `_lookup`: bytes per sample by subtype. -/
def byteDepth : List (String × Nat) :=
  [("MS_ADPCM", 1), ("IMA_ADPCM", 1), ("PCM_S8", 1), ("PCM_U8", 1), ("PCM_16", 2), ("PCM_24", 3), ("PCM_32", 4),
   ("FLOAT", 4), ("DOUBLE", 8), ("VORBIS", 3)]

/-- byte_depth.py:19-33 `chunk_size_samples`: `secs = len/bytes_per_second`, `max(1, secs - 6)`, `int(secs · rate)`, exact
rationals for floats; a zero rate or channel count is a ZeroDivisionError, an unknown subtype a KeyError. -/
def chunkSizeSamples (subtype : String) (channels rate nbytes : Nat) : Except PyErr Nat :=
  match byteDepth.lookup subtype with
  | none => .error .keyError
  | some d =>
    if d * rate * channels = 0 then .error .zeroDivision else
    let secs : Rat := max 1 ((nbytes : Rat) / ((d * rate * channels : Nat) : Rat) - 6)
    .ok (secs * (rate : Rat)).floor.toNat

/-- chunksize.py:28-31 `int(ChunkSizeBytes)`: durations and frequency in picoseconds (exact division). -/
def chunkSizeBytes (duration frequency channels bitDepth : Nat) : Nat :=
  (duration / frequency) * (bitDepth / 8) * channels

end Zounds.Buffer
