import Verif.Model.Audio

/-!
# zounds/soundfile/resample.py: `Resample`, `Resampler`

The native library (libsamplerate) is a parameter: a state, and for each request the frames it generates and a return code.  What
the wrapper does around it (buffer sizes, pointers, order of the calls, labels on the result) is modelled exactly, including the
flat memory the two pointers give the library access to.  Numbers are the elements of a field (the conversion to float32 is not
modelled), and the product `len(insamples) * self._ratio` is taken exactly.
-/

namespace Zounds.Resample
open Zounds.Audio (Raw RateArg Audio squeezed silence)

/-- How a call can fail: with a Python exception, or because the library was told it may write to memory that is not part of the
output buffer. -/
inductive Fault where
  | py (e : PyErr)
  | memory
  deriving DecidableEq, Repr

/-- The `SRC_DATA` struct handed to `src_process` (resample.py:105-117): the floats readable behind `data_in`
(`input_frames` frames), the two frame counts, the end flag, and the ratio as the pair of rates. -/
structure Request (α : Type) where
  input : List α
  inputFrames : Nat
  outputFrames : Nat
  endOfInput : Bool
  newRate : Nat
  origRate : Nat
  deriving DecidableEq, Repr

/-- The native library: `src_is_valid_ratio`, `src_new` and `src_process` (resample.py:67, 78, 119).  `process` gives the new state,
the frames generated and the return code. -/
structure Lib (σ α : Type) where
  validRatio : Nat → Nat → Bool
  new : Nat → σ
  process : σ → Request α → σ × List (List α) × Nat

/-- A `Resample` instance (resample.py:65-79): the ratio, the number of channels and the library's state. -/
structure Resample (σ : Type) where
  newRate : Nat
  origRate : Nat
  nchannels : Nat
  state : σ
  deriving DecidableEq, Repr

/-- resample.py:48-79 `Resample.__init__`: the ratio (ZeroDivisionError for rate zero), ValueError if the library refuses it. -/
def Resample.new {σ α : Type} (lib : Lib σ α) (orig new nchannels : Nat) : Except PyErr (Resample σ) :=
  if orig = 0 then .error .zeroDivision
  else if lib.validRatio new orig then .ok ⟨new, orig, nchannels, lib.new nchannels⟩
  else .error .valueError

/-- `int(np.round(a / b))`: to the nearest integer, halves to the even one. -/
def roundDiv (a b : Nat) : Nat :=
  let q := a / b
  let r := a % b
  if 2 * r < b then q else if b < 2 * r then q + 1 else if q % 2 = 0 then q else q + 1

/-- resample.py:87-88: number of frames of the output buffer for `n` input frames. -/
def Resample.outSize {σ : Type} (rs : Resample σ) (n : Nat) : Nat := roundDiv (n * rs.newRate) rs.origRate

/-- `len(array)`: the size of the first axis, TypeError for an array without axes. -/
def rawLen {α : Type} : Raw α → Except PyErr Nat
  | .vec xs => .ok xs.length
  | .mat _ rows => .ok rows.length
  | _ => .error .typeError

/-- The array of shape `(m, c)` with the given numbers in row-major order, squeezed (resample.py:88-89: axes of size one are
dropped). -/
def shaped {α : Type} [Field α] (m c : Nat) (flat : List α) : Raw α :=
  if m = 1 then (if c = 1 then .scalar (flat.getD 0 0) else .vec flat)
  else if c = 1 then .vec flat else .mat c ((List.range m).map fun i => (flat.drop (i * c)).take c)

/-- resample.py:97-121 `Resample.__call__` on an array of `n` frames whose memory, from the data pointer on, holds `memory`.  The
request tells the library the buffer has `len(outsamples)` frames; it reads `n` frames.  The result is the zeroed buffer overwritten
from its beginning; a non-zero return code is an Exception (here RuntimeError).  Telling the library there is room for more floats
than the buffer has is the memory fault. -/
def Resample.call {σ α : Type} [Field α] (lib : Lib σ α) (rs : Resample σ) (memory : List α) (n : Nat) (eoi : Bool) :
    Except Fault (Resample σ × Raw α × Request α) :=
  let m := rs.outSize n
  match rawLen (squeezed m rs.nchannels (0 : α)) with
  | .error e => .error (.py e)
  | .ok outFrames =>
    if m * rs.nchannels < outFrames * rs.nchannels then .error .memory
    else
      let req : Request α := ⟨memory.take (n * rs.nchannels), n, outFrames, eoi, rs.newRate, rs.origRate⟩
      match lib.process rs.state req with
      | (s, gen, code) =>
        if code ≠ 0 then .error (.py .runtimeError)
        else
          let flat := gen.flatten
          .ok ({ rs with state := s }, shaped m rs.nchannels (flat ++ List.replicate (m * rs.nchannels - flat.length) 0), req)

/-- One chunk of the stream: the samples, and the floats that lie in memory from its data pointer on (for a C-contiguous array, its
numbers in row-major order). -/
structure Chunk (α : Type) where
  audio : Audio α
  memory : List α
  deriving DecidableEq, Repr

/-- What `self._rs` is (resample.py:204, 213). -/
inductive Mode (σ : Type) where
  | resample (rs : Resample σ)
  | noop
  deriving DecidableEq, Repr

/-- resample.py:193-213: on the first chunk a `Resample` is made for the chunk's own rate and number of channels; if the rates differ it
is first given one second of silence at the target rate, whose output is dropped. -/
def prepare {σ α : Type} [Field α] (lib : Lib σ α) (target : RateArg) (a : Audio α) :
    Except Fault (Mode σ × List (Request α)) :=
  let sr := a.rate.samplesPerSecond.toNat
  let targetSr := target.rate.samplesPerSecond.toNat
  match Resample.new lib sr targetSr a.channels with
  | .error e => .error (.py e)
  | .ok rs =>
    if targetSr ≠ sr then
      match silence (α := α) target (10 ^ 12) a.channels with
      | .error e => .error (.py e)
      | .ok s =>
        match rs.call lib (List.replicate (s.length * a.channels) 0) s.length false with
        | .error e => .error e
        | .ok (rs', _, req) => .ok (.resample rs', [req])
    else .ok (.noop, [])

/-- resample.py:190-191 and 215-218: apply `self._rs` to one chunk; a plain array becomes `AudioSamples` at the target rate. -/
def apply {σ α : Type} [Field α] (lib : Lib σ α) (target : RateArg) (mode : Mode σ) (c : Chunk α) (finalized : Bool) :
    Except Fault (Mode σ × Audio α × List (Request α)) :=
  match mode with
  | .noop => .ok (.noop, c.audio, [])
  | .resample rs =>
    match rs.call lib c.memory c.audio.length finalized with
    | .error e => .error e
    | .ok (rs', out, req) =>
      match Audio.new out target with
      | .error e => .error (.py e)
      | .ok a => .ok (.resample rs', a, [req])

/-- resample.py:193-218 over the rest of the stream: chunks with the `_finalized` flag at the time they are processed. -/
def runFrom {σ α : Type} [Field α] (lib : Lib σ α) (target : RateArg) :
    Mode σ → List (Chunk α × Bool) → Except Fault (List (Audio α) × List (Request α))
  | _, [] => .ok ([], [])
  | mode, (c, fin) :: rest =>
    match apply lib target mode c fin with
    | .error e => .error e
    | .ok (mode', a, reqs) =>
      match runFrom lib target mode' rest with
      | .error e => .error e
      | .ok (as, reqs') => .ok (a :: as, reqs ++ reqs')

/-- resample.py:185-218 `Resampler` over a whole stream: the chunks yielded and the requests made to the library, in order. -/
def run {σ α : Type} [Field α] (lib : Lib σ α) (target : RateArg) (stream : List (Chunk α × Bool)) :
    Except Fault (List (Audio α) × List (Request α)) :=
  match stream with
  | [] => .ok ([], [])
  | (c, fin) :: rest =>
    match prepare lib target c.audio with
    | .error e => .error e
    | .ok (mode, reqs) =>
      match runFrom lib target mode ((c, fin) :: rest) with
      | .error e => .error e
      | .ok (as, reqs') => .ok (as, reqs ++ reqs')

end Zounds.Resample
