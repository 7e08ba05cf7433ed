import Verif.Model.Buffer
import Verif.Model.Audio
import Verif.Model.Resample
import Verif.Model.SlidingWindow

/-!
# zounds/soundfile/ogg_vorbis.py `OggVorbis`, audiostream.py `AudioStream` on compressed files, basic/audiograph.py

libsndfile is modelled by what the code records about it (byte_depth.py:20-26): a read gives the next samples that can be decoded from the
bytes that have arrived, at most as many as asked for; for ogg and flac files (`sticky`) a read that gets fewer than it asked for is
the last one that gets any.
-/

namespace Zounds.SoundNodes
open Zounds

variable {α : Type}

/-- A `SoundFile` open for reading: how many samples were read, and whether it will never give any more. -/
structure Reader where
  pos : Nat
  dead : Bool
  deriving DecidableEq, Repr

/-- `SoundFile.read(n)` when the first `avail` samples of the file can be decoded (byte_depth.py:20-26). -/
def Reader.read (sticky : Bool) (samples : List α) (avail n : Nat) (r : Reader) : List α × Reader :=
  if r.dead then ([], r)
  else
    let out := ((samples.take avail).drop r.pos).take n
    (out, ⟨r.pos + out.length, sticky && decide (out.length < n)⟩)

theorem Reader.read_pos (sticky : Bool) (samples : List α) (avail n : Nat) (r : Reader) (h : (r.read sticky samples avail n).1 ≠ []) :
    (samples.take avail).length - (r.read sticky samples avail n).2.pos < (samples.take avail).length - r.pos := by
  unfold Reader.read at h ⊢
  split
  · rename_i hd; rw [if_pos hd] at h; exact absurd rfl h
  · rename_i hd
    rw [if_neg hd] at h
    simp only [] at h ⊢
    have : 0 < (((samples.take avail).drop r.pos).take n).length := List.length_pos_iff.2 h
    simp only [List.length_take, List.length_drop] at this ⊢
    omega

/-- ogg_vorbis.py:183-191 (and audiostream.py:108-112): read until a read gives nothing. -/
def drain (sticky : Bool) (samples : List α) (avail n : Nat) (r : Reader) : List (List α) × Reader :=
  if h : (r.read sticky samples avail n).1 = [] then ([], (r.read sticky samples avail n).2)
  else
    ((r.read sticky samples avail n).1 :: (drain sticky samples avail n (r.read sticky samples avail n).2).1,
      (drain sticky samples avail n (r.read sticky samples avail n).2).2)
termination_by (samples.take avail).length - r.pos
decreasing_by all_goals exact Reader.read_pos sticky samples avail n r h

/-- audiostream.py:91-112: for each chunk of bytes one read of `n` samples, at the end reads until one gives nothing.  `avails` says how many
samples can be decoded when each chunk has arrived. -/
def stream (sticky : Bool) (samples : List α) (n : Nat) : Reader → List Nat → List (List α)
  | r, [] => (drain sticky samples samples.length n r).1
  | r, a :: as => (r.read sticky samples a n).1 :: stream sticky samples n (r.read sticky samples a n).2 as

/-! ## OggVorbis -/

/-- A `SoundFile` open for writing an ogg file: what opening, writing a piece and closing it put into the buffer. -/
structure Enc (σ α B : Type) where
  openFile : σ × List B
  write : σ → List α → σ × List B
  close : σ → List B

/-- Pieces written one after the other. -/
def writeAll {σ B : Type} (enc : Enc σ α B) : σ → List (List α) → σ × List B
  | st, [] => (st, [])
  | st, p :: ps => ((writeAll enc (enc.write st p).1 ps).1, (enc.write st p).2 ++ (writeAll enc (enc.write st p).1 ps).2)

/-- ogg_vorbis.py:188-190: every read is cut into pieces of `step` samples (`range` refuses a step of zero). -/
def cutAll (step : Nat) : List (List α) → Except PyErr (List (List α))
  | [] => .ok []
  | x :: xs =>
    match Audio.oggPieces x step, cutAll step xs with
    | .error e, _ => .error e
    | _, .error e => .error e
    | .ok ps, .ok qs => .ok (ps ++ qs)

/-- The node between two chunks: the reader, the writer, and what is in the output buffer. -/
structure Node (σ B : Type) where
  reader : Reader
  writer : σ
  pending : List B

/-- ogg_vorbis.py:178-207, one chunk of a file that is not ogg: read what can be decoded, write it in pieces of at most 20 seconds, close the
file if this is the end, yield what the buffer holds.  Result: the node, the pieces written, the bytes yielded. -/
def round {σ B : Type} (enc : Enc σ α B) (sticky : Bool) (samples : List α) (n step : Nat) (nd : Node σ B) (avail : Nat) (fin : Bool) :
    Except PyErr (Node σ B × List (List α) × List B) :=
  match cutAll step (drain sticky samples avail n nd.reader).1 with
  | .error e => .error e
  | .ok ps =>
    .ok (⟨(drain sticky samples avail n nd.reader).2, (writeAll enc nd.writer ps).1, []⟩, ps,
      nd.pending ++ (writeAll enc nd.writer ps).2 ++ (if fin then enc.close (writeAll enc nd.writer ps).1 else []))

/-- The rounds for all chunks, the last of them final. -/
def rounds {σ B : Type} (enc : Enc σ α B) (sticky : Bool) (samples : List α) (n step : Nat) :
    Node σ B → List Nat → Nat → Except PyErr (List (List α) × List (List B))
  | nd, [], last =>
    match round enc sticky samples n step nd last true with
    | .error e => .error e
    | .ok (_, ps, bs) => .ok (ps, [bs])
  | nd, a :: as, last =>
    match round enc sticky samples n step nd a false with
    | .error e => .error e
    | .ok (nd', ps, bs) =>
      match rounds enc sticky samples n step nd' as last with
      | .error e => .error e
      | .ok (ps', bs') => .ok (ps ++ ps', bs :: bs')

/-- A source file: its kind, subtype, channels, rate and samples (frames). -/
structure Source (α : Type) where
  isOgg : Bool
  sticky : Bool
  subtype : String
  channels : Nat
  rate : Nat
  samples : List α

/-- ogg_vorbis.py:143-207 `OggVorbis` over a whole stream: `chunks` are the bytes as they arrive, `avails` and `last` what can be decoded then.
The chunk size is worked out for every file (KeyError for an unknown subtype); bytes of an ogg file are passed on.  Result: the
pieces of audio written, and the bytes yielded. -/
def oggVorbis {σ : Type} (enc : Enc σ α Nat) (src : Source α) (chunks : List (List Nat)) (avails : List Nat) (last : Nat) :
    Except PyErr (List (List α) × List (List Nat)) :=
  match Buffer.chunkSizeSamples src.subtype src.channels src.rate ((chunks.head?.getD []).length) with
  | .error e => .error e
  | .ok n =>
    if src.isOgg then .ok ([], chunks)
    else rounds enc src.sticky src.samples n (src.rate * 20) ⟨⟨0, false⟩, enc.openFile.1, enc.openFile.2⟩ avails last

/-! ## Graphs -/

open Zounds.Audio (Raw RateArg)

/-- What `SoundFile.read` returns for a file of `c` channels. -/
def raw [Field α] (c : Nat) (frames : List (List α)) : Raw α :=
  if c = 1 then .vec (frames.map fun f => f.getD 0 0) else .mat c frames

/-- audiostream.py:83-88 `_get_samples`, with `sum_to_mono`. -/
def pcm [Field α] (rate : Int) (c : Nat) (frames : List (List α)) : Except PyErr (Audio.Audio α) :=
  match Audio.fromFile (raw c frames) rate with
  | .error e => .error e
  | .ok a => a.mono

/-- The chunks of audio, or the first exception. -/
def pcmAll [Field α] (rate : Int) (c : Nat) : List (List (List α)) → Except PyErr (List (Audio.Audio α))
  | [] => .ok []
  | x :: xs =>
    match pcm rate c x, pcmAll rate c xs with
    | .error e, _ => .error e
    | _, .error e => .error e
    | .ok a, .ok as => .ok (a :: as)

/-- The numbers of one-dimensional audio. -/
def vecOf [Field α] (a : Audio.Audio α) : List α :=
  match a.data with
  | .vec xs => xs
  | _ => []

/-- audiograph.py:22-89 and 127-176: `AudioStream`, `Resampler` and `SlidingWindow` wired together, followed by a transform of every window
(`FFT`, `DCT`, or nothing); `memory` is what lies behind a chunk's data pointer, the last chunk is the final one. -/
def graph {σ β : Type} [Field α] (lib : Resample.Lib σ α) (target : RateArg) (memory : Audio.Audio α → List α) (rate : Int) (c w s n : Nat)
    (func : List α) (transform : List α → β) (frames : List (List α)) (avails : List Nat) : Except Resample.Fault (List β) :=
  match pcmAll rate c (stream false frames n ⟨0, false⟩ avails) with
  | .error e => .error (.py e)
  | .ok as =>
    match Resample.run lib target (as.dropLast.map (fun a => (⟨a, memory a⟩, false)) ++ (as.getLast?.map fun a => (⟨a, memory a⟩, true)).toList) with
    | .error e => .error e
    | .ok (rs, _) =>
      match SlidingWindow.run (0 : α) w s (rs.dropLast.map vecOf) ((rs.getLast?.map vecOf).getD []) with
      | .error e => .error (.py e)
      | .ok wins => .ok ((SlidingWindow.applyFunc (· * ·) func wins).map transform)

end Zounds.SoundNodes
