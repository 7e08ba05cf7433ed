import Verif.Model.Buffer
import Mathlib.Tactic.Common
import Mathlib.Tactic.Linarith
import Mathlib.Tactic.Ring
import Mathlib.Algebra.Order.Field.Rat
import Mathlib.Data.Rat.Floor
import Mathlib.Algebra.Order.Floor.Ring

/-!
# C32: MemoryBuffer is a faithful FIFO of bytes
-/

namespace Zounds.Buffer
variable {α : Type}

/-! ## Specification -/

/-- All bytes written by a history, in order. -/
def written : List (Op α) → List α
  | [] => []
  | .write d :: ops => d ++ written ops
  | _ :: ops => written ops

/-- The history only writes and reads. -/
def Fifo (ops : List (Op α)) : Prop := ∀ op ∈ ops, (∃ d, op = .write d) ∨ (∃ n, op = .read n)

/-- What an ideal queue does: `q` is what is queued; a read takes from the front. -/
def queue (q : List α) : List (Op α) → List (List α) × List α
  | [] => ([], q)
  | .write d :: ops => let r := queue (q ++ d) ops; ([] :: r.1, r.2)
  | .read n :: ops =>
    let k := if n < 0 then q.length else n.toNat
    let r := queue (q.drop k) ops; (q.take k :: r.1, r.2)
  | _ :: ops => let r := queue q ops; ([] :: r.1, r.2)

/-! ## FIFO -/

/-- Unread bytes. -/
def unread (b : Buf α) : List α := b.data.drop b.pos

theorem write_pos (b : Buf α) (d : List α) (h : b.pos ≤ b.data.length) :
    (write b d).2.pos ≤ (write b d).2.data.length ∧ unread (write b d).2 = unread b ++ d := by
  unfold write unread
  split
  · simp
  · simp only [List.length_append]
    exact ⟨by omega, List.drop_append_of_le_length h⟩

theorem read_facts (b : Buf α) (n : Int) (h : b.pos ≤ b.data.length) :
    (read b n).2.pos ≤ (read b n).2.data.length ∧
    (read b n).1 = (unread b).take (if n < 0 then (unread b).length else n.toNat) ∧
    unread (read b n).2 = (unread b).drop (if n < 0 then (unread b).length else n.toNat) := by
  unfold read unread
  simp only
  split
  · refine ⟨by simp; omega, by simp, by simp [← List.drop_drop]⟩
  · refine ⟨by simp; omega, rfl, ?_⟩
    rw [← List.drop_drop]
    simp only [List.length_take, List.length_drop]
    by_cases hh : n.toNat ≤ b.data.length - b.pos
    · rw [min_eq_left hh]
    · rw [List.drop_of_length_le (by simp; omega), List.drop_of_length_le (by simp; omega)]

theorem run_queue (b : Buf α) (ops : List (Op α)) (hf : Fifo ops) (h : b.pos ≤ b.data.length) :
    (run b ops).1 = (queue (unread b) ops).1 ∧ unread (run b ops).2 = (queue (unread b) ops).2 := by
  induction ops generalizing b with
  | nil => exact ⟨rfl, rfl⟩
  | cons op ops ih =>
    have hf' : Fifo ops := fun o ho => hf o (by simp [ho])
    rcases hf op (by simp) with ⟨d, rfl⟩ | ⟨n, rfl⟩
    · obtain ⟨h1, h2⟩ := write_pos b d h
      obtain ⟨i1, i2⟩ := ih _ hf' h1
      simp only [run, step, queue]
      rw [h2] at i1 i2
      exact ⟨by rw [i1], i2⟩
    · obtain ⟨h1, h2, h3⟩ := read_facts b n h
      obtain ⟨i1, i2⟩ := ih _ hf' h1
      simp only [run, step, queue]
      rw [h3] at i1 i2
      exact ⟨by rw [i1, h2], i2⟩

/-- **C32, refinement**: through any sequence of writes and reads, with any maximum size, the buffer answers exactly as an
ideal first-in-first-out queue would: every read returns as many of the oldest unread bytes as are there, up to the count
asked for (all of them for a negative count). -/
theorem C32_fifo (contentLength maxSize : Nat) (ops : List (Op α)) (hf : Fifo ops) :
    (run (init contentLength maxSize) ops).1 = (queue [] ops).1 :=
  (run_queue (init contentLength maxSize) ops hf (by simp [init])).1

theorem queue_conserves (q : List α) (ops : List (Op α)) :
    (queue q ops).1.flatten ++ (queue q ops).2 = q ++ written ops := by
  induction ops generalizing q with
  | nil => simp [queue, written]
  | cons op ops ih =>
    cases op with
    | write d => simp [queue, written, ih, List.append_assoc]
    | read n =>
      simp only [queue, written, List.flatten_cons, List.append_assoc, ih]
      rw [← List.append_assoc, List.take_append_drop]
    | seek o w => simp [queue, written, ih]
    | tell => simp [queue, written, ih]

/-- **C32, conservation**: what has been read, followed by what is still unread, is what has been written; so the bytes
read are a prefix of the bytes written, with none lost, repeated or reordered, compaction included. -/
theorem C32_prefix (contentLength maxSize : Nat) (ops : List (Op α)) (hf : Fifo ops) :
    (run (init contentLength maxSize) ops).1.flatten ++ unread (run (init contentLength maxSize) ops).2 = written ops ∧
    (run (init contentLength maxSize) ops).1.flatten <+: written ops := by
  obtain ⟨h1, h2⟩ := run_queue (init contentLength maxSize) ops hf (by simp [init])
  have hq := queue_conserves (unread (init contentLength maxSize : Buf α)) ops
  rw [← h1, ← h2] at hq
  have h0 : unread (init contentLength maxSize : Buf α) = [] := rfl
  rw [h0, List.nil_append] at hq
  exact ⟨hq, ⟨_, hq⟩⟩

/-- **C32, how much a read returns**: as many bytes as are available, up to the request. -/
theorem C32_read_length (b : Buf α) (n : Nat) :
    (read b n).1.length = min n (unread b).length := by
  have : ¬ ((n : Int) < 0) := by omega
  simp [read, unread, this]

/-- **C32, write reports** the number of bytes it was given. -/
theorem C32_write_returns (b : Buf α) (d : List α) : (write b d).1 = d.length := rfl

/-- **C32, readinto**: fills the front of the caller's buffer with the bytes a read would return, leaves the rest of it
alone and keeps its length. -/
theorem C32_readinto (b : Buf α) (old : List α) :
    (readinto b old).1.length = old.length ∧
    (readinto b old).2.1 = min old.length (unread b).length ∧
    (readinto b old).1.take (readinto b old).2.1 = (read b old.length).1 ∧
    (readinto b old).1.drop (readinto b old).2.1 = old.drop (readinto b old).2.1 := by
  have hl := C32_read_length b old.length
  refine ⟨?_, hl, ?_, ?_⟩
  · simp only [readinto, List.length_append, List.length_drop]; rw [hl]; omega
  · simp [readinto]
  · simp [readinto]

/-- **C32, bounded memory**: after every write, what is kept is at most the unread bytes plus `max_size` already-read
ones. -/
theorem C32_bounded (b : Buf α) (d : List α) :
    (write b d).2.data.length ≤ (unread (write b d).2).length + b.maxSize := by
  unfold write unread
  split
  · simp
  · simp only [List.length_drop, List.length_append]; omega

/-! ## Seeks -/

theorem written_append (a b : List (Op α)) : written (a ++ b) = written a ++ written b := by
  induction a with
  | nil => rfl
  | cons op ops ih => cases op <;> simp [written, ih]

theorem run_append (b : Buf α) (o1 o2 : List (Op α)) : (run b (o1 ++ o2)).2 = (run (run b o1).2 o2).2 := by
  induction o1 generalizing b with
  | nil => rfl
  | cons op ops ih => simp only [List.cons_append, run]; exact ih _

theorem step_suffix (b : Buf α) (op : Op α) (w : List α) (base : Nat) (hb : base ≤ w.length)
    (h : b.data = w.drop base) :
    ∃ base', base ≤ base' ∧ base' ≤ (w ++ written [op]).length ∧ (step b op).2.data = (w ++ written [op]).drop base' ∧
      (b.pos ≤ b.maxSize → base' = base) := by
  cases op with
  | write d =>
    simp only [step, write, written, List.append_nil]
    split
    · rename_i hp
      by_cases hle : base + b.pos ≤ w.length
      · refine ⟨base + b.pos, by omega, by simp; omega, ?_, fun hh => by omega⟩
        simp only [h, List.drop_drop]
        rw [List.drop_append_of_le_length hle]
      · refine ⟨w.length, by omega, by simp, ?_, fun hh => by omega⟩
        simp only [h, List.drop_drop]
        rw [List.drop_of_length_le (by omega)]; simp
    · refine ⟨base, le_refl _, by simp; omega, ?_, fun _ => rfl⟩
      simp only [h]
      rw [List.drop_append_of_le_length hb]
  | read n => exact ⟨base, le_refl _, by simp [written]; omega, by simp [step, read, written, h], fun _ => rfl⟩
  | seek o wh =>
    refine ⟨base, le_refl _, by simp [written]; omega, ?_, fun _ => rfl⟩
    simp only [step, written, List.append_nil]
    cases wh <;> simp only [seek]
    · split
      · rename_i heq; split at heq
        · cases heq
        · cases heq; exact h
      · exact h
    · exact h
    · exact h
  | tell =>
    refine ⟨base, le_refl _, by simp [written]; omega, ?_, fun _ => rfl⟩
    simp only [step, tell, written, List.append_nil]
    split <;> exact h

theorem run_suffix (b : Buf α) (ops : List (Op α)) (w : List α) (base : Nat) (hb : base ≤ w.length)
    (h : b.data = w.drop base) :
    ∃ base', base ≤ base' ∧ base' ≤ (w ++ written ops).length ∧ (run b ops).2.data = (w ++ written ops).drop base' := by
  induction ops generalizing b w base with
  | nil => exact ⟨base, le_refl _, by simpa [written] using hb, by simpa [run, written] using h⟩
  | cons op ops ih =>
    obtain ⟨b1, l1, l2, l3, -⟩ := step_suffix b op w base hb h
    obtain ⟨b2, m1, m2, m3⟩ := ih (step b op).2 (w ++ written [op]) b1 l2 l3
    have hw : w ++ written [op] ++ written ops = w ++ written (op :: ops) := by
      rw [List.append_assoc, ← written_append]; rfl
    rw [hw] at m2 m3
    exact ⟨b2, by omega, m2, m3⟩

/-- **C32, with seeks**: whatever seeks are mixed in, the buffer always holds a suffix of the written stream, so every read
returns a contiguous piece of what was written, never made-up bytes. -/
theorem C32_contiguous (contentLength maxSize : Nat) (ops : List (Op α)) (n : Int) :
    ∃ start len, (read (run (init contentLength maxSize) ops).2 n).1 = ((written ops).drop start).take len := by
  obtain ⟨base, -, -, h⟩ := run_suffix (init contentLength maxSize : Buf α) ops [] 0 (by simp) (by simp [init])
  simp only [List.nil_append] at h
  unfold read
  simp only
  rw [h, List.drop_drop]
  split
  · exact ⟨_, ((written ops).drop _).length, by rw [List.take_length]⟩
  · exact ⟨_, _, rfl⟩

theorem step_maxSize (b : Buf α) (op : Op α) : (step b op).2.maxSize = b.maxSize := by
  cases op with
  | write d => simp only [step, write]; split <;> rfl
  | read n => rfl
  | seek o w =>
    cases w <;> simp only [step, seek]
    split
    · rename_i heq; split at heq <;> cases heq; rfl
    · rfl
  | tell => simp only [step, tell]; split <;> rfl

/-- **C32, random access while nothing has been discarded**: if the read position never exceeds the maximum size, the buffer is
the whole written stream, so an absolute seek to `k` followed by a read of `n` returns the written bytes `k … k+n-1`. -/
theorem C32_seek_partial (contentLength maxSize : Nat) (ops : List (Op α))
    (hpos : ∀ pre, pre <+: ops → (run (init contentLength maxSize) pre).2.pos ≤ maxSize) :
    (run (init contentLength maxSize) ops).2.data = written ops ∧
    ∀ k n : Nat, ∃ b', seek (run (init contentLength maxSize) ops).2 k .set = .ok b' ∧
      (read b' n).1 = ((written ops).drop k).take n := by
  have key : (run (init contentLength maxSize) ops).2.data = written ops := by
    have gen : ∀ (ops : List (Op α)) (b : Buf α) (w : List α), b.data = w →
        (∀ pre, pre <+: ops → (run b pre).2.pos ≤ b.maxSize) → (run b ops).2.data = w ++ written ops := by
      intro ops
      induction ops with
      | nil => intro b w h _; simp [run, written, h]
      | cons op ops ih =>
        intro b w h hp
        obtain ⟨b1, -, l2, l3, l4⟩ := step_suffix b op w 0 (by omega) (by simpa using h)
        have h0 : b.pos ≤ b.maxSize := by simpa [run] using hp [] (List.nil_prefix)
        rw [l4 h0, List.drop_zero] at l3
        have := ih (step b op).2 (w ++ written [op]) l3 (fun pre hpre => by
          rw [step_maxSize]
          have := hp (op :: pre) (List.cons_prefix_cons.2 ⟨rfl, hpre⟩)
          simpa [run] using this)
        have hw : w ++ written [op] ++ written ops = w ++ written (op :: ops) := by
          rw [List.append_assoc, ← written_append]; rfl
        rw [hw] at this
        simpa [run] using this
    have := gen ops (init contentLength maxSize) [] rfl (by simpa [init] using hpos)
    simpa using this
  refine ⟨key, fun k n => ?_⟩
  have hk : ¬ ((k : Int) < 0) := by omega
  have hn : ¬ ((n : Int) < 0) := by omega
  exact ⟨{ (run (init contentLength maxSize) ops).2 with pos := k }, by simp [seek, hk], by simp [read, hn, key]⟩

/-- **C32, refuted for absolute seeks**: once compaction has happened, a seek to stream position 0 no longer goes to the first
byte, and `tell` no longer reports the position in the stream. -/
theorem C32_seek_refuted :
    ∃ (ops : List (Op Nat)), Fifo ops ∧ written ops = [1, 2, 3, 4, 5] ∧
      (tell (run (init 5 2) ops).2).1 = 0 ∧ (run (init 5 2) ops).1.flatten = [1, 2, 3] ∧
      (match seek (run (init 5 2) ops).2 0 .set with
       | .ok b' => (read b' 1).1
       | .error _ => []) = [4] := by
  refine ⟨[.write [1, 2, 3, 4], .read 3, .write [5]], ?_, rfl, rfl, rfl, rfl⟩
  intro op h
  simp at h
  rcases h with rfl | rfl | rfl
  · exact Or.inl ⟨_, rfl⟩
  · exact Or.inr ⟨_, rfl⟩
  · exact Or.inl ⟨_, rfl⟩

/-- **C32, length by seeking**: seeking to the end and asking for the position answers the content length given at
creation (how libsndfile asks for the size), once; the next `tell` is the buffer position again. -/
theorem C32_length (b : Buf α) (off : Int) :
    ∃ b', seek b off .fromEnd = .ok b' ∧ (tell b').1 = b.contentLength ∧ (tell (tell b').2).1 = b'.pos :=
  ⟨_, rfl, by simp [tell], by simp [tell]⟩

/-- **C32, refuted**: if the position is not asked for straight after the seek to the end, the stale answer is given to a
later `tell`, after another absolute seek. -/
theorem C32_stale_tell_refuted (b : Buf α) (k : Nat) (hk : k ≠ b.contentLength) :
    ∃ b1 b2, seek b 0 .fromEnd = .ok b1 ∧ seek b1 k .set = .ok b2 ∧ (tell b2).1 = b.contentLength ∧ (tell b2).1 ≠ k := by
  have h : ¬ ((k : Int) < 0) := by omega
  refine ⟨_, { b with pos := k, tellIsEnd := true }, rfl, ?_, ?_, ?_⟩
  · simp [seek, h]
  · simp [tell]
  · simp [tell]; exact fun e => hk e.symm

/-! ## AudioStream -/

theorem lastChunks_flatten (samples : List α) (pos n : Nat) (hn : 0 < n) :
    (lastChunks samples pos n hn).flatten = samples.drop pos := by
  induction h : samples.length - pos using Nat.strongRecOn generalizing pos with
  | ind m ih =>
    rw [lastChunks]
    split
    · rename_i hp
      rw [List.flatten_cons, ih _ (by omega) (pos + n) rfl, sfRead, ← List.drop_drop, List.take_append_drop]
    · rw [List.drop_of_length_le (by omega)]; rfl

theorem audioStream_flatten (samples : List α) (n : Nat) (hn : 0 < n) (avail : List Nat) (pos : Nat) :
    (audioStream samples n hn pos avail).flatten = samples.drop pos := by
  induction avail generalizing pos with
  | nil => exact lastChunks_flatten samples pos n hn
  | cons a as ih =>
    simp only [audioStream, List.flatten_cons, ih]
    have key : ∀ (l : List α) (k : Nat), l = samples.drop pos → l.take k ++ samples.drop (pos + (l.take k).length) = samples.drop pos := by
      rintro l k rfl
      rw [← List.drop_drop]
      rw [List.length_take, List.length_drop]
      by_cases hk : k ≤ samples.length - pos
      · rw [min_eq_left hk, List.take_append_drop]
      · rw [min_eq_right (by omega), List.take_of_length_le (by simp; omega)]
        rw [List.drop_of_length_le (l := List.drop pos samples) (by simp)]; simp
    have : sfRead (samples.take a) pos n = (samples.drop pos).take (min n (a - pos)) := by
      simp [sfRead, List.drop_take, List.take_take]
    rw [this]
    exact key _ _ rfl

/-- **C32, audio stream**: however many samples happen to be decodable when each chunk of bytes arrives, the chunks of samples
an audio stream emits are, in order, all the samples of the file, each once. -/
theorem C32_audio_stream (samples : List α) (n : Nat) (hn : 0 < n) (avail : List Nat) :
    (audioStream samples n hn 0 avail).flatten = samples := by
  simpa using audioStream_flatten samples n hn avail 0

/-- **C32, chunk size**: for a known subtype, a file with at least one channel and a positive rate, the number of samples read
at a time is at least one second's worth (so the loops above make progress). -/
theorem C32_chunk_size (subtype : String) (channels rate nbytes d : Nat)
    (hs : byteDepth.lookup subtype = some d) (hd : 0 < d) (hr : 0 < rate) (hc : 0 < channels) :
    ∃ n, chunkSizeSamples subtype channels rate nbytes = .ok n ∧ rate ≤ n ∧ 0 < n := by
  have h0 : d * rate * channels ≠ 0 := by positivity
  unfold chunkSizeSamples
  simp only [hs, h0, if_false]
  refine ⟨_, rfl, ?_⟩
  have h1 : (rate : Rat) ≤ (max 1 ((nbytes : Rat) / ((d * rate * channels : Nat) : Rat) - 6)) * (rate : Rat) := by
    have : (1 : Rat) ≤ max 1 ((nbytes : Rat) / ((d * rate * channels : Nat) : Rat) - 6) := le_max_left _ _
    have hr' : (0 : Rat) ≤ rate := by positivity
    nlinarith
  have h2 : (rate : Int) ≤ ((max 1 ((nbytes : Rat) / ((d * rate * channels : Nat) : Rat) - 6)) * (rate : Rat)).floor := by
    rw [Rat.le_floor_iff]; exact_mod_cast h1
  omega

/-- **C32, chunk size in bytes**: when the duration is `k` samples long and the depth is a whole number of bytes, the size in
bytes is samples × bytes per sample × channels. -/
theorem C32_chunk_size_bytes (k freq rest bytes channels : Nat) (hf : rest < freq) :
    chunkSizeBytes (k * freq + rest) freq channels (8 * bytes) = k * bytes * channels := by
  have h1 : (k * freq + rest) / freq = k := by
    rw [Nat.mul_comm, Nat.mul_add_div (by omega), Nat.div_eq_of_lt hf, Nat.add_zero]
  simp [chunkSizeBytes, h1]

-- concrete instances
example : (run (init 5 2) ([.write [1, 2, 3, 4], .read 3, .write [5], .read (-1)] : List (Op Nat))).1 =
    [[], [1, 2, 3], [], [4, 5]] := rfl
example : ∃ n, chunkSizeSamples "PCM_16" 2 44100 100 = .ok n ∧ 44100 ≤ n ∧ 0 < n :=
  C32_chunk_size _ _ _ _ 2 (by decide) (by decide) (by decide) (by decide)
example : (audioStream [1, 2, 3, 4, 5] 2 (by decide) 0 [1, 1, 4]).flatten = [1, 2, 3, 4, 5] := C32_audio_stream _ _ _ _
example : chunkSizeBytes 1000000000000 22675736 2 16 = 44100 * 2 * 2 := by decide


/-! ### relative seeks, byte depths -/

/-- **C32, seek from the end**: seeking `k` bytes back from the end and reading gives the last `k` bytes buffered. -/
theorem C32_seek_from_end (b : Buf α) (k n : Nat) (hk : k ≤ b.data.length) :
    ∃ b', seek b (-(k : Int)) .fromEnd = .ok b' ∧
      (read b' n).1 = (b.data.drop (b.data.length - k)).take n := by
  refine ⟨_, rfl, ?_⟩
  have h1 : ((b.data.length : Int) + -(k : Int)).toNat = b.data.length - k := by omega
  have h2 : ¬ ((n : Int) < 0) := by omega
  simp [read, h1, h2]

/-- **C32, relative seek**: skipping forward `k` bytes leaves the bytes after them to be read; skipping back what was just read
makes it readable again. -/
theorem C32_seek_relative (b : Buf α) (k n : Nat) :
    (∃ b', seek b (k : Int) .cur = .ok b' ∧ (read b' n).1 = (b.data.drop (b.pos + k)).take n) ∧
    (∃ b', seek (read b n).2 (-((read b n).1.length : Int)) .cur = .ok b' ∧ (read b' n).1 = (read b n).1) := by
  have h2 : ¬ ((n : Int) < 0) := by omega
  constructor
  · refine ⟨_, rfl, ?_⟩
    have h1 : ((b.pos : Int) + (k : Int)).toNat = b.pos + k := by omega
    simp [read, h1, h2]
  · refine ⟨_, rfl, ?_⟩
    simp only [read, h2, if_false]
    have h1 : (((b.pos + ((b.data.drop b.pos).take (n : Int).toNat).length : Nat) : Int) +
        -(((b.data.drop b.pos).take (n : Int).toNat).length : Int)).toNat = b.pos := by omega
    rw [h1]

/-- **C32, byte depths**: bytes per sample of the supported subtypes; any other subtype is refused. -/
theorem C32_byte_depth (subtype : String) (d : Nat) :
    byteDepth.lookup subtype = some d ↔
      (subtype ∈ ["MS_ADPCM", "IMA_ADPCM", "PCM_S8", "PCM_U8"] ∧ d = 1) ∨ (subtype = "PCM_16" ∧ d = 2) ∨
      (subtype ∈ ["PCM_24", "VORBIS"] ∧ d = 3) ∨ (subtype ∈ ["PCM_32", "FLOAT"] ∧ d = 4) ∨ (subtype = "DOUBLE" ∧ d = 8) := by
  unfold byteDepth
  simp only [List.lookup_cons, List.lookup_nil, List.mem_cons, List.not_mem_nil, or_false]
  constructor
  · intro h
    repeat' split at h
    all_goals simp_all
  · intro h
    rcases h with ⟨h | h | h | h, rfl⟩ | ⟨rfl, rfl⟩ | ⟨h | h, rfl⟩ | ⟨h | h, rfl⟩ | ⟨rfl, rfl⟩ <;> (try subst h) <;> decide

example : byteDepth.lookup "PCM_16" = some 2 := by decide

theorem fifo_demo : Fifo ([.write [1, 2, 3, 4], .read 3, .write [5], .read (-1)] : List (Op Nat)) := by
  intro op h
  simp only [List.mem_cons, List.not_mem_nil, or_false] at h
  rcases h with rfl | rfl | rfl | rfl
  exacts [Or.inl ⟨_, rfl⟩, Or.inr ⟨_, rfl⟩, Or.inl ⟨_, rfl⟩, Or.inr ⟨_, rfl⟩]
example := C32_fifo 5 2 ([.write [1, 2, 3, 4], .read 3, .write [5], .read (-1)] : List (Op Nat)) fifo_demo
example := C32_prefix 5 2 ([.write [1, 2, 3, 4], .read 3, .write [5], .read (-1)] : List (Op Nat)) fifo_demo
example := C32_seek_partial 5 10 ([.write [1, 2, 3, 4], .read 3, .write [5]] : List (Op Nat)) (by
  rintro pre ⟨post, h⟩
  match pre, h with
  | [], _ => decide
  | [_], h => simp only [List.cons_append, List.cons.injEq] at h; obtain ⟨rfl, -⟩ := h; decide
  | [_, _], h => simp only [List.cons_append, List.cons.injEq] at h; obtain ⟨rfl, rfl, -⟩ := h; decide
  | [_, _, _], h => simp only [List.cons_append, List.cons.injEq] at h; obtain ⟨rfl, rfl, rfl, -⟩ := h; decide
  | _ :: _ :: _ :: _ :: _, h => simp at h)
example := C32_chunk_size_bytes 44100 22675736 42400 2 2 (by decide)
example := C32_seek_from_end (run (init 5 10) ([.write [1, 2, 3, 4]] : List (Op Nat))).2 3 2 (by decide)

end Zounds.Buffer
