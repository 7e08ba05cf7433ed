import Verif.Model.SoundNodes
import Verif.Props.Buffer
import Verif.Props.Audio
import Verif.Props.Resample
import Verif.Props.Windowed
import Mathlib.Data.List.GetD
import Mathlib.Tactic.Linarith

/-!
# C212-C218: streams of bytes to audio, ogg files and windows
-/

namespace Zounds.SoundNodes
open Zounds

variable {α : Type}

/-! ## Reading -/

theorem read_alive (sticky : Bool) (samples : List α) (avail n pos : Nat) (h : pos ≤ samples.length) :
    (Reader.read sticky samples avail n ⟨pos, false⟩).1 = (samples.drop pos).take (min n (min avail samples.length - pos)) ∧
    (Reader.read sticky samples avail n ⟨pos, false⟩).2.pos = pos + min n (min avail samples.length - pos) ∧
    ((Reader.read sticky samples avail n ⟨pos, false⟩).2.dead = true ↔ sticky = true ∧ min avail samples.length - pos < n) := by
  have e : ((samples.take avail).drop pos).take n = (samples.drop pos).take (min n (min avail samples.length - pos)) := by
    apply List.ext_getElem?
    intro i
    rw [List.getElem?_take, List.getElem?_take, List.getElem?_drop, List.getElem?_drop, List.getElem?_take]
    by_cases h1 : i < n
    · by_cases h2 : pos + i < avail
      · by_cases h3 : pos + i < samples.length
        · rw [if_pos h1, if_pos h2, if_pos (by omega)]
        · rw [if_pos h1, if_pos h2, List.getElem?_eq_none (by omega)]
          simp
      · rw [if_pos h1, if_neg h2, if_neg (by omega)]
    · rw [if_neg h1, if_neg (by omega)]
  have hl : (((samples.take avail).drop pos).take n).length = min n (min avail samples.length - pos) := by simp
  unfold Reader.read
  simp only [Bool.false_eq_true, if_false, hl]
  refine ⟨e, trivial, ?_⟩
  simp only [Bool.and_eq_true, decide_eq_true_eq]
  constructor
  · rintro ⟨a, b⟩; exact ⟨a, by omega⟩
  · rintro ⟨a, b⟩; exact ⟨a, by omega⟩

theorem read_dead (sticky : Bool) (samples : List α) (avail n pos : Nat) :
    Reader.read sticky samples avail n ⟨pos, true⟩ = ([], ⟨pos, true⟩) := by
  simp [Reader.read]

theorem drain_dead (sticky : Bool) (samples : List α) (avail n pos : Nat) :
    drain sticky samples avail n ⟨pos, true⟩ = ([], ⟨pos, true⟩) := by
  rw [drain]
  simp [read_dead]

/-- Reading until nothing comes, from a file that is not exhausted: everything that can be decoded and was not read yet. -/
theorem drain_spec (sticky : Bool) (samples : List α) (avail n : Nat) (hn : 0 < n) (pos : Nat) (h : pos ≤ samples.length) :
    (drain sticky samples avail n ⟨pos, false⟩).1.flatten = (samples.drop pos).take (min avail samples.length - pos) ∧
    (drain sticky samples avail n ⟨pos, false⟩).2 = ⟨max pos (min avail samples.length), sticky⟩ ∧
    ∀ x ∈ (drain sticky samples avail n ⟨pos, false⟩).1, x ≠ [] := by
  induction hk : min avail samples.length - pos using Nat.strongRecOn generalizing pos with
  | ind k ih =>
    obtain ⟨h1, h2, h3⟩ := read_alive sticky samples avail n pos h
    rw [drain]
    by_cases hz : k = 0
    · have he : (Reader.read sticky samples avail n ⟨pos, false⟩).1 = [] := by rw [h1, hk, hz]; simp
      rw [dif_pos he]
      refine ⟨by rw [hz]; simp, ?_, by simp⟩
      have hp : (Reader.read sticky samples avail n ⟨pos, false⟩).2.pos = max pos (min avail samples.length) := by rw [h2]; omega
      have hd : (Reader.read sticky samples avail n ⟨pos, false⟩).2.dead = sticky := by
        cases sticky with
        | true => exact h3.2 ⟨rfl, by omega⟩
        | false =>
          cases hdd : (Reader.read false samples avail n ⟨pos, false⟩).2.dead with
          | false => rfl
          | true => exact absurd (h3.1 hdd).1 (by simp)
      generalize (Reader.read sticky samples avail n ⟨pos, false⟩).2 = r at hp hd
      cases r
      simp only at hp hd
      rw [hp, hd]
    · have hne : ¬ (Reader.read sticky samples avail n ⟨pos, false⟩).1 = [] := by
        rw [h1]
        intro hc
        have := congrArg List.length hc
        simp only [List.length_take, List.length_drop, List.length_nil] at this
        omega
      rw [dif_neg hne]
      simp only []
      have hsucc : (Reader.read sticky samples avail n ⟨pos, false⟩).2 = ⟨pos + min n k, sticky && decide (k < n)⟩ := by
        have hd : (Reader.read sticky samples avail n ⟨pos, false⟩).2.dead = (sticky && decide (k < n)) := by
          rw [hk] at h3
          rw [Bool.eq_iff_iff, h3]
          simp
        rw [hk] at h2
        generalize (Reader.read sticky samples avail n ⟨pos, false⟩).2 = r at h2 hd
        cases r
        simp only at h2 hd
        rw [h2, hd]
      rw [hsucc]
      by_cases hdead : (sticky && decide (k < n)) = true
      · rw [hdead, drain_dead]
        have : sticky = true ∧ k < n := by simpa using hdead
        obtain ⟨rfl, hkn⟩ := this
        refine ⟨?_, ?_, ?_⟩
        · rw [List.flatten_cons, List.flatten_nil, List.append_nil, h1, hk]
          congr 1; omega
        · simp only [Reader.mk.injEq, and_true]
          omega
        · intro x hx
          rw [List.mem_singleton] at hx
          rw [hx]; exact hne
      · have hdead' : (sticky && decide (k < n)) = false := by simpa using hdead
        rw [hdead']
        have hk' : min avail samples.length - (pos + min n k) < k := by omega
        obtain ⟨g1, g2, g3⟩ := ih (min avail samples.length - (pos + min n k)) hk' (pos + min n k) (by omega) rfl
        refine ⟨?_, ?_, ?_⟩
        · rw [List.flatten_cons, g1, h1, hk]
          rw [← List.drop_drop]
          have : k = min n k + (min avail samples.length - (pos + min n k)) := by omega
          conv_rhs => rw [this]
          rw [List.take_add]
        · rw [g2]
          simp only [Reader.mk.injEq, and_true]
          omega
        · intro x hx
          rcases List.mem_cons.1 hx with rfl | hx
          · exact hne
          · exact g3 x hx

/-! ## C212, C213: AudioStream -/

theorem stream_plain (samples : List α) (n : Nat) (hn : 0 < n) : ∀ (avails : List Nat) (pos : Nat), pos ≤ samples.length →
    (stream false samples n ⟨pos, false⟩ avails).flatten = samples.drop pos := by
  intro avails
  induction avails with
  | nil =>
    intro pos h
    rw [stream, (drain_spec false samples samples.length n hn pos h).1, List.take_of_length_le]
    simp
  | cons a as ih =>
    intro pos h
    obtain ⟨h1, h2, h3⟩ := read_alive false samples a n pos h
    have hs : (Reader.read false samples a n ⟨pos, false⟩).2 = ⟨pos + min n (min a samples.length - pos), false⟩ := by
      have hd : (Reader.read false samples a n ⟨pos, false⟩).2.dead = false := by
        cases hdd : (Reader.read false samples a n ⟨pos, false⟩).2.dead with
        | false => rfl
        | true => exact absurd (h3.1 hdd).1 (by simp)
      generalize (Reader.read false samples a n ⟨pos, false⟩).2 = r at h2 hd
      cases r
      simp only at h2 hd
      rw [h2, hd]
    rw [stream, List.flatten_cons, hs, ih _ (by omega), h1, ← List.drop_drop, List.take_append_drop]

theorem stream_dead (sticky : Bool) (samples : List α) (n pos : Nat) (avails : List Nat) :
    (stream sticky samples n ⟨pos, true⟩ avails).flatten = [] := by
  induction avails with
  | nil => rw [stream, drain_dead]; rfl
  | cons a as ih => rw [stream, read_dead]; simpa using ih

/-- A compressed file whose reads were all answered in full so far. -/
theorem stream_sticky (samples : List α) (n : Nat) (hn : 0 < n) : ∀ (avails : List Nat) (k : Nat), k * n ≤ samples.length →
    ((∀ (i a : Nat), avails[i]? = some a → (k + i + 1) * n ≤ min a samples.length) → (stream true samples n ⟨k * n, false⟩ avails).flatten = samples.drop (k * n)) ∧
    (∀ (j a : Nat), avails[j]? = some a → (∀ (i b : Nat), i < j → avails[i]? = some b → (k + i + 1) * n ≤ min b samples.length) →
      (k + j) * n ≤ min a samples.length → min a samples.length < (k + j + 1) * n →
      (stream true samples n ⟨k * n, false⟩ avails).flatten = (samples.take a).drop (k * n)) := by
  intro avails
  induction avails with
  | nil =>
    intro k hk
    refine ⟨fun _ => ?_, fun j a ha => by simp at ha⟩
    rw [stream, (drain_spec true samples samples.length n hn (k * n) hk).1, List.take_of_length_le]
    simp
  | cons a as ih =>
    intro k hk
    obtain ⟨h1, h2, h3⟩ := read_alive true samples a n (k * n) hk
    have hfull : (k + 1) * n ≤ min a samples.length →
        (Reader.read true samples a n ⟨k * n, false⟩).1 = (samples.drop (k * n)).take n ∧
        (Reader.read true samples a n ⟨k * n, false⟩).2 = ⟨(k + 1) * n, false⟩ := by
      intro hle
      rw [Nat.add_mul] at hle ⊢
      rw [Nat.one_mul] at hle ⊢
      have hmin : min n (min a samples.length - k * n) = n := by omega
      rw [hmin] at h1 h2
      refine ⟨h1, ?_⟩
      have hd : (Reader.read true samples a n ⟨k * n, false⟩).2.dead = false := by
        cases hdd : (Reader.read true samples a n ⟨k * n, false⟩).2.dead with
        | false => rfl
        | true => have := (h3.1 hdd).2; omega
      generalize (Reader.read true samples a n ⟨k * n, false⟩).2 = r at h2 hd
      cases r
      simp only at h2 hd
      rw [h2, hd]
    constructor
    · intro hall
      have h0 : (k + 1) * n ≤ min a samples.length := by simpa using hall 0 a rfl
      obtain ⟨f1, f2⟩ := hfull h0
      have hk' : (k + 1) * n ≤ samples.length := by omega
      have := (ih (k + 1) hk').1 (fun i b hb => by
        have := hall (i + 1) b (by simpa using hb)
        have e : k + (i + 1) + 1 = k + 1 + i + 1 := by omega
        rwa [e] at this)
      rw [stream, List.flatten_cons, f1, f2, this, Nat.add_mul, Nat.one_mul, ← List.drop_drop, List.take_append_drop]
    · intro j b hb hbefore hge hlt
      cases j with
      | zero =>
        have : a = b := by simpa using hb
        subst this
        have hdead : (Reader.read true samples a n ⟨k * n, false⟩).2.dead = true := by
          apply h3.2
          simp only [Nat.add_zero, Nat.add_mul, Nat.one_mul] at hlt
          exact ⟨rfl, by omega⟩
        have hst : (Reader.read true samples a n ⟨k * n, false⟩).2 = ⟨k * n + min n (min a samples.length - k * n), true⟩ := by
          generalize (Reader.read true samples a n ⟨k * n, false⟩).2 = r at h2 hdead
          cases r
          simp only at h2 hdead
          rw [h2, hdead]
        rw [stream, List.flatten_cons, hst, stream_dead, List.append_nil, h1]
        simp only [Nat.add_zero, Nat.add_mul, Nat.one_mul] at hlt
        apply List.ext_getElem?
        intro i
        rw [List.getElem?_take, List.getElem?_drop, List.getElem?_drop, List.getElem?_take]
        by_cases hi : k * n + i < a
        · by_cases hi2 : k * n + i < samples.length
          · rw [if_pos hi, if_pos (by omega)]
          · rw [if_pos hi, List.getElem?_eq_none (by omega)]; simp
        · rw [if_neg hi, if_neg (by omega)]
      | succ j =>
        have h0 : (k + 1) * n ≤ min a samples.length := by simpa using hbefore 0 a (by omega) rfl
        obtain ⟨f1, f2⟩ := hfull h0
        have hk' : (k + 1) * n ≤ samples.length := by omega
        have e1 : k + (j + 1) = k + 1 + j := by omega
        rw [e1] at hge hlt
        have := (ih (k + 1) hk').2 j b (by simpa using hb) (fun i c hi hc => by
          have := hbefore (i + 1) c (by omega) (by simpa using hc)
          have e : k + (i + 1) + 1 = k + 1 + i + 1 := by omega
          rwa [e] at this) hge hlt
        rw [stream, List.flatten_cons, f1, f2, this]
        have hb1 : (k + 1) * n ≤ b := by
          have : (k + 1) * n ≤ (k + 1 + j) * n := Nat.mul_le_mul_right n (by omega)
          omega
        rw [Nat.add_mul, Nat.one_mul] at hb1 ⊢
        have e2 : (samples.drop (k * n)).take n = ((samples.take b).drop (k * n)).take n := by
          apply List.ext_getElem?
          intro i
          rw [List.getElem?_take, List.getElem?_take, List.getElem?_drop, List.getElem?_drop, List.getElem?_take]
          by_cases hi : i < n
          · rw [if_pos hi, if_pos hi, if_pos (by omega)]
          · rw [if_neg hi, if_neg hi]
        rw [e2, ← List.drop_drop, List.take_append_drop]

/-- **C212**: an audio stream emits all the samples of the file, each once and in order: of an uncompressed file however its bytes arrive, of a flac or ogg file if after
every chunk of bytes at least as many samples can be decoded as will have been asked for. -/
theorem C212_stream (samples : List α) (n : Nat) (hn : 0 < n) (avails : List Nat) :
    (stream false samples n ⟨0, false⟩ avails).flatten = samples ∧
    ((∀ (i a : Nat), avails[i]? = some a → (i + 1) * n ≤ min a samples.length) → (stream true samples n ⟨0, false⟩ avails).flatten = samples) := by
  constructor
  · simpa using stream_plain samples n hn avails 0 (by omega)
  · intro h
    have := (stream_sticky samples n hn avails 0 (by omega)).1 (fun i a ha => by simpa using h i a ha)
    simpa using this

example := C212_stream [1, 2, 3, 4, 5] 2 (by decide) [2, 3]

/-- **C213, refuted**: the samples of a flac or ogg file do not depend on the size of the chunks.  At the first chunk of bytes after which fewer samples can be decoded
than will have been asked for, the stream ends with what can be decoded then; all the rest of the file is lost, without an exception. -/
theorem C213_compressed_refuted (samples : List α) (n : Nat) (hn : 0 < n) (avails : List Nat) (j a : Nat) (ha : avails[j]? = some a)
    (hbefore : ∀ (i b : Nat), i < j → avails[i]? = some b → (i + 1) * n ≤ min b samples.length)
    (hge : j * n ≤ min a samples.length) (hlt : min a samples.length < (j + 1) * n) :
    (stream true samples n ⟨0, false⟩ avails).flatten = samples.take a := by
  have := (stream_sticky samples n hn avails 0 (by omega)).2 j a ha (fun i b hi hb => by simpa using hbefore i b hi hb)
    (by simpa using hge) (by simpa using hlt)
  simpa using this

/-- Five samples read two at a time: in full if the chunks bring enough, otherwise cut off at the second chunk. -/
example : stream true [1, 2, 3, 4, 5] 2 ⟨0, false⟩ [3, 5] = [[1, 2], [3, 4], [5]] ∧
    stream true [1, 2, 3, 4, 5] 2 ⟨0, false⟩ [2, 3] = [[1, 2], [3]] ∧
    stream false [1, 2, 3, 4, 5] 2 ⟨0, false⟩ [2, 3] = [[1, 2], [3], [4, 5]] := by
  simp [stream, Reader.read, drain]

/-! ## C214-C216: OggVorbis -/

theorem cutAll_ok (step : Nat) (h : 0 < step) : ∀ xs : List (List α),
    ∃ ps, cutAll step xs = .ok ps ∧ ps.flatten = xs.flatten ∧ ∀ p ∈ ps, p ≠ [] ∧ p.length ≤ step := by
  intro xs
  induction xs with
  | nil => exact ⟨[], rfl, rfl, by simp⟩
  | cons x xs ih =>
    obtain ⟨qs, h1, h2, h3⟩ := ih
    obtain ⟨ps, g1, g2, g3⟩ := Audio.C34_ogg_pieces x step h
    refine ⟨ps ++ qs, by rw [cutAll, g1, h1], by simp [h2, g2], ?_⟩
    intro p hp
    rcases List.mem_append.1 hp with hp | hp
    · exact g3 p hp
    · exact h3 p hp

theorem writeAll_append {σ B : Type} (enc : Enc σ α B) (ps qs : List (List α)) : ∀ st,
    writeAll enc st (ps ++ qs) = ((writeAll enc (writeAll enc st ps).1 qs).1, (writeAll enc st ps).2 ++ (writeAll enc (writeAll enc st ps).1 qs).2) := by
  induction ps with
  | nil => intro st; simp [writeAll]
  | cons p ps ih => intro st; simp [writeAll, ih]

/-- Specification: the encoder after the given pieces. -/
def encoderAfter {σ B : Type} (enc : Enc σ α B) (ps : List (List α)) : σ := ps.foldl (fun st p => (enc.write st p).1) enc.openFile.1

/-- Specification: what one ogg file made of the given pieces is: the bytes of opening it, for each piece what the encoder puts out for it after the pieces before it, and
the bytes of closing it. -/
def oggFile {σ B : Type} (enc : Enc σ α B) (ps : List (List α)) : List B :=
  enc.openFile.2 ++ ((List.range ps.length).map fun i => (enc.write (encoderAfter enc (ps.take i)) (ps.getD i [])).2).flatten ++ enc.close (encoderAfter enc ps)

theorem writeAll_state {σ B : Type} (enc : Enc σ α B) (ps : List (List α)) : ∀ st, (writeAll enc st ps).1 = ps.foldl (fun st p => (enc.write st p).1) st := by
  induction ps with
  | nil => intro st; rfl
  | cons p ps ih => intro st; rw [writeAll, ih]; rfl

theorem writeAll_bytes {σ B : Type} (enc : Enc σ α B) (ps : List (List α)) : ∀ st, (writeAll enc st ps).2 =
    ((List.range ps.length).map fun i => (enc.write ((ps.take i).foldl (fun st p => (enc.write st p).1) st) (ps.getD i [])).2).flatten := by
  induction ps with
  | nil => intro st; rfl
  | cons p ps ih =>
    intro st
    rw [writeAll, ih, List.length_cons, List.range_succ_eq_map, List.map_cons, List.flatten_cons, List.map_map]
    rfl

/-- A file written piece by piece. -/
theorem oggFile_eq {σ B : Type} (enc : Enc σ α B) (ps : List (List α)) :
    oggFile enc ps = enc.openFile.2 ++ (writeAll enc enc.openFile.1 ps).2 ++ enc.close (writeAll enc enc.openFile.1 ps).1 := by
  rw [writeAll_state, writeAll_bytes]; rfl

theorem rounds_spec {σ B : Type} (enc : Enc σ α B) (sticky : Bool) (samples : List α) (n step : Nat) (hstep : 0 < step) (P : Reader → List α → Prop)
    (hP : ∀ r acc avail, P r acc → P (drain sticky samples avail n r).2 (acc ++ (drain sticky samples avail n r).1.flatten)) :
    ∀ (avails : List Nat) (last : Nat) (nd : Node σ B) (acc : List α), P nd.reader acc →
      ∃ ps bs r, rounds enc sticky samples n step nd avails last = .ok (ps, bs) ∧ P r (acc ++ ps.flatten) ∧
        (∃ r0 acc0, P r0 acc0 ∧ acc ++ ps.flatten = acc0 ++ (drain sticky samples last n r0).1.flatten) ∧
        bs.flatten = nd.pending ++ (writeAll enc nd.writer ps).2 ++ enc.close (writeAll enc nd.writer ps).1 ∧
        ∀ p ∈ ps, p ≠ [] ∧ p.length ≤ step := by
  intro avails
  induction avails with
  | nil =>
    intro last nd acc hacc
    obtain ⟨ps, h1, h2, h3⟩ := cutAll_ok step hstep (drain sticky samples last n nd.reader).1
    refine ⟨ps, [nd.pending ++ (writeAll enc nd.writer ps).2 ++ enc.close (writeAll enc nd.writer ps).1], (drain sticky samples last n nd.reader).2, ?_, ?_, ?_, ?_, h3⟩
    · rw [rounds, round, h1]
      simp
    · rw [h2]; exact hP _ _ _ hacc
    · exact ⟨nd.reader, acc, hacc, by rw [h2]⟩
    · simp
  | cons a as ih =>
    intro last nd acc hacc
    obtain ⟨ps, h1, h2, h3⟩ := cutAll_ok step hstep (drain sticky samples a n nd.reader).1
    have hacc' := hP nd.reader acc a hacc
    rw [← h2] at hacc'
    obtain ⟨ps', bs', r, g1, g2, g3, g4, g5⟩ := ih last ⟨(drain sticky samples a n nd.reader).2, (writeAll enc nd.writer ps).1, []⟩ (acc ++ ps.flatten) hacc'
    refine ⟨ps ++ ps', (nd.pending ++ (writeAll enc nd.writer ps).2) :: bs', r, ?_, ?_, ?_, ?_, ?_⟩
    · rw [rounds, round, h1]
      simp [g1]
    · rw [List.flatten_append, ← List.append_assoc]; exact g2
    · rw [List.flatten_append, ← List.append_assoc]; exact g3
    · rw [List.flatten_cons, g4, writeAll_append]
      simp
    · intro p hp
      rcases List.mem_append.1 hp with hp | hp
      · exact h3 p hp
      · exact g5 p hp

/-- **C214**: an uncompressed file becomes one complete ogg file with all of its samples, in order, written in pieces of at most twenty seconds, however the bytes arrive;
an ogg file is passed on unchanged. -/
theorem C214_ogg {σ : Type} (enc : Enc σ α Nat) (src : Source α) (hsub : (Buffer.byteDepth.lookup src.subtype).isSome) (hc : 0 < src.channels) (hr : 0 < src.rate)
    (chunks : List (List Nat)) (avails : List Nat) (last : Nat) :
    (src.isOgg = true → oggVorbis enc src chunks avails last = .ok ([], chunks)) ∧
    (src.isOgg = false → src.sticky = false → src.samples.length ≤ last →
      ∃ ps bs, oggVorbis enc src chunks avails last = .ok (ps, bs) ∧ ps.flatten = src.samples ∧ bs.flatten = oggFile enc ps ∧
        ∀ p ∈ ps, p ≠ [] ∧ p.length ≤ src.rate * 20) := by
  obtain ⟨d, hd⟩ := Option.isSome_iff_exists.1 hsub
  have hd0 : 0 < d := by
    have := (Buffer.C32_byte_depth src.subtype d).1 hd
    omega
  obtain ⟨n, hn, -, hn0⟩ := Buffer.C32_chunk_size src.subtype src.channels src.rate ((chunks.head?.getD []).length) d hd hd0 hr hc
  unfold oggVorbis
  rw [hn]
  constructor
  · intro h; simp [h]
  · intro h hst hlast
    simp only [h, Bool.false_eq_true, if_false, hst]
    have key := rounds_spec enc false src.samples n (src.rate * 20) (by omega)
      (fun r acc => r.dead = false ∧ r.pos ≤ src.samples.length ∧ acc = src.samples.take r.pos) (by
        rintro ⟨pos, dead⟩ acc avail ⟨rfl, h2, rfl⟩
        simp only at h2
        obtain ⟨g1, g2, -⟩ := drain_spec false src.samples avail n hn0 pos h2
        rw [g1, g2]
        refine ⟨rfl, by simp only []; omega, ?_⟩
        simp only []
        have : max pos (min avail src.samples.length) = pos + (min avail src.samples.length - pos) := by omega
        rw [this, List.take_add])
      avails last ⟨⟨0, false⟩, enc.openFile.1, enc.openFile.2⟩ [] ⟨rfl, by simp, by simp⟩
    obtain ⟨ps, bs, r, k1, k2, ⟨r0, acc0, k3, k4⟩, k5, k6⟩ := key
    refine ⟨ps, bs, k1, ?_, by rw [oggFile_eq]; exact k5, k6⟩
    obtain ⟨pos0, dead0⟩ := r0
    obtain ⟨rfl, hp, rfl⟩ := k3
    simp only at hp k4
    rw [(drain_spec false src.samples last n hn0 pos0 hp).1] at k4
    rw [List.nil_append] at k4
    rw [k4, List.take_of_length_le (i := min last src.samples.length - pos0), List.take_append_drop]
    simp only [List.length_drop]
    omega

/-- **C215, refuted**: a flac file becomes an ogg file of the same length.  Everything that cannot be decoded from the first chunk of bytes is lost, whatever comes after,
and no exception tells. -/
theorem C215_flac_refuted {σ : Type} (enc : Enc σ α Nat) (src : Source α) (hsub : (Buffer.byteDepth.lookup src.subtype).isSome) (hc : 0 < src.channels) (hr : 0 < src.rate)
    (hogg : src.isOgg = false) (hst : src.sticky = true) (chunks : List (List Nat)) (first : Nat) (avails : List Nat) (last : Nat) :
    ∃ ps bs, oggVorbis enc src chunks (first :: avails) last = .ok (ps, bs) ∧ ps.flatten = src.samples.take first ∧ bs.flatten = oggFile enc ps := by
  obtain ⟨d, hd⟩ := Option.isSome_iff_exists.1 hsub
  have hd0 : 0 < d := by
    have := (Buffer.C32_byte_depth src.subtype d).1 hd
    omega
  obtain ⟨n, hn, -, hn0⟩ := Buffer.C32_chunk_size src.subtype src.channels src.rate ((chunks.head?.getD []).length) d hd hd0 hr hc
  unfold oggVorbis
  rw [hn]
  simp only [hogg, Bool.false_eq_true, if_false, hst]
  obtain ⟨g1, g2, -⟩ := drain_spec true src.samples first n hn0 0 (by omega)
  obtain ⟨ps, h1, h2, h3⟩ := cutAll_ok (src.rate * 20) (by omega) (drain true src.samples first n ⟨0, false⟩).1
  have key := rounds_spec enc true src.samples n (src.rate * 20) (by omega)
    (fun r acc => r.dead = true ∧ acc = ps.flatten) (by
      rintro ⟨pos, dead⟩ acc avail ⟨hdd, rfl⟩
      simp only at hdd
      subst hdd
      rw [drain_dead]
      simp)
    avails last ⟨(drain true src.samples first n ⟨0, false⟩).2, (writeAll enc enc.openFile.1 ps).1, []⟩ ps.flatten (by rw [g2]; exact ⟨rfl, rfl⟩)
  obtain ⟨ps', bs', r, k1, ⟨k2, k2'⟩, k3, k4, k5⟩ := key
  refine ⟨ps ++ ps', (enc.openFile.2 ++ (writeAll enc enc.openFile.1 ps).2) :: bs', ?_, ?_, ?_⟩
  · rw [rounds, round]
    simp only [h1, k1]
    simp
  · rw [List.flatten_append, k2', h2, g1]
    simp only [List.drop_zero, Nat.sub_zero]
    apply List.ext_getElem?
    intro i
    rw [List.getElem?_take, List.getElem?_take]
    by_cases hi : i < first
    · by_cases hi2 : i < src.samples.length
      · rw [if_pos (by omega), if_pos hi]
      · rw [if_pos hi, List.getElem?_eq_none (by omega)]; simp
    · rw [if_neg hi, if_neg (by omega)]
  · rw [oggFile_eq, List.flatten_cons, k4, writeAll_append]
    simp

/-- **C216, refuted**: every file that libsndfile reads can be processed.  A subtype missing from the table of byte depths (G.711, GSM, ALAC, Opus, MP3, …) is a
KeyError, even for an ogg file that would only be passed on. -/
theorem C216_subtype_refuted {σ : Type} (enc : Enc σ α Nat) (src : Source α)
    (hsub : src.subtype ∈ ["ULAW", "ALAW", "GSM610", "ALAC_16", "ALAC_24", "OPUS", "MPEG_LAYER_III", "VOX_ADPCM", "DPCM_16"])
    (chunks : List (List Nat)) (avails : List Nat) (last : Nat) :
    oggVorbis enc src chunks avails last = .error .keyError := by
  have : Buffer.byteDepth.lookup src.subtype = none := by
    generalize src.subtype = t at hsub
    revert t
    decide +kernel
  unfold oggVorbis Buffer.chunkSizeSamples
  rw [this]

/-- An encoder that writes a mark for opening and closing and each piece's length in between. -/
def marks : Enc Unit Nat Nat where
  openFile := ((), [100])
  write := fun _ p => ((), [p.length])
  close := fun _ => [200]

/-- A wav file at one sample per second whose 25 samples come in two chunks: pieces of 12 samples at first, then the rest. -/
example : (oggVorbis marks ⟨false, false, "PCM_16", 1, 1, List.range 25⟩ [[0], [0]] [12] 25).toOption.map (fun x => (x.1.flatten, x.2.flatten.head?, x.2.flatten.getLast?)) =
    some (List.range 25, some 100, some 200) := by
  obtain ⟨ps, bs, h1, h2, h3, -⟩ := (C214_ogg marks ⟨false, false, "PCM_16", 1, 1, List.range 25⟩ (by decide) (by decide) (by decide) [[0], [0]] [12] 25).2 rfl rfl (by simp)
  rw [h1]
  simp only [Except.toOption, Option.map_some, h2, h3, oggFile, marks, Option.some.injEq, Prod.mk.injEq, true_and]
  constructor
  · rfl
  · rw [List.getLast?_append]; rfl

/-! ## C217: from bytes to windows -/

variable [Field α]

/-- Specification: one channel out of a frame: the sample itself, or a quarter of the sum of the channels (see C34, C89). -/
def monoOf (c : Nat) (f : List α) : α := if c = 1 then f.getD 0 0 else f.sum / 4

theorem pcm_ok [CharZero α] (rate : Int) (hr : rate ∈ ([96000, 48000, 44100, 22050, 16000, 11025] : List Int)) (c : Nat) (frames : List (List α)) :
    ∃ r, pcm rate c frames = .ok ⟨r, .vec (frames.map (monoOf c))⟩ ∧ r.samplesPerSecond = rate := by
  obtain ⟨a, h1, h2, h3, h4⟩ := (Audio.C34_from_file (raw c frames) rate (by
    unfold raw
    split
    · exact Or.inl ⟨_, rfl⟩
    · exact Or.inr ⟨_, _, rfl⟩)).1 hr
  refine ⟨a.rate, ?_, h3⟩
  unfold pcm
  rw [h1]
  simp only []
  by_cases hc : c = 1
  · subst hc
    have hd : a.data = .vec (frames.map fun f => f.getD 0 0) := by rw [h2]; simp [raw]
    rw [Audio.C34_mono_noop a (by simp [Audio.Audio.channels, hd])]
    obtain ⟨ar, ad⟩ := a
    simp only at hd
    subst hd
    congr 3
  · have hd : a.data = .mat c frames := by rw [h2]; simp [raw, hc]
    rw [Audio.C34_mono_value a h4 c frames hd hc]
    congr 3
    apply List.map_congr_left
    intro f _
    simp [monoOf, hc]

theorem pcmAll_ok [CharZero α] (rate : Int) (hr : rate ∈ ([96000, 48000, 44100, 22050, 16000, 11025] : List Int)) (c : Nat) : ∀ (xs : List (List (List α))),
    ∃ as, pcmAll rate c xs = .ok as ∧ as.map vecOf = xs.map (fun x => x.map (monoOf c)) ∧ ∀ a ∈ as, a.rate.samplesPerSecond = rate := by
  intro xs
  induction xs with
  | nil => exact ⟨[], rfl, rfl, by simp⟩
  | cons x xs ih =>
    obtain ⟨as, h1, h2, h3⟩ := ih
    obtain ⟨r, g1, g2⟩ := pcm_ok rate hr c x
    refine ⟨_ :: as, by rw [pcmAll, g1, h1], ?_, ?_⟩
    · rw [List.map_cons, h2, List.map_cons]
      rfl
    · intro a ha
      rcases List.mem_cons.1 ha with rfl | ha
      · exact g2
      · exact h3 a ha

theorem dropLast_getLast {β : Type} (l : List β) : l.dropLast ++ l.getLast?.toList = l := by
  cases h : l.getLast? with
  | none => rw [List.getLast?_eq_none_iff] at h; simp [h]
  | some x =>
    have := List.dropLast_append_getLast? x h
    simpa using this

/-- **C217**: for an uncompressed file at the graph's own sample rate, every window feature of the graph is the transform of a window of the file's mono signal continued by
zeros, weighted with the window function, however the bytes arrive; every window that lies within the signal is there. -/
theorem C217_graph [CharZero α] {σ β : Type} (lib : Resample.Lib σ α) (target : Audio.RateArg) (memory : Audio.Audio α → List α) (rate : Nat)
    (hr : (rate : Int) ∈ ([96000, 48000, 44100, 22050, 16000, 11025] : List Int)) (htarget : Resample.hz target.rate = rate)
    (hratio : lib.validRatio rate rate = true) (c w s n : Nat) (hs : 1 ≤ s) (hsw : s ≤ w) (hn : 0 < n) (func : List α) (hfunc : func.length = w)
    (transform : List α → β) (frames : List (List α)) (avails : List Nat) (hav : avails ≠ []) :
    ∃ out : List β, graph lib target memory rate c w s n func transform frames avails = .ok out ∧
      (∀ i, i * s + w ≤ frames.length → i < out.length) ∧ (∀ i, i < out.length → i * s ≤ frames.length) ∧
      ∀ i, i < out.length → out[i]? = some (transform ((List.range w).map fun j =>
        func.getD j 0 * (if i * s + j < frames.length then monoOf c (frames.getD (i * s + j) []) else 0))) := by
  have hflat : (stream false frames n ⟨0, false⟩ avails).flatten = frames := (C212_stream frames n hn avails).1
  have hne : stream false frames n ⟨0, false⟩ avails ≠ [] := by
    cases avails with
    | nil => exact absurd rfl hav
    | cons a as => simp [stream]
  generalize hcs : stream false frames n ⟨0, false⟩ avails = cs at hflat hne
  obtain ⟨as, h1, h2, h3⟩ := pcmAll_ok (rate : Int) hr c cs
  have hasne : as ≠ [] := by
    rintro rfl
    apply hne
    simpa using h2.symm
  let flagged : List (Resample.Chunk α × Bool) :=
    as.dropLast.map (fun a => ((⟨a, memory a⟩ : Resample.Chunk α), false)) ++ (as.getLast?.map fun a => ((⟨a, memory a⟩ : Resample.Chunk α), true)).toList
  have hflag : flagged.map (fun p => p.1.audio) = as := by
    have : flagged.map (fun p => p.1.audio) = as.dropLast ++ as.getLast?.toList := by
      simp only [flagged, List.map_append, List.map_map]
      congr 1
      · simp [Function.comp_def]
      · cases as.getLast? <;> simp
    rw [this, dropLast_getLast]
  have hrun : Resample.run lib target flagged = .ok (as, []) := by
    cases hfl : flagged with
    | nil => rw [hfl] at hflag; simp at hflag; exact absurd hflag hasne
    | cons p rest =>
      obtain ⟨ch, fin⟩ := p
      have hmem : ch.audio ∈ as := by rw [← hflag, hfl]; simp
      have hhz : Resample.hz ch.audio.rate = rate := by
        unfold Resample.hz; rw [h3 _ hmem]; simp
      have hpos : 0 < rate := by
        have : (rate : Int) = 96000 ∨ (rate : Int) = 48000 ∨ (rate : Int) = 44100 ∨ (rate : Int) = 22050 ∨ (rate : Int) = 16000 ∨ (rate : Int) = 11025 := by
          simpa using hr
        omega
      have := Resample.C117_same_rate lib target ch fin rest (by rw [htarget, hhz]) (by rw [hhz]; exact hpos) (by rw [htarget, hhz]; exact hratio)
      rw [this, ← hfl, hflag]
  have hsig : (as.dropLast.map vecOf).flatten ++ ((as.getLast?.map vecOf).getD []) = frames.map (monoOf c) := by
    have e1 : (as.dropLast.map vecOf).flatten ++ ((as.getLast?.map vecOf).getD []) = (as.map vecOf).flatten := by
      conv_rhs => rw [← dropLast_getLast as]
      rw [List.map_append, List.flatten_append]
      congr 1
      cases as.getLast? <;> simp
    rw [e1, h2, ← List.map_flatten, hflat]
  obtain ⟨wins, w1, w2⟩ := Props.C03_final_windows (0 : α) w s hs hsw (as.dropLast.map vecOf) ((as.getLast?.map vecOf).getD [])
  obtain ⟨b1, b2⟩ := Props.C03_final_complete (0 : α) w s hs hsw _ _ wins w1
  rw [hsig, List.length_map] at b1 b2
  rw [hsig] at w2
  refine ⟨(SlidingWindow.applyFunc (· * ·) func wins).map transform, ?_, ?_, ?_, ?_⟩
  · unfold graph
    rw [hcs, h1]
    simp only []
    have : Resample.run lib target (as.dropLast.map (fun a => ((⟨a, memory a⟩ : Resample.Chunk α), false)) ++
        (as.getLast?.map fun a => ((⟨a, memory a⟩ : Resample.Chunk α), true)).toList) = .ok (as, []) := hrun
    rw [this]
    simp only []
    rw [w1]
  · simpa [SlidingWindow.applyFunc] using b1
  · simpa [SlidingWindow.applyFunc] using b2
  · intro i hi
    have hi' : i < wins.length := by simpa [SlidingWindow.applyFunc] using hi
    obtain ⟨hl, hval⟩ := w2 i hi'
    unfold SlidingWindow.applyFunc
    rw [List.getElem?_map, List.getElem?_map, List.getElem?_eq_getElem hi']
    simp only [Option.map_some]
    congr 2
    apply List.ext_getElem?
    intro j
    by_cases hj : j < w
    · rw [List.getElem?_zipWith, hval j hj, List.getElem?_map, List.getElem?_range hj]
      have : func[j]? = some (func.getD j 0) := by
        rw [List.getD_eq_getElem?_getD, List.getElem?_eq_getElem (by omega)]; rfl
      rw [this]
      simp only [Option.map_some]
      congr 2
      unfold Props.sampleOrZero
      rw [List.getD_eq_getElem?_getD, List.getElem?_map]
      by_cases hlt : i * s + j < frames.length
      · rw [if_pos hlt, List.getElem?_eq_getElem hlt]
        rfl
      · rw [if_neg hlt, List.getElem?_eq_none (by omega)]
        rfl
    · rw [List.getElem?_eq_none (by simp [hfunc, hl]; omega), List.getElem?_eq_none (by simp; omega)]

/-- A file at any other sample rate (8000, 12000, 24000, 32000, 88200, 192000 Hz, …) is refused as soon as the first chunk has been read. -/
theorem C217_unsupported {σ β : Type} (lib : Resample.Lib σ α) (target : Audio.RateArg) (memory : Audio.Audio α → List α) (rate : Int)
    (hr : rate ∉ ([96000, 48000, 44100, 22050, 16000, 11025] : List Int)) (c w s n : Nat) (func : List α)
    (transform : List α → β) (frames : List (List α)) (avails : List Nat) (hav : avails ≠ []) :
    graph lib target memory rate c w s n func transform frames avails = .error (.py .valueError) := by
  have hp : ∀ x : List (List α), pcm rate c x = .error .valueError := by
    intro x
    unfold pcm
    rw [(Audio.C34_from_file (raw c x) rate (by
      unfold raw
      split
      · exact Or.inl ⟨_, rfl⟩
      · exact Or.inr ⟨_, _, rfl⟩)).2 hr]
  cases avails with
  | nil => exact absurd rfl hav
  | cons a as => unfold graph; simp [stream, pcmAll, hp]

/-- A mono file of five samples at 44100 Hz, window 4, step 2: the second window feature is the sum of the samples 2, 3, 4 and a zero, whether the file arrives at once
or in pieces. -/
example (lib : Resample.Lib Nat ℚ) (hratio : lib.validRatio 44100 44100 = true) (avails : List Nat) (hav : avails ≠ []) :
    ∃ out : List ℚ, graph lib ⟨Resample.sr44, true⟩ (fun _ => []) 44100 1 4 2 3 [1, 1, 1, 1] List.sum [[1], [2], [3], [4], [5]] avails = .ok out ∧
      out[0]? = some 10 ∧ (1 < out.length → out[1]? = some 12) := by
  obtain ⟨out, h1, h2, -, h4⟩ := C217_graph lib ⟨Resample.sr44, true⟩ (fun _ => []) 44100 (by decide) (by decide) hratio 1 4 2 3 (by decide) (by decide) (by decide)
    [1, 1, 1, 1] rfl List.sum [[1], [2], [3], [4], [5]] avails hav
  refine ⟨out, h1, ?_, fun h => ?_⟩
  · rw [h4 0 (h2 0 (by decide))]
    norm_num [List.range_succ, monoOf]
  · rw [h4 1 h]
    norm_num [List.range_succ, monoOf]

end Zounds.SoundNodes
