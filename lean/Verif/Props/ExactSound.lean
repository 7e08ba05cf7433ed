import Verif.Props.ContentRange
import Verif.Props.Buffer
import Verif.Props.OggVorbis
import Verif.Props.Audio
import Mathlib.Data.List.Induction

/-!
# Exact conditions for claims about sound files and streams (C85, C87, C88, C89)
-/

namespace Zounds.Http

/-- **C85, exact**: `bytes=a-b` with `a ≤ b` is answered with the bytes HTTP means by it (positions `a` to `b` inclusive) exactly
when the file does not reach beyond position `b − 1`, or has at most one byte. -/
theorem C85_exact {α : Type} (pf) (file : List α) (a b : Nat) (hab : a ≤ b) :
    ∃ r, getBytes pf file (some (closedHeader a b)) = .ok r ∧ r.status = 206 ∧
      (r.body = inclusiveBytes file a b ↔ file.length ≤ max b 1) := by
  by_cases hb : b = 0
  · subst hb
    obtain rfl : a = 0 := by omega
    obtain ⟨r, h1, h2, h3, -⟩ := C30_first_byte_refuted pf file
    refine ⟨r, h1, h2, ?_⟩
    rw [h3]
    constructor
    · intro h
      have := congrArg List.length h
      simp [inclusiveBytes] at this
      simp; omega
    · intro h
      simp at h
      simp only [inclusiveBytes, List.drop_zero]
      rw [List.take_of_length_le (by omega)]
  · have hb' : 0 < b := by omega
    obtain ⟨r, h1, h2, h3, -⟩ := C30_closed_partial pf file a b hab hb'
    refine ⟨r, h1, h2, ?_⟩
    have hm : max b 1 = b := by omega
    rw [hm]
    constructor
    · intro h
      by_contra hlt
      obtain ⟨r', last, e1, -, -, e4⟩ := C30_inclusive_refuted pf file a b hab hb' (by omega)
      rw [h1] at e1; cases e1
      exact e4 h
    · intro h
      rw [h3, halfOpenBytes, inclusiveBytes, List.take_of_length_le h, List.take_of_length_le (by omega)]

example : ∃ r, getBytes (fun _ => none) [10, 20, 30] (some (closedHeader 1 3)) = .ok r ∧ r.status = 206 ∧
    r.body = inclusiveBytes [10, 20, 30] 1 3 := by
  obtain ⟨r, h1, h2, h3⟩ := C85_exact (fun _ => none) [10, 20, 30] 1 3 (by decide)
  exact ⟨r, h1, h2, h3.2 (by decide)⟩

end Zounds.Http

namespace Zounds.Buffer
variable {α : Type}

theorem step_length (b : Buf α) (op : Op α) :
    (step b op).2.data.length ≤ b.data.length + (written [op]).length ∧
    ((step b op).2.data.length = b.data.length + (written [op]).length ↔
      ∀ d, op = .write d → b.maxSize < b.pos → b.data = []) := by
  cases op with
  | write d =>
    simp only [step, write, written, List.append_nil]
    split
    · rename_i hp
      refine ⟨by simp, ?_⟩
      simp only [List.length_append, List.length_drop]
      constructor
      · intro h d' _ _
        apply List.eq_nil_of_length_eq_zero
        omega
      · intro h
        have := h d rfl hp
        simp [this]
    · rename_i hp
      refine ⟨by simp, ?_⟩
      simp only [List.length_append, true_iff]
      intro d' _ h
      exact absurd h hp
  | read n => simp [step, read, written]
  | seek o wh =>
    have : (step b (.seek o wh)).2.data = b.data := by
      cases wh <;> simp only [step, seek]
      split
      · rename_i heq; split at heq
        · cases heq
        · cases heq; rfl
      · rfl
    rw [this]; simp [written]
  | tell =>
    have : (step b .tell).2.data = b.data := by
      simp only [step, tell]; split <;> rfl
    rw [this]; simp [written]

theorem run_snoc (b : Buf α) (pre : List (Op α)) (op : Op α) : (run b (pre ++ [op])).2 = (step (run b pre).2 op).2 := by
  rw [run_append]; rfl

theorem run_maxSize (b : Buf α) (ops : List (Op α)) : (run b ops).2.maxSize = b.maxSize := by
  induction ops generalizing b with
  | nil => rfl
  | cons op ops ih => simp only [run]; rw [ih, step_maxSize]

/-- A write discards bytes: it happens at a read position beyond the maximum size, after something had been written. -/
def Discards (contentLength maxSize : Nat) (ops : List (Op α)) : Prop :=
  ∃ pre d, pre ++ [.write d] <+: ops ∧ maxSize < (run (init contentLength maxSize) pre).2.pos ∧ written pre ≠ []

theorem data_le (c m : Nat) (ops : List (Op α)) : (run (init c m) ops).2.data.length ≤ (written ops).length := by
  induction ops using List.reverseRecOn with
  | nil => simp [run, init]
  | append_singleton pre op ih =>
    rw [run_snoc, written_append, List.length_append]
    have := (step_length (run (init c m) pre).2 op).1
    omega

theorem data_eq_iff (c m : Nat) (ops : List (Op α)) :
    (run (init c m) ops).2.data = written ops ↔ (run (init c m) ops).2.data.length = (written ops).length := by
  constructor
  · intro h; rw [h]
  · intro h
    obtain ⟨base, -, h2, h3⟩ := run_suffix (init c m : Buf α) ops [] 0 (by simp) (by simp [init])
    simp only [List.nil_append] at h2 h3
    rw [h3, List.length_drop] at h
    obtain rfl | hw : base = 0 ∨ (written ops).length = 0 := by omega
    · rw [h3, List.drop_zero]
    · rw [h3, List.eq_nil_of_length_eq_zero hw]; simp

theorem data_written_iff (c m : Nat) (ops : List (Op α)) :
    (run (init c m) ops).2.data = written ops ↔ ¬ Discards c m ops := by
  rw [data_eq_iff]
  induction ops using List.reverseRecOn with
  | nil =>
    simp only [run, init, written, true_iff]
    rintro ⟨pre, d, h, -⟩
    have := h.length_le
    simp at this
  | append_singleton pre op ih =>
    rw [run_snoc, written_append, List.length_append]
    have h1 := step_length (run (init c m) pre).2 op
    have h2 := data_le c m pre
    have hmax : (run (init c m : Buf α) pre).2.maxSize = m := run_maxSize _ _
    rw [hmax] at h1
    constructor
    · intro h hd
      have e1 : (run (init c m) pre).2.data.length = (written pre).length := by omega
      have e2 := h1.2.1 (by omega)
      have e3 := ih.1 e1
      obtain ⟨p, d, hp, hlt, hne⟩ := hd
      rcases List.prefix_concat_iff.1 hp with heq | hp'
      · obtain ⟨rfl, h4⟩ := List.append_inj' heq rfl
        simp only [List.cons.injEq, and_true] at h4
        have := e2 d h4.symm hlt
        rw [this] at e1
        exact hne (List.eq_nil_of_length_eq_zero e1.symm)
      · exact e3 ⟨p, d, hp', hlt, hne⟩
    · intro hd
      have e3 : ¬ Discards c m pre := by
        rintro ⟨p, d, hp, hlt, hne⟩
        exact hd ⟨p, d, hp.trans (List.prefix_append _ _), hlt, hne⟩
      have e1 := ih.2 e3
      have e2 := h1.2.2 (by
        intro d hop hlt
        by_contra hne
        refine hd ⟨pre, d, hop ▸ List.prefix_rfl, hlt, ?_⟩
        intro hw
        rw [hw] at e1
        exact hne (List.eq_nil_of_length_eq_zero (by simpa using e1)))
      omega

/-- **C87, exact**: after any history of writes, reads, seeks and tells, an absolute seek to every position `k` followed by a
read of any number of bytes gives the bytes from position `k` of everything written, exactly when no write discarded
anything. -/
theorem C87_exact (contentLength maxSize : Nat) (ops : List (Op α)) :
    (∀ k n : Nat, ∃ b', seek (run (init contentLength maxSize) ops).2 k .set = .ok b' ∧
      (read b' n).1 = ((written ops).drop k).take n) ↔ ¬ Discards contentLength maxSize ops := by
  have hs : ∀ k : Nat, seek (run (init contentLength maxSize) ops).2 k .set =
      .ok { (run (init contentLength maxSize) ops).2 with pos := k } := by
    intro k
    have hk : ¬ ((k : Int) < 0) := by omega
    simp [seek, hk]
  rw [← data_written_iff]
  constructor
  · intro h
    obtain ⟨b', e1, e2⟩ := h 0 (written ops).length
    rw [hs] at e1
    cases e1
    have hn : ¬ (((written ops).length : Int) < 0) := by omega
    simp only [read, hn, if_false, Int.toNat_natCast, List.drop_zero] at e2
    rw [List.take_of_length_le (data_le _ _ _), List.take_of_length_le (le_refl _)] at e2
    exact e2
  · intro h k n
    refine ⟨_, hs k, ?_⟩
    have hn : ¬ ((n : Int) < 0) := by omega
    simp [read, hn, h]

/-- **C87, seek(tell())**: it leaves the read position alone exactly when the last seek to the end has already been answered, or
the content length happens to be the position. -/
theorem C87_tell (b : Buf α) :
    ∃ b', seek (tell b).2 (tell b).1 .set = .ok b' ∧ b'.data = b.data ∧
      (b'.pos = b.pos ↔ b.tellIsEnd = false ∨ b.contentLength = b.pos) := by
  have hk : ∀ n : Nat, ¬ ((n : Int) < 0) := by intro n; omega
  unfold tell
  cases ht : b.tellIsEnd
  · exact ⟨{ b with pos := b.pos }, by simp [seek, hk], rfl, by simp⟩
  · exact ⟨{ b with pos := b.contentLength, tellIsEnd := false }, by simp [seek, hk], rfl, by simp⟩

-- a history that discards, and one that seeks and reads without discarding
example : Discards 5 2 ([.write [1, 2, 3, 4], .read 3, .write [5]] : List (Op Nat)) :=
  ⟨[.write [1, 2, 3, 4], .read 3], [5], by simp, by decide, by decide⟩
example : ∀ k n : Nat, ∃ b', seek (run (init 5 9) [.write [1, 2, 3, 4], .read 3, .write [5]]).2 k .set = .ok b' ∧
      (read b' n).1 = (([1, 2, 3, 4, 5] : List Nat).drop k).take n := by
  refine (C87_exact 5 9 ([.write [1, 2, 3, 4], .read 3, .write [5]] : List (Op Nat))).2 ?_
  rw [← data_written_iff]
  rfl

end Zounds.Buffer

namespace Zounds.Ogg
variable {α : Type}

theorem iterChunks_length (f one rate : Nat) (h : 0 < rate) (hf : 0 < f) (hs : one / f = rate) (frames : List α) (fuel k : Nat)
    (cs : List (List α)) (hc : iterChunksFrom f one frames fuel k = some (cs, none)) :
    k * one / f ≤ frames.length ∧ cs.flatten.length ≤ frames.length - k * one / f ∧
    (cs.flatten.length = frames.length - k * one / f →
      ∀ j, j ≤ (frames.length - k * one / f) / rate → (k + j) * one / f = k * one / f + j * rate) := by
  induction fuel generalizing k cs with
  | zero => simp [iterChunksFrom] at hc
  | succ fuel ih =>
    by_cases hle : k * one / f ≤ frames.length
    · have hget := getItem_second f one rate hs frames (k * one) _ rfl hle
      simp only [iterChunksFrom, hget, nSamples, hs] at hc
      refine ⟨hle, ?_⟩
      generalize hk : k * one / f = s at *
      have hsucc : s + rate ≤ (k + 1) * one / f := by
        have := (C33_seams f hf (k * one) one).1
        rw [hk, hs] at this
        rw [Nat.add_mul, Nat.one_mul]; exact this
      split at hc
      · rename_i hfull
        have hfull' : s + rate ≤ frames.length := by
          simp only [List.length_take, List.length_drop] at hfull
          omega
        cases hr : iterChunksFrom f one frames fuel (k + 1) with
        | none => rw [hr] at hc; cases hc
        | some p =>
          obtain ⟨rest, e⟩ := p
          rw [hr] at hc
          simp only [Option.some.injEq, Prod.mk.injEq] at hc
          obtain ⟨rfl, rfl⟩ := hc
          obtain ⟨i1, i2, i3⟩ := ih (k + 1) rest hr
          have hl : ((frames.drop s).take rate).length = rate := by
            simp only [List.length_take, List.length_drop]; omega
          simp only [List.flatten_cons, List.length_append, hl]
          refine ⟨by omega, ?_⟩
          intro heq j hj
          have e1 : (k + 1) * one / f = s + rate := by omega
          have e2 := i3 (by omega)
          rw [e1] at e2
          cases j with
          | zero => simp [hk]
          | succ j =>
            have := e2 j (by
              rw [Nat.le_div_iff_mul_le h] at hj ⊢
              rw [Nat.succ_mul] at hj
              omega)
            rw [show k + (j + 1) = k + 1 + j by omega, this, Nat.succ_mul]; omega
      · rename_i hfull
        simp only [Option.some.injEq, Prod.mk.injEq, and_true] at hc
        subst hc
        have hl : frames.length - s < rate := by
          simp only [List.length_take, List.length_drop] at hfull
          omega
        refine ⟨by simp, ?_⟩
        intro _ j hj
        rw [Nat.div_eq_of_lt hl] at hj
        obtain rfl : j = 0 := by omega
        simp [hk]
    · exfalso
      have : getItem f frames (k * one) (some one) = .error .runtimeError := by
        simp [getItem, Nat.lt_of_not_le hle]
      simp [iterChunksFrom, this] at hc

/-- **C88, exact**: reading a file second by second ends without an error and returns every frame, once and in order, exactly
when the file is short enough for the rounding of the sample period not to add up to a whole sample:
`⌊seconds⌋ · (10¹² mod period) < period`. -/
theorem C88_exact (rate : Nat) (h : 0 < rate) (hr : rate * rate < sec) (frames : List α) :
    (∃ cs, iterChunks rate frames (frames.length + 1) = some (cs, none) ∧ cs.flatten = frames) ↔
      (frames.length / rate) * (sec % freq rate) < freq rate := by
  have hs := second_samples rate h hr
  have hf : 0 < freq rate := by
    apply freq_pos rate h
    nlinarith
  constructor
  · rintro ⟨cs, h1, h2⟩
    have := (iterChunks_length (freq rate) sec rate h hf hs frames _ 0 cs h1).2.2 (by rw [h2]; simp)
      (frames.length / rate) (by simp)
    simp only [Nat.zero_add, Nat.zero_mul, Nat.zero_div] at this
    generalize frames.length / rate = j at *
    have hdm := Nat.div_add_mod sec (freq rate)
    rw [hs] at hdm
    have e : j * sec = freq rate * (j * rate) + j * (sec % freq rate) := by
      conv_lhs => rw [← hdm]
      ring
    rw [e, Nat.mul_add_div hf] at this
    have h0 : j * (sec % freq rate) / freq rate = 0 := by omega
    rcases Nat.div_eq_zero_iff.1 h0 with h' | h'
    · omega
    · exact h'
  · intro hd
    obtain ⟨cs, a, b, -⟩ := C33_iter_chunks_partial rate h hr frames hd
    exact ⟨cs, a, b⟩

/-- **C88, at 44.1 kHz**: exactly the files shorter than 535 seconds are returned completely. -/
theorem C88_cd_rate (frames : List α) :
    (∃ cs, iterChunks 44100 frames (frames.length + 1) = some (cs, none) ∧ cs.flatten = frames) ↔ frames.length < 535 * 44100 := by
  rw [C88_exact 44100 (by norm_num) (by unfold sec; norm_num) frames]
  have e1 : sec % freq 44100 = 42400 := by decide +kernel
  have e2 : freq 44100 = 22675736 := by decide +kernel
  rw [e1, e2]
  omega

-- at 44100 Hz: every file of at most 534 whole seconds, and none of 535 seconds or more
example (frames : List Nat) (hl : frames.length / 44100 ≤ 534) :
    ∃ cs, iterChunks 44100 frames (frames.length + 1) = some (cs, none) ∧ cs.flatten = frames := by
  refine (C88_exact 44100 (by decide) (by decide +kernel) frames).2 ?_
  have e : 534 * (sec % freq 44100) < freq 44100 := by decide +kernel
  exact Nat.lt_of_le_of_lt (Nat.mul_le_mul_right _ hl) e
example (frames : List Nat) (hl : 535 ≤ frames.length / 44100) :
    ¬ ∃ cs, iterChunks 44100 frames (frames.length + 1) = some (cs, none) ∧ cs.flatten = frames := by
  intro hc
  have h1 := (C88_exact 44100 (by decide) (by decide +kernel) frames).1 hc
  have e : freq 44100 ≤ 535 * (sec % freq 44100) := by decide +kernel
  exact absurd h1 (Nat.not_lt.2 (Nat.le_trans e (Nat.mul_le_mul_right _ hl)))

end Zounds.Ogg

namespace Zounds.Audio
open Zounds.Time (SampleRate supportedRates)
variable {α : Type} [Field α]

/-- **C89, mono, exact**: the mono version of audio with several channels is the average of the channels exactly when there are
four of them or the channels cancel in every sample. -/
theorem C89_mono [CharZero α] (a : Audio α) (hw : WellFormed a) (c : Nat) (rows : List (List α))
    (hd : a.data = .mat c rows) (hc : 1 < c) :
    ∃ m, a.mono = .ok m ∧ (m.data = .vec (rows.map average) ↔ c = 4 ∨ ∀ r ∈ rows, r.sum = 0) := by
  refine ⟨_, C34_mono_value a hw.1 c rows hd (by omega), ?_⟩
  have hlen : ∀ r ∈ rows, r.length = c := by
    rcases hw.2 with ⟨xs, hx⟩ | ⟨c', rows', hx, hl⟩
    · rw [hd] at hx; cases hx
    · rw [hd] at hx; cases hx; exact hl
  have hc0 : (c : α) ≠ 0 := Nat.cast_ne_zero.2 (by omega)
  have h4 : (4 : α) ≠ 0 := by
    have : ((4 : Nat) : α) ≠ 0 := Nat.cast_ne_zero.2 (by decide)
    exact_mod_cast this
  simp only [Raw.vec.injEq]
  rw [List.map_inj_left]
  have key : ∀ r ∈ rows, (r.sum / 4 = average r ↔ c = 4 ∨ r.sum = 0) := by
    intro r hr
    rw [average, hlen r hr, div_eq_div_iff h4 hc0]
    constructor
    · intro h
      by_cases h0 : r.sum = 0
      · exact Or.inr h0
      · left
        have := mul_left_cancel₀ h0 h
        exact_mod_cast this
    · rintro (rfl | h)
      · norm_num
      · rw [h]; simp
  constructor
  · intro h
    by_cases h4' : c = 4
    · exact Or.inl h4'
    · right
      intro r hr
      exact ((key r hr).1 (h r hr)).resolve_left h4'
  · rintro (h | h) r hr
    · exact (key r hr).2 (Or.inl h)
    · exact (key r hr).2 (Or.inr (h r hr))

/-- **C89, silence, exact**: `silence` of a non-negative duration is accepted as audio of the requested number of channels, with
all the samples that fit, exactly when the duration does not hold exactly one sample; and it is then all zeros. -/
theorem C89_silence (r : SampleRate) (d : Int) (channels : Nat) (hf : 0 < r.frequency) (hd : 0 ≤ d) (hc : 2 ≤ channels) :
    (silence (α := α) ⟨r, true⟩ d channels =
      .ok ⟨r, .mat channels (List.replicate (d.tdiv r.frequency).toNat (List.replicate channels 0))⟩) ↔
      d.tdiv r.frequency ≠ 1 := by
  obtain ⟨h0, h1, h2⟩ := C34_silence_count r d hf hd
  obtain ⟨n, hn⟩ := Int.eq_ofNat_of_zero_le h0
  rw [hn] at h1 h2 ⊢
  have hch : channels ≠ 1 := by omega
  constructor
  · intro h hne
    obtain rfl : n = 1 := by exact_mod_cast hne
    have := (C34_silence_one_refuted (α := α) r d channels (by simpa using h1) (by
      have : r.frequency * ((1 : Nat) + 1 : Int) = 2 * r.frequency := by push_cast; ring
      rw [← this]; exact h2)).2 hch
    rw [h] at this
    obtain ⟨s, e1, e2, -⟩ := this
    cases e1
    exact hch e2
  · intro hne
    have hne' : n ≠ 1 := by intro e; exact hne (by exact_mod_cast e)
    rw [C34_silence r n d channels hne' h1 h2]
    simp [hch]

example := C89_silence (α := ℚ) ⟨22675736, 22675736⟩ 1000000000000 2 (by decide) (by decide) (by decide)

example : ∃ m, demo.mono = .ok m ∧ m.data ≠ .vec ([[4, 4], [1, 3]].map average) := by
  obtain ⟨m, h1, h2⟩ := C89_mono demo ⟨by decide, Or.inr ⟨2, _, rfl, by decide⟩⟩ 2 _ rfl (by decide)
  refine ⟨m, h1, fun h => ?_⟩
  rw [C34_mono_value demo (by decide) 2 _ rfl (by decide)] at h1
  cases h1
  simp only [Raw.vec.injEq] at h
  norm_num [average] at h

end Zounds.Audio
