import Verif.Model.Audio
import Verif.Props.Time
import Mathlib.Tactic.Common
import Mathlib.Tactic.Linarith
import Mathlib.Tactic.Ring
import Mathlib.Tactic.LinearCombination
import Mathlib.Tactic.FieldSimp
import Mathlib.Tactic.NormNum
import Mathlib.Algebra.Field.Rat
import Mathlib.Algebra.CharZero.Defs

/-!
# C34: AudioSamples conversions
-/

set_option linter.dupNamespace false

namespace Zounds.Audio
open Zounds.Time (SampleRate findRate supportedRates)

variable {α : Type} [Field α]

/-! ## Specification -/

/-- Audio at one of the library's sample rates: one channel as a vector, or a matrix of `c` numbers per sample. -/
def WellFormed (a : Audio α) : Prop :=
  a.rate ∈ supportedRates ∧
    ((∃ xs, a.data = .vec xs) ∨ ∃ c rows, a.data = .mat c rows ∧ ∀ r ∈ rows, r.length = c)

/-- The average of a list of numbers. -/
def average (r : List α) : α := r.sum / (r.length : α)

/-! ## sample rates -/

theorem findRate_supported {r : SampleRate} (h : r ∈ supportedRates) : findRate r.samplesPerSecond = .ok r := by
  revert r; decide

theorem samplerate_supported {a : Audio α} (h : a.rate ∈ supportedRates) : a.samplerate = .ok a.rate :=
  findRate_supported h

theorem rewrap_supported {a : Audio α} (h : a.rate ∈ supportedRates) (y : Raw α) :
    a.rewrap y = Audio.new y ⟨a.rate, true⟩ := by
  simp only [Audio.rewrap, samplerate_supported h]

/-- **C34, construction**: one- and two-dimensional arrays with an audio sample rate are accepted, anything else is refused:
another number of axes with a ValueError, another kind of rate with a TypeError. -/
theorem C34_new (arr : Raw α) (r : RateArg) :
    (∀ a, Audio.new arr r = .ok a ↔
      a = ⟨r.rate, arr⟩ ∧ r.isAudio = true ∧ ((∃ xs, arr = .vec xs) ∨ ∃ c rows, arr = .mat c rows)) ∧
    (Audio.new arr r = .error .typeError ↔
      r.isAudio = false ∧ ((∃ xs, arr = .vec xs) ∨ ∃ c rows, arr = .mat c rows)) ∧
    (Audio.new arr r = .error .valueError ↔ (∃ x, arr = .scalar x) ∨ ∃ n, arr = .more n) := by
  unfold Audio.new
  cases arr <;> cases h : r.isAudio <;> simp [eq_comm]

/-- **C34, files**: a decoded file (one or two axes) is accepted exactly when its rate is one of the six the library knows. -/
theorem C34_from_file (samples : Raw α) (n : Int) (h : (∃ xs, samples = .vec xs) ∨ ∃ c rows, samples = .mat c rows) :
    (n ∈ [96000, 48000, 44100, 22050, 16000, 11025] →
      ∃ a, fromFile samples n = .ok a ∧ a.data = samples ∧ a.rate.samplesPerSecond = n ∧ a.rate ∈ supportedRates) ∧
    (n ∉ [96000, 48000, 44100, 22050, 16000, 11025] → fromFile samples n = .error .valueError) := by
  obtain ⟨h1, h2⟩ := Zounds.Props.C07_lookup n
  constructor
  · intro hn
    obtain ⟨r, hr, hr2, hr3⟩ := h1 hn
    refine ⟨⟨r, samples⟩, ?_, rfl, hr2, hr3⟩
    rcases h with ⟨xs, rfl⟩ | ⟨c, rows, rfl⟩ <;> simp [fromFile, hr, Audio.new]
  · intro hn; simp [fromFile, h2 hn]

example := (C34_from_file (.vec [(1 : ℚ), 2]) 44100 (.inl ⟨_, rfl⟩)).1 (by decide)

/-! ## mono -/

/-- **C34, mono of mono**: audio with one channel is returned as it is. -/
theorem C34_mono_noop (a : Audio α) (h : a.channels = 1) : a.mono = .ok a := by
  simp [Audio.mono, h]

example := C34_mono_noop (⟨⟨22675736, 22675736⟩, .vec [1, 2]⟩ : Audio ℚ) rfl

/-- **C34, mono**: any other number of channels gives one channel of the same length and sample rate, whose samples are a quarter of
the sum of the channels. -/
theorem C34_mono_value [CharZero α] (a : Audio α) (hr : a.rate ∈ supportedRates) (c : Nat) (rows : List (List α))
    (hd : a.data = .mat c rows) (hc : c ≠ 1) :
    a.mono = .ok ⟨a.rate, .vec (rows.map fun r => r.sum / 4)⟩ := by
  have h : a.channels ≠ 1 := by simp [Audio.channels, hd, hc]
  simp only [Audio.mono, h, if_false, hd, rewrap_supported hr, Audio.new, if_true, List.map_map]
  congr 4
  funext r
  simp only [Function.comp]
  field_simp; norm_num

/-- **C34, mono against the average**: the samples are the average of the channels times a quarter of their number: the average
itself for four channels. -/
theorem C34_mono_average [CharZero α] (a : Audio α) (hw : WellFormed a) (c : Nat) (rows : List (List α))
    (hd : a.data = .mat c rows) (hc : 1 < c) :
    ∃ m, a.mono = .ok m ∧ m.rate = a.rate ∧ m.data = .vec (rows.map fun r => average r * ((c : α) / 4)) := by
  refine ⟨_, C34_mono_value a hw.1 c rows hd (by omega), rfl, ?_⟩
  simp only
  congr 1
  apply List.map_congr_left
  intro r hrow
  have hl : r.length = c := by
    rcases hw.2 with ⟨xs, h⟩ | ⟨c', rows', h, h'⟩
    · rw [hd] at h; cases h
    · rw [hd] at h; cases h; exact h' r hrow
  unfold average
  rw [hl]
  have : (c : α) ≠ 0 := by exact_mod_cast (by omega : c ≠ 0)
  field_simp

example := C34_mono_average (⟨⟨22675736, 22675736⟩, .mat 2 [[1, 3], [0, 2]]⟩ : Audio ℚ) ⟨by decide, Or.inr ⟨2, _, rfl, by decide⟩⟩ 2 _ rfl (by decide)

/-- **C34, refuted**: for two channels `mono` is half the average, so it is wrong for every sample whose channels do not
cancel. -/
theorem C34_mono_stereo_refuted [CharZero α] (a : Audio α) (hr : a.rate ∈ supportedRates) (rows : List (List α))
    (hd : a.data = .mat 2 rows) (l r : α) (hmem : [l, r] ∈ rows) (hne : l + r ≠ 0) :
    ∃ m, a.mono = .ok m ∧ m.data = .vec (rows.map fun r => r.sum / 4) ∧ m.data ≠ .vec (rows.map average) := by
  refine ⟨_, C34_mono_value a hr 2 rows hd (by omega), rfl, ?_⟩
  simp only
  intro h
  injection h with h
  have := List.map_inj_left.1 h [l, r] hmem
  simp [average] at this
  have h4 : (4 : α) ≠ 0 := by norm_num
  have h2 : (2 : α) ≠ 0 := by norm_num
  rw [div_eq_div_iff h4 (by norm_num)] at this
  have : (l + r) * 2 = 0 := by linear_combination -this
  rcases mul_eq_zero.1 this with h | h
  · exact hne h
  · exact h2 h

/-- **C34, mono is idempotent**. -/
theorem C34_mono_idem (a m : Audio α) (hw : WellFormed a) (h : a.mono = .ok m) : m.mono = .ok m := by
  by_cases hc : a.channels = 1
  · rw [C34_mono_noop a hc] at h; cases h; exact C34_mono_noop _ hc
  · rcases hw.2 with ⟨xs, hd⟩ | ⟨c, rows, hd, -⟩
    · simp [Audio.channels, hd] at hc
    · simp only [Audio.mono, hc, if_false, hd, rewrap_supported hw.1, Audio.new, if_true] at h
      cases h
      exact C34_mono_noop _ rfl

example := C34_mono_idem (⟨⟨22675736, 22675736⟩, .vec [1, 3]⟩ : Audio ℚ) ⟨⟨22675736, 22675736⟩, .vec [1, 3]⟩
  ⟨by decide, Or.inl ⟨_, rfl⟩⟩ rfl
example : ∃ m, m.mono = .ok m ∧ (⟨⟨22675736, 22675736⟩, .mat 2 [[1, 3], [0, 2]]⟩ : Audio ℚ).mono = .ok m := by
  obtain ⟨m, h, _⟩ := C34_mono_average (⟨⟨22675736, 22675736⟩, .mat 2 [[1, 3], [0, 2]]⟩ : Audio ℚ) ⟨by decide, Or.inr ⟨2, _, rfl, by decide⟩⟩ 2 _ rfl (by decide)
  exact ⟨m, C34_mono_idem _ m ⟨by decide, Or.inr ⟨2, _, rfl, by decide⟩⟩ h, h⟩

/-! ## stereo -/

/-- **C34, stereo of one-dimensional audio**: both channels carry the samples. -/
theorem C34_stereo_value (a : Audio α) (hr : a.rate ∈ supportedRates) (xs : List α) (hd : a.data = .vec xs) :
    a.stereo = .ok ⟨a.rate, .mat 2 (xs.map fun x => [x, x])⟩ := by
  have h : a.channels ≠ 2 := by simp [Audio.channels, hd]
  simp only [Audio.stereo, h, if_false, hd, stackT, rewrap_supported hr, Audio.new, if_true]

example := C34_stereo_value (⟨⟨22675736, 22675736⟩, .vec [1, 2]⟩ : Audio ℚ) (by decide) _ rfl

/-- **C34, stereo of stereo** is a no-op. -/
theorem C34_stereo_noop (a : Audio α) (h : a.channels = 2) : a.stereo = .ok a := by
  simp [Audio.stereo, h]

example := C34_stereo_noop (⟨⟨22675736, 22675736⟩, .mat 2 [[1, 3], [0, 2]]⟩ : Audio ℚ) rfl

/-- **C34, refuted**: going to stereo and back halves the signal. -/
theorem C34_stereo_mono_refuted [CharZero α] (a : Audio α) (hr : a.rate ∈ supportedRates) (xs : List α) (hd : a.data = .vec xs) :
    ∃ s, a.stereo = .ok s ∧ s.mono = .ok ⟨a.rate, .vec (xs.map fun x => x / 2)⟩ := by
  refine ⟨_, C34_stereo_value a hr xs hd, ?_⟩
  rw [C34_mono_value (⟨a.rate, .mat 2 (xs.map fun x => [x, x])⟩ : Audio α) hr 2 _ rfl (by omega)]
  simp only [List.map_map]
  congr 3
  apply List.map_congr_left
  intro x _
  simp only [Function.comp, List.sum_cons, List.sum_nil, add_zero]
  field_simp; ring

/-- **C34, refuted**: a single channel stored as a column (`(n, 1)`) becomes one sample of `2 n` channels. -/
theorem C34_stereo_column_refuted (a : Audio α) (hr : a.rate ∈ supportedRates) (xs : List α)
    (hd : a.data = .mat 1 (xs.map fun x => [x])) :
    ∃ s, a.stereo = .ok s ∧ s.length = 1 ∧ s.channels = 2 * xs.length ∧ s.data = .mat (2 * xs.length) [xs ++ xs] := by
  have h : a.channels ≠ 2 := by simp [Audio.channels, hd]
  have e : stackT a.data = .mat (2 * xs.length) [xs ++ xs] := by
    rw [hd]; simp [stackT, Function.comp_def]
  refine ⟨⟨a.rate, .mat (2 * xs.length) [xs ++ xs]⟩, ?_, rfl, rfl, rfl⟩
  simp only [Audio.stereo, h, if_false, e, rewrap_supported hr, Audio.new, if_true]

/-! ## silence -/

/-- The number of samples that fit in a duration. -/
theorem C34_silence_count (r : SampleRate) (d : Int) (hf : 0 < r.frequency) (hd : 0 ≤ d) :
    0 ≤ d.tdiv r.frequency ∧ r.frequency * d.tdiv r.frequency ≤ d ∧ d < r.frequency * (d.tdiv r.frequency + 1) := by
  rw [Int.tdiv_eq_ediv_of_nonneg hd]
  refine ⟨Int.ediv_nonneg hd hf.le, Int.mul_ediv_self_le hf.ne', ?_⟩
  have := Int.lt_mul_ediv_self_add (x := d) hf
  rw [Int.mul_add, Int.mul_one]; exact this

example := C34_silence_count ⟨22675736, 22675736⟩ 1000000000000 (by decide) (by decide)

/-- **C34, silence**: `silence` of a duration that holds `n ≠ 1` whole samples is `n` samples of zeros in each of the
requested channels, at the given rate.  Missing from the full property: durations of exactly one sample, see below. -/
theorem C34_silence (r : SampleRate) (n : Nat) (d : Int) (channels : Nat)
    (hn : n ≠ 1) (h1 : r.frequency * n ≤ d) (h2 : d < r.frequency * (n + 1)) :
    silence (α := α) ⟨r, true⟩ d channels =
      .ok ⟨r, if channels = 1 then .vec (List.replicate n 0)
        else .mat channels (List.replicate n (List.replicate channels 0))⟩ := by
  have hf : 0 < r.frequency := by
    by_contra hc
    have : r.frequency * (n + 1) = r.frequency * n + r.frequency := by ring
    omega
  have hd : 0 ≤ d := le_trans (mul_nonneg hf.le (by omega)) h1
  have hq : d.tdiv r.frequency = n := by
    rw [Int.tdiv_eq_ediv_of_nonneg hd]
    apply le_antisymm
    · have : d / r.frequency < n + 1 := by rw [Int.ediv_lt_iff_lt_mul hf]; linarith [mul_comm r.frequency ((n : Int) + 1)]
      omega
    · rw [Int.le_ediv_iff_mul_le hf]; linarith [mul_comm r.frequency (n : Int)]
  have h3 : ¬ ((n : Int) < 0) := by omega
  simp only [silence, hq, h3, if_false, Int.toNat_natCast, squeezed, hn]
  by_cases hc : channels = 1 <;> simp [hc, Audio.new]

example := C34_silence (α := ℚ) ⟨22675736, 22675736⟩ 44100 1000000000000 2 (by decide) (by decide) (by decide)

/-- **C34, refuted**: silence of exactly one sample: a ValueError for one channel; for more channels, a vector, that is one channel
with as many samples as channels were asked for. -/
theorem C34_silence_one_refuted (r : SampleRate) (d : Int) (channels : Nat)
    (h1 : r.frequency ≤ d) (h2 : d < 2 * r.frequency) :
    silence (α := α) ⟨r, true⟩ d 1 = .error .valueError ∧
    (channels ≠ 1 → ∃ s, silence (α := α) ⟨r, true⟩ d channels = .ok s ∧ s.channels = 1 ∧ s.length = channels) := by
  have hf : 0 < r.frequency := by omega
  have hq : d.tdiv r.frequency = 1 := by
    rw [Int.tdiv_eq_ediv_of_nonneg (by omega)]
    apply le_antisymm
    · have : d / r.frequency < 2 := by rw [Int.ediv_lt_iff_lt_mul hf]; linarith
      omega
    · rw [Int.le_ediv_iff_mul_le hf]; linarith
  constructor
  · simp [silence, hq, squeezed, Audio.new]
  · intro hc
    exact ⟨⟨r, .vec (List.replicate channels 0)⟩, by simp [silence, hq, squeezed, hc, Audio.new], rfl, by simp [Audio.length]⟩

/-- **C34, refuted**: `silence_like` is never silent: it is all ones. -/
theorem C34_silence_like_refuted (a : Audio α) (hr : a.rate ∈ supportedRates) (n : Nat) (d : Int)
    (hn : n ≠ 1) (h1 : a.rate.frequency * n ≤ d) (h2 : d < a.rate.frequency * (n + 1)) :
    a.silenceLike d = .ok ⟨a.rate, if a.channels = 1 then .vec (List.replicate n 1)
        else .mat a.channels (List.replicate n (List.replicate a.channels 1))⟩ := by
  simp only [Audio.silenceLike, samplerate_supported hr, C34_silence a.rate n d a.channels hn h1 h2]
  by_cases hc : a.channels = 1 <;> simp [hc, fill]

/-- **C34, padding**: one-dimensional audio padded with a duration of `n ≠ 1` samples is the same samples followed by `n`
zeros. -/
theorem C34_pad (a : Audio α) (hr : a.rate ∈ supportedRates) (xs : List α) (hd : a.data = .vec xs) (n : Nat) (d : Int)
    (hn : n ≠ 1) (h1 : a.rate.frequency * n ≤ d) (h2 : d < a.rate.frequency * (n + 1)) :
    a.padWithSilence d = .ok ⟨a.rate, .vec (xs ++ List.replicate n 0)⟩ := by
  simp only [Audio.padWithSilence, samplerate_supported hr, C34_silence a.rate n d 1 hn h1 h2, hd, if_true,
    rewrap_supported hr, Audio.new]

example := C34_pad (⟨⟨22675736, 22675736⟩, .vec [1, 2]⟩ : Audio ℚ) (by decide) _ rfl 44100 1000000000000 (by decide) (by decide) (by decide)

/-- **C34, refuted**: audio with a channel axis can never be padded, and nothing can be padded with one sample. -/
theorem C34_pad_refuted (a : Audio α) (hr : a.rate ∈ supportedRates) (d : Int) :
    (∀ c rows, a.data = .mat c rows → a.padWithSilence d = .error .valueError) ∧
    (a.rate.frequency ≤ d → d < 2 * a.rate.frequency → a.padWithSilence d = .error .valueError) := by
  constructor
  · intro c rows h
    simp only [Audio.padWithSilence, samplerate_supported hr, h]
    unfold silence
    simp only
    by_cases hn : d.tdiv a.rate.frequency < 0
    · simp [hn]
    · simp only [hn, if_false, Audio.new, squeezed]
      by_cases h1 : (d.tdiv a.rate.frequency).toNat = 1 <;> simp [h1]
  · intro h1 h2
    simp only [Audio.padWithSilence, samplerate_supported hr, (C34_silence_one_refuted (α := α) a.rate d 1 h1 h2).1]

/-! ## adding -/

/-- **C34, adding at different rates** is refused with a ValueError. -/
theorem C34_add_rates (a b : Audio α) (ha : a.rate ∈ supportedRates) (hb : b.rate ∈ supportedRates) (h : a.rate ≠ b.rate) :
    a.add b = .error .valueError := by
  have : ¬ (a.rate.frequency = b.rate.frequency ∧ a.rate.duration = b.rate.duration) := by
    rintro ⟨h1, h2⟩
    apply h
    cases ha' : a.rate; cases hb' : b.rate
    rw [ha', hb'] at h1 h2
    simp at h1 h2; simp [h1, h2]
  simp only [Audio.add, samplerate_supported ha, samplerate_supported hb, this, if_false]

example := C34_add_rates (⟨⟨22675736, 22675736⟩, .vec [1, 2]⟩ : Audio ℚ) ⟨⟨45351473, 45351473⟩, .vec [1, 2]⟩ (by decide) (by decide) (by decide)

theorem mapM_ok {β γ : Type} (f : β → γ) (l : List β) :
    l.mapM (fun x => (Except.ok (f x) : Except PyErr γ)) = .ok (l.map f) := by
  induction l with
  | nil => rfl
  | cons x xs ih => rw [List.mapM_cons, ih]; rfl

theorem broadcast_same {β : Type} (f : β → β → β) (xs ys : List β) (h : xs.length = ys.length) :
    broadcast (fun x y => .ok (f x y)) xs ys = .ok (List.zipWith f xs ys) := by
  unfold broadcast
  rw [if_pos h, mapM_ok, List.zip, List.map_zipWith]

/-- **C34, adding at the same rate**: one-dimensional signals of the same length add up sample by sample. -/
theorem C34_add_value (a b : Audio α) (ha : a.rate ∈ supportedRates) (h : a.rate = b.rate) (xs ys : List α)
    (hx : a.data = .vec xs) (hy : b.data = .vec ys) (hl : xs.length = ys.length) :
    a.add b = .ok ⟨a.rate, .vec (List.zipWith (· + ·) xs ys)⟩ := by
  have hb : b.rate ∈ supportedRates := h ▸ ha
  simp only [Audio.add, samplerate_supported ha, samplerate_supported hb, h, and_self, if_true, hx, hy, addRaw,
    broadcast_same _ _ _ hl]

example := C34_add_value (⟨⟨22675736, 22675736⟩, .vec [1, 2]⟩ : Audio ℚ) ⟨⟨22675736, 22675736⟩, .vec [5, -2]⟩ (by decide) rfl _ _ rfl rfl rfl

/-- **C34, adding signals of different lengths** (neither of them one sample) is refused. -/
theorem C34_add_lengths (a b : Audio α) (ha : a.rate ∈ supportedRates) (h : a.rate = b.rate) (xs ys : List α)
    (hx : a.data = .vec xs) (hy : b.data = .vec ys) (hl : xs.length ≠ ys.length) (h1 : xs.length ≠ 1) (h2 : ys.length ≠ 1) :
    a.add b = .error .valueError := by
  have hb : b.rate ∈ supportedRates := h ▸ ha
  have : broadcast (fun x y : α => .ok (x + y)) xs ys = .error .valueError := by
    unfold broadcast
    rw [if_neg hl]
    split
    · simp at h1
    · simp at h2
    · rfl
  simp only [Audio.add, samplerate_supported ha, samplerate_supported hb, h, and_self, if_true, hx, hy, addRaw, this]

example := C34_add_lengths (⟨⟨22675736, 22675736⟩, .vec [1, 2]⟩ : Audio ℚ) ⟨⟨22675736, 22675736⟩, .vec [5, -2, 3]⟩ (by decide) rfl _ _ rfl rfl (by decide) (by decide) (by decide)

/-- **C34, adding channel by channel**: signals of the same length and number of channels add up sample by sample; a signal of one channel is
added to every channel of the other, whichever side it is on. -/
theorem C34_add_channels (a b : Audio α) (ha : a.rate ∈ supportedRates) (h : a.rate = b.rate) (c d : Nat) (xs ys : List (List α))
    (hx : a.data = .mat c xs) (hy : b.data = .mat d ys) (hl : xs.length = ys.length) (hxs : ∀ r ∈ xs, r.length = c)
    (hys : ∀ r ∈ ys, r.length = d) :
    (c = d → a.add b = .ok ⟨a.rate, .mat c (List.zipWith (List.zipWith (· + ·)) xs ys)⟩) ∧
    (c = 1 → d ≠ 1 → a.add b = .ok ⟨a.rate, .mat d (List.zipWith (fun x y => y.map fun v => x.headD 0 + v) xs ys)⟩) ∧
    (d = 1 → c ≠ 1 → a.add b = .ok ⟨a.rate, .mat c (List.zipWith (fun x y => x.map fun v => v + y.headD 0) xs ys)⟩) ∧
    (c ≠ d → c ≠ 1 → d ≠ 1 → a.add b = .error .valueError) := by
  have hb : b.rate ∈ supportedRates := h ▸ ha
  have key : ∀ (f : List α → List α → List α) (xs ys : List (List α)), xs.length = ys.length → (∀ r ∈ xs, r.length = c) →
      (∀ r ∈ ys, r.length = d) →
      (∀ x y : List α, x.length = c → y.length = d → broadcast (fun x y => .ok (x + y)) x y = .ok (f x y)) →
      broadcast (broadcast fun x y : α => .ok (x + y)) xs ys = .ok (List.zipWith f xs ys) := by
    intro f xs ys hl hxs hys hf
    unfold broadcast
    rw [if_pos hl]
    induction xs generalizing ys with
    | nil => simp; rfl
    | cons x xs ih =>
      cases ys with
      | nil => simp at hl
      | cons y ys =>
        rw [List.zip_cons_cons, List.mapM_cons, ih ys (by simpa using hl) (fun r hr => hxs r (List.mem_cons_of_mem _ hr))
          (fun r hr => hys r (List.mem_cons_of_mem _ hr))]
        have := hf x y (hxs x (by simp)) (hys y (by simp))
        unfold broadcast at this
        simp only [this]
        rfl
  have hadd : ¬ (c ≠ d ∧ c ≠ 1 ∧ d ≠ 1) → a.add b = match (match broadcast (broadcast fun x y : α => .ok (x + y)) xs ys with
      | .ok zs => .ok (.mat (if c = 1 then d else c) zs)
      | .error e => .error e : Except PyErr (Raw α)) with
      | .ok d => .ok ⟨a.rate, d⟩
      | .error e => .error e := by
    intro hcd
    simp only [Audio.add, samplerate_supported ha, samplerate_supported hb, h, and_self, if_true, hx, hy, addRaw]
    rw [if_neg hcd]
    cases broadcast (broadcast fun x y : α => .ok (x + y)) xs ys <;> rfl
  refine ⟨?_, ?_, ?_, ?_⟩
  · rintro rfl
    rw [hadd (by simp), key (List.zipWith (· + ·)) xs ys hl hxs hys]
    · simp
    · intro x y h1 h2
      exact broadcast_same _ _ _ (by rw [h1, h2])
  · rintro rfl hd1
    rw [hadd (by simp), key (fun x y => y.map fun v => x.headD 0 + v) xs ys hl hxs hys]
    · simp
    · intro x y h1 h2
      obtain ⟨u, rfl⟩ := List.length_eq_one_iff.mp h1
      unfold broadcast
      rw [if_neg (by rw [h2]; simpa using Ne.symm hd1)]
      simp only [List.headD_cons]
      exact mapM_ok _ _
  · rintro rfl hc1
    rw [hadd (by simp), key (fun x y => x.map fun v => v + y.headD 0) xs ys hl hxs hys]
    · simp [hc1]
    · intro x y h1 h2
      obtain ⟨u, rfl⟩ := List.length_eq_one_iff.mp h2
      unfold broadcast
      rw [if_neg (by rw [h1]; simpa using hc1)]
      simp only [List.headD_cons]
      split
      · simp at h1; exact absurd h1.symm hc1
      · rename_i h3
        cases h3
        exact mapM_ok _ _
      · rename_i h3 h4
        exact absurd rfl (h4 u)
  · intro hcd hc1 hd1
    simp only [Audio.add, samplerate_supported ha, samplerate_supported hb, h, and_self, if_true, hx, hy, addRaw]
    rw [if_pos ⟨hcd, hc1, hd1⟩]

example := (C34_add_channels (⟨⟨22675736, 22675736⟩, .mat 2 [[1, 3], [0, 2]]⟩ : Audio ℚ) ⟨⟨22675736, 22675736⟩, .mat 2 [[1, 5], [7, 2]]⟩ (by decide) rfl 2 2 _ _ rfl rfl rfl
  (by decide) (by decide)).1 rfl

/-- **C34, refuted**: only `+` is guarded: subtracting signals of different rates succeeds. -/
theorem C34_sub_rates_refuted (a b : Audio α) (xs ys : List α)
    (hx : a.data = .vec xs) (hy : b.data = .vec ys) (hl : xs.length = ys.length) :
    a.sub b = .ok ⟨a.rate, .vec (List.zipWith (· - ·) xs ys)⟩ := by
  simp only [Audio.sub, hx, hy, broadcast_same _ _ _ hl]

/-! ## encoding -/

theorem pieces_flatten {β : Type} (xs : List β) (c k : Nat) :
    ((List.range k).map fun i => (xs.take (i * c + c)).drop (i * c)).flatten = xs.take (k * c) := by
  induction k with
  | zero => simp
  | succ k ih =>
    rw [List.range_succ, List.map_append, List.flatten_append, ih]
    simp only [List.map_cons, List.map_nil, List.flatten_cons, List.flatten_nil, List.append_nil]
    rw [Nat.succ_mul]
    have : xs.take (k * c) = (xs.take (k * c + c)).take (k * c) := by rw [List.take_take]; congr 1; omega
    rw [this, List.take_append_drop]

/-- **C34, OGG encoding**: the pieces written are, in order, exactly the samples, none longer than twenty seconds. -/
theorem C34_ogg_pieces {β : Type} (xs : List β) (chunk : Nat) (h : 0 < chunk) :
    ∃ ps, oggPieces xs chunk = .ok ps ∧ ps.flatten = xs ∧ (∀ p ∈ ps, p ≠ [] ∧ p.length ≤ chunk) := by
  refine ⟨_, if_neg (by omega), ?_, ?_⟩
  · rw [pieces_flatten, List.take_of_length_le]
    have := Nat.div_add_mod (xs.length + chunk - 1) chunk
    have h2 := Nat.mod_lt (xs.length + chunk - 1) h
    rw [Nat.mul_comm]; omega
  · intro p hp
    simp only [List.mem_map, List.mem_range] at hp
    obtain ⟨i, hi, rfl⟩ := hp
    have hlt : i * chunk < xs.length := by
      have h1 := Nat.div_mul_le_self (xs.length + chunk - 1) chunk
      have h2 : (i + 1) * chunk ≤ (xs.length + chunk - 1) / chunk * chunk := Nat.mul_le_mul_right _ (by omega)
      rw [Nat.succ_mul] at h2
      omega
    constructor
    · intro hc
      have := congrArg List.length hc
      simp at this; omega
    · simp; omega

omit [Field α] in
example := C34_ogg_pieces [1, 2, 3, 4, 5] 2 (by decide)

/-- **C34, refuted**: `duration_in_seconds` is the length of one sample, whatever the length of the audio. -/
theorem C34_duration_refuted (r : SampleRate) (x y : Raw α) :
    (Audio.durationInSeconds (⟨r, x⟩ : Audio α)) = Audio.durationInSeconds (⟨r, y⟩ : Audio α) := rfl

/-- … so no audio, however long, is said to last longer than an 8000th of a second. -/
theorem C34_duration_short_refuted (a : Audio α) (hr : a.rate ∈ supportedRates) :
    0 < a.durationInSeconds ∧ a.durationInSeconds ≤ 1 / 8000 := by
  unfold Audio.durationInSeconds
  have h : ∀ r ∈ supportedRates, 0 < r.duration ∧ r.duration ≤ 125000000 := by decide
  obtain ⟨h1, h2⟩ := h a.rate hr
  have h1' : (0 : Rat) < a.rate.duration := by exact_mod_cast h1
  have h2' : (a.rate.duration : Rat) ≤ 125000000 := by exact_mod_cast h2
  constructor
  · exact div_pos h1' (by norm_num)
  · rw [div_le_iff₀ (by norm_num)]
    linarith

/-! ## Instances -/

/-- 44.1 kHz stereo audio of two samples, and what `mono` makes of it. -/
def demo : Audio Rat := ⟨⟨22675736, 22675736⟩, .mat 2 [[4, 4], [1, 3]]⟩
example : WellFormed demo := ⟨by decide, Or.inr ⟨2, _, rfl, by decide⟩⟩
example : demo.mono = .ok ⟨⟨22675736, 22675736⟩, .vec [2, 1]⟩ := by decide +kernel
example : demo.mono = .ok ⟨⟨22675736, 22675736⟩, .vec [2, 1]⟩ := by
  rw [C34_mono_value demo (by decide) 2 _ rfl (by decide)]; norm_num [demo]
example : (22675736 : Int) * (44100 : Nat) ≤ 1000000000000 ∧ (1000000000000 : Int) < 22675736 * ((44100 : Nat) + 1) := by decide
example : (⟨22675736, 22675736⟩ : SampleRate) ≠ ⟨45351473, 45351473⟩ ∧
    (⟨22675736, 22675736⟩ : SampleRate) ∈ supportedRates ∧ (⟨45351473, 45351473⟩ : SampleRate) ∈ supportedRates := by decide
example : oggPieces [1, 2, 3, 4, 5] 2 = .ok [[1, 2], [3, 4], [5]] := by decide

end Zounds.Audio
