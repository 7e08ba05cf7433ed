import Verif.Lemmas.Float64
import Verif.Model.Audio
import Verif.Model.Tones
import Verif.Props.Time
import Verif.Props.Mdct
import Mathlib.Tactic.IntervalCases

/-!
# C319–C323: counts of samples in double precision
-/

namespace Zounds.Float64
open Zounds Zounds.Time

/-! ## The rounding -/

/-- `fl64 x` is a double, no double is nearer to `x`, and doubles are left alone. -/
theorem C319_rounding (x : ℚ) :
    IsDouble (fl64 x) ∧ (∀ y, IsDouble y → |x - fl64 x| ≤ |x - y|) ∧ (IsDouble x → fl64 x = x) ∧ |fl64 x - x| ≤ |x| / 2 ^ 53 :=
  ⟨fl64_double x, fl64_nearest x, fl64_self x, fl64_error x⟩

theorem rint_neg (x : ℚ) : rint (-x) = -rint x := by
  obtain ⟨h1, h2⟩ := rint_spec x
  have e : |-x - ((-rint x : ℤ) : ℚ)| = |x - rint x| := by
    rw [← abs_neg]; congr 1; push_cast; ring
  apply rint_unique
  · rw [e]; exact h1
  · intro h; rw [e] at h; have := h2 h; omega

theorem fl64_neg (x : ℚ) : fl64 (-x) = -fl64 x := by
  by_cases hx : x = 0
  · simp [hx, fl64_zero]
  · obtain ⟨e, h1, h2⟩ := exists_binade x hx
    rw [fl64_binade x e h1 h2, fl64_binade (-x) e (by rwa [abs_neg]) (by rwa [abs_neg]), neg_div, rint_neg]
    push_cast; ring

theorem trunc_neg (x : ℚ) : trunc (-x) = -trunc x := by
  unfold trunc
  rcases lt_trichotomy x 0 with h | h | h
  · rw [if_neg (by linarith), if_pos h, Int.floor_neg]
  · subst h; simp
  · rw [if_pos (by linarith), if_neg (by linarith), Int.ceil_neg]

theorem fl64_nonneg (x : ℚ) (h : 0 ≤ x) : 0 ≤ fl64 x := fl64_ge x 0 ⟨0, 0, by norm_num, by norm_num⟩ h

theorem trunc_quot (a b : ℤ) (ha : |a| < 2 ^ 53) (hb : 0 < b) : trunc (fl64 ((a : ℚ) / b)) = a.tdiv b := by
  have hq : (0 : ℚ) < b := by exact_mod_cast hb
  rcases le_or_gt 0 a with h | h
  · have hp : 0 ≤ fl64 ((a : ℚ) / b) := fl64_nonneg _ (div_nonneg (by exact_mod_cast h) hq.le)
    unfold trunc
    rw [if_neg (not_lt.2 hp), floor_quot a b ha hb, Int.tdiv_eq_ediv_of_nonneg h]
  · have hp : 0 ≤ fl64 (((-a : ℤ) : ℚ) / b) := fl64_nonneg _ (div_nonneg (by exact_mod_cast (by omega : (0 : ℤ) ≤ -a)) hq.le)
    have e : (a : ℚ) / b = -(((-a : ℤ) : ℚ) / b) := by push_cast; ring
    rw [e, fl64_neg, trunc_neg]
    unfold trunc
    rw [if_neg (not_lt.2 hp), floor_quot (-a) b (by rwa [abs_neg]) hb]
    rw [← Int.tdiv_eq_ediv_of_nonneg (by omega), Int.neg_tdiv, neg_neg]

/-! ## C319: counts of samples -/

/-- The number of samples of a duration, as the machine computes it, is the exact quotient cut off, for all durations up to 2⁵³ picoseconds (two and a half hours). -/
theorem C319_count (d f : ℤ) (hd : |d| < 2 ^ 53) (hf : 0 < f) (hf2 : f ≤ 2 ^ 53) : sampleCount d f = d.tdiv f := by
  unfold sampleCount
  rw [quot_eq d f hd.le (by rw [abs_of_pos hf]; exact hf2), trunc_quot d f hd hf]

example : sampleCount (3600 * 10 ^ 12) 22675736 = 158760006 := by
  rw [C319_count _ _ (by norm_num) (by norm_num) (by norm_num)]; decide

/-- So silence of a duration is as long as `Audio.silence` says. -/
theorem C319_silence {α : Type} [Field α] (r : Audio.RateArg) (d : ℤ) (c : ℕ) (hd : |d| < 2 ^ 53) (hf : 0 < r.rate.frequency) (hf2 : r.rate.frequency ≤ 2 ^ 53) :
    Audio.silence (α := α) r d c =
      (if sampleCount d r.rate.frequency < 0 then .error .valueError
        else Audio.Audio.new (Audio.squeezed (sampleCount d r.rate.frequency).toNat c 0) r) := by
  rw [C319_count _ _ hd hf hf2]; rfl

example := C319_silence (α := ℚ) ⟨⟨22675736, 22675736⟩, true⟩ (10 ^ 12) 1 (by norm_num) (by norm_num) (by norm_num)

/-- The samples per second of every sample rate are exact. -/
theorem C319_samples_per_second (r : SampleRate) (hf : 0 < r.frequency) (hf2 : r.frequency ≤ 2 ^ 53) :
    samplesPerSecond r.frequency = r.samplesPerSecond := by
  have h := C319_count (10 ^ 12) r.frequency (by norm_num) hf hf2
  unfold sampleCount at h
  unfold samplesPerSecond SampleRate.samplesPerSecond
  rw [h, Int.tdiv_eq_ediv_of_nonneg (by norm_num)]

example : samplesPerSecond 22675736 = 44100 := by
  have := C319_samples_per_second ⟨22675736, 22675736⟩ (by norm_num) (by norm_num)
  rw [this]; decide

/-- The step and the window of a sliding window are exact, for frequencies and durations below 2⁵² picoseconds (75 minutes). -/
theorem C319_discrete_samples (r : SampleRate) (td : Dim) (hf : 0 < td.frequency) (hf2 : td.frequency ≤ 2 ^ 53) (h1 : |r.frequency| < 2 ^ 52)
    (h2 : |r.duration - (td.duration - td.frequency)| < 2 ^ 52) : discreteSamples r td = r.discreteSamples td := by
  have hb : |td.frequency| ≤ 2 ^ 53 := by rw [abs_of_pos hf]; exact hf2
  unfold discreteSamples SampleRate.discreteSamples
  rw [quot_eq _ _ (by omega) hb, quot_eq _ _ (by omega) hb, rint_quot _ _ h1 hf, rint_quot _ _ h2 hf]

example : discreteSamples ⟨22675736 * 1024, 22675736 * 2048⟩ ⟨22675736, 22675736, 0⟩ = (1024, 2048) := by
  rw [C319_discrete_samples _ _ (by norm_num) (by norm_num) (by norm_num) (by norm_num)]; decide

/-- The sizes the synthesizers use are exact. -/
theorem C319_synthesizers {α : Type} (f : Synth.Frames α) (hs : 0 < Synth.sampleFreq f) (hd : |f.td.duration| < 2 ^ 52) (hf : |f.td.frequency| < 2 ^ 52)
    (he : |f.td.end_| < 2 ^ 53) : synthSizes f = (Synth.windowSize f, Synth.hopSize f, Synth.totalSize f) := by
  have hb : |Synth.sampleFreq f| ≤ 2 ^ 53 := by
    have : Synth.sampleFreq f ≤ |f.td.duration| := by
      unfold Synth.sampleFreq
      have h1 : (f.td.duration.tdiv f.n).natAbs ≤ f.td.duration.natAbs := Int.natAbs_tdiv_le_natAbs _ _
      have h2 := Int.abs_eq_natAbs f.td.duration
      rw [h2]; omega
    rw [abs_of_pos hs]; omega
  unfold synthSizes Synth.windowSize Synth.hopSize Synth.totalSize
  rw [quot_eq _ _ (by omega) hb, quot_eq _ _ (by omega) hb, quot_eq _ _ he.le hb, rint_quot _ _ hd hs, rint_quot _ _ hf hs, trunc_quot _ _ he hs]

example : synthSizes (α := ℝ) ⟨⟨22675736 * 1024, 22675736 * 2048, 3⟩, 2048, []⟩ = (2048, 1024, 4096) := by
  rw [C319_synthesizers _ (by decide) (by decide) (by decide) (by decide)]; decide

/-- The bound is needed: a picosecond less than 400 million samples at 44.1 kHz is counted as 400 million samples. -/
theorem C319_bound_needed :
    sampleCount (400000000 * 22675736 - 1) 22675736 = 400000000 ∧ (400000000 * 22675736 - 1 : ℤ).tdiv 22675736 = 399999999 := by
  refine ⟨?_, by decide⟩
  have hf : fl64 ((22675736 : ℤ) : ℚ) = ((22675736 : ℤ) : ℚ) := fl64_int _ (by norm_num)
  have hr : fl64 ((400000000 : ℤ) : ℚ) = ((400000000 : ℤ) : ℚ) := fl64_int _ (by norm_num)
  have hb : fl64 ((400000000 * 22675736 - 1 : ℤ) : ℚ) = 400000000 * 22675736 := by
    rw [fl64_binade _ 53 (by norm_num) (by norm_num)]
    rw [rint_unique _ (200000000 * 22675736) (by norm_num) (by norm_num)]; norm_num
  unfold sampleCount quot
  rw [hb, hf, show (400000000 * 22675736 / ((22675736 : ℤ) : ℚ)) = ((400000000 : ℤ) : ℚ) by norm_num, hr]
  unfold trunc
  rw [if_neg (by norm_num), Int.floor_intCast]

/-! ## C320: time slices -/

theorem fl64_hundred (h : ℤ) (hh : |h| ≤ 2 ^ 52) : ⌈fl64 ((h : ℚ) / 100)⌉ = ceilDiv h 100 := by
  have hb := abs_le.1 hh
  have key : ⌊fl64 (((-h : ℤ) : ℚ) / (100 : ℤ))⌋ = -h / 100 := floor_quot (-h) 100 (by rw [abs_neg]; omega) (by norm_num)
  have e : fl64 (((-h : ℤ) : ℚ) / (100 : ℤ)) = -fl64 ((h : ℚ) / 100) := by rw [← fl64_neg]; congr 1; push_cast; ring
  unfold ceilDiv
  rw [← key, e, Int.floor_neg, neg_neg]

/-- Where the slice stops: sample `k` is before the stop exactly if the slice reaches more than 1/200 of a period into it, unless it is within `|e| / 2⁴⁴` of that. -/
theorem stop_close (e f : ℤ) (k : ℤ) (he : |e| < 2 ^ 52) (hf : 0 < f) (hf2 : f ≤ 2 ^ 53) (hbig : 200 * |e| < 2 ^ 52 * f)
    (hfar : |e| < 2 ^ 44 * |200 * (e - k * f) - f|) :
    k < ⌈round2 (quot e f)⌉ ↔ f < 200 * (e - k * f) := by
  have hq : (0 : ℚ) < f := by exact_mod_cast hf
  have he' : |(e : ℚ)| < 2 ^ 52 := by
    have : ((|e| : ℤ) : ℚ) < ((2 ^ 52 : ℤ) : ℚ) := by exact_mod_cast he
    rw [Int.cast_abs] at this; exact_mod_cast this
  have hbig' : 200 * |(e : ℚ)| < 2 ^ 52 * f := by
    have : ((200 * |e| : ℤ) : ℚ) < ((2 ^ 52 * f : ℤ) : ℚ) := by exact_mod_cast hbig
    rw [Int.cast_mul, Int.cast_abs] at this; exact_mod_cast this
  have hfar' : |(e : ℚ)| < 2 ^ 44 * |200 * ((e : ℚ) - k * f) - f| := by
    have : ((|e| : ℤ) : ℚ) < ((2 ^ 44 * |200 * (e - k * f) - f| : ℤ) : ℚ) := by exact_mod_cast hfar
    rw [Int.cast_mul, Int.cast_abs, Int.cast_abs] at this; exact_mod_cast this
  rw [quot_eq e f (by omega) (by rw [abs_of_pos hf]; exact hf2)]
  unfold round2
  obtain ⟨x, hx⟩ : ∃ x, x = (e : ℚ) / f := ⟨_, rfl⟩
  rw [← hx]
  have hxe : x * f = e := by rw [hx]; field_simp
  have hxa : |x| * f = |(e : ℚ)| := by rw [← hxe, abs_mul, abs_of_pos hq]
  have err1 := abs_le.1 (fl64_error x)
  have err2 := abs_le.1 (fl64_error (fl64 x * 100))
  have a1 : |fl64 x| ≤ |x| * (1 + 1 / 2 ^ 53) := by
    have h := abs_sub_abs_le_abs_sub (fl64 x) x
    have := fl64_error x
    linarith
  have a2 : |fl64 x * 100| = |fl64 x| * 100 := by rw [abs_mul]; norm_num
  rw [a2] at err2
  have hx0 := abs_nonneg x
  have tot : |fl64 (fl64 x * 100) - 100 * x| ≤ |x| * (101 / 2 ^ 52) := by
    rw [abs_le]
    constructor <;> nlinarith
  obtain ⟨y, hy⟩ : ∃ y, y = fl64 (fl64 x * 100) := ⟨_, rfl⟩
  rw [← hy] at tot ⊢
  have tot' := abs_le.1 tot
  have xb : |x| < 2 ^ 52 / 200 := by
    rw [lt_div_iff₀ (by norm_num)]
    nlinarith
  have xb' := abs_lt.1 xb
  have yb1 : y < 2 ^ 52 - 2 := by nlinarith
  have yb2 : -(2 ^ 52) + 2 < y := by nlinarith
  obtain ⟨r1, r2⟩ := rint_spec y
  have r1' := abs_le.1 r1
  have rb : |rint y| ≤ 2 ^ 52 := by
    have c1 : ((rint y : ℤ) : ℚ) ≤ ((2 ^ 52 : ℤ) : ℚ) := by push_cast; linarith
    have c2 : ((-(2 ^ 52) : ℤ) : ℚ) ≤ ((rint y : ℤ) : ℚ) := by push_cast; linarith
    have c1' : rint y ≤ 2 ^ 52 := by exact_mod_cast c1
    have c2' : -(2 ^ 52) ≤ rint y := by exact_mod_cast c2
    rw [abs_le]; omega
  rw [fl64_hundred _ rb, lt_ceilDiv _ _ _ (by norm_num)]
  -- `100 x - 100 k - 1/2` times `2 f` is `200 (e - k f) - f`
  have lin : (100 * x - 100 * k - 1 / 2) * (2 * f) = 200 * ((e : ℚ) - k * f) - f := by rw [← hxe]; ring
  have far2 : |x| * (101 / 2 ^ 52) < |100 * x - 100 * k - 1 / 2| := by
    have h1 : |100 * x - 100 * k - 1 / 2| * (2 * f) = |200 * ((e : ℚ) - k * f) - f| := by
      rw [← lin, abs_mul, abs_of_pos (by positivity : (0 : ℚ) < 2 * f)]
    rw [← h1, ← hxa] at hfar'
    have h2 : |x| < 2 ^ 45 * |100 * x - 100 * k - 1 / 2| := by
      have : |x| * f < (2 ^ 45 * |100 * x - 100 * k - 1 / 2|) * f := by linarith
      exact lt_of_mul_lt_mul_right this hq.le
    nlinarith
  constructor
  · intro h
    have h' : ((k * 100 + 1 : ℤ) : ℚ) ≤ ((rint y : ℤ) : ℚ) := by exact_mod_cast (by omega : k * 100 + 1 ≤ rint y)
    push_cast at h'
    have hy1 : 100 * (k : ℚ) + 1 / 2 ≤ y := by linarith
    have : 0 < 100 * x - 100 * k - 1 / 2 := by
      by_contra hc
      have hc' := not_lt.1 hc
      rw [abs_of_nonpos hc'] at far2
      linarith
    have : (0 : ℚ) < 200 * ((e : ℚ) - k * f) - f := by rw [← lin]; positivity
    have : ((0 : ℤ) : ℚ) < ((200 * (e - k * f) - f : ℤ) : ℚ) := by push_cast; exact this
    have : 0 < 200 * (e - k * f) - f := by exact_mod_cast this
    omega
  · intro h
    have hpos : (0 : ℚ) < 200 * ((e : ℚ) - k * f) - f := by
      have : ((0 : ℤ) : ℚ) < ((200 * (e - k * f) - f : ℤ) : ℚ) := by exact_mod_cast (by omega : 0 < 200 * (e - k * f) - f)
      push_cast at this; exact this
    rw [← lin] at hpos
    have p : 0 < 100 * x - 100 * k - 1 / 2 := pos_of_mul_pos_left hpos (by positivity)
    rw [abs_of_pos p] at far2
    have hy1 : 100 * (k : ℚ) + 1 / 2 < y := by linarith
    have : ((k * 100 : ℤ) : ℚ) < ((rint y : ℤ) : ℚ) := by push_cast; linarith
    have : k * 100 < rint y := by exact_mod_cast this
    omega

theorem start_exact (s d f : ℤ) (h : |s - (d - f)| < 2 ^ 53) (hf : 0 < f) (hf2 : f ≤ 2 ^ 53) : ⌊quot (s - (d - f)) f⌋ = (s - (d - f)) / f := by
  rw [quot_eq _ _ h.le (by rw [abs_of_pos hf]; exact hf2), floor_quot _ _ h hf]

/-- A slice whose end is not too far: less than 2⁵² picoseconds (75 minutes), and less than 2⁵² / 200 periods. -/
def InReach (td : Dim) (s e : ℤ) : Prop :=
  |s - (td.duration - td.frequency)| < 2 ^ 53 ∧ |e| < 2 ^ 52 ∧ 200 * |e| < 2 ^ 52 * td.frequency ∧ td.frequency ≤ 2 ^ 53

/-- **C320.** Slicing by time, as the machine computes it: the samples returned, in order, are those of a set that contains every sample whose extent reaches past the
start and whose beginning is before the end by more than 1/200 of a period and `|e| / 2⁴⁴ / 200` (at most 1.3 picoseconds), and no sample whose extent does not reach past
the start or whose beginning is not before the end by at least 1/200 of a period less as much. -/
theorem C320_slice {α : Type} (arr : List α) (td : Dim) (s u : ℤ) (hf : 0 < td.frequency) (hs : 0 ≤ s) (hu : 0 ≤ u) (hr : InReach td s (s + u)) :
    ∃ keep : ℕ → Bool, getTimeSlice arr td s (some u) = Props.pick arr (fun k => keep k) ∧
      ∀ k : ℕ, k < arr.length →
        (keep k → s < k * td.frequency + td.duration ∧ 2 ^ 44 * td.frequency ≤ 2 ^ 44 * (200 * ((s + u) - k * td.frequency)) + (s + u)) ∧
        (s < k * td.frequency + td.duration → 2 ^ 44 * td.frequency + (s + u) < 2 ^ 44 * (200 * ((s + u) - k * td.frequency)) → keep k) := by
  obtain ⟨h1, h2, h3, h4⟩ := hr
  obtain ⟨j, hj⟩ : ∃ j, j = ⌈round2 (quot (s + u) td.frequency)⌉ := ⟨_, rfl⟩
  have hab : |s + u| = s + u := abs_of_nonneg (by omega)
  have hclose := fun k hk => stop_close (s + u) td.frequency k h2 hf h4 h3 hk
  rw [hab] at hclose
  rw [← hj] at hclose
  have hj0 : 0 ≤ j := by
    have hm : (0 : ℤ) < 200 * ((s + u) - (-1) * td.frequency) - td.frequency := by nlinarith
    have := (hclose (-1) (by rw [abs_of_pos hm]; nlinarith)).2 (by nlinarith)
    omega
  refine ⟨fun k => decide (max 0 ((s - (td.duration - td.frequency)) / td.frequency) ≤ (k : ℤ) ∧ (k : ℤ) < j), ?_, ?_⟩
  · unfold getTimeSlice intSlice Props.pick
    simp only
    rw [start_exact _ _ _ h1 hf h4, ← hj]
    refine (pySlice_eq_filter arr _ _ (Int.le_max_left _ _) hj0
      (fun k => decide (max 0 ((s - (td.duration - td.frequency)) / td.frequency) ≤ (k : ℤ) ∧ (k : ℤ) < j) = true) ?_)
    intro k _
    rw [decide_eq_true_iff]
  · intro k _
    rw [decide_eq_true_iff, start_le_iff _ _ _ _ hf (by omega)]
    constructor
    · rintro ⟨a, b⟩
      refine ⟨a, ?_⟩
      by_contra hc
      have hm : 200 * ((s + u) - k * td.frequency) - td.frequency < 0 := by omega
      have := (hclose k (by rw [abs_of_neg hm]; omega)).1 b
      omega
    · intro a b
      refine ⟨a, ?_⟩
      have hm : 0 < 200 * ((s + u) - k * td.frequency) - td.frequency := by omega
      exact (hclose k (by rw [abs_of_pos hm]; omega)).2 (by omega)

/-- A slice ending within 2⁴⁴ picoseconds (17 seconds) gives exactly the samples exact arithmetic gives, unless it ends exactly 1/200 of a period into a sample. -/
theorem C320_exact {α : Type} (arr : List α) (td : Dim) (s u : ℤ) (hf : 0 < td.frequency) (hs : 0 ≤ s) (hu : 0 ≤ u) (hr : InReach td s (s + u))
    (he : s + u < 2 ^ 44) (hk : ∀ k : ℕ, 200 * ((s + u) - k * td.frequency) ≠ td.frequency) :
    getTimeSlice arr td s (some u) = Time.getTimeSlice arr td s (some u) := by
  obtain ⟨keep, h1, h2⟩ := C320_slice arr td s u hf hs hu hr
  rw [h1, Props.C04_timeslice_exact arr td s u hf hs hu]
  unfold Props.pick
  congr 1
  apply filter_zipIdx_congr
  intro x k hlt
  obtain ⟨a, b⟩ := h2 k hlt
  have := hk k
  simp only [Bool.decide_eq_true]
  rw [Bool.eq_iff_iff, decide_eq_true_iff]
  constructor
  · intro h
    obtain ⟨c, d⟩ := a h
    exact ⟨c, by omega⟩
  · rintro ⟨c, d⟩
    exact b c (by omega)

/-- Slices without an end run to the end of the array, whatever the rounding. -/
theorem C320_open_ended {α : Type} (arr : List α) (td : Dim) (s : ℤ) (hf : 0 < td.frequency) (hd : td.frequency ≤ td.duration)
    (hr : InReach td s (arr.length * td.frequency + (td.duration - td.frequency))) :
    getTimeSlice arr td s none = Time.getTimeSlice arr td s none := by
  obtain ⟨h1, h2, h3, h4⟩ := hr
  rw [Props.C04_open_ended arr td s hf hd]
  obtain ⟨e, he⟩ : ∃ e, e = (arr.length : ℤ) * td.frequency + (td.duration - td.frequency) := ⟨_, rfl⟩
  have hend : Dim.end_ { td with size := arr.length } = e := by rw [he]; rfl
  have hn : (0 : ℤ) ≤ arr.length := Int.natCast_nonneg _
  have he0 : 0 ≤ e := by rw [he]; nlinarith
  rw [← he] at h2 h3
  rw [abs_of_nonneg he0] at h3
  have past : ∀ k : ℤ, k < arr.length → k < ⌈round2 (quot e td.frequency)⌉ := by
    intro k hk
    have hm : td.frequency ≤ e - k * td.frequency := by rw [he]; nlinarith
    refine (stop_close e td.frequency k h2 hf h4 (by rw [abs_of_nonneg he0]; exact h3) ?_).2 (by omega)
    rw [abs_of_nonneg he0, abs_of_pos (by omega)]
    omega
  unfold getTimeSlice intSlice Props.pick
  simp only
  rw [start_exact _ _ _ h1 hf h4, hend]
  refine pySlice_eq_filter arr _ _ (Int.le_max_left _ _) ?_ (fun k : ℕ => s < k * td.frequency + td.duration) ?_
  · have := past (-1) (by omega); omega
  · intro k hk
    rw [start_le_iff _ _ _ _ hf (by omega)]
    have := past k (by exact_mod_cast hk)
    constructor
    · intro h; exact ⟨h, this⟩
    · exact fun h => h.1

example : InReach ⟨22675736, 22675736, 0⟩ (10 ^ 12) ((44100 * 60 : ℕ) * 22675736 + (22675736 - 22675736)) := by unfold InReach; decide

/-- An array of audio cut from 1 s to 3 s. -/
example : InReach ⟨22675736, 22675736, 0⟩ (10 ^ 12) (10 ^ 12 + 2 * 10 ^ 12) ∧ (10 ^ 12 + 2 * 10 ^ 12 : ℤ) < 2 ^ 44 ∧
    ∀ k : ℕ, 200 * ((10 ^ 12 + 2 * 10 ^ 12 : ℤ) - k * 22675736) ≠ 22675736 := by
  refine ⟨by unfold InReach; decide, by norm_num, fun k => by omega⟩

/-- The exception is real: of audio at 16 kHz, a slice that ends 1/200 of a period after eight samples contains nine, but only eight in exact arithmetic (and one that ends
1/200 of a period after one sample contains one). -/
theorem C320_tie_refuted :
    (intSlice ⟨62500000, 62500000, 100⟩ 0 (some (8 * 62500000 + 312500))).2 = 9 ∧
    ((⟨62500000, 62500000, 100⟩ : Dim).intSlice 0 (some (8 * 62500000 + 312500))).2 = 8 ∧
    (intSlice ⟨62500000, 62500000, 100⟩ 0 (some (62500000 + 312500))).2 = 1 := by
  have two : ∀ e : ℤ, |e| ≤ 2 ^ 53 → quot e 62500000 = fl64 (e / 62500000) := by
    intro e he
    have := quot_eq e 62500000 he (by norm_num)
    simpa using this
  refine ⟨?_, by decide, ?_⟩
  · have q : quot (0 + (8 * 62500000 + 312500)) 62500000 = 4506414377137603 * 2 ^ (-49 : ℤ) := by
      rw [two _ (by norm_num), fl64_binade _ 3 (by norm_num) (by norm_num)]
      rw [rint_unique _ 4506414377137603 (by norm_num) (by norm_num)]; norm_num
    have p : fl64 (4506414377137603 * 2 ^ (-49 : ℤ) * 100) = 7041272464277505 * 2 ^ (-43 : ℤ) := by
      rw [fl64_binade _ 9 (by norm_num) (by norm_num)]
      rw [rint_unique _ 7041272464277505 (by norm_num) (by norm_num)]; norm_num
    have r : rint (7041272464277505 * 2 ^ (-43 : ℤ)) = 801 := rint_unique _ 801 (by norm_num) (by norm_num)
    simp only [intSlice, round2]
    rw [q, p, r]
    have := fl64_hundred 801 (by norm_num)
    rw [this]; decide
  · have q : quot (0 + (62500000 + 312500)) 62500000 = 4526117625507348 * 2 ^ (-52 : ℤ) := by
      rw [two _ (by norm_num), fl64_binade _ 0 (by norm_num) (by norm_num)]
      rw [rint_unique _ 4526117625507348 (by norm_num) (by norm_num)]; norm_num
    have p : fl64 (4526117625507348 * 2 ^ (-52 : ℤ) * 100) = 7072058789855231 * 2 ^ (-46 : ℤ) := by
      rw [fl64_binade _ 6 (by norm_num) (by norm_num)]
      rw [rint_unique _ 7072058789855231 (by norm_num) (by norm_num)]; norm_num
    have r : rint (7072058789855231 * 2 ^ (-46 : ℤ)) = 100 := rint_unique _ 100 (by norm_num) (by norm_num)
    simp only [intSlice, round2]
    rw [q, p, r]
    have := fl64_hundred 100 (by norm_num)
    rw [this]; decide

example := C320_slice (List.range 200) ⟨22675736, 22675736, 0⟩ (10 ^ 12) (2 * 10 ^ 12) (by decide) (by norm_num) (by norm_num) (by unfold InReach; decide)
example := C320_exact (List.range 200) ⟨22675736, 22675736, 0⟩ (10 ^ 12) (2 * 10 ^ 12) (by decide) (by norm_num) (by norm_num) (by unfold InReach; decide) (by norm_num) (fun k => by
  show 200 * ((10 ^ 12 + 2 * 10 ^ 12 : ℤ) - k * 22675736) ≠ 22675736
  omega)
example := C320_open_ended [1, 2, 3] ⟨22675736, 22675736, 0⟩ (10 ^ 12) (by decide) (by decide) (by unfold InReach; decide)

/-! ## C321: the sample rate the DCT nodes find -/

theorem fl64_bounds (x : ℚ) (h : 0 ≤ x) : x * (1 - 1 / 2 ^ 53) ≤ fl64 x ∧ fl64 x ≤ x * (1 + 1 / 2 ^ 53) := by
  have := abs_le.1 (fl64_error x)
  rw [abs_of_nonneg h] at this
  constructor <;> linarith

/-- Four roundings: the quotient is within a relative error of 2⁻⁵⁰. -/
theorem rate_bounds (w : ℕ) (f : ℤ) (hw : 1 ≤ w) (hf : 0 < f) :
    (10 ^ 12 / f : ℚ) * (1 - 1 / 2 ^ 50) ≤ fl64 (fl64 w / quot (f * w) (10 ^ 12)) ∧
    fl64 (fl64 w / quot (f * w) (10 ^ 12)) ≤ (10 ^ 12 / f : ℚ) * (1 + 1 / 2 ^ 50) := by
  have hfq : (0 : ℚ) < f := by exact_mod_cast hf
  have hwq : (0 : ℚ) < w := by exact_mod_cast (by omega : 0 < w)
  have e12 : fl64 ((10 ^ 12 : ℤ) : ℚ) = 10 ^ 12 := by
    rw [fl64_int _ (by norm_num)]; norm_num
  unfold quot
  rw [e12]
  have ea : (((f * w : ℤ)) : ℚ) = f * w := by push_cast; ring
  rw [ea]
  obtain ⟨a1, a2⟩ := fl64_bounds (f * w : ℚ) (by positivity)
  obtain ⟨w1, w2⟩ := fl64_bounds (w : ℚ) hwq.le
  obtain ⟨a, ha⟩ : ∃ a, a = fl64 (f * w : ℚ) := ⟨_, rfl⟩
  obtain ⟨W, hW⟩ : ∃ W, W = fl64 (w : ℚ) := ⟨_, rfl⟩
  rw [← ha] at a1 a2 ⊢
  rw [← hW] at w1 w2 ⊢
  have hfw : (0 : ℚ) < f * w := by positivity
  have a0 : 0 < a := lt_of_lt_of_le (mul_pos hfw (by norm_num)) a1
  have W0 : 0 < W := lt_of_lt_of_le (mul_pos hwq (by norm_num)) w1
  obtain ⟨d1, d2⟩ := fl64_bounds (a / 10 ^ 12) (by positivity)
  obtain ⟨d, hd⟩ : ∃ d, d = fl64 (a / 10 ^ 12) := ⟨_, rfl⟩
  rw [← hd] at d1 d2 ⊢
  have d0 : 0 < d := lt_of_lt_of_le (mul_pos (by positivity) (by norm_num)) d1
  obtain ⟨q1, q2⟩ := fl64_bounds (W / d) (by positivity)
  -- the denominators
  have dl : (f * w : ℚ) * (1 - 1 / 2 ^ 53) * (1 - 1 / 2 ^ 53) ≤ d * 10 ^ 12 := by
    have : a * (1 - 1 / 2 ^ 53) ≤ d * 10 ^ 12 := by
      have h := d1
      rw [div_mul_eq_mul_div, div_le_iff₀ (by norm_num)] at h
      exact h
    have h2 : (f * w : ℚ) * (1 - 1 / 2 ^ 53) * (1 - 1 / 2 ^ 53) ≤ a * (1 - 1 / 2 ^ 53) := mul_le_mul_of_nonneg_right a1 (by norm_num)
    linarith
  have du : d * 10 ^ 12 ≤ (f * w : ℚ) * (1 + 1 / 2 ^ 53) * (1 + 1 / 2 ^ 53) := by
    have : d * 10 ^ 12 ≤ a * (1 + 1 / 2 ^ 53) := by
      have h := d2
      rw [div_mul_eq_mul_div, le_div_iff₀ (by norm_num)] at h
      exact h
    have h2 : a * (1 + 1 / 2 ^ 53) ≤ (f * w : ℚ) * (1 + 1 / 2 ^ 53) * (1 + 1 / 2 ^ 53) := mul_le_mul_of_nonneg_right a2 (by norm_num)
    linarith
  have lo : (10 ^ 12 / f : ℚ) * (1 - 4 / 2 ^ 53) ≤ W / d := by
    rw [le_div_iff₀ d0, div_mul_eq_mul_div, div_mul_eq_mul_div, div_le_iff₀ hfq]
    have h1 : (10 : ℚ) ^ 12 * (1 - 4 / 2 ^ 53) * d ≤ (1 - 4 / 2 ^ 53) * ((f * w : ℚ) * (1 + 1 / 2 ^ 53) * (1 + 1 / 2 ^ 53)) := by
      have := mul_le_mul_of_nonneg_left du (by norm_num : (0 : ℚ) ≤ 1 - 4 / 2 ^ 53)
      linarith
    have h2 : (1 - 4 / 2 ^ 53) * ((f * w : ℚ) * (1 + 1 / 2 ^ 53) * (1 + 1 / 2 ^ 53)) ≤ (f * w : ℚ) * (1 - 1 / 2 ^ 53) := by
      have : (1 - 4 / 2 ^ 53 : ℚ) * ((1 + 1 / 2 ^ 53) * (1 + 1 / 2 ^ 53)) ≤ 1 - 1 / 2 ^ 53 := by norm_num
      nlinarith
    have h3 : (f * w : ℚ) * (1 - 1 / 2 ^ 53) ≤ W * f := by nlinarith
    linarith
  have hi : W / d ≤ (10 ^ 12 / f : ℚ) * (1 + 4 / 2 ^ 53) := by
    rw [div_le_iff₀ d0, div_mul_eq_mul_div, div_mul_eq_mul_div, le_div_iff₀ hfq]
    have h1 : (1 + 4 / 2 ^ 53) * ((f * w : ℚ) * (1 - 1 / 2 ^ 53) * (1 - 1 / 2 ^ 53)) ≤ (10 : ℚ) ^ 12 * (1 + 4 / 2 ^ 53) * d := by
      have := mul_le_mul_of_nonneg_left dl (by norm_num : (0 : ℚ) ≤ 1 + 4 / 2 ^ 53)
      linarith
    have h2 : (f * w : ℚ) * (1 + 1 / 2 ^ 53) ≤ (1 + 4 / 2 ^ 53) * ((f * w : ℚ) * (1 - 1 / 2 ^ 53) * (1 - 1 / 2 ^ 53)) := by
      have : (1 + 1 / 2 ^ 53 : ℚ) ≤ (1 + 4 / 2 ^ 53) * ((1 - 1 / 2 ^ 53) * (1 - 1 / 2 ^ 53)) := by norm_num
      nlinarith
    have h3 : W * f ≤ (f * w : ℚ) * (1 + 1 / 2 ^ 53) := by nlinarith
    linarith
  have hR : (0 : ℚ) < 10 ^ 12 / f := by positivity
  constructor
  · have h1 : (10 ^ 12 / f : ℚ) * (1 - 4 / 2 ^ 53) * (1 - 1 / 2 ^ 53) ≤ W / d * (1 - 1 / 2 ^ 53) := mul_le_mul_of_nonneg_right lo (by norm_num)
    have h2 : (10 ^ 12 / f : ℚ) * (1 - 1 / 2 ^ 50) ≤ (10 ^ 12 / f : ℚ) * (1 - 4 / 2 ^ 53) * (1 - 1 / 2 ^ 53) := by
      rw [mul_assoc]; exact mul_le_mul_of_nonneg_left (by norm_num) hR.le
    linarith
  · have h1 : W / d * (1 + 1 / 2 ^ 53) ≤ (10 ^ 12 / f : ℚ) * (1 + 4 / 2 ^ 53) * (1 + 1 / 2 ^ 53) := mul_le_mul_of_nonneg_right hi (by norm_num)
    have h2 : (10 ^ 12 / f : ℚ) * (1 + 4 / 2 ^ 53) * (1 + 1 / 2 ^ 53) ≤ (10 ^ 12 / f : ℚ) * (1 + 1 / 2 ^ 50) := by
      rw [mul_assoc]; exact mul_le_mul_of_nonneg_left (by norm_num) hR.le
    linarith

theorem rate_floor (w : ℕ) (f N M : ℤ) (hw : 1 ≤ w) (hf : 0 < f) (hN : 0 ≤ N) (h1 : (N : ℚ) ≤ (10 ^ 12 / f : ℚ) * (1 - 1 / 2 ^ 50))
    (h2 : (10 ^ 12 / f : ℚ) * (1 + 1 / 2 ^ 50) < M) : N ≤ windowRate w (f * w) ∧ windowRate w (f * w) < M := by
  obtain ⟨b1, b2⟩ := rate_bounds w f hw hf
  have hN' : (0 : ℚ) ≤ N := by exact_mod_cast hN
  unfold windowRate trunc
  rw [if_neg (by linarith)]
  constructor
  · rw [Int.le_floor]; linarith
  · rw [Int.floor_lt]; linarith

/-- At every supported rate but 16 kHz the DCT nodes find the rate of the windows, whatever their size. -/
theorem C321_rate (r : SampleRate) (hr : r ∈ supportedRates) (h16 : r.samplesPerSecond ≠ 16000) (w : ℕ) (hw : 1 ≤ w) :
    findRate (windowRate w (r.frequency * w)) = .ok r := by
  have key : windowRate w (r.frequency * w) = r.samplesPerSecond := by
    have hb : r.samplesPerSecond ≤ windowRate w (r.frequency * w) ∧ windowRate w (r.frequency * w) < r.samplesPerSecond + 1 := by
      rw [show supportedRates = [⟨10416666, 10416666⟩, ⟨20833333, 20833333⟩, ⟨22675736, 22675736⟩, ⟨45351473, 45351473⟩, ⟨62500000, 62500000⟩, ⟨90702947, 90702947⟩] by decide] at hr
      simp only [List.mem_cons, List.not_mem_nil, or_false] at hr
      rcases hr with rfl | rfl | rfl | rfl | rfl | rfl
      · exact rate_floor w 10416666 96000 96001 hw (by norm_num) (by norm_num) (by norm_num) (by norm_num)
      · exact rate_floor w 20833333 48000 48001 hw (by norm_num) (by norm_num) (by norm_num) (by norm_num)
      · exact rate_floor w 22675736 44100 44101 hw (by norm_num) (by norm_num) (by norm_num) (by norm_num)
      · exact rate_floor w 45351473 22050 22051 hw (by norm_num) (by norm_num) (by norm_num) (by norm_num)
      · exact absurd (by decide) h16
      · exact rate_floor w 90702947 11025 11026 hw (by norm_num) (by norm_num) (by norm_num) (by norm_num)
    omega
  rw [key]
  clear key h16 hw
  revert r
  decide

example := C321_rate ⟨22675736, 22675736⟩ (by decide) (by decide) 2048 (by decide)

/-- At 16 kHz they find it or are one too low, which is no supported rate. -/
theorem C321_16k (w : ℕ) (hw : 1 ≤ w) :
    (windowRate w (62500000 * w) = 16000 ∧ findRate (windowRate w (62500000 * w)) = .ok ⟨62500000, 62500000⟩) ∨
    (windowRate w (62500000 * w) = 15999 ∧ findRate (windowRate w (62500000 * w)) = .error .valueError) := by
  obtain ⟨h1, h2⟩ := rate_floor w 62500000 15999 16001 hw (by norm_num) (by norm_num) (by norm_num) (by norm_num)
  rcases (by omega : windowRate w (62500000 * w) = 16000 ∨ windowRate w (62500000 * w) = 15999) with h | h
  · left; rw [h]; exact ⟨rfl, by decide⟩
  · right; rw [h]; exact ⟨rfl, by decide⟩

example := C321_16k 2048 (by decide)

/-- Windows twice as long give the same. -/
theorem C321_doubling (w k : ℕ) (f : ℤ) : windowRate (w * 2 ^ k) (f * (w * 2 ^ k : ℕ)) = windowRate w (f * w) := by
  unfold windowRate quot
  have e1 : (((w * 2 ^ k : ℕ)) : ℚ) = (w : ℚ) * 2 ^ (k : ℤ) := by push_cast; rw [zpow_natCast]
  have e2 : ((f * (w * 2 ^ k : ℕ) : ℤ) : ℚ) = ((f * w : ℤ) : ℚ) * 2 ^ (k : ℤ) := by push_cast; rw [zpow_natCast]; ring
  have hp : (2 : ℚ) ^ (k : ℤ) ≠ 0 := by positivity
  rw [e1, e2, fl64_scale, fl64_scale, mul_div_right_comm (fl64 ((f * w : ℤ) : ℚ)), fl64_scale, mul_div_mul_right _ _ hp]

theorem fl64_of (x : ℚ) (m e : ℤ) (h1 : 2 ^ (e + 52) ≤ |x|) (h2 : |x| < 2 ^ (e + 53)) (h3 : |x / 2 ^ e - m| < 1 / 2) : fl64 x = m * 2 ^ e := by
  rw [fl64_binade x (e + 52) h1 (by rw [show e + 52 + 1 = e + 53 by ring]; exact h2), show e + 52 - 52 = e by ring]
  rw [rint_unique _ m h3.le (fun h => absurd h h3.ne)]

theorem rate16_of (w : ℕ) (m1 e1 m2 e2 : ℤ) (hw : (w : ℤ) ≤ 100000000)
    (h1 : 2 ^ (e1 + 52) ≤ |(w : ℚ) / 16000|) (h2 : |(w : ℚ) / 16000| < 2 ^ (e1 + 53)) (h3 : |(w : ℚ) / 16000 / 2 ^ e1 - m1| < 1 / 2)
    (k1 : 2 ^ (e2 + 52) ≤ |(w : ℚ) / (m1 * 2 ^ e1)|) (k2 : |(w : ℚ) / (m1 * 2 ^ e1)| < 2 ^ (e2 + 53)) (k3 : |(w : ℚ) / (m1 * 2 ^ e1) / 2 ^ e2 - m2| < 1 / 2) :
    windowRate w (62500000 * w) = trunc (m2 * 2 ^ e2) := by
  have hw0 : (0 : ℤ) ≤ w := Int.natCast_nonneg _
  have q : quot (62500000 * w) (10 ^ 12) = m1 * 2 ^ e1 := by
    rw [quot_eq _ _ (by rw [abs_of_nonneg (by omega)]; omega) (by norm_num)]
    rw [show ((62500000 * w : ℤ) : ℚ) / ((10 ^ 12 : ℤ) : ℚ) = (w : ℚ) / 16000 by push_cast; ring]
    exact fl64_of _ _ _ h1 h2 h3
  have hwf : fl64 (w : ℚ) = w := by
    have := fl64_int w (by rw [abs_of_nonneg hw0]; omega)
    simpa using this
  unfold windowRate
  rw [q, hwf, fl64_of _ m2 e2 k1 k2 k3]

/-- Refuted at 16 kHz: windows of 17, 34, 68, ... and of 21, 42, 84, ... samples are refused, though 1, 2, 4, ..., 512, 1024 and the usual 400 are accepted. -/
theorem C321_16k_refuted (k : ℕ) :
    findRate (windowRate (17 * 2 ^ k) (62500000 * (17 * 2 ^ k : ℕ))) = .error .valueError ∧
    findRate (windowRate (21 * 2 ^ k) (62500000 * (21 * 2 ^ k : ℕ))) = .error .valueError ∧
    findRate (windowRate (1 * 2 ^ k) (62500000 * (1 * 2 ^ k : ℕ))) = .ok ⟨62500000, 62500000⟩ ∧
    findRate (windowRate (25 * 2 ^ k) (62500000 * (25 * 2 ^ k : ℕ))) = .ok ⟨62500000, 62500000⟩ := by
  have t1 : trunc (((8796093022207999 : ℤ) : ℚ) * 2 ^ (-39 : ℤ)) = 15999 := by
    unfold trunc
    rw [if_neg (by norm_num), Int.floor_eq_iff]
    norm_num
  have t2 : trunc (((8796093022208000 : ℤ) : ℚ) * 2 ^ (-39 : ℤ)) = 16000 := by
    unfold trunc
    rw [if_neg (by norm_num), Int.floor_eq_iff]
    norm_num
  have f1 : findRate 15999 = .error .valueError := by decide
  have f2 : findRate 16000 = .ok ⟨62500000, 62500000⟩ := by decide
  have a17 := rate16_of 17 4899916394579100 (-62) 8796093022207999 (-39) (by norm_num) (by norm_num) (by norm_num [abs_of_pos]) (by rw [abs_lt]; norm_num)
    (by norm_num) (by norm_num) (by rw [abs_lt]; norm_num)
  have a21 := rate16_of 21 6052837899185947 (-62) 8796093022207999 (-39) (by norm_num) (by norm_num) (by norm_num) (by rw [abs_lt]; norm_num)
    (by norm_num) (by norm_num) (by rw [abs_lt]; norm_num)
  have a1 := rate16_of 1 4611686018427388 (-66) 8796093022208000 (-39) (by norm_num) (by norm_num) (by norm_num) (by rw [abs_lt]; norm_num)
    (by norm_num) (by norm_num) (by rw [abs_lt]; norm_num)
  have a25 := rate16_of 25 7205759403792794 (-62) 8796093022208000 (-39) (by norm_num) (by norm_num) (by norm_num) (by rw [abs_lt]; norm_num)
    (by norm_num) (by norm_num) (by rw [abs_lt]; norm_num)
  refine ⟨?_, ?_, ?_, ?_⟩
  · rw [C321_doubling, a17, t1, f1]
  · rw [C321_doubling, a21, t1, f1]
  · rw [C321_doubling, a1, t2, f2]
  · rw [C321_doubling, a25, t2, f2]

example : findRate (windowRate 400 (62500000 * 400)) = .ok ⟨62500000, 62500000⟩ := (C321_16k_refuted 4).2.2.2

theorem mapM_total {β γ : Type} (g : β → Except PyErr γ) (P : γ → Prop) (l : List β) (h : ∀ x ∈ l, ∃ y, g x = .ok y ∧ P y) :
    ∃ ys, l.mapM g = .ok ys ∧ ys.length = l.length ∧ ∀ y ∈ ys, P y := by
  induction l with
  | nil => exact ⟨[], rfl, rfl, by simp⟩
  | cons x l ih =>
    obtain ⟨y, hy, py⟩ := h x (by simp)
    obtain ⟨ys, hys, hl, hP⟩ := ih (fun z hz => h z (by simp [hz]))
    refine ⟨y :: ys, ?_, by simp [hl], ?_⟩
    · rw [List.mapM_cons, hy, hys]; rfl
    · intro z hz
      rcases List.mem_cons.1 hz with rfl | hz
      · exact py
      · exact hP z hz

/-- The `DCT` node on windows of audio at a supported rate other than 16 kHz: every window transformed, on a linear scale up to half the rate. -/
theorem C321_dct (r : SampleRate) (hr : r ∈ supportedRates) (h16 : r.samplesPerSecond ≠ 16000) (w : ℕ) (hw : 1 ≤ w) (td : Dim) (htd : td.duration = r.frequency * w)
    (rows : List (List ℝ)) (hrows : ∀ x ∈ rows, x.length = w) :
    ∃ cs, rows.mapM Spectral.scipyDct = .ok cs ∧ cs.length = rows.length ∧ (∀ c ∈ cs, c.length = w) ∧ dctNode w td rows = .ok (cs, td, r.samplesPerSecond / 2, w) := by
  obtain ⟨cs, h1, h2, h3⟩ := mapM_total Spectral.scipyDct (fun c => c.length = w) rows (by
    intro x hx
    have hl := hrows x hx
    have hne : x ≠ [] := by intro h; rw [h] at hl; simp at hl; omega
    exact ⟨_, if_neg hne, by simp [hl]⟩)
  refine ⟨cs, h1, h2, h3, ?_⟩
  unfold dctNode
  rw [h1, htd, C321_rate r hr h16 w hw]
  rfl

/-- The `DCTIV` node likewise. -/
theorem C321_dctiv (r : SampleRate) (hr : r ∈ supportedRates) (h16 : r.samplesPerSecond ≠ 16000) (w : ℕ) (hw : 1 ≤ w) (td : Dim) (htd : td.duration = r.frequency * w)
    (rows : List (List ℝ)) (hrows : ∀ x ∈ rows, x.length = w) :
    ∃ cs, rows.mapM Spectral.dctiv = .ok cs ∧ cs.length = rows.length ∧ (∀ c ∈ cs, c.length = w) ∧ dctivNode w td rows = .ok (cs, td, r.samplesPerSecond / 2, w) := by
  obtain ⟨cs, h1, h2, h3⟩ := mapM_total Spectral.dctiv (fun c => c.length = w) rows (by
    intro x hx
    have hl := hrows x hx
    have hne : x ≠ [] := by intro h; rw [h] at hl; simp at hl; omega
    exact ⟨_, if_neg hne, by simp [hl]⟩)
  refine ⟨cs, h1, h2, h3, ?_⟩
  unfold dctivNode
  rw [h1, htd, C321_rate r hr h16 w hw]
  rfl

example := C321_dctiv ⟨22675736, 22675736⟩ (by decide) (by decide) 2 (by decide) ⟨22675736, 22675736 * 2, 2⟩ (by norm_num) [[1, 2], [3, 4]] (by simp)

example : ∃ cs, dctNode 2 ⟨22675736, 22675736 * 2, 2⟩ [[1, 2], [3, 4]] = .ok (cs, ⟨22675736, 22675736 * 2, 2⟩, 22050, 2) := by
  obtain ⟨cs, _, _, _, h⟩ := C321_dct ⟨22675736, 22675736⟩ (by decide) (by decide) 2 (by norm_num) ⟨22675736, 22675736 * 2, 2⟩ (by norm_num) [[1, 2], [3, 4]] (by simp)
  exact ⟨cs, h⟩

/-- Refuted at 16 kHz: both nodes refuse windows of 17 · 2ᵏ samples with a ValueError. -/
theorem C321_nodes_refuted (k : ℕ) (td : Dim) (htd : td.duration = 62500000 * (17 * 2 ^ k : ℕ)) (rows : List (List ℝ)) (hrows : ∀ x ∈ rows, x.length = 17 * 2 ^ k) :
    dctNode (17 * 2 ^ k) td rows = .error .valueError ∧ dctivNode (17 * 2 ^ k) td rows = .error .valueError := by
  have hne : ∀ x ∈ rows, x ≠ [] := by
    intro x hx h
    have hl := hrows x hx
    have hp : 0 < 17 * 2 ^ k := by positivity
    rw [h, List.length_nil] at hl
    omega
  obtain ⟨c1, h1, _⟩ := mapM_total Spectral.scipyDct (fun _ => True) rows (fun x hx => ⟨_, if_neg (hne x hx), trivial⟩)
  obtain ⟨c2, h2, _⟩ := mapM_total Spectral.dctiv (fun _ => True) rows (fun x hx => ⟨_, if_neg (hne x hx), trivial⟩)
  have h3 := (C321_16k_refuted k).1
  unfold dctNode dctivNode
  rw [h1, h2, htd, h3]
  exact ⟨rfl, rfl⟩

end Zounds.Float64
