import Verif.Model.Rates
import Verif.Props.Time
import Mathlib.Data.Rat.Floor
import Mathlib.Tactic.Linarith
import Mathlib.Tactic.Positivity
import Mathlib.Tactic.FieldSimp
import Mathlib.Tactic.Ring
import Mathlib.Tactic.NormNum
/-!
# C230–C233: derived sample rates; C06: the order of time slices
-/

namespace Zounds.Rates
open Zounds Zounds.Time

theorem truncate_nonneg (q : Rat) (h : 0 ≤ q) : (truncate q : Rat) ≤ q ∧ q < truncate q + 1 ∧ 0 ≤ truncate q := by
  unfold truncate
  rw [if_pos h]
  have e : q.floor = ⌊q⌋ := rfl
  rw [e]
  exact ⟨Int.floor_le q, Int.lt_floor_add_one q, Int.floor_nonneg.2 h⟩

theorem truncate_int (n : Int) (h : 0 ≤ n) : truncate (n : Rat) = n := by
  have h1 := truncate_nonneg (n : Rat) (by exact_mod_cast h)
  have a : truncate (n : Rat) ≤ n := by exact_mod_cast h1.1
  have b : n < truncate (n : Rat) + 1 := by exact_mod_cast h1.2.1
  omega

theorem one_le_truncate (q : Rat) (h : 0 ≤ q) : 0 < truncate q ↔ 1 ≤ q := by
  obtain ⟨h1, h2, h3⟩ := truncate_nonneg q h
  constructor
  · intro hp
    have : (1 : Rat) ≤ truncate q := by exact_mod_cast hp
    linarith
  · intro hq
    have : (0 : Rat) < truncate q := by linarith
    exact_mod_cast this

/-- **C230**: scaling a rate by a ratio gives the exact step and duration cut to whole picoseconds; it is a ValueError exactly when one of them would be less
than one picosecond. -/
theorem C230_resample (f d : Int) (hf : 0 < f) (hd : 0 < d) (q : Rat) (hq : 0 < q) :
    (resample ⟨f, d⟩ q = .error .valueError ↔ (f : Rat) * q < 1 ∨ (d : Rat) * q < 1) ∧
    ∀ r, resample ⟨f, d⟩ q = .ok r →
      (r.frequency : Rat) ≤ f * q ∧ (f : Rat) * q < r.frequency + 1 ∧ (r.duration : Rat) ≤ d * q ∧ (d : Rat) * q < r.duration + 1 ∧
      0 < r.frequency ∧ 0 < r.duration := by
  have hf' : (0 : Rat) ≤ f * q := by have : (0 : Rat) < f := by exact_mod_cast hf
                                     positivity
  have hd' : (0 : Rat) ≤ d * q := by have : (0 : Rat) < d := by exact_mod_cast hd
                                     positivity
  have tf := truncate_nonneg _ hf'
  have td := truncate_nonneg _ hd'
  have of := one_le_truncate _ hf'
  have od := one_le_truncate _ hd'
  unfold resample SampleRate.new
  by_cases h1 : 0 < truncate ((f : Rat) * q)
  · by_cases h2 : 0 < truncate ((d : Rat) * q)
    · rw [if_neg (by simpa using h1), if_neg (by simpa using h2)]
      refine ⟨⟨fun h => (nomatch h), fun h => ?_⟩, ?_⟩
      · rcases h with h | h
        · exact absurd (of.1 h1) (not_le.2 h)
        · exact absurd (od.1 h2) (not_le.2 h)
      · intro r hr
        injection hr with hr
        subst hr
        exact ⟨tf.1, tf.2.1, td.1, td.2.1, h1, h2⟩
    · rw [if_neg (by simpa using h1), if_pos (by simpa using h2)]
      refine ⟨⟨fun _ => Or.inr ?_, fun _ => rfl⟩, fun r hr => by cases hr⟩
      by_contra hc
      exact h2 (od.2 (not_lt.1 hc))
  · rw [if_pos (by simpa using h1)]
    refine ⟨⟨fun _ => Or.inl ?_, fun _ => rfl⟩, fun r hr => by cases hr⟩
    by_contra hc
    exact h1 (of.2 (not_lt.1 hc))

/-- **C230, whole ratios**: a whole ratio is applied exactly, keeps the overlap ratio, and whole ratios compose. -/
theorem C230_whole (f d k : Int) (hf : 0 < f) (hd : 0 < d) (hk : 0 < k) :
    resample ⟨f, d⟩ (k : Rat) = .ok ⟨f * k, d * k⟩ ∧
    overlapRatio ⟨f * k, d * k⟩ = overlapRatio ⟨f, d⟩ ∧
    ∀ m : Int, 0 < m → resample ⟨f * k, d * k⟩ (m : Rat) = resample ⟨f, d⟩ ((k * m : Int) : Rat) := by
  have main : ∀ (f d k : Int), 0 < f → 0 < d → 0 < k → resample ⟨f, d⟩ (k : Rat) = .ok ⟨f * k, d * k⟩ := by
    intro f d k hf hd hk
    have e1 : ((f : Rat) * (k : Rat)) = ((f * k : Int) : Rat) := by push_cast; ring
    have e2 : ((d : Rat) * (k : Rat)) = ((d * k : Int) : Rat) := by push_cast; ring
    have p1 : 0 < f * k := by positivity
    have p2 : 0 < d * k := by positivity
    unfold resample SampleRate.new
    simp only [e1, e2, truncate_int _ p1.le, truncate_int _ p2.le]
    rw [if_neg (by omega), if_neg (by omega)]
  refine ⟨main f d k hf hd hk, ?_, ?_⟩
  · unfold overlapRatio SampleRate.overlap
    have hk' : (k : Rat) ≠ 0 := by exact_mod_cast hk.ne'
    have hd' : (d : Rat) ≠ 0 := by exact_mod_cast hd.ne'
    push_cast
    field_simp
  · intro m hm
    rw [main _ _ m (by positivity) (by positivity) hm, main f d (k * m) hf hd (by positivity)]
    simp [mul_assoc]

example := C230_whole 22675736 45351472 3 (by decide) (by decide) (by decide)

/-- **C230, contiguous rates**: a rate whose samples follow each other without gap or overlap keeps this property; one with overlap never gets a gap. -/
theorem C230_contiguous (f d : Int) (hf : 0 < f) (hd : 0 < d) (q : Rat) (hq : 0 < q) (r : SampleRate)
    (h : resample ⟨f, d⟩ q = .ok r) : (d = f → r.duration = r.frequency) ∧ (f ≤ d → r.frequency ≤ r.duration) := by
  unfold resample SampleRate.new at h
  split at h
  · cases h
  · split at h
    · cases h
    · injection h with h
      subst h
      refine ⟨fun e => by simp [e], fun hle => ?_⟩
      have hf' : (0 : Rat) < f := by exact_mod_cast hf
      have hd' : (0 : Rat) < d := by exact_mod_cast hd
      have a := truncate_nonneg ((f : Rat) * q) (by positivity)
      have b := truncate_nonneg ((d : Rat) * q) (by positivity)
      have hle' : (f : Rat) * q ≤ d * q := by
        have : (f : Rat) ≤ d := by exact_mod_cast hle
        exact mul_le_mul_of_nonneg_right this hq.le
      have : (truncate ((f : Rat) * q) : Rat) < truncate ((d : Rat) * q) + 1 := by linarith [a.1, b.2.1]
      have : truncate ((f : Rat) * q) < truncate ((d : Rat) * q) + 1 := by exact_mod_cast this
      show truncate ((f : Rat) * q) ≤ truncate ((d : Rat) * q)
      omega

/-- **C230, undoing a whole ratio**: `1 / k` undoes `k`. -/
theorem C230_back (f d k : Int) (hf : 0 < f) (hd : 0 < d) (hk : 0 < k) :
    ∃ r, resample ⟨f, d⟩ (k : Rat) = .ok r ∧ resample r (1 / (k : Rat)) = .ok ⟨f, d⟩ := by
  refine ⟨_, (C230_whole f d k hf hd hk).1, ?_⟩
  have hk' : (k : Rat) ≠ 0 := by exact_mod_cast hk.ne'
  have e1 : (((f * k : Int) : Rat) * (1 / (k : Rat))) = (f : Int) := by push_cast; field_simp
  have e2 : (((d * k : Int) : Rat) * (1 / (k : Rat))) = (d : Int) := by push_cast; field_simp
  unfold resample SampleRate.new
  simp only [e1, e2, truncate_int _ hf.le, truncate_int _ hd.le]
  rw [if_neg (by omega), if_neg (by omega)]

example := C230_back 22675736 45351472 3 (by decide) (by decide) (by decide)
example := C230_contiguous 22675736 45351472 (by decide) (by decide) 3 (by norm_num) _ (C230_whole 22675736 45351472 3 (by decide) (by decide) (by decide)).1

/-- **C230, time dimensions**: a resampled time dimension has the resampled rate. -/
theorem C230_dimension (td : Dim) (hf : 0 < td.frequency) (hd : 0 < td.duration) (q : Rat) (r : SampleRate)
    (h : resample ⟨td.frequency, td.duration⟩ q = .ok r) : dimResample td q = .ok (r.frequency, r.duration) := by
  unfold dimResample samplerate SampleRate.new
  rw [if_neg (by omega), if_neg (by omega)]
  simp [h]

example := C230_dimension ⟨22675736, 45351472, 7⟩ (by decide) (by decide) 3 _ (C230_whole 22675736 45351472 3 (by decide) (by decide) (by decide)).1

/-- The hypotheses are met: CD audio at half its length. -/
example : ∃ r, resample ⟨22675736, 22675736⟩ (1 / 2) = .ok r := by
  have h := (C230_resample 22675736 22675736 (by decide) (by decide) (1 / 2) (by norm_num)).1
  cases e : resample ⟨22675736, 22675736⟩ (1 / 2) with
  | ok r => exact ⟨r, rfl⟩
  | error x =>
    exfalso
    have : x = .valueError := by
      unfold resample SampleRate.new at e
      split at e
      · injection e with e; exact e.symm
      · cases e
    subst this
    have := h.1 e
    norm_num at this

theorem truncate_third : truncate (((22675736 : Int) : Rat) * (1 / 3)) = 7558578 := by
  have h := truncate_nonneg (((22675736 : Int) : Rat) * (1 / 3)) (by norm_num)
  have a : (truncate (((22675736 : Int) : Rat) * (1 / 3)) : Rat) < ((7558579 : Int) : Rat) := lt_of_le_of_lt h.1 (by norm_num)
  have b : ((7558577 : Int) : Rat) < truncate (((22675736 : Int) : Rat) * (1 / 3)) := by
    have := h.2.1
    norm_num at this ⊢
    linarith
  have a' : truncate (((22675736 : Int) : Rat) * (1 / 3)) < 7558579 := by exact_mod_cast a
  have b' : 7558577 < truncate (((22675736 : Int) : Rat) * (1 / 3)) := by exact_mod_cast b
  omega

/-- **C231, refuted**: a ratio and its reciprocal do not undo each other: a third of CD audio's rate, three times, is two picoseconds short. -/
theorem C231_back_refuted : resample ⟨22675736, 22675736⟩ (1 / 3) = .ok ⟨7558578, 7558578⟩ ∧
    resample ⟨7558578, 7558578⟩ ((3 : Int) : Rat) = .ok ⟨22675734, 22675734⟩ := by
  constructor
  · unfold resample SampleRate.new
    simp only [truncate_third]
    rfl
  · exact (C230_whole 7558578 7558578 3 (by decide) (by decide) (by decide)).1

/-! ## HalfLapped -/

theorem halfLapped_eq (w h : Int) (hw : 0 < w) (hh : 0 < h) : halfLapped w h = .ok ⟨22675736 * h, 22675736 * w⟩ := by
  have e : truncate ((10 ^ 12 : Rat) / 44100) = 22675736 := by
    have h := truncate_nonneg ((10 ^ 12 : Rat) / 44100) (by norm_num)
    have a : (truncate ((10 ^ 12 : Rat) / 44100) : Rat) < ((22675737 : Int) : Rat) := lt_of_le_of_lt h.1 (by norm_num)
    have b : ((22675735 : Int) : Rat) < truncate ((10 ^ 12 : Rat) / 44100) := by
      have := h.2.1
      norm_num at this ⊢
      linarith
    have a' : truncate ((10 ^ 12 : Rat) / 44100) < 22675737 := by exact_mod_cast a
    have b' : 22675735 < truncate ((10 ^ 12 : Rat) / 44100) := by exact_mod_cast b
    omega
  unfold halfLapped SampleRate.new
  simp only [e]
  rw [if_neg (by omega), if_neg (by omega)]

theorem roundHalfEven_bound (n d : Int) (hd : 0 < d) : 2 * (roundHalfEven n d * d - n) ≤ d ∧ -d ≤ 2 * (roundHalfEven n d * d - n) := by
  have h1 := Int.emod_add_mul_ediv n d
  have h2 := Int.emod_nonneg n hd.ne'
  have h3 := Int.emod_lt_of_pos n hd
  unfold roundHalfEven
  simp only []
  generalize n / d = q at *
  have e : d * q = q * d := mul_comm _ _
  have e' : (q + 1) * d = q * d + d := by ring
  split
  · constructor <;> (rw [e] at h1; omega)
  · split
    · rw [e']; constructor <;> (rw [e] at h1; omega)
    · split
      · constructor <;> (rw [e] at h1; omega)
      · rw [e']; constructor <;> (rw [e] at h1; omega)

/-- **C232**: at 44100 samples per second the windows of `HalfLapped(window, hop)` have exactly `window` samples and start every `hop` samples; so do those of the
default scheme with `SR44100().half_lapped()`. -/
theorem C232_cd (w h size : Int) (hw : 0 < w) (hh : 0 < h) :
    ∃ r, halfLapped w h = .ok r ∧ r.discreteSamples (audioDim 44100 size) = (h, w) ∧
      (SampleRate.mk 22675736 22675736).halfLapped w h = .ok r := by
  refine ⟨_, halfLapped_eq w h hw hh, ?_, ?_⟩
  · have hr := Props.C08_half_lapped 22675736 w h size (by decide) hw hh
    obtain ⟨r, h1, h2⟩ := hr
    have : r = ⟨22675736 * h, 22675736 * w⟩ := by
      unfold SampleRate.halfLapped SampleRate.new at h1
      rw [if_neg (by simp only []; omega), if_neg (by simp only []; omega)] at h1
      injection h1 with h1
      exact h1.symm
    subst this
    exact h2.2.2
  · unfold SampleRate.halfLapped SampleRate.new
    rw [if_neg (by simp only []; omega), if_neg (by simp only []; omega)]

example := C232_cd 2048 1024 7 (by decide) (by decide)

/-- **C232, other rates**: at every supported rate of `n` samples per second, a hop of `h` samples at 44100 becomes the whole number of samples nearest to the
same time, `h * n / 44100`, up to one millionth of the hop; the same for the window. -/
theorem C232_other_rates (n w h size : Int) (hn : n ∈ rateTable.map (·.1)) (hw : 0 < w) (hh : 0 < h) :
    ∃ r s v, halfLapped w h = .ok r ∧ r.discreteSamples (audioDim n size) = (s, v) ∧
      1000000 * |44100 * s - h * n| ≤ 22050 * 1000000 + 44100 * s + h * n ∧
      1000000 * |44100 * v - w * n| ≤ 22050 * 1000000 + 44100 * v + w * n := by
  refine ⟨_, _, _, halfLapped_eq w h hw hh, rfl, ?_⟩
  have key : ∀ x : Int, 0 < x → 1000000 * |44100 * roundHalfEven (22675736 * x) (10 ^ 12 / n) - x * n| ≤
      22050 * 1000000 + 44100 * roundHalfEven (22675736 * x) (10 ^ 12 / n) + x * n := by
    intro x hx
    simp only [rateTable, List.map_cons, List.map_nil, List.mem_cons, List.not_mem_nil, or_false] at hn
    rcases hn with rfl | rfl | rfl | rfl | rfl | rfl
    all_goals
      first
        | (have b := roundHalfEven_bound (22675736 * x) (10 ^ 12 / 96000) (by decide)
           generalize roundHalfEven (22675736 * x) (10 ^ 12 / 96000) = s at *
           norm_num at b
           rcases abs_cases (44100 * s - x * 96000) with ⟨e, _⟩ | ⟨e, _⟩ <;> rw [e] <;> omega)
        | (have b := roundHalfEven_bound (22675736 * x) (10 ^ 12 / 48000) (by decide)
           generalize roundHalfEven (22675736 * x) (10 ^ 12 / 48000) = s at *
           norm_num at b
           rcases abs_cases (44100 * s - x * 48000) with ⟨e, _⟩ | ⟨e, _⟩ <;> rw [e] <;> omega)
        | (have b := roundHalfEven_bound (22675736 * x) (10 ^ 12 / 44100) (by decide)
           generalize roundHalfEven (22675736 * x) (10 ^ 12 / 44100) = s at *
           norm_num at b
           rcases abs_cases (44100 * s - x * 44100) with ⟨e, _⟩ | ⟨e, _⟩ <;> rw [e] <;> omega)
        | (have b := roundHalfEven_bound (22675736 * x) (10 ^ 12 / 22050) (by decide)
           generalize roundHalfEven (22675736 * x) (10 ^ 12 / 22050) = s at *
           norm_num at b
           rcases abs_cases (44100 * s - x * 22050) with ⟨e, _⟩ | ⟨e, _⟩ <;> rw [e] <;> omega)
        | (have b := roundHalfEven_bound (22675736 * x) (10 ^ 12 / 16000) (by decide)
           generalize roundHalfEven (22675736 * x) (10 ^ 12 / 16000) = s at *
           norm_num at b
           rcases abs_cases (44100 * s - x * 16000) with ⟨e, _⟩ | ⟨e, _⟩ <;> rw [e] <;> omega)
        | (have b := roundHalfEven_bound (22675736 * x) (10 ^ 12 / 11025) (by decide)
           generalize roundHalfEven (22675736 * x) (10 ^ 12 / 11025) = s at *
           norm_num at b
           rcases abs_cases (44100 * s - x * 11025) with ⟨e, _⟩ | ⟨e, _⟩ <;> rw [e] <;> omega)
  have e : ∀ x : Int, x - ((audioDim n size).duration - (audioDim n size).frequency) = x := by intro x; simp [audioDim]
  refine ⟨key h hh, ?_⟩
  simp only [e]
  exact key w hw

example := C232_other_rates 11025 2048 1024 7 (by decide) (by decide) (by decide)

/-- The default scheme at every supported rate: (rate, step, window). -/
def defaults : List (Int × Int × Int) :=
  [(96000, 2229, 4458), (48000, 1115, 2229), (44100, 1024, 2048), (22050, 512, 1024), (16000, 372, 743), (11025, 256, 512)]

/-- **C233, refuted**: `HalfLapped()` windows overlap by exactly half at every supported rate. At 48000 and at 16000 samples per second the window is one sample shorter than two hops,
at the other rates it is two hops. -/
theorem C233_half_refuted (size : Int) :
    ∃ r, halfLapped 2048 1024 = .ok r ∧ (∀ x ∈ defaults, r.discreteSamples (audioDim x.1 size) = x.2) ∧
      defaults.map (·.1) = rateTable.map (·.1) ∧
      (∀ x ∈ defaults, (x.2.2 = 2 * x.2.1 ↔ x.1 ≠ 48000 ∧ x.1 ≠ 16000) ∧ (x.1 = 48000 ∨ x.1 = 16000 → x.2.2 = 2 * x.2.1 - 1)) := by
  refine ⟨_, halfLapped_eq 2048 1024 (by decide) (by decide), ?_, by decide, by decide⟩
  intro x hx
  simp only [defaults, List.mem_cons, List.not_mem_nil, or_false] at hx
  rcases hx with rfl | rfl | rfl | rfl | rfl | rfl <;>
    simp only [SampleRate.discreteSamples, audioDim, sub_self, sub_zero] <;> decide +kernel

/-! ## The order of time slices -/

/-- **C06, the comparisons**: `<`, `<=`, `>`, `>=` compare the starts in time, whatever the units; `!=` is the negation of `==`; equal slices are `<=` and `>=`. -/
theorem C06_comparisons (a b : TimeSlice) :
    (a.lt b = true ↔ a.start.toPs < b.start.toPs) ∧ (gt a b = true ↔ b.start.toPs < a.start.toPs) ∧
    (le a b = true ↔ a.start.toPs ≤ b.start.toPs) ∧ (ge a b = true ↔ b.start.toPs ≤ a.start.toPs) ∧
    (ne a b = true ↔ ¬ a.eq b = true) ∧ (a.eq b = true → le a b = true ∧ ge a b = true) := by
  have hlt : ∀ x y : Dur, x.lt y = true ↔ x.toPs < y.toPs := fun x y => by rw [lt_iff]; simp
  have heq : ∀ x y : Dur, x.eq y = true ↔ x.toPs = y.toPs := fun x y => by rw [eq_iff]; simp
  have hle : le a b = true ↔ a.start.toPs ≤ b.start.toPs := by
    unfold le; rw [Bool.or_eq_true, hlt, heq]; omega
  have hge : ge a b = true ↔ b.start.toPs ≤ a.start.toPs := by
    unfold ge; rw [Bool.or_eq_true, hlt, heq]; omega
  refine ⟨hlt _ _, hlt _ _, hle, hge, by simp [ne], ?_⟩
  intro h
  unfold TimeSlice.eq at h
  rw [Bool.and_eq_true, heq] at h
  exact ⟨hle.2 (le_of_eq h.1), hge.2 (le_of_eq h.1.symm)⟩

/-- **C06, comparisons with an instant**. -/
theorem C06_compare_instant (a : TimeSlice) (t : Dur) :
    (ltTime a t = true ↔ a.start.toPs < t.toPs) ∧ (gtTime a t = true ↔ t.toPs < a.start.toPs) :=
  ⟨by unfold ltTime; rw [lt_iff]; simp, by unfold gtTime; rw [lt_iff]; simp⟩

/-- **C06**: being neither earlier nor later is not being equal. -/
theorem C06_order_not_equality : ∃ a b : TimeSlice, le a b = true ∧ ge a b = true ∧ a.eq b = false :=
  ⟨⟨⟨0, .ps⟩, some ⟨1, .s⟩⟩, ⟨⟨0, .s⟩, some ⟨2, .s⟩⟩, by decide, by decide, by decide⟩

/-! ## ComplexDomain -/

/-- The arrays that can exist: an AudioSamples instance has one or two axes. -/
def Exists (a : Arr) : Prop := a.cls = .audioSamples → a.shape.length ≤ 2

/-- **C234, refuted**: there is no input at all for which the complex domain node, and with it the mixin of `with_onsets`, gives a detection function: arrays with three axes
have no attribute `frequency`, and audio has too few axes. -/
theorem C234_onsets_refuted (a : Arr) (h : Exists a) :
    complexDomain a = .error .indexError ∨ complexDomain a = .error .attributeError := by
  unfold complexDomain
  split
  · rename_i n k rest e
    split
    · exact Or.inl rfl
    · split
      · exact Or.inl rfl
      · rename_i hr
        split
        · rename_i hc
          exfalso
          have := h hc
          rw [e] at this
          cases rest with
          | nil => exact hr rfl
          | cons => simp at this
        · exact Or.inr rfl
  · exact Or.inl rfl

/-- The input that `with_onsets` makes, windows of three frames, exists and fails on the missing attribute. -/
example : Exists ⟨.arrayWithUnits, [10, 3, 1025]⟩ ∧ complexDomain ⟨.arrayWithUnits, [10, 3, 1025]⟩ = .error .attributeError :=
  ⟨fun h => (nomatch h), rfl⟩

end Zounds.Rates
