import Verif.Model.Bins
import Verif.Props.Fft
import Verif.Props.Frequency
import Verif.Props.Audio

/-!
# C382: tones are found in the band that contains their frequency
-/

namespace Zounds.Bins
open Zounds Zounds.Time Zounds.Freq
open Finset

/-! ## Specification -/

/-- Sample `t` of a tone of `f` hertz, amplitude `A` and phase `φ`, at `s` samples per second. -/
noncomputable def tone (s f A φ : ℝ) (t : ℕ) : ℝ := A * Real.cos (2 * Real.pi * f * t / s + φ)

/-- The first `n` samples of it. -/
noncomputable def toneWindow (s f A φ : ℝ) (n : ℕ) : List ℝ := (List.range n).map (tone s f A φ)

/-! ## The transform of a tone -/

/-- The `n`-th roots of unity add up to zero. -/
theorem circle (n : ℕ) (hn : 0 < n) (m : ℤ) :
    ∑ t ∈ range n, Complex.exp (2 * Real.pi * Complex.I * t * m / n) = if (n : ℤ) ∣ m then (n : ℂ) else 0 := by
  have hn' : (n : ℂ) ≠ 0 := by exact_mod_cast hn.ne'
  obtain ⟨w, hw⟩ : ∃ w, w = Complex.exp (2 * Real.pi * Complex.I * m / n) := ⟨_, rfl⟩
  have e : ∀ t ∈ range n, Complex.exp (2 * Real.pi * Complex.I * t * m / n) = w ^ t := by
    intro t _
    rw [hw, ← Complex.exp_nat_mul]
    congr 1
    ring
  rw [sum_congr rfl e]
  have h1 : w = 1 ↔ (n : ℤ) ∣ m := by
    rw [hw, Complex.exp_eq_one_iff]
    have hI : (2 * Real.pi * Complex.I : ℂ) ≠ 0 := by simp [Real.pi_ne_zero]
    constructor
    · rintro ⟨q, hq⟩
      refine ⟨q, ?_⟩
      have : (m : ℂ) = n * q := by
        have h2 : (2 * Real.pi * Complex.I : ℂ) * m = (2 * Real.pi * Complex.I : ℂ) * (n * q) := by
          field_simp at hq ⊢
          linear_combination hq
        exact mul_left_cancel₀ hI h2
      exact_mod_cast this
    · rintro ⟨q, rfl⟩
      refine ⟨q, ?_⟩
      push_cast
      field_simp
  split
  · rename_i h
    rw [h1.2 h]
    simp
  · rename_i h
    have hne : w ≠ 1 := fun hc => h (h1.1 hc)
    have hp : w ^ n = 1 := by
      rw [hw, ← Complex.exp_nat_mul]
      have : (n : ℂ) * (2 * Real.pi * Complex.I * m / n) = m * (2 * Real.pi * Complex.I) := by field_simp
      rw [this, Complex.exp_int_mul_two_pi_mul_I]
    have := geom_sum_mul w n
    rw [hp, sub_self] at this
    exact (mul_eq_zero.1 this).resolve_right (sub_ne_zero.2 hne)

/-- What the transform makes of a tone that completes `k` periods in the window. -/
theorem tone_sum (n : ℕ) (hn : 0 < n) (A φ : ℝ) (k j : ℕ) :
    ∑ t ∈ range n, ((A * Real.cos (2 * Real.pi * k * t / n + φ) : ℝ) : ℂ) * Complex.exp (-2 * Real.pi * Complex.I * t * j / n) =
      A / 2 * (Complex.exp (φ * Complex.I) * (if (n : ℤ) ∣ ((k : ℤ) - j) then (n : ℂ) else 0) +
        Complex.exp (-φ * Complex.I) * (if (n : ℤ) ∣ (-(k : ℤ) - j) then (n : ℂ) else 0)) := by
  have hn' : (n : ℂ) ≠ 0 := by exact_mod_cast hn.ne'
  rw [← circle n hn, ← circle n hn, mul_sum, mul_sum, ← sum_add_distrib, mul_sum]
  apply sum_congr rfl
  intro t _
  push_cast
  rw [Complex.cos]
  have e1 : Complex.exp (φ * Complex.I) * Complex.exp (2 * Real.pi * Complex.I * t * ((k : ℂ) - j) / n) =
      Complex.exp ((2 * Real.pi * k * t / n + φ) * Complex.I) * Complex.exp (-2 * Real.pi * Complex.I * t * j / n) := by
    rw [← Complex.exp_add, ← Complex.exp_add]
    congr 1
    ring
  have e2 : Complex.exp (-φ * Complex.I) * Complex.exp (2 * Real.pi * Complex.I * t * (-(k : ℂ) - j) / n) =
      Complex.exp (-(2 * Real.pi * k * t / n + φ) * Complex.I) * Complex.exp (-2 * Real.pi * Complex.I * t * j / n) := by
    rw [← Complex.exp_add, ← Complex.exp_add]
    congr 1
    ring
  rw [e1, e2]
  ring

theorem window_eq (s A φ : ℝ) (hs : s ≠ 0) (n : ℕ) (hn : 0 < n) (k : ℕ) (t : ℕ) :
    tone s (k * s / n) A φ t = A * Real.cos (2 * Real.pi * k * t / n + φ) := by
  have hn' : (n : ℝ) ≠ 0 := by exact_mod_cast hn.ne'
  unfold tone
  congr 2
  field_simp

theorem getD_window (s f A φ : ℝ) (n t : ℕ) (ht : t < n) : (toneWindow s f A φ n).getD t 0 = tone s f A φ t := by
  simp [toneWindow, ht]

/-- The coefficients of a window of a tone that completes `k` periods in it. -/
theorem rfft_tone (s A φ : ℝ) (hs : s ≠ 0) (n k : ℕ) (hn : 0 < n) (hk : 2 * k ≤ n) :
    ∃ X, Spectral.zfft (toneWindow s (k * s / n) A φ n) 0 = .ok X ∧ X.length = n / 2 + 1 ∧
      (∀ j, j ≠ k → X.getD j 0 = 0) ∧
      (0 < k → 2 * k < n → X.getD k 0 = (A * Real.sqrt n / 2 : ℝ) * Complex.exp (φ * Complex.I)) ∧
      (k = 0 ∨ 2 * k = n → X.getD k 0 = (A * Real.sqrt n * Real.cos φ : ℝ)) := by
  have hn' : (n : ℂ) ≠ 0 := by exact_mod_cast hn.ne'
  have hnr : (0 : ℝ) < n := by exact_mod_cast hn
  have hsq : Real.sqrt n * Real.sqrt n = n := Real.mul_self_sqrt hnr.le
  have hsq0 : Real.sqrt n ≠ 0 := (Real.sqrt_pos.2 hnr).ne'
  have hlen : (toneWindow s (k * s / n) A φ n).length = n := by simp [toneWindow]
  have hne : toneWindow s (k * s / n) A φ n ≠ [] := by
    intro h
    rw [h] at hlen
    simp at hlen
    omega
  have hval : ∀ j : ℕ, j < n / 2 + 1 →
      ((List.range (n / 2 + 1)).map fun j : ℕ => ((1 / Real.sqrt n : ℝ) : ℂ) * ∑ t ∈ range n, ((toneWindow s (k * s / n) A φ n).getD t 0 : ℂ) *
        Complex.exp (-2 * Real.pi * Complex.I * t * j / n)).getD j 0 =
      ((1 / Real.sqrt n : ℝ) : ℂ) * (A / 2 * (Complex.exp (φ * Complex.I) * (if (n : ℤ) ∣ ((k : ℤ) - j) then (n : ℂ) else 0) +
        Complex.exp (-φ * Complex.I) * (if (n : ℤ) ∣ (-(k : ℤ) - j) then (n : ℂ) else 0))) := by
    intro j hj
    rw [Spectral.getD_map_range _ _ _ _ hj, ← tone_sum n hn]
    congr 1
    apply sum_congr rfl
    intro t ht
    rw [getD_window _ _ _ _ _ _ (mem_range.1 ht), window_eq s A φ hs n hn]
  have hscale : ∀ c : ℂ, ((1 / Real.sqrt n : ℝ) : ℂ) * (c * n) = c * (Real.sqrt n : ℝ) := by
    intro c
    have : ((n : ℕ) : ℂ) = ((Real.sqrt n : ℝ) : ℂ) * ((Real.sqrt n : ℝ) : ℂ) := by
      rw [← Complex.ofReal_mul, hsq]
      simp
    rw [this]
    have h0 : ((Real.sqrt n : ℝ) : ℂ) ≠ 0 := by exact_mod_cast hsq0
    push_cast
    field_simp
  unfold Spectral.zfft Spectral.rfft
  rw [List.replicate_zero, List.append_nil, if_neg hne, hlen]
  refine ⟨_, rfl, by simp, ?_, ?_, ?_⟩
  · intro j hj
    by_cases hlt : j < n / 2 + 1
    · rw [hval j hlt, if_neg, if_neg]
      · simp
      · rintro ⟨q, hq⟩
        have h1 : (k : ℤ) + j = n * (-q) := by linarith [hq, mul_neg (n : ℤ) q]
        have hq' : 0 < -q ∨ -q ≤ 0 := lt_or_ge 0 (-q) |>.imp id id
        rcases hq' with h2 | h2
        · have : (n : ℤ) ≤ n * (-q) := by nlinarith
          omega
        · have : (n : ℤ) * (-q) ≤ 0 := by nlinarith
          omega
      · rintro ⟨q, hq⟩
        rcases lt_trichotomy q 0 with h2 | h2 | h2
        · have : (n : ℤ) * q ≤ -n := by nlinarith
          omega
        · subst h2
          omega
        · have : (n : ℤ) ≤ n * q := by nlinarith
          omega
    · simp only [List.getD_eq_getElem?_getD]
      rw [List.getElem?_eq_none (by simp; omega)]
      rfl
  · intro h0 h1
    rw [hval k (by omega), if_pos (by simp), if_neg]
    · rw [mul_zero, add_zero, ← mul_assoc (A / 2 : ℂ), hscale]
      push_cast
      ring
    · rintro ⟨q, hq⟩
      rcases lt_trichotomy q (-1) with h2 | h2 | h2
      · have : (n : ℤ) * q ≤ -(2 * n) := by nlinarith
        omega
      · subst h2
        omega
      · have : 0 ≤ (n : ℤ) * q := by
          apply mul_nonneg <;> omega
        omega
  · intro h
    have hd : (n : ℤ) ∣ (-(k : ℤ) - k) := by
      rcases h with rfl | h
      · simp
      · exact ⟨-1, by omega⟩
    rw [hval k (by omega), if_pos (by simp), if_pos hd, ← add_mul, ← mul_assoc (A / 2 : ℂ), hscale]
    have hc : Complex.exp (φ * Complex.I) + Complex.exp (-φ * Complex.I) = 2 * Complex.cos φ := by
      rw [Complex.cos]
      ring
    rw [hc]
    push_cast
    ring

/-! ## Bands -/

theorem bands_eq (X : NumExt ℚ) (sr : SampleRate) (hs : 0 < sr.nyquist) (m : ℕ) (hm : 2 ≤ m) :
    (fromSampleRate sr m).bands X = .ok ((List.range m).map (part ⟨0, (sr.nyquist : ℚ)⟩ m)) := by
  show linearBands _ _ = _
  exact linearBands_eq _ _ (by show (0 : ℚ) < sr.nyquist; exact_mod_cast hs) hm

theorem part_start (q : ℚ) (m j : ℕ) : (part ⟨0, q⟩ m j).start = j * q / m := by simp [part]; ring
theorem part_stop (q : ℚ) (m j : ℕ) : (part ⟨0, q⟩ m j).stop = (j + 1) * q / m := by simp [part]; ring

/-- When a frequency lies in a band. -/
theorem mem_part (q : ℚ) (hq : 0 < q) (m n : ℕ) (hm : 0 < m) (hn : 0 < n) (c : ℚ) (j : ℕ) :
    Props.Frequency.Mem (c / n) (part ⟨0, q⟩ m j) ↔ j * q * n ≤ c * m ∧ c * m < (j + 1) * q * n := by
  have hm' : (0 : ℚ) < m := by exact_mod_cast hm
  have hn' : (0 : ℚ) < n := by exact_mod_cast hn
  unfold Props.Frequency.Mem
  rw [part_start, part_stop, div_le_div_iff₀ hm' hn', div_lt_div_iff₀ hn' hm']

/-- A frequency of the transform, at a rate that is an even number of samples per second. -/
theorem mem_part_even (q : ℕ) (hq : 0 < q) (n k j : ℕ) (hn : 0 < n) :
    Props.Frequency.Mem ((k : ℚ) * (2 * q : ℕ) / n) (part ⟨0, (q : ℚ)⟩ (n / 2 + 1) j) ↔
      j * n ≤ 2 * k * (n / 2 + 1) ∧ 2 * k * (n / 2 + 1) < (j + 1) * n := by
  rw [mem_part (q : ℚ) (by exact_mod_cast hq) (n / 2 + 1) n (by omega) hn]
  have e1 : ((j : ℚ) * q * n ≤ (k : ℚ) * (2 * q : ℕ) * ((n / 2 + 1 : ℕ) : ℚ)) ↔ j * q * n ≤ k * (2 * q) * (n / 2 + 1) := by
    exact_mod_cast Iff.rfl
  have e2 : ((k : ℚ) * (2 * q : ℕ) * ((n / 2 + 1 : ℕ) : ℚ) < ((j : ℚ) + 1) * q * n) ↔ k * (2 * q) * (n / 2 + 1) < (j + 1) * q * n := by
    exact_mod_cast Iff.rfl
  rw [e1, e2]
  have a1 : j * q * n = q * (j * n) := by ring
  have a2 : k * (2 * q) * (n / 2 + 1) = q * (2 * k * (n / 2 + 1)) := by ring
  have a3 : (j + 1) * q * n = q * ((j + 1) * n) := by ring
  rw [a1, a2, a3, Nat.mul_le_mul_left_iff hq, Nat.mul_lt_mul_left hq]

theorem two_half (n k : ℕ) : k * n ≤ 2 * k * (n / 2 + 1) ∧ 2 * k * (n / 2 + 1) ≤ k * n + 2 * k := by
  have h1 : n ≤ 2 * (n / 2 + 1) := by omega
  have h2 : 2 * (n / 2 + 1) ≤ n + 2 := by omega
  constructor
  · nlinarith
  · nlinarith

/-- Which band holds the `k`-th frequency. -/
theorem band_unique (n k j : ℕ) (hk : 2 * k < n) :
    (j * n ≤ 2 * k * (n / 2 + 1) ∧ 2 * k * (n / 2 + 1) < (j + 1) * n) ↔ j = k := by
  obtain ⟨h1, h2⟩ := two_half n k
  constructor
  · rintro ⟨h3, h4⟩
    have h5 : j * n < (k + 1) * n := by nlinarith
    have h6 : k * n < (j + 1) * n := by nlinarith
    have := lt_of_mul_lt_mul_right h5 (Nat.zero_le n)
    have := lt_of_mul_lt_mul_right h6 (Nat.zero_le n)
    omega
  · rintro rfl
    refine ⟨h1, ?_⟩
    nlinarith

theorem nyq_even (sr : SampleRate) (q : ℕ) (hs : sr.samplesPerSecond = 2 * q) : sr.nyquist = q := by
  unfold SampleRate.nyquist
  omega

/-! ## C382 -/

/-- **C382, the transform of a tone**: `FFT` of a window of `n` samples of a tone of `k · s / n` hertz (at most half the sampling rate `s`), of any amplitude
and phase, gives `n / 2 + 1` coefficients, all zero but number `k`, and the linear scale of `n / 2 + 1` bands from zero to the Nyquist frequency of the rate. -/
theorem C382_fft (r : SampleRate) (hr : r ∈ supportedRates) (A φ : ℝ) (n k : ℕ) (hn : 0 < n) (hk : 2 * k ≤ n) :
    ∃ X : List ℂ, fftNode r.frequency (toneWindow r.samplesPerSecond (k * r.samplesPerSecond / n) A φ n) 0 =
        .ok (X, .linear ⟨0, (r.nyquist : ℚ)⟩ (n / 2 + 1) false) ∧
      X.length = n / 2 + 1 ∧
      (∀ j, j ≠ k → X.getD j 0 = 0) ∧
      (0 < k → 2 * k < n → X.getD k 0 = (A * Real.sqrt n / 2 : ℝ) * Complex.exp (φ * Complex.I)) ∧
      (k = 0 ∨ 2 * k = n → X.getD k 0 = (A * Real.sqrt n * Real.cos φ : ℝ)) := by
  have hs : (r.samplesPerSecond : ℝ) ≠ 0 := by
    have : r.samplesPerSecond ≠ 0 := by
      revert r
      decide
    exact_mod_cast this
  obtain ⟨X, h1, h2, h3, h4, h5⟩ := rfft_tone r.samplesPerSecond A φ hs n k hn hk
  refine ⟨X, ?_, h2, h3, h4, h5⟩
  unfold fftNode
  rw [h1]
  have := Audio.findRate_supported hr
  unfold SampleRate.samplesPerSecond at this
  simp only [this, fromSampleRate, h2]

/-- **C382, the band of a tone**: at a rate of an even number of samples per second, the band that contains the tone's frequency is the band of its
coefficient, and no other; a tone of exactly half the rate is the upper end of the last band, and in no band. -/
theorem C382_band (X : NumExt ℚ) (r : SampleRate) (q : ℕ) (hs : r.samplesPerSecond = 2 * q) (hq : 0 < q) (n k : ℕ) (hn : 2 ≤ n) :
    ∃ bs : List (Band ℚ), (Scale.linear ⟨0, (r.nyquist : ℚ)⟩ (n / 2 + 1) false).bands X = .ok bs ∧ bs.length = n / 2 + 1 ∧
      ∀ (j : ℕ) (b : Band ℚ), bs[j]? = some b →
        (2 * k < n → ((b.start ≤ (k : ℚ) * r.samplesPerSecond / n ∧ (k : ℚ) * r.samplesPerSecond / n < b.stop) ↔ j = k)) ∧
        (2 * k = n → ¬ (b.start ≤ (k : ℚ) * r.samplesPerSecond / n ∧ (k : ℚ) * r.samplesPerSecond / n < b.stop) ∧
          (j = k → b.stop = (k : ℚ) * r.samplesPerSecond / n)) := by
  have hny := nyq_even r q hs
  refine ⟨_, bands_eq X r (by rw [hny]; exact_mod_cast hq) (n / 2 + 1) (by omega), by simp, ?_⟩
  intro j b hb
  rw [List.getElem?_map, Option.map_eq_some_iff] at hb
  obtain ⟨i, hi, rfl⟩ := hb
  rw [List.getElem?_eq_some_iff] at hi
  obtain ⟨hjm, hi⟩ := hi
  rw [List.getElem_range] at hi
  rw [List.length_range] at hjm
  subst hi
  have hc : ((r.samplesPerSecond : ℤ) : ℚ) = ((2 * q : ℕ) : ℚ) := by
    rw [hs]
    push_cast
    ring
  have hny' : ((r.nyquist : ℤ) : ℚ) = (q : ℚ) := by rw [hny]; simp
  rw [hc, hny']
  have := mem_part_even q hq n k j (by omega)
  unfold Props.Frequency.Mem at this
  refine ⟨fun hk => by rw [this, band_unique n k j hk], fun hk => ⟨?_, ?_⟩⟩
  · rw [this]
    rintro ⟨_, h⟩
    have h2 : n / 2 = k := by omega
    rw [h2, hk] at h
    have h3 : k + 1 < j + 1 := lt_of_mul_lt_mul_right (by linarith [mul_comm n (k + 1)]) (Nat.zero_le n)
    omega
  · rintro rfl
    rw [part_stop]
    have h2 : n / 2 = j := by omega
    have h3 : (n : ℚ) = 2 * j := by exact_mod_cast hk.symm
    have h4 : (j : ℚ) ≠ 0 := by
      have : j ≠ 0 := by omega
      exact_mod_cast this
    have h5 : (j : ℚ) + 1 ≠ 0 := by positivity
    rw [h2, h3]
    push_cast
    field_simp

/-- **C382, odd rates**: at a rate of an odd number `2 q + 1` of samples per second, where the Nyquist frequency is rounded down to `q`, the band of
coefficient `k` contains its frequency exactly if `k (n / 2 + 2 q + 1) < q n`. -/
theorem C382_odd_rate (X : NumExt ℚ) (r : SampleRate) (q : ℕ) (hs : r.samplesPerSecond = 2 * q + 1) (hq : 0 < q) (h k : ℕ) (hh : 0 < h) (hk : k ≤ h) :
    ∃ (bs : List (Band ℚ)) (b : Band ℚ), (Scale.linear ⟨0, (r.nyquist : ℚ)⟩ (2 * h / 2 + 1) false).bands X = .ok bs ∧ bs[k]? = some b ∧
      ((b.start ≤ (k : ℚ) * r.samplesPerSecond / (2 * h : ℕ) ∧ (k : ℚ) * r.samplesPerSecond / (2 * h : ℕ) < b.stop) ↔ k * (h + (2 * q + 1)) < q * (2 * h)) := by
  have hny : r.nyquist = q := by
    unfold SampleRate.nyquist
    omega
  refine ⟨_, part ⟨0, (r.nyquist : ℚ)⟩ (2 * h / 2 + 1) k, bands_eq X r (by rw [hny]; exact_mod_cast hq) (2 * h / 2 + 1) (by omega), ?_, ?_⟩
  · rw [List.getElem?_map, List.getElem?_range (by omega)]
    rfl
  · have hc : ((r.samplesPerSecond : ℤ) : ℚ) = ((2 * q + 1 : ℕ) : ℚ) := by
      rw [hs]
      push_cast
      ring
    have hny' : ((r.nyquist : ℤ) : ℚ) = (q : ℚ) := by rw [hny]; simp
    have h2 : 2 * h / 2 = h := by omega
    rw [hc, hny', h2]
    have := mem_part (q : ℚ) (by exact_mod_cast hq) (h + 1) (2 * h) (by omega) (by omega) ((k : ℚ) * ((2 * q + 1 : ℕ) : ℚ)) k
    unfold Props.Frequency.Mem at this
    rw [this]
    have e1 : ((k : ℚ) * q * ((2 * h : ℕ) : ℚ) ≤ (k : ℚ) * ((2 * q + 1 : ℕ) : ℚ) * ((h + 1 : ℕ) : ℚ)) ↔ k * q * (2 * h) ≤ k * (2 * q + 1) * (h + 1) := by
      exact_mod_cast Iff.rfl
    have e2 : ((k : ℚ) * ((2 * q + 1 : ℕ) : ℚ) * ((h + 1 : ℕ) : ℚ) < ((k : ℚ) + 1) * q * ((2 * h : ℕ) : ℚ)) ↔
        k * (2 * q + 1) * (h + 1) < (k + 1) * q * (2 * h) := by
      exact_mod_cast Iff.rfl
    rw [e1, e2]
    have a1 : k * (2 * q + 1) * (h + 1) = k * q * (2 * h) + k * (h + (2 * q + 1)) := by ring
    have a2 : (k + 1) * q * (2 * h) = k * q * (2 * h) + q * (2 * h) := by ring
    rw [a1, a2]
    omega

/-- **C382, the rates**: all supported rates but 11025 samples per second are even. -/
theorem C382_rates : ∀ r ∈ supportedRates, (r.samplesPerSecond = 11025 ∧ r.nyquist = 5512) ∨ (∃ q : ℕ, r.samplesPerSecond = 2 * q ∧ 0 < q) := by
  intro r hr
  have : (r.samplesPerSecond = 11025 ∧ r.nyquist = 5512) ∨ (r.samplesPerSecond % 2 = 0 ∧ 0 < r.samplesPerSecond) := by
    revert r
    decide
  rcases this with h | ⟨h1, h2⟩
  · exact .inl h
  · exact .inr ⟨(r.samplesPerSecond / 2).toNat, by omega, by omega⟩

/-- **C382, a tone outside its band**: at 11025 samples per second and windows of 512 samples the tones of coefficients 251 to 256 are outside their bands. -/
theorem C382_outside (X : NumExt ℚ) (k : ℕ) (hk : 251 ≤ k) (hk' : k ≤ 256) :
    ∃ (bs : List (Band ℚ)) (b : Band ℚ), (Scale.linear ⟨0, 5512⟩ 257 false).bands X = .ok bs ∧ bs[k]? = some b ∧ b.stop ≤ (k : ℚ) * 11025 / 512 := by
  refine ⟨_, part ⟨0, 5512⟩ 257 k, linearBands_eq (⟨0, 5512⟩ : Band ℚ) 257 (by norm_num) (by omega), ?_, ?_⟩
  · rw [List.getElem?_map, List.getElem?_range (by omega)]
    rfl
  · rw [part_stop, div_le_div_iff₀ (by norm_num) (by norm_num)]
    have : (251 : ℚ) ≤ k := by exact_mod_cast hk
    push_cast
    linarith

/-- **C382, cutting the spectrum**: slicing the coefficients of a tone (at an even rate) by a band that contains its frequency keeps its coefficient;
slicing them by a band that is more than a bandwidth away keeps only zeros. -/
theorem C382_cut (E : NumExt ℚ) (r : SampleRate) (q : ℕ) (hs : r.samplesPerSecond = 2 * q) (hq : 0 < q) (n k : ℕ) (hn : 2 ≤ n) (hk : 2 * k ≤ n)
    (X : List ℂ) (hX : X.length = n / 2 + 1) (h0 : ∀ j, j ≠ k → X.getD j 0 = 0) (b : Band ℚ) :
    ∃ out kept, (Scale.linear ⟨0, (r.nyquist : ℚ)⟩ (n / 2 + 1) false).getSlice E (.band b) = .ok out ∧ out.select X = .ok kept ∧
      (b.start ≤ (k : ℚ) * r.samplesPerSecond / n → (k : ℚ) * r.samplesPerSecond / n < b.stop → X.getD k 0 ∈ kept) ∧
      (b.stop ≤ (k : ℚ) * r.samplesPerSecond / n - (r.nyquist : ℚ) / (n / 2 + 1 : ℕ) ∨
        (k : ℚ) * r.samplesPerSecond / n + (r.nyquist : ℚ) / (n / 2 + 1 : ℕ) < b.start → ∀ c ∈ kept, c = 0) := by
  have hny := nyq_even r q hs
  have hb := bands_eq E r (by rw [hny]; exact_mod_cast hq) (n / 2 + 1) (by omega)
  have hwf : Props.Frequency.WF (⟨0, (r.nyquist : ℚ)⟩ : Band ℚ) := by
    unfold Props.Frequency.WF
    rw [hny]
    show (0 : ℚ) < ((q : ℤ) : ℚ)
    exact_mod_cast hq
  have ho := Props.Frequency.C21_linear_ordered (⟨0, (r.nyquist : ℚ)⟩ : Band ℚ) (n / 2 + 1) hwf
  obtain ⟨out, h1, h2⟩ := Props.Frequency.C20_selects_exactly E (fromSampleRate r (n / 2 + 1)) (by intro c hc; cases hc) rfl _ hb ho b
  have hc : ((r.samplesPerSecond : ℤ) : ℚ) = ((2 * q : ℕ) : ℚ) := by
    rw [hs]
    push_cast
    ring
  have hny' : ((r.nyquist : ℤ) : ℚ) = (q : ℚ) := by rw [hny]; simp
  have hlen : X.length = ((List.range (n / 2 + 1)).map (part (⟨0, (r.nyquist : ℚ)⟩ : Band ℚ) (n / 2 + 1))).length := by simp [hX]
  refine ⟨out, _, h1, h2 X hlen, ?_⟩
  obtain ⟨t1, t2⟩ := two_half n k
  have hn' : (0 : ℚ) < n := by exact_mod_cast (by omega : 0 < n)
  have hm' : (0 : ℚ) < ((n / 2 + 1 : ℕ) : ℚ) := by exact_mod_cast (by omega : 0 < n / 2 + 1)
  have hkm : k < n / 2 + 1 := by omega
  -- the frequency is between the ends of band `k`
  have s1 : (part (⟨0, (q : ℚ)⟩ : Band ℚ) (n / 2 + 1) k).start ≤ (k : ℚ) * ((2 * q : ℕ) : ℚ) / n := by
    rw [part_start, div_le_div_iff₀ hm' hn']
    have : k * q * n ≤ k * (2 * q) * (n / 2 + 1) := by nlinarith
    exact_mod_cast this
  have s2 : (k : ℚ) * ((2 * q : ℕ) : ℚ) / n ≤ (part (⟨0, (q : ℚ)⟩ : Band ℚ) (n / 2 + 1) k).stop := by
    rw [part_stop, div_le_div_iff₀ hn' hm']
    have : k * (2 * q) * (n / 2 + 1) ≤ (k + 1) * q * n := by nlinarith
    exact_mod_cast this
  have s3 : (part (⟨0, (q : ℚ)⟩ : Band ℚ) (n / 2 + 1) k).stop = (part (⟨0, (q : ℚ)⟩ : Band ℚ) (n / 2 + 1) k).start + (q : ℚ) / ((n / 2 + 1 : ℕ) : ℚ) := by
    rw [part_start, part_stop]
    ring
  rw [hc, hny']
  set bs := (List.range (n / 2 + 1)).map (part (⟨0, (q : ℚ)⟩ : Band ℚ) (n / 2 + 1)) with hbs
  have hbsl : bs.length = n / 2 + 1 := by simp [hbs]
  constructor
  · intro h3 h4
    unfold Props.Frequency.rowsTouching
    rw [List.mem_map]
    refine ⟨(part (⟨0, (q : ℚ)⟩ : Band ℚ) (n / 2 + 1) k, X.getD k 0), ?_, rfl⟩
    rw [List.mem_filter]
    refine ⟨?_, ?_⟩
    · rw [List.mem_iff_getElem]
      refine ⟨k, by simp [hX, hbsl]; omega, ?_⟩
      rw [List.getElem_zip]
      congr 1
      · simp [hbs]
      · rw [List.getD_eq_getElem?_getD, List.getElem?_eq_getElem (by omega)]
        rfl
    · unfold Props.Frequency.touches
      simp only [Bool.and_eq_true, decide_eq_true_eq]
      exact ⟨by linarith, by linarith⟩
  · intro h3 c hc'
    unfold Props.Frequency.rowsTouching at hc'
    rw [List.mem_map] at hc'
    obtain ⟨⟨d, c'⟩, h4, rfl⟩ := hc'
    rw [List.mem_filter, List.mem_iff_getElem] at h4
    obtain ⟨⟨i, hi, h5⟩, h6⟩ := h4
    rw [List.getElem_zip] at h5
    simp only [List.length_zip, hX, hbsl, lt_min_iff] at hi
    have h7 := congrArg Prod.fst h5
    have h8 := congrArg Prod.snd h5
    simp only at h7 h8
    show c' = 0
    by_cases hik : i = k
    · subst hik
      exfalso
      have h9 : d = part (⟨0, (q : ℚ)⟩ : Band ℚ) (n / 2 + 1) i := by
        rw [← h7]
        simp [hbs]
      unfold Props.Frequency.touches at h6
      simp only [Bool.and_eq_true, decide_eq_true_eq, h9] at h6
      obtain ⟨h10, h11⟩ := h6
      rcases h3 with h3 | h3 <;> linarith
    · have := h0 i hik
      rw [List.getD_eq_getElem?_getD, List.getElem?_eq_getElem (by omega)] at this
      rw [← h8]
      exact this

/-- **C382, the cosine transform**: `DCT` of a window of `n` samples of a cosine of `k · s / (2 n)` hertz that starts half a sample after its peak gives
`n` coefficients, all zero but number `k`, and the scale of `n` bands; at even rates the cosine's frequency is where band `k` starts. -/
theorem C382_dct (r : SampleRate) (hr : r ∈ supportedRates) (A : ℝ) (n k : ℕ) (hk : k < n) :
    ∃ X : List ℝ, dctNode r.frequency (toneWindow r.samplesPerSecond (k * r.samplesPerSecond / (2 * n)) A (Real.pi * k / (2 * n)) n) =
        .ok (X, .linear ⟨0, (r.nyquist : ℚ)⟩ n false) ∧
      X.length = n ∧ (∀ j, j ≠ k → X.getD j 0 = 0) ∧
      X.getD k 0 = if k = 0 then A * Real.sqrt n else A * Real.sqrt (n / 2) := by
  have hs : (r.samplesPerSecond : ℝ) ≠ 0 := by
    have : r.samplesPerSecond ≠ 0 := by
      revert r
      decide
    exact_mod_cast this
  have hn : (0 : ℝ) < n := by exact_mod_cast (by omega : 0 < n)
  obtain ⟨v, hv⟩ : ∃ v, v = if k = 0 then A * Real.sqrt n else A * Real.sqrt (n / 2) := ⟨_, rfl⟩
  obtain ⟨X, hX⟩ : ∃ X : List ℝ, X = (List.range n).map fun j => if j = k then v else 0 := ⟨_, rfl⟩
  have hXl : X.length = n := by simp [hX]
  have hXne : X ≠ [] := by
    intro h
    rw [h] at hXl
    simp at hXl
    omega
  have hXk : X.getD k 0 = v := by
    rw [hX, Spectral.getD_map_range _ _ _ _ hk, if_pos rfl]
  have hX0 : ∀ j, j ≠ k → X.getD j 0 = 0 := by
    intro j hj
    by_cases h : j < n
    · rw [hX, Spectral.getD_map_range _ _ _ _ h, if_neg hj]
    · rw [List.getD_eq_getElem?_getD, List.getElem?_eq_none (by omega)]
      rfl
  obtain ⟨x, h1, h2, h3⟩ := Spectral.C54_idct_inverse X hXne
  have hx : x = toneWindow r.samplesPerSecond (k * r.samplesPerSecond / (2 * n)) A (Real.pi * k / (2 * n)) n := by
    unfold Spectral.scipyIdct at h1
    rw [if_neg hXne] at h1
    cases h1
    rw [hXl]
    unfold toneWindow
    apply List.map_congr_left
    intro t _
    rw [sum_eq_single k]
    · rw [hXk, hv]
      unfold tone
      have e : Real.pi * (k : ℝ) * (2 * t + 1) / (2 * n) =
          2 * Real.pi * (k * (r.samplesPerSecond : ℝ) / (2 * n)) * t / (r.samplesPerSecond : ℝ) + Real.pi * k / (2 * n) := by
        field_simp
      rw [← e]
      split
      · have : Real.sqrt (1 / n) * (A * Real.sqrt n) = A := by
          rw [mul_left_comm, ← Real.sqrt_mul (by positivity), one_div, inv_mul_cancel₀ hn.ne', Real.sqrt_one, mul_one]
        rw [this]
      · have : Real.sqrt (2 / n) * (A * Real.sqrt (n / 2)) = A := by
          rw [mul_left_comm, ← Real.sqrt_mul (by positivity)]
          have : (2 / n * (n / 2) : ℝ) = 1 := by field_simp
          rw [this, Real.sqrt_one, mul_one]
        rw [this]
    · intro j _ hj
      rw [hX0 j hj]
      ring
    · intro h
      exact absurd (mem_range.2 hk) h
  refine ⟨X, ?_, hXl, hX0, by rw [hXk, hv]⟩
  unfold dctNode
  rw [← hx, h3]
  have := Audio.findRate_supported hr
  unfold SampleRate.samplesPerSecond at this
  simp only [this, fromSampleRate, hXl]

/-- **C382, the band of a cosine**: at even rates band `k` of the scale of the cosine transform starts at the frequency of coefficient `k`, and no other band contains it. -/
theorem C382_dct_band (X : NumExt ℚ) (r : SampleRate) (q : ℕ) (hs : r.samplesPerSecond = 2 * q) (hq : 0 < q) (n k : ℕ) (hn : 2 ≤ n) (hk : k < n) :
    ∃ bs : List (Band ℚ), (Scale.linear ⟨0, (r.nyquist : ℚ)⟩ n false).bands X = .ok bs ∧ bs.length = n ∧
      ∀ (j : ℕ) (b : Band ℚ), bs[j]? = some b →
        ((b.start ≤ (k : ℚ) * r.samplesPerSecond / (2 * n) ∧ (k : ℚ) * r.samplesPerSecond / (2 * n) < b.stop) ↔ j = k) ∧
        (j = k → b.start = (k : ℚ) * r.samplesPerSecond / (2 * n)) := by
  have hny := nyq_even r q hs
  refine ⟨_, bands_eq X r (by rw [hny]; exact_mod_cast hq) n (by omega), by simp, ?_⟩
  intro j b hb
  rw [List.getElem?_map, Option.map_eq_some_iff] at hb
  obtain ⟨i, hi, rfl⟩ := hb
  rw [List.getElem?_eq_some_iff] at hi
  obtain ⟨hjm, hi⟩ := hi
  rw [List.getElem_range] at hi
  rw [List.length_range] at hjm
  subst hi
  have hn' : (0 : ℚ) < n := by exact_mod_cast (by omega : 0 < n)
  have hq' : (0 : ℚ) < q := by exact_mod_cast hq
  have hc : (k : ℚ) * ((r.samplesPerSecond : ℤ) : ℚ) / (2 * n) = k * q / n := by
    rw [hs]
    push_cast
    field_simp
  have hny' : ((r.nyquist : ℤ) : ℚ) = (q : ℚ) := by rw [hny]; simp
  rw [hc, hny', part_start, part_stop]
  constructor
  · rw [div_le_div_iff_of_pos_right hn', div_lt_div_iff_of_pos_right hn', mul_le_mul_iff_left₀ hq', mul_lt_mul_iff_left₀ hq']
    constructor
    · rintro ⟨h1, h2⟩
      have h1' : j ≤ k := by exact_mod_cast h1
      have h2' : k < j + 1 := by exact_mod_cast h2
      omega
    · rintro rfl
      exact ⟨le_refl _, by linarith⟩
  · rintro rfl
    rfl

/-! ## Examples -/

/-- 440 Hz cannot be one of the frequencies, 689.0625 Hz is number 16 of a window of 1024 samples at 44100 samples per second. -/
example : (⟨22675736, 22675736⟩ : SampleRate) ∈ supportedRates ∧ (⟨22675736, 22675736⟩ : SampleRate).samplesPerSecond = 2 * (22050 : ℕ) ∧
    2 * 16 ≤ 1024 := by decide

example : (⟨90702947, 90702947⟩ : SampleRate) ∈ supportedRates ∧ (⟨90702947, 90702947⟩ : SampleRate).samplesPerSecond = 2 * (5512 : ℕ) + 1 ∧
    251 * (256 + (2 * 5512 + 1)) ≥ 5512 * (2 * 256) ∧ 250 * (256 + (2 * 5512 + 1)) < 5512 * (2 * 256) := by decide +kernel

end Zounds.Bins
