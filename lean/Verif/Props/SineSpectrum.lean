import Verif.Model.SineSpectrum
import Verif.Props.ToneFilter
import Verif.Props.Tones

/-!
# C384: what is synthesized is found in the spectrum
-/

namespace Zounds.SineSpectrum
open Zounds Zounds.Freq Zounds.Time
open _root_.Zounds.Bins (tone toneWindow)
open _root_.Zounds.ToneFilter (Tone coef sound coef_sum coef_tone zfft_eq)

theorem coef_self (s : ℤ) (hs : s ≠ 0) (w : ℕ) (hw : 0 < w) (c : Tone) (h0 : 0 < c.number) (hc : 2 * c.number < w) :
    coef w (tone s (c.hertz s w : ℚ) c.amplitude c.phase) c.number =
      (c.amplitude * Real.sqrt w / 2 : ℝ) * Complex.exp (c.phase * Complex.I) := by
  obtain ⟨X, h1, _, _, h4, _⟩ := Bins.rfft_tone s c.amplitude c.phase (by exact_mod_cast hs) w c.number hw hc.le
  unfold toneWindow at h1
  rw [zfft_eq w hw] at h1
  cases h1
  have := h4 h0 hc
  rw [Spectral.getD_map_range _ _ _ _ (by omega)] at this
  rw [← this]
  congr 2
  unfold Tone.hertz
  push_cast
  rfl

/-- The coefficient of a sum of tones whose phase depends on their number only. -/
theorem coef_count (s : ℤ) (hs : s ≠ 0) (w : ℕ) (hw : 0 < w) (A : ℝ) (ph : ℕ → ℝ) (ks : List ℕ) (hk : ∀ k ∈ ks, 0 < k ∧ 2 * k < w) (j : ℕ)
    (hj : j < w / 2 + 1) :
    ((ks.map fun k => (⟨k, A, ph k⟩ : Tone)).map fun c => coef w (tone s (c.hertz s w : ℚ) c.amplitude c.phase) j).sum =
      (ks.count j : ℂ) * ((A * Real.sqrt w / 2 : ℝ) * Complex.exp (ph j * Complex.I)) := by
  induction ks with
  | nil => simp
  | cons k ks ih =>
    have ih := ih fun k hk' => hk k (List.mem_cons_of_mem _ hk')
    obtain ⟨h0, h1⟩ := hk k List.mem_cons_self
    rw [List.map_cons, List.map_cons, List.sum_cons, ih]
    by_cases hjk : k = j
    · subst hjk
      have := coef_self s hs w hw ⟨k, A, ph k⟩ h0 h1
      simp only at this
      rw [this, List.count_cons_self]
      push_cast
      ring
    · have := coef_tone s hs w hw ⟨k, A, ph k⟩ h1.le j hj (fun h => hjk h.symm)
      rw [this, List.count_cons_of_ne hjk, zero_add]

/-- A window of a synthesized sound is a sum of tones. -/
theorem window_sound (s : ℤ) (hs : s ≠ 0) (w : ℕ) (hw : 0 < w) (xs : List ℝ) (ks : List ℕ) (o : ℕ) (ho : o + w ≤ xs.length)
    (hx : ∀ i, i < xs.length → xs.getD i 0 = ((ks.map fun k : ℕ => (k : ℝ) * s / w).map fun f => Real.sin (2 * Real.pi * f * (i : ℝ) / (s : ℝ))).sum /
      ((ks.map fun k : ℕ => (k : ℝ) * s / w).length : ℝ)) :
    (xs.drop o).take w = sound s w (ks.map fun k => ⟨k, 1 / ks.length, 2 * Real.pi * k * o / w - Real.pi / 2⟩) := by
  apply List.ext_getElem
  · simp [sound]
    omega
  intro t h1 h2
  have ht : t < w := by simp [sound] at h2; exact h2
  rw [List.getElem_take, List.getElem_drop]
  have hg := hx (o + t) (by omega)
  rw [List.getD_eq_getElem?_getD, List.getElem?_eq_getElem (by omega), Option.getD_some] at hg
  rw [hg]
  have hs' : (s : ℝ) ≠ 0 := by exact_mod_cast hs
  have hw' : (w : ℝ) ≠ 0 := by exact_mod_cast hw.ne'
  simp only [sound, List.getElem_map, List.getElem_range, List.map_map, List.length_map]
  obtain ⟨K, hK⟩ : ∃ K : ℝ, K = ks.length := ⟨_, rfl⟩
  rw [← hK]
  clear hx hg hK ho h1 h2
  induction ks with
  | nil => simp
  | cons k ks ih =>
    simp only [List.map_cons, List.sum_cons, add_div, ih]
    congr 1
    simp only [Function.comp]
    unfold tone Tone.hertz
    rw [← Real.cos_sub_pi_div_two]
    have : 2 * Real.pi * ((k : ℝ) * s / w) * ((o + t : ℕ) : ℝ) / s - Real.pi / 2 =
        2 * Real.pi * (((k : ℚ) * s / w : ℚ) : ℝ) * t / s + (2 * Real.pi * k * o / w - Real.pi / 2) := by
      push_cast
      field_simp
      ring
    rw [this]
    ring

/-! ## C384 -/

/-- **C384, the spectrum of synthesized sines**: the sine synthesizer's mix of `k · s / w` hertz for the `k` of a list (each above zero and below half
of `w`), cut anywhere to a window of `w` samples and analysed, has coefficient `j` in proportion to how often `j` is in the list: the magnitude does not depend on
where the window starts, the phase turns with it. -/
theorem C384_spectrum (r : SampleRate) (hr : r ∈ supportedRates) (d : Int) (w : ℕ) (ks : List ℕ) (hne : ks ≠ []) (hk : ∀ k ∈ ks, 0 < k ∧ 2 * k < w)
    (o : ℕ) (ho : o + w ≤ Tones.sineCount r.samplesPerSecond d) :
    ∃ xs X, Tones.sine ⟨r, true⟩ d (ks.map fun k : ℕ => (k : ℝ) * r.samplesPerSecond / w) = .ok ⟨r, .vec xs⟩ ∧
      windowSpectrum xs r o w = .ok (X, .linear ⟨0, (r.nyquist : ℚ)⟩ (w / 2 + 1) false) ∧ X.length = w / 2 + 1 ∧
      ∀ j, j ≤ w / 2 → X.getD j 0 = ((ks.count j : ℝ) / ks.length * (Real.sqrt w / 2) : ℝ) *
        Complex.exp ((2 * Real.pi * j * o / w - Real.pi / 2 : ℝ) * Complex.I) := by
  have hs : r.samplesPerSecond ≠ 0 := by
    clear ho
    revert r
    decide
  have hs' : (r.samplesPerSecond : ℝ) ≠ 0 := by exact_mod_cast hs
  obtain ⟨k0, hk0⟩ := List.exists_mem_of_ne_nil ks hne
  have hw : 0 < w := by
    have := hk k0 hk0
    omega
  have hw' : (w : ℝ) ≠ 0 := by exact_mod_cast hw.ne'
  obtain ⟨xs, h1, h2, h3⟩ := Tones.C61_sine_samples r d (ks.map fun k : ℕ => (k : ℝ) * r.samplesPerSecond / w) (by simpa using hne) (by
    intro h
    obtain ⟨k, hkm, hk1⟩ := List.mem_map.1 h
    have hkp : (k : ℝ) ≠ 0 := by exact_mod_cast (hk k hkm).1.ne'
    exact (div_ne_zero (mul_ne_zero hkp hs') hw') hk1)
  have hwin := window_sound r.samplesPerSecond hs w hw xs ks o (by omega) h3
  refine ⟨xs, (List.range (w / 2 + 1)).map (coef w fun t => ((ks.map fun k : ℕ => (⟨k, 1 / ks.length, 2 * Real.pi * k * o / w - Real.pi / 2⟩ : Tone)).map
    fun c => tone r.samplesPerSecond (c.hertz r.samplesPerSecond w : ℚ) c.amplitude c.phase t).sum), h1, ?_, by simp, ?_⟩
  · unfold windowSpectrum Bins.fftNode
    rw [hwin]
    unfold sound
    rw [zfft_eq w hw]
    have := Audio.findRate_supported hr
    unfold SampleRate.samplesPerSecond at this
    simp only [this, Bins.fromSampleRate, List.length_map, List.length_range]
  · intro j hj
    rw [Spectral.getD_map_range _ _ _ _ (by omega)]
    rw [coef_sum _ _ _ fun c t => tone r.samplesPerSecond (c.hertz r.samplesPerSecond w : ℚ) c.amplitude c.phase t]
    rw [coef_count r.samplesPerSecond hs w hw (1 / ks.length) (fun k => 2 * Real.pi * k * o / w - Real.pi / 2) ks hk j (by omega)]
    push_cast
    ring

/-- **C384, found where it is labelled**: at a rate of an even number of samples per second, a coefficient of that spectrum is not zero exactly if its
band contains one of the synthesized frequencies. -/
theorem C384_found (E : NumExt ℚ) (r : SampleRate) (hr : r ∈ supportedRates) (q : ℕ) (hq : r.samplesPerSecond = 2 * q) (hq0 : 0 < q) (d : Int) (w : ℕ)
    (ks : List ℕ) (hne : ks ≠ []) (hk : ∀ k ∈ ks, 0 < k ∧ 2 * k < w) (o : ℕ) (ho : o + w ≤ Tones.sineCount r.samplesPerSecond d) :
    ∃ xs X scale bs, Tones.sine ⟨r, true⟩ d (ks.map fun k : ℕ => (k : ℝ) * r.samplesPerSecond / w) = .ok ⟨r, .vec xs⟩ ∧
      windowSpectrum xs r o w = .ok (X, scale) ∧ scale.bands E = .ok bs ∧ bs.length = X.length ∧
      ∀ (j : ℕ) (b : Band ℚ), bs[j]? = some b → (X.getD j 0 ≠ 0 ↔
        ∃ k ∈ ks, b.start ≤ (k : ℚ) * r.samplesPerSecond / w ∧ (k : ℚ) * r.samplesPerSecond / w < b.stop) := by
  obtain ⟨xs, X, h1, h2, h3, h4⟩ := C384_spectrum r hr d w ks hne hk o ho
  obtain ⟨k0, hk0⟩ := List.exists_mem_of_ne_nil ks hne
  have hw : 3 ≤ w := by
    have := hk k0 hk0
    omega
  obtain ⟨bs, hb, hbl, _⟩ := Bins.C382_band E r q hq hq0 w 0 (by omega)
  refine ⟨xs, X, _, bs, h1, h2, hb, by rw [hbl, h3], ?_⟩
  intro j b hjb
  have hjl : j < w / 2 + 1 := by
    rw [← hbl]
    exact (List.getElem?_eq_some_iff.1 hjb).1
  have hband : ∀ k ∈ ks, (b.start ≤ (k : ℚ) * r.samplesPerSecond / w ∧ (k : ℚ) * r.samplesPerSecond / w < b.stop) ↔ j = k := by
    intro k hkm
    obtain ⟨bs', hb', _, h5⟩ := Bins.C382_band E r q hq hq0 w k (by omega)
    rw [hb] at hb'
    cases hb'
    exact (h5 j b hjb).1 (hk k hkm).2
  have hR : (∃ k ∈ ks, b.start ≤ (k : ℚ) * r.samplesPerSecond / w ∧ (k : ℚ) * r.samplesPerSecond / w < b.stop) ↔ j ∈ ks := by
    constructor
    · rintro ⟨k, hkm, hh⟩
      rw [(hband k hkm).1 hh]
      exact hkm
    · intro hj
      exact ⟨j, hj, (hband j hj).2 rfl⟩
  rw [hR, h4 j (by omega)]
  have hlen : (0 : ℝ) < ks.length := by exact_mod_cast List.length_pos_of_ne_nil hne
  have hsq : 0 < Real.sqrt w := Real.sqrt_pos.2 (by exact_mod_cast (by omega : 0 < w))
  rw [mul_ne_zero_iff, and_iff_left (Complex.exp_ne_zero _)]
  rw [Complex.ofReal_ne_zero]
  constructor
  · intro h
    by_contra hc
    rw [List.count_eq_zero_of_not_mem hc] at h
    simp at h
  · intro h
    have : (0 : ℝ) < ks.count j := by exact_mod_cast List.count_pos_iff.2 h
    positivity

/-- **C384, loudness**: coefficient `k` of a single sine of `k · s / w` hertz has magnitude `√w / 2`, and all others are zero. -/
theorem C384_single (r : SampleRate) (hr : r ∈ supportedRates) (d : Int) (w k : ℕ) (h0 : 0 < k) (hk : 2 * k < w)
    (o : ℕ) (ho : o + w ≤ Tones.sineCount r.samplesPerSecond d) :
    ∃ xs X scale, Tones.sine ⟨r, true⟩ d [(k : ℝ) * r.samplesPerSecond / w] = .ok ⟨r, .vec xs⟩ ∧ windowSpectrum xs r o w = .ok (X, scale) ∧
      ‖X.getD k 0‖ = Real.sqrt w / 2 ∧ ∀ j, j ≤ w / 2 → j ≠ k → X.getD j 0 = 0 := by
  obtain ⟨xs, X, h1, h2, h3, h4⟩ := C384_spectrum r hr d w [k] (by simp) (by
    intro k' hk'
    rw [List.mem_singleton] at hk'
    subst hk'
    exact ⟨h0, hk⟩) o ho
  refine ⟨xs, X, _, h1, h2, ?_, ?_⟩
  · rw [h4 k (by omega), norm_mul, Complex.norm_exp_ofReal_mul_I, Complex.norm_real]
    simp [abs_of_nonneg, Real.sqrt_nonneg]
  · intro j hj hne
    rw [h4 j hj]
    have : ([k] : List ℕ).count j = 0 := List.count_eq_zero_of_not_mem (by simpa using hne)
    rw [this]
    simp

/-- **C384, half the rate**: a sine of exactly half the sampling rate is silence. -/
theorem C384_half_rate (r : SampleRate) (hr : r ∈ supportedRates) (d : Int) :
    ∃ xs, Tones.sine ⟨r, true⟩ d [(r.samplesPerSecond : ℝ) / 2] = .ok ⟨r, .vec xs⟩ ∧ xs.length = Tones.sineCount r.samplesPerSecond d ∧
      ∀ i, i < xs.length → xs.getD i 0 = 0 := by
  have hs : r.samplesPerSecond ≠ 0 := by
    revert r
    decide
  have hs' : (r.samplesPerSecond : ℝ) ≠ 0 := by exact_mod_cast hs
  obtain ⟨xs, h1, h2, h3⟩ := Tones.C61_sine_samples r d [(r.samplesPerSecond : ℝ) / 2] (by simp) (by
    intro h
    rw [List.mem_singleton] at h
    exact div_ne_zero hs' two_ne_zero h.symm)
  refine ⟨xs, h1, h2, ?_⟩
  intro i hi
  rw [h3 i hi]
  simp only [List.map_cons, List.map_nil, List.sum_cons, List.sum_nil, add_zero]
  have : 2 * Real.pi * ((r.samplesPerSecond : ℝ) / 2) * (i : ℝ) / (r.samplesPerSecond : ℝ) = i * Real.pi := by field_simp
  rw [this, Real.sin_nat_mul_pi, zero_div]

/-- **C384, above half the rate**: a sine of `k · s / w` hertz, between half the sampling rate `s` and all of it, is found as if it were one of `s - k · s / w` hertz: the
coefficient of that frequency has magnitude `√w / 2` and all others are zero. -/
theorem C384_alias (r : SampleRate) (hr : r ∈ supportedRates) (d : Int) (w k : ℕ) (h0 : w < 2 * k) (hk : k < w)
    (o : ℕ) (ho : o + w ≤ Tones.sineCount r.samplesPerSecond d) :
    ∃ xs X, Tones.sine ⟨r, true⟩ d [(k : ℝ) * r.samplesPerSecond / w] = .ok ⟨r, .vec xs⟩ ∧
      windowSpectrum xs r o w = .ok (X, .linear ⟨0, (r.nyquist : ℚ)⟩ (w / 2 + 1) false) ∧
      ‖X.getD (w - k) 0‖ = Real.sqrt w / 2 ∧ ∀ j, j ≤ w / 2 → j ≠ w - k → X.getD j 0 = 0 := by
  have hs : r.samplesPerSecond ≠ 0 := by
    clear ho
    revert r
    decide
  have hs' : (r.samplesPerSecond : ℝ) ≠ 0 := by exact_mod_cast hs
  have hw : 0 < w := by omega
  have hw' : (w : ℝ) ≠ 0 := by exact_mod_cast hw.ne'
  have hkp : (k : ℝ) ≠ 0 := by exact_mod_cast (by omega : k ≠ 0)
  obtain ⟨xs, h1, h2, h3⟩ := Tones.C61_sine_samples r d [(k : ℝ) * r.samplesPerSecond / w] (by simp) (by
    intro h
    rw [List.mem_singleton] at h
    exact div_ne_zero (mul_ne_zero hkp hs') hw' h.symm)
  obtain ⟨c, hc⟩ : ∃ c : Tone, c = ⟨w - k, 1, 2 * Real.pi * ((w - k : ℕ) : ℝ) * o / w + Real.pi / 2⟩ := ⟨_, rfl⟩
  have hcn : c.number = w - k := by rw [hc]
  have hca : c.amplitude = 1 := by rw [hc]
  have hwin : (xs.drop o).take w = (List.range w).map (tone r.samplesPerSecond (c.hertz r.samplesPerSecond w : ℚ) c.amplitude c.phase) := by
    apply List.ext_getElem
    · simp
      omega
    intro t h4 h5
    have ht : t < w := by simp at h5; exact h5
    rw [List.getElem_take, List.getElem_drop]
    have hg := h3 (o + t) (by omega)
    rw [List.getD_eq_getElem?_getD, List.getElem?_eq_getElem (by omega), Option.getD_some] at hg
    rw [hg]
    simp only [List.map_cons, List.map_nil, List.sum_cons, List.sum_nil, add_zero, List.length_singleton, Nat.cast_one, div_one, List.getElem_map,
      List.getElem_range]
    unfold tone
    rw [hca, one_mul]
    unfold Tone.hertz
    rw [hcn, hc]
    have e1 : 2 * Real.pi * ((((w - k : ℕ) : ℚ) * r.samplesPerSecond / w : ℚ) : ℝ) * t / r.samplesPerSecond +
        (2 * Real.pi * ((w - k : ℕ) : ℝ) * o / w + Real.pi / 2) =
        2 * Real.pi * ((w - k : ℕ) : ℝ) * ((o + t : ℕ) : ℝ) / w + Real.pi / 2 := by
      push_cast
      field_simp
      ring
    rw [e1, Real.cos_add_pi_div_two]
    have e2 : 2 * Real.pi * ((k : ℝ) * r.samplesPerSecond / w) * ((o + t : ℕ) : ℝ) / r.samplesPerSecond =
        ((o + t : ℕ) : ℝ) * (2 * Real.pi) - 2 * Real.pi * ((w - k : ℕ) : ℝ) * ((o + t : ℕ) : ℝ) / w := by
      rw [Nat.cast_sub hk.le]
      field_simp
      ring
    rw [e2, Real.sin_nat_mul_two_pi_sub]
  refine ⟨xs, (List.range (w / 2 + 1)).map (coef w (tone r.samplesPerSecond (c.hertz r.samplesPerSecond w : ℚ) c.amplitude c.phase)), h1, ?_, ?_, ?_⟩
  · unfold windowSpectrum Bins.fftNode
    rw [hwin, zfft_eq w hw]
    have := Audio.findRate_supported hr
    unfold SampleRate.samplesPerSecond at this
    simp only [this, Bins.fromSampleRate, List.length_map, List.length_range]
  · rw [Spectral.getD_map_range _ _ _ _ (by omega), ← hcn, coef_self r.samplesPerSecond hs w hw c (by omega) (by omega), norm_mul,
      Complex.norm_exp_ofReal_mul_I, Complex.norm_real, hca]
    simp [abs_of_nonneg, Real.sqrt_nonneg]
  · intro j hj hne
    rw [Spectral.getD_map_range _ _ _ _ (by omega)]
    exact coef_tone r.samplesPerSecond hs w hw c (by omega) j (by omega) (by rw [hcn]; exact hne)

/-- One second of 689.0625 Hz and 861.328125 Hz at 44100 samples per second, cut at sample 1000 into a window of 1024. -/
example : ToneFilter.sr44 ∈ supportedRates ∧ ToneFilter.sr44.samplesPerSecond = 2 * (22050 : ℕ) ∧
    (∀ k ∈ [16, 20], 0 < k ∧ 2 * k < 1024) ∧ 1000 + 1024 ≤ Tones.sineCount ToneFilter.sr44.samplesPerSecond (10 ^ 12) := by decide +kernel

end Zounds.SineSpectrum
