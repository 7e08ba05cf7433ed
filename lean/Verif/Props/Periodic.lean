import Verif.Props.SineSpectrum
import Verif.Props.Dct
import Verif.Props.Fft

/-!
# C386: the frames of the spectrogram of a periodic sound
-/

namespace Zounds.Periodic
open Zounds Zounds.Freq Zounds.Time Finset
open _root_.Zounds.SineSpectrum (windowSpectrum)
open _root_.Zounds.ToneFilter (coef zfft_eq)

/-- A sound that repeats itself every `w` samples. -/
def Repeats (w : ℕ) (xs : List ℝ) : Prop := ∀ i, i + w < xs.length → xs.getD (i + w) 0 = xs.getD i 0

theorem getD_mod (w : ℕ) (xs : List ℝ) (h : Repeats w xs) (o t : ℕ) (ht : o + t < xs.length) : xs.getD (o + t) 0 = xs.getD (o + t % w) 0 := by
  induction t using Nat.strong_induction_on with
  | _ t ih =>
    by_cases hw : w = 0
    · rw [hw, Nat.mod_zero]
    by_cases hlt : t < w
    · rw [Nat.mod_eq_of_lt hlt]
    · have h1 := ih (t - w) (by omega) (by omega)
      have h2 := h (o + (t - w)) (by omega)
      have e : o + (t - w) + w = o + t := by omega
      rw [e, h1] at h2
      rw [h2, ← Nat.mod_eq_sub_mod (by omega)]

/-- A window of a sound as a function of the place in it. -/
theorem window_eq (xs : List ℝ) (o w : ℕ) (h : o + w ≤ xs.length) : (xs.drop o).take w = (List.range w).map fun t => xs.getD (o + t) 0 := by
  apply List.ext_getElem
  · simp
    omega
  intro t h1 h2
  have ht : t < w := by simpa using h2
  rw [List.getElem_take, List.getElem_drop, List.getElem_map, List.getElem_range, List.getD_eq_getElem?_getD, List.getElem?_eq_getElem (by omega)]
  rfl

theorem spectrum_eq (r : SampleRate) (hr : r ∈ supportedRates) (xs : List ℝ) (o w : ℕ) (hw : 0 < w) (h : o + w ≤ xs.length) :
    windowSpectrum xs r o w = .ok ((List.range (w / 2 + 1)).map (coef w fun t => xs.getD (o + t) 0), .linear ⟨0, (r.nyquist : ℚ)⟩ (w / 2 + 1) false) := by
  unfold windowSpectrum Bins.fftNode
  rw [window_eq xs o w h, zfft_eq w hw]
  have := Audio.findRate_supported hr
  unfold SampleRate.samplesPerSecond at this
  simp only [this, Bins.fromSampleRate, List.length_map, List.length_range]

/-- The coefficients of a window turned around by `h` samples. -/
theorem coef_turned (w : ℕ) (hw : 0 < w) (x : ℕ → ℝ) (h j : ℕ) :
    coef w (fun t => x ((h + t) % w)) j = coef w x j * Complex.exp (2 * Real.pi * Complex.I * j * h / w) := by
  have key := Spectral.rfft_delayed w hw (fun t : ℤ => x (t % (w : ℤ)).toNat) (by
    intro t
    simp) (-(h : ℤ)) j
  unfold coef
  have e1 : ∑ t ∈ range w, ((x ((h + t) % w) : ℝ) : ℂ) * Complex.exp (-2 * Real.pi * Complex.I * t * j / w) =
      ∑ t ∈ range w, ((x ((((t : ℤ) - -(h : ℤ)) % (w : ℤ)).toNat) : ℝ) : ℂ) * Complex.exp (-2 * Real.pi * Complex.I * t * j / w) := by
    apply sum_congr rfl
    intro t _
    have : (((t : ℤ) - -(h : ℤ)) % (w : ℤ)).toNat = (h + t) % w := by
      have e : (t : ℤ) - -(h : ℤ) = ((h + t : ℕ) : ℤ) := by push_cast; ring
      rw [e, ← Int.natCast_mod, Int.toNat_natCast]
    rw [this]
  have e2 : ∑ t ∈ range w, ((x (((t : ℤ) % (w : ℤ)).toNat) : ℝ) : ℂ) * Complex.exp (-2 * Real.pi * Complex.I * t * j / w) =
      ∑ t ∈ range w, ((x t : ℝ) : ℂ) * Complex.exp (-2 * Real.pi * Complex.I * t * j / w) := by
    apply sum_congr rfl
    intro t ht
    rw [← Int.natCast_mod, Int.toNat_natCast, Nat.mod_eq_of_lt (mem_range.1 ht)]
  rw [e1, key, e2, ← mul_assoc]
  congr 2
  push_cast
  ring

/-! ## C386 -/

/-- **C386, the frames of a periodic sound**: two windows of `w` samples, `h` samples apart, of a sound that repeats itself every `w` samples have the same magnitudes; coefficient `j` has
turned by `j · h / w` turns. -/
theorem C386_frames (r : SampleRate) (hr : r ∈ supportedRates) (xs : List ℝ) (w : ℕ) (hw : 0 < w) (hp : Repeats w xs) (o h : ℕ) (ho : o + h + w ≤ xs.length) :
    ∃ X Y scale, windowSpectrum xs r o w = .ok (X, scale) ∧ windowSpectrum xs r (o + h) w = .ok (Y, scale) ∧ Y.length = X.length ∧
      ∀ j, Y.getD j 0 = X.getD j 0 * Complex.exp ((2 * Real.pi * j * h / w : ℝ) * Complex.I) ∧ ‖Y.getD j 0‖ = ‖X.getD j 0‖ := by
  refine ⟨_, _, _, spectrum_eq r hr xs o w hw (by omega), spectrum_eq r hr xs (o + h) w hw ho, by simp, ?_⟩
  intro j
  have main : ((List.range (w / 2 + 1)).map (coef w fun t => xs.getD (o + h + t) 0)).getD j 0 =
      ((List.range (w / 2 + 1)).map (coef w fun t => xs.getD (o + t) 0)).getD j 0 * Complex.exp ((2 * Real.pi * j * h / w : ℝ) * Complex.I) := by
    by_cases hj : j < w / 2 + 1
    · rw [Spectral.getD_map_range _ _ _ _ hj, Spectral.getD_map_range _ _ _ _ hj]
      have := coef_turned w hw (fun t => xs.getD (o + t) 0) h j
      have e : coef w (fun t => xs.getD (o + h + t) 0) j = coef w (fun t => xs.getD (o + (h + t) % w) 0) j := by
        unfold coef
        congr 1
        apply sum_congr rfl
        intro t ht
        have ht := mem_range.1 ht
        simp only
        rw [add_assoc, getD_mod w xs hp o (h + t) (by omega)]
      rw [e, this]
      congr 2
      push_cast
      ring
    · rw [List.getD_eq_getElem?_getD, List.getD_eq_getElem?_getD, List.getElem?_eq_none (by simpa using hj), List.getElem?_eq_none (by simpa using hj)]
      simp
  exact ⟨main, by rw [main, norm_mul, Complex.norm_exp_ofReal_mul_I, mul_one]⟩

/-- **C386, half a window on**: with half-lapped windows the even coefficients stay and the odd ones change sign. -/
theorem C386_half_lapped (r : SampleRate) (hr : r ∈ supportedRates) (xs : List ℝ) (m : ℕ) (hm : 0 < m) (hp : Repeats (2 * m) xs) (o : ℕ)
    (ho : o + m + 2 * m ≤ xs.length) :
    ∃ X Y scale, windowSpectrum xs r o (2 * m) = .ok (X, scale) ∧ windowSpectrum xs r (o + m) (2 * m) = .ok (Y, scale) ∧
      ∀ j, Y.getD j 0 = (-1) ^ j * X.getD j 0 := by
  obtain ⟨X, Y, sc, h1, h2, _, h3⟩ := C386_frames r hr xs (2 * m) (by omega) hp o m ho
  refine ⟨X, Y, sc, h1, h2, fun j => ?_⟩
  rw [(h3 j).1]
  have hm' : (m : ℝ) ≠ 0 := by exact_mod_cast hm.ne'
  have e : ((2 * Real.pi * j * m / (2 * m : ℕ) : ℝ) : ℂ) * Complex.I = j * (Real.pi * Complex.I) := by
    have : (2 * Real.pi * j * m / (2 * m : ℕ) : ℝ) = j * Real.pi := by
      push_cast
      field_simp
    rw [this]
    push_cast
    ring
  rw [e, Complex.exp_nat_mul, Complex.exp_pi_mul_I]
  ring

/-- **C386, conversely**: if from every window of `w` samples (an even number) to the one a sample later every coefficient `j` turns by `j / w` turns, the sound repeats itself
every `w` samples. -/
theorem C386_conversely (r : SampleRate) (hr : r ∈ supportedRates) (xs : List ℝ) (m : ℕ) (hm : 0 < m)
    (ht : ∀ o, o + 1 + 2 * m ≤ xs.length → ∃ X Y scale, windowSpectrum xs r o (2 * m) = .ok (X, scale) ∧ windowSpectrum xs r (o + 1) (2 * m) = .ok (Y, scale) ∧
      ∀ j, Y.getD j 0 = X.getD j 0 * Complex.exp ((2 * Real.pi * j / (2 * m : ℕ) : ℝ) * Complex.I)) : Repeats (2 * m) xs := by
  intro i hi
  obtain ⟨X, Y, sc, h1, h2, h3⟩ := ht i (by omega)
  rw [spectrum_eq r hr xs i (2 * m) (by omega) (by omega)] at h1
  rw [spectrum_eq r hr xs (i + 1) (2 * m) (by omega) (by omega)] at h2
  cases h1
  cases h2
  have hc : ∀ j, j < 2 * m / 2 + 1 → coef (2 * m) (fun t => xs.getD (i + 1 + t) 0) j = coef (2 * m) (fun t => xs.getD (i + (1 + t) % (2 * m)) 0) j := by
    intro j hj
    have := h3 j
    rw [Spectral.getD_map_range _ _ _ _ hj, Spectral.getD_map_range _ _ _ _ hj] at this
    rw [this, coef_turned (2 * m) (by omega) (fun t => xs.getD (i + t) 0) 1 j]
    congr 2
    push_cast
    ring
  have hz : Spectral.zfft ((List.range (2 * m)).map fun t => xs.getD (i + 1 + t) 0) 0 =
      Spectral.zfft ((List.range (2 * m)).map fun t => xs.getD (i + (1 + t) % (2 * m)) 0) 0 := by
    rw [zfft_eq (2 * m) (by omega), zfft_eq (2 * m) (by omega)]
    congr 1
    apply List.map_congr_left
    intro j hj
    exact hc j (List.mem_range.1 hj)
  unfold Spectral.zfft at hz
  rw [List.replicate_zero, List.append_nil, List.append_nil] at hz
  obtain ⟨Z, e1, _, e2⟩ := Spectral.C54_fft_inverse m hm ((List.range (2 * m)).map fun t => xs.getD (i + 1 + t) 0) (by simp)
  obtain ⟨Z', e3, _, e4⟩ := Spectral.C54_fft_inverse m hm ((List.range (2 * m)).map fun t => xs.getD (i + (1 + t) % (2 * m)) 0) (by simp)
  rw [e1, e3] at hz
  cases hz
  rw [e2] at e4
  have e4 := Except.ok.inj e4
  have e5 := congrArg (fun l => l.getD (2 * m - 1) 0) e4
  rw [Spectral.getD_map_range _ _ _ _ (by omega), Spectral.getD_map_range _ _ _ _ (by omega)] at e5
  have a1 : i + 1 + (2 * m - 1) = i + 2 * m := by omega
  have a2 : (1 + (2 * m - 1)) % (2 * m) = 0 := by
    have : 1 + (2 * m - 1) = 2 * m := by omega
    rw [this, Nat.mod_self]
  rw [a1, a2, Nat.add_zero] at e5
  exact e5

/-- What the sine synthesizer makes of frequencies `k · s / w` repeats itself every `w` samples. -/
theorem C386_sine (r : SampleRate) (hr : r ∈ supportedRates) (d : Int) (w : ℕ) (hw : 0 < w) (ks : List ℕ) (hne : ks ≠ []) (hk : ∀ k ∈ ks, 0 < k) :
    ∃ xs, Tones.sine ⟨r, true⟩ d (ks.map fun k : ℕ => (k : ℝ) * r.samplesPerSecond / w) = .ok ⟨r, .vec xs⟩ ∧ Repeats w xs := by
  have hs : r.samplesPerSecond ≠ 0 := by
    revert r
    decide
  have hs' : (r.samplesPerSecond : ℝ) ≠ 0 := by exact_mod_cast hs
  have hw' : (w : ℝ) ≠ 0 := by exact_mod_cast hw.ne'
  obtain ⟨xs, h1, h2, h3⟩ := Tones.C61_sine_samples r d (ks.map fun k : ℕ => (k : ℝ) * r.samplesPerSecond / w) (by simpa using hne) (by
    intro h
    obtain ⟨k, hkm, hk1⟩ := List.mem_map.1 h
    have hkp : (k : ℝ) ≠ 0 := by exact_mod_cast (hk k hkm).ne'
    exact (div_ne_zero (mul_ne_zero hkp hs') hw') hk1)
  refine ⟨xs, h1, ?_⟩
  intro i hi
  rw [h3 (i + w) hi, h3 i (by omega)]
  congr 2
  apply List.map_congr_left
  intro f hf
  obtain ⟨k, _, rfl⟩ := List.mem_map.1 hf
  have e : 2 * Real.pi * ((k : ℝ) * r.samplesPerSecond / w) * ((i + w : ℕ) : ℝ) / r.samplesPerSecond =
      2 * Real.pi * ((k : ℝ) * r.samplesPerSecond / w) * (i : ℝ) / r.samplesPerSecond + k * (2 * Real.pi) := by
    push_cast
    field_simp
  rw [e, Real.sin_add_nat_mul_two_pi]

/-- One second of 689.0625 Hz and 861.328125 Hz at 44100 samples per second, in windows of 1024 samples that are half-lapped. -/
example : ToneFilter.sr44 ∈ supportedRates ∧ (∀ k ∈ [16, 20], 0 < k) ∧ 1000 + 512 + 1024 ≤ Tones.sineCount ToneFilter.sr44.samplesPerSecond (10 ^ 12) := by
  decide +kernel

/-- The hypothesis of the converse is met by every sound that repeats itself. -/
example (r : SampleRate) (hr : r ∈ supportedRates) (xs : List ℝ) (m : ℕ) (hm : 0 < m) (hp : Repeats (2 * m) xs) : ∀ o, o + 1 + 2 * m ≤ xs.length →
    ∃ X Y scale, windowSpectrum xs r o (2 * m) = .ok (X, scale) ∧ windowSpectrum xs r (o + 1) (2 * m) = .ok (Y, scale) ∧
      ∀ j, Y.getD j 0 = X.getD j 0 * Complex.exp ((2 * Real.pi * j / (2 * m : ℕ) : ℝ) * Complex.I) := by
  intro o ho
  obtain ⟨X, Y, sc, h1, h2, _, h3⟩ := C386_frames r hr xs (2 * m) (by omega) hp o 1 ho
  refine ⟨X, Y, sc, h1, h2, fun j => ?_⟩
  have := (h3 j).1
  rw [Nat.cast_one, mul_one] at this
  exact this

end Zounds.Periodic
