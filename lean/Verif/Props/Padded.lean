import Verif.Props.SineSpectrum

/-!
# C385: padding changes where one looks, not what one finds there
-/

namespace Zounds.Padded
open Zounds Zounds.Freq Zounds.Time
open Finset

/-! ## Specification (the node is `Bins.fftNode`) -/

/-- The frequency in hertz for which coefficient `j` of a spectrum made from `n` samples, padding included, at `s` samples per second stands. -/
def lookedAt (s : ℤ) (n j : ℕ) : ℚ := j * s / n

/-- The correlation of a window with the complex wave of `f` hertz. -/
noncomputable def correlation (s : ℤ) (x : List ℝ) (f : ℚ) : ℂ :=
  ∑ t ∈ range x.length, (x.getD t 0 : ℂ) * Complex.exp (-2 * Real.pi * Complex.I * ((f : ℝ) : ℂ) * t / s)

theorem getD_pad (x : List ℝ) (p t : ℕ) : (x ++ List.replicate p 0).getD t 0 = x.getD t 0 := by
  simp only [List.getD_eq_getElem?_getD]
  rcases lt_or_ge t x.length with h | h
  · rw [List.getElem?_append_left h]
  · rw [List.getElem?_append_right h, List.getElem?_eq_none h]
    rcases lt_or_ge (t - x.length) p with h' | h'
    · rw [List.getElem?_replicate, if_pos h']
      rfl
    · rw [List.getElem?_eq_none (by simpa using h')]

/-- **C385, what a coefficient says**: with any padding, coefficient `j` of the spectrum of a window is the window's correlation with the wave of the
frequency `j` stands for, divided by the square root of the number of samples, padding included; there are as many coefficients as the scale has bands. -/
theorem C385_meaning (r : SampleRate) (hr : r ∈ supportedRates) (x : List ℝ) (hx : x ≠ []) (p : ℕ) :
    ∃ X, Bins.fftNode r.frequency x p = .ok (X, .linear ⟨0, (r.nyquist : ℚ)⟩ X.length false) ∧ X.length = (x.length + p) / 2 + 1 ∧
      ∀ j, j < X.length → X.getD j 0 =
        ((1 / Real.sqrt (x.length + p : ℕ) : ℝ) : ℂ) * correlation r.samplesPerSecond x (lookedAt r.samplesPerSecond (x.length + p) j) := by
  have hs : r.samplesPerSecond ≠ 0 := by
    revert r
    decide
  have hs' : (r.samplesPerSecond : ℂ) ≠ 0 := by exact_mod_cast hs
  have hxl : 0 < x.length := List.length_pos_of_ne_nil hx
  have hn : ((x.length + p : ℕ) : ℂ) ≠ 0 := by exact_mod_cast (by omega : x.length + p ≠ 0)
  have hne : x ++ List.replicate p 0 ≠ [] := by simp [hx]
  have hlen : (x ++ List.replicate p (0 : ℝ)).length = x.length + p := by simp
  obtain ⟨X, hX⟩ : ∃ X, Spectral.zfft x p = .ok X := by
    unfold Spectral.zfft Spectral.rfft
    rw [if_neg hne]
    exact ⟨_, rfl⟩
  have hX' := hX
  unfold Spectral.zfft Spectral.rfft at hX'
  rw [if_neg hne] at hX'
  have hX' := (Except.ok.inj hX').symm
  refine ⟨X, ?_, by rw [hX', List.length_map, List.length_range, hlen], ?_⟩
  · unfold Bins.fftNode
    rw [hX]
    have := Audio.findRate_supported hr
    unfold SampleRate.samplesPerSecond at this
    simp only [this, Bins.fromSampleRate]
  · intro j hj
    rw [hX', List.length_map, List.length_range] at hj
    rw [hX', Spectral.getD_map_range _ _ _ _ hj, hlen]
    congr 1
    unfold correlation
    rw [sum_range_add]
    have hz : ∀ t ∈ range p, ((x ++ List.replicate p (0 : ℝ)).getD (x.length + t) 0 : ℂ) *
        Complex.exp (-2 * Real.pi * Complex.I * (x.length + t : ℕ) * j / (x.length + p : ℕ)) = 0 := by
      intro t _
      rw [getD_pad]
      have : x.getD (x.length + t) 0 = 0 := by
        rw [List.getD_eq_getElem?_getD, List.getElem?_eq_none (by omega)]
        rfl
      rw [this]
      simp
    rw [sum_eq_zero hz, add_zero]
    apply sum_congr rfl
    intro t _
    rw [getD_pad]
    congr 2
    unfold lookedAt
    push_cast at hn ⊢
    field_simp

/-- **C385, the same frequency**: what two paddings of a window say about one frequency is the same, but for the normalisation. -/
theorem C385_same_frequency (r : SampleRate) (hr : r ∈ supportedRates) (x : List ℝ) (hx : x ≠ []) (p p' j j' : ℕ) (hj : j ≤ (x.length + p) / 2)
    (hj' : j' ≤ (x.length + p') / 2) (h : j * (x.length + p') = j' * (x.length + p)) :
    ∃ X S X' S', Bins.fftNode r.frequency x p = .ok (X, S) ∧ Bins.fftNode r.frequency x p' = .ok (X', S') ∧
      ((Real.sqrt (x.length + p : ℕ) : ℝ) : ℂ) * X.getD j 0 = ((Real.sqrt (x.length + p' : ℕ) : ℝ) : ℂ) * X'.getD j' 0 := by
  obtain ⟨X, h1, h2, h3⟩ := C385_meaning r hr x hx p
  obtain ⟨X', h1', h2', h3'⟩ := C385_meaning r hr x hx p'
  have hxl : 0 < x.length := List.length_pos_of_ne_nil hx
  refine ⟨X, _, X', _, h1, h1', ?_⟩
  have hf : lookedAt r.samplesPerSecond (x.length + p) j = lookedAt r.samplesPerSecond (x.length + p') j' := by
    unfold lookedAt
    have a : ((x.length + p : ℕ) : ℚ) ≠ 0 := by exact_mod_cast (by omega : x.length + p ≠ 0)
    have b : ((x.length + p' : ℕ) : ℚ) ≠ 0 := by exact_mod_cast (by omega : x.length + p' ≠ 0)
    have c : (j : ℚ) * ((x.length + p' : ℕ) : ℚ) = j' * ((x.length + p : ℕ) : ℚ) := by exact_mod_cast h
    rw [div_eq_div_iff a b]
    linear_combination (r.samplesPerSecond : ℚ) * c
  rw [h3 j (by omega), h3' j' (by omega), hf]
  have key : ∀ (n : ℕ) (c : ℂ), 0 < n → ((Real.sqrt n : ℝ) : ℂ) * (((1 / Real.sqrt n : ℝ) : ℂ) * c) = c := by
    intro n c hn
    have : Real.sqrt n ≠ 0 := (Real.sqrt_pos.2 (by exact_mod_cast hn)).ne'
    rw [← mul_assoc, ← Complex.ofReal_mul, mul_one_div_cancel this, Complex.ofReal_one, one_mul]
  rw [key _ _ (by omega), key _ _ (by omega)]

/-- **C385, padding refines**: padded to `c` times its length, a window's spectrum has the unpadded spectrum's coefficients, divided by `√c`, at every `c`-th place. -/
theorem C385_refines (r : SampleRate) (hr : r ∈ supportedRates) (x : List ℝ) (hx : x ≠ []) (c : ℕ) (hc : 0 < c) (j : ℕ) (hj : j ≤ x.length / 2) :
    ∃ X S X' S', Bins.fftNode r.frequency x 0 = .ok (X, S) ∧ Bins.fftNode r.frequency x ((c - 1) * x.length) = .ok (X', S') ∧
      ((Real.sqrt c : ℝ) : ℂ) * X'.getD (c * j) 0 = X.getD j 0 := by
  have hxl : 0 < x.length := List.length_pos_of_ne_nil hx
  have hl : x.length + (c - 1) * x.length = c * x.length := by
    obtain ⟨d, rfl⟩ : ∃ d, c = d + 1 := ⟨c - 1, by omega⟩
    simp
    ring
  have h2j : 2 * j ≤ x.length := by omega
  have hcj : c * j ≤ (x.length + (c - 1) * x.length) / 2 := by
    rw [hl, Nat.le_div_iff_mul_le (by omega)]
    nlinarith
  obtain ⟨X, S, X', S', h1, h2, h3⟩ := C385_same_frequency r hr x hx 0 ((c - 1) * x.length) j (c * j) (by simpa using hj) hcj (by rw [hl]; ring)
  refine ⟨X, S, X', S', h1, h2, ?_⟩
  rw [hl, Nat.add_zero, Nat.cast_mul, Real.sqrt_mul (by positivity)] at h3
  have hne : ((Real.sqrt x.length : ℝ) : ℂ) ≠ 0 := by
    have : Real.sqrt x.length ≠ 0 := (Real.sqrt_pos.2 (by exact_mod_cast hxl)).ne'
    exact_mod_cast this
  apply mul_left_cancel₀ hne
  rw [h3]
  push_cast
  ring

/-- **C385, the labels**: at rates of an even number of samples per second the frequency a coefficient stands for is in the band it is labelled with and in
no other (and, if it is half the rate, the upper end of the last band), whatever the padding. -/
theorem C385_label (E : NumExt ℚ) (r : SampleRate) (hr : r ∈ supportedRates) (q : ℕ) (hq : r.samplesPerSecond = 2 * q) (x : List ℝ) (p : ℕ) (hx : x ≠ [])
    (hn : 2 ≤ x.length + p) :
    ∃ X S bs, Bins.fftNode r.frequency x p = .ok (X, S) ∧ S.bands E = .ok bs ∧ bs.length = X.length ∧
      ∀ (i j : ℕ) (b : Band ℚ), j < X.length → bs[i]? = some b →
        (2 * j < x.length + p → ((b.start ≤ lookedAt r.samplesPerSecond (x.length + p) j ∧ lookedAt r.samplesPerSecond (x.length + p) j < b.stop) ↔ i = j)) ∧
        (2 * j = x.length + p → i = j → b.stop = lookedAt r.samplesPerSecond (x.length + p) j) := by
  have hs : 0 < r.samplesPerSecond := by
    clear hq
    revert r
    decide
  obtain ⟨X, h1, h2, _⟩ := C385_meaning r hr x hx p
  obtain ⟨bs, hb, hbl, _⟩ := Bins.C382_band E r q hq (by omega) (x.length + p) 0 hn
  refine ⟨X, _, bs, h1, by rw [h2]; exact hb, by rw [hbl, h2], ?_⟩
  intro i j b _ hib
  obtain ⟨bs', hb', _, h5⟩ := Bins.C382_band E r q hq (by omega) (x.length + p) j hn
  rw [hb] at hb'
  cases hb'
  obtain ⟨h6, h7⟩ := h5 i b hib
  exact ⟨h6, fun h => (h7 h).2⟩

/-- **C385, no more than that**: no coefficient is larger than the window's total size, divided by the same square root. -/
theorem C385_bound (r : SampleRate) (hr : r ∈ supportedRates) (x : List ℝ) (hx : x ≠ []) (p : ℕ) :
    ∃ X S, Bins.fftNode r.frequency x p = .ok (X, S) ∧
      ∀ j, j < X.length → ‖X.getD j 0‖ ≤ (x.map fun v => |v|).sum / Real.sqrt (x.length + p : ℕ) := by
  obtain ⟨X, h1, hl, h3⟩ := C385_meaning r hr x hx p
  refine ⟨X, _, h1, ?_⟩
  intro j hj
  rw [h3 j hj, norm_mul, Complex.norm_real, Real.norm_of_nonneg (by positivity), div_mul_eq_mul_div, one_mul]
  apply div_le_div_of_nonneg_right _ (Real.sqrt_nonneg _)
  unfold correlation
  refine (norm_sum_le _ _).trans ?_
  have hsum : (x.map fun v => |v|).sum = ∑ t ∈ range x.length, |x.getD t 0| := by
    clear h1 h3 hj hx hl
    induction x with
    | nil => simp
    | cons v x ih =>
      rw [List.map_cons, List.sum_cons, ih, List.length_cons, sum_range_succ', add_comm]
      rfl
  rw [hsum]
  apply sum_le_sum
  intro t _
  have he : Complex.exp (-2 * Real.pi * Complex.I * ((lookedAt r.samplesPerSecond (x.length + p) j : ℝ) : ℂ) * t / r.samplesPerSecond) =
      Complex.exp (((-2 * Real.pi * (lookedAt r.samplesPerSecond (x.length + p) j : ℝ) * t / r.samplesPerSecond : ℝ) : ℂ) * Complex.I) := by
    congr 1
    push_cast
    ring
  rw [norm_mul, he, Complex.norm_exp_ofReal_mul_I, mul_one, Complex.norm_real, Real.norm_eq_abs]

/-- Coefficient 16 without padding is coefficient 32 with as many zeros again. -/
example : ∃ X S X' S', Bins.fftNode ToneFilter.sr44.frequency (List.replicate 1024 1) 0 = .ok (X, S) ∧
    Bins.fftNode ToneFilter.sr44.frequency (List.replicate 1024 1) 1024 = .ok (X', S') ∧
    ((Real.sqrt (2 : ℕ) : ℝ) : ℂ) * X'.getD 32 0 = X.getD 16 0 := by
  have := C385_refines ToneFilter.sr44 (by decide) (List.replicate 1024 1) (fun h => by have := congrArg List.length h; rw [List.length_replicate] at this; cases this) 2 (by omega) 16 (by rw [List.length_replicate]; omega)
  rw [List.length_replicate] at this
  exact this

end Zounds.Padded
