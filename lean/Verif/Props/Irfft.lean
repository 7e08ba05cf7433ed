import Verif.Props.Fft
/-!
# The FFT of an inverse FFT
-/

namespace Zounds.Spectral
open Finset Real

/-- A whole number of turns in `n` steps adds up to nothing, unless the steps are whole turns. -/
theorem sum_exp_circle (n : ℕ) (hn : 0 < n) (m : ℤ) :
    ∑ t ∈ range n, Complex.exp (2 * π * Complex.I * m * t / n) = if (n : ℤ) ∣ m then (n : ℂ) else 0 := by
  have hn' : (n : ℂ) ≠ 0 := by exact_mod_cast hn.ne'
  have hpow : ∀ t ∈ range n, Complex.exp (2 * π * Complex.I * m * t / n) = Complex.exp (2 * π * Complex.I * m / n) ^ t := by
    intro t _
    rw [← Complex.exp_nat_mul]
    congr 1
    ring
  rw [sum_congr rfl hpow]
  split
  · rename_i h
    obtain ⟨j, rfl⟩ := h
    have : Complex.exp (2 * π * Complex.I * ((n * j : ℤ) : ℂ) / n) = 1 := by
      rw [Complex.exp_eq_one_iff]
      refine ⟨j, ?_⟩
      push_cast
      field_simp
    rw [this]
    simp
  · rename_i h
    have hz : Complex.exp (2 * π * Complex.I * m / n) ≠ 1 := by
      intro h1
      rw [Complex.exp_eq_one_iff] at h1
      obtain ⟨j, hj⟩ := h1
      apply h
      refine ⟨j, ?_⟩
      have h2 : (2 * π * Complex.I : ℂ) ≠ 0 := Complex.two_pi_I_ne_zero
      have h3 : (m : ℂ) = n * j := by
        rw [div_eq_iff hn'] at hj
        have : (2 * π * Complex.I : ℂ) * m = (2 * π * Complex.I) * (n * j) := by rw [hj]; ring
        exact mul_left_cancel₀ h2 this
      exact_mod_cast h3
    have hone : Complex.exp (2 * π * Complex.I * m / n) ^ n = 1 := by
      rw [← Complex.exp_nat_mul, Complex.exp_eq_one_iff]
      refine ⟨m, ?_⟩
      field_simp
    have hg := mul_geom_sum (Complex.exp (2 * π * Complex.I * m / n)) n
    rw [hone, sub_self] at hg
    rcases mul_eq_zero.1 hg with h0 | h0
    · exact absurd (sub_eq_zero.1 h0) hz
    · exact h0

/-- Specification: coefficients without the imaginary parts of the first and the last, which real samples cannot have. -/
noncomputable def realEnds (X : List ℂ) : List ℂ :=
  (List.range X.length).map fun k => if k = 0 ∨ k + 1 = X.length then ((X.getD k 0).re : ℂ) else X.getD k 0

theorem realEnds_length (X : List ℂ) : (realEnds X).length = X.length := by simp [realEnds]

/-- **C54, the other way round**: the FFT of the inverse FFT of at least two coefficients gives them back, but for the imaginary parts
of the first and the last. -/
theorem C54_irfft_inverse (X : List ℂ) (hX : 2 ≤ X.length) :
    ∃ x, irfft X = .ok x ∧ x.length = 2 * (X.length - 1) ∧ rfft x = .ok (realEnds X) := by
  obtain ⟨h, hh⟩ : ∃ h, X.length = h + 1 := ⟨X.length - 1, by omega⟩
  have hpos : 0 < h := by omega
  unfold irfft
  rw [if_neg (by omega)]
  simp only [hh, Nat.add_sub_cancel]
  refine ⟨_, rfl, by simp, ?_⟩
  unfold rfft
  rw [if_neg (by intro hc; have := congrArg List.length hc; simp at this; omega)]
  simp only [List.length_map, List.length_range]
  have hN : ((2 * h : ℕ) : ℂ) ≠ 0 := by exact_mod_cast (by omega : 2 * h ≠ 0)
  have hNr : (0 : ℝ) < ((2 * h : ℕ) : ℝ) := by exact_mod_cast (by omega : 0 < 2 * h)
  congr 1
  have hd2 : 2 * h / 2 + 1 = h + 1 := by omega
  rw [hd2]
  unfold realEnds
  rw [hh]
  apply List.map_congr_left
  intro k hk
  have hk' : k < h + 1 := List.mem_range.1 hk
  have hsq : (((1 / sqrt ((2 * h : ℕ) : ℝ) : ℝ) : ℂ)) * ((1 / sqrt ((2 * h : ℕ) : ℝ) : ℝ) : ℂ) = 1 / ((2 * h : ℕ) : ℂ) := by
    rw [← Complex.ofReal_mul, div_mul_div_comm, one_mul, Real.mul_self_sqrt hNr.le]
    push_cast
    rfl
  -- the samples as complex sums
  have hsample : ∀ t ∈ range (2 * h), ((((List.range (2 * h)).map fun t : ℕ => 1 / sqrt ((2 * h : ℕ) : ℝ) *
      ((X.getD 0 0).re + (X.getD h 0).re * (-1) ^ t +
        ∑ k ∈ range (h - 1), 2 * (X.getD (k + 1) 0 * Complex.exp (2 * π * Complex.I * (k + 1) * t / (2 * h : ℕ))).re)).getD t 0 : ℝ) : ℂ) *
      Complex.exp (-2 * π * Complex.I * t * k / (2 * h : ℕ)) =
      ((1 / sqrt ((2 * h : ℕ) : ℝ) : ℝ) : ℂ) *
        (((X.getD 0 0).re : ℂ) * Complex.exp (2 * π * Complex.I * ((-k : ℤ) : ℂ) * t / (2 * h : ℕ)) +
         ((X.getD h 0).re : ℂ) * Complex.exp (2 * π * Complex.I * ((h - k : ℤ) : ℂ) * t / (2 * h : ℕ)) +
         ∑ j ∈ range (h - 1), (X.getD (j + 1) 0 * Complex.exp (2 * π * Complex.I * ((j + 1 - k : ℤ) : ℂ) * t / (2 * h : ℕ)) +
           (starRingEnd ℂ) (X.getD (j + 1) 0) * Complex.exp (2 * π * Complex.I * ((-(j + 1 + k) : ℤ) : ℂ) * t / (2 * h : ℕ)))) := by
    intro t ht
    rw [getD_map_range _ _ _ _ (mem_range.1 ht), Complex.ofReal_mul, mul_assoc]
    congr 1
    rw [Complex.ofReal_add, Complex.ofReal_add, Complex.ofReal_mul, Complex.ofReal_sum, add_mul, add_mul, sum_mul]
    have e1 : Complex.exp (-2 * π * Complex.I * t * k / (2 * h : ℕ)) = Complex.exp (2 * π * Complex.I * ((-k : ℤ) : ℂ) * t / (2 * h : ℕ)) := by
      congr 1; push_cast; ring
    have e2 : (((-1) ^ t : ℝ) : ℂ) = Complex.exp (2 * π * Complex.I * h * t / (2 * h : ℕ)) := by
      have : (2 * π * Complex.I * h * t / ((2 * h : ℕ) : ℂ) : ℂ) = (t : ℂ) * (π * Complex.I) := by
        have hh0 : (h : ℂ) ≠ 0 := by exact_mod_cast hpos.ne'
        push_cast
        field_simp
      rw [this, Complex.exp_nat_mul, Complex.exp_pi_mul_I]
      push_cast
      rfl
    congr 1
    · congr 1
      · rw [e1]
      · rw [e2, mul_assoc, ← Complex.exp_add]
        congr 2
        push_cast; ring
    · apply sum_congr rfl
      intro j _
      have e3 : ((2 * (X.getD (j + 1) 0 * Complex.exp (2 * π * Complex.I * (j + 1) * t / (2 * h : ℕ))).re : ℝ) : ℂ) =
          X.getD (j + 1) 0 * Complex.exp (2 * π * Complex.I * (j + 1) * t / (2 * h : ℕ)) +
          (starRingEnd ℂ) (X.getD (j + 1) 0) * Complex.exp (-(2 * π * Complex.I * (j + 1) * t / (2 * h : ℕ))) := by
        have := Complex.add_conj (X.getD (j + 1) 0 * Complex.exp (2 * π * Complex.I * (j + 1) * t / (2 * h : ℕ)))
        rw [← this, map_mul, ← Complex.exp_conj]
        congr 3
        have h2c : (starRingEnd ℂ) 2 = 2 := Complex.conj_ofNat 2
        simp only [map_div₀, map_mul, h2c, Complex.conj_ofReal, Complex.conj_I, map_add, map_one, map_natCast]
        ring
      have e4 : ∀ (c a b : ℂ), c * Complex.exp a * Complex.exp b = c * Complex.exp (a + b) := by
        intro c a b; rw [mul_assoc, ← Complex.exp_add]
      rw [e3, add_mul, e4, e4]
      congr 3
      · congr 1; push_cast; ring
      · push_cast; ring
  rw [sum_congr rfl hsample, ← mul_sum, ← mul_assoc, hsq, sum_add_distrib, sum_add_distrib, ← mul_sum, ← mul_sum,
    sum_exp_circle _ (by omega), sum_exp_circle _ (by omega), sum_comm]
  have hinner : ∀ j ∈ range (h - 1), ∑ t ∈ range (2 * h),
      (X.getD (j + 1) 0 * Complex.exp (2 * π * Complex.I * ((j + 1 - k : ℤ) : ℂ) * t / (2 * h : ℕ)) +
        (starRingEnd ℂ) (X.getD (j + 1) 0) * Complex.exp (2 * π * Complex.I * ((-(j + 1 + k) : ℤ) : ℂ) * t / (2 * h : ℕ))) =
      if j + 1 = k then X.getD k 0 * ((2 * h : ℕ) : ℂ) else 0 := by
    intro j hj
    have hj' := mem_range.1 hj
    rw [sum_add_distrib, ← mul_sum, ← mul_sum, sum_exp_circle _ (by omega), sum_exp_circle _ (by omega)]
    rw [if_neg (c := ((2 * h : ℕ) : ℤ) ∣ -(j + 1 + k)) (by
      intro hd
      have := Int.le_of_dvd (by omega) ((Int.dvd_neg).1 hd)
      push_cast at this
      omega)]
    by_cases hjk : j + 1 = k
    · rw [if_pos hjk, if_pos (by rw [← hjk]; push_cast; simp), mul_zero, add_zero, hjk]
    · rw [if_neg hjk, if_neg (by
        intro hd
        have := Int.eq_zero_of_abs_lt_dvd hd (by rw [abs_lt]; push_cast; omega)
        omega), mul_zero, mul_zero, add_zero]
  rw [sum_congr rfl hinner]
  have hc1 : (((2 * h : ℕ) : ℤ) ∣ (-k : ℤ)) ↔ k = 0 := by
    constructor
    · intro hd
      have := Int.eq_zero_of_abs_lt_dvd hd (by rw [abs_lt]; push_cast; omega)
      omega
    · rintro rfl; simp
  have hc2 : (((2 * h : ℕ) : ℤ) ∣ (h - k : ℤ)) ↔ k = h := by
    constructor
    · intro hd
      have := Int.eq_zero_of_abs_lt_dvd hd (by rw [abs_lt]; push_cast; omega)
      omega
    · rintro rfl; simp
  simp only [hc1, hc2]
  by_cases hk0 : k = 0
  · subst hk0
    rw [if_pos rfl, if_neg (by omega), if_pos (Or.inl rfl), sum_eq_zero (by intro j _; rw [if_neg (by omega)])]
    field_simp
    ring
  · by_cases hkh : k = h
    · subst hkh
      rw [if_neg hk0, if_pos rfl, if_pos (Or.inr rfl), sum_eq_zero (by
        intro j hj
        have := mem_range.1 hj
        rw [if_neg (by omega)])]
      field_simp
      ring
    · rw [if_neg hk0, if_neg hkh, if_neg (by omega)]
      rw [sum_eq_single (k - 1) (by intro j _ hj; rw [if_neg (by omega)]) (by intro hn; exact absurd (mem_range.2 (by omega)) hn),
        if_pos (by omega)]
      field_simp
      ring

/-- Fewer than two coefficients have no inverse FFT. -/
theorem C54_irfft_short (X : List ℂ) (hX : X.length < 2) : irfft X = .error .valueError := by
  unfold irfft; rw [if_pos (by omega)]

example := C54_irfft_inverse [1, 2, 3] (by simp)
example : irfft [2] = .error .valueError := C54_irfft_short _ (by simp)

example : (2 : ℕ) ≤ ([1, Complex.I, 2] : List ℂ).length := by simp

end Zounds.Spectral
