import Verif.Props.Mdct
import Mathlib.LinearAlgebra.Matrix.NonsingularInverse

/-!
# C54: Fourier and cosine transforms, and back
-/

namespace Zounds.Spectral
open Finset Real

theorem re_mul_exp (n : ℕ) (x : ℕ → ℝ) (θ : ℕ → ℝ) (φ c : ℝ) :
    (((c : ℝ) * ∑ t ∈ range n, (x t : ℂ) * Complex.exp (-(θ t : ℝ) * Complex.I)) * Complex.exp (-(φ : ℝ) * Complex.I)).re =
      c * ∑ t ∈ range n, x t * cos (θ t + φ) := by
  rw [← re_sum_exp, mul_assoc, Complex.re_ofReal_mul]

/-- The coefficients as sums over `exp(-θ i)`. -/
theorem rfft_coeff (x : List ℝ) (k : ℕ) (hx : x ≠ []) :
    ((1 / sqrt x.length : ℝ) : ℂ) * ∑ t ∈ range x.length, (x.getD t 0 : ℂ) * Complex.exp (-2 * π * Complex.I * t * k / x.length) =
      ((1 / sqrt x.length : ℝ) : ℂ) * ∑ t ∈ range x.length, (x.getD t 0 : ℂ) *
        Complex.exp (-((2 * π * t * k / x.length : ℝ) : ℂ) * Complex.I) := by
  congr 1
  apply sum_congr rfl
  intro t _
  congr 2
  push_cast; ring

/-- **C54, round trip**: for a window of any even number of samples, the inverse of the FFT gives the window back. -/
theorem C54_fft_inverse (h : ℕ) (hh : 0 < h) (x : List ℝ) (hx : x.length = 2 * h) :
    ∃ X, rfft x = .ok X ∧ X.length = h + 1 ∧ irfft X = .ok x := by
  have hh' : (h : ℝ) ≠ 0 := by exact_mod_cast hh.ne'
  have hne : x ≠ [] := by rintro rfl; simp at hx; omega
  unfold rfft
  rw [if_neg hne]
  refine ⟨_, rfl, by simp [hx], ?_⟩
  have hlen : ∀ f : ℕ → ℂ, ((List.range (x.length / 2 + 1)).map f).length = h + 1 := by intro f; simp [hx]
  unfold irfft
  rw [hlen, if_neg (by omega)]
  simp only [Nat.add_sub_cancel]
  congr 1
  apply Synth.getD_ext (by simp [hx])
  intro t ht
  simp only [List.length_map, List.length_range] at ht
  rw [getD_map_range _ _ _ _ ht]
  have hd2 : x.length / 2 + 1 = h + 1 := by omega
  rw [hd2, getD_map_range _ _ _ _ (by omega), getD_map_range _ _ _ _ (by omega)]
  rw [rfft_coeff _ _ hne, rfft_coeff _ _ hne]
  -- every coefficient's share of the sample
  have hone : ∀ z : ℂ, z.re = (z * Complex.exp (-((0 : ℝ) : ℂ) * Complex.I)).re := by intro z; simp
  have h0 : ∀ k : ℕ, (((1 / sqrt x.length : ℝ) : ℂ) * ∑ t ∈ range x.length, (x.getD t 0 : ℂ) *
        Complex.exp (-((2 * π * t * k / x.length : ℝ) : ℂ) * Complex.I)).re =
      1 / sqrt x.length * ∑ s ∈ range x.length, x.getD s 0 * cos (2 * π * s * k / x.length) := by
    intro k
    rw [hone, re_mul_exp]
    simp only [add_zero]
  have hk : ∀ k ∈ range (h - 1), 2 * (((List.range (h + 1)).map fun k : ℕ => ((1 / sqrt x.length : ℝ) : ℂ) *
        ∑ t ∈ range x.length, (x.getD t 0 : ℂ) * Complex.exp (-2 * π * Complex.I * t * k / x.length)).getD (k + 1) 0 *
          Complex.exp (2 * π * Complex.I * (k + 1) * t / ((2 * h : ℕ) : ℂ))).re =
      1 / sqrt x.length * ∑ s ∈ range x.length, x.getD s 0 * (2 * cos (2 * π * (k + 1) * ((t - s : ℤ) : ℝ) / (2 * h))) := by
    intro k hk
    have hk := mem_range.1 hk
    rw [getD_map_range _ _ _ _ (by omega), rfft_coeff _ _ hne]
    have e : 2 * π * Complex.I * ((k : ℂ) + 1) * t / ((2 * h : ℕ) : ℂ) =
        -((-(2 * π * (k + 1) * t / (2 * h)) : ℝ) : ℂ) * Complex.I := by push_cast; ring
    rw [e, re_mul_exp, ← mul_assoc, mul_comm 2, mul_assoc, mul_sum]
    congr 1
    apply sum_congr rfl
    intro s _
    have e2 : 2 * π * (s : ℝ) * ((k + 1 : ℕ) : ℝ) / x.length + -(2 * π * ((k : ℝ) + 1) * t / (2 * h)) =
        -(2 * π * (k + 1) * ((t - s : ℤ) : ℝ) / (2 * h)) := by
      rw [hx]; push_cast; ring
    rw [e2, cos_neg]; ring
  rw [sum_congr rfl hk, ← mul_sum, sum_comm, h0, h0, hx]
  have hs0 : ∀ s ∈ range (2 * h), x.getD s 0 * cos (2 * π * (s : ℝ) * ((0 : ℕ) : ℝ) / ((2 * h : ℕ) : ℝ)) = x.getD s 0 * 1 := by
    intro s _; simp
  have hsh : ∀ s ∈ range (2 * h), x.getD s 0 * cos (2 * π * (s : ℝ) * (h : ℝ) / ((2 * h : ℕ) : ℝ)) =
      x.getD s 0 * cos (π * s) := by
    intro s _
    congr 2
    push_cast; field_simp
  have hpm : ∀ s : ℕ, cos (π * s) * (-1) ^ t = cos (π * ((t - s : ℤ) : ℝ)) := by
    intro s
    have e : π * ((t - s : ℤ) : ℝ) = t * π - s * π := by push_cast; ring
    rw [e, cos_sub, sin_nat_mul_pi, zero_mul, add_zero, cos_nat_mul_pi, mul_comm π, cos_nat_mul_pi]; ring
  rw [sum_congr rfl hs0, sum_congr rfl hsh, mul_assoc, sum_mul]
  have hsn : sqrt (((2 * h : ℕ) : ℝ)) * sqrt (((2 * h : ℕ) : ℝ)) = 2 * h := by
    rw [mul_self_sqrt (by positivity)]; push_cast; ring
  have hsn0 : sqrt (((2 * h : ℕ) : ℝ)) ≠ 0 := by
    rw [Real.sqrt_ne_zero (by positivity)]; push_cast; positivity
  rw [← mul_add, ← mul_add, ← mul_assoc, ← sum_add_distrib, ← sum_add_distrib]
  have hterm : ∀ s ∈ range (2 * h), x.getD s 0 * 1 + x.getD s 0 * cos (π * s) * (-1) ^ t +
        ∑ k ∈ range (h - 1), x.getD s 0 * (2 * cos (2 * π * (k + 1) * ((t - s : ℤ) : ℝ) / (2 * h))) =
      if s = t then 2 * h * x.getD s 0 else 0 := by
    intro s hs
    have hs := mem_range.1 hs
    rw [← mul_sum, ← mul_sum, mul_assoc, hpm, ← mul_add, ← mul_add, TrigSums.sum_half_circle h hh]
    by_cases hst : s = t
    · subst hst
      rw [if_pos (by simp), if_pos rfl]; ring
    · rw [if_neg, if_neg hst, mul_zero]
      rintro ⟨j, hj⟩
      have : j = 0 := by
        by_contra h0
        rcases lt_or_gt_of_ne h0 with h1 | h1
        · have : (2 * h : ℤ) * j ≤ (2 * h) * (-1) := mul_le_mul_of_nonneg_left (by omega) (by omega)
          omega
        · have : (2 * h : ℤ) * 1 ≤ (2 * h) * j := mul_le_mul_of_nonneg_left (by omega) (by omega)
          omega
      subst this
      omega
  rw [sum_congr rfl hterm, sum_ite_eq', if_pos (mem_range.2 ht)]
  have : 1 / sqrt (((2 * h : ℕ) : ℝ)) * (1 / sqrt (((2 * h : ℕ) : ℝ))) = 1 / (2 * h) := by
    rw [one_div_mul_one_div, hsn]
  rw [this]; field_simp

example := C54_fft_inverse 2 (by decide) [1, 2, 3, 4] rfl

/-- **C54, odd windows**: a window of an odd number of samples does not come back: one sample is missing. -/
theorem C54_fft_odd_refuted (h : ℕ) (hh : 0 < h) (x : List ℝ) (hx : x.length = 2 * h + 1) :
    ∃ X y, rfft x = .ok X ∧ irfft X = .ok y ∧ y.length + 1 = x.length ∧ y ≠ x := by
  have hne : x ≠ [] := by rintro rfl; simp at hx
  unfold rfft
  rw [if_neg hne]
  have hlen : ∀ f : ℕ → ℂ, ((List.range (x.length / 2 + 1)).map f).length = h + 1 := by
    intro f; simp only [List.length_map, List.length_range, hx]; omega
  refine ⟨_, _, rfl, by unfold irfft; rw [hlen, if_neg (by omega)], ?_, ?_⟩
  · simp; omega
  · intro he
    have := congrArg List.length he
    simp at this
    omega

/-- **C54, zero padding**: with padding the inverse gives the window followed by the padding. -/
theorem C54_fft_padded (x : List ℝ) (padding h : ℕ) (hh : 0 < h) (hx : x.length + padding = 2 * h) :
    ∃ X, zfft x padding = .ok X ∧ X.length = h + 1 ∧ irfft X = .ok (x ++ List.replicate padding 0) := by
  exact C54_fft_inverse h hh _ (by simp [hx])

example := C54_fft_padded [1, 2, 3] 5 4 (by decide) rfl

/-- **C54, FFT analysis and synthesis**: audio cut into half-lapped windows of `2 m` samples weighted by the ogg vorbis window,
transformed by the FFT node without padding and given to the FFT synthesizer comes back scaled by `1 / oggMax²`, except in the first
and last half window. -/
theorem C54_fft_roundtrip (x : ℕ → ℝ) (f0 : Int) (m k : ℕ) (hf0 : 0 < f0) (hm : 0 < m) :
    ∃ coeffs out,
      ((List.range (k + 1)).map fun i => (List.range (2 * m)).map fun j =>
        (WindowFunc.oggvorbis (2 * m)).getD j 0 * x (i * m + j)).mapM (fun r => zfft r 0) = .ok coeffs ∧
      coeffs.length = k + 1 ∧ (∀ c ∈ coeffs, c.length = m + 1) ∧
      fftSynthesize ⟨Synth.windowsDim f0 (2 * m) m (k + 1), m + 1, coeffs⟩ = .ok out ∧
      out.length = (k + 2) * m ∧
      ∀ t, m ≤ t → t < (k + 1) * m → out.getD t 0 = (1 / WindowFunc.oggMax (2 * m) ^ 2) * x t := by
  obtain ⟨out, e, l, hg⟩ := WindowFunc.C50_ogg_roundtrip x f0 m k hf0 hm
  choose X h1 h2 h3 using fun i : ℕ => C54_fft_inverse m hm ((List.range (2 * m)).map fun j =>
    (WindowFunc.oggvorbis (2 * m)).getD j 0 * x (i * m + j)) (by simp)
  refine ⟨(List.range (k + 1)).map X, out, ?_, by simp, ?_, ?_, l, hg⟩
  · apply mapM_ok (fun r => zfft r 0) _ X
    intro i _
    unfold zfft
    simpa using h1 i
  · intro c hc
    obtain ⟨i, _, rfl⟩ := List.mem_map.1 hc
    exact h2 i
  · unfold fftSynthesize
    rw [mapM_ok irfft X _ _ fun i _ => h3 i]
    simp only [Nat.add_sub_cancel]
    exact e

example := C54_fft_roundtrip (fun t => (t : ℝ)) 22675736 2 3 (by decide) (by decide)

/-- **C54, padding and synthesis**: coefficients of windows padded to twice their size are not inverted by the synthesizer: it takes the
duration of the padded frame to be that of the window, so it returns twice as many samples (and takes them to be half as long). -/
theorem C54_fft_padded_synthesis_refuted (x : ℕ → ℝ) (f1 : Int) (m k : ℕ) (hf1 : 0 < f1) (hm : 0 < m) :
    ∃ coeffs out,
      ((List.range (k + 1)).map fun i => (List.range (2 * m)).map fun j =>
        (WindowFunc.oggvorbis (2 * m)).getD j 0 * x (i * m + j)).mapM (fun r => zfft r (2 * m)) = .ok coeffs ∧
      (∀ c ∈ coeffs, c.length = 2 * m + 1) ∧
      fftSynthesize ⟨Synth.windowsDim (2 * f1) (2 * m) m (k + 1), 2 * m + 1, coeffs⟩ = .ok out ∧
      out.length = 2 * ((k + 2) * m) ∧
      ∀ i r, i ≤ k → r < 2 * m → out.getD (i * (2 * m) + r) 0 =
        (WindowFunc.oggvorbis (4 * m)).getD r 0 * ((WindowFunc.oggvorbis (2 * m)).getD r 0 * x (i * m + r)) := by
  choose X h1 h2 h3 using fun i : ℕ => C54_fft_padded ((List.range (2 * m)).map fun j =>
    (WindowFunc.oggvorbis (2 * m)).getD j 0 * x (i * m + j)) (2 * m) (2 * m) (by omega) (by simp; omega)
  let F : ℕ → ℕ → ℝ := fun i j => if j < 2 * m then
    (WindowFunc.oggvorbis (4 * m)).getD j 0 * ((WindowFunc.oggvorbis (2 * m)).getD j 0 * x (i * m + j)) else 0
  let rows : List (List ℝ) := (List.range (k + 1)).map fun i => (List.range (2 * (2 * m))).map (F i)
  have hdim : Synth.windowsDim (2 * f1) (2 * m) m (k + 1) = Synth.windowsDim f1 (2 * (2 * m)) (2 * m) (k + 1) := by
    unfold Synth.windowsDim; congr 1 <;> push_cast <;> ring
  obtain ⟨out, e, l, hg⟩ := Synth.C35_overlap_add (⟨Synth.windowsDim f1 (2 * (2 * m)) (2 * m) (k + 1), 2 * (2 * m), rows⟩ : Synth.Frames ℝ)
    f1 (2 * m) k hf1 (by simp; omega) rfl (by intro r hr; simp only [rows, List.mem_map] at hr; obtain ⟨i, _, rfl⟩ := hr; simp)
  refine ⟨(List.range (k + 1)).map X, out, ?_, ?_, ?_, by rw [l]; simp only; ring, ?_⟩
  · exact mapM_ok (fun r => zfft r (2 * m)) _ X _ fun i _ => h1 i
  · intro c hc
    obtain ⟨i, _, rfl⟩ := List.mem_map.1 hc
    exact h2 i
  · unfold fftSynthesize
    rw [mapM_ok irfft X _ _ fun i _ => h3 i]
    simp only [Nat.add_sub_cancel]
    rw [Synth.C35_synthesis_window, ← e, hdim]
    congr 2
    simp only [rows, List.map_map]
    apply List.map_congr_left
    intro i _
    simp only [Function.comp]
    apply Synth.getD_ext
    · simp [WindowFunc.oggvorbis_length]; omega
    · intro t ht
      simp only [List.length_zipWith, WindowFunc.oggvorbis_length, List.length_append, List.length_map, List.length_range,
        List.length_replicate] at ht
      rw [getD_map_range _ _ _ _ (by omega)]
      simp only [F]
      have h4 : 2 * (2 * m) = 4 * m := by ring
      rw [List.getD_eq_getElem?_getD, List.getElem?_zipWith, h4]
      have h5 : (WindowFunc.oggvorbis (4 * m))[t]? = some ((WindowFunc.oggvorbis (4 * m)).getD t 0) := by
        rw [List.getD_eq_getElem?_getD, WindowFunc.oggvorbis_get _ _ (by omega)]; rfl
      rw [h5]
      by_cases h : t < 2 * m
      · rw [if_pos h, List.getElem?_append_left (by simpa using h), List.getElem?_map, List.getElem?_range h]
        rfl
      · rw [if_neg h, List.getElem?_append_right (by simpa using h), List.getElem?_replicate, if_pos (by simp; omega)]
        simp
  · intro i r hi hr
    rw [hg _ (by rw [l]; simp only; have : i * (2 * m) ≤ k * (2 * m) := Nat.mul_le_mul_right _ hi
                 omega)]
    unfold Synth.overlapped
    have hlen : rows.length = k + 1 := by simp [rows]
    simp only [hlen]
    rw [sum_eq_single i]
    · rw [if_pos (by omega)]
      simp only [rows]
      rw [getD_map_range _ _ _ _ (by omega), getD_map_range _ _ _ _ (by omega)]
      simp only [F, Nat.add_sub_cancel_left]
      rw [if_pos hr]
    · intro j hj hne
      have hj := mem_range.1 hj
      by_cases h : j * (2 * m) ≤ i * (2 * m) + r
      · rw [if_pos h]
        simp only [rows]
        rw [getD_map_range _ _ _ _ hj]
        have hji : j < i := by
          by_contra hc
          have : (i + 1) * (2 * m) ≤ j * (2 * m) := Nat.mul_le_mul_right _ (by omega)
          have : (i + 1) * (2 * m) = i * (2 * m) + 2 * m := by ring
          omega
        have h6 : (j + 1) * (2 * m) ≤ i * (2 * m) := Nat.mul_le_mul_right _ (by omega)
        have h7 : (j + 1) * (2 * m) = j * (2 * m) + 2 * m := by ring
        by_cases h8 : i * (2 * m) + r - j * (2 * m) < 2 * (2 * m)
        · rw [getD_map_range _ _ _ _ h8]
          simp only [F]
          rw [if_neg (by omega)]
        · rw [getD_map_range_ge _ _ _ _ (by omega)]
      · rw [if_neg h]
    · intro h; exact absurd (mem_range.2 (by omega)) h

/-! ## Cosine transforms -/

/-- The kernel of the type II cosine transform. -/
noncomputable def dctKernel (n k t : ℕ) : ℝ :=
  (if k = 0 then sqrt (1 / n) else sqrt (2 / n)) * cos (π * k * (2 * t + 1) / (2 * n))

theorem dctKernel_orthogonal (n : ℕ) (hn : 0 < n) (t s : ℕ) (ht : t < n) (hs : s < n) :
    ∑ k ∈ range n, dctKernel n k t * dctKernel n k s = if s = t then 1 else 0 := by
  have hn' : (n : ℝ) ≠ 0 := by exact_mod_cast hn.ne'
  obtain ⟨p, rfl⟩ : ∃ p, n = p + 1 := ⟨n - 1, by omega⟩
  rw [sum_range_succ']
  have h0 : dctKernel (p + 1) 0 t * dctKernel (p + 1) 0 s = 1 / ((p + 1 : ℕ) : ℝ) := by
    unfold dctKernel
    simp only [if_true]
    simp only [Nat.cast_zero, mul_zero, zero_mul, zero_div, cos_zero, mul_one]
    rw [mul_self_sqrt (by positivity)]
  have hk : ∀ k ∈ range p, dctKernel (p + 1) (k + 1) t * dctKernel (p + 1) (k + 1) s =
      1 / ((p + 1 : ℕ) : ℝ) * (cos (2 * π * (k + 1) * ((t - s : ℤ) : ℝ) / (2 * ((p + 1 : ℕ) : ℝ))) +
        cos (2 * π * (k + 1) * ((t + s + 1 : ℤ) : ℝ) / (2 * ((p + 1 : ℕ) : ℝ)))) := by
    intro k _
    unfold dctKernel
    rw [if_neg (by omega)]
    have h2 : sqrt (2 / ((p + 1 : ℕ) : ℝ)) * sqrt (2 / ((p + 1 : ℕ) : ℝ)) = 2 / ((p + 1 : ℕ) : ℝ) := mul_self_sqrt (by positivity)
    set A := π * ((k + 1 : ℕ) : ℝ) * (2 * t + 1) / (2 * ((p + 1 : ℕ) : ℝ)) with hA
    set B := π * ((k + 1 : ℕ) : ℝ) * (2 * s + 1) / (2 * ((p + 1 : ℕ) : ℝ)) with hB
    have e1 : 2 * π * ((k : ℝ) + 1) * ((t - s : ℤ) : ℝ) / (2 * ((p + 1 : ℕ) : ℝ)) = A - B := by
      rw [hA, hB]; push_cast; field_simp; ring
    have e2 : 2 * π * ((k : ℝ) + 1) * ((t + s + 1 : ℤ) : ℝ) / (2 * ((p + 1 : ℕ) : ℝ)) = A + B := by
      rw [hA, hB]; push_cast; field_simp; ring
    rw [e1, e2, cos_sub, cos_add]
    linear_combination (cos A * cos B) * h2
  rw [h0, sum_congr rfl hk, ← mul_sum, sum_add_distrib]
  have c1 := TrigSums.sum_half_circle (p + 1) hn (t - s : ℤ)
  have c2 := TrigSums.sum_half_circle (p + 1) hn (t + s + 1 : ℤ)
  simp only [Nat.add_sub_cancel] at c1 c2
  have n2 : ¬ (2 * ((p + 1 : ℕ) : ℤ)) ∣ (t + s + 1 : ℤ) := by
    rintro ⟨j, hj⟩
    have h1 : 1 ≤ j := by
      by_contra h0
      have : (2 * ((p + 1 : ℕ) : ℤ)) * j ≤ (2 * ((p + 1 : ℕ) : ℤ)) * 0 := mul_le_mul_of_nonneg_left (by omega) (by omega)
      omega
    have : (2 * ((p + 1 : ℕ) : ℤ)) * 1 ≤ (2 * ((p + 1 : ℕ) : ℤ)) * j := mul_le_mul_of_nonneg_left (by omega) (by omega)
    omega
  rw [if_neg n2] at c2
  have hpar : cos (π * ((t - s : ℤ) : ℝ)) + cos (π * ((t + s + 1 : ℤ) : ℝ)) = 0 := by
    have e : π * ((t + s + 1 : ℤ) : ℝ) = π * ((t - s : ℤ) : ℝ) + π + (s : ℤ) * (2 * π) := by push_cast; ring
    rw [e, cos_add_int_mul_two_pi, cos_add_pi]; ring
  set S1 := ∑ x ∈ range p, cos (2 * π * ((x : ℝ) + 1) * ((t - s : ℤ) : ℝ) / (2 * ((p + 1 : ℕ) : ℝ))) with hS1
  set S2 := ∑ x ∈ range p, cos (2 * π * ((x : ℝ) + 1) * ((t + s + 1 : ℤ) : ℝ) / (2 * ((p + 1 : ℕ) : ℝ))) with hS2
  clear_value S1 S2
  by_cases hst : s = t
  · rw [if_pos (by subst hst; simp)] at c1
    rw [if_pos hst]
    have : S1 + S2 = ((p + 1 : ℕ) : ℝ) - 1 := by linarith
    rw [this]
    field_simp
    ring
  · have n1 : ¬ (2 * ((p + 1 : ℕ) : ℤ)) ∣ (t - s : ℤ) := by
      rintro ⟨j, hj⟩
      have : j = 0 := by
        by_contra h0
        rcases lt_or_gt_of_ne h0 with h1 | h1
        · have : (2 * ((p + 1 : ℕ) : ℤ)) * j ≤ (2 * ((p + 1 : ℕ) : ℤ)) * (-1) := mul_le_mul_of_nonneg_left (by omega) (by omega)
          omega
        · have : (2 * ((p + 1 : ℕ) : ℤ)) * 1 ≤ (2 * ((p + 1 : ℕ) : ℤ)) * j := mul_le_mul_of_nonneg_left (by omega) (by omega)
          omega
      subst this
      omega
    rw [if_neg n1] at c1
    rw [if_neg hst]
    have : S1 + S2 = - 1 := by linarith
    rw [this]
    ring

theorem scipyDct_eq (x : List ℝ) (hx : x ≠ []) :
    scipyDct x = .ok ((List.range x.length).map fun k => ∑ t ∈ range x.length, dctKernel x.length k t * x.getD t 0) := by
  unfold scipyDct
  rw [if_neg hx]
  congr 1
  apply List.map_congr_left
  intro k _
  rw [mul_sum]
  apply sum_congr rfl
  intro t _
  unfold dctKernel; ring

theorem scipyIdct_eq (x : List ℝ) (hx : x ≠ []) :
    scipyIdct x = .ok ((List.range x.length).map fun t => ∑ k ∈ range x.length, dctKernel x.length k t * x.getD k 0) := by
  unfold scipyIdct
  rw [if_neg hx]
  congr 1
  apply List.map_congr_left
  intro k _
  apply sum_congr rfl
  intro t _
  unfold dctKernel; ring

/-- **C54, DCT round trip**: the inverse cosine transform of the cosine transform of any window is the window. -/
theorem C54_dct_inverse (x : List ℝ) (hx : x ≠ []) : ∃ X, scipyDct x = .ok X ∧ X.length = x.length ∧ scipyIdct X = .ok x := by
  have hn : 0 < x.length := List.length_pos_of_ne_nil hx
  refine ⟨_, scipyDct_eq x hx, by simp, ?_⟩
  rw [scipyIdct_eq _ (by intro h; have := congrArg List.length h; simp at this; exact hx this)]
  simp only [List.length_map, List.length_range]
  congr 1
  apply Synth.getD_ext (by simp)
  intro t ht
  simp only [List.length_map, List.length_range] at ht
  rw [getD_map_range _ _ _ _ ht]
  have : ∀ k ∈ range x.length, dctKernel x.length k t * ((List.range x.length).map fun k => ∑ t ∈ range x.length,
      dctKernel x.length k t * x.getD t 0).getD k 0 =
      ∑ s ∈ range x.length, x.getD s 0 * (dctKernel x.length k t * dctKernel x.length k s) := by
    intro k hk
    rw [getD_map_range _ _ _ _ (mem_range.1 hk), mul_sum]
    apply sum_congr rfl
    intro s _; ring
  rw [sum_congr rfl this, sum_comm]
  have h2 : ∀ s ∈ range x.length, ∑ k ∈ range x.length, x.getD s 0 * (dctKernel x.length k t * dctKernel x.length k s) =
      if s = t then x.getD s 0 else 0 := by
    intro s hs
    rw [← mul_sum, dctKernel_orthogonal _ hn t s ht (mem_range.1 hs)]
    split <;> simp
  rw [sum_congr rfl h2, sum_ite_eq', if_pos (mem_range.2 ht)]

example := C54_dct_inverse [1, 2, 3] (by simp)

theorem dctKernel_orthogonal' (n : ℕ) (hn : 0 < n) (k l : ℕ) (hk : k < n) (hl : l < n) :
    ∑ t ∈ range n, dctKernel n k t * dctKernel n l t = if l = k then 1 else 0 := by
  let A : Matrix (Fin n) (Fin n) ℝ := fun k t => dctKernel n k t
  have h1 : A.transpose * A = 1 := by
    ext t s
    rw [Matrix.mul_apply]
    have := dctKernel_orthogonal n hn t s t.2 s.2
    rw [Finset.sum_range] at this
    have e : ∑ j, A.transpose t j * A j s = ∑ i : Fin n, dctKernel n i t * dctKernel n i s := rfl
    rw [e, this, Matrix.one_apply]
    simp only [Fin.ext_iff, eq_comm]
  have h2 : A * A.transpose = 1 := mul_eq_one_comm.1 h1
  have h3 := congrFun (congrFun h2 ⟨k, hk⟩) ⟨l, hl⟩
  rw [Matrix.mul_apply] at h3
  rw [Finset.sum_range]
  have e : ∑ j, A ⟨k, hk⟩ j * A.transpose j ⟨l, hl⟩ = ∑ i : Fin n, dctKernel n k i * dctKernel n l i := rfl
  rw [← e, h3, Matrix.one_apply]
  simp only [Fin.ext_iff, eq_comm]

/-- **C54, the other way round**: the cosine transform of the inverse cosine transform. -/
theorem C54_idct_inverse (X : List ℝ) (hX : X ≠ []) : ∃ x, scipyIdct X = .ok x ∧ x.length = X.length ∧ scipyDct x = .ok X := by
  have hn : 0 < X.length := List.length_pos_of_ne_nil hX
  refine ⟨_, scipyIdct_eq X hX, by simp, ?_⟩
  rw [scipyDct_eq _ (by intro h; have := congrArg List.length h; simp at this; exact hX this)]
  simp only [List.length_map, List.length_range]
  congr 1
  apply Synth.getD_ext (by simp)
  intro k hk
  simp only [List.length_map, List.length_range] at hk
  rw [getD_map_range _ _ _ _ hk]
  have : ∀ t ∈ range X.length, dctKernel X.length k t * ((List.range X.length).map fun t => ∑ k ∈ range X.length,
      dctKernel X.length k t * X.getD k 0).getD t 0 =
      ∑ l ∈ range X.length, X.getD l 0 * (dctKernel X.length k t * dctKernel X.length l t) := by
    intro t ht
    rw [getD_map_range _ _ _ _ (mem_range.1 ht), mul_sum]
    apply sum_congr rfl
    intro s _; ring
  rw [sum_congr rfl this, sum_comm]
  have h2 : ∀ l ∈ range X.length, ∑ t ∈ range X.length, X.getD l 0 * (dctKernel X.length k t * dctKernel X.length l t) =
      if l = k then X.getD l 0 else 0 := by
    intro l hl
    rw [← mul_sum, dctKernel_orthogonal' _ hn k l hk (mem_range.1 hl)]
    split <;> simp
  rw [sum_congr rfl h2, sum_ite_eq', if_pos (mem_range.2 hk)]

example := C54_idct_inverse [1, 2, 3] (by simp)

/-- **C54, DCT analysis and synthesis**: for windows weighted so that the hop-shifted copies of the weights sum to one, the DCT node
followed by the DCT synthesizer (with no synthesis window) gives the signal back, except where the copies are not complete. -/
theorem C54_dct_roundtrip (x w : ℕ → ℝ) (f0 : Int) (n hop k : ℕ) (hf0 : 0 < f0) (hn : 0 < n) (hhop : 0 < hop)
    (hw : Synth.ShiftSum w n hop 1) :
    ∃ coeffs out,
      ((List.range (k + 1)).map fun i => (List.range n).map fun j => w j * x (i * hop + j)).mapM scipyDct = .ok coeffs ∧
      dctSynthesize none ⟨Synth.windowsDim f0 n hop (k + 1), n, coeffs⟩ = .ok out ∧
      out.length = k * hop + n ∧
      ∀ t, n ≤ t + hop → t < (k + 1) * hop → t < out.length → out.getD t 0 = x t := by
  obtain ⟨out, e, l, hg⟩ := Synth.C35_reconstructs x w f0 n hop k 1 hf0 hn hhop hw
  choose X h1 h2 h3 using fun i : ℕ => C54_dct_inverse ((List.range n).map fun j => w j * x (i * hop + j))
    (by intro h; have := congrArg List.length h; simp at this; omega)
  refine ⟨(List.range (k + 1)).map X, out, ?_, ?_, l, ?_⟩
  · exact mapM_ok scipyDct _ X _ fun i _ => h1 i
  · unfold dctSynthesize
    rw [mapM_ok scipyIdct X _ _ fun i _ => h3 i]
    exact e
  · intro t h4 h5 h6
    rw [hg t h4 h5 h6, one_mul]

example := C54_dct_roundtrip (fun t => (t : ℝ)) (fun _ => 1) 22675736 4 4 3 (by decide) (by decide) (by decide) (by
  intro r hr
  rw [Finset.sum_eq_single 0]
  · simp [hr]
  · intro b _ hb
    exact if_neg (by omega)
  · simp)

end Zounds.Spectral
