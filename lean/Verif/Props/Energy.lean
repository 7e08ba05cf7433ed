import Verif.Props.Fft
import Mathlib.Tactic.Ring
import Mathlib.Tactic.Linarith
import Mathlib.Tactic.FieldSimp

/-!
# The energy of a sound and of its coefficients (C362-C364)
-/

namespace Zounds.Energy
open Zounds Zounds.Spectral Finset Real

/-- The energy of some numbers: the sum of their squares. -/
def energy (x : List ℝ) : ℝ := (x.map fun v => v ^ 2).sum

/-- The energy of the coefficients of a real FFT: every coefficient stands for two of the full FFT, except the first and the last. -/
noncomputable def spectrumEnergy (X : List ℂ) : ℝ :=
  ((List.range X.length).map fun k => (if k = 0 ∨ k = X.length - 1 then 1 else 2) * ‖X.getD k 0‖ ^ 2).sum

theorem list_sum_range (f : ℕ → ℝ) (n : ℕ) : ((List.range n).map f).sum = ∑ i ∈ range n, f i := by
  induction n with
  | zero => rfl
  | succ n ih => rw [List.range_succ, List.map_append, List.sum_append, ih, Finset.sum_range_succ]; simp

theorem energy_eq (x : List ℝ) : energy x = ∑ t ∈ range x.length, x.getD t 0 ^ 2 := by
  have hx : x = (List.range x.length).map fun t => x.getD t 0 := by
    apply Synth.getD_ext (by simp)
    intro t ht
    rw [getD_map_range _ _ _ _ ht]
  rw [← list_sum_range]
  unfold energy
  conv_lhs => rw [hx]
  rw [List.map_map]
  rfl

theorem energy_map_range (f : ℕ → ℝ) (n : ℕ) : energy ((List.range n).map f) = ∑ t ∈ range n, f t ^ 2 := by
  unfold energy
  rw [List.map_map, ← list_sum_range]
  rfl

/-- The squares of the sums, from the products of the kernel. -/
theorem gram (n m : ℕ) (K : ℕ → ℕ → ℝ) (x : ℕ → ℝ) :
    ∑ k ∈ range n, (∑ t ∈ range m, K k t * x t) ^ 2 = ∑ t ∈ range m, x t * ∑ s ∈ range m, (∑ k ∈ range n, K k t * K k s) * x s := by
  simp only [pow_two, sum_mul_sum]
  rw [sum_comm]
  apply sum_congr rfl
  intro t _
  rw [mul_sum, sum_comm]
  apply sum_congr rfl
  intro s _
  rw [sum_mul, mul_sum]
  exact sum_congr rfl fun k _ => by ring

/-- **C362**: the cosine transform keeps the energy of a window. -/
theorem C362_dct (x : List ℝ) (hx : x ≠ []) : ∃ X, scipyDct x = .ok X ∧ energy X = energy x := by
  have hn : 0 < x.length := by cases x with
    | nil => exact absurd rfl hx
    | cons a l => simp
  refine ⟨_, scipyDct_eq x hx, ?_⟩
  rw [energy_map_range, gram, energy_eq]
  apply sum_congr rfl
  intro t ht
  have : ∀ s ∈ range x.length, (∑ k ∈ range x.length, dctKernel x.length k t * dctKernel x.length k s) * x.getD s 0 =
      if s = t then x.getD s 0 else 0 := by
    intro s hs
    rw [dctKernel_orthogonal _ hn t s (mem_range.1 ht) (mem_range.1 hs)]
    split <;> simp
  rw [sum_congr rfl this, sum_ite_eq', if_pos ht]
  ring

example := C362_dct [1, 2, 3] (by simp)

/-- **C362, back**: so does its inverse. -/
theorem C362_idct (X : List ℝ) (hX : X ≠ []) : ∃ x, scipyIdct X = .ok x ∧ energy x = energy X := by
  obtain ⟨x, h1, h2, h3⟩ := C54_idct_inverse X hX
  have hx : x ≠ [] := by
    rintro rfl
    exact hX (List.length_eq_zero_iff.1 (by rw [← h2]; rfl))
  obtain ⟨Y, e1, e2⟩ := C362_dct x hx
  rw [h3] at e1
  cases e1
  exact ⟨x, h1, e2.symm⟩

example := C362_idct [1, 2, 3] (by simp)

theorem re_mul_conj_sum (n : ℕ) (c : ℝ) (x : ℕ → ℝ) (e : ℕ → ℂ) (X : ℂ) (hX : X = (c : ℂ) * ∑ t ∈ range n, (x t : ℂ) * e t) :
    ∑ t ∈ range n, x t * (c * (X * (starRingEnd ℂ) (e t)).re) = ‖X‖ ^ 2 := by
  have h : (X * (starRingEnd ℂ) X).re = ‖X‖ ^ 2 := by
    rw [Complex.mul_conj, Complex.ofReal_re, Complex.normSq_eq_norm_sq]
  rw [← h]
  conv_rhs => rw [show (starRingEnd ℂ) X = (c : ℂ) * ∑ t ∈ range n, (x t : ℂ) * (starRingEnd ℂ) (e t) by
    rw [hX, map_mul, map_sum, Complex.conj_ofReal]
    congr 1
    exact sum_congr rfl fun t _ => by rw [map_mul, Complex.conj_ofReal]]
  rw [mul_sum, mul_sum, Complex.re_sum]
  apply sum_congr rfl
  intro t _
  rw [show X * ((c : ℂ) * ((x t : ℂ) * (starRingEnd ℂ) (e t))) = ((x t * c : ℝ) : ℂ) * (X * (starRingEnd ℂ) (e t)) by push_cast; ring,
    Complex.re_ofReal_mul]
  ring

/-- **C363**: the FFT keeps the energy of a window of an even number of samples, every coefficient but the first and the last counted
twice. -/
theorem C363_fft (h : ℕ) (hh : 0 < h) (x : List ℝ) (hx : x.length = 2 * h) :
    ∃ X, rfft x = .ok X ∧ X.length = h + 1 ∧ spectrumEnergy X = energy x := by
  obtain ⟨X, e1, e2, e3⟩ := C54_fft_inverse h hh x hx
  refine ⟨X, e1, e2, ?_⟩
  have hne : x ≠ [] := by rintro rfl; simp at hx; omega
  have hc : ∀ k, k ≤ h → X.getD k 0 = ((1 / sqrt (2 * h : ℕ) : ℝ) : ℂ) *
      ∑ t ∈ range (2 * h), (x.getD t 0 : ℂ) * Complex.exp (-2 * π * Complex.I * t * k / (2 * h : ℕ)) := by
    intro k hk
    unfold rfft at e1
    rw [if_neg hne] at e1
    cases e1
    rw [getD_map_range _ _ _ _ (by omega), hx]
  have hs : ∀ t, t < 2 * h → x.getD t 0 = 1 / sqrt (2 * h : ℕ) *
      ((X.getD 0 0).re + (X.getD h 0).re * (-1) ^ t +
        ∑ k ∈ range (h - 1), 2 * (X.getD (k + 1) 0 * Complex.exp (2 * π * Complex.I * (k + 1) * t / (2 * h : ℕ))).re) := by
    intro t ht
    unfold irfft at e3
    rw [e2, if_neg (by omega)] at e3
    simp only [Nat.add_sub_cancel] at e3
    have e4 := Except.ok.inj e3
    conv_lhs => rw [← e4]
    rw [getD_map_range _ _ _ _ ht]
  have hconj : ∀ k t : ℕ, (starRingEnd ℂ) (Complex.exp (-2 * π * Complex.I * t * k / (2 * h : ℕ))) =
      Complex.exp (2 * π * Complex.I * k * t / (2 * h : ℕ)) := by
    intro k t
    rw [← Complex.exp_conj]
    congr 1
    simp only [map_div₀, map_mul, map_neg, Complex.conj_I, Complex.conj_ofReal, map_natCast, map_ofNat]
    ring
  have h0 : ∀ t : ℕ, Complex.exp (2 * π * Complex.I * (0 : ℕ) * t / (2 * h : ℕ)) = 1 := by intro t; simp
  have hh' : (h : ℂ) ≠ 0 := by exact_mod_cast hh.ne'
  have hlast : ∀ t : ℕ, Complex.exp (2 * π * Complex.I * h * t / (2 * h : ℕ)) = (((-1) ^ t : ℝ) : ℂ) := by
    intro t
    rw [show 2 * π * Complex.I * h * t / ((2 * h : ℕ) : ℂ) = (t : ℂ) * (π * Complex.I) by push_cast; field_simp]
    rw [Complex.exp_nat_mul, Complex.exp_pi_mul_I]
    push_cast
    rfl
  have part : ∀ k, k ≤ h → ∑ t ∈ range (2 * h), x.getD t 0 * (1 / sqrt (2 * h : ℕ) *
      (X.getD k 0 * Complex.exp (2 * π * Complex.I * k * t / (2 * h : ℕ))).re) = ‖X.getD k 0‖ ^ 2 := by
    intro k hk
    rw [← re_mul_conj_sum (2 * h) (1 / sqrt (2 * h : ℕ)) (fun t => x.getD t 0) _ _ (hc k hk)]
    apply sum_congr rfl
    intro t _
    rw [hconj]
  have p0 := part 0 (by omega)
  have ph := part h (le_refl _)
  simp only [h0, mul_one] at p0
  simp only [hlast] at ph
  have htot : energy x = ‖X.getD 0 0‖ ^ 2 + ‖X.getD h 0‖ ^ 2 + ∑ k ∈ range (h - 1), 2 * ‖X.getD (k + 1) 0‖ ^ 2 := by
    rw [energy_eq, hx]
    have e5 : ∀ t ∈ range (2 * h), x.getD t 0 ^ 2 = x.getD t 0 * (1 / sqrt (2 * h : ℕ) * (X.getD 0 0).re) +
        x.getD t 0 * (1 / sqrt (2 * h : ℕ) * (X.getD h 0 * (((-1) ^ t : ℝ) : ℂ)).re) +
        ∑ k ∈ range (h - 1), 2 * (x.getD t 0 * (1 / sqrt (2 * h : ℕ) *
          (X.getD (k + 1) 0 * Complex.exp (2 * π * Complex.I * ((k + 1 : ℕ) : ℂ) * t / (2 * h : ℕ))).re)) := by
      intro t ht
      have e6 : ∀ k : ℕ, ((k + 1 : ℕ) : ℂ) = (k : ℂ) + 1 := by intro k; push_cast; rfl
      rw [mul_comm (X.getD h 0), Complex.re_ofReal_mul]
      simp only [e6]
      have e7 := hs t (mem_range.1 ht)
      rw [pow_two]
      conv_lhs => rw [show x.getD t 0 * x.getD t 0 = x.getD t 0 * (1 / sqrt (2 * h : ℕ) *
        ((X.getD 0 0).re + (X.getD h 0).re * (-1) ^ t +
        ∑ k ∈ range (h - 1), 2 * (X.getD (k + 1) 0 * Complex.exp (2 * π * Complex.I * (k + 1) * t / (2 * h : ℕ))).re)) from by rw [← e7]]
      rw [mul_add, mul_add, mul_sum, mul_sum]
      congr 1
      · ring
      · exact sum_congr rfl fun k _ => by ring
    rw [sum_congr rfl e5, sum_add_distrib, sum_add_distrib, p0, ph, sum_comm]
    congr 1
    apply sum_congr rfl
    intro k hk
    rw [← mul_sum, part (k + 1) (by have := mem_range.1 hk; omega)]
  rw [htot]
  unfold spectrumEnergy
  rw [e2, list_sum_range]
  obtain ⟨p, rfl⟩ : ∃ p, h = p + 1 := ⟨h - 1, by omega⟩
  rw [sum_range_succ, sum_range_succ']
  simp only [Nat.add_sub_cancel]
  have e8 : ∀ k ∈ range p, (if k + 1 = 0 ∨ k + 1 = p + 1 then (1 : ℝ) else 2) * ‖X.getD (k + 1) 0‖ ^ 2 = 2 * ‖X.getD (k + 1) 0‖ ^ 2 := by
    intro k hk
    have := mem_range.1 hk
    rw [if_neg (by omega)]
  rw [sum_congr rfl e8]
  simp
  ring

example := C363_fft 2 (by decide) [1, 2, 3, 4] rfl

/-- **C364, one window**: the MDCT coefficients of a window have the energy of the window's alias: half of the squares of the first half
minus its mirror image and of the second half plus its mirror image. -/
theorem mdct_energy (l : ℕ) (hl : 0 < l) (data : List ℝ) (hd : data.length = 2 * l) :
    ∃ c, mdct data = .ok c ∧ c.length = l ∧ energy c =
      ∑ t ∈ range l, data.getD t 0 * (data.getD t 0 - data.getD (l - 1 - t) 0) +
      ∑ t ∈ range l, data.getD (l + t) 0 * (data.getD (l + t) 0 + data.getD (2 * l - 1 - t) 0) := by
  obtain ⟨c, y, e1, e2, e3, e4, e5, e6⟩ := C53_alias l hl data hd
  refine ⟨c, e1, e3, ?_⟩
  have hy : energy c = ∑ t ∈ range (2 * l), data.getD t 0 * y.getD t 0 := by
    rw [energy_eq, e3]
    rw [C53_imdct l hl c e3] at e2
    cases e2
    have hc := C53_mdct l hl data hd
    rw [e1] at hc
    have hc := Except.ok.inj hc
    have e7 : ∀ t ∈ range (2 * l), data.getD t 0 * ((List.range (2 * l)).map fun t => sqrt (2 / l) * ∑ k ∈ range l, c.getD k 0 *
        cos (mdctAngle l t k)).getD t 0 = ∑ k ∈ range l, c.getD k 0 * (sqrt (2 / l) * (data.getD t 0 * cos (mdctAngle l t k))) := by
      intro t ht
      rw [getD_map_range _ _ _ _ (mem_range.1 ht), mul_sum, mul_sum]
      exact sum_congr rfl fun k _ => by ring
    rw [sum_congr rfl e7, sum_comm]
    apply sum_congr rfl
    intro k hk
    rw [← mul_sum, ← mul_sum]
    have : c.getD k 0 = sqrt (2 / l) * ∑ t ∈ range (2 * l), data.getD t 0 * cos (mdctAngle l t k) := by
      conv_lhs => rw [hc]
      rw [getD_map_range _ _ _ _ (mem_range.1 hk)]
    rw [← this]
    ring
  rw [hy, two_mul, sum_range_add]
  congr 1
  · exact sum_congr rfl fun t ht => by rw [e5 t (mem_range.1 ht)]
  · apply sum_congr rfl
    intro t ht
    have := mem_range.1 ht
    rw [e6 (l + t) (by omega) (by omega), show 3 * l - 1 - (l + t) = l + l - 1 - t by omega]

/-- The sound from sample `s` up to sample `e`. -/
def span (x : ℕ → ℝ) (s e : ℕ) : ℝ := ∑ t ∈ Ico s e, x t ^ 2

theorem blocks_span (x : ℕ → ℝ) (m a : ℕ) : ∀ k, ∑ q ∈ range k, ∑ r ∈ range m, x ((a + q) * m + r) ^ 2 = span x (a * m) ((a + k) * m)
  | 0 => by simp [span]
  | k + 1 => by
    rw [sum_range_succ, blocks_span x m a k]
    unfold span
    rw [← sum_Ico_consecutive _ (show a * m ≤ (a + k) * m by nlinarith) (show (a + k) * m ≤ (a + (k + 1)) * m by nlinarith)]
    congr 1
    rw [sum_Ico_eq_sum_range, show (a + (k + 1)) * m - (a + k) * m = m by
      rw [← Nat.sub_mul, show a + (k + 1) - (a + k) = 1 by omega, one_mul]]

theorem halfLap_sum (F S : ℕ → ℝ) (k : ℕ) :
    ∑ i ∈ range (k + 1), (F i + S i) = F 0 + ∑ i ∈ range k, (F (i + 1) + S i) + S k := by
  rw [sum_add_distrib, sum_add_distrib, sum_range_succ' F, sum_range_succ S]
  ring

/-- What the frames have, from what their halves have: the two halves over one stretch of sound have `g` times its energy. -/
theorem halfLap_bounds (x : ℕ → ℝ) (g : ℝ) (m k : ℕ) (F S : ℕ → ℝ)
    (hmid : ∀ i, F (i + 1) + S i = g * ∑ r ∈ range m, x ((1 + i) * m + r) ^ 2)
    (hF : 0 ≤ F 0 ∧ F 0 ≤ g * ∑ r ∈ range m, x r ^ 2)
    (hS : 0 ≤ S k ∧ S k ≤ g * ∑ r ∈ range m, x ((k + 1) * m + r) ^ 2) :
    g * span x m ((k + 1) * m) ≤ ∑ i ∈ range (k + 1), (F i + S i) ∧ ∑ i ∈ range (k + 1), (F i + S i) ≤ g * span x 0 ((k + 2) * m) := by
  have hin : ∑ i ∈ range k, (F (i + 1) + S i) = g * span x m ((k + 1) * m) := by
    rw [sum_congr rfl fun i _ => hmid i, ← mul_sum, blocks_span x m 1 k, one_mul, add_comm 1 k]
  have hall : span x 0 ((k + 2) * m) = ∑ r ∈ range m, x r ^ 2 + span x m ((k + 1) * m) + ∑ r ∈ range m, x ((k + 1) * m + r) ^ 2 := by
    unfold span
    rw [← sum_Ico_consecutive _ (Nat.zero_le m) (show m ≤ (k + 2) * m by nlinarith),
      ← sum_Ico_consecutive _ (show m ≤ (k + 1) * m by nlinarith) (show (k + 1) * m ≤ (k + 2) * m by nlinarith), Nat.Ico_zero_eq_range,
      sum_Ico_eq_sum_range _ ((k + 1) * m), show (k + 2) * m - (k + 1) * m = m by
        rw [← Nat.sub_mul, show k + 2 - (k + 1) = 1 by omega, one_mul]]
    ring
  rw [halfLap_sum, hin, hall]
  constructor
  · linarith [hF.1, hS.1]
  · nlinarith [hF.2, hS.2]

theorem alias_bounds (m : ℕ) (u x : ℕ → ℝ) (σ g : ℝ) (hσ : σ ^ 2 = 1) (hu : ∀ r, r < m → u r ^ 2 + u (m - 1 - r) ^ 2 = g) :
    0 ≤ ∑ r ∈ range m, u r * x r * (u r * x r + σ * (u (m - 1 - r) * x (m - 1 - r))) ∧
      ∑ r ∈ range m, u r * x r * (u r * x r + σ * (u (m - 1 - r) * x (m - 1 - r))) ≤ g * ∑ r ∈ range m, x r ^ 2 := by
  obtain ⟨T, hT⟩ : ∃ T, T = ∑ r ∈ range m, u r * x r * (u r * x r + σ * (u (m - 1 - r) * x (m - 1 - r))) := ⟨_, rfl⟩
  have hrefl : T = ∑ r ∈ range m, u (m - 1 - r) * x (m - 1 - r) * (u (m - 1 - r) * x (m - 1 - r) + σ * (u r * x r)) := by
    rw [hT, ← sum_range_reflect]
    apply sum_congr rfl
    intro r hr
    have := mem_range.1 hr
    rw [show m - 1 - (m - 1 - r) = r by omega]
  have h2 : 2 * T = ∑ r ∈ range m, (u r * x r + σ * (u (m - 1 - r) * x (m - 1 - r))) ^ 2 := by
    rw [two_mul]
    conv_lhs => rw [hrefl]
    conv_lhs => rw [← hrefl, show T + T = T + ∑ r ∈ range m, u (m - 1 - r) * x (m - 1 - r) * (u (m - 1 - r) * x (m - 1 - r) + σ * (u r * x r)) by rw [← hrefl], hT, ← sum_add_distrib]
    apply sum_congr rfl
    intro r _
    linear_combination -((u (m - 1 - r) * x (m - 1 - r)) ^ 2) * hσ
  have hx2 : ∑ r ∈ range m, x (m - 1 - r) ^ 2 = ∑ r ∈ range m, x r ^ 2 := sum_range_reflect (fun r => x r ^ 2) m
  rw [← hT]
  constructor
  · have : 0 ≤ 2 * T := by rw [h2]; exact sum_nonneg fun r _ => sq_nonneg _
    linarith
  · have : 2 * T ≤ ∑ r ∈ range m, g * (x r ^ 2 + x (m - 1 - r) ^ 2) := by
      rw [h2]
      apply sum_le_sum
      intro r hr
      rw [← hu r (mem_range.1 hr)]
      have := sq_nonneg (σ * u (m - 1 - r) * x r - u r * x (m - 1 - r))
      have e : (u r ^ 2 + u (m - 1 - r) ^ 2) * (x r ^ 2 + x (m - 1 - r) ^ 2) = (u r * x r + σ * (u (m - 1 - r) * x (m - 1 - r))) ^ 2 +
          (σ * u (m - 1 - r) * x r - u r * x (m - 1 - r)) ^ 2 := by
        linear_combination -(u (m - 1 - r) ^ 2 * (x r ^ 2 + x (m - 1 - r) ^ 2)) * hσ
      linarith
    rw [← mul_sum, sum_add_distrib, hx2] at this
    linarith

theorem ogg_sym (m : ℕ) : ∀ j, j < 2 * m → (WindowFunc.oggvorbis (2 * m)).getD (2 * m - 1 - j) 0 = (WindowFunc.oggvorbis (2 * m)).getD j 0 := by
  intro j hj
  rw [List.getD_eq_getElem?_getD, WindowFunc.C50_ogg_symmetric _ _ hj, ← List.getD_eq_getElem?_getD]

theorem ogg_pow (m : ℕ) : ∀ j, j < m → (WindowFunc.oggvorbis (2 * m)).getD j 0 ^ 2 + (WindowFunc.oggvorbis (2 * m)).getD (m + j) 0 ^ 2 =
    1 / WindowFunc.oggMax (2 * m) ^ 2 := by
  intro j hj
  obtain ⟨a, b, h1, h2, h3⟩ := WindowFunc.C50_ogg_power m j hj
  rw [add_comm m j, List.getD_eq_getElem?_getD, List.getD_eq_getElem?_getD, h1, h2]; exact h3

/-- The half-lapped windows of `2 m` samples of a sound of `(k + 2) m` samples, weighted by the ogg vorbis window. -/
noncomputable def weighted (x : ℕ → ℝ) (m k : ℕ) : List (List ℝ) :=
  (List.range (k + 1)).map fun i => (List.range (2 * m)).map fun j => (WindowFunc.oggvorbis (2 * m)).getD j 0 * x (i * m + j)

/-- The coefficients of such a sound have its energy: `1 / oggMax²` times the energy of the sound (a number a little over one that
depends on the window size alone), of which the first and the last half window may be missing in part; exactly that, if the sound is
silent there. -/
def EnergyKept (x : ℕ → ℝ) (m k : ℕ) (total : ℝ) : Prop :=
  1 / WindowFunc.oggMax (2 * m) ^ 2 * span x m ((k + 1) * m) ≤ total ∧
  total ≤ 1 / WindowFunc.oggMax (2 * m) ^ 2 * span x 0 ((k + 2) * m) ∧
  ((∀ t, t < m ∨ (k + 1) * m ≤ t ∧ t < (k + 2) * m → x t = 0) →
    total = 1 / WindowFunc.oggMax (2 * m) ^ 2 * span x 0 ((k + 2) * m))

theorem kept_of_bounds {x : ℕ → ℝ} {m k : ℕ} {total : ℝ}
    (h : 1 / WindowFunc.oggMax (2 * m) ^ 2 * span x m ((k + 1) * m) ≤ total ∧
      total ≤ 1 / WindowFunc.oggMax (2 * m) ^ 2 * span x 0 ((k + 2) * m)) : EnergyKept x m k total := by
  refine ⟨h.1, h.2, ?_⟩
  intro hz
  have : span x 0 ((k + 2) * m) = span x m ((k + 1) * m) := by
    unfold span
    rw [← sum_Ico_consecutive _ (Nat.zero_le m) (show m ≤ (k + 2) * m by nlinarith),
      ← sum_Ico_consecutive _ (show m ≤ (k + 1) * m by nlinarith) (show (k + 1) * m ≤ (k + 2) * m by nlinarith)]
    rw [sum_eq_zero (s := Ico 0 m) fun t ht => by rw [hz t (Or.inl (mem_Ico.1 ht).2)]; ring,
      sum_eq_zero (s := Ico ((k + 1) * m) ((k + 2) * m)) fun t ht => by rw [hz t (Or.inr (mem_Ico.1 ht))]; ring]
    ring
  rw [this] at h ⊢
  exact le_antisymm h.2 h.1

theorem total_eq {β : Type} (T : List ℝ → Except PyErr (List β)) (E : List β → ℝ) (e : ℕ → ℝ) (rows : ℕ → List ℝ) :
    ∀ n, (∀ i, i < n → ∃ c, T (rows i) = .ok c ∧ E c = e i) →
      ∃ cs, ((List.range n).map rows).mapM T = .ok cs ∧ cs.length = n ∧ (cs.map E).sum = ∑ i ∈ range n, e i := by
  intro n h
  choose c hc using h
  have h1 := mapM_ok T rows (fun i => if hi : i < n then c i hi else []) (List.range n) (by
    intro i hi
    have hi := List.mem_range.1 hi
    rw [(hc i hi).1, dif_pos hi])
  refine ⟨_, h1, by simp, ?_⟩
  rw [List.map_map, list_sum_range]
  apply sum_congr rfl
  intro i hi
  have hi := mem_range.1 hi
  simp only [Function.comp]
  rw [dif_pos hi, (hc i hi).2]

/-- **C364, MDCT**. -/
theorem C364_mdct (x : ℕ → ℝ) (m k : ℕ) (hm : 0 < m) :
    ∃ coeffs, (weighted x m k).mapM mdct = .ok coeffs ∧ coeffs.length = k + 1 ∧ EnergyKept x m k (coeffs.map energy).sum := by
  obtain ⟨w, hw⟩ : ∃ w : ℕ → ℝ, w = fun j => (WindowFunc.oggvorbis (2 * m)).getD j 0 := ⟨_, rfl⟩
  have hsym : ∀ j, j < 2 * m → w (2 * m - 1 - j) = w j := by rw [hw]; exact ogg_sym m
  have hpow : ∀ j, j < m → w j ^ 2 + w (m + j) ^ 2 = 1 / WindowFunc.oggMax (2 * m) ^ 2 := by rw [hw]; exact ogg_pow m
  have hmir : ∀ r, r < m → w (m - 1 - r) = w (m + r) := by
    intro r hr
    rw [← hsym (m + r) (by omega)]
    congr 1
    omega
  obtain ⟨F, hF⟩ : ∃ F : ℕ → ℝ, F = fun i => ∑ r ∈ range m, w r * x (i * m + r) *
      (w r * x (i * m + r) + (-1) * (w (m - 1 - r) * x (i * m + (m - 1 - r)))) := ⟨_, rfl⟩
  obtain ⟨S, hS⟩ : ∃ S : ℕ → ℝ, S = fun i => ∑ r ∈ range m, w (m + r) * x ((i + 1) * m + r) *
      (w (m + r) * x ((i + 1) * m + r) + 1 * (w (m + (m - 1 - r)) * x ((i + 1) * m + (m - 1 - r)))) := ⟨_, rfl⟩
  obtain ⟨cs, h1, h2, h3⟩ := total_eq mdct energy (fun i => F i + S i)
    (fun i => (List.range (2 * m)).map fun j => w j * x (i * m + j)) (k + 1) (by
      intro i _
      obtain ⟨c, e1, e2, e3⟩ := mdct_energy m hm ((List.range (2 * m)).map fun j => w j * x (i * m + j)) (by simp)
      refine ⟨c, e1, ?_⟩
      rw [e3, hF, hS]
      congr 1
      · apply sum_congr rfl
        intro r hr
        have := mem_range.1 hr
        rw [getD_map_range _ _ _ _ (by omega), getD_map_range _ _ _ _ (by omega)]
        ring
      · apply sum_congr rfl
        intro r hr
        have := mem_range.1 hr
        rw [getD_map_range _ _ _ _ (by omega), getD_map_range _ _ _ _ (by omega), show 2 * m - 1 - r = m + (m - 1 - r) by omega,
          show i * m + (m + r) = (i + 1) * m + r by ring, show i * m + (m + (m - 1 - r)) = (i + 1) * m + (m - 1 - r) by ring]
        ring)
  refine ⟨cs, ?_, h2, ?_⟩
  · unfold weighted
    rw [hw] at h1
    exact h1
  · rw [h3]
    apply kept_of_bounds
    apply halfLap_bounds x _ m k F S
    · intro i
      rw [hF, hS]
      simp only []
      rw [← sum_add_distrib, mul_sum]
      apply sum_congr rfl
      intro r hr
      have hr := mem_range.1 hr
      rw [← hpow r hr, hmir r hr, show m + (m - 1 - r) = 2 * m - 1 - r by omega, hsym r (by omega), add_comm 1 i]
      ring
    · rw [hF]
      simp only [zero_mul, zero_add]
      exact alias_bounds m w x (-1) _ (by norm_num) fun r hr => by rw [hmir r hr, hpow r hr]
    · rw [hS]
      simp only []
      apply alias_bounds m (fun r => w (m + r)) (fun r => x ((k + 1) * m + r)) 1 _ (by norm_num)
      intro r hr
      rw [show m + (m - 1 - r) = 2 * m - 1 - r by omega, hsym r (by omega), ← hpow r hr]
      ring

example := C364_mdct (fun t => (t : ℝ)) 2 3 (by decide)

theorem windows_kept {β : Type} (x : ℕ → ℝ) (m k : ℕ) (T : List ℝ → Except PyErr (List β)) (E : List β → ℝ)
    (hT : ∀ r : List ℝ, r.length = 2 * m → ∃ c, T r = .ok c ∧ E c = energy r) :
    ∃ coeffs, (weighted x m k).mapM T = .ok coeffs ∧ coeffs.length = k + 1 ∧ EnergyKept x m k (coeffs.map E).sum := by
  obtain ⟨w, hw⟩ : ∃ w : ℕ → ℝ, w = fun j => (WindowFunc.oggvorbis (2 * m)).getD j 0 := ⟨_, rfl⟩
  have hpow : ∀ j, j < m → w j ^ 2 + w (m + j) ^ 2 = 1 / WindowFunc.oggMax (2 * m) ^ 2 := by rw [hw]; exact ogg_pow m
  obtain ⟨F, hF⟩ : ∃ F : ℕ → ℝ, F = fun i => ∑ r ∈ range m, (w r * x (i * m + r)) ^ 2 := ⟨_, rfl⟩
  obtain ⟨S, hS⟩ : ∃ S : ℕ → ℝ, S = fun i => ∑ r ∈ range m, (w (m + r) * x ((i + 1) * m + r)) ^ 2 := ⟨_, rfl⟩
  obtain ⟨cs, h1, h2, h3⟩ := total_eq T E (fun i => F i + S i)
    (fun i => (List.range (2 * m)).map fun j => w j * x (i * m + j)) (k + 1) (by
      intro i _
      obtain ⟨c, e1, e2⟩ := hT ((List.range (2 * m)).map fun j => w j * x (i * m + j)) (by simp)
      refine ⟨c, e1, ?_⟩
      rw [e2, energy_map_range, hF, hS, two_mul, sum_range_add]
      congr 1
      apply sum_congr rfl
      intro r _
      rw [show i * m + (m + r) = (i + 1) * m + r by ring])
  refine ⟨cs, ?_, h2, ?_⟩
  · unfold weighted
    rw [hw] at h1
    exact h1
  · rw [h3]
    apply kept_of_bounds
    apply halfLap_bounds x _ m k F S
    · intro i
      rw [hF, hS]
      simp only []
      rw [← sum_add_distrib, mul_sum]
      apply sum_congr rfl
      intro r hr
      rw [← hpow r (mem_range.1 hr), add_comm 1 i]
      ring
    · rw [hF]
      simp only [zero_mul, zero_add]
      refine ⟨sum_nonneg fun r _ => sq_nonneg _, ?_⟩
      rw [mul_sum]
      apply sum_le_sum
      intro r hr
      rw [← hpow r (mem_range.1 hr)]
      nlinarith [sq_nonneg (w (m + r) * x r)]
    · rw [hS]
      simp only []
      refine ⟨sum_nonneg fun r _ => sq_nonneg _, ?_⟩
      rw [mul_sum]
      apply sum_le_sum
      intro r hr
      rw [← hpow r (mem_range.1 hr)]
      nlinarith [sq_nonneg (w r * x ((k + 1) * m + r))]

/-- **C364, FFT**. -/
theorem C364_fft (x : ℕ → ℝ) (m k : ℕ) (hm : 0 < m) :
    ∃ coeffs, (weighted x m k).mapM (fun r => zfft r 0) = .ok coeffs ∧ coeffs.length = k + 1 ∧
      EnergyKept x m k (coeffs.map spectrumEnergy).sum := by
  apply windows_kept
  intro r hr
  unfold zfft
  rw [List.replicate_zero, List.append_nil]
  obtain ⟨X, e1, _, e3⟩ := C363_fft m hm r hr
  exact ⟨X, e1, e3⟩

example := C364_fft (fun t => (t : ℝ)) 2 3 (by decide)

/-- **C364, DCT**. -/
theorem C364_dct (x : ℕ → ℝ) (m k : ℕ) (hm : 0 < m) :
    ∃ coeffs, (weighted x m k).mapM scipyDct = .ok coeffs ∧ coeffs.length = k + 1 ∧ EnergyKept x m k (coeffs.map energy).sum := by
  apply windows_kept
  intro r hr
  exact C362_dct r (by rintro rfl; simp at hr; omega)

example := C364_dct (fun t => (t : ℝ)) 2 3 (by decide)

/-- A sound that is silent in its first and last half window. -/
example : EnergyKept (fun t => if t = 3 then 1 else 0) 2 3 (1 / WindowFunc.oggMax (2 * 2) ^ 2 * 1) := by
  apply kept_of_bounds
  have h : ∀ s e : ℕ, s ≤ 3 → 3 < e → span (fun t => if t = 3 then 1 else 0) s e = 1 := by
    intro s e hs he
    unfold span
    rw [sum_eq_single 3]
    · simp
    · intro t _ ht; simp [ht]
    · intro h; exact absurd (mem_Ico.2 ⟨hs, he⟩) h
  rw [h 2 _ (by norm_num) (by norm_num), h 0 _ (by norm_num) (by norm_num)]
  exact ⟨le_refl _, le_refl _⟩

end Zounds.Energy
