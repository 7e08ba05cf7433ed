import Verif.Model.Correlogram
import Mathlib.Data.List.GetD
import Mathlib.Algebra.Ring.GeomSum
import Mathlib.Analysis.SpecialFunctions.Complex.Log
import Mathlib.Algebra.Order.BigOperators.Ring.Finset
import Mathlib.Tactic.Linarith
import Mathlib.Tactic.FieldSimp
import Mathlib.Tactic.Ring

/-!
# C158, C159: autocorrelograms
-/

namespace Zounds.Correlogram
open Finset

/-- The roots of unity cancel unless `n` divides the exponent. -/
theorem sum_exp (n : ℕ) (hn : 0 < n) (m : ℤ) :
    ∑ k ∈ range n, Complex.exp (2 * Real.pi * Complex.I * k * m / n) = if (n : ℤ) ∣ m then (n : ℂ) else 0 := by
  have hn' : (n : ℂ) ≠ 0 := by exact_mod_cast hn.ne'
  have hpi : (2 * Real.pi * Complex.I : ℂ) ≠ 0 := Complex.two_pi_I_ne_zero
  set z := Complex.exp (2 * Real.pi * Complex.I * m / n) with hz
  have e : ∀ k ∈ range n, Complex.exp (2 * Real.pi * Complex.I * k * m / n) = z ^ k := by
    intro k _
    rw [hz, ← Complex.exp_nat_mul]
    congr 1
    ring
  rw [sum_congr rfl e]
  have hzn : z ^ n = 1 := by
    rw [hz, ← Complex.exp_nat_mul, Complex.exp_eq_one_iff]
    exact ⟨m, by field_simp⟩
  split_ifs with h
  · obtain ⟨q, rfl⟩ := h
    have hz1 : z = 1 := by
      rw [hz, Complex.exp_eq_one_iff]
      exact ⟨q, by push_cast; field_simp⟩
    rw [hz1]
    simp
  · have hz1 : z ≠ 1 := by
      intro h1
      rw [hz, Complex.exp_eq_one_iff] at h1
      obtain ⟨q, hq⟩ := h1
      apply h
      refine ⟨q, ?_⟩
      have h2 : (m : ℂ) = n * q := by
        field_simp at hq
        linear_combination hq
      exact_mod_cast h2
    have := geom_sum_mul z n
    rw [hzn, sub_self] at this
    exact (mul_eq_zero.mp this).resolve_right (sub_ne_zero.mpr hz1)

/-- The circular autocorrelation of `n` real numbers, from their power spectrum. -/
theorem power_inverse (n : ℕ) (hn : 0 < n) (a : ℕ → ℝ) (l : ℕ) :
    ∑ k ∈ range n, (((‖((1 / Real.sqrt n : ℝ) : ℂ) * ∑ t ∈ range n, (a t : ℂ) * Complex.exp (-2 * Real.pi * Complex.I * t * k / n)‖ ^ 2 : ℝ)) : ℂ) *
        Complex.exp (2 * Real.pi * Complex.I * l * k / n) =
      ((∑ s ∈ range n, ∑ t ∈ range n, if (n : ℤ) ∣ (l : ℤ) - s + t then a s * a t else 0 : ℝ) : ℂ) := by
  have hn' : (n : ℂ) ≠ 0 := by exact_mod_cast hn.ne'
  have hs : ((1 / Real.sqrt n : ℝ) : ℂ) * ((1 / Real.sqrt n : ℝ) : ℂ) = 1 / n := by
    rw [← Complex.ofReal_mul]
    have : (1 / Real.sqrt n : ℝ) * (1 / Real.sqrt n) = 1 / n := by
      rw [div_mul_div_comm, Real.mul_self_sqrt (Nat.cast_nonneg n), one_mul]
    rw [this]
    push_cast
    rfl
  have hterm : ∀ k ∈ range n,
      (((‖((1 / Real.sqrt n : ℝ) : ℂ) * ∑ t ∈ range n, (a t : ℂ) * Complex.exp (-2 * Real.pi * Complex.I * t * k / n)‖ ^ 2 : ℝ)) : ℂ) *
        Complex.exp (2 * Real.pi * Complex.I * l * k / n) =
      ∑ s ∈ range n, ∑ t ∈ range n, (1 / n : ℂ) * ((a s : ℂ) * a t * Complex.exp (2 * Real.pi * Complex.I * k * ((l : ℤ) - s + t : ℤ) / n)) := by
    intro k _
    have hconj : (starRingEnd ℂ) (∑ t ∈ range n, (a t : ℂ) * Complex.exp (-2 * Real.pi * Complex.I * t * k / n)) =
        ∑ t ∈ range n, (a t : ℂ) * Complex.exp (2 * Real.pi * Complex.I * t * k / n) := by
      rw [map_sum]
      refine sum_congr rfl fun t _ => ?_
      rw [map_mul, Complex.conj_ofReal, ← Complex.exp_conj]
      congr 2
      simp [map_ofNat]
    rw [← Complex.normSq_eq_norm_sq, Complex.normSq_eq_conj_mul_self, map_mul, Complex.conj_ofReal, hconj]
    have : ∀ (A B E : ℂ) , ((1 / Real.sqrt n : ℝ) : ℂ) * A * (((1 / Real.sqrt n : ℝ) : ℂ) * B) * E = 1 / n * (B * A * E) := by
      intro A B E
      rw [← hs]
      ring
    rw [this, sum_mul_sum, sum_mul, mul_sum]
    refine sum_congr rfl fun s _ => ?_
    rw [sum_mul, mul_sum]
    refine sum_congr rfl fun t _ => ?_
    have : Complex.exp (2 * Real.pi * Complex.I * k * ((l : ℤ) - s + t : ℤ) / n) =
        Complex.exp (-2 * Real.pi * Complex.I * s * k / n) * Complex.exp (2 * Real.pi * Complex.I * t * k / n) *
          Complex.exp (2 * Real.pi * Complex.I * l * k / n) := by
      rw [← Complex.exp_add, ← Complex.exp_add]
      congr 1
      push_cast
      ring
    rw [this]
    ring
  rw [sum_congr rfl hterm, sum_comm]
  rw [Complex.ofReal_sum]
  refine sum_congr rfl fun s _ => ?_
  rw [sum_comm, Complex.ofReal_sum]
  refine sum_congr rfl fun t _ => ?_
  rw [← mul_sum, ← mul_sum, sum_exp n hn]
  split_ifs <;> simp
  field_simp

/-- The autocorrelation of a window of `w` numbers at a distance of `d`: the sum of the products of all pairs of numbers of the window that are `d`
apart. -/
noncomputable def acf (y : ℕ → ℝ) (w d : ℕ) : ℝ := ∑ m ∈ range (w - d), y m * y (m + d)

theorem circular_acf (y : ℕ → ℝ) (w l : ℕ) (hl : l < 2 * w) :
    (∑ s ∈ range (2 * w), ∑ t ∈ range (2 * w), if ((2 * w : ℕ) : ℤ) ∣ (l : ℤ) - s + t then
      (if s < w then y s else 0) * (if t < w then y t else 0) else 0) = acf y w (if l < w then l else 2 * w - l) := by
  have h1 : (∑ s ∈ range (2 * w), ∑ t ∈ range (2 * w), if ((2 * w : ℕ) : ℤ) ∣ (l : ℤ) - s + t then
      (if s < w then y s else 0) * (if t < w then y t else 0) else 0) =
      ∑ s ∈ range w, ∑ t ∈ range w, if ((2 * w : ℕ) : ℤ) ∣ (l : ℤ) - s + t then y s * y t else 0 := by
    have half : ∀ f : ℕ → ℝ, (∀ k, w ≤ k → f k = 0) → ∑ k ∈ range (2 * w), f k = ∑ k ∈ range w, f k := by
      intro f hf
      refine (sum_subset (range_subset_range.mpr (by omega)) fun k _ hk => hf k ?_).symm
      simpa using hk
    rw [half _ fun k hk => ?_]
    · refine sum_congr rfl fun s hs => ?_
      rw [half _ fun k hk => ?_]
      · refine sum_congr rfl fun t ht => ?_
        rw [if_pos (mem_range.mp hs), if_pos (mem_range.mp ht)]
      · rw [if_neg (show ¬ (k < w) by omega), mul_zero, ite_self]
    · refine sum_eq_zero fun t _ => ?_
      rw [if_neg (show ¬ (k < w) by omega), zero_mul, ite_self]
  rw [h1]
  unfold acf
  by_cases hlw : l < w
  · rw [if_pos hlw]
    -- pairs with s = t + l
    rw [sum_comm]
    have : ∀ t ∈ range w, (∑ s ∈ range w, if ((2 * w : ℕ) : ℤ) ∣ (l : ℤ) - s + t then y s * y t else 0) =
        if t < w - l then y t * y (t + l) else 0 := by
      intro t ht
      have ht' := mem_range.mp ht
      have e : ∀ s ∈ range w, (if ((2 * w : ℕ) : ℤ) ∣ (l : ℤ) - s + t then y s * y t else 0) = if s = t + l then y t * y (t + l) else 0 := by
        intro s hs
        have hs' := mem_range.mp hs
        by_cases h : s = t + l
        · rw [if_pos h, if_pos (by rw [h]; exact ⟨0, by push_cast; ring⟩), h]
          ring
        · rw [if_neg h, if_neg]
          rintro ⟨q, hq⟩
          have : q = 0 := by
            by_contra hq0
            rcases lt_or_gt_of_ne hq0 with h0 | h0
            · have : ((2 * w : ℕ) : ℤ) * q ≤ -(2 * w) := by push_cast; nlinarith
              omega
            · have : (2 * w : ℤ) ≤ ((2 * w : ℕ) : ℤ) * q := by push_cast; nlinarith
              omega
          subst this
          omega
      rw [sum_congr rfl e, sum_ite_eq']
      by_cases h : t < w - l
      · rw [if_pos h, if_pos (mem_range.mpr (by omega))]
      · rw [if_neg h, if_neg (by rw [mem_range]; omega)]
    rw [sum_congr rfl this, ← sum_filter]
    refine sum_congr ?_ fun _ _ => rfl
    ext t
    simp only [mem_filter, mem_range]
    omega
  · rw [if_neg hlw]
    have : ∀ s ∈ range w, (∑ t ∈ range w, if ((2 * w : ℕ) : ℤ) ∣ (l : ℤ) - s + t then y s * y t else 0) =
        if s < w - (2 * w - l) then y s * y (s + (2 * w - l)) else 0 := by
      intro s hs
      have hs' := mem_range.mp hs
      have e : ∀ t ∈ range w, (if ((2 * w : ℕ) : ℤ) ∣ (l : ℤ) - s + t then y s * y t else 0) =
          if t = s + (2 * w - l) then y s * y (s + (2 * w - l)) else 0 := by
        intro t ht
        have ht' := mem_range.mp ht
        by_cases h : t = s + (2 * w - l)
        · rw [if_pos h, if_pos (by rw [h]; exact ⟨1, by push_cast; omega⟩), h]
        · rw [if_neg h, if_neg]
          rintro ⟨q, hq⟩
          have : q = 1 := by
            by_contra hq0
            rcases lt_or_gt_of_ne hq0 with h0 | h0
            · have : ((2 * w : ℕ) : ℤ) * q ≤ 0 := by push_cast; nlinarith
              omega
            · have : (4 * w : ℤ) ≤ ((2 * w : ℕ) : ℤ) * q := by push_cast; nlinarith
              omega
          subst this
          push_cast at hq
          omega
      rw [sum_congr rfl e, sum_ite_eq']
      by_cases h : s < w - (2 * w - l)
      · rw [if_pos h, if_pos (mem_range.mpr (by omega))]
      · rw [if_neg h, if_neg (by rw [mem_range]; omega)]
    rw [sum_congr rfl this, ← sum_filter]
    refine sum_congr ?_ fun _ _ => rfl
    ext t
    simp only [mem_filter, mem_range]
    omega

theorem correlate_length (p : List ℝ) : (correlate p).length = 2 * p.length := by
  unfold correlate ifftOrtho fftOrtho Spectral.fft
  simp
  omega

/-- One window: entry `i` is the autocorrelation at a lag of `i - w`, over `√(2 w)`. -/
theorem correlate_get (p : List ℝ) (i : ℕ) (hi : i < 2 * p.length) :
    (correlate p).getD i 0 = ((acf (fun m => p.getD m 0) p.length ((i : ℤ) - p.length).natAbs / Real.sqrt (2 * p.length) : ℝ) : ℂ) := by
  set w := p.length with hw
  set y : ℕ → ℝ := fun m => p.getD m 0 with hy
  have hn : 0 < 2 * w := by omega
  set padded := (p ++ List.replicate p.length 0).map fun v : ℝ => (v : ℂ) with hpad
  have hpl : padded.length = 2 * w := by simp [hpad, ← hw]; omega
  have hpg : ∀ t : ℕ, padded.getD t 0 = ((if t < w then y t else 0 : ℝ) : ℂ) := by
    intro t
    rw [hpad, show (0 : ℂ) = ((0 : ℝ) : ℂ) by simp, List.getD_map (f := fun v : ℝ => (v : ℂ))]
    congr 1
    split_ifs with h
    · rw [List.getD_append _ _ _ _ (by omega)]
    · rw [List.getD_append_right _ _ _ _ (by omega)]
      simp only [List.getD_eq_getElem?_getD, List.getElem?_replicate]
      split_ifs <;> rfl
  set c := ifftOrtho ((fftOrtho padded).map fun z => ((‖z‖ ^ 2 : ℝ) : ℂ)) with hc
  have hfl : (fftOrtho padded).length = 2 * w := by unfold fftOrtho Spectral.fft; simp [hpl]
  have hcl : c.length = 2 * w := by rw [hc]; unfold ifftOrtho; simp [hfl]
  have hcg : ∀ l : ℕ, l < 2 * w → c.getD l 0 = ((acf y w (if l < w then l else 2 * w - l) / Real.sqrt (2 * w) : ℝ) : ℂ) := by
    intro l hl
    rw [← circular_acf y w l hl, div_eq_inv_mul, Complex.ofReal_mul,
      ← power_inverse (2 * w) hn (fun t => if t < w then y t else 0) l, hc]
    unfold ifftOrtho
    rw [List.getD_eq_getElem _ _ (by simpa [hfl] using hl), List.getElem_map, List.getElem_range, List.length_map, hfl, one_div]
    have e : (((2 * w : ℕ) : ℝ)) = 2 * (w : ℝ) := by push_cast; ring
    rw [e]
    congr 1
    refine sum_congr rfl fun k hk => ?_
    have hk' := mem_range.mp hk
    congr 1
    rw [List.getD_eq_getElem _ _ (by simpa [hfl] using hk'), List.getElem_map]
    congr 3
    unfold fftOrtho Spectral.fft
    rw [List.getElem_map, List.getElem_map, List.getElem_range, hpl, e, one_div]
    congr 1
    refine sum_congr rfl fun t _ => ?_
    rw [hpg]
  have hcor : correlate p = c.drop w ++ c.take w := rfl
  rw [hcor]
  by_cases h : i < w
  · rw [List.getD_append _ _ _ _ (by rw [List.length_drop]; omega), List.getD_eq_getElem?_getD, List.getElem?_drop,
      ← List.getD_eq_getElem?_getD, hcg _ (by omega), if_neg (by omega)]
    congr 3
    omega
  · rw [List.getD_append_right _ _ _ _ (by rw [List.length_drop]; omega), List.length_drop, hcl, List.getD_eq_getElem?_getD, List.getElem?_take,
      if_pos (by omega), ← List.getD_eq_getElem?_getD, hcg _ (by omega), if_pos (by omega)]
    congr 3
    omega

/-! ## C158: the values -/

/-- The response of a filter of `size` taps at sample `t`: the samples from `t` on, weighted by the taps. -/
noncomputable def response (x f : List ℝ) (size t : ℕ) : ℝ := ∑ k ∈ range size, x.getD (t + k) 0 * f.getD k 0

/-- Number at window `t`, lag index `i`, filter `b`. -/
noncomputable def entry (out : List (List (List (List ℂ)))) (t i b : ℕ) : ℂ := (((out.getD t []).getD 0 []).getD i []).getD b 0

/-- **C158**: for samples at least as long as the filters and a correlation window of `w` samples, `1 ≤ w ≤ n - size + 1`: one window per sample the
filters and the window fit at, `2 w` lags and one number per filter; at lag index `i` it is the autocorrelation of the filter's response in the window
at a distance of `i - w`, over `√(2 w)`. -/
theorem C158_values (x : List ℝ) (bank : List (List ℝ)) (size w : ℕ) (window frequency : ℤ) (hw : (window / frequency).toNat = w)
    (hx : size ≤ x.length) (h0 : 0 < w) (hfit : w ≤ x.length - size + 1) :
    ∃ out, autoCorrelogram x bank size window frequency = .ok out ∧ out.length = x.length - size + 1 - w + 1 ∧
      (∀ r ∈ out, r.length = 1 ∧ ∀ l ∈ r, l.length = 2 * w ∧ ∀ c ∈ l, c.length = bank.length) ∧
      ∀ t i b : ℕ, t < out.length → i < 2 * w → b < bank.length →
        entry out t i b = ((acf (fun m => response x (bank.getD b []) size (t + m)) w ((i : ℤ) - w).natAbs / Real.sqrt (2 * w) : ℝ) : ℂ) := by
  have hfl : (filtered x bank size).length = x.length - size + 1 := by simp [filtered]
  refine ⟨_, by
    unfold autoCorrelogram
    simp only [hw, hfl]
    rw [if_neg (by omega), if_neg (by omega), if_neg (by omega)], by simp, ?_, ?_⟩
  · intro r hr
    obtain ⟨t, -, rfl⟩ := List.mem_map.mp hr
    refine ⟨rfl, fun l hl => ?_⟩
    rw [List.mem_singleton] at hl
    subst hl
    refine ⟨by simp, fun c hc => ?_⟩
    obtain ⟨i, -, rfl⟩ := List.mem_map.mp hc
    simp
  · intro t i b ht hi hb
    have ht' : t < x.length - size + 1 - w + 1 := by simpa using ht
    unfold entry
    rw [List.getD_eq_getElem _ _ ht, List.getElem_map, List.getElem_range, List.getD_cons_zero]
    rw [List.getD_eq_getElem (n := i) _ _ (by rw [List.length_map, List.length_range]; exact hi), List.getElem_map, List.getElem_range]
    rw [List.getD_eq_getElem (n := b) _ _ (by simpa using hb), List.getElem_map, List.getElem_map, List.getElem_range]
    set p := (((filtered x bank size).drop t).take w).map fun r => r.getD b 0 with hp
    have hpl : p.length = w := by
      rw [hp, List.length_map, List.length_take, List.length_drop, hfl]
      omega
    rw [correlate_get p i (by omega), hpl]
    congr 2
    unfold acf
    refine sum_congr rfl fun m hm => ?_
    have hm' := mem_range.mp hm
    have hpg : ∀ m : ℕ, m < w → p.getD m 0 = response x (bank.getD b []) size (t + m) := by
      intro m hm
      rw [List.getD_eq_getElem _ _ (by omega)]
      simp only [hp, List.getElem_map, List.getElem_take, List.getElem_drop, filtered, List.getElem_range]
      rw [List.getD_eq_getElem _ _ (by simpa using hb), List.getElem_map, List.getD_eq_getElem _ _ hb]
      rfl
    simp only []
    rw [hpg m (by omega), hpg (m + _) (by omega)]

/-- **C158, refusals**: anything else is a ValueError. -/
theorem C158_refused (x : List ℝ) (bank : List (List ℝ)) (size : ℕ) (window frequency : ℤ) :
    (x.length < size ∨ (window / frequency).toNat = 0 ∨ x.length - size + 1 < (window / frequency).toNat) →
      autoCorrelogram x bank size window frequency = .error .valueError := by
  have hfl : (filtered x bank size).length = x.length - size + 1 := by simp [filtered]
  unfold autoCorrelogram
  simp only [hfl]
  intro h
  split_ifs with h1 h2 h3
  · rfl
  · rfl
  · rfl
  · omega

/-! ## C159: symmetry and the peak at lag zero -/

theorem acf_zero (y : ℕ → ℝ) (w : ℕ) : acf y w 0 = ∑ m ∈ range w, y m ^ 2 := by
  unfold acf
  exact sum_congr rfl fun m _ => by simp only [Nat.add_zero]; ring

theorem acf_le (y : ℕ → ℝ) (w d : ℕ) : |acf y w d| ≤ acf y w 0 := by
  rw [acf_zero]
  unfold acf
  have h1 : |∑ m ∈ range (w - d), y m * y (m + d)| ≤ ∑ m ∈ range (w - d), (y m ^ 2 + y (m + d) ^ 2) / 2 := by
    refine (abs_sum_le_sum_abs _ _).trans (sum_le_sum fun m _ => ?_)
    rw [abs_le]
    constructor <;> nlinarith [sq_nonneg (y m + y (m + d)), sq_nonneg (y m - y (m + d))]
  have h2 : ∑ m ∈ range (w - d), y m ^ 2 ≤ ∑ m ∈ range w, y m ^ 2 :=
    sum_le_sum_of_subset_of_nonneg (range_subset_range.mpr (by omega)) fun _ _ _ => sq_nonneg _
  have h3 : ∑ m ∈ range (w - d), y (m + d) ^ 2 ≤ ∑ m ∈ range w, y m ^ 2 := by
    by_cases hd : d ≤ w
    · obtain ⟨k, rfl⟩ : ∃ k, w = d + k := ⟨w - d, by omega⟩
      rw [sum_range_add, Nat.add_sub_cancel_left]
      have : ∑ m ∈ range k, y (m + d) ^ 2 = ∑ m ∈ range k, y (d + m) ^ 2 := sum_congr rfl fun m _ => by rw [Nat.add_comm]
      rw [this]
      have : 0 ≤ ∑ m ∈ range d, y m ^ 2 := sum_nonneg fun _ _ => sq_nonneg _
      linarith
    · rw [show w - d = 0 by omega]
      simpa using sum_nonneg fun (m : ℕ) (_ : m ∈ range w) => sq_nonneg (y m)
  have h4 : ∑ m ∈ range (w - d), (y m ^ 2 + y (m + d) ^ 2) / 2 =
      (∑ m ∈ range (w - d), y m ^ 2 + ∑ m ∈ range (w - d), y (m + d) ^ 2) / 2 := by
    rw [← sum_add_distrib, div_eq_mul_inv, sum_mul]
    exact sum_congr rfl fun m _ => div_eq_mul_inv _ _
  rw [h4] at h1
  linarith

/-- **C159**: every correlogram is real, symmetric about lag zero (index `w`), greatest there in absolute value, where it is the energy of the response in
the window over `√(2 w)`, and zero at index 0; so a correlogram is zero exactly for filters that do not respond in the window. -/
theorem C159_peak (x : List ℝ) (bank : List (List ℝ)) (size w : ℕ) (window frequency : ℤ) (hw : (window / frequency).toNat = w)
    (out : List (List (List (List ℂ)))) (h : autoCorrelogram x bank size window frequency = .ok out) (t b : ℕ) (ht : t < out.length)
    (hb : b < bank.length) :
    (∀ i, i < 2 * w → (entry out t i b).im = 0 ∧ |(entry out t i b).re| ≤ (entry out t w b).re) ∧
    (∀ d, d < w → entry out t (w + d) b = entry out t (w - d) b) ∧ entry out t 0 b = 0 ∧
    (entry out t w b).re = (∑ m ∈ range w, response x (bank.getD b []) size (t + m) ^ 2) / Real.sqrt (2 * w) ∧
    ((∀ i, i < 2 * w → entry out t i b = 0) ↔ ∀ m, m < w → response x (bank.getD b []) size (t + m) = 0) := by
  have hok : size ≤ x.length ∧ 0 < w ∧ w ≤ x.length - size + 1 := by
    by_contra hc
    rw [C158_refused x bank size window frequency (by rw [hw]; omega)] at h
    cases h
  obtain ⟨out', h1, h2, -, h4⟩ := C158_values x bank size w window frequency hw hok.1 hok.2.1 hok.2.2
  rw [h] at h1
  cases h1
  set y : ℕ → ℝ := fun m => response x (bank.getD b []) size (t + m) with hy
  have hv : ∀ i, i < 2 * w → entry out t i b = ((acf y w ((i : ℤ) - w).natAbs / Real.sqrt (2 * w) : ℝ) : ℂ) := fun i hi => h4 t i b ht hi hb
  have hwpos : 0 < w := hok.2.1
  have hsq : 0 < Real.sqrt (2 * w) := Real.sqrt_pos.mpr (by positivity)
  have hvw : entry out t w b = ((acf y w 0 / Real.sqrt (2 * w) : ℝ) : ℂ) := by
    rw [hv w (by omega)]
    congr 3
    omega
  refine ⟨?_, ?_, ?_, ?_, ?_, ?_⟩
  · intro i hi
    rw [hv i hi, hvw, Complex.ofReal_im, Complex.ofReal_re, Complex.ofReal_re, abs_div, abs_of_pos hsq]
    exact ⟨rfl, div_le_div_of_nonneg_right (acf_le y w _) hsq.le⟩
  · intro d hd
    rw [hv _ (by omega), hv _ (by omega)]
    congr 3
    omega
  · rw [hv 0 (by omega)]
    have : ((0 : ℕ) : ℤ) - (w : ℤ) = -(w : ℤ) := by simp
    rw [this, Int.natAbs_neg, Int.natAbs_natCast]
    simp [acf]
  · rw [hvw, Complex.ofReal_re, acf_zero]
  · intro h0 m hm
    have h5 := h0 w (by omega)
    rw [hvw, Complex.ofReal_eq_zero, div_eq_zero_iff, or_iff_left hsq.ne', acf_zero,
      sum_eq_zero_iff_of_nonneg fun _ _ => sq_nonneg _] at h5
    exact pow_eq_zero_iff (two_ne_zero) |>.mp (h5 m (mem_range.mpr hm))
  · intro h0 i hi
    rw [hv i hi]
    have : acf y w ((i : ℤ) - w).natAbs = 0 := by
      unfold acf
      refine sum_eq_zero fun m hm => ?_
      have := mem_range.mp hm
      rw [hy]
      simp only []
      rw [h0 m (by omega), zero_mul]
    rw [this]
    simp

/-- **C159, volume**: making the samples `c` times as loud multiplies the correlogram by `c²`; in particular it does not depend on the sign. -/
theorem C159_volume (c : ℝ) (x : List ℝ) (bank : List (List ℝ)) (size : ℕ) (window frequency : ℤ)
    (out : List (List (List (List ℂ)))) (h : autoCorrelogram x bank size window frequency = .ok out) :
    ∃ out', autoCorrelogram (x.map fun v => c * v) bank size window frequency = .ok out' ∧ out'.length = out.length ∧
      ∀ t i b : ℕ, t < out.length → i < 2 * (window / frequency).toNat → b < bank.length →
        entry out' t i b = (c ^ 2 : ℝ) * entry out t i b := by
  set w := (window / frequency).toNat with hw
  have hok : size ≤ x.length ∧ 0 < w ∧ w ≤ x.length - size + 1 := by
    by_contra hc
    rw [C158_refused x bank size window frequency (by omega)] at h
    cases h
  obtain ⟨out', h1, h2, -, h4⟩ := C158_values x bank size w window frequency rfl hok.1 hok.2.1 hok.2.2
  rw [h] at h1
  cases h1
  obtain ⟨o2, g1, g2, -, g4⟩ := C158_values (x.map fun v => c * v) bank size w window frequency rfl (by simpa using hok.1) hok.2.1
    (by simpa using hok.2.2)
  refine ⟨o2, g1, by rw [g2, h2]; simp, fun t i b ht hi hb => ?_⟩
  rw [g4 t i b (by rw [g2]; simp; omega) hi hb, h4 t i b ht hi hb, ← Complex.ofReal_mul]
  congr 1
  rw [← mul_div_assoc]
  congr 1
  unfold acf
  rw [mul_sum]
  refine sum_congr rfl fun m _ => ?_
  have : ∀ k, response (x.map fun v => c * v) (bank.getD b []) size k = c * response x (bank.getD b []) size k := by
    intro k
    unfold response
    rw [mul_sum]
    refine sum_congr rfl fun j _ => ?_
    have : (x.map fun v => c * v).getD (k + j) 0 = c * x.getD (k + j) 0 := by
      have := List.getD_map (f := fun v : ℝ => c * v) (n := k + j) (d := (0 : ℝ)) (l := x)
      simpa using this
    rw [this]
    ring
  simp only [this]
  ring

/-! ## The hypotheses are met -/

example : ∃ out, autoCorrelogram [1, 2, 3, 4] [[1, 1], [1, -1]] 2 40 20 = .ok out ∧ out.length = 2 := by
  obtain ⟨out, h1, h2, -⟩ := C158_values [1, 2, 3, 4] [[1, 1], [1, -1]] 2 2 40 20 (by decide) (by simp) (by norm_num) (by simp)
  exact ⟨out, h1, by simpa using h2⟩

example := C158_refused [1] [[1, 1], [1, -1]] 2 40 20 (Or.inl (by simp))
example : ∃ out, autoCorrelogram [1, 2, 3, 4] [[1, 1], [1, -1]] 2 40 20 = .ok out ∧ ∀ i, i < 4 → |(entry out 1 i 0).re| ≤ (entry out 1 2 0).re := by
  obtain ⟨out, h1, h2, -⟩ := C158_values [1, 2, 3, 4] [[1, 1], [1, -1]] 2 2 40 20 (by decide) (by simp) (by norm_num) (by simp)
  have h := (C159_peak _ _ 2 2 40 20 (by decide) out h1 1 0 (by rw [h2]; simp) (by simp)).1
  exact ⟨out, h1, fun i hi => (h i hi).2⟩
example : ∃ out, autoCorrelogram ([1, 2, 3, 4].map fun v => 3 * v) [[1, 1], [1, -1]] 2 40 20 = .ok out := by
  obtain ⟨out, h1, -⟩ := C158_values [1, 2, 3, 4] [[1, 1], [1, -1]] 2 2 40 20 (by decide) (by simp) (by norm_num) (by simp)
  obtain ⟨out', h, -⟩ := C159_volume 3 [1, 2, 3, 4] [[1, 1], [1, -1]] 2 40 20 out h1
  exact ⟨out', h⟩

end Zounds.Correlogram
