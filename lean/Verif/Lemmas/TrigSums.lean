import Mathlib.Analysis.SpecialFunctions.Trigonometric.Basic
import Mathlib.Algebra.BigOperators.Group.Finset.Basic
import Mathlib.Algebra.BigOperators.Ring.Finset
import Mathlib.Tactic.Ring
import Mathlib.Tactic.FieldSimp
import Mathlib.Tactic.Linarith
import Mathlib.Tactic.LinearCombination

/-!
# Sums of cosines at equally spaced angles
-/

namespace Zounds.TrigSums
open Finset Real

/-- Telescoping: twice the sine of half the step times the sum of cosines at half-odd multiples of the step. -/
theorem two_sin_mul_sum (θ : ℝ) (l : ℕ) :
    2 * sin (θ / 2) * ∑ k ∈ range l, cos (((k : ℝ) + 1 / 2) * θ) = sin (l * θ) := by
  induction l with
  | zero => simp
  | succ l ih =>
    rw [sum_range_succ, mul_add, ih]
    have h1 : sin (((l + 1 : ℕ) : ℝ) * θ) = sin (((l : ℝ) + 1 / 2) * θ + θ / 2) := by
      congr 1; push_cast; ring
    have h2 : sin ((l : ℝ) * θ) = sin (((l : ℝ) + 1 / 2) * θ - θ / 2) := by
      congr 1; ring
    rw [h1, h2, sin_add, sin_sub]; ring

theorem sin_int_mul_pi_div (m : ℤ) (l : ℕ) (hl : 0 < l) (h : sin (π * m / (2 * l)) = 0) : (2 * l : ℤ) ∣ m := by
  rw [sin_eq_zero_iff] at h
  obtain ⟨n, hn⟩ := h
  refine ⟨n, ?_⟩
  have hl' : (0 : ℝ) < l := by exact_mod_cast hl
  have : (n : ℝ) * (2 * l) * π = m * π := by
    field_simp at hn
    linear_combination π * hn
  have h2 := mul_right_cancel₀ pi_ne_zero this
  have h3 : (n * (2 * l) : ℤ) = m := by exact_mod_cast h2
  rw [← h3]; ring

/-- Cosines at half-odd multiples of `π m / l`: they cancel unless `2 l` divides `m`. -/
theorem sum_half_odd_zero (l : ℕ) (hl : 0 < l) (m : ℤ) (h : ¬ (2 * l : ℤ) ∣ m) :
    ∑ k ∈ range l, cos (((k : ℝ) + 1 / 2) * (π * m / l)) = 0 := by
  have hl' : (l : ℝ) ≠ 0 := by exact_mod_cast hl.ne'
  have ht := two_sin_mul_sum (π * m / l) l
  have e1 : (l : ℝ) * (π * m / l) = m * π := by field_simp
  rw [e1, sin_int_mul_pi] at ht
  have hs : sin (π * m / l / 2) ≠ 0 := by
    intro h0
    apply h
    apply sin_int_mul_pi_div m l hl
    rw [← h0]; congr 1; field_simp
  rcases mul_eq_zero.1 ht with h0 | h0
  · exact absurd (mul_eq_zero.1 h0 |>.resolve_left (by norm_num)) hs
  · exact h0

theorem sum_half_odd_even (l : ℕ) (hl : 0 < l) (j : ℤ) :
    ∑ k ∈ range l, cos (((k : ℝ) + 1 / 2) * (π * ((2 * l * (2 * j) : ℤ)) / l)) = l := by
  have hl' : (l : ℝ) ≠ 0 := by exact_mod_cast hl.ne'
  have : ∀ k ∈ range l, cos (((k : ℝ) + 1 / 2) * (π * ((2 * l * (2 * j) : ℤ)) / l)) = 1 := by
    intro k _
    have e : ((k : ℝ) + 1 / 2) * (π * ((2 * l * (2 * j) : ℤ)) / l) = ((2 * k * j + j : ℤ) : ℝ) * (2 * π) := by
      push_cast; field_simp
    rw [e, cos_int_mul_two_pi]
  rw [sum_congr rfl this]; simp

theorem sum_half_odd_odd (l : ℕ) (hl : 0 < l) (j : ℤ) :
    ∑ k ∈ range l, cos (((k : ℝ) + 1 / 2) * (π * ((2 * l * (2 * j + 1) : ℤ)) / l)) = -l := by
  have hl' : (l : ℝ) ≠ 0 := by exact_mod_cast hl.ne'
  have : ∀ k ∈ range l, cos (((k : ℝ) + 1 / 2) * (π * ((2 * l * (2 * j + 1) : ℤ)) / l)) = -1 := by
    intro k _
    have e : ((k : ℝ) + 1 / 2) * (π * ((2 * l * (2 * j + 1) : ℤ)) / l) = π + ((2 * k * j + k + j : ℤ) : ℝ) * (2 * π) := by
      push_cast; field_simp; ring
    rw [e, cos_add_int_mul_two_pi, cos_pi]
  rw [sum_congr rfl this]; simp

/-- Cosines at the multiples of `2 π m / n`: they cancel unless `n` divides `m`. -/
theorem sum_full_circle (n : ℕ) (hn : 0 < n) (m : ℤ) :
    ∑ k ∈ range n, cos (2 * π * k * m / n) = if (n : ℤ) ∣ m then (n : ℝ) else 0 := by
  have hn' : (n : ℝ) ≠ 0 := by exact_mod_cast hn.ne'
  split
  · rename_i h
    obtain ⟨j, rfl⟩ := h
    have : ∀ k ∈ range n, cos (2 * π * k * ((n * j : ℤ)) / n) = 1 := by
      intro k _
      have e : 2 * π * k * ((n * j : ℤ)) / n = ((k * j : ℤ) : ℝ) * (2 * π) := by push_cast; field_simp
      rw [e, cos_int_mul_two_pi]
    rw [sum_congr rfl this]; simp
  · rename_i h
    -- the sum times `2 sin(θ/2)` telescopes
    have key : ∀ N : ℕ, 2 * sin (π * m / n) * ∑ k ∈ range N, cos (2 * π * k * m / n) =
        sin ((2 * N - 1) * (π * m / n)) + sin (π * m / n) := by
      intro N
      induction N with
      | zero => simp
      | succ N ih =>
        rw [sum_range_succ, mul_add, ih]
        have h1 : (2 * ((N + 1 : ℕ) : ℝ) - 1) * (π * m / n) = 2 * π * N * m / n + π * m / n := by push_cast; ring
        have h2 : (2 * (N : ℝ) - 1) * (π * m / n) = 2 * π * N * m / n - π * m / n := by ring
        rw [h1, h2, sin_add, sin_sub]; ring
    have hk := key n
    have e : (2 * (n : ℝ) - 1) * (π * m / n) = -(π * m / n) + m * (2 * π) := by field_simp; ring
    rw [e, sin_add_int_mul_two_pi, sin_neg] at hk
    have hs : sin (π * m / n) ≠ 0 := by
      intro h0
      rw [sin_eq_zero_iff] at h0
      obtain ⟨q, hq⟩ := h0
      apply h
      refine ⟨q, ?_⟩
      have : (q : ℝ) * n * π = m * π := by
        field_simp at hq
        linear_combination π * hq
      have h2 := mul_right_cancel₀ pi_ne_zero this
      have h3 : (q * n : ℤ) = m := by exact_mod_cast h2
      rw [← h3]; ring
    have : 2 * sin (π * m / n) * ∑ k ∈ range n, cos (2 * π * k * m / n) = 0 := by rw [hk]; ring
    rcases mul_eq_zero.1 this with h0 | h0
    · exact absurd (mul_eq_zero.1 h0 |>.resolve_left (by norm_num)) hs
    · exact h0

/-- Half of the circle, the two real ends once and the rest twice. -/
theorem sum_half_circle (h : ℕ) (hh : 0 < h) (m : ℤ) :
    1 + cos (π * m) + 2 * ∑ k ∈ range (h - 1), cos (2 * π * (k + 1) * m / (2 * h)) =
      if (2 * h : ℤ) ∣ m then (2 * h : ℝ) else 0 := by
  have hh' : (h : ℝ) ≠ 0 := by exact_mod_cast hh.ne'
  have hc := sum_full_circle (2 * h) (by omega) m
  push_cast at hc
  rw [← hc]
  obtain ⟨p, rfl⟩ : ∃ p, h = p + 1 := ⟨h - 1, by omega⟩
  have e0 : 2 * (p + 1) = p + 1 + 1 + p := by omega
  rw [e0, sum_range_add, sum_range_succ, sum_range_succ']
  rw [← sum_range_reflect (fun j => cos (2 * π * ((p + 1 + 1 + j : ℕ) : ℝ) * m / (2 * ((p + 1 : ℕ) : ℝ)))) p]
  have e1 : ∀ j ∈ range p, cos (2 * π * ((p + 1 + 1 + (p - 1 - j) : ℕ) : ℝ) * m / (2 * ((p + 1 : ℕ) : ℝ))) =
      cos (2 * π * ((j + 1 : ℕ) : ℝ) * m / (2 * ((p + 1 : ℕ) : ℝ))) := by
    intro j hj
    have hj := mem_range.1 hj
    have : ((p + 1 + 1 + (p - 1 - j) : ℕ) : ℝ) = 2 * ((p + 1 : ℕ) : ℝ) - ((j + 1 : ℕ) : ℝ) := by
      have : p + 1 + 1 + (p - 1 - j) + (j + 1) = 2 * (p + 1) := by omega
      have h2 : ((p + 1 + 1 + (p - 1 - j) : ℕ) : ℝ) + ((j + 1 : ℕ) : ℝ) = 2 * ((p + 1 : ℕ) : ℝ) := by exact_mod_cast this
      linarith
    rw [this]
    have e : 2 * π * (2 * ((p + 1 : ℕ) : ℝ) - ((j + 1 : ℕ) : ℝ)) * m / (2 * ((p + 1 : ℕ) : ℝ)) =
        -(2 * π * ((j + 1 : ℕ) : ℝ) * m / (2 * ((p + 1 : ℕ) : ℝ))) + m * (2 * π) := by
      field_simp; ring
    rw [e, cos_add_int_mul_two_pi, cos_neg]
  rw [sum_congr rfl e1]
  have e2 : 2 * π * ((p + 1 : ℕ) : ℝ) * m / (2 * ((p + 1 : ℕ) : ℝ)) = π * m := by field_simp
  rw [e2]
  simp only [Nat.add_sub_cancel]
  push_cast
  simp
  ring

end Zounds.TrigSums
