import Verif.Model.Spectral
import Verif.Lemmas.TrigSums
import Verif.Props.WindowFunc
import Verif.Props.Synth

/-!
# C53: MDCT analysis and synthesis
-/

namespace Zounds.Spectral
open Finset Real

/-- The angle of the modified discrete cosine transform: `π/l (t + 1/2 + l/2) (k + 1/2)`. -/
noncomputable def mdctAngle (l t k : ℕ) : ℝ := π / l * ((t : ℝ) + 1 / 2 + l / 2) * ((k : ℝ) + 1 / 2)

/-- The real part of a real sum times a unit number. -/
theorem re_sum_exp (n : ℕ) (x : ℕ → ℝ) (θ : ℕ → ℝ) (φ : ℝ) :
    ((∑ t ∈ range n, (x t : ℂ) * Complex.exp (-(θ t : ℝ) * Complex.I)) * Complex.exp (-(φ : ℝ) * Complex.I)).re =
      ∑ t ∈ range n, x t * cos (θ t + φ) := by
  rw [sum_mul, Complex.re_sum]
  apply sum_congr rfl
  intro t _
  rw [mul_assoc, ← Complex.exp_add]
  have e : -(θ t : ℂ) * Complex.I + -(φ : ℂ) * Complex.I = ((-(θ t + φ) : ℝ) : ℂ) * Complex.I := by push_cast; ring
  rw [e, Complex.re_ofReal_mul, Complex.exp_ofReal_mul_I_re, cos_neg]

theorem getD_map_range {α : Type} (f : ℕ → α) (d : α) (n i : ℕ) (h : i < n) : ((List.range n).map f).getD i d = f i := by
  rw [List.getD_eq_getElem?_getD, List.getElem?_eq_getElem (by simpa using h)]
  simp

theorem getD_map_range_ge {α : Type} (f : ℕ → α) (d : α) (n i : ℕ) (h : n ≤ i) : ((List.range n).map f).getD i d = d := by
  rw [List.getD_eq_getElem?_getD, List.getElem?_eq_none (by simpa using h)]
  rfl

/-- **C53, the transform**: `mdct` computes the modified discrete cosine transform of every window of an even number of samples. -/
theorem C53_mdct (l : ℕ) (hl : 0 < l) (data : List ℝ) (hd : data.length = 2 * l) :
    mdct data = .ok ((List.range l).map fun k => sqrt (2 / l) * ∑ t ∈ range (2 * l), data.getD t 0 * cos (mdctAngle l t k)) := by
  have hl' : (l : ℂ) ≠ 0 := by exact_mod_cast hl.ne'
  have hne : ¬ (data.length % 2 = 1 ∨ data = []) := by
    rintro (h | h)
    · omega
    · rw [h] at hd; simp at hd; omega
  unfold mdct
  rw [if_neg hne]
  have hl2 : data.length / 2 = l := by omega
  simp only [hl2]
  congr 1
  apply List.map_congr_left
  intro k hk
  have hk : k < l := List.mem_range.1 hk
  congr 1
  rw [List.getD_eq_getElem?_getD, List.getElem?_take_of_lt hk, ← List.getD_eq_getElem?_getD]
  unfold fft
  rw [getD_map_range _ _ _ _ (by omega)]
  have e1 : ∀ t ∈ range (2 * l), ((List.range (2 * l)).map fun t => (data.getD t 0 : ℂ) *
        Complex.exp (-Complex.I * π * t / 2 / l)).getD t 0 * Complex.exp (-2 * π * Complex.I * t * k / (2 * l : ℕ)) =
      (data.getD t 0 : ℂ) * Complex.exp (-((π * t / (2 * l) + π * t * k / l : ℝ) : ℂ) * Complex.I) := by
    intro t ht
    rw [getD_map_range _ _ _ _ (mem_range.1 ht), mul_assoc, ← Complex.exp_add]
    congr 2
    push_cast
    field_simp
    ring
  rw [sum_congr rfl e1]
  have e2 : -Complex.I * π * ((k : ℂ) + 1 / 2) * (l + 1) / 2 / l = -((π * (k + 1 / 2) * (l + 1) / (2 * l) : ℝ) : ℂ) * Complex.I := by
    push_cast; field_simp
  rw [e2, re_sum_exp]
  apply sum_congr rfl
  intro t _
  congr 2
  unfold mdctAngle
  have hl'' : (l : ℝ) ≠ 0 := by exact_mod_cast hl.ne'
  field_simp; ring

example := C53_mdct 2 (by decide) [1, 2, 3, 4] rfl

/-- **C53, the inverse transform**. -/
theorem C53_imdct (l : ℕ) (hl : 0 < l) (frame : List ℝ) (hd : frame.length = l) :
    imdct frame = .ok ((List.range (2 * l)).map fun t => sqrt (2 / l) * ∑ k ∈ range l, frame.getD k 0 * cos (mdctAngle l t k)) := by
  have hl' : (l : ℂ) ≠ 0 := by exact_mod_cast hl.ne'
  have hne : ¬ (frame = []) := by rintro rfl; simp at hd; omega
  unfold imdct
  rw [if_neg hne]
  simp only [hd]
  congr 1
  apply List.map_congr_left
  intro t ht
  have ht : t < 2 * l := List.mem_range.1 ht
  congr 1
  unfold fft
  rw [getD_map_range _ _ _ _ ht]
  have hz : ∀ f ∈ range (2 * l), f ∉ range l → ((List.range l).map fun f : ℕ => (frame.getD f 0 : ℂ) *
        Complex.exp (-Complex.I * π * ((f : ℂ) + 1 / 2) * (l + 1) / 2 / l)).getD f 0 *
        Complex.exp (-2 * π * Complex.I * f * t / (2 * l : ℕ)) = 0 := by
    intro f _ hf
    rw [getD_map_range_ge _ _ _ _ (by simpa using hf), zero_mul]
  rw [← sum_subset (range_subset_range.2 (by omega : l ≤ 2 * l)) hz]
  have e1 : ∀ f ∈ range l, ((List.range l).map fun f : ℕ => (frame.getD f 0 : ℂ) *
        Complex.exp (-Complex.I * π * ((f : ℂ) + 1 / 2) * (l + 1) / 2 / l)).getD f 0 *
        Complex.exp (-2 * π * Complex.I * f * t / (2 * l : ℕ)) =
      (frame.getD f 0 : ℂ) * Complex.exp (-((π * (f + 1 / 2) * (l + 1) / (2 * l) + π * f * t / l : ℝ) : ℂ) * Complex.I) := by
    intro f hf
    rw [getD_map_range _ _ _ _ (mem_range.1 hf), mul_assoc, ← Complex.exp_add]
    congr 2
    push_cast
    field_simp
    ring
  rw [sum_congr rfl e1]
  have e2 : -Complex.I * π * (t : ℂ) / 2 / l = -((π * t / (2 * l) : ℝ) : ℂ) * Complex.I := by
    push_cast; field_simp
  rw [e2, re_sum_exp]
  apply sum_congr rfl
  intro f _
  congr 2
  unfold mdctAngle
  have hl'' : (l : ℝ) ≠ 0 := by exact_mod_cast hl.ne'
  field_simp; ring

example := C53_imdct 2 (by decide) [1, 2] rfl

/-- The product of two columns of the transform. -/
theorem mdct_kernel (l : ℕ) (hl : 0 < l) (t s : ℕ) (ht : t < 2 * l) (hs : s < 2 * l) :
    2 / (l : ℝ) * ∑ k ∈ range l, cos (mdctAngle l t k) * cos (mdctAngle l s k) =
      (if s = t then 1 else 0) + (if t < l ∧ s = l - 1 - t then -1 else 0) + (if l ≤ t ∧ s = 3 * l - 1 - t then 1 else 0) := by
  have hl' : (l : ℝ) ≠ 0 := by exact_mod_cast hl.ne'
  have hprod : ∀ k ∈ range l, cos (mdctAngle l t k) * cos (mdctAngle l s k) =
      1 / 2 * (cos (((k : ℝ) + 1 / 2) * (π * ((t - s : ℤ) : ℝ) / l)) + cos (((k : ℝ) + 1 / 2) * (π * ((t + s + 1 + l : ℤ) : ℝ) / l))) := by
    intro k _
    have e1 : ((k : ℝ) + 1 / 2) * (π * ((t - s : ℤ) : ℝ) / l) = mdctAngle l t k - mdctAngle l s k := by
      unfold mdctAngle; push_cast; field_simp; ring
    have e2 : ((k : ℝ) + 1 / 2) * (π * ((t + s + 1 + l : ℤ) : ℝ) / l) = mdctAngle l t k + mdctAngle l s k := by
      unfold mdctAngle; push_cast; field_simp; ring
    rw [e1, e2, cos_sub, cos_add]; ring
  rw [sum_congr rfl hprod, ← mul_sum, sum_add_distrib]
  have hA : ∑ k ∈ range l, cos (((k : ℝ) + 1 / 2) * (π * ((t - s : ℤ) : ℝ) / l)) = if s = t then (l : ℝ) else 0 := by
    by_cases h : s = t
    · subst h
      have := TrigSums.sum_half_odd_even l hl 0
      simpa using this
    · rw [if_neg h]
      apply TrigSums.sum_half_odd_zero l hl
      rintro ⟨j, hj⟩
      have : j = 0 := by
        by_contra h0
        rcases lt_or_gt_of_ne h0 with h1 | h1
        · have : (2 * l : ℤ) * j ≤ (2 * l) * (-1) := mul_le_mul_of_nonneg_left (by omega) (by omega)
          omega
        · have : (2 * l : ℤ) * 1 ≤ (2 * l) * j := mul_le_mul_of_nonneg_left (by omega) (by omega)
          omega
      subst this
      omega
  have hB : ∑ k ∈ range l, cos (((k : ℝ) + 1 / 2) * (π * ((t + s + 1 + l : ℤ) : ℝ) / l)) =
      (if t < l ∧ s = l - 1 - t then -(l : ℝ) else 0) + (if l ≤ t ∧ s = 3 * l - 1 - t then (l : ℝ) else 0) := by
    by_cases h1 : t < l ∧ s = l - 1 - t
    · rw [if_pos h1, if_neg (by omega), add_zero]
      have e : (t + s + 1 + l : ℤ) = 2 * l * (2 * 0 + 1) := by omega
      rw [e]; exact TrigSums.sum_half_odd_odd l hl 0
    · by_cases h2 : l ≤ t ∧ s = 3 * l - 1 - t
      · rw [if_neg h1, if_pos h2, zero_add]
        have e : (t + s + 1 + l : ℤ) = 2 * l * (2 * 1) := by omega
        rw [e]; exact TrigSums.sum_half_odd_even l hl 1
      · rw [if_neg h1, if_neg h2, add_zero]
        apply TrigSums.sum_half_odd_zero l hl
        rintro ⟨j, hj⟩
        have hj1 : 1 ≤ j := by
          by_contra h0
          have : (2 * l : ℤ) * j ≤ (2 * l) * 0 := mul_le_mul_of_nonneg_left (by omega) (by omega)
          omega
        have hj2 : j ≤ 2 := by
          by_contra h0
          have : (2 * l : ℤ) * 3 ≤ (2 * l) * j := mul_le_mul_of_nonneg_left (by omega) (by omega)
          omega
        have : j = 1 ∨ j = 2 := by omega
        rcases this with rfl | rfl <;> omega
  rw [hA, hB]
  have : ∀ P : Prop, ∀ [Decidable P], ∀ c : ℝ, (if P then c else 0) = c * (if P then 1 else 0) := by
    intro P _ c; split <;> simp
  rw [this _ (l : ℝ), this _ (-(l : ℝ)), this (l ≤ t ∧ s = 3 * l - 1 - t) (l : ℝ), this (t < l ∧ s = l - 1 - t) (-1 : ℝ)]
  field_simp
  ring

/-- **C53, inverting one window**: the inverse transform of the transform of a window is not the window but the window plus its alias:
the first half comes back minus its mirror image, the second half plus its mirror image. -/
theorem C53_alias (l : ℕ) (hl : 0 < l) (data : List ℝ) (hd : data.length = 2 * l) :
    ∃ c y, mdct data = .ok c ∧ imdct c = .ok y ∧ c.length = l ∧ y.length = 2 * l ∧
      (∀ t, t < l → y.getD t 0 = data.getD t 0 - data.getD (l - 1 - t) 0) ∧
      (∀ t, l ≤ t → t < 2 * l → y.getD t 0 = data.getD t 0 + data.getD (3 * l - 1 - t) 0) := by
  have hl' : (0 : ℝ) < l := by exact_mod_cast hl
  refine ⟨_, _, C53_mdct l hl data hd, C53_imdct l hl _ (by simp), by simp, by simp, ?_⟩
  have key : ∀ t, t < 2 * l →
      ((List.range (2 * l)).map fun t => sqrt (2 / l) * ∑ k ∈ range l,
        ((List.range l).map fun k => sqrt (2 / l) * ∑ t ∈ range (2 * l), data.getD t 0 * cos (mdctAngle l t k)).getD k 0 *
          cos (mdctAngle l t k)).getD t 0 =
      ∑ s ∈ range (2 * l), data.getD s 0 * ((if s = t then 1 else 0) + (if t < l ∧ s = l - 1 - t then -1 else 0) +
        (if l ≤ t ∧ s = 3 * l - 1 - t then 1 else 0)) := by
    intro t ht
    rw [getD_map_range _ _ _ _ ht]
    have : ∀ k ∈ range l, ((List.range l).map fun k => sqrt (2 / l) * ∑ t ∈ range (2 * l), data.getD t 0 *
        cos (mdctAngle l t k)).getD k 0 * cos (mdctAngle l t k) =
        ∑ s ∈ range (2 * l), sqrt (2 / l) * (data.getD s 0 * (cos (mdctAngle l t k) * cos (mdctAngle l s k))) := by
      intro k hk
      rw [getD_map_range _ _ _ _ (mem_range.1 hk), mul_assoc, sum_mul, mul_sum]
      apply sum_congr rfl
      intro s _; ring
    rw [sum_congr rfl this, sum_comm, mul_sum]
    apply sum_congr rfl
    intro s hs
    rw [← mdct_kernel l hl t s ht (mem_range.1 hs), ← mul_sum, ← mul_sum]
    have h2 : sqrt (2 / (l : ℝ)) * sqrt (2 / l) = 2 / l := mul_self_sqrt (by positivity)
    linear_combination (data.getD s 0 * ∑ k ∈ range l, cos (mdctAngle l t k) * cos (mdctAngle l s k)) * h2
  constructor
  · intro t ht
    rw [key t (by omega)]
    have h1 : ∀ s ∈ range (2 * l), data.getD s 0 * ((if s = t then 1 else 0) + (if t < l ∧ s = l - 1 - t then -1 else 0) +
        (if l ≤ t ∧ s = 3 * l - 1 - t then 1 else 0)) =
        (if s = t then data.getD s 0 else 0) + (if s = l - 1 - t then - data.getD s 0 else 0) := by
      intro s _
      have a : (t < l ∧ s = l - 1 - t) ↔ s = l - 1 - t := by simp [ht]
      have b : ¬ (l ≤ t ∧ s = 3 * l - 1 - t) := by omega
      simp only [a, b, if_false]
      split <;> split <;> ring
    rw [sum_congr rfl h1, sum_add_distrib, sum_ite_eq' , sum_ite_eq', if_pos (mem_range.2 (by omega)), if_pos (mem_range.2 (by omega))]
    ring
  · intro t ht1 ht2
    rw [key t ht2]
    have h1 : ∀ s ∈ range (2 * l), data.getD s 0 * ((if s = t then 1 else 0) + (if t < l ∧ s = l - 1 - t then -1 else 0) +
        (if l ≤ t ∧ s = 3 * l - 1 - t then 1 else 0)) =
        (if s = t then data.getD s 0 else 0) + (if s = 3 * l - 1 - t then data.getD s 0 else 0) := by
      intro s _
      have a : ¬ (t < l ∧ s = l - 1 - t) := by omega
      have b : (l ≤ t ∧ s = 3 * l - 1 - t) ↔ s = 3 * l - 1 - t := by simp [ht1]
      simp only [a, b, if_false]
      split <;> split <;> ring
    rw [sum_congr rfl h1, sum_add_distrib, sum_ite_eq' , sum_ite_eq', if_pos (mem_range.2 (by omega)), if_pos (mem_range.2 (by omega))]

example := C53_alias 2 (by decide) [1, 2, 3, 4] rfl

/-- Window sizes that are odd, and empty windows, are refused. -/
theorem C53_odd (data : List ℝ) (h : data.length % 2 = 1 ∨ data = []) : mdct data = .error .valueError := by
  unfold mdct; rw [if_pos h]

example := C53_odd [1, 2, 3] (Or.inl rfl)

theorem mapM_ok {ι α β : Type} (f : α → Except PyErr β) (a : ι → α) (g : ι → β) (l : List ι) (h : ∀ i ∈ l, f (a i) = .ok (g i)) :
    (l.map a).mapM f = .ok (l.map g) := by
  induction l with
  | nil => rfl
  | cons i l ih =>
    rw [List.map_cons, List.mapM_cons, h i (by simp), ih (fun b hb => h b (by simp [hb]))]
    rfl

theorem mapM_length {α β : Type} {f : α → Except PyErr β} {l : List α} : ∀ {r : List β}, l.mapM f = .ok r → r.length = l.length := by
  induction l with
  | nil => intro r h; simp only [List.mapM_nil] at h; cases h; rfl
  | cons a l ih =>
    intro r h
    rw [List.mapM_cons] at h
    cases hf : f a with
    | error e => rw [hf] at h; cases h
    | ok b =>
      rw [hf] at h
      cases hm : l.mapM f with
      | error e => rw [hm] at h; cases h
      | ok r' =>
        rw [hm] at h
        cases h
        simp [ih hm]

/-- The alias of a window of `2 m` numbers: what inverting its transform gives. -/
def aliased (m : ℕ) (d : ℕ → ℝ) (t : ℕ) : ℝ := if t < m then d t - d (m - 1 - t) else d t + d (3 * m - 1 - t)

theorem overlapped_half (m k : ℕ) (hm : 0 < m) (F : ℕ → ℕ → ℝ) (q r : ℕ) (hq : 1 ≤ q) (hqk : q ≤ k) (hr : r < m) :
    Synth.overlapped ((List.range (k + 1)).map fun i => (List.range (2 * m)).map (F i)) m (q * m + r) =
      F q r + F (q - 1) (m + r) := by
  unfold Synth.overlapped
  have hlen : ((List.range (k + 1)).map fun i => (List.range (2 * m)).map (F i)).length = k + 1 := by simp
  rw [hlen]
  obtain ⟨p, rfl⟩ : ∃ p, q = p + 1 := ⟨q - 1, by omega⟩
  have hpm : (p + 1) * m = p * m + m := by ring
  rw [Finset.sum_eq_add (p + 1) p (by omega)]
  · rw [if_pos (by omega), if_pos (by omega), getD_map_range _ _ _ _ (by omega), getD_map_range _ _ _ _ (by omega)]
    have e1 : (p + 1) * m + r - (p + 1) * m = r := by omega
    have e2 : (p + 1) * m + r - p * m = m + r := by omega
    rw [e1, e2, getD_map_range _ _ _ _ (by omega), getD_map_range _ _ _ _ (by omega)]
    simp
  · intro i hi hne
    have hi := mem_range.1 hi
    by_cases h : i * m ≤ (p + 1) * m + r
    · rw [if_pos h, getD_map_range _ _ _ _ hi, getD_map_range_ge]
      have : i ≤ p + 1 := by
        by_contra hc
        have : (p + 2) * m ≤ i * m := Nat.mul_le_mul_right _ (by omega)
        have : (p + 2) * m = p * m + 2 * m := by ring
        omega
      have : (i + 1) * m ≤ p * m := Nat.mul_le_mul_right _ (by omega)
      have : (i + 1) * m = i * m + m := by ring
      omega
    · rw [if_neg h]
  · intro h; exact absurd (mem_range.2 (by omega)) h
  · intro h; exact absurd (mem_range.2 (by omega)) h

/-- **C53, time domain alias cancellation**: for a window that is symmetric and whose squares half a window apart sum to `g`, the
half-lapped windows of a signal, weighted, transformed, inverted, weighted again and overlap-added give `g` times the signal, except
in the first and the last half window. -/
theorem C53_tdac (x : ℕ → ℝ) (w : ℕ → ℝ) (g : ℝ) (f0 : Int) (m k : ℕ) (hf0 : 0 < f0) (hm : 0 < m)
    (hsym : ∀ j, j < 2 * m → w (2 * m - 1 - j) = w j) (hpow : ∀ j, j < m → w j ^ 2 + w (j + m) ^ 2 = g) :
    ∃ coeffs ys out,
      ((List.range (k + 1)).map fun i => (List.range (2 * m)).map fun j => w j * x (i * m + j)).mapM mdct = .ok coeffs ∧
      (∀ c ∈ coeffs, c.length = m) ∧
      coeffs.mapM imdct = .ok ys ∧
      Synth.overlapAdd (some ((List.range (2 * m)).map w)) ⟨Synth.windowsDim f0 (2 * m) m (k + 1), 2 * m, ys⟩ = .ok out ∧
      out.length = (k + 2) * m ∧ ∀ t, m ≤ t → t < (k + 1) * m → out.getD t 0 = g * x t := by
  have hrow : ∀ i : ℕ, ((List.range (2 * m)).map fun j => w j * x (i * m + j)).length = 2 * m := by intro i; simp
  choose c y hc using fun i : ℕ => C53_alias m hm _ (hrow i)
  refine ⟨(List.range (k + 1)).map c, (List.range (k + 1)).map y, ?_⟩
  have hy : ∀ i, y i = (List.range (2 * m)).map (aliased m fun j => w j * x (i * m + j)) := by
    intro i
    obtain ⟨_, _, _, hl, h1, h2⟩ := hc i
    apply Synth.getD_ext (by rw [hl]; simp)
    intro t ht
    rw [hl] at ht
    rw [getD_map_range _ _ _ _ ht]
    unfold aliased
    by_cases h : t < m
    · rw [if_pos h, h1 t h, getD_map_range _ _ _ _ (by omega), getD_map_range _ _ _ _ (by omega)]
    · rw [if_neg h, h2 t (by omega) ht, getD_map_range _ _ _ _ (by omega), getD_map_range _ _ _ _ (by omega)]
  let rows : List (List ℝ) := (List.range (k + 1)).map fun i => (List.range (2 * m)).map
    (fun t => w t * aliased m (fun j => w j * x (i * m + j)) t)
  have hz : ((List.range (k + 1)).map y).map (fun r => List.zipWith (· * ·) ((List.range (2 * m)).map w) r) = rows := by
    simp only [rows, List.map_map]
    apply List.map_congr_left
    intro i _
    simp only [Function.comp, hy]
    rw [List.zipWith_map, List.zipWith_self]
  obtain ⟨out, e, l, hg⟩ := Synth.C35_overlap_add (⟨Synth.windowsDim f0 (2 * m) m (k + 1), 2 * m, rows⟩ : Synth.Frames ℝ) f0 m k hf0
    (by simp; omega) rfl (by intro r hr; simp only [rows, List.mem_map] at hr; obtain ⟨i, _, rfl⟩ := hr; simp)
  refine ⟨out, ?_, ?_, ?_, ?_, by rw [l]; ring, ?_⟩
  · exact mapM_ok mdct _ c _ fun i _ => (hc i).1
  · intro a ha
    obtain ⟨i, _, rfl⟩ := List.mem_map.1 ha
    exact (hc i).2.2.1
  · exact mapM_ok imdct c y _ fun i _ => (hc i).2.1
  · rw [Synth.C35_synthesis_window, ← e, hz]
  · intro t h1 h2
    have hk1 : (k + 1) * m = k * m + m := by ring
    have hlt : t < out.length := by rw [l]; show t < k * m + 2 * m; omega
    rw [hg t hlt]
    obtain ⟨q, r, rfl, hr⟩ : ∃ q r, t = q * m + r ∧ r < m := ⟨t / m, t % m, by rw [Nat.div_add_mod' t m], Nat.mod_lt _ hm⟩
    have hq : 1 ≤ q := by
      by_contra h
      have : q = 0 := by omega
      subst this; omega
    have hqk : q ≤ k := by
      by_contra h
      have : (k + 1) * m ≤ q * m := Nat.mul_le_mul_right _ (by omega)
      omega
    simp only [rows]
    rw [overlapped_half m k hm _ q r hq hqk hr]
    simp only [aliased]
    rw [if_pos hr, if_neg (by omega)]
    obtain ⟨p, rfl⟩ : ∃ p, q = p + 1 := ⟨q - 1, by omega⟩
    have hpm : (p + 1) * m = p * m + m := by ring
    have s1 := hsym r (by omega)
    have s2 := hsym (m - 1 - r) (by omega)
    have e2 : 2 * m - 1 - (m - 1 - r) = m + r := by omega
    have e3 : 3 * m - 1 - (m + r) = 2 * m - 1 - r := by omega
    have e4 : (p + 1 - 1) * m + (m + r) = (p + 1) * m + r := by rw [hpm]; simp; omega
    have e5 : (p + 1 - 1) * m + (2 * m - 1 - r) = (p + 1) * m + (m - 1 - r) := by rw [hpm]; simp; omega
    rw [e2] at s2
    have hp := hpow r hr
    rw [Nat.add_comm r m] at hp
    rw [e3, e4, e5, s1, s2]
    rw [s2] at hp
    linear_combination x ((p + 1) * m + r) * hp

example := C53_tdac (fun t => (t : ℝ)) (fun _ => 1) 2 22675736 2 3 (by decide) (by decide) (by simp) (by intros; norm_num)

theorem ogg_list (n : ℕ) : WindowFunc.oggvorbis n = (List.range n).map fun j => (WindowFunc.oggvorbis n).getD j 0 := by
  apply Synth.getD_ext (by simp [WindowFunc.oggvorbis_length])
  intro t ht
  rw [WindowFunc.oggvorbis_length] at ht
  rw [getD_map_range _ _ _ _ ht]

/-- **C53, MDCT round trip**: audio cut into half-lapped windows of `2 m` samples weighted by the ogg vorbis window, transformed by the
MDCT node and given to the MDCT synthesizer comes back scaled by `1 / oggMax²`, a number a little over one that
depends only on the window size (`C50_princen_bradley_refuted`, `C50_ogg_gain_bound`), except in the first and last half window.  The signal has any length and content. -/
theorem C53_roundtrip (x : ℕ → ℝ) (f0 : Int) (m k : ℕ) (hf0 : 0 < f0) (hm : 0 < m) :
    ∃ coeffs out,
      ((List.range (k + 1)).map fun i => (List.range (2 * m)).map fun j =>
        (WindowFunc.oggvorbis (2 * m)).getD j 0 * x (i * m + j)).mapM mdct = .ok coeffs ∧
      coeffs.length = k + 1 ∧ (∀ c ∈ coeffs, c.length = m) ∧
      mdctSynthesize ⟨Synth.windowsDim f0 (2 * m) m (k + 1), m, coeffs⟩ = .ok out ∧
      out.length = (k + 2) * m ∧
      ∀ t, m ≤ t → t < (k + 1) * m → out.getD t 0 = (1 / WindowFunc.oggMax (2 * m) ^ 2) * x t := by
  have hsym : ∀ j, j < 2 * m → (WindowFunc.oggvorbis (2 * m)).getD (2 * m - 1 - j) 0 = (WindowFunc.oggvorbis (2 * m)).getD j 0 := by
    intro j hj
    rw [List.getD_eq_getElem?_getD, WindowFunc.C50_ogg_symmetric _ _ hj, ← List.getD_eq_getElem?_getD]
  have hpow : ∀ j, j < m → (WindowFunc.oggvorbis (2 * m)).getD j 0 ^ 2 + (WindowFunc.oggvorbis (2 * m)).getD (j + m) 0 ^ 2 =
      1 / WindowFunc.oggMax (2 * m) ^ 2 := by
    intro j hj
    obtain ⟨a, b, h1, h2, h3⟩ := WindowFunc.C50_ogg_power m j hj
    rw [List.getD_eq_getElem?_getD, List.getD_eq_getElem?_getD, h1, h2]; exact h3
  obtain ⟨coeffs, ys, out, h1, h2, h3, h4, h5, h6⟩ := C53_tdac x _ _ f0 m k hf0 hm hsym hpow
  refine ⟨coeffs, out, h1, ?_, h2, ?_, h5, h6⟩
  · rw [mapM_length h1]; simp
  · unfold mdctSynthesize
    simp only [h3]
    rw [ogg_list]; exact h4

example := C53_roundtrip (fun t => (t : ℝ)) 22675736 2 3 (by decide) (by decide)

end Zounds.Spectral
