import Verif.Model.Descriptors
import Verif.Lemmas.TrigSums
import Mathlib.Analysis.MeanInequalities
import Mathlib.Tactic.Linarith
import Mathlib.Tactic.FieldSimp
import Mathlib.Tactic.Ring
import Mathlib.Data.List.GetD

/-!
# C62: spectral centroid, spectral flatness, Bark frequency cepstral coefficients
-/

namespace Zounds.Descriptors
open Finset

/-! ## Sums over lists and over indices -/

theorem list_sum_eq (l : List ℝ) : l.sum = ∑ j ∈ range l.length, l.getD j 0 := by
  induction l with
  | nil => simp
  | cons a l ih => rw [List.sum_cons, List.length_cons, sum_range_succ', ih]; simp [add_comm]

/-! ## Flatness -/

theorem gmean_nonneg (row : List ℝ) : 0 ≤ gmean row := by
  unfold gmean; split
  · exact le_refl 0
  · exact (Real.exp_pos _).le

theorem log_sum_eq (row : List ℝ) (h : ∀ x ∈ row, 0 < x) : (row.map Real.log).sum = Real.log row.prod := by
  induction row with
  | nil => simp
  | cons a l ih =>
    have ha := h a (by simp)
    have hl : ∀ x ∈ l, 0 < x := fun x hx => h x (by simp [hx])
    have hp : 0 < l.prod := List.prod_pos hl
    rw [List.map_cons, List.sum_cons, ih hl, List.prod_cons, Real.log_mul ha.ne' hp.ne']

/-- `exp(mean(log))` is the geometric mean, the `n`-th root of the product. -/
theorem gmean_eq (row : List ℝ) (h : ∀ x ∈ row, 0 ≤ x) (hne : row ≠ []) : gmean row = row.prod ^ (1 / (row.length : ℝ)) := by
  have hlen : (0 : ℝ) < row.length := by have := List.length_pos_iff.2 hne; exact_mod_cast this
  unfold gmean
  split
  · rename_i h0
    rw [List.prod_eq_zero h0, Real.zero_rpow (by positivity)]
  · rename_i h0
    have hp : ∀ x ∈ row, 0 < x := fun x hx => lt_of_le_of_ne (h x hx) (fun e => h0 (e ▸ hx))
    rw [log_sum_eq row hp, Real.rpow_def_of_pos (List.prod_pos hp)]
    congr 1
    ring

theorem list_prod_eq (l : List ℝ) : l.prod = ∏ j ∈ range l.length, l.getD j 1 := by
  induction l with
  | nil => simp
  | cons a l ih => rw [List.prod_cons, List.length_cons, prod_range_succ', ih]; simp [mul_comm]

theorem getD_mem' (l : List ℝ) (j : ℕ) (d : ℝ) (hj : j < l.length) : l.getD j d ∈ l := by
  rw [List.getD_eq_getElem?_getD, List.getElem?_eq_getElem hj]
  exact List.getElem_mem hj

/-- The mean of the magnitudes is zero exactly when all are. -/
theorem mean_eq_zero_iff (row : List ℝ) (hne : row ≠ []) :
    (row.map fun x => |x|).sum / ((row.map fun x => |x|).length : ℝ) = 0 ↔ ∀ x ∈ row, x = 0 := by
  have hlen : (0 : ℝ) < (row.map fun x => |x|).length := by
    have := List.length_pos_iff.2 hne
    rw [List.length_map]
    exact_mod_cast this
  rw [div_eq_zero_iff, or_iff_left hlen.ne']
  clear hlen hne
  induction row with
  | nil => simp
  | cons a l ih =>
    have h1 : 0 ≤ (l.map fun x => |x|).sum := List.sum_nonneg (by intro x hx; simp only [List.mem_map] at hx; obtain ⟨y, _, rfl⟩ := hx; positivity)
    rw [List.map_cons, List.sum_cons]
    constructor
    · intro h
      have h2 : |a| = 0 := by have := abs_nonneg a; linarith
      have h3 : (l.map fun x => |x|).sum = 0 := by linarith
      intro x hx
      rcases List.mem_cons.1 hx with rfl | hx
      · exact abs_eq_zero.1 h2
      · exact (ih.1 h3) x hx
    · intro h
      rw [h a (by simp), ih.2 (fun x hx => h x (by simp [hx]))]
      simp

/-- **C62, silence**: the flatness of a frame of zeros is zero. -/
theorem C62_flatness_silence (row : List ℝ) (hne : row ≠ []) (h : ∀ x ∈ row, x = 0) : flatness row = 0 := by
  have h0 : (0 : ℝ) ∈ row.map fun x => |x| := by
    obtain ⟨a, l, rfl⟩ := List.exists_cons_of_ne_nil hne
    have := h a (by simp)
    simp [this]
  simp [flatness, gmean, h0]

example := C62_flatness_silence [0, 0] (by simp) (by simp)

/-- **C62, flatness is the ratio of geometric and arithmetic mean** of the magnitudes of a frame that is not silent. -/
theorem C62_flatness_ratio (row : List ℝ) (hne : row ≠ []) (h : ∃ x ∈ row, x ≠ 0) :
    flatness row = (row.map fun x => |x|).prod ^ (1 / (row.length : ℝ)) / ((row.map fun x => |x|).sum / (row.length : ℝ)) := by
  have hm : ¬ (row.map fun x => |x|).sum / ((row.map fun x => |x|).length : ℝ) = 0 := by
    rw [mean_eq_zero_iff row hne]; push Not; exact h
  unfold flatness
  simp only [hm, if_false]
  rw [gmean_eq _ (by intro x hx; simp only [List.mem_map] at hx; obtain ⟨y, _, rfl⟩ := hx; positivity) (by simpa using hne),
    List.length_map]

example := C62_flatness_ratio [1, -2, 0] (by simp) ⟨1, by simp, by norm_num⟩

/-- The arithmetic-geometric mean inequality for the numbers of a list, with its case of equality. -/
theorem amgm (l : List ℝ) (h : ∀ x ∈ l, 0 ≤ x) (hne : l ≠ []) :
    l.prod ^ (1 / (l.length : ℝ)) ≤ l.sum / (l.length : ℝ) ∧
    (l.prod ^ (1 / (l.length : ℝ)) = l.sum / (l.length : ℝ) ↔ ∀ x ∈ l, ∀ y ∈ l, x = y) := by
  have hlen : (0 : ℝ) < l.length := by have := List.length_pos_iff.2 hne; exact_mod_cast this
  have hz : ∀ j ∈ range l.length, 0 ≤ l.getD j 1 := fun j hj => h _ (getD_mem' l j 1 (mem_range.1 hj))
  have hw : ∀ j ∈ range l.length, (0 : ℝ) < 1 / (l.length : ℝ) := fun _ _ => by positivity
  have hsum : ∑ _j ∈ range l.length, (1 / (l.length : ℝ)) = 1 := by
    rw [sum_const, card_range, nsmul_eq_mul]; field_simp
  have e1 : (∏ j ∈ range l.length, l.getD j 1 ^ (1 / (l.length : ℝ))) = l.prod ^ (1 / (l.length : ℝ)) := by
    rw [list_prod_eq, Real.finset_prod_rpow _ _ hz]
  have e2 : (∑ j ∈ range l.length, (1 / (l.length : ℝ)) * l.getD j 1) = l.sum / (l.length : ℝ) := by
    rw [← mul_sum, list_sum_eq, one_div, inv_mul_eq_div]
    congr 1
    apply sum_congr rfl
    intro j hj
    rw [List.getD_eq_getElem?_getD, List.getD_eq_getElem?_getD, List.getElem?_eq_getElem (mem_range.1 hj)]
    rfl
  constructor
  · have := Real.geom_mean_le_arith_mean_weighted (range l.length) (fun _ => 1 / (l.length : ℝ)) (fun j => l.getD j 1)
      (fun i hi => (hw i hi).le) hsum hz
    rw [e1, e2] at this
    exact this
  · have := Real.geom_mean_eq_arith_mean_weighted_iff_of_pos (range l.length) (fun _ => 1 / (l.length : ℝ)) (fun j => l.getD j 1)
      hw hsum hz
    rw [e1, e2] at this
    rw [this]
    constructor
    · intro hj x hx y hy
      obtain ⟨i, hi, rfl⟩ := List.mem_iff_getElem.1 hx
      obtain ⟨k, hk, rfl⟩ := List.mem_iff_getElem.1 hy
      have := hj i (mem_range.2 hi) k (mem_range.2 hk)
      simpa [hi, hk] using this
    · intro hall i hi k hk
      exact hall _ (getD_mem' l i 1 (mem_range.1 hi)) _ (getD_mem' l k 1 (mem_range.1 hk))

/-- **C62, range**: the flatness of any frame lies between zero and one. -/
theorem C62_flatness_range (row : List ℝ) (hne : row ≠ []) : 0 ≤ flatness row ∧ flatness row ≤ 1 := by
  by_cases h : ∃ x ∈ row, x ≠ 0
  · rw [C62_flatness_ratio row hne h]
    have hpos : ∀ x ∈ (row.map fun x => |x|), 0 ≤ x := by
      intro x hx; simp only [List.mem_map] at hx; obtain ⟨y, _, rfl⟩ := hx; positivity
    have hs : 0 ≤ (row.map fun x => |x|).sum / (row.length : ℝ) := by
      have := List.sum_nonneg hpos
      positivity
    refine ⟨div_nonneg (Real.rpow_nonneg (List.prod_nonneg hpos) _) hs, ?_⟩
    apply div_le_one_of_le₀ _ hs
    have := (amgm (row.map fun x => |x|) hpos (by simpa using hne)).1
    rwa [List.length_map] at this
  · push Not at h
    rw [C62_flatness_silence row hne h]
    norm_num

example := C62_flatness_range [1, -2, 0] (by simp)

/-- **C62, white noise and tones**: a frame that is not silent has flatness one exactly when all magnitudes are equal. -/
theorem C62_flatness_one (row : List ℝ) (hne : row ≠ []) (h : ∃ x ∈ row, x ≠ 0) :
    flatness row = 1 ↔ ∀ x ∈ row, ∀ y ∈ row, |x| = |y| := by
  have hpos : ∀ x ∈ (row.map fun x => |x|), 0 ≤ x := by
    intro x hx; simp only [List.mem_map] at hx; obtain ⟨y, _, rfl⟩ := hx; positivity
  have hm : (row.map fun x => |x|).sum / (row.length : ℝ) ≠ 0 := by
    have := (mean_eq_zero_iff row hne).not
    rw [List.length_map] at this
    apply this.2
    push Not; exact h
  rw [C62_flatness_ratio row hne h, div_eq_one_iff_eq hm]
  have := (amgm (row.map fun x => |x|) hpos (by simpa using hne)).2
  rw [List.length_map] at this
  rw [this]
  simp

/-- A frame that is not silent has flatness zero exactly when some bin is empty: a single empty bin hides all others. -/
theorem C62_flatness_zero (row : List ℝ) (hne : row ≠ []) : flatness row = 0 ↔ 0 ∈ row := by
  by_cases h0 : (0 : ℝ) ∈ row
  · simp only [h0, iff_true]
    have : (0 : ℝ) ∈ row.map fun x => |x| := List.mem_map.2 ⟨0, h0, abs_zero⟩
    simp [flatness, gmean, this]
  · simp only [h0, iff_false]
    have h1 : ∃ x ∈ row, x ≠ 0 := by
      obtain ⟨a, l, rfl⟩ := List.exists_cons_of_ne_nil hne
      exact ⟨a, by simp, fun e => h0 (by simp [e])⟩
    have hm : ¬ (row.map fun x => |x|).sum / ((row.map fun x => |x|).length : ℝ) = 0 := by
      rw [mean_eq_zero_iff row hne]; push Not; exact h1
    have h2 : (0 : ℝ) ∉ row.map fun x => |x| := by
      intro hx
      obtain ⟨y, hy, e⟩ := List.mem_map.1 hx
      exact h0 (abs_eq_zero.1 e ▸ hy)
    simp only [flatness, gmean, hm, h2, if_false]
    exact div_ne_zero (Real.exp_pos _).ne' hm

example := C62_flatness_zero [1, -2, 0] (by simp)

/-- **C62, volume**: the flatness does not depend on the volume. -/
theorem C62_flatness_scale (row : List ℝ) (hne : row ≠ []) (c : ℝ) (hc : c ≠ 0) : flatness (row.map fun x => c * x) = flatness row := by
  by_cases h : ∃ x ∈ row, x ≠ 0
  · have h' : ∃ x ∈ (row.map fun x => c * x), x ≠ 0 := by
      obtain ⟨x, hx, h0⟩ := h
      exact ⟨c * x, List.mem_map.2 ⟨x, hx, rfl⟩, mul_ne_zero hc h0⟩
    rw [C62_flatness_ratio row hne h, C62_flatness_ratio _ (by simpa using hne) h']
    have hcp : 0 < |c| := abs_pos.2 hc
    have e : ((row.map fun x => c * x).map fun x => |x|) = (row.map fun x => |x|).map fun x => |c| * x := by
      simp [List.map_map, Function.comp_def, abs_mul]
    have hlen : (0 : ℝ) < row.length := by have := List.length_pos_iff.2 hne; exact_mod_cast this
    have hpos : ∀ x ∈ (row.map fun x => |x|), 0 ≤ x := by
      intro x hx; simp only [List.mem_map] at hx; obtain ⟨y, _, rfl⟩ := hx; positivity
    have eprod : ∀ l : List ℝ, (l.map fun x => |c| * x).prod = |c| ^ l.length * l.prod := by
      intro l
      induction l with
      | nil => simp
      | cons a l ih => simp only [List.map_cons, List.prod_cons, ih, List.length_cons]; ring
    rw [e, eprod, List.sum_map_mul_left, List.map_id', List.length_map, List.length_map, Real.mul_rpow (by positivity) (List.prod_nonneg hpos),
      ← Real.rpow_natCast, ← Real.rpow_mul hcp.le, mul_one_div, div_self hlen.ne', Real.rpow_one, mul_div_assoc |c|]
    rw [mul_div_assoc |c| (List.sum _), ← mul_div_assoc, mul_div_mul_left _ _ hcp.ne']
  · push Not at h
    rw [C62_flatness_silence row hne h, C62_flatness_silence _ (by simpa using hne)]
    intro x hx
    obtain ⟨y, hy, rfl⟩ := List.mem_map.1 hx
    rw [h y hy, mul_zero]

example := C62_flatness_scale [1, -2, 0] (by simp) (-3) (by norm_num)

/-- **C62, the order of the bins does not matter to the flatness.** -/
theorem C62_flatness_perm (row row' : List ℝ) (h : row.Perm row') : flatness row = flatness row' := by
  have hp := h.map fun x => |x|
  have e1 : ((0 : ℝ) ∈ row.map fun x => |x|) = ((0 : ℝ) ∈ row'.map fun x => |x|) := propext hp.mem_iff
  simp only [flatness, gmean, e1, hp.sum_eq, hp.length_eq, (hp.map Real.log).sum_eq]

example := C62_flatness_perm [1, -2, 0] [-2, 1, 0] (List.Perm.swap _ _ _)

/-! ## Centroid -/

/-- The sum of the bin numbers. -/
theorem bins_sum (n : ℕ) : ((List.range n).map fun j : ℕ => ((j : ℝ) + 1)).sum = (n : ℝ) * (n + 1) / 2 := by
  induction n with
  | zero => simp
  | succ n ih => rw [List.range_succ, List.map_append, List.sum_append, ih]; simp; ring

/-- **C62, the spectral centroid that is computed**: `∑ |x_j| (j + 1)` over `n (n + 1) / 2`. -/
theorem C62_centroid_value (row : List ℝ) :
    centroid row = (∑ j ∈ range row.length, |row.getD j 0| * ((j : ℝ) + 1)) / ((row.length : ℝ) * (row.length + 1) / 2) := by
  unfold centroid
  simp only []
  rw [bins_sum, list_sum_eq]
  congr 1
  rw [List.length_zipWith, List.length_map, List.length_range, Nat.min_self]
  apply sum_congr rfl
  intro j hj
  have hj := mem_range.1 hj
  simp [hj]

/-- The centre of mass of a frame, as the node's documentation defines it: the mean of the bin numbers weighted by the magnitudes. -/
noncomputable def centreOfMass (row : List ℝ) : ℝ :=
  (∑ j ∈ range row.length, |row.getD j 0| * ((j : ℝ) + 1)) / ∑ j ∈ range row.length, |row.getD j 0|

/-- **C62_partial, centroid**: the value is the centre of mass times the sum of the magnitudes over the sum of the bin numbers; missing:
it is not the centre of mass itself. -/
theorem C62_centroid_partial (row : List ℝ) (h : ∃ x ∈ row, x ≠ 0) :
    centroid row = centreOfMass row * ((∑ j ∈ range row.length, |row.getD j 0|) / ((row.length : ℝ) * (row.length + 1) / 2)) := by
  rw [C62_centroid_value]
  unfold centreOfMass
  have : (∑ j ∈ range row.length, |row.getD j 0|) ≠ 0 := by
    obtain ⟨x, hx, h0⟩ := h
    obtain ⟨i, hi, rfl⟩ := List.mem_iff_getElem.1 hx
    have : 0 < ∑ j ∈ range row.length, |row.getD j 0| := by
      apply sum_pos' (fun _ _ => abs_nonneg _) ⟨i, mem_range.2 hi, ?_⟩
      simp [hi, h0]
    exact this.ne'
  field_simp

example := C62_centroid_partial [1, -2, 0] ⟨1, by simp, by norm_num⟩

/-- **C62, centroid refuted**: the value doubles when the volume does, while the centre of mass stays, and so a quiet bright frame has a
lower value than a loud dull one. -/
theorem C62_centroid_volume_refuted (row : List ℝ) (c : ℝ) : centroid (row.map fun x => c * x) = |c| * centroid row := by
  rw [C62_centroid_value, C62_centroid_value, List.length_map, ← mul_div_assoc, mul_sum]
  congr 1
  apply sum_congr rfl
  intro j hj
  have hj := mem_range.1 hj
  simp [hj, abs_mul, mul_assoc]

theorem C62_centroid_order_refuted :
    centroid [0, 1] < centroid [3, 0] ∧ centreOfMass [3, 0] < centreOfMass [0, 1] := by
  rw [C62_centroid_value, C62_centroid_value]
  unfold centreOfMass
  simp [sum_range_succ]
  norm_num

/-- **C62, brightness**: moving energy from a bin to a higher one raises the centroid, by the energy times the distance over the sum of
the bin numbers. -/
theorem C62_centroid_brighter (row row' : List ℝ) (i k : ℕ) (e : ℝ) (hlen : row'.length = row.length) (hi : i < row.length)
    (hk : k < row.length) (hik : i < k) (he : 0 < e)
    (hri : |row'.getD i 0| = |row.getD i 0| - e) (hrk : |row'.getD k 0| = |row.getD k 0| + e)
    (hrest : ∀ j, j ≠ i → j ≠ k → |row'.getD j 0| = |row.getD j 0|) :
    centroid row' = centroid row + e * ((k : ℝ) - i) / ((row.length : ℝ) * (row.length + 1) / 2) ∧ centroid row < centroid row' := by
  have hmain : centroid row' = centroid row + e * ((k : ℝ) - i) / ((row.length : ℝ) * (row.length + 1) / 2) := by
    rw [C62_centroid_value, C62_centroid_value, hlen, ← add_div]
    congr 1
    have : ∀ j ∈ range row.length, |row'.getD j 0| * ((j : ℝ) + 1) = |row.getD j 0| * ((j : ℝ) + 1) +
        ((if j = k then e * ((k : ℝ) + 1) else 0) - (if j = i then e * ((i : ℝ) + 1) else 0)) := by
      intro j _
      by_cases h1 : j = i
      · subst h1
        rw [hri, if_neg hik.ne, if_pos rfl]; ring
      · by_cases h2 : j = k
        · subst h2
          rw [hrk, if_pos rfl, if_neg h1]; ring
        · rw [hrest j h1 h2, if_neg h2, if_neg h1]; ring
    rw [sum_congr rfl this, sum_add_distrib, sum_sub_distrib, sum_ite_eq', sum_ite_eq', if_pos (mem_range.2 hk), if_pos (mem_range.2 hi)]
    ring
  refine ⟨hmain, ?_⟩
  rw [hmain]
  have h1 : (0 : ℝ) < row.length := by exact_mod_cast (by omega : 0 < row.length)
  have h2 : (0 : ℝ) < (k : ℝ) - i := by have : (i : ℝ) < k := by exact_mod_cast hik
                                        linarith
  have : 0 < e * ((k : ℝ) - i) / ((row.length : ℝ) * (row.length + 1) / 2) := by positivity
  linarith

example := C62_centroid_brighter [3, 0, 1] [2, 0, 2] 0 2 1 rfl (by decide) (by decide) (by decide) (by norm_num) (by norm_num) (by norm_num) (by
  intro j h0 h2
  match j with
  | 0 => exact absurd rfl h0
  | 1 => rfl
  | 2 => exact absurd rfl h2
  | k + 3 => rfl)

/-! ## BFCC -/

/-- **C62, number of coefficients**: `n_coeffs`, or fewer if the frame has not that many after those excluded. -/
theorem C62_bfcc_length (floor : ℝ) (n e : ℕ) (row : List ℝ) : (bfcc floor n e row).length = min n (row.length - e) := by
  simp [bfcc, rawDct, safeLog]; omega

theorem rawDct_getD (x : List ℝ) (k : ℕ) (hk : k < x.length) : (rawDct x).getD k 0 =
    2 * ∑ t ∈ range x.length, x.getD t 0 * Real.cos (Real.pi * k * (2 * t + 1) / (2 * x.length)) := by
  unfold rawDct
  rw [List.getD_eq_getElem?_getD, List.getElem?_map, List.getElem?_range hk]
  rfl

/-- **C62, the coefficients**: coefficient `m` is that of the cosine with `exclude + m` half periods in the logarithms of the
magnitudes. -/
theorem C62_bfcc_value (floor : ℝ) (n e : ℕ) (row : List ℝ) (m : ℕ) (hm : m < min n (row.length - e)) :
    (bfcc floor n e row).getD m 0 = 2 * ∑ t ∈ range row.length,
      Real.log (|row.getD t 0| + floor) * Real.cos (Real.pi * ((e + m : ℕ) : ℝ) * (2 * t + 1) / (2 * row.length)) := by
  have h1 : m < n := by omega
  have h2 : e + m < row.length := by omega
  have : (bfcc floor n e row).getD m 0 = (rawDct (safeLog floor (row.map fun x => |x|))).getD (e + m) 0 := by
    unfold bfcc
    simp only [List.getD_eq_getElem?_getD, List.getElem?_drop]
    rw [List.getElem?_take_of_lt (by omega)]
  rw [this, rawDct_getD _ _ (by simpa [safeLog] using h2)]
  have hl : (safeLog floor (row.map fun x => |x|)).length = row.length := by simp [safeLog]
  rw [hl]
  congr 1
  apply sum_congr rfl
  intro t ht
  have ht := mem_range.1 ht
  simp [safeLog, ht]

example := C62_bfcc_value 1 2 1 [3, 0, 1] 1 (by decide)

/-- Cosines of `k` half periods add up to nothing. -/
theorem cos_sum_zero (n k : ℕ) (hn : k < n) (hk : 0 < k) :
    ∑ t ∈ range n, Real.cos (Real.pi * (k : ℝ) * (2 * t + 1) / (2 * n)) = 0 := by
  have := TrigSums.sum_half_odd_zero n (by omega) k (by
    rintro ⟨c, hc⟩
    have hn' : (0 : ℤ) < n := by omega
    have hk' : (0 : ℤ) < k := by omega
    have hlt : (k : ℤ) < n := by omega
    rcases le_or_gt c 0 with h | h
    · nlinarith
    · nlinarith)
  convert this using 2
  have hn' : (n : ℝ) ≠ 0 := by exact_mod_cast (by omega : n ≠ 0)
  congr 1
  push_cast
  field_simp

/-- **C62, volume**: without the zeroth coefficient, turning the volume up by `c` is the same as lowering the floor of the logarithm by
`c`: without a floor the coefficients would not depend on the volume. -/
theorem C62_bfcc_volume (floor c : ℝ) (n e : ℕ) (row : List ℝ) (hf : 0 < floor) (hc : 0 < c) (he : 0 < e) :
    bfcc floor n e (row.map fun x => c * x) = bfcc (floor / c) n e row := by
  apply List.ext_getElem
  · rw [C62_bfcc_length, C62_bfcc_length, List.length_map]
  · intro m h1 h2
    have hm : m < min n (row.length - e) := by rw [C62_bfcc_length] at h2; exact h2
    have a := C62_bfcc_value floor n e (row.map fun x => c * x) m (by rw [List.length_map]; exact hm)
    have b := C62_bfcc_value (floor / c) n e row m hm
    rw [List.getD_eq_getElem?_getD, List.getElem?_eq_getElem h1, Option.getD_some] at a
    rw [List.getD_eq_getElem?_getD, List.getElem?_eq_getElem h2, Option.getD_some] at b
    rw [a, b, List.length_map]
    congr 1
    have key : ∀ t ∈ range row.length,
        Real.log (|(row.map fun x => c * x).getD t 0| + floor) * Real.cos (Real.pi * ((e + m : ℕ) : ℝ) * (2 * t + 1) / (2 * row.length)) =
        Real.log c * Real.cos (Real.pi * ((e + m : ℕ) : ℝ) * (2 * t + 1) / (2 * row.length)) +
        Real.log (|row.getD t 0| + floor / c) * Real.cos (Real.pi * ((e + m : ℕ) : ℝ) * (2 * t + 1) / (2 * row.length)) := by
      intro t ht
      have ht := mem_range.1 ht
      rw [← add_mul]
      congr 1
      have e1 : |(row.map fun x => c * x).getD t 0| + floor = c * (|row.getD t 0| + floor / c) := by
        simp [ht, abs_mul, abs_of_pos hc]
        field_simp
      have hp : 0 < |row.getD t 0| + floor / c := by have := abs_nonneg (row.getD t 0); positivity
      rw [e1, Real.log_mul hc.ne' hp.ne']
    rw [sum_congr rfl key, sum_add_distrib, ← mul_sum, cos_sum_zero _ _ (by omega) (by omega), mul_zero, zero_add]

example := C62_bfcc_volume 1 2 2 1 [3, 0, 1] (by norm_num) (by norm_num) (by decide)

/-- **C62, flat spectra**: a frame whose magnitudes are all equal (silence, for one) has only zero coefficients but the zeroth. -/
theorem C62_bfcc_flat (floor : ℝ) (n e : ℕ) (row : List ℝ) (he : 0 < e) (v : ℝ) (h : ∀ x ∈ row, |x| = v) :
    ∀ y ∈ bfcc floor n e row, y = 0 := by
  intro y hy
  obtain ⟨m, hm, rfl⟩ := List.mem_iff_getElem.1 hy
  have hm' := hm
  rw [C62_bfcc_length] at hm'
  have a := C62_bfcc_value floor n e row m hm'
  rw [List.getD_eq_getElem?_getD, List.getElem?_eq_getElem hm, Option.getD_some] at a
  rw [a]
  have : ∀ t ∈ range row.length,
      Real.log (|row.getD t 0| + floor) * Real.cos (Real.pi * ((e + m : ℕ) : ℝ) * (2 * t + 1) / (2 * row.length)) =
      Real.log (v + floor) * Real.cos (Real.pi * ((e + m : ℕ) : ℝ) * (2 * t + 1) / (2 * row.length)) := by
    intro t ht
    rw [h _ (getD_mem' row t 0 (mem_range.1 ht))]
  rw [sum_congr rfl this, ← mul_sum, cos_sum_zero _ _ (by omega) (by omega)]
  ring

example := C62_bfcc_flat 1 2 1 [3, -3, 3] (by decide) 3 (by intro x hx; simp only [List.mem_cons, List.not_mem_nil, or_false] at hx; rcases hx with rfl | rfl | rfl <;> norm_num)

/-- **C62, refuted**: with the floor, whatever it is, the volume does matter: a frame of two bins, one of them empty. -/
theorem C62_bfcc_volume_refuted (floor : ℝ) (hf : 0 < floor) : bfcc floor 1 1 ([0, 1].map fun x => 2 * x) ≠ bfcc floor 1 1 [0, 1] := by
  intro h
  have h0 := congrArg (fun l => l.getD 0 0) h
  rw [C62_bfcc_value _ _ _ _ _ (by simp), C62_bfcc_value _ _ _ _ _ (by simp)] at h0
  have hc : Real.cos (Real.pi * (2 + 1) / (2 * 2)) ≠ 0 := by
    have : Real.pi * (2 + 1) / (2 * 2) = Real.pi - Real.pi / 4 := by ring
    rw [this, Real.cos_pi_sub, Real.cos_pi_div_four]
    simp
  simp [sum_range_succ] at h0
  rcases h0 with h0 | h0
  · have := Real.log_injOn_pos (show (2 : ℝ) + floor ∈ Set.Ioi 0 from by simp; linarith)
      (show (1 : ℝ) + floor ∈ Set.Ioi 0 from by simp; linarith) h0
    linarith
  · exact hc h0

example : flatness [1, -1, 1] = 1 := by
  rw [C62_flatness_one _ (by simp) ⟨1, by simp⟩]
  intro x hx y hy
  simp only [List.mem_cons, List.not_mem_nil, or_false] at hx hy
  rcases hx with rfl | rfl | rfl <;> rcases hy with rfl | rfl | rfl <;> norm_num

end Zounds.Descriptors
