import Verif.Model.Weighting
import Mathlib.Analysis.SpecialFunctions.Log.Base
import Mathlib.Analysis.SpecialFunctions.Pow.Real
import Mathlib.Tactic.Linarith
import Mathlib.Tactic.Positivity
import Mathlib.Tactic.FieldSimp
import Mathlib.Tactic.NormNum
import Mathlib.Tactic.Ring
import Mathlib.Tactic.Common

/-!
# C63: frequency weightings
-/

namespace Zounds.Weighting
open Zounds

/-- The A-weighting in decibels (IEC 61672): the gain of the filter at `hz`, normalised by 2 dB. -/
noncomputable def aDecibels (hz : ℝ) : ℝ :=
  20 * Real.logb 10 (12200 ^ 2 * hz ^ 4 /
    ((hz ^ 2 + 20.6 ^ 2) * Real.sqrt ((hz ^ 2 + 107.7 ^ 2) * (hz ^ 2 + 737.9 ^ 2)) * (hz ^ 2 + 12200 ^ 2))) + 2

theorem aResult_eq (hz : ℝ) : aResult hz = aDecibels hz := by
  unfold aResult aDecibels
  have : (hz ^ 2) ^ 2 = hz ^ 4 := by ring
  simp only [this]
  ring

theorem foldl_min_le (xs : List ℝ) : ∀ x, xs.foldl min x ≤ x ∧ (∀ y ∈ xs, xs.foldl min x ≤ y) ∧
    (xs.foldl min x = x ∨ xs.foldl min x ∈ xs) := by
  induction xs with
  | nil => intro x; simp
  | cons a l ih =>
    intro x
    obtain ⟨h1, h2, h3⟩ := ih (min x a)
    rw [List.foldl_cons]
    refine ⟨h1.trans (min_le_left _ _), ?_, ?_⟩
    · intro y hy
      rcases List.mem_cons.1 hy with rfl | hy
      · exact h1.trans (min_le_right _ _)
      · exact h2 y hy
    · rcases h3 with h3 | h3
      · rcases min_choice x a with h | h
        · left; rw [h3, h]
        · right; rw [h3, h]; simp
      · right; simp [h3]

theorem npMin_spec (l : List ℝ) (hne : l ≠ []) : ∃ m, npMin l = .ok m ∧ m ∈ l ∧ ∀ x ∈ l, m ≤ x := by
  obtain ⟨a, l, rfl⟩ := List.exists_cons_of_ne_nil hne
  obtain ⟨h1, h2, h3⟩ := foldl_min_le l a
  refine ⟨l.foldl min a, rfl, ?_, ?_⟩
  · rcases h3 with h3 | h3
    · rw [h3]; simp
    · simp [h3]
  · intro x hx
    rcases List.mem_cons.1 hx with rfl | hx
    · exact h1
    · exact h2 x hx

/-- **C63, A-weights**: one for every band; weight `j` is one plus the A-weighting of band `j`, in decibels, above the least of
the scale's. -/
theorem C63_a_weights (centres : List ℝ) (hne : centres ≠ []) :
    ∃ ws : List ℝ, aWeights centres = .ok ws ∧ ws.length = centres.length ∧
      ∃ c₀ ∈ centres, (∀ c ∈ centres, aDecibels c₀ ≤ aDecibels c) ∧
        ∀ j, j < centres.length → ws.getD j 0 = 1 + (aDecibels (centres.getD j 0) - aDecibels c₀) := by
  obtain ⟨m, e, hm, hle⟩ := npMin_spec (centres.map aResult) (by simpa using hne)
  obtain ⟨c₀, hc₀, rfl⟩ := List.mem_map.1 hm
  refine ⟨(centres.map aResult).map fun r => 1 + (r - aResult c₀), ?_, by simp, c₀, hc₀, ?_, ?_⟩
  · simp only [aWeights, e]
  · intro c hc
    rw [← aResult_eq, ← aResult_eq]
    exact hle _ (List.mem_map.2 ⟨c, hc, rfl⟩)
  · intro j hj
    simp [hj, aResult_eq]

/-- **C63, range**: every weight is at least one, and some weight is one. -/
theorem C63_a_weights_min (centres : List ℝ) (ws : List ℝ) (h : aWeights centres = .ok ws) :
    (∀ w ∈ ws, 1 ≤ w) ∧ (1 : ℝ) ∈ ws := by
  have hne : centres ≠ [] := by
    rintro rfl
    simp [aWeights, npMin] at h
  obtain ⟨ws', e, hl, c₀, hc₀, hmin, hv⟩ := C63_a_weights centres hne
  rw [h] at e
  cases e
  constructor
  · intro w hw
    obtain ⟨j, hj, rfl⟩ := List.mem_iff_getElem.1 hw
    have := hv j (by omega)
    rw [List.getD_eq_getElem?_getD, List.getElem?_eq_getElem hj, Option.getD_some] at this
    rw [this]
    have := hmin (centres.getD j 0) (by
      rw [List.getD_eq_getElem?_getD, List.getElem?_eq_getElem (by omega)]
      exact List.getElem_mem _)
    linarith
  · obtain ⟨j, hj, rfl⟩ := List.mem_iff_getElem.1 hc₀
    have := hv j hj
    rw [List.getD_eq_getElem?_getD, List.getElem?_eq_getElem (by omega), Option.getD_some] at this
    rw [List.getD_eq_getElem?_getD, List.getElem?_eq_getElem hj, Option.getD_some] at this
    rw [sub_self, add_zero] at this
    rw [← this]
    exact List.getElem_mem _

example := C63_a_weights_min [20, 1000] _ rfl

/-- **C63, differences**: two bands' weights differ by as much as their A-weightings in decibels, in every scale that has both. -/
theorem C63_a_differences (centres : List ℝ) (ws : List ℝ) (h : aWeights centres = .ok ws) (i j : Nat) (hi : i < centres.length)
    (hj : j < centres.length) : ws.getD i 0 - ws.getD j 0 = aDecibels (centres.getD i 0) - aDecibels (centres.getD j 0) := by
  have hne : centres ≠ [] := by
    rintro rfl
    simp at hi
  obtain ⟨ws', e, hl, c₀, hc₀, hmin, hv⟩ := C63_a_weights centres hne
  rw [h] at e
  cases e
  rw [hv i hi, hv j hj]
  ring

example := C63_a_differences [20, 1000] _ rfl 0 1 (by simp) (by simp)

set_option exponentiation.threshold 2000 in
/-- **C63, the curve is normalised at 1 kHz**: the A-weighting there is within a hundredth of a decibel of none. -/
theorem C63_a_1000 : |aDecibels 1000| < 1 / 100 := by
  set s : ℝ := (12200 : ℝ) ^ 2 * 1000 ^ 4 / ((1000 ^ 2 + 20.6 ^ 2) * Real.sqrt ((1000 ^ 2 + 107.7 ^ 2) * (1000 ^ 2 + 737.9 ^ 2)) *
    (1000 ^ 2 + 12200 ^ 2)) with hs
  have hspos : 0 < s := by rw [hs]; positivity
  have hsq : s ^ 2 = (12200 : ℝ) ^ 4 * 1000 ^ 8 / ((1000 ^ 2 + 20.6 ^ 2) ^ 2 * ((1000 ^ 2 + 107.7 ^ 2) * (1000 ^ 2 + 737.9 ^ 2)) *
    (1000 ^ 2 + 12200 ^ 2) ^ 2) := by
    rw [hs, div_pow, mul_pow, mul_pow, mul_pow, Real.sq_sqrt (by positivity)]
    ring
  have h1 : (630958 / 1000000 : ℝ) < s ^ 2 := by rw [hsq]; norm_num
  have h2 : s ^ 2 < 631 / 1000 := by rw [hsq]; norm_num
  have e : aDecibels 1000 = 10 * Real.logb 10 (s ^ 2) + 2 := by
    unfold aDecibels
    rw [Real.logb_pow]
    push_cast
    rw [← hs]
    ring
  rw [e, abs_lt]
  have l1 : (-(1 : ℝ) / 5) < Real.logb 10 (s ^ 2) := by
    rw [Real.lt_logb_iff_rpow_lt (by norm_num) (by positivity)]
    refine lt_trans ?_ h1
    rw [show (-(1 : ℝ) / 5) = -(1 / 5) by ring, Real.rpow_neg (by norm_num)]
    have : (1000000 / 630958 : ℝ) < (10 : ℝ) ^ ((1 : ℝ) / 5) := by
      apply lt_of_pow_lt_pow_left₀ 5 (by positivity)
      rw [← Real.rpow_natCast ((10 : ℝ) ^ ((1 : ℝ) / 5)), ← Real.rpow_mul (by norm_num)]
      norm_num
    have hp : (0 : ℝ) < (10 : ℝ) ^ ((1 : ℝ) / 5) := by positivity
    rw [inv_lt_comm₀ hp (by norm_num)]
    refine lt_of_eq_of_lt ?_ this
    norm_num
  have l2 : Real.logb 10 (s ^ 2) < -(199 : ℝ) / 1000 := by
    rw [Real.logb_lt_iff_lt_rpow (by norm_num) (by positivity)]
    refine lt_trans h2 ?_
    rw [show (-(199 : ℝ) / 1000) = -(199 / 1000) by ring, Real.rpow_neg (by norm_num)]
    have : (10 : ℝ) ^ ((199 : ℝ) / 1000) < (1000 / 631 : ℝ) := by
      apply lt_of_pow_lt_pow_left₀ 1000 (by positivity)
      rw [← Real.rpow_natCast ((10 : ℝ) ^ ((199 : ℝ) / 1000)), ← Real.rpow_mul (by norm_num)]
      norm_num
    have hp : (0 : ℝ) < (10 : ℝ) ^ ((199 : ℝ) / 1000) := by positivity
    rw [lt_inv_comm₀ (by norm_num) hp]
    refine lt_of_lt_of_eq this ?_
    norm_num
  constructor <;> linarith

/-- The A-weighting never exceeds 2 dB. -/
theorem C63_a_lt_two (hz : ℝ) (h : 0 < hz) : aDecibels hz < 2 := by
  unfold aDecibels
  have : Real.logb 10 (12200 ^ 2 * hz ^ 4 /
    ((hz ^ 2 + 20.6 ^ 2) * Real.sqrt ((hz ^ 2 + 107.7 ^ 2) * (hz ^ 2 + 737.9 ^ 2)) * (hz ^ 2 + 12200 ^ 2))) < 0 := by
    apply Real.logb_neg (by norm_num) (by positivity)
    rw [div_lt_one (by positivity)]
    have hs : hz ^ 2 ≤ Real.sqrt ((hz ^ 2 + 107.7 ^ 2) * (hz ^ 2 + 737.9 ^ 2)) := by
      apply Real.le_sqrt_of_sq_le
      nlinarith [sq_nonneg hz]
    have h2 : 0 < hz ^ 2 := by positivity
    calc (12200 : ℝ) ^ 2 * hz ^ 4 = hz ^ 2 * hz ^ 2 * 12200 ^ 2 := by ring
      _ < (hz ^ 2 + 20.6 ^ 2) * hz ^ 2 * (hz ^ 2 + 12200 ^ 2) := by nlinarith [mul_pos h2 h2, mul_pos (mul_pos h2 h2) h2]
      _ ≤ _ := by gcongr
  linarith

example := C63_a_lt_two 1000 (by norm_num)

/-- **C63, refuted**: a band's weight depends on the other bands of the scale, so weighting a slice is not slicing the weighted array:
alone, every band has weight one. -/
theorem C63_slice_refuted : (∀ c : ℝ, aWeights [c] = .ok [1]) ∧
    ∃ ws : List ℝ, aWeights [20, 1000] = .ok ws ∧ ws.getD 1 0 > 1 := by
  constructor
  · intro c
    simp [aWeights, npMin]
  · obtain ⟨ws, e, hl, c₀, hc₀, hmin, hv⟩ := C63_a_weights [20, 1000] (by simp)
    refine ⟨ws, e, ?_⟩
    have h20 : aDecibels 20 < -(1 / 100) := by
      unfold aDecibels
      have : Real.logb 10 (12200 ^ 2 * 20 ^ 4 /
        ((20 ^ 2 + 20.6 ^ 2) * Real.sqrt ((20 ^ 2 + 107.7 ^ 2) * (20 ^ 2 + 737.9 ^ 2)) * (20 ^ 2 + 12200 ^ 2))) < -1 := by
        rw [Real.logb_lt_iff_lt_rpow (by norm_num) (by positivity), Real.rpow_neg_one, div_lt_iff₀ (by positivity)]
        have hs : (20 : ℝ) ^ 2 * 100 ≤ Real.sqrt ((20 ^ 2 + 107.7 ^ 2) * (20 ^ 2 + 737.9 ^ 2)) := by
          apply Real.le_sqrt_of_sq_le
          norm_num
        calc (12200 : ℝ) ^ 2 * 20 ^ 4 < 10⁻¹ * ((20 ^ 2 + 20.6 ^ 2) * (20 ^ 2 * 100) * (20 ^ 2 + 12200 ^ 2)) := by norm_num
          _ ≤ _ := by gcongr
      linarith
    have h1000 := abs_lt.1 C63_a_1000
    have := hmin 20 (by simp)
    rw [hv 1 (by simp)]
    simp only [List.getD_cons_succ, List.getD_cons_zero]
    linarith [h1000.1]

/-! ## Applying a weighting -/

theorem getFactors_freq (W : List ℝ → Except PyErr (List ℝ)) (ndim : Nat) (pre : List WDim) (hpre : ∀ d ∈ pre, d = .plain)
    (c : List ℝ) (post : List WDim) (w : List ℝ) (hw : W c = .ok w) :
    ∀ i, getFactors W ndim i (pre ++ .freq c :: post) = .ok (i + pre.length, w) := by
  induction pre with
  | nil => intro i; simp [getFactors, hw]
  | cons d ds ih =>
    intro i
    have hd := hpre d (by simp)
    subst hd
    simp only [List.cons_append, getFactors, ih (fun x hx => hpre x (by simp [hx])), List.length_cons]
    congr 2
    omega

/-- **C63, multiplication**: an array whose first dimension with a scale is a frequency dimension of `n` bands along axis `k` is
multiplied, entry by entry, by the weight of the entry's band; dividing divides. -/
theorem C63_multiply (W : List ℝ → Except PyErr (List ℝ)) (arr : Arr) (pre post : List WDim) (c w : List ℝ)
    (hd : arr.dims = pre ++ .freq c :: post) (hpre : ∀ d ∈ pre, d = .plain) (hw : W c = .ok w)
    (hsize : arr.shape.getD pre.length 0 = w.length) :
    ∃ x y z, times W arr = .ok x ∧ over W arr = .ok y ∧ timesLeft W arr = .ok z ∧
      x.dims = arr.dims ∧ x.shape = arr.shape ∧ y.dims = arr.dims ∧ y.shape = arr.shape ∧
      ∀ idx, idx.getD pre.length 0 < w.length →
        x.data idx = arr.data idx * w.getD (idx.getD pre.length 0) 0 ∧ z.data idx = x.data idx ∧
        y.data idx = arr.data idx / w.getD (idx.getD pre.length 0) 0 := by
  have e : getFactors W arr.shape.length 0 arr.dims = .ok (pre.length, w) := by
    rw [hd, getFactors_freq W _ pre hpre c post w hw, Nat.zero_add]
  have hf : ∀ i, i < w.length → factorAt w i = w.getD i 0 := by
    intro i hi
    unfold factorAt
    split
    · have : i = 0 := by omega
      rw [this]
    · rfl
  refine ⟨{ arr with data := fun idx => arr.data idx * factorAt w (idx.getD pre.length 0) },
    { arr with data := fun idx => arr.data idx / factorAt w (idx.getD pre.length 0) },
    { arr with data := fun idx => factorAt w (idx.getD pre.length 0) * arr.data idx },
    by simp only [times, apply, e, hsize, true_or, if_true],
    by simp only [over, apply, e, hsize, true_or, if_true],
    by simp only [timesLeft, apply, e, hsize, true_or, if_true], rfl, rfl, rfl, rfl, ?_⟩
  intro idx hi
  simp only [hf _ hi]
  exact ⟨trivial, mul_comm _ _, trivial⟩

theorem apply_apply (W : List ℝ → Except PyErr (List ℝ)) (arr : Arr) (axis : Nat) (w : List ℝ)
    (hf : getFactors W arr.shape.length 0 arr.dims = .ok (axis, w))
    (x : Arr) (h : times W arr = .ok x) : over W x = .ok ⟨arr.dims, arr.shape, fun idx =>
      arr.data idx * factorAt w (idx.getD axis 0) / factorAt w (idx.getD axis 0)⟩ := by
  simp only [times, apply, hf] at h
  split at h
  · rename_i hl
    cases h
    simp only [over, apply, hf, hl, if_true]
  · cases h

/-- **C63, inverse**: dividing the weighted array by the A-weighting gives back every entry. -/
theorem C63_inverse (arr : Arr) (pre post : List WDim) (c : List ℝ) (hd : arr.dims = pre ++ .freq c :: post)
    (hpre : ∀ d ∈ pre, d = .plain) (hc : c ≠ []) (x : Arr) (h : times aWeights arr = .ok x) :
    ∃ y, over aWeights x = .ok y ∧ y.dims = arr.dims ∧ y.shape = arr.shape ∧
      ∀ idx, idx.getD pre.length 0 < c.length → y.data idx = arr.data idx := by
  obtain ⟨w, ew, hl, _⟩ := C63_a_weights c hc
  obtain ⟨hge, _⟩ := C63_a_weights_min c w ew
  have e : getFactors aWeights arr.shape.length 0 arr.dims = .ok (pre.length, w) := by
    rw [hd, getFactors_freq aWeights _ pre hpre c post w ew, Nat.zero_add]
  refine ⟨_, apply_apply aWeights arr pre.length w e x h, rfl, rfl, ?_⟩
  intro idx hi
  have hne : factorAt w (idx.getD pre.length 0) ≠ 0 := by
    have hmem : factorAt w (idx.getD pre.length 0) ∈ w := by
      unfold factorAt
      split
      · rw [List.getD_eq_getElem?_getD, List.getElem?_eq_getElem (by omega)]
        exact List.getElem_mem _
      · rw [List.getD_eq_getElem?_getD, List.getElem?_eq_getElem (by omega)]
        exact List.getElem_mem _
    have := hge _ hmem
    linarith
  exact mul_div_cancel_right₀ _ hne

/-- A concrete array: three frames of two bands. -/
example : ∃ x y, times aWeights ⟨[.plain, .freq [20, 1000]], [3, 2], fun idx => idx.sum⟩ = .ok x ∧ over aWeights x = .ok y ∧
    y.data [2, 1] = 3 := by
  obtain ⟨w, ew, hl, _⟩ := C63_a_weights [20, 1000] (by simp)
  obtain ⟨x, _, _, hx, _⟩ := C63_multiply aWeights ⟨[.plain, .freq [20, 1000]], [3, 2], fun idx => idx.sum⟩ [.plain] [] [20, 1000] w rfl
    (by simp) ew (by simp at hl; simp [hl])
  obtain ⟨y, hy, _, _, hv⟩ := C63_inverse ⟨[.plain, .freq [20, 1000]], [3, 2], fun idx => idx.sum⟩ [.plain] [] [20, 1000] rfl (by simp)
    (by simp) x hx
  exact ⟨x, y, hx, hy, by rw [hv [2, 1] (by simp)]; norm_num⟩

/-- **C63, no frequency dimension**: weighting is a ValueError. -/
theorem C63_no_frequency_dimension (op : ℝ → ℝ → ℝ) (W : List ℝ → Except PyErr (List ℝ)) (arr : Arr) (h : ∀ d ∈ arr.dims, d = .plain) :
    apply op W arr = .error .valueError := by
  have : ∀ (ds : List WDim) (i : Nat), (∀ d ∈ ds, d = .plain) → getFactors W arr.shape.length i ds = .error .valueError := by
    intro ds
    induction ds with
    | nil => intro i _; rfl
    | cons d ds ih =>
      intro i hd
      have := hd d (by simp)
      subst this
      simp only [getFactors]
      exact ih (i + 1) (fun x hx => hd x (by simp [hx]))
  simp only [apply, this arr.dims 0 h]

example := C63_no_frequency_dimension (· * ·) aWeights ⟨[.plain, .plain], [3, 2], fun idx => idx.sum⟩ (by simp)

/-! ## Explicit frequency dimensions -/

theorem assign_length (w : List ℝ) (sl : Nat × Nat) (v : ℝ) : (assign w sl v).length = w.length := by simp [assign]

theorem assign_getD (w : List ℝ) (sl : Nat × Nat) (v : ℝ) (i : Nat) (hi : i < w.length) :
    (assign w sl v).getD i 0 = if sl.1 ≤ i ∧ i < sl.2 then v else w.getD i 0 := by
  simp [assign, hi]

theorem foldl_assign_length (ps : List (ℝ × (Nat × Nat))) : ∀ w : List ℝ,
    (ps.foldl (fun w p => assign w p.2 p.1) w).length = w.length := by
  induction ps with
  | nil => intro w; rfl
  | cons p ps ih => intro w; rw [List.foldl_cons, ih, assign_length]

theorem foldl_assign_skip (ps : List (ℝ × (Nat × Nat))) (i : Nat) (hno : ∀ p ∈ ps, ¬ (p.2.1 ≤ i ∧ i < p.2.2)) :
    ∀ w : List ℝ, i < w.length → (ps.foldl (fun w p => assign w p.2 p.1) w).getD i 0 = w.getD i 0 := by
  induction ps with
  | nil => intro w _; rfl
  | cons p ps ih =>
    intro w hi
    rw [List.foldl_cons, ih (fun q hq => hno q (by simp [hq])) _ (by rw [assign_length]; exact hi), assign_getD _ _ _ _ hi,
      if_neg (hno p (by simp))]

theorem foldl_assign_getD (ps : List (ℝ × (Nat × Nat))) (k i : Nat) (v : ℝ) (sl : Nat × Nat) (hk : ps[k]? = some (v, sl))
    (hin : sl.1 ≤ i ∧ i < sl.2) (hlater : ∀ j p, k < j → ps[j]? = some p → ¬ (p.2.1 ≤ i ∧ i < p.2.2)) :
    ∀ w : List ℝ, i < w.length → (ps.foldl (fun w p => assign w p.2 p.1) w).getD i 0 = v := by
  induction ps generalizing k with
  | nil => simp at hk
  | cons p ps ih =>
    intro w hi
    rw [List.foldl_cons]
    cases k with
    | zero =>
      simp only [List.getElem?_cons_zero, Option.some.injEq] at hk
      subst hk
      rw [foldl_assign_skip ps i _ _ (by rw [assign_length]; exact hi), assign_getD _ _ _ _ hi, if_pos hin]
      intro q hq
      obtain ⟨j, hj, rfl⟩ := List.mem_iff_getElem.1 hq
      exact hlater (j + 1) _ (by omega) (by simp [hj])
    | succ k =>
      refine ih k (by simpa using hk) ?_ _ (by rw [assign_length]; exact hi)
      intro j q hj hq
      exact hlater (j + 1) q (by omega) (by simpa using hq)

/-- **C63, frequency adaptive arrays**: for slices that begin at zero and follow one another, every column in band `k` gets the weight of
band `k`. -/
theorem C63_explicit (weights : List ℝ) (slices : List (Nat × Nat)) (hl : weights.length = slices.length) (s0 : Nat × Nat)
    (h0 : slices.head? = some s0) (hz : s0.1 = 0)
    (hnext : ∀ k a b, slices[k]? = some a → slices[k + 1]? = some b → a.2 = b.1) (hle : ∀ s ∈ slices, s.1 ≤ s.2) :
    ∃ ws, explicitWeights weights slices = .ok ws ∧
      (∀ s ∈ slices, s.2 ≤ ws.length) ∧
      ∀ k sl i, slices[k]? = some sl → sl.1 ≤ i → i < sl.2 → ws.getD i 0 = weights.getD k 0 := by
  have hne : slices ≠ [] := by rintro rfl; simp at h0
  have hmono : ∀ d k a b, slices[k]? = some a → slices[k + 1 + d]? = some b → a.2 ≤ b.1 := by
    intro d
    induction d with
    | zero => intro k a b ha hb; exact (hnext k a b ha hb).le
    | succ d ih =>
      intro k a b ha hb
      have hlt : k + 1 + d < slices.length := by
        have := List.getElem?_eq_some_iff.1 hb
        obtain ⟨h, _⟩ := this
        omega
      have hc : slices[k + 1 + d]? = some slices[k + 1 + d] := List.getElem?_eq_getElem hlt
      have h1 := ih k a _ ha hc
      have h2 := hnext (k + 1 + d) _ b hc hb
      have h3 := hle _ (List.getElem_mem hlt)
      omega
  have hlast : slices.getLast? = some (slices.getLast hne) := List.getLast?_eq_some_getLast hne
  have hlastIdx : slices[slices.length - 1]? = some (slices.getLast hne) := by
    rw [← List.getLast?_eq_getElem?, hlast]
  set l := slices.getLast hne with hldef
  have hlen : 0 < slices.length := List.length_pos_iff.2 hne
  refine ⟨(List.zip weights slices).foldl (fun w p => assign w p.2 p.1) (List.replicate (l.2 - s0.1) 0), ?_, ?_, ?_⟩
  · simp only [explicitWeights, h0, hlast]
    rw [if_neg (by omega)]
  · intro s hs
    rw [foldl_assign_length, List.length_replicate]
    obtain ⟨k, hk, rfl⟩ := List.mem_iff_getElem.1 hs
    have hk' : slices[k]? = some slices[k] := List.getElem?_eq_getElem hk
    by_cases hkl : k = slices.length - 1
    · have e : slices[k] = l := by
        have := hk'.symm.trans (hkl ▸ hlastIdx)
        exact Option.some.inj this
      rw [e, hz]; omega
    · have := hmono (slices.length - 1 - (k + 1)) k _ l hk' (by
        rw [show k + 1 + (slices.length - 1 - (k + 1)) = slices.length - 1 by omega]; exact hlastIdx)
      have h2 := hle l (List.getLast_mem hne)
      omega
  · intro k sl i hk h1 h2
    have hkl : k < slices.length := (List.getElem?_eq_some_iff.1 hk).1
    apply foldl_assign_getD _ k i _ sl
    · rw [List.getElem?_zip_eq_some]
      refine ⟨?_, hk⟩
      rw [List.getD_eq_getElem?_getD, List.getElem?_eq_getElem (by omega : k < weights.length)]
      rfl
    · exact ⟨h1, h2⟩
    · intro j p hj hp
      rw [List.getElem?_zip_eq_some] at hp
      have := hmono (j - (k + 1)) k sl p.2 hk (by rw [show k + 1 + (j - (k + 1)) = j by omega]; exact hp.2)
      omega
    · rw [List.length_replicate, hz, Nat.sub_zero]
      by_cases hkl' : k = slices.length - 1
      · have e : sl = l := by
          rw [hkl'] at hk
          exact Option.some.inj (hk.symm.trans hlastIdx)
        rw [← e]; exact h2
      · have := hmono (slices.length - 1 - (k + 1)) k _ l hk (by
          rw [show k + 1 + (slices.length - 1 - (k + 1)) = slices.length - 1 by omega]; exact hlastIdx)
        have h3 := hle l (List.getLast_mem hne)
        omega

example := C63_explicit [1, 2] [(0, 3), (3, 5)] rfl (0, 3) rfl rfl (by
  intro k a b ha hb
  cases k with
  | zero => simp at ha hb; rw [← ha, ← hb]
  | succ k => simp at hb) (by simp)

/-- **C63, weighting a frequency adaptive array**: each coefficient of band `k` is multiplied by the weight of band `k`, and
dividing by the weighting undoes it. -/
theorem C63_adaptive (arr : Arr) (c : List ℝ) (slices : List (Nat × Nat)) (rows cols : Nat)
    (hd : arr.dims = [.plain, .explicit c slices]) (hs : arr.shape = [rows, cols])
    (hl : c.length = slices.length) (s0 l : Nat × Nat)
    (h0 : slices.head? = some s0) (hz : s0.1 = 0) (hlast : slices.getLast? = some l) (hcols : cols = l.2)
    (hnext : ∀ k a b, slices[k]? = some a → slices[k + 1]? = some b → a.2 = b.1) (hle : ∀ s ∈ slices, s.1 ≤ s.2) :
    ∃ ws x y, aWeights c = .ok ws ∧ times aWeights arr = .ok x ∧ over aWeights x = .ok y ∧
      ∀ k sl i row, slices[k]? = some sl → sl.1 ≤ i → i < sl.2 →
        x.data [row, i] = arr.data [row, i] * ws.getD k 0 ∧ y.data [row, i] = arr.data [row, i] := by
  have hne : slices ≠ [] := by rintro rfl; simp at h0
  have hc : c ≠ [] := by
    rintro rfl
    have := List.length_pos_iff.2 hne
    simp at hl; omega
  obtain ⟨ws, ew, hwl, _⟩ := C63_a_weights c hc
  obtain ⟨hge, _⟩ := C63_a_weights_min c ws ew
  obtain ⟨xs, ex, _, hv⟩ := C63_explicit ws slices (by omega) s0 h0 hz hnext hle
  have hxl : xs.length = l.2 := by
    have := ex
    simp only [explicitWeights, h0, hlast] at this
    split at this
    · cases this
    · cases this
      rw [foldl_assign_length, List.length_replicate]; omega
  have e : getFactors aWeights arr.shape.length 0 arr.dims = .ok (1, xs) := by
    rw [hd, hs]
    simp only [getFactors, ew, ex, List.length_cons, List.length_nil]
  have hcond : xs.length = arr.shape.getD 1 0 ∨ xs.length = 1 := by left; rw [hs]; simp; omega
  have hx : times aWeights arr = .ok { arr with data := fun idx => arr.data idx * factorAt xs (idx.getD 1 0) } := by
    simp only [times, apply, e, hcond, if_true]
  refine ⟨ws, _, _, ew, hx, apply_apply aWeights arr 1 xs e _ hx, ?_⟩
  intro k sl i row hk h1 h2
  have hf : factorAt xs i = ws.getD k 0 := by
    have hvi := hv k sl i hk h1 h2
    unfold factorAt
    split
    · rename_i hone
      by_cases hi0 : i = 0
      · rw [← hi0]; exact hvi
      · exfalso
        have hkl : k < slices.length := (List.getElem?_eq_some_iff.1 hk).1
        obtain ⟨xs', ex', hb, _⟩ := C63_explicit ws slices (by omega) s0 h0 hz hnext hle
        rw [ex] at ex'
        cases ex'
        have := hb sl (List.mem_iff_getElem?.2 ⟨k, hk⟩)
        omega
    · exact hvi
  have hkl : k < slices.length := (List.getElem?_eq_some_iff.1 hk).1
  have hwne : ws.getD k 0 ≠ 0 := by
    have := hge (ws.getD k 0) (by
      rw [List.getD_eq_getElem?_getD, List.getElem?_eq_getElem (by omega)]
      exact List.getElem_mem _)
    linarith
  have eidx : ([row, i] : List Nat).getD 1 0 = i := rfl
  constructor
  · show arr.data [row, i] * factorAt xs (([row, i] : List Nat).getD 1 0) = _
    rw [eidx, hf]
  · show arr.data [row, i] * factorAt xs (([row, i] : List Nat).getD 1 0) / factorAt xs (([row, i] : List Nat).getD 1 0) = _
    rw [eidx, hf]
    exact mul_div_cancel_right₀ _ hwne

example := C63_adaptive ⟨[.plain, .explicit [20, 1000] [(0, 3), (3, 5)]], [3, 5], fun idx => idx.sum⟩ [20, 1000] [(0, 3), (3, 5)] 3 5 rfl rfl rfl (0, 3) (3, 5) rfl rfl rfl rfl (by
  intro k a b ha hb
  cases k with
  | zero => simp at ha hb; rw [← ha, ← hb]
  | succ k => simp at hb) (by simp)

/-- **C63, refuted**: a band taken out of a frequency adaptive array keeps its slice, which does not begin at zero; weighting it writes
the weight outside the factors, and whenever the band starts after at least as many columns as it has, all its
coefficients are multiplied by zero. -/
theorem C63_explicit_band_refuted (c : ℝ) (a b : Nat) (hab : a ≤ b) (h : b - a ≤ a) (data : List Nat → ℝ) (rows : Nat) :
    ∃ x, times aWeights ⟨[.plain, .explicit [c] [(a, b)]], [rows, b - a], data⟩ = .ok x ∧ ∀ idx, x.data idx = 0 := by
  have hw : aWeights [c] = .ok [1] := C63_slice_refuted.1 c
  have hx : explicitWeights [1] [(a, b)] = .ok (List.replicate (b - a) 0) := by
    simp only [explicitWeights, List.head?_cons, List.getLast?_singleton]
    rw [if_neg (by omega)]
    simp only [List.zip_cons_cons, List.zip_nil_right, List.foldl_cons, List.foldl_nil]
    congr 1
    apply List.ext_getElem
    · rw [assign_length]
    · intro i h1 h2
      have hi : i < b - a := by simpa using h2
      simp [assign]
      omega
  have hf : ∀ i, factorAt (List.replicate (b - a) (0 : ℝ)) i = 0 := by
    intro i
    have : ∀ j, (List.replicate (b - a) (0 : ℝ)).getD j 0 = 0 := by
      intro j
      rw [List.getD_eq_getElem?_getD, List.getElem?_replicate]
      split <;> rfl
    unfold factorAt
    split <;> exact this _
  have e : getFactors aWeights 2 0 [.plain, .explicit [c] [(a, b)]] = .ok (1, List.replicate (b - a) 0) := by
    simp only [getFactors, hw, hx]
  refine ⟨⟨[.plain, .explicit [c] [(a, b)]], [rows, b - a], fun idx => data idx *
    factorAt (List.replicate (b - a) 0) (idx.getD 1 0)⟩, ?_, ?_⟩
  · simp only [times, apply, List.length_cons, List.length_nil, e]
    rw [if_pos (by left; simp)]
  · intro idx
    simp only [hf, mul_zero]

/-- **C63, refuted**: asked for the weights of an array, the plain weighting gives a one for every row, not for every band. -/
theorem C63_plain_weights_refuted (arr : Arr) (rows bands : Nat) (h : arr.shape = [rows, bands]) :
    weightsOfArray false ones arr = .ok (List.replicate rows 1) := by
  simp [weightsOfArray, h]

/-- The A-weighting of an array is that of its last dimension's scale. -/
theorem C63_weights_of_array (arr : Arr) (pre : List WDim) (c : List ℝ) (h : arr.dims = pre ++ [.freq c]) :
    weightsOfArray true aWeights arr = aWeights c := by
  simp [weightsOfArray, h]


example := C63_weights_of_array ⟨[.plain, .freq [20, 1000]], [3, 2], fun idx => idx.sum⟩ [.plain] [20, 1000] rfl

/-- **C63, plain weighting**: multiplying with or dividing by the plain weighting leaves an array with a frequency dimension as it is. -/
theorem C63_plain (arr : Arr) (pre post : List WDim) (c : List ℝ) (hd : arr.dims = pre ++ .freq c :: post) (hpre : ∀ d ∈ pre, d = .plain)
    (hsize : arr.shape.getD pre.length 0 = c.length) :
    ∃ x y, times ones arr = .ok x ∧ over ones arr = .ok y ∧ x.shape = arr.shape ∧ y.shape = arr.shape ∧
      ∀ idx, idx.getD pre.length 0 < c.length → x.data idx = arr.data idx ∧ y.data idx = arr.data idx := by
  obtain ⟨x, y, _, h1, h2, _, _, h3, _, h4, h5⟩ := C63_multiply ones arr pre post c (List.replicate c.length 1) hd hpre rfl (by simpa using hsize)
  refine ⟨x, y, h1, h2, h3, h4, fun idx hi => ?_⟩
  obtain ⟨h6, _, h7⟩ := h5 idx (by simpa using hi)
  have e : (List.replicate c.length (1 : ℝ)).getD (idx.getD pre.length 0) 0 = 1 := by
    rw [List.getD_eq_getElem?_getD, List.getElem?_replicate, if_pos hi]; rfl
  rw [h6, h7, e]
  simp

example : ∃ x, times ones ⟨[.plain, .freq [20, 1000]], [3, 2], fun idx => idx.sum⟩ = .ok x ∧ x.data [2, 1] = 3 := by
  obtain ⟨x, _, h, _, _, _, hx⟩ := C63_plain ⟨[.plain, .freq [20, 1000]], [3, 2], fun idx => idx.sum⟩ [.plain] [] [20, 1000] rfl (by simp) (by simp)
  exact ⟨x, h, by rw [(hx [2, 1] (by simp)).1]; norm_num⟩

/-- **C63, no bands**: the A-weighting of no bands at all is a ValueError. -/
theorem C63_no_bands : aWeights [] = .error .valueError := rfl

end Zounds.Weighting
