import Verif.Props.Fft

/-!
# C55: type IV cosine transform, C56: cosine transforms by matrix multiplication, C57: phase shift
-/

namespace Zounds.Spectral
open Finset Real

/-! ## C55 -/

/-- What the DCT-IV node computes: the input is weighted by `cos(π t / 2l)` first, because the imaginary part of a product is dropped
on the way. -/
theorem C55_computes (l : ℕ) (hl : 0 < l) (x : List ℝ) (hx : x.length = l) :
    dctiv x = .ok ((List.range l).map fun k : ℕ => sqrt (2 / l) *
      ∑ t ∈ range l, x.getD t 0 * cos (π * t / (2 * l)) * cos (π * t * k / l + π * (k + 1 / 2) / (2 * l))) := by
  have hl' : (l : ℂ) ≠ 0 := by exact_mod_cast hl.ne'
  have hne : ¬ (x = []) := by rintro rfl; simp at hx; omega
  unfold dctiv
  rw [if_neg hne]
  simp only [hx]
  congr 1
  apply List.map_congr_left
  intro k hk
  have hk : k < l := List.mem_range.1 hk
  congr 1
  rw [List.getD_eq_getElem?_getD, List.getElem?_take_of_lt hk, ← List.getD_eq_getElem?_getD]
  unfold fft
  rw [getD_map_range _ _ _ _ (by omega)]
  have hz : ∀ f ∈ range (2 * l), f ∉ range l → ((List.range l).map fun t : ℕ =>
        ((((x.getD t 0 : ℂ) * Complex.exp (-Complex.I * π * t / 2 / l)).re : ℝ) : ℂ)).getD f 0 *
        Complex.exp (-2 * π * Complex.I * f * k / (2 * l : ℕ)) = 0 := by
    intro f _ hf
    rw [getD_map_range_ge _ _ _ _ (by simpa using hf), zero_mul]
  rw [← sum_subset (range_subset_range.2 (by omega : l ≤ 2 * l)) hz]
  have e1 : ∀ t ∈ range l, ((List.range l).map fun t : ℕ =>
        ((((x.getD t 0 : ℂ) * Complex.exp (-Complex.I * π * t / 2 / l)).re : ℝ) : ℂ)).getD t 0 *
        Complex.exp (-2 * π * Complex.I * t * k / (2 * l : ℕ)) =
      ((x.getD t 0 * cos (π * t / (2 * l)) : ℝ) : ℂ) * Complex.exp (-((π * t * k / l : ℝ) : ℂ) * Complex.I) := by
    intro t ht
    rw [getD_map_range _ _ _ _ (mem_range.1 ht)]
    have e : -Complex.I * π * (t : ℂ) / 2 / l = ((-(π * t / (2 * l)) : ℝ) : ℂ) * Complex.I := by
      push_cast; field_simp
    rw [e, Complex.re_ofReal_mul, Complex.exp_ofReal_mul_I_re, cos_neg]
    congr 2
    push_cast
    field_simp
  rw [sum_congr rfl e1]
  have e2 : -Complex.I * π * ((k : ℂ) + 1 / 2) / 2 / l = -((π * (k + 1 / 2) / (2 * l) : ℝ) : ℂ) * Complex.I := by
    push_cast; field_simp
  rw [e2, re_sum_exp (x := fun t => x.getD t 0 * cos (π * t / (2 * l)))]

example := C55_computes 3 (by decide) [1, 2, 3] rfl

/-- **C55**: the synthesizer applies the same transform again, and this does not invert it: for every window size from two on, an
impulse at the start of the window comes back larger than it was. -/
theorem C55_involution_refuted (l : ℕ) (hl : 2 ≤ l) :
    ∃ y z, dctiv (1 :: List.replicate (l - 1) 0) = .ok y ∧ dctiv y = .ok z ∧ 1 < z.getD 0 0 := by
  have hl0 : 0 < l := by omega
  have hl' : (0 : ℝ) < l := by exact_mod_cast hl0
  have hlen : (1 :: List.replicate (l - 1) (0 : ℝ)).length = l := by simp; omega
  refine ⟨_, _, C55_computes l hl0 _ hlen, C55_computes l hl0 _ (by simp), ?_⟩
  rw [getD_map_range _ _ _ _ hl0]
  have hy : ∀ t ∈ range l, ((List.range l).map fun k : ℕ => sqrt (2 / l) * ∑ t ∈ range l,
        (1 :: List.replicate (l - 1) (0 : ℝ)).getD t 0 * cos (π * t / (2 * l)) * cos (π * t * k / l + π * (k + 1 / 2) / (2 * l))).getD t 0 *
        cos (π * t / (2 * l)) * cos (π * t * ((0 : ℕ) : ℝ) / l + π * (((0 : ℕ) : ℝ) + 1 / 2) / (2 * l)) =
      sqrt (2 / l) * (cos (π * (t + 1 / 2) / (2 * l)) ^ 2 +
        cos (π * (t + 1 / 2) / (2 * l)) * sin (π * t / (2 * l)) * sin (π * (1 / 2) / (2 * l))) := by
    intro t ht
    rw [getD_map_range _ _ _ _ (mem_range.1 ht), sum_eq_single 0]
    · have e1 : π * ((t : ℝ) + 1 / 2) / (2 * l) = π * t / (2 * l) + π * (1 / 2) / (2 * l) := by field_simp
      rw [e1]
      simp only [List.getD_cons_zero, Nat.cast_zero, mul_zero, zero_mul, zero_div, cos_zero, mul_one, zero_add, one_mul]
      rw [cos_add]
      ring
    · intro s _ hs
      obtain ⟨s', rfl⟩ : ∃ s', s = s' + 1 := ⟨s - 1, by omega⟩
      rw [List.getD_cons_succ, List.getD_eq_getElem?_getD, List.getElem?_replicate]
      split <;> simp
    · intro h; exact absurd (mem_range.2 hl0) h
  rw [sum_congr rfl hy, ← mul_sum, ← mul_assoc, mul_self_sqrt (by positivity), sum_add_distrib]
  -- the squares sum to l / 2
  have hsq : ∑ t ∈ range l, cos (π * ((t : ℝ) + 1 / 2) / (2 * l)) ^ 2 = l / 2 := by
    have h2 : ∀ t ∈ range l, cos (π * ((t : ℝ) + 1 / 2) / (2 * l)) ^ 2 =
        1 / 2 + 1 / 2 * cos (((t : ℝ) + 1 / 2) * (π * ((1 : ℤ) : ℝ) / l)) := by
      intro t _
      have e : ((t : ℝ) + 1 / 2) * (π * ((1 : ℤ) : ℝ) / l) = 2 * (π * ((t : ℝ) + 1 / 2) / (2 * l)) := by
        push_cast; field_simp
      rw [e, cos_two_mul]; ring
    rw [sum_congr rfl h2, sum_add_distrib, ← mul_sum, TrigSums.sum_half_odd_zero l hl0 1]
    · simp; ring
    · rintro ⟨j, hj⟩
      have h1 : (2 * l : ℤ) ∣ 1 := ⟨j, hj⟩
      have := Int.le_of_dvd (by norm_num) h1
      omega
  have hpos : 0 < ∑ t ∈ range l, cos (π * ((t : ℝ) + 1 / 2) / (2 * l)) * sin (π * t / (2 * l)) * sin (π * (1 / 2) / (2 * l)) := by
    have hang : ∀ a : ℝ, 0 < a → a < l → 0 < π * a / (2 * l) ∧ π * a / (2 * l) < π / 2 := by
      intro a h0 h1
      constructor
      · positivity
      · rw [div_lt_div_iff₀ (by positivity) (by norm_num)]
        have := mul_lt_mul_of_pos_left h1 pi_pos
        nlinarith
    have hs0 : 0 < sin (π * (1 / 2) / (2 * l)) := by
      have h1 : (2 : ℝ) ≤ l := by exact_mod_cast hl
      obtain ⟨a, b⟩ := hang (1 / 2) (by norm_num) (by linarith)
      exact sin_pos_of_pos_of_lt_pi a (by linarith [pi_pos])
    have hc : ∀ t : ℕ, t < l → 0 < cos (π * ((t : ℝ) + 1 / 2) / (2 * l)) := by
      intro t ht
      have h1 : (t : ℝ) + 1 ≤ l := by exact_mod_cast ht
      obtain ⟨a, b⟩ := hang ((t : ℝ) + 1 / 2) (by positivity) (by linarith)
      exact cos_pos_of_mem_Ioo ⟨by linarith, b⟩
    have hs : ∀ t : ℕ, t < l → 0 ≤ sin (π * (t : ℝ) / (2 * l)) := by
      intro t ht
      rcases Nat.eq_zero_or_pos t with rfl | h0
      · simp
      · have h1 : (t : ℝ) < l := by exact_mod_cast ht
        obtain ⟨a, b⟩ := hang (t : ℝ) (by exact_mod_cast h0) h1
        exact (sin_pos_of_pos_of_lt_pi a (by linarith [pi_pos])).le
    apply sum_pos'
    · intro t ht
      have ht := mem_range.1 ht
      have := hc t ht
      have := hs t ht
      positivity
    · refine ⟨1, mem_range.2 (by omega), ?_⟩
      have h1 : (2 : ℝ) ≤ l := by exact_mod_cast hl
      obtain ⟨a, b⟩ := hang 1 (by norm_num) (by linarith)
      have h3 : 0 < sin (π * ((1 : ℕ) : ℝ) / (2 * l)) := by
        rw [Nat.cast_one]
        exact sin_pos_of_pos_of_lt_pi a (by linarith [pi_pos])
      have h4 := hc 1 (by omega)
      positivity
  rw [hsq, mul_add]
  have h5 : 2 / (l : ℝ) * (l / 2) = 1 := by field_simp
  rw [h5]
  have : 0 < 2 / (l : ℝ) * ∑ t ∈ range l, cos (π * ((t : ℝ) + 1 / 2) / (2 * l)) * sin (π * t / (2 * l)) * sin (π * (1 / 2) / (2 * l)) := by
    positivity
  linarith

/-- Windows of a single sample are the only ones that come back. -/
theorem C55_single (x : ℝ) : dctiv [x] = .ok [x] := by
  rw [C55_computes 1 (by norm_num) [x] rfl]
  have h : π * (((0 : ℕ) : ℝ) + 1 / 2) / (2 * ((1 : ℕ) : ℝ)) = π / 4 := by push_cast; ring
  have h2 : sqrt (2 / ((1 : ℕ) : ℝ)) * (sqrt 2 / 2) = 1 := by
    rw [Nat.cast_one, div_one, ← mul_div_assoc, mul_self_sqrt (by norm_num)]; norm_num
  simp only [List.range_one, List.map_cons, List.map_nil, sum_range_one, List.getD_cons_zero]
  rw [h]
  simp only [Nat.cast_zero, mul_zero, zero_div, cos_zero, mul_one, zero_add]
  rw [cos_pi_div_four]
  congr 2
  linear_combination x * h2

/-! ## C56 -/

/-- `sqrt(2 / n)` times the basis. -/
theorem basis_eq (n i j : ℕ) (hn : 0 < n) :
    sqrt (2 / n) * dctBasis n i j = (if i = 0 then sqrt 2 else 1) * dctKernel n i j := by
  have hn' : (n : ℝ) ≠ 0 := by exact_mod_cast hn.ne'
  unfold dctBasis dctKernel
  have e : π / n * ((i : ℝ) * ((j : ℝ) + 1 / 2)) = π * i * (2 * j + 1) / (2 * n) := by field_simp
  rw [e]
  split
  · rw [← mul_assoc, ← sqrt_mul (by norm_num), mul_one_div]
  · ring

theorem basis_orthogonal (n : ℕ) (hn : 0 < n) (s j : ℕ) (hs : s < n) (hj : j < n) :
    ∑ i ∈ range n, sqrt (2 / n) * dctBasis n s i * (sqrt (2 / n) * dctBasis n j i) =
      if s = j then (if j = 0 then 2 else 1) else 0 := by
  have h1 : ∀ i ∈ range n, sqrt (2 / n) * dctBasis n s i * (sqrt (2 / n) * dctBasis n j i) =
      (if s = 0 then sqrt 2 else 1) * (if j = 0 then sqrt 2 else 1) * (dctKernel n j i * dctKernel n s i) := by
    intro i _
    rw [basis_eq _ _ _ hn, basis_eq _ _ _ hn]; ring
  rw [sum_congr rfl h1, ← mul_sum, dctKernel_orthogonal' n hn j s hj hs]
  by_cases h : s = j
  · subst h
    rw [if_pos rfl, if_pos rfl]
    split
    · rw [mul_self_sqrt (by norm_num), mul_one]
    · ring
  · rw [if_neg h, if_neg h, mul_zero]

/-- **C56, inverse**: `idct` of `dct` gives every sample back except the first, which comes back doubled. -/
theorem C56_inverse (x : List ℝ) (hx : x ≠ []) :
    ∃ c, torchDct x = .ok c ∧ c.length = x.length ∧
      torchIdct c = .ok ((List.range x.length).map fun j => (if j = 0 then 2 else 1) * x.getD j 0) := by
  have hn : 0 < x.length := List.length_pos_of_ne_nil hx
  unfold torchDct
  rw [if_neg hx]
  refine ⟨_, rfl, by simp, ?_⟩
  unfold torchIdct
  rw [if_neg (by intro h; have := congrArg List.length h; simp at this; exact hx this)]
  simp only [List.length_map, List.length_range]
  congr 1
  apply List.map_congr_left
  intro j hj
  have hj : j < x.length := List.mem_range.1 hj
  rw [sum_mul]
  have h1 : ∀ i ∈ range x.length, ((List.range x.length).map fun j : ℕ => (∑ i ∈ range x.length, x.getD i 0 * dctBasis x.length i j) *
        sqrt (2 / x.length)).getD i 0 * dctBasis x.length j i * sqrt (2 / x.length) =
      ∑ s ∈ range x.length, x.getD s 0 * (sqrt (2 / x.length) * dctBasis x.length s i * (sqrt (2 / x.length) * dctBasis x.length j i)) := by
    intro i hi
    rw [getD_map_range _ _ _ _ (mem_range.1 hi), sum_mul, sum_mul, sum_mul]
    apply sum_congr rfl
    intro s _; ring
  rw [sum_congr rfl h1, sum_comm]
  have h2 : ∀ s ∈ range x.length, ∑ i ∈ range x.length, x.getD s 0 * (sqrt (2 / x.length) * dctBasis x.length s i *
        (sqrt (2 / x.length) * dctBasis x.length j i)) = if s = j then (if j = 0 then 2 else 1) * x.getD j 0 else 0 := by
    intro s hs
    rw [← mul_sum, basis_orthogonal _ hn s j (mem_range.1 hs) hj]
    by_cases h : s = j
    · subst h; rw [if_pos rfl, if_pos rfl, mul_comm]
    · rw [if_neg h, if_neg h, mul_zero]
  rw [sum_congr rfl h2, sum_ite_eq', if_pos (mem_range.2 hj)]

example := C56_inverse [1, 2, 3] (by simp)

/-- **C56**: so a signal with a first sample other than zero does not come back. -/
theorem C56_inverse_refuted (a : ℝ) (x : List ℝ) (ha : a ≠ 0) :
    ∃ c y, torchDct (a :: x) = .ok c ∧ torchIdct c = .ok y ∧ y.getD 0 0 = 2 * a ∧ y ≠ a :: x := by
  obtain ⟨c, h1, _, h2⟩ := C56_inverse (a :: x) (by simp)
  refine ⟨c, _, h1, h2, ?_, ?_⟩
  · rw [getD_map_range _ _ _ _ (by simp)]; simp
  · intro h
    have h3 : ((List.range (a :: x).length).map fun j => (if j = 0 then 2 else 1) * (a :: x).getD j 0).getD 0 0 = (a :: x).getD 0 0 := by
      rw [h]
    rw [getD_map_range _ _ _ _ (by simp)] at h3
    simp only [if_true, List.getD_cons_zero] at h3
    exact ha (by linarith)

/-- **C56, resampling to the same size**: the first sample is doubled, the others are unchanged. -/
theorem C56_resample_same (x : List ℝ) (hx : x ≠ []) :
    dctResample x x.length = .ok ((List.range x.length).map fun j => (if j = 0 then 2 else 1) * x.getD j 0) := by
  obtain ⟨c, h1, hl, h2⟩ := C56_inverse x hx
  unfold dctResample
  rw [h1]
  simp only
  have : (List.range x.length).map (fun k => c.getD k 0) = c := by
    apply Synth.getD_ext (by simp [hl])
    intro t ht
    simp at ht
    rw [getD_map_range _ _ _ _ ht]
  rw [this, h2]

example := C56_resample_same [1, 2, 3] (by simp)

/-- **C56, resampling gives as many samples as asked for**. -/
theorem C56_resample_length (x : List ℝ) (n : ℕ) (hx : x ≠ []) (hn : 0 < n) : ∃ y, dctResample x n = .ok y ∧ y.length = n := by
  obtain ⟨c, h1, hl, h2⟩ := C56_inverse x hx
  unfold dctResample
  rw [h1]
  simp only
  unfold torchIdct
  rw [if_neg (by intro h; have := congrArg List.length h; simp at this; omega)]
  exact ⟨_, rfl, by simp⟩

example := C56_resample_length [1, 2, 3] 5 (by simp) (by decide)

/-- **C56, the window cache**: weights of one size are those of the windowing function that was passed the first time a window of that
size was asked for. -/
theorem C56_window_cached {β : Type} (cache : List (ℕ × List β)) (n : ℕ) (w v : ℕ → List β) (h : cache.lookup n = none) :
    (cachedWindow cache n w).2 = w n ∧ (cachedWindow (cachedWindow cache n w).1 n v).2 = w n := by
  unfold cachedWindow
  simp [h]

example := C56_window_cached [(4, [1])] 3 (fun n => List.replicate n 1) (fun n => List.replicate n 2) rfl

/-- **C56**: so a second windowing function of the same size is ignored. -/
theorem C56_window_refuted : ∃ (n : ℕ) (w v : ℕ → List ℝ),
    (cachedWindow (cachedWindow [] n w).1 n v).2 ≠ v n :=
  ⟨1, fun n => List.replicate n 1, fun n => List.replicate n 2, by
    rw [(C56_window_cached [] 1 _ _ rfl).2]; norm_num⟩

theorem flatten_getD (n : ℕ) : ∀ (rows : List (List ℝ)) (_ : ∀ r ∈ rows, r.length = n) (i j : ℕ), j < n →
    rows.flatten.getD (i * n + j) 0 = (rows.getD i []).getD j 0
  | [], _, i, j, _ => by simp
  | r :: rows, h, i, j, hj => by
    have hr : r.length = n := h r (by simp)
    cases i with
    | zero =>
      simp only [List.flatten_cons, Nat.zero_mul, Nat.zero_add, List.getD_eq_getElem?_getD]
      rw [List.getElem?_append_left (by omega)]
      rfl
    | succ i =>
      have e : (i + 1) * n + j = n + (i * n + j) := by ring
      have ih := flatten_getD n rows (fun r hr => h r (by simp [hr])) i j hj
      rw [List.getD_cons_succ, ← ih, e, List.flatten_cons, List.getD_eq_getElem?_getD, List.getElem?_append_right (by omega), hr,
        Nat.add_sub_cancel_left, List.getD_eq_getElem?_getD]

/-- **C56, short time transform, what it returns**: row `i`, column `j` of the result is number `i * nwin + j` of the coefficients of
all windows one after the other. -/
theorem C56_short_time (x window : List ℝ) (size step : ℕ) (hs : 0 < size) (hst : 0 < step) (hx : size ≤ x.length)
    (hw : window.length = size) :
    ∃ (c : ℕ → List ℝ) (out : List (List ℝ)),
      (∀ i, i < (x.length - size) / step + 1 → torchDct ((List.range size).map fun t => x.getD (i * step + t) 0 * window.getD t 0) =
        .ok (c i)) ∧
      shortTimeDct x size step window = .ok out ∧ out.length = size ∧
      ∀ i j, i < size → j < (x.length - size) / step + 1 → (out.getD i []).getD j 0 =
        (c ((i * ((x.length - size) / step + 1) + j) / size)).getD ((i * ((x.length - size) / step + 1) + j) % size) 0 := by
  have hsucc : ∀ i : ℕ, ∃ c, torchDct ((List.range size).map fun t => x.getD (i * step + t) 0 * window.getD t 0) = .ok c ∧ c.length = size := by
    intro i
    obtain ⟨c, h1, h2, _⟩ := C56_inverse ((List.range size).map fun t => x.getD (i * step + t) 0 * window.getD t 0)
      (by intro h; have := congrArg List.length h; simp at this; omega)
    exact ⟨c, h1, by simpa using h2⟩
  choose c hc using hsucc
  have hwin : ∀ i, i < (x.length - size) / step + 1 → List.zipWith (· * ·) ((x.drop (i * step)).take size) window =
      (List.range size).map fun t => x.getD (i * step + t) 0 * window.getD t 0 := by
    intro i hi
    have hi2 : i * step ≤ x.length - size := by
      have : i ≤ (x.length - size) / step := by omega
      calc i * step ≤ (x.length - size) / step * step := Nat.mul_le_mul_right _ this
        _ ≤ _ := Nat.div_mul_le_self _ _
    apply Synth.getD_ext
    · simp; omega
    · intro t ht
      simp only [List.length_zipWith, List.length_take, List.length_drop] at ht
      rw [getD_map_range _ _ _ _ (by omega)]
      rw [List.getD_eq_getElem?_getD, List.getElem?_zipWith, List.getElem?_take_of_lt (by omega), List.getElem?_drop]
      rw [List.getElem?_eq_getElem (by omega), List.getElem?_eq_getElem (by omega : t < window.length)]
      rw [List.getD_eq_getElem?_getD, List.getD_eq_getElem?_getD, List.getElem?_eq_getElem (by omega),
        List.getElem?_eq_getElem (by omega : t < window.length)]
      rfl
  have hmap : ((List.range ((x.length - size) / step + 1)).map fun i => List.zipWith (· * ·) ((x.drop (i * step)).take size) window).mapM
      torchDct = .ok ((List.range ((x.length - size) / step + 1)).map c) := by
    apply mapM_ok
    intro i hi
    rw [hwin i (List.mem_range.1 hi)]
    exact (hc i).1
  refine ⟨c, (List.range size).map fun i => (List.range ((x.length - size) / step + 1)).map fun j =>
    ((List.range ((x.length - size) / step + 1)).map c).flatten.getD (i * ((x.length - size) / step + 1) + j) 0,
    fun i _ => (hc i).1, ?_, ?_⟩
  · unfold shortTimeDct
    rw [if_neg (by omega)]
    simp only [hmap]
  · constructor
    · simp
    · intro i j hi hj
      rw [getD_map_range _ _ _ _ hi, getD_map_range _ _ _ _ hj]
      set nwin := (x.length - size) / step + 1 with hn
      conv_lhs => rw [← Nat.div_add_mod' (i * nwin + j) size]
      rw [flatten_getD size _ _ _ _ (Nat.mod_lt _ hs)]
      · congr 1
        rw [getD_map_range]
        rw [Nat.div_lt_iff_lt_mul hs]
        calc i * nwin + j < i * nwin + nwin := by omega
          _ = (i + 1) * nwin := by ring
          _ ≤ size * nwin := Nat.mul_le_mul_right _ (by omega)
          _ = nwin * size := Nat.mul_comm _ _
      · intro r hr
        obtain ⟨a, _, rfl⟩ := List.mem_map.1 hr
        exact (hc a).2

example := C56_short_time [1, 2, 3, 4, 5] [1, 1] 2 1 (by decide) (by decide) (by decide) rfl

/-- **C56, short time transform**: the result is not indexed by coefficient and window: with two or more windows of two or more samples,
what should be coefficient 0 of the second window is coefficient 1 of the first. -/
theorem C56_short_time_refuted (x window : List ℝ) (size step : ℕ) (hs : 2 ≤ size) (hst : 0 < step) (hx : size + step ≤ x.length)
    (hw : window.length = size) :
    ∃ (c : ℕ → List ℝ) (out : List (List ℝ)),
      (∀ i, i < (x.length - size) / step + 1 → torchDct ((List.range size).map fun t => x.getD (i * step + t) 0 * window.getD t 0) =
        .ok (c i)) ∧
      shortTimeDct x size step window = .ok out ∧ (out.getD 0 []).getD 1 0 = (c 0).getD 1 0 := by
  obtain ⟨c, out, h1, h2, _, h4⟩ := C56_short_time x window size step (by omega) hst (by omega) hw
  refine ⟨c, out, h1, h2, ?_⟩
  have hn : 1 ≤ (x.length - size) / step := (Nat.one_le_div_iff hst).2 (by omega)
  have := h4 0 1 (by omega) (by omega)
  rw [this, Nat.zero_mul, Nat.zero_add, Nat.div_eq_of_lt (by omega), Nat.mod_eq_of_lt (by omega)]

/-- **C56, frequency decomposition**: for increasing stops up to the number of samples, every band has as many samples as its stop, and
the band is the inverse transform of the coefficients between the previous stop and its own. -/
theorem C56_decompose (x : List ℝ) (hx : x ≠ []) (stops : List ℕ) (hpos : ∀ s ∈ stops, 0 < s ∧ s ≤ x.length) :
    ∃ c bands, torchDct x = .ok c ∧ torchDecompose x stops = .ok bands ∧ bands.length = stops.length ∧
      ∀ (i : ℕ) (s : ℕ), stops[i]? = some s → ∃ b, bands[i]? = some b ∧ b.length = s ∧
        torchIdct ((List.range s).map fun k => if (0 :: stops).getD i 0 ≤ k then c.getD k 0 else 0) = .ok b := by
  obtain ⟨c, h1, hl, _⟩ := C56_inverse x hx
  have hg : ∀ p : ℕ × ℕ, ∃ b, 0 < p.2 → (torchIdct ((List.range p.2).map fun k => if p.1 ≤ k then c.getD k 0 else 0) = .ok b ∧ b.length = p.2) := by
    intro p
    by_cases h : 0 < p.2
    · unfold torchIdct
      rw [if_neg (by intro h2; have := congrArg List.length h2; simp at this; omega)]
      exact ⟨_, fun _ => ⟨rfl, by simp⟩⟩
    · exact ⟨[], fun h2 => absurd h2 h⟩
  choose g hg using hg
  have hz : ∀ p ∈ List.zip (0 :: stops) stops, 0 < p.2 ∧ p.2 ≤ x.length := by
    rintro ⟨a, b⟩ hp
    exact hpos b (List.of_mem_zip hp).2
  refine ⟨c, (List.zip (0 :: stops) stops).map g, h1, ?_, by simp, ?_⟩
  · unfold torchDecompose
    rw [h1]
    simp only
    have := mapM_ok (fun p : ℕ × ℕ => if min p.2 x.length - p.1 ≠ p.2 - p.1 ∧ min p.2 x.length - p.1 ≠ 1 then .error .runtimeError
      else torchIdct ((List.range p.2).map fun k : ℕ => if p.1 ≤ k then c.getD (if min p.2 x.length - p.1 = 1 then p.1 else k) 0 else 0))
      id g (List.zip (0 :: stops) stops)
      (by
        intro p hp
        have h := hz p hp
        have hm : min p.2 x.length = p.2 := by omega
        simp only [id]
        rw [if_neg (by rw [hm]; omega), ← (hg p h.1).1, hm]
        congr 1
        apply List.map_congr_left
        intro k hk
        have hk : k < p.2 := List.mem_range.1 hk
        by_cases h1 : p.1 ≤ k
        · rw [if_pos h1, if_pos h1]
          by_cases h2 : p.2 - p.1 = 1
          · rw [if_pos h2]; congr 1; omega
          · rw [if_neg h2]
        · rw [if_neg h1, if_neg h1])
    rw [List.map_id] at this
    exact this
  · intro i s hs
    have hi : i < stops.length := by
      rw [List.getElem?_eq_some_iff] at hs; exact hs.1
    have hzi : (List.zip (0 :: stops) stops)[i]? = some ((0 :: stops).getD i 0, s) := by
      rw [List.getElem?_zip_eq_some]
      refine ⟨?_, hs⟩
      simp only [List.getD_eq_getElem?_getD]
      rw [List.getElem?_eq_getElem (by simp; omega)]
      rfl
    refine ⟨g ((0 :: stops).getD i 0, s), by rw [List.getElem?_map, hzi]; rfl, ?_⟩
    have hsp := hpos s (List.mem_of_getElem? hs)
    exact ⟨(hg (_, s) hsp.1).2, (hg ((0 :: stops).getD i 0, s) hsp.1).1⟩

example := C56_decompose [1, 2, 3, 4] (by simp) [2, 4] (by decide)

/-! ## C57 -/

/-- **C57**: a shift by as many samples as there are coefficients, a little more than half a window, or by any multiple of it, changes
nothing. -/
theorem C57_half_window_refuted (X : List ℂ) (q : ℤ) : phaseShift X (X.length * q) = X := by
  unfold phaseShift
  apply List.ext_getElem?
  intro k
  rw [List.getElem?_map]
  by_cases hk : k < X.length
  · rw [List.getElem?_range hk, List.getElem?_eq_getElem hk]
    have hg : X.getD k 0 = X[k] := by rw [List.getD_eq_getElem?_getD, List.getElem?_eq_getElem hk]; rfl
    have hn : ((X.length : ℕ) : ℂ) ≠ 0 := by
      have : X.length ≠ 0 := by omega
      exact_mod_cast this
    have e : -((k : ℂ) * 2 * Complex.I * π / (X.length : ℂ)) * (((X.length : ℤ) * q : ℤ) : ℂ) = ((-(k * q) : ℤ) : ℂ) * (2 * π * Complex.I) := by
      push_cast; field_simp
    simp only [Option.map_some]
    rw [hg, e, Complex.exp_int_mul_two_pi_mul_I, mul_one]
  · rw [List.getElem?_eq_none (by simpa using hk), List.getElem?_eq_none (by simpa using hk)]
    rfl

/-- The coefficients of a signal delayed by `d` samples, the window taken to be periodic. -/
theorem rfft_delayed (N : ℕ) (hN : 0 < N) (x : ℤ → ℝ) (hper : ∀ t : ℤ, x (t + N) = x t) (d : ℤ) (k : ℕ) :
    ∑ t ∈ range N, (x ((t : ℤ) - d) : ℂ) * Complex.exp (-2 * π * Complex.I * t * k / N) =
      (∑ t ∈ range N, (x t : ℂ) * Complex.exp (-2 * π * Complex.I * t * k / N)) * Complex.exp (-2 * π * Complex.I * k * d / N) := by
  have hN' : (N : ℂ) ≠ 0 := by exact_mod_cast hN.ne'
  -- a sum of a periodic function over one period does not depend on where it starts
  have hsh : ∀ (g : ℤ → ℂ), (∀ t, g (t + N) = g t) → ∀ d : ℤ, ∑ t ∈ range N, g ((t : ℤ) - d) = ∑ t ∈ range N, g t := by
    intro g hg
    have step : ∀ d : ℤ, ∑ t ∈ range N, g ((t : ℤ) - d) = ∑ t ∈ range N, g ((t : ℤ) - (d + 1)) := by
      intro d
      have h1 := sum_range_succ (fun t : ℕ => g ((t : ℤ) - (d + 1))) N
      have h2 := sum_range_succ' (fun t : ℕ => g ((t : ℤ) - (d + 1))) N
      have e1 : g (((N : ℕ) : ℤ) - (d + 1)) = g (((0 : ℕ) : ℤ) - (d + 1)) := by
        rw [← hg (((0 : ℕ) : ℤ) - (d + 1))]; congr 1; push_cast; ring
      have e2 : ∀ t ∈ range N, g (((t + 1 : ℕ) : ℤ) - (d + 1)) = g ((t : ℤ) - d) := by
        intro t _; congr 1; push_cast; ring
      rw [h2, sum_congr rfl e2, e1] at h1
      exact add_right_cancel h1
    intro d
    induction d using Int.induction_on with
    | zero => simp
    | succ n ih => rw [← step, ih]
    | pred n ih => rw [step]; rw [sub_add_cancel]; exact ih
  let g : ℤ → ℂ := fun t => (x t : ℂ) * Complex.exp (-2 * π * Complex.I * t * k / N)
  have hg : ∀ t, g (t + N) = g t := by
    intro t
    simp only [g]
    rw [hper]
    congr 1
    have e : -2 * π * Complex.I * ((t + N : ℤ) : ℂ) * k / N = -2 * π * Complex.I * t * k / N + ((-(k : ℤ) : ℤ) : ℂ) * (2 * π * Complex.I) := by
      push_cast; field_simp; ring
    rw [e, Complex.exp_add, Complex.exp_int_mul_two_pi_mul_I, mul_one]
  have h := hsh g hg d
  have e3 : ∑ t ∈ range N, (x t : ℂ) * Complex.exp (-2 * π * Complex.I * t * k / N) = ∑ t ∈ range N, g t := by
    apply sum_congr rfl
    intro t _
    simp only [g]
    push_cast; rfl
  rw [e3, ← h, sum_mul]
  apply sum_congr rfl
  intro t _
  simp only [g]
  rw [mul_assoc (x ((t : ℤ) - d) : ℂ), ← Complex.exp_add]
  congr 2
  push_cast; field_simp; ring

/-- **C57, what a shift does**: on the coefficients of a window of `N` samples, of which there are `m = N / 2 + 1`, a shift by `s`
samples has the effect of delaying the (periodic) window by `s N / m` samples, nearly twice as much. -/
theorem C57_delay (N : ℕ) (hN : 0 < N) (x : ℤ → ℝ) (hper : ∀ t : ℤ, x (t + N) = x t) (s d : ℤ)
    (h : d * ((N / 2 + 1 : ℕ) : ℤ) = s * N) :
    ∃ X Y, rfft ((List.range N).map fun t : ℕ => x t) = .ok X ∧ rfft ((List.range N).map fun t : ℕ => x ((t : ℤ) - d)) = .ok Y ∧
      phaseShift X s = Y := by
  have hN' : (N : ℂ) ≠ 0 := by exact_mod_cast hN.ne'
  have hm' : ((N / 2 + 1 : ℕ) : ℂ) ≠ 0 := by exact_mod_cast Nat.succ_ne_zero (N / 2)
  have hne : ∀ f : ℕ → ℝ, (List.range N).map f ≠ [] := by
    intro f hf
    have := congrArg List.length hf
    simp at this; omega
  have hr : ∀ f : ℤ → ℝ, rfft ((List.range N).map fun t : ℕ => f t) = .ok ((List.range (N / 2 + 1)).map fun k : ℕ =>
      ((1 / sqrt N : ℝ) : ℂ) * ∑ t ∈ range N, (f t : ℂ) * Complex.exp (-2 * π * Complex.I * t * k / N)) := by
    intro f
    unfold rfft
    rw [if_neg (hne _)]
    simp only [List.length_map, List.length_range]
    congr 1
    apply List.map_congr_left
    intro k _
    congr 1
    apply sum_congr rfl
    intro t ht
    rw [getD_map_range _ _ _ _ (mem_range.1 ht)]
  refine ⟨_, _, hr x, hr (fun t => x (t - d)), ?_⟩
  unfold phaseShift
  simp only [List.length_map, List.length_range]
  apply List.map_congr_left
  intro k hk
  rw [getD_map_range _ _ _ _ (List.mem_range.1 hk), rfft_delayed N hN x hper d k, mul_assoc]
  congr 3
  have hc : (d : ℂ) * ((N / 2 + 1 : ℕ) : ℂ) = s * N := by
    have := congrArg (fun z : ℤ => (z : ℂ)) h
    push_cast at this ⊢
    exact this
  rw [neg_mul, neg_mul, neg_mul, neg_mul, neg_mul, neg_div, neg_inj, div_mul_eq_mul_div, div_eq_div_iff hm' hN']
  linear_combination (-2 * π * Complex.I * k : ℂ) * hc

example := C57_delay 4 (by decide) (fun t => if t % 4 = 0 then 1 else 0) (by intro t; simp) 3 4 (by decide)

end Zounds.Spectral
