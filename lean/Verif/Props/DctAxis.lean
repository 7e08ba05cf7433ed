import Verif.Model.DctAxis
import Verif.Props.Dct

/-!
# C312: cosine transforms along an axis
-/

namespace Zounds.Spectral
open Zounds Finset Real

/-- A batch whose rows along the last axis have `c` numbers. -/
def Wide (c : ℕ) (rows : List (List ℝ)) : Prop := ∀ x ∈ rows, x.length = c

theorem dctAlong_last (c : ℕ) (hc : 0 < c) (rows : List (List ℝ)) (hw : Wide c rows) :
    ∃ f : List ℝ → List ℝ, (∀ x ∈ rows, torchDct x = .ok (f x) ∧ (f x).length = c ∧
        torchIdct (f x) = .ok ((List.range c).map fun j => (if j = 0 then 2 else 1) * x.getD j 0)) ∧
      dctAlong c c rows = .ok (rows.map f) := by
  refine ⟨fun x => (List.range c).map fun j : ℕ => (∑ i ∈ range c, x.getD i 0 * dctBasis c i j) * sqrt (2 / c), ?_, ?_⟩
  · intro x hx
    have hl := hw x hx
    have hne : x ≠ [] := by rintro rfl; simp at hl; omega
    obtain ⟨y, h1, h2, h3⟩ := C56_inverse x hne
    have e : torchDct x = .ok ((List.range c).map fun j : ℕ => (∑ i ∈ range c, x.getD i 0 * dctBasis c i j) * sqrt (2 / c)) := by
      unfold torchDct
      rw [if_neg hne, hl]
    rw [h1] at e
    cases e
    refine ⟨h1, by simp, ?_⟩
    rw [h3, hl]
  · unfold dctAlong
    rw [if_neg (by omega), if_neg (by simp)]

theorem idct_row (c : ℕ) (hc : 0 < c) (x y : List ℝ) (hx : x.length = c) (h : torchIdct x = .ok y) :
    ((List.range c).map fun j : ℕ => (∑ i ∈ range c, x.getD i 0 * dctBasis c j i) * sqrt (2 / c)) = y := by
  unfold torchIdct at h
  rw [if_neg (by rintro rfl; simp at hx; omega), hx] at h
  cases h
  rfl

/-- **C312**: along the last axis (the default) every row is transformed on its own.  **Refuted** along another axis: if its size is not that of the last axis, both
transforms raise RuntimeError, and otherwise they transform along the last axis instead. -/
theorem C312_axis (n c : ℕ) (hn : 0 < n) (hc : 0 < c) (rows : List (List ℝ)) (hw : Wide c rows) :
    (∃ f : List ℝ → List ℝ, (∀ x ∈ rows, torchDct x = .ok (f x)) ∧ dctAlong c c rows = .ok (rows.map f)) ∧
    (n ≠ c → dctAlong n c rows = .error .runtimeError ∧ idctAlong n c rows = .error .runtimeError) ∧
    (n = c → dctAlong n c rows = dctAlong c c rows ∧ idctAlong n c rows = idctAlong c c rows) := by
  obtain ⟨f, h1, h2⟩ := dctAlong_last c hc rows hw
  refine ⟨⟨f, fun x hx => (h1 x hx).1, h2⟩, fun h => ?_, fun h => ?_⟩
  · constructor
    · unfold dctAlong
      rw [if_neg (by omega), if_pos (Ne.symm h)]
    · unfold idctAlong
      rw [if_neg (by omega), if_pos (Ne.symm h)]
  · subst h
    exact ⟨rfl, rfl⟩

/-- **C312, refuted**: resampling along the first axis interpolates between rows.  It returns the rows one after the other, with their first numbers doubled, up to as many as asked for
and then rows of zeros; `zero_slice` makes rows zero. -/
theorem C312_first_axis_refuted (n c : ℕ) (hc : 0 < c) (zero : ℕ → Bool) (rows : List (List ℝ)) (hw : Wide c rows) :
    ∃ out, dctResampleFirst n c zero rows = .ok out ∧ out.length = n ∧
      (∀ (i : ℕ) (x : List ℝ), i < n → zero i = false → rows[i]? = some x → out[i]? = some ((List.range c).map fun j => (if j = 0 then 2 else 1) * x.getD j 0)) ∧
      (∀ i : ℕ, i < n → (zero i = true ∨ rows.length ≤ i) → out[i]? = some (List.replicate c 0)) := by
  obtain ⟨f, h1, h2⟩ := dctAlong_last c hc rows hw
  have hz : ((List.range c).map fun j : ℕ => (∑ i ∈ range c, (List.replicate c (0 : ℝ)).getD i 0 * dctBasis c j i) * sqrt (2 / c)) = List.replicate c 0 := by
    have : ∀ j ∈ List.range c, (∑ i ∈ range c, (List.replicate c (0 : ℝ)).getD i 0 * dctBasis c j i) * sqrt (2 / c) = 0 := by
      intro j _
      rw [sum_eq_zero, zero_mul]
      intro i hi
      rw [List.getD_eq_getElem?_getD, List.getElem?_replicate, if_pos (mem_range.1 hi)]
      simp
    rw [List.map_congr_left this, List.map_const', List.length_range]
  unfold dctResampleFirst
  rw [h2]
  simp only []
  unfold idctAlong
  rw [if_neg (by omega), if_neg (by simp)]
  refine ⟨_, rfl, by simp, ?_, ?_⟩
  · intro i x hi hzi hx
    rw [List.getElem?_map, List.getElem?_map, List.getElem?_range hi]
    simp only [Option.map_some, hzi, Bool.false_eq_true, if_false]
    have : (rows.map f).getD i (List.replicate c 0) = f x := by
      rw [List.getD_eq_getElem?_getD, List.getElem?_map, hx]; rfl
    rw [this]
    obtain ⟨-, hl, hi2⟩ := h1 x (List.mem_of_getElem? hx)
    rw [idct_row c hc (f x) _ hl hi2]
  · intro i hi hor
    rw [List.getElem?_map, List.getElem?_map, List.getElem?_range hi]
    simp only [Option.map_some]
    have : (if zero i = true then List.replicate c 0 else (rows.map f).getD i (List.replicate c 0)) = List.replicate c 0 := by
      by_cases hzi : zero i = true
      · rw [if_pos hzi]
      · rw [if_neg hzi, List.getD_eq_getElem?_getD, List.getElem?_eq_none (by simp; rcases hor with h | h; exact absurd h hzi; exact h)]
        rfl
    rw [this, hz]

/-- **C312**: along the last axis, what `zero_slice` removes and what it leaves add up to the resampled signal; without a `zero_slice` it is the resampled signal. -/
theorem C312_parts (n c : ℕ) (hn : 0 < n) (hc : 0 < c) (zero : ℕ → Bool) (rows : List (List ℝ)) (hw : Wide c rows) :
    ∃ kept removed : List (List ℝ), dctResampleZero n c zero rows = .ok kept ∧ dctResampleZero n c (fun k => !zero k) rows = .ok removed ∧
      ∀ (i : ℕ) (x : List ℝ), rows[i]? = some x → ∃ y : List ℝ, dctResample x n = .ok y ∧ y.length = n ∧
        (kept.getD i []).length = n ∧ (removed.getD i []).length = n ∧
        (∀ t, t < n → (kept.getD i []).getD t 0 + (removed.getD i []).getD t 0 = y.getD t 0) ∧
        ((∀ k, k < n → zero k = false) → kept.getD i [] = y) := by
  obtain ⟨f, h1, h2⟩ := dctAlong_last c hc rows hw
  unfold dctResampleZero
  rw [h2]
  simp only []
  unfold idctAlong
  simp only [if_neg (show ¬ n = 0 by omega), ne_eq, not_true_eq_false, if_false]
  refine ⟨_, _, rfl, rfl, ?_⟩
  intro i x hx
  obtain ⟨hd, hl, -⟩ := h1 x (List.mem_of_getElem? hx)
  have hy : dctResample x n = .ok ((List.range n).map fun j : ℕ => (∑ k ∈ range n, (f x).getD k 0 * dctBasis n j k) * sqrt (2 / n)) := by
    unfold dctResample
    rw [hd]
    simp only []
    unfold torchIdct
    rw [if_neg (by intro h; have := congrArg List.length h; simp at this; omega)]
    simp only [List.length_map, List.length_range]
    congr 1
    apply List.map_congr_left
    intro j _
    congr 1
    apply sum_congr rfl
    intro k hk
    rw [getD_map_range _ _ _ _ (mem_range.1 hk)]
  have hrow : ∀ z : ℕ → Bool, ((List.map (fun x => (List.range n).map fun j : ℕ => (∑ k ∈ range n, x.getD k 0 * dctBasis n j k) * sqrt (2 / n))
      ((rows.map f).map fun x => (List.range n).map fun k => if z k = true then 0 else x.getD k 0)).getD i []) =
      (List.range n).map fun j : ℕ => (∑ k ∈ range n, (if z k = true then 0 else (f x).getD k 0) * dctBasis n j k) * sqrt (2 / n) := by
    intro z
    rw [List.getD_eq_getElem?_getD, List.getElem?_map, List.getElem?_map, List.getElem?_map, hx]
    simp only [Option.map_some, Option.getD_some]
    apply List.map_congr_left
    intro j _
    congr 1
    apply sum_congr rfl
    intro k hk
    rw [getD_map_range _ _ _ _ (mem_range.1 hk)]
  refine ⟨_, hy, by simp, by rw [hrow]; simp, by rw [hrow]; simp, ?_, ?_⟩
  · intro t ht
    rw [hrow, hrow, getD_map_range _ _ _ _ ht, getD_map_range _ _ _ _ ht, getD_map_range _ _ _ _ ht, ← add_mul, ← sum_add_distrib]
    congr 1
    apply sum_congr rfl
    intro k _
    cases hz : zero k <;> simp
  · intro hz
    rw [hrow]
    apply List.map_congr_left
    intro j _
    congr 1
    apply sum_congr rfl
    intro k hk
    rw [hz k (mem_range.1 hk)]
    simp

/-- Two rows of three numbers, three rows asked for. -/
example : ∃ out, dctResampleFirst 3 3 (fun _ => false) [[1, 2, 3], [4, 5, 6]] = .ok out ∧
    out[0]? = some [2, 2, 3] ∧ out[1]? = some [8, 5, 6] ∧ out[2]? = some [0, 0, 0] ∧
    dctAlong 2 3 [[1, 2, 3], [4, 5, 6]] = .error .runtimeError := by
  have hw : Wide 3 [[1, 2, 3], [4, 5, 6]] := by
    intro x hx
    simp only [List.mem_cons, List.not_mem_nil, or_false] at hx
    rcases hx with rfl | rfl <;> rfl
  obtain ⟨out, h1, -, h3, h4⟩ := C312_first_axis_refuted 3 3 (by norm_num) (fun _ => false) [[1, 2, 3], [4, 5, 6]] hw
  refine ⟨out, h1, ?_, ?_, h4 2 (by norm_num) (Or.inr (by simp)), ((C312_axis 2 3 (by norm_num) (by norm_num) _ hw).2.1 (by norm_num)).1⟩
  · rw [h3 0 [1, 2, 3] (by norm_num) rfl rfl]
    norm_num [List.range_succ]
  · rw [h3 1 [4, 5, 6] (by norm_num) rfl rfl]
    norm_num [List.range_succ]

example := C312_parts 3 3 (by norm_num) (by norm_num) (fun k => k = 1) [[1, 2, 3], [4, 5, 6]] (by
  intro x hx
  simp only [List.mem_cons, List.not_mem_nil, or_false] at hx
  rcases hx with rfl | rfl <;> rfl)

end Zounds.Spectral
