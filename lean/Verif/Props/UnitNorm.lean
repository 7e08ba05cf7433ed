import Verif.Model.UnitNorm
import Mathlib.Data.List.GetD
import Mathlib.Tactic.Linarith
import Mathlib.Tactic.FieldSimp
import Mathlib.Tactic.Ring
import Mathlib.Tactic.NormNum

/-!
# C311: vectors of unit length
-/

namespace Zounds.Props.UnitNorm
open Zounds Zounds.UnitNorm

/-- Specification: the sum of the squares of a vector. -/
def squares (v : List ℝ) : ℝ := (v.map fun x => x * x).sum

theorem len_eq (v : List ℝ) : len v = Real.sqrt (squares v) := by
  unfold len squares
  congr 2
  apply List.map_congr_left
  intro x _
  rw [sq_abs, sq]

theorem squares_nonneg (v : List ℝ) : 0 ≤ squares v := by
  apply List.sum_nonneg
  intro x hx
  obtain ⟨y, -, rfl⟩ := List.mem_map.1 hx
  exact mul_self_nonneg y

theorem squares_zero (v : List ℝ) : squares v = 0 ↔ ∀ x ∈ v, x = 0 := by
  induction v with
  | nil => simp [squares]
  | cons y v ih =>
    have e : squares (y :: v) = y * y + squares v := by simp [squares]
    have h1 := squares_nonneg v
    have h2 := mul_self_nonneg y
    rw [e]
    constructor
    · intro h
      have hy : y * y = 0 := by linarith
      have hv : squares v = 0 := by linarith
      intro x hx
      rcases List.mem_cons.1 hx with rfl | hx
      · exact mul_self_eq_zero.1 hy
      · exact ih.1 hv x hx
    · intro h
      rw [h y (by simp), ih.2 (fun x hx => h x (by simp [hx]))]
      ring

theorem len_zero (v : List ℝ) : len v = 0 ↔ ∀ x ∈ v, x = 0 := by
  rw [len_eq, Real.sqrt_eq_zero (squares_nonneg v), squares_zero]

theorem squares_scale (k : ℝ) (v : List ℝ) : squares (v.map fun x => k * x) = k * k * squares v := by
  induction v with
  | nil => simp [squares]
  | cons y v ih =>
    have e : ∀ (z : ℝ) (w : List ℝ), squares (z :: w) = z * z + squares w := by intro z w; simp [squares]
    rw [List.map_cons, e, e, ih]
    ring

/-- The vector that is not all zero: divided by its length. -/
theorem vector_nonzero (v : List ℝ) (h : ∃ x ∈ v, x ≠ 0) : 0 < len v ∧ vector v = v.map (fun x => x / len v) ∧ divisor v = len v := by
  have hn : len v ≠ 0 := by
    rw [Ne, len_zero]
    push Not
    exact h
  have hp : 0 < len v := lt_of_le_of_ne (by rw [len_eq]; exact Real.sqrt_nonneg _) hn.symm
  refine ⟨hp, if_pos hn, if_neg hn⟩

/-- **C311**: a vector that is not all zero is scaled, by a positive factor, to length 1; a vector of zeros stays what it is; the result does not depend on how loud the
vector was. -/
theorem C311_vector (v : List ℝ) :
    ((∃ x ∈ v, x ≠ 0) → squares (vector v) = 1 ∧ ∃ k : ℝ, 0 < k ∧ vector v = v.map fun x => k * x) ∧
    ((∀ x ∈ v, x = 0) → vector v = v) ∧
    (∀ k : ℝ, 0 < k → (∃ x ∈ v, x ≠ 0) → vector (v.map fun x => k * x) = vector v) := by
  refine ⟨fun h => ?_, fun h => ?_, fun k hk h => ?_⟩
  · obtain ⟨hp, hv, -⟩ := vector_nonzero v h
    have e : vector v = v.map fun x => (len v)⁻¹ * x := by
      rw [hv]
      apply List.map_congr_left
      intro x _
      rw [div_eq_inv_mul]
    refine ⟨?_, (len v)⁻¹, inv_pos.2 hp, e⟩
    rw [e, squares_scale]
    have : squares v = len v * len v := by rw [len_eq, Real.mul_self_sqrt (squares_nonneg v)]
    rw [this]
    field_simp
  · unfold vector
    rw [if_neg]
    rw [not_not]
    exact (len_zero v).2 h
  · have hk' : ∃ x ∈ (v.map fun x => k * x), x ≠ 0 := by
      obtain ⟨x, hx, hx0⟩ := h
      exact ⟨k * x, List.mem_map.2 ⟨x, hx, rfl⟩, mul_ne_zero hk.ne' hx0⟩
    obtain ⟨hp, hv, -⟩ := vector_nonzero v h
    obtain ⟨-, hv', -⟩ := vector_nonzero _ hk'
    have hn : len (v.map fun x => k * x) = k * len v := by
      rw [len_eq, len_eq, squares_scale, Real.sqrt_mul (mul_self_nonneg k), Real.sqrt_mul_self hk.le]
    rw [hv, hv', hn, List.map_map]
    apply List.map_congr_left
    intro x _
    simp only [Function.comp]
    field_simp

/-- **C311**: an array with two axes is normalised row by row, every row like a vector on its own. -/
theorem C311_rows (m : List (List ℝ)) : rows m = m.map vector := by
  unfold rows
  apply List.map_congr_left
  intro v _
  by_cases h : ∃ x ∈ v, x ≠ 0
  · obtain ⟨-, h1, h2⟩ := vector_nonzero v h
    rw [h1, h2]
  · push Not at h
    rw [(C311_vector v).2.1 h]
    conv_rhs => rw [← List.map_id v]
    apply List.map_congr_left
    intro x hx
    rw [h x hx]
    simp

/-- An array of shape (a, b, c). -/
def Shaped (b c : Nat) (m : List (List (List ℝ))) : Prop := ∀ p ∈ m, p.length = b ∧ ∀ v ∈ p, v.length = c

/-- **C311, refuted**: the vectors along the last axis of an array with three axes get unit length.  The array is refused unless the last two axes have the same size or one
of them has size 1; with as many vectors as entries, entry `k` of every vector is divided by the length of vector `k`, not its own; only with one vector per plane is
every vector normalised. -/
theorem C311_cube_refuted (b c : Nat) (m : List (List (List ℝ))) (hm : Shaped b c m) :
    ((b ≠ c ∧ b ≠ 1 ∧ c ≠ 1) → cube b c m = .error .valueError) ∧
    (b = c → ∃ r, cube b c m = .ok r ∧ Shaped b c r ∧ ∀ (i j k : Nat) (p : List (List ℝ)) (v w : List ℝ), m[i]? = some p → p[j]? = some v → p[k]? = some w → (∃ x ∈ w, x ≠ 0) →
      (r.getD i []).getD j [] = v.zipIdx.map (fun e => e.1 / divisor (p.getD e.2 [])) ∧
      ((r.getD i []).getD j []).getD k 0 = v.getD k 0 / Real.sqrt (squares w)) ∧
    (b = 1 → cube b c m = .ok (m.map fun p => p.map vector)) := by
  refine ⟨fun h => ?_, fun h => ?_, fun h => ?_⟩
  · unfold cube
    rw [if_neg]
    rintro (h1 | h1 | h1)
    · exact h.1 h1
    · exact h.2.1 h1
    · exact h.2.2 h1
  · subst h
    have hif : (if b = 1 then b else b) = b := by split <;> rfl
    refine ⟨_, if_pos (Or.inl rfl), ?_, ?_⟩
    · intro p hp
      obtain ⟨q, -, rfl⟩ := List.mem_map.1 hp
      refine ⟨by simp, ?_⟩
      intro v hv
      obtain ⟨j, -, rfl⟩ := List.mem_map.1 hv
      simp
    · intro i j k p v w hi hj hk hw
      obtain ⟨hpl, hvl⟩ := hm p (List.mem_of_getElem? hi)
      have hv := hvl v (List.mem_of_getElem? hj)
      have hjb : j < b := by rw [← hpl]; exact (List.getElem?_eq_some_iff.1 hj).1
      have hkb : k < b := by rw [← hpl]; exact (List.getElem?_eq_some_iff.1 hk).1
      have hat : ∀ x, x < b → at1 b x = x := by
        intro x hx
        unfold at1
        split
        · omega
        · rfl
      have e1 : ((m.map fun plane => (List.range b).map fun j => (List.range (if b = 1 then b else b)).map fun k =>
          ((plane.getD j []).getD (at1 b k) 0) / divisor (plane.getD (at1 b k) [])).getD i []).getD j [] =
          v.zipIdx.map (fun e => e.1 / divisor (p.getD e.2 [])) := by
        rw [List.getD_eq_getElem?_getD, List.getD_eq_getElem?_getD]
        rw [List.getElem?_map, hi, Option.map_some, Option.getD_some, List.getElem?_map, List.getElem?_range hjb, Option.map_some, Option.getD_some, hif]
        have hpj : p.getD j [] = v := by rw [List.getD_eq_getElem?_getD, hj]; rfl
        rw [hpj]
        apply List.ext_getElem?
        intro x
        by_cases hx : x < b
        · rw [List.getElem?_map, List.getElem?_range hx, List.getElem?_map, List.getElem?_zipIdx, List.getElem?_eq_getElem (by omega)]
          simp only [Option.map_some, Nat.zero_add, hat x hx]
          rw [List.getD_eq_getElem?_getD, List.getElem?_eq_getElem (by omega)]
          rfl
        · rw [List.getElem?_eq_none (by simp; omega), List.getElem?_eq_none (by simp; omega)]
      refine ⟨e1, ?_⟩
      rw [e1, List.getD_eq_getElem?_getD, List.getElem?_map, List.getElem?_zipIdx, List.getElem?_eq_getElem (by omega)]
      simp only [Option.map_some, Nat.zero_add, Option.getD_some]
      rw [List.getD_eq_getElem?_getD (l := p), hk, Option.getD_some, (vector_nonzero w hw).2.2, len_eq]
      rw [List.getD_eq_getElem?_getD, List.getElem?_eq_getElem (by omega), Option.getD_some]
  · subst h
    refine (if_pos (Or.inr (Or.inl rfl))).trans ?_
    congr 1
    apply List.map_congr_left
    intro p hp
    obtain ⟨hpl, hvl⟩ := hm p hp
    obtain ⟨v, rfl⟩ := List.length_eq_one_iff.1 hpl
    have hv := hvl v (by simp)
    have hr : rows [v] = [vector v] := C311_rows [v]
    simp only [rows, List.map_cons, List.map_nil, List.cons.injEq, and_true] at hr
    have hif : (if c = 1 then 1 else c) = c := by split <;> omega
    rw [hif]
    have h0 : List.range 1 = [0] := rfl
    rw [h0, List.map_cons, List.map_nil, List.map_cons, List.map_nil, ← hr]
    congr 1
    apply List.ext_getElem?
    intro x
    by_cases hx : x < c
    · have hatc : at1 c x = x := by
        unfold at1
        split
        · omega
        · rfl
      rw [List.getElem?_map, List.getElem?_range hx, List.getElem?_map, List.getElem?_eq_getElem (by omega)]
      simp only [Option.map_some, hatc]
      have : at1 1 x = 0 := by simp [at1]
      rw [this]
      simp only [List.getD_cons_zero]
      rw [List.getD_eq_getElem?_getD, List.getElem?_eq_getElem (by omega)]
      rfl
    · rw [List.getElem?_eq_none (by simp; omega), List.getElem?_eq_none (by simp; omega)]

/-- A vector 3, 4 gets length 1; as second row of a plane of two vectors its entries are divided by 1 and by 5. -/
example : squares (vector [3, 4]) = 1 ∧ vector [0, 0] = [0, 0] ∧
    ∃ r, cube 2 2 [[[1, 0], [3, 4]]] = .ok r ∧ ((r.getD 0 []).getD 1 []).getD 0 0 = 3 ∧ ((r.getD 0 []).getD 1 []).getD 1 0 = 4 / 5 := by
  have hs : Shaped 2 2 [[[1, 0], [3, 4]]] := by
    intro p hp
    simp only [List.mem_singleton] at hp
    subst hp
    simp
  obtain ⟨r, h1, -, h3⟩ := (C311_cube_refuted 2 2 [[[1, 0], [3, 4]]] hs).2.1 rfl
  have a := (h3 0 1 0 [[1, 0], [3, 4]] [3, 4] [1, 0] rfl rfl rfl ⟨1, by simp, by norm_num⟩).2
  have b := (h3 0 1 1 [[1, 0], [3, 4]] [3, 4] [3, 4] rfl rfl rfl ⟨3, by simp, by norm_num⟩).2
  refine ⟨((C311_vector [3, 4]).1 ⟨3, by simp, by norm_num⟩).1, (C311_vector [0, 0]).2.1 (by simp), r, h1, ?_, ?_⟩
  · rw [a]
    have : squares [1, 0] = 1 := by norm_num [squares]
    rw [this]; norm_num
  · rw [b]
    have : squares [3, 4] = 5 * 5 := by norm_num [squares]
    rw [this, Real.sqrt_mul_self (by norm_num)]
    norm_num

end Zounds.Props.UnitNorm
