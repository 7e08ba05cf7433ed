import Verif.Model.Time
import Mathlib.Tactic.Ring
import Mathlib.Tactic.Linarith
/-! Helper lemmas about times. -/

namespace Zounds.Time
open Zounds

theorem finer_dvd_left (a b : TUnit) : (a.finer b).ps1 ∣ a.ps1 := by
  cases a <;> cases b <;> decide
theorem finer_dvd_right (a b : TUnit) : (a.finer b).ps1 ∣ b.ps1 := by
  cases a <;> cases b <;> decide
theorem ps1_pos (a : TUnit) : 0 < (a.ps1 : Int) := by
  cases a <;> decide

theorem cast_toPs (d : Dur) (u : TUnit) (h : u.ps1 ∣ d.unit.ps1) :
    (d.cast u).count * (u.ps1 : Int) = d.toPs := by
  unfold Dur.cast Dur.toPs
  rw [Int.mul_assoc, ← Int.natCast_mul, Nat.div_mul_cancel h]

theorem add_toPs (a b : Dur) : (a.add b).toPs = a.toPs + b.toPs := by
  have h1 := cast_toPs a _ (finer_dvd_left a.unit b.unit)
  have h2 := cast_toPs b _ (finer_dvd_right a.unit b.unit)
  unfold Dur.add
  simp only [Dur.toPs] at *
  rw [Int.add_mul, h1, h2]

theorem sub_toPs (a b : Dur) : (a.sub b).toPs = a.toPs - b.toPs := by
  have h1 := cast_toPs a _ (finer_dvd_left a.unit b.unit)
  have h2 := cast_toPs b _ (finer_dvd_right a.unit b.unit)
  unfold Dur.sub
  simp only [Dur.toPs] at *
  rw [Int.sub_mul, h1, h2]

theorem lt_iff (a b : Dur) : a.lt b = decide (a.toPs < b.toPs) := by
  have h1 := cast_toPs a _ (finer_dvd_left a.unit b.unit)
  have h2 := cast_toPs b _ (finer_dvd_right a.unit b.unit)
  have hp := ps1_pos (a.unit.finer b.unit)
  unfold Dur.lt
  rw [← h1, ← h2]
  simp only [decide_eq_decide]
  exact (Int.mul_lt_mul_right hp).symm

theorem eq_iff (a b : Dur) : a.eq b = decide (a.toPs = b.toPs) := by
  have h1 := cast_toPs a _ (finer_dvd_left a.unit b.unit)
  have h2 := cast_toPs b _ (finer_dvd_right a.unit b.unit)
  have hp := ps1_pos (a.unit.finer b.unit)
  unfold Dur.eq
  rw [← h1, ← h2]
  simp only [decide_eq_decide]
  exact ⟨fun h => by rw [h], fun h => Int.eq_of_mul_eq_mul_right (by omega) h⟩

theorem max_toPs (a b : Dur) : (a.max b).toPs = max a.toPs b.toPs := by
  unfold Dur.max; rw [lt_iff]
  by_cases h : a.toPs < b.toPs <;> simp [h] <;> omega

theorem min_toPs (a b : Dur) : (a.min b).toPs = min a.toPs b.toPs := by
  unfold Dur.min; rw [lt_iff]
  by_cases h : b.toPs < a.toPs <;> simp [h] <;> omega

theorem mk'_start (d : Option Dur) (s : Dur) : (TimeSlice.mk' d (some s)).start.toPs = s.toPs := by
  unfold TimeSlice.mk'
  simp only
  split
  · rename_i h; simp [Dur.toPs, h]
  · rfl

/-- Floor division by a positive number. -/
theorem le_div_iff (a b f : Int) (hf : 0 < f) : a ≤ b / f ↔ a * f ≤ b := Int.le_ediv_iff_mul_le hf
theorem div_le_iff (a b f : Int) (hf : 0 < f) : b / f ≤ a ↔ b < (a + 1) * f := by
  rw [← Int.ediv_lt_iff_lt_mul hf]; omega

theorem lt_ceilDiv (i n d : Int) (hd : 0 < d) : i < ceilDiv n d ↔ i * d < n := by
  unfold ceilDiv
  have : i < -(-n / d) ↔ -n / d < -i := by omega
  rw [this, Int.ediv_lt_iff_lt_mul hd]
  constructor <;> intro h <;> nlinarith

/-- `m < roundHalfEven n d` for even `m`: strictly more than half a unit above. -/
theorem lt_round_even (m n d : Int) (hd : 0 < d) (hm : m % 2 = 0) :
    m < roundHalfEven n d ↔ (2 * m + 1) * d < 2 * n := by
  unfold roundHalfEven
  have h1 := Int.ediv_mul_le n (show d ≠ 0 by omega)
  have h2 := Int.lt_ediv_add_one_mul_self n hd
  generalize n / d = q at *
  have hq : m < q → (m + 1) * d ≤ q * d := fun h => by nlinarith
  have hq' : q < m → (q + 1) * d ≤ m * d := fun h => by nlinarith
  simp only
  split
  · constructor
    · intro h; have := hq h; linarith
    · intro h
      by_contra hc
      have : q ≤ m := by omega
      rcases Int.lt_or_eq_of_le this with h3 | h3
      · have := hq' h3; nlinarith
      · subst h3; nlinarith
  · split
    · constructor
      · intro h
        have : m ≤ q := by omega
        rcases Int.lt_or_eq_of_le this with h3 | h3
        · have := hq h3; linarith
        · subst h3; nlinarith
      · intro h
        by_contra hc
        have : q + 1 ≤ m := by omega
        have := hq' (by omega); nlinarith
    · split
      · constructor
        · intro h; have := hq h; linarith
        · intro h
          by_contra hc
          have : q ≤ m := by omega
          rcases Int.lt_or_eq_of_le this with h3 | h3
          · have := hq' h3; nlinarith
          · subst h3; nlinarith
      · constructor
        · intro h
          have : m < q := by omega
          have := hq this; linarith
        · intro h
          by_contra hc
          have := hq' (by omega); nlinarith

theorem round_mul (k d : Int) (hd : 0 < d) : roundHalfEven (k * d) d = k := by
  unfold roundHalfEven
  rw [Int.mul_ediv_cancel _ (by omega)]
  simp [hd]

/-- The start index: the first sample whose extent reaches past `s`. -/
theorem start_le_iff (s d f i : Int) (hf : 0 < f) (hi : 0 ≤ i) :
    max 0 ((s - (d - f)) / f) ≤ i ↔ s < i * f + d := by
  have : max 0 ((s - (d - f)) / f) ≤ i ↔ (s - (d - f)) / f ≤ i := by omega
  rw [this, div_le_iff _ _ _ hf]
  constructor <;> intro h <;> nlinarith

theorem stop_iff (e f i : Int) (hf : 0 < f) :
    i < ceilDiv (roundHalfEven (100 * e) f) 100 ↔ f < 200 * (e - i * f) := by
  rw [lt_ceilDiv _ _ _ (by omega), lt_round_even _ _ _ hf (by omega)]
  constructor <;> intro h <;> nlinarith


theorem filter_idx {α : Type u} (i j : Nat) (arr : List α) : ∀ n,
    ((arr.zipIdx n).filter (fun p => decide (i ≤ p.2 ∧ p.2 < j))).map Prod.fst =
      (arr.take (j - n)).drop (i - n) := by
  induction arr with
  | nil => intro n; simp
  | cons x xs ih =>
    intro n
    rw [List.zipIdx_cons, List.filter_cons]
    by_cases hj : n < j
    · have e1 : j - n = (j - (n + 1)) + 1 := by omega
      by_cases hi : i ≤ n
      · have e2 : i - n = 0 := by omega
        have e3 : i - (n + 1) = 0 := by omega
        have := ih (n + 1)
        simp only [hi, hj, and_self, decide_true, if_true, List.map_cons, this]
        rw [e1, e2, e3, List.take_succ_cons]; rfl
      · have e2 : i - n = (i - (n + 1)) + 1 := by omega
        have := ih (n + 1)
        simp only [hi, hj, false_and, decide_false, Bool.false_eq_true, if_false, this]
        rw [e1, e2, List.take_succ_cons, List.drop_succ_cons]
    · have e1 : j - n = 0 := by omega
      have e3 : j - (n + 1) = 0 := by omega
      have := ih (n + 1)
      simp only [hj, and_false, decide_false, Bool.false_eq_true, if_false, this]
      rw [e1, e3]; simp

theorem filter_zipIdx_congr {α : Type u} (p q : α × Nat → Bool) (arr : List α)
    (h : ∀ x k, k < arr.length → p (x, k) = q (x, k)) :
    arr.zipIdx.filter p = arr.zipIdx.filter q := by
  apply List.filter_congr
  intro ⟨x, k⟩ hx
  rw [List.mem_zipIdx_iff_getElem?] at hx
  apply h
  exact (List.getElem?_eq_some_iff.1 hx).1

theorem pySlice_toNat {α : Type u} (l : List α) (i j : Int) (hi : 0 ≤ i) (hj : 0 ≤ j) :
    pySlice l i j = (l.take j.toNat).drop i.toNat := by
  unfold pySlice pyBound
  have h1 : ¬ i < 0 := by omega
  have h2 : ¬ j < 0 := by omega
  simp only [h1, h2, if_false]
  rcases Nat.le_total j.toNat l.length with h | h
  · rw [Nat.min_eq_left h]
    rcases Nat.le_total i.toNat l.length with h' | h'
    · rw [Nat.min_eq_left h']
    · rw [Nat.min_eq_right h', List.drop_eq_nil_of_le (by simp <;> omega),
        List.drop_eq_nil_of_le (by simp; omega)]
  · rw [Nat.min_eq_right h, List.take_of_length_le (Nat.le_refl _), List.take_of_length_le h]
    rcases Nat.le_total i.toNat l.length with h' | h'
    · rw [Nat.min_eq_left h']
    · rw [Nat.min_eq_right h', List.drop_eq_nil_of_le (by simp),
        List.drop_eq_nil_of_le (by omega)]

/-- Python slicing with non-negative bounds keeps exactly the indices in range. -/
theorem pySlice_eq_filter {α : Type u} (arr : List α) (i j : Int) (hi : 0 ≤ i) (hj : 0 ≤ j)
    (p : Nat → Prop) [DecidablePred p]
    (h : ∀ k : Nat, k < arr.length → (p k ↔ i ≤ k ∧ (k : Int) < j)) :
    pySlice arr i j = (arr.zipIdx.filter (fun x => decide (p x.2))).map Prod.fst := by
  rw [pySlice_toNat arr i j hi hj]
  have := filter_idx i.toNat j.toNat arr 0
  simp only [Nat.sub_zero] at this
  rw [← this]
  congr 1
  apply filter_zipIdx_congr
  intro x k hk
  simp only [decide_eq_decide]
  rw [h k hk]
  omega

end Zounds.Time
