import Verif.Model.Loss
import Verif.Props.Conv
import Mathlib.Tactic.Linarith
import Mathlib.Tactic.Positivity
import Mathlib.Analysis.SpecialFunctions.Log.Basic
import Mathlib.Topology.MetricSpace.Lipschitz

/-!
# C134–C146: losses and normalizations
-/

namespace Zounds.Loss

open Zounds.Conv

/-! ## C134: the mu-law curve -/

theorem log_ratio_nonneg {n : Nat} (hn : 0 < n) (t : ℝ) (ht : 0 ≤ t) : 0 ≤ Real.log (1 + n * t) / Real.log (n + 1) := by
  have hn' : (1 : ℝ) ≤ n := by exact_mod_cast hn
  exact div_nonneg (Real.log_nonneg (by nlinarith)) (Real.log_nonneg (by linarith))

theorem log_base_pos {n : Nat} (hn : 0 < n) : 0 < Real.log ((n : ℝ) + 1) := by
  have hn' : (1 : ℝ) ≤ n := by exact_mod_cast hn
  exact Real.log_pos (by linarith)

theorem muLaw_neg (n : Nat) (x : ℝ) : muLaw n (-x) = -muLaw n x := by
  unfold muLaw
  rw [Real.sign_neg, abs_neg]
  ring

theorem muLaw_nonneg {n : Nat} {x : ℝ} (hx : 0 ≤ x) : muLaw n x = Real.log (1 + n * x) / Real.log (n + 1) := by
  unfold muLaw
  rcases hx.eq_or_lt with h | h
  · subst h; simp
  · rw [Real.sign_of_pos h, abs_of_pos h, one_mul]

theorem muLaw_strict_nonneg {n : Nat} (hn : 0 < n) {x y : ℝ} (hx : 0 ≤ x) (hxy : x < y) : muLaw n x < muLaw n y := by
  have hn' : (1 : ℝ) ≤ n := by exact_mod_cast hn
  rw [muLaw_nonneg hx, muLaw_nonneg (by linarith)]
  exact div_lt_div_of_pos_right (Real.log_lt_log (by nlinarith) (by nlinarith)) (log_base_pos hn)

theorem muLaw_zero (n : Nat) : muLaw n 0 = 0 := by simp [muLaw]

theorem muLaw_one {n : Nat} (hn : 0 < n) : muLaw n 1 = 1 := by
  rw [muLaw_nonneg (by norm_num), mul_one, add_comm]
  exact div_self (log_base_pos hn).ne'

/-- **C134**: for every number of categories the curve is odd, strictly increasing, and fixes -1, 0 and 1; so it maps [-1, 1] into itself. -/
theorem C134_mu_law (n : Nat) (hn : 0 < n) :
    (∀ x, muLaw n (-x) = -muLaw n x) ∧ StrictMono (muLaw n) ∧ muLaw n 0 = 0 ∧ muLaw n 1 = 1 ∧ muLaw n (-1) = -1 ∧
    (∀ x, |x| ≤ 1 ↔ |muLaw n x| ≤ 1) := by
  have hmono : StrictMono (muLaw n) := by
    intro x y hxy
    rcases le_or_gt 0 x with hx | hx
    · exact muLaw_strict_nonneg hn hx hxy
    · rcases le_or_gt y 0 with hy | hy
      · have h := muLaw_strict_nonneg hn (x := -y) (y := -x) (by linarith) (by linarith)
        rw [muLaw_neg, muLaw_neg] at h
        linarith
      · have h1 := muLaw_strict_nonneg hn (le_refl 0) hy
        have h2 := muLaw_strict_nonneg hn (le_refl 0) (y := -x) (by linarith)
        rw [muLaw_neg] at h2
        rw [muLaw_zero] at h1 h2
        linarith
  refine ⟨muLaw_neg n, hmono, muLaw_zero n, muLaw_one hn, by rw [muLaw_neg, muLaw_one hn], fun x => ?_⟩
  have h1 : x ≤ 1 ↔ muLaw n x ≤ 1 := by
    rw [← hmono.le_iff_le (a := x) (b := 1), muLaw_one hn]
  have h2 : -1 ≤ x ↔ -1 ≤ muLaw n x := by
    rw [← hmono.le_iff_le (a := -1) (b := x), muLaw_neg, muLaw_one hn]
  rw [abs_le, abs_le, h1, h2]

example := C134_mu_law 255 (by decide)

/-- **C134, onto**: every level of [-1, 1] is the compressed value of a sample of [-1, 1]. -/
theorem C134_onto (n : Nat) (hn : 0 < n) (y : ℝ) (hy : |y| ≤ 1) : ∃ x, |x| ≤ 1 ∧ muLaw n x = y := by
  have hn' : (0 : ℝ) < n := by exact_mod_cast hn
  have key : ∀ y : ℝ, 0 ≤ y → ∃ x, muLaw n x = y := by
    intro y hy0
    refine ⟨(Real.exp (y * Real.log (n + 1)) - 1) / n, ?_⟩
    have h1 : 1 ≤ Real.exp (y * Real.log (n + 1)) := Real.one_le_exp (mul_nonneg hy0 (log_base_pos hn).le)
    rw [muLaw_nonneg (div_nonneg (by linarith) hn'.le), mul_div_cancel₀ _ hn'.ne', add_sub_cancel, Real.log_exp,
      mul_div_cancel_right₀ _ (log_base_pos hn).ne']
  have key2 : ∃ x, muLaw n x = y := by
    rcases le_total 0 y with h | h
    · exact key y h
    · obtain ⟨x, hx⟩ := key (-y) (by linarith)
      exact ⟨-x, by rw [muLaw_neg, hx, neg_neg]⟩
  obtain ⟨x, hx⟩ := key2
  exact ⟨x, ((C134_mu_law n hn).2.2.2.2.2 x).2 (by rw [hx]; exact hy), hx⟩

example := C134_onto 255 (by decide) (-1 / 2) (by rw [abs_le]; constructor <;> norm_num)

/-! ## C135: discretization -/

theorem le_maxAbs {xs : List ℝ} {x : ℝ} (hx : x ∈ xs) : |x| ≤ maxAbs xs := by
  unfold maxAbs
  induction xs with
  | nil => simp at hx
  | cons a t ih =>
    simp only [List.map_cons, List.foldr_cons]
    rcases List.mem_cons.mp hx with rfl | h
    · exact le_max_left _ _
    · exact (ih h).trans (le_max_right _ _)

theorem maxAbs_nonneg (xs : List ℝ) : 0 ≤ maxAbs xs := by
  unfold maxAbs
  induction xs with
  | nil => simp
  | cons a t ih => exact le_max_of_le_right ih

theorem maxAbs_mem {xs : List ℝ} (h : maxAbs xs ≠ 0) : ∃ x ∈ xs, |x| = maxAbs xs := by
  unfold maxAbs at *
  induction xs with
  | nil => simp at h
  | cons a t ih =>
    simp only [List.map_cons, List.foldr_cons] at h ⊢
    rcases le_total (|a|) ((t.map fun x => |x|).foldr max 0) with hle | hle
    · rw [max_eq_right hle] at h ⊢
      obtain ⟨x, hx, hxe⟩ := ih h
      exact ⟨x, List.mem_cons_of_mem _ hx, hxe⟩
    · rw [max_eq_left hle]
      exact ⟨a, by simp, rfl⟩

theorem maxAbs_eq_zero {xs : List ℝ} : maxAbs xs = 0 ↔ ∀ x ∈ xs, x = 0 := by
  constructor
  · intro h x hx
    have := le_maxAbs hx
    rw [h] at this
    exact abs_eq_zero.mp (le_antisymm this (abs_nonneg x))
  · intro h
    by_contra hne
    obtain ⟨x, hx, hxe⟩ := maxAbs_mem hne
    rw [h x hx] at hxe
    simp at hxe
    exact hne hxe.symm

theorem maxAbs_map (xs : List ℝ) (c : ℝ) : maxAbs (xs.map fun x => c * x) = |c| * maxAbs xs := by
  unfold maxAbs
  induction xs with
  | nil => simp
  | cons a t ih =>
    simp only [List.map_cons, List.foldr_cons, ih]
    rw [abs_mul, mul_max_of_nonneg _ _ (abs_nonneg c)]

/-- **C135, success**: every batch that is not empty and not all zeros is discretized, one number per sample. -/
theorem C135_discretized (n : Nat) (hn : 0 < n) (xs : List ℝ) (hx : ∃ x ∈ xs, x ≠ 0) :
    ∃ ds, discretized n xs = .ok (some ds) ∧ ds.length = xs.length ∧
      (∀ d ∈ ds, 0 ≤ d ∧ d ≤ n) ∧
      (∀ i j : Nat, i < xs.length → j < xs.length → (ds.getD i 0 < ds.getD j 0 ↔ xs.getD i 0 < xs.getD j 0)) ∧
      (∀ i : Nat, i < xs.length → xs.getD i 0 = 0 → ds.getD i 0 = n / 2) ∧
      (∀ i : Nat, i < xs.length → (∀ x ∈ xs, |x| ≤ xs.getD i 0) → ds.getD i 0 = n) ∧
      (∀ i : Nat, i < xs.length → (∀ x ∈ xs, |x| ≤ -xs.getD i 0) → ds.getD i 0 = 0) ∧
      (∀ c : ℝ, 0 < c → discretized n (xs.map fun x => c * x) = .ok (some ds)) ∧
      discretized n (xs.map fun x => -x) = .ok (some (ds.map fun d => n - d)) := by
  obtain ⟨x0, hx0, hx0'⟩ := hx
  have hne : xs ≠ [] := by rintro rfl; simp at hx0
  have hm : maxAbs xs ≠ 0 := fun h => hx0' (maxAbs_eq_zero.mp h x0 hx0)
  have hmp : 0 < maxAbs xs := lt_of_le_of_ne (maxAbs_nonneg xs) hm.symm
  obtain ⟨hodd, hmono, hz, h1, hm1, hb⟩ := C134_mu_law n hn
  have hn' : (0 : ℝ) < n := by exact_mod_cast hn
  have hget : ∀ i : Nat, i < xs.length → (xs.map fun x => shiftAndScale n (muLaw n (x / maxAbs xs))).getD i 0 =
      shiftAndScale n (muLaw n (xs.getD i 0 / maxAbs xs)) := by
    intro i hi
    simp [List.getD_eq_getElem?_getD, List.getElem?_map, List.getElem?_eq_getElem hi]
  have hss : StrictMono (shiftAndScale n) := by
    intro a b hab
    unfold shiftAndScale
    nlinarith
  refine ⟨_, by unfold discretized; rw [if_neg hne, if_neg hm], by simp, ?_, ?_, ?_, ?_, ?_, ?_, ?_⟩
  · intro d hd
    obtain ⟨x, hx, rfl⟩ := List.mem_map.mp hd
    have h := (hb (x / maxAbs xs)).mp (by rw [abs_div, abs_of_pos hmp, div_le_one hmp]; exact le_maxAbs hx)
    rw [abs_le] at h
    unfold shiftAndScale
    constructor <;> nlinarith
  · intro i j hi hj
    rw [hget i hi, hget j hj, hss.lt_iff_lt, hmono.lt_iff_lt, div_lt_div_iff_of_pos_right hmp]
  · intro i hi h0
    rw [hget i hi, h0, zero_div, hz]
    unfold shiftAndScale
    ring
  · intro i hi hall
    obtain ⟨y, hy, hye⟩ := maxAbs_mem hm
    have hmem : xs.getD i 0 ∈ xs := by
      rw [List.getD_eq_getElem?_getD, List.getElem?_eq_getElem hi]
      exact List.getElem_mem hi
    have heq : xs.getD i 0 = maxAbs xs := le_antisymm ((le_abs_self _).trans (le_maxAbs hmem)) (hye ▸ hall y hy)
    rw [hget i hi, heq, div_self hm, h1]
    unfold shiftAndScale
    ring
  · intro i hi hall
    obtain ⟨y, hy, hye⟩ := maxAbs_mem hm
    have hmem : xs.getD i 0 ∈ xs := by
      rw [List.getD_eq_getElem?_getD, List.getElem?_eq_getElem hi]
      exact List.getElem_mem hi
    have heq : -xs.getD i 0 = maxAbs xs := le_antisymm ((neg_le_abs _).trans (le_maxAbs hmem)) (hye ▸ hall y hy)
    have heq' : xs.getD i 0 = -maxAbs xs := by linarith
    rw [hget i hi, heq', neg_div, div_self hm, hm1]
    unfold shiftAndScale
    ring
  · intro c hc
    have hmc := maxAbs_map xs c
    rw [abs_of_pos hc] at hmc
    unfold discretized
    rw [if_neg (by simpa using hne), hmc, if_neg (mul_pos hc hmp).ne', List.map_map]
    congr 2
    apply List.map_congr_left
    intro x _
    show shiftAndScale n (muLaw n (c * x / (c * maxAbs xs))) = _
    rw [mul_div_mul_left _ _ hc.ne']
  · have hmc := maxAbs_map xs (-1)
    have he : (xs.map fun x => -1 * x) = xs.map fun x => -x := List.map_congr_left (by intros; ring)
    rw [he, abs_neg, abs_one, one_mul] at hmc
    unfold discretized
    rw [if_neg (by simpa using hne), hmc, if_neg hm, List.map_map, List.map_map]
    congr 2
    apply List.map_congr_left
    intro x _
    show shiftAndScale n (muLaw n (-x / maxAbs xs)) = n - shiftAndScale n (muLaw n (x / maxAbs xs))
    rw [neg_div, hodd]
    unfold shiftAndScale
    ring

example := C135_discretized 3 (by decide) [1, 0, -1, 0] ⟨1, by simp, by norm_num⟩

/-- **C135, refusals**: an empty batch is a RuntimeError, a silent one all NaN. -/
theorem C135_degenerate (n : Nat) (xs : List ℝ) :
    discretized n [] = .error .runtimeError ∧ (xs ≠ [] → (∀ x ∈ xs, x = 0) → discretized n xs = .ok none) := by
  refine ⟨by simp [discretized], fun h1 h2 => ?_⟩
  unfold discretized
  rw [if_neg h1, if_pos (maxAbs_eq_zero.mpr h2)]

example := (C135_degenerate 3 [0, 0]).2 (by simp) (by simp)

/-! ## C136: the soft one-hot encoding -/

theorem sum_exp_pos (z : List ℝ) (hz : z ≠ []) : 0 < (z.map Real.exp).sum := by
  apply List.sum_pos
  · intro a ha
    obtain ⟨b, -, rfl⟩ := List.mem_map.mp ha
    exact Real.exp_pos b
  · simpa using hz

theorem le_sum_of_mem {l : List ℝ} (h : ∀ a ∈ l, 0 ≤ a) {a : ℝ} (ha : a ∈ l) : a ≤ l.sum := by
  induction l with
  | nil => simp at ha
  | cons b t ih =>
    rw [List.sum_cons]
    have hs : 0 ≤ t.sum := List.sum_nonneg fun c hc => h c (List.mem_cons_of_mem _ hc)
    rcases List.mem_cons.mp ha with rfl | ha'
    · linarith
    · have := ih (fun c hc => h c (List.mem_cons_of_mem _ hc)) ha'
      linarith [h b (by simp)]

theorem oneHot_getD (n : Nat) (d : ℝ) (c : Nat) (hc : c ≤ n) :
    (oneHot n d).getD c 0 = -((d - (c : ℝ)) ^ 2 * 10 ^ 12) -
      Real.log ((((List.range (n + 1)).map fun c : Nat => -((d - (c : ℝ)) ^ 2 * 10 ^ 12)).map Real.exp).sum) := by
  unfold oneHot
  simp only []
  rw [List.getD_eq_getElem?_getD, List.getElem?_map, List.getElem?_map, List.getElem?_range (by omega)]
  simp

/-- **C136**: the encoding of any number is `n + 1` logarithms of probabilities that add up to one; a category nearer to the number is always
more probable, and the category a number hits exactly is all but certain. -/
theorem C136_one_hot (n : Nat) (d : ℝ) :
    (oneHot n d).length = n + 1 ∧ ((oneHot n d).map Real.exp).sum = 1 ∧ (∀ v ∈ oneHot n d, v ≤ 0) ∧
    (∀ c c' : Nat, c ≤ n → c' ≤ n → |d - c| < |d - c'| → (oneHot n d).getD c' 0 < (oneHot n d).getD c 0) ∧
    (∀ c : Nat, c ≤ n → d = c → 1 ≤ Real.exp ((oneHot n d).getD c 0) * (1 + n * Real.exp (-10 ^ 12))) := by
  have hzne : ((List.range (n + 1)).map fun c : Nat => -((d - (c : ℝ)) ^ 2 * 10 ^ 12)) ≠ [] := by simp
  have hpos := sum_exp_pos _ hzne
  refine ⟨by simp [oneHot], ?_, ?_, ?_, ?_⟩
  · unfold oneHot
    simp only []
    generalize hz : ((List.range (n + 1)).map fun c : Nat => -((d - (c : ℝ)) ^ 2 * 10 ^ 12)) = z at hpos ⊢
    rw [List.map_map]
    have : (Real.exp ∘ fun v => v - Real.log (z.map Real.exp).sum) = fun v => Real.exp v * ((z.map Real.exp).sum)⁻¹ := by
      funext v
      simp only [Function.comp_apply]
      rw [Real.exp_sub, Real.exp_log hpos, div_eq_mul_inv]
    rw [this, List.sum_map_mul_right, mul_inv_cancel₀ hpos.ne']
  · unfold oneHot
    simp only []
    generalize hz : ((List.range (n + 1)).map fun c : Nat => -((d - (c : ℝ)) ^ 2 * 10 ^ 12)) = z at hpos ⊢
    intro v hv
    obtain ⟨a, ha, rfl⟩ := List.mem_map.mp hv
    have : Real.exp a ≤ (z.map Real.exp).sum := by
      apply le_sum_of_mem
      · intro b hb
        obtain ⟨c, -, rfl⟩ := List.mem_map.mp hb
        exact (Real.exp_pos c).le
      · exact List.mem_map_of_mem ha
    have := Real.log_le_log (Real.exp_pos a) this
    rw [Real.log_exp] at this
    linarith
  · intro c c' hc hc' hlt
    rw [oneHot_getD n d c hc, oneHot_getD n d c' hc']
    have : (d - (c : ℝ)) ^ 2 < (d - (c' : ℝ)) ^ 2 := sq_lt_sq.mpr hlt
    linarith
  · intro c hc hd
    rw [oneHot_getD n d c hc]
    rw [Real.exp_sub, Real.exp_log hpos]
    have h0 : d - (c : ℝ) = 0 := by linarith
    rw [h0]
    have he : Real.exp (-((0 : ℝ) ^ 2 * 10 ^ 12)) = 1 := by simp
    rw [he, one_div, inv_mul_eq_div, le_div_iff₀ hpos, one_mul]
    have hbound : ∀ m : Nat, (((List.range m).map fun c : Nat => -((d - (c : ℝ)) ^ 2 * 10 ^ 12)).map Real.exp).sum ≤
        (if c < m then 1 + ((m : ℝ) - 1) * Real.exp (-10 ^ 12) else m * Real.exp (-10 ^ 12)) := by
      intro m
      induction m with
      | zero => simp
      | succ m ih =>
        rw [List.range_succ, List.map_append, List.map_append, List.sum_append]
        simp only [List.map_cons, List.map_nil, List.sum_cons, List.sum_nil, add_zero]
        rcases lt_trichotomy c m with h | h | h
        · rw [if_pos h] at ih
          rw [if_pos (by omega)]
          have h1 : Real.exp (-((d - (m : ℝ)) ^ 2 * 10 ^ 12)) ≤ Real.exp (-10 ^ 12) := by
            apply Real.exp_le_exp.mpr
            have : (1 : ℝ) ≤ (d - (m : ℝ)) ^ 2 := by
              have : (c : ℝ) + 1 ≤ m := by exact_mod_cast h
              rw [hd]
              nlinarith
            nlinarith
          push_cast
          linarith
        · subst h
          rw [if_neg (by omega)] at ih
          rw [if_pos (by omega)]
          have h1 : Real.exp (-((d - (c : ℝ)) ^ 2 * 10 ^ 12)) = 1 := by rw [h0]; simp
          rw [h1]
          push_cast
          linarith
        · rw [if_neg (by omega)] at ih
          rw [if_neg (by omega)]
          have h1 : Real.exp (-((d - (m : ℝ)) ^ 2 * 10 ^ 12)) ≤ Real.exp (-10 ^ 12) := by
            apply Real.exp_le_exp.mpr
            have : (1 : ℝ) ≤ (d - (m : ℝ)) ^ 2 := by
              have : (m : ℝ) + 1 ≤ c := by exact_mod_cast h
              rw [hd]
              nlinarith
            nlinarith
          push_cast
          linarith
    have := hbound (n + 1)
    rw [if_pos (by omega)] at this
    push_cast at this
    linarith

/-- C136: the rows of a batch follow the numbers of the batch: row `i` has its largest entry where the whole number is nearest to the `i`-th
discretized number. -/
theorem C136_rows (n : Nat) (xs ds : List ℝ) (hd : discretized n xs = .ok (some ds)) :
    ∃ rows, categorical n xs = .ok (some rows) ∧ rows.length = ds.length ∧
      ∀ (i : Nat) (d : ℝ) (r : List ℝ), ds[i]? = some d → rows[i]? = some r → r.length = n + 1 ∧ (r.map Real.exp).sum = 1 ∧
        ∀ c c' : Nat, c ≤ n → c' ≤ n → |d - c| < |d - c'| → r.getD c' 0 < r.getD c 0 := by
  refine ⟨ds.map (oneHot n), by simp [categorical, hd], by simp, ?_⟩
  intro i d r h1 h2
  rw [List.getElem?_map, h1] at h2
  have hr : r = oneHot n d := by simpa using h2.symm
  subst hr
  have h := C136_one_hot n d
  exact ⟨h.1, h.2.1, h.2.2.2.1⟩

example : ∃ ds rows, discretized 3 [1, 0, -1, 0] = .ok (some ds) ∧ categorical 3 [1, 0, -1, 0] = .ok (some rows) ∧ rows.length = ds.length := by
  obtain ⟨ds, h, _⟩ := C135_discretized 3 (by decide) [1, 0, -1, 0] ⟨1, by simp, by norm_num⟩
  obtain ⟨rows, h1, h2, _⟩ := C136_rows 3 _ ds h
  exact ⟨ds, rows, h, h1, h2⟩

/-! ## C137: the categorical loss -/

/-- Log probability of category `c` at sample `t` of example `b`: `ps` has the shape (batch, n + 1, w). -/
def logProb (n w : Nat) (ps : List ℝ) (b c t : Nat) : ℝ := ps.getD ((b * (n + 1) + c) * w + t) 0

theorem sum_rows (f : Nat → ℝ) (B w : Nat) :
    ∑ k ∈ Finset.range (B * w), f k = ∑ b ∈ Finset.range B, ∑ t ∈ Finset.range w, f (b * w + t) := by
  induction B with
  | zero => simp
  | succ B ih => rw [Nat.succ_mul, Finset.sum_range_add, ih, Finset.sum_range_succ]

/-- **C137**: for log probabilities of shape (batch, n + 1, w) with even `w` and a target of the same batch that is not silent, the loss is minus
the mean log probability of the categories the target falls into, category by category a valid one; it is not negative. -/
theorem C137_loss (n : Nat) (hn : 0 < n) (B w : Nat) (hB : 0 < B) (hw : 0 < w) (heven : w % 2 = 0) (ps xs : List ℝ)
    (hps : ps.length = B * (n + 1) * w) (hxs : xs.length = B * w) (hx : ∃ x ∈ xs, x ≠ 0) :
    ∃ ds v, discretized n xs = .ok (some ds) ∧ categoricalLoss n (.logProbs ps) w xs w = .ok (some v) ∧
      (∀ d ∈ ds, ⌊d⌋₊ ≤ n) ∧
      v = -(∑ b ∈ Finset.range B, ∑ t ∈ Finset.range w, logProb n w ps b ⌊ds.getD (b * w + t) 0⌋₊ t) / (B * w) ∧
      ((∀ p ∈ ps, p ≤ 0) → 0 ≤ v) := by
  obtain ⟨ds, h1, h2, h3, -⟩ := C135_discretized n hn xs hx
  have hv : categoricalLoss n (.logProbs ps) w xs w = .ok (some (nll n (w / 2) ps (ds.map fun d => ⌊d⌋₊))) := by
    have hh : 2 * (w / 2) = w := by omega
    unfold categoricalLoss
    simp only [h1]
    rw [hh, hps, hxs]
    have e1 : B * (n + 1) * w = B * ((n + 1) * w) := by ring
    rw [e1, Nat.mul_mod_left, Nat.mul_mod_left, Nat.mul_div_cancel _ (by positivity), Nat.mul_div_cancel _ hw]
    rw [if_neg (by omega), if_neg (by omega), if_neg (by simp)]
  have hnll : nll n (w / 2) ps (ds.map fun d => ⌊d⌋₊) =
      -(∑ b ∈ Finset.range B, ∑ t ∈ Finset.range w, logProb n w ps b ⌊ds.getD (b * w + t) 0⌋₊ t) / (B * w) := by
    have hh : 2 * (w / 2) = w := by omega
    unfold nll mean
    rw [sum_range_map, hh]
    simp only [List.length_map, List.length_range, h2, hxs]
    rw [sum_rows]
    push_cast
    rw [neg_div]
    congr 2
    apply Finset.sum_congr rfl
    intro b hb
    apply Finset.sum_congr rfl
    intro t ht
    rw [Finset.mem_range] at hb ht
    have e1 : (b * w + t) / w = b := by
      rw [mul_comm, Nat.mul_add_div hw, Nat.div_eq_of_lt ht, add_zero]
    have e2 : (b * w + t) % w = t := by
      rw [mul_comm, Nat.mul_add_mod, Nat.mod_eq_of_lt ht]
    rw [e1, e2]
    have e3 : (ds.map fun d => ⌊d⌋₊).getD (b * w + t) 0 = ⌊ds.getD (b * w + t) 0⌋₊ := by
      simp only [List.getD_eq_getElem?_getD, List.getElem?_map]
      cases ds[b * w + t]? <;> simp
    rw [e3]
    rfl
  refine ⟨ds, _, h1, hv, ?_, hnll, ?_⟩
  · intro d hd
    have := h3 d hd
    exact_mod_cast (Nat.floor_le_floor this.2).trans (by simp)
  · intro hp
    rw [hnll]
    apply div_nonneg _ (by positivity)
    rw [neg_nonneg]
    apply Finset.sum_nonpos
    intro b _
    apply Finset.sum_nonpos
    intro t _
    unfold logProb
    rw [List.getD_eq_getElem?_getD]
    cases h : ps[(b * (n + 1) + ⌊ds.getD (b * w + t) 0⌋₊) * w + t]? with
    | none => simp
    | some a => exact hp a (List.mem_of_getElem? h)

/-- **C137, odd widths**: fewer examples than samples of an odd width cannot be viewed in two halves (RuntimeError). -/
theorem C137_odd_refused (n : Nat) (hn : 0 < n) (B w : Nat) (hB : 0 < B) (hodd : w % 2 = 1) (hBw : B < w - 1) (ps xs : List ℝ)
    (hps : ps.length = B * (n + 1) * w) (hxs : xs.length = B * w) (hx : ∃ x ∈ xs, x ≠ 0) :
    categoricalLoss n (.logProbs ps) w xs w = .error .runtimeError := by
  obtain ⟨ds, h1, -⟩ := C135_discretized n hn xs hx
  have hh : 2 * (w / 2) = w - 1 := by omega
  unfold categoricalLoss
  simp only [h1]
  rw [hh, hps]
  rw [if_pos]
  right
  have e1 : B * (n + 1) * w = (n + 1) * (B + (w - 1) * B) := by
    obtain ⟨k, rfl⟩ : ∃ k, w = k + 1 := ⟨w - 1, by omega⟩
    simp only [Nat.add_sub_cancel]
    ring
  rw [e1, Nat.mul_mod_mul_left, Nat.add_mul_mod_self_left, Nat.mod_eq_of_lt hBw]
  positivity

example := C137_odd_refused 3 (by decide) 1 3 (by decide) (by decide) (by decide) (List.replicate 12 (-1)) [1, 0, 1] (by simp) rfl ⟨1, by simp, by norm_num⟩

/-! ## C138–C141: false expectations about categories -/

theorem discretized_ones : discretized 1 [1, 1] = .ok (some [1, 1]) := by
  have h1 : muLaw 1 1 = 1 := muLaw_one (by norm_num)
  have hm : maxAbs [1, 1] = 1 := by norm_num [maxAbs]
  unfold discretized
  rw [if_neg (by simp), hm, if_neg (by norm_num)]
  simp only [List.map_cons, List.map_nil, div_one, h1, shiftAndScale]
  norm_num

/-- **C138**: comparing raw audio with itself does not give a small loss: for the signal 1, 1 and one category more than none the positions and the
categories are mixed up and the loss is over 10¹¹. -/
theorem C138_self_refuted : ∃ v, categoricalLoss 1 (.raw [1, 1]) 2 [1, 1] 2 = .ok (some v) ∧ 10 ^ 11 ≤ v := by
  refine ⟨_, by simp [categoricalLoss, categorical, discretized_ones]; rfl, ?_⟩
  obtain ⟨l1, -, l3, -⟩ := C136_one_hot 1 1
  have h0 : (oneHot 1 1).getD 0 0 ≤ -10 ^ 12 := by
    rw [oneHot_getD 1 1 0 (by norm_num)]
    have : (0 : ℝ) ≤ Real.log ((((List.range (1 + 1)).map fun c : Nat => -(((1 : ℝ) - (c : ℝ)) ^ 2 * 10 ^ 12)).map Real.exp).sum) := by
      apply Real.log_nonneg
      simp [List.range_succ]
      positivity
    push_cast
    linarith
  have h1 : (oneHot 1 1).getD 1 0 ≤ 0 := by
    rw [List.getD_eq_getElem?_getD, List.getElem?_eq_getElem (by rw [l1]; norm_num)]
    exact l3 _ (List.getElem_mem _)
  obtain ⟨a, b, hab⟩ : ∃ a b, oneHot 1 1 = [a, b] := by
    match h : oneHot 1 1, l1 with
    | [a, b], _ => exact ⟨a, b, rfl⟩
  rw [hab] at h0 h1 ⊢
  simp at h0 h1
  unfold nll mean
  norm_num [List.range_succ]
  linarith

theorem mu_third : muLaw 7 (1 / 7) = 1 / 3 := by
  rw [muLaw_nonneg (by norm_num)]
  have h8 : Real.log ((7 : ℕ) + 1 : ℝ) = 3 * Real.log 2 := by
    have : ((7 : ℕ) + 1 : ℝ) = 2 ^ 3 := by norm_num
    rw [this, Real.log_pow]
    norm_num
  have h2 : (1 + (7 : ℕ) * (1 / 7) : ℝ) = 2 := by norm_num
  have : Real.log 2 ≠ 0 := (Real.log_pos (by norm_num)).ne'
  rw [h8, h2]
  field_simp

/-- **C139**: the category of a target sample is not the most probable category of the same sample as an input: with seven categories more than
none the sample 1/7 beside 1 lies at 14/3, counts as category 4 in the target and is most probably 5 in the input. -/
theorem C139_nearest_refuted :
    ∃ d : ℝ, discretized 7 [1, 1 / 7] = .ok (some [7, d]) ∧ ⌊d⌋₊ = 4 ∧ (oneHot 7 d).getD 4 0 < (oneHot 7 d).getD 5 0 := by
  have h1 : muLaw 7 1 = 1 := muLaw_one (by norm_num)
  refine ⟨14 / 3, ?_, ?_, ?_⟩
  · have h3 := mu_third
    have hm : maxAbs [1, 1 / 7] = 1 := by norm_num [maxAbs, abs_of_pos]
    unfold discretized
    rw [if_neg (by simp), hm, if_neg (by norm_num)]
    simp only [List.map_cons, List.map_nil, div_one, h1, h3, shiftAndScale]
    norm_num
  · rw [Nat.floor_eq_iff (by norm_num)]
    norm_num
  · apply (C136_one_hot 7 (14 / 3)).2.2.2.1 5 4 (by norm_num) (by norm_num)
    rw [abs_of_neg (by norm_num), abs_of_pos (by norm_num)]
    norm_num

/-- **C140**: what a sample is discretized to depends on the other examples of the batch. -/
theorem C140_batch_refuted :
    discretized 7 [1 / 7] = .ok (some [7]) ∧ ∃ d, discretized 7 [1, 1 / 7] = .ok (some [7, d]) ∧ d ≠ 7 := by
  have h1 : muLaw 7 1 = 1 := muLaw_one (by norm_num)
  constructor
  · have hm : maxAbs [1 / 7] = 1 / 7 := by norm_num [maxAbs]
    unfold discretized
    rw [if_neg (by simp), hm, if_neg (by norm_num)]
    simp only [List.map_cons, List.map_nil, div_self (show (1 / 7 : ℝ) ≠ 0 by norm_num), h1, shiftAndScale]
    norm_num
  · obtain ⟨d, hd, hd4, -⟩ := C139_nearest_refuted
    refine ⟨d, hd, ?_⟩
    rintro rfl
    norm_num at hd4

/-- **C141**: `RawSampleEmbedding` refuses every input: its linear layer has one column fewer than the encoding. -/
theorem C141_embedding_refuted (n : Nat) (weights : List (List ℝ)) (xs : List ℝ) : rawEmbedding n weights xs = .error .runtimeError := by
  unfold rawEmbedding linear
  rw [if_pos (by omega)]

/-! ## C142: Wasserstein losses -/

theorem mean_append_shift (v : List ℝ) (hv : v ≠ []) (c : ℝ) : mean (v.map fun a => a + c) = mean v + c := by
  unfold mean
  have hl : (v.length : ℝ) ≠ 0 := by
    have := List.length_pos_iff.mpr hv
    positivity
  have : (v.map fun a => a + c).sum = v.sum + v.length * c := by
    clear hv hl
    induction v with
    | nil => simp
    | cons a t ih => simp only [List.map_cons, List.sum_cons, ih, List.length_cons]; push_cast; ring
  rw [this, List.length_map]
  field_simp

/-- **C142, algebra**: the critic's loss is what the generator's losses of the real and of the fake batch differ by; it changes its sign when the
batches are exchanged, is zero for equal batches, and does not change when a constant is added to the critic. -/
theorem C142_wasserstein {X : Type} (critic : List X → List ℝ) (real fake : List X) :
    wassersteinCritic critic real fake = learnedWasserstein critic real - learnedWasserstein critic fake ∧
    wassersteinCritic critic fake real = -wassersteinCritic critic real fake ∧
    wassersteinCritic critic real real = 0 ∧
    (∀ c : ℝ, critic real ≠ [] → critic fake ≠ [] →
      wassersteinCritic (fun x => (critic x).map fun a => a + c) real fake = wassersteinCritic critic real fake) := by
  unfold wassersteinCritic learnedWasserstein
  refine ⟨by ring, by ring, by ring, fun c h1 h2 => ?_⟩
  rw [mean_append_shift _ h1, mean_append_shift _ h2]
  ring

theorem mean_lipschitz {X : Type} [PseudoMetricSpace X] (c : X → ℝ) (hc : LipschitzWith 1 c) :
    ∀ ps : List (X × X), |((ps.map fun p => c p.2).sum) - (ps.map fun p => c p.1).sum| ≤ (ps.map fun p => dist p.1 p.2).sum
  | [] => by simp
  | p :: ps => by
    have ih := mean_lipschitz c hc ps
    have h := hc.dist_le_mul p.2 p.1
    rw [Real.dist_eq, NNReal.coe_one, one_mul, dist_comm] at h
    simp only [List.map_cons, List.sum_cons]
    calc _ = |(c p.2 - c p.1) + ((ps.map fun p => c p.2).sum - (ps.map fun p => c p.1).sum)| := by congr 1; ring
      _ ≤ |c p.2 - c p.1| + |(ps.map fun p => c p.2).sum - (ps.map fun p => c p.1).sum| := abs_add_le _ _
      _ ≤ _ := add_le_add h ih

/-- **C142, distance**: a critic that looks at every example on its own and never differs by more than the examples do reports at most their mean
distance, however real and fake examples are paired. -/
theorem C142_lipschitz {X : Type} [PseudoMetricSpace X] (c : X → ℝ) (hc : LipschitzWith 1 c) (ps : List (X × X)) :
    |wassersteinCritic (fun xs => xs.map c) (ps.map Prod.fst) (ps.map Prod.snd)| ≤ mean (ps.map fun p => dist p.1 p.2) := by
  unfold wassersteinCritic mean
  simp only [List.map_map, List.length_map]
  rw [← sub_div, abs_div, abs_of_nonneg (Nat.cast_nonneg (α := ℝ) ps.length)]
  apply div_le_div_of_nonneg_right _ (Nat.cast_nonneg _)
  exact mean_lipschitz c hc ps

example := C142_lipschitz (id : ℝ → ℝ) LipschitzWith.id [(1, 2), (3, -1)]

/-! ## C143: the gradient penalty -/

/-- **C143, interpolation**: with numbers drawn from [0, 1] every number of an interpolate lies between those of the real and of the fake
example. -/
theorem C143_between (a : ℝ) (h0 : 0 ≤ a) (h1 : a ≤ 1) (real fake : List (List ℝ)) (c t : Nat) (x y : ℝ)
    (hx : (real.getD c [])[t]? = some x) (hy : (fake.getD c [])[t]? = some y) :
    ∃ z, ((interpolate a real fake).getD c [])[t]? = some z ∧ min x y ≤ z ∧ z ≤ max x y := by
  refine ⟨a * x + (1 - a) * y, ?_, ?_, ?_⟩
  · unfold interpolate
    rw [List.getD_eq_getElem?_getD] at hx hy
    cases hr : real[c]? with
    | none => rw [hr] at hx; simp at hx
    | some r =>
      cases hf : fake[c]? with
      | none => rw [hf] at hy; simp at hy
      | some f =>
        rw [hr] at hx
        rw [hf] at hy
        simp only [Option.getD_some] at hx hy
        rw [List.getD_eq_getElem?_getD, List.getElem?_zipWith, hr, hf]
        simp only [Option.getD_some, List.getElem?_zipWith, hx, hy]
  · nlinarith [min_le_left x y, min_le_right x y]
  · nlinarith [le_max_left x y, le_max_right x y]

example := C143_between (1 / 3) (by norm_num) (by norm_num) [[1, 2]] [[3, -4]] 0 1 2 (-4) rfl rfl

/-- The penalised norm of the gradient of one example at column `t`. -/
noncomputable def columnNorm (g : List (List ℝ)) (t : Nat) : ℝ := Real.sqrt ((g.map fun r => (r.getD t 0) ^ 2).sum)

theorem sum_eq_zero_iff {l : List ℝ} (h : ∀ a ∈ l, 0 ≤ a) : l.sum = 0 ↔ ∀ a ∈ l, a = 0 := by
  constructor
  · intro hs a ha
    exact le_antisymm (hs ▸ le_sum_of_mem h ha) (h a ha)
  · intro hz
    exact List.sum_eq_zero hz

/-- **C143, penalty**: for a positive weight the penalty of batches of the same size is never negative, and zero exactly when the gradient has norm one
for every example and column. -/
theorem C143_penalty (weight : ℝ) (hw : 0 < weight) (n : Nat) (grad : List (List (List ℝ)) → List (List (List ℝ)))
    (alphas : List ℝ) (real fake : List (List (List ℝ))) (hl : real.length = fake.length) :
    ∃ v xs, gradientPenalty weight n grad alphas real fake = .ok v ∧ 0 ≤ v ∧
      xs = List.zipWith (fun a (p : List (List ℝ) × List (List ℝ)) => interpolate a p.1 p.2) alphas (real.zip fake) ∧
      (v = 0 ↔ ∀ g ∈ grad xs, ∀ t < n, columnNorm g t = 1) := by
  refine ⟨_, _, by unfold gradientPenalty; rw [if_neg (by simpa using hl)], ?_, rfl, ?_⟩
  all_goals
    generalize grad _ = gs
    unfold penalty
    have hnn : ∀ a ∈ (gs.map fun g => (List.range n).map fun t =>
        (Real.sqrt ((g.map fun r => (r.getD t 0) ^ 2).sum) - 1) ^ 2).flatten, 0 ≤ a := by
      intro a ha
      obtain ⟨l, hl, ha⟩ := List.mem_flatten.mp ha
      obtain ⟨g, -, rfl⟩ := List.mem_map.mp hl
      obtain ⟨t, -, rfl⟩ := List.mem_map.mp ha
      positivity
  · apply mul_nonneg _ hw.le
    unfold mean
    exact div_nonneg (List.sum_nonneg hnn) (Nat.cast_nonneg _)
  · rw [mul_eq_zero, or_iff_left hw.ne']
    unfold mean
    rw [div_eq_zero_iff, sum_eq_zero_iff hnn]
    constructor
    · rintro (h | h) g hg t ht
      · have := h ((columnNorm g t - 1) ^ 2) (List.mem_flatten.mpr ⟨_, List.mem_map_of_mem hg, List.mem_map.mpr ⟨t, List.mem_range.mpr ht, rfl⟩⟩)
        rw [sq_eq_zero_iff] at this
        linarith
      · exfalso
        rw [Nat.cast_eq_zero, List.length_eq_zero_iff, List.flatten_eq_nil_iff] at h
        have := h _ (List.mem_map_of_mem hg)
        rw [List.map_eq_nil_iff, List.range_eq_nil] at this
        omega
    · intro h
      left
      intro a ha
      obtain ⟨l, hl, ha⟩ := List.mem_flatten.mp ha
      obtain ⟨g, hg, rfl⟩ := List.mem_map.mp hl
      obtain ⟨t, ht, rfl⟩ := List.mem_map.mp ha
      have := h g hg t (List.mem_range.mp ht)
      unfold columnNorm at this
      rw [this]
      norm_num

example := C143_penalty 10 (by norm_num) 1 (fun xs => xs) [1 / 2] [[[1], [2]]] [[[3], [4]]] rfl

/-- **C143, sizes**: batches of different sizes are refused. -/
theorem C143_sizes (weight : ℝ) (n : Nat) (grad : List (List (List ℝ)) → List (List (List ℝ)))
    (alphas : List ℝ) (real fake : List (List (List ℝ))) (hl : real.length ≠ fake.length) :
    gradientPenalty weight n grad alphas real fake = .error .runtimeError := by
  unfold gradientPenalty
  rw [if_pos hl]

example := C143_sizes 10 1 (fun xs => xs) [1 / 2] [[[1], [2]]] [] (by simp)

/-- **C143, vectors**: for examples of one column (shape (batch, d)) the penalised norm is that of the whole gradient: a linear critic with
coefficients `w` is penalised by the weight times `(‖w‖ - 1)²`. -/
theorem C143_linear (weight : ℝ) (w : List ℝ) (alphas : List ℝ) (real fake : List (List (List ℝ)))
    (hl : real.length = fake.length) (ha : alphas.length = real.length) (hne : real ≠ []) :
    gradientPenalty weight 1 (fun xs => xs.map fun _ => w.map fun a => [a]) alphas real fake =
      .ok (weight * (Real.sqrt ((w.map fun a => a ^ 2).sum) - 1) ^ 2) := by
  unfold gradientPenalty
  rw [if_neg (by simpa using hl)]
  generalize hxs : List.zipWith (fun a (p : List (List ℝ) × List (List ℝ)) => interpolate a p.1 p.2) alphas (real.zip fake) = xs
  have hxl : xs ≠ [] := by
    have h0 : 0 < real.length := List.length_pos_iff.mpr hne
    have hlen : xs.length = real.length := by
      rw [← hxs, List.length_zipWith, List.length_zip]
      omega
    intro h
    rw [h] at hlen
    simp at hlen
    omega
  have hxp := List.length_pos_iff.mpr hxl
  unfold penalty
  congr 1
  rw [mul_comm]
  congr 1
  rw [List.map_map]
  set v := (Real.sqrt ((w.map fun a => a ^ 2).sum) - 1) ^ 2 with hv
  have h1 : ∀ xs : List (List (List ℝ)), (xs.map ((fun g : List (List ℝ) => (List.range 1).map fun t =>
      (Real.sqrt ((g.map fun r => (r.getD t 0) ^ 2).sum) - 1) ^ 2) ∘ fun _ => w.map fun a => [a])).flatten =
      List.replicate xs.length v := by
    intro xs
    induction xs with
    | nil => simp
    | cons x xs ih =>
      rw [List.map_cons, List.flatten_cons, ih, List.length_cons, List.replicate_succ]
      simp [List.range_succ, hv, List.map_map, Function.comp_def]
  rw [h1]
  unfold mean
  simp only [List.sum_replicate, List.length_replicate, nsmul_eq_mul]
  have : (xs.length : ℝ) ≠ 0 := by positivity
  field_simp

/-- **C144**: for audio of shape (batch, 1, n) the penalty is not about the norm of the gradient: a critic whose gradient 3/5, 4/5 has norm one
is penalised. -/
theorem C144_audio_refuted (weight : ℝ) (hw : 0 < weight) (a : ℝ) (real fake : List (List ℝ)) :
    ∃ v, gradientPenalty weight 2 (fun _ => [[[3 / 5, 4 / 5]]]) [a] [real] [fake] = .ok v ∧ 0 < v ∧
      (3 / 5 : ℝ) ^ 2 + (4 / 5) ^ 2 = 1 := by
  refine ⟨_, rfl, ?_, by norm_num⟩
  unfold penalty mean
  have h1 : Real.sqrt ((3 / 5) ^ 2) = 3 / 5 := Real.sqrt_sq (by norm_num)
  have h2 : Real.sqrt ((4 / 5) ^ 2) = 4 / 5 := Real.sqrt_sq (by norm_num)
  simp [List.range_succ, h1, h2]
  norm_num
  positivity

/-! ## C145: normalizations -/

/-- **C145, sample norm**: the result has the shape of the input; in every column the mean square becomes `m / (m + 10⁻⁷)` (so just under one, zero for
a silent column), every number is the input's divided by the same positive number, and other columns do not matter. -/
theorem C145_sample_norm (w : Nat) (x : List (List ℝ)) :
    (sampleNorm w x).length = x.length ∧ (∀ r ∈ sampleNorm w x, r.length = w) ∧
    ∀ t < w, ∃ s > 0, (∀ c : Nat, c < x.length → ((sampleNorm w x).getD c []).getD t 0 = (x.getD c []).getD t 0 / s) ∧
      (x ≠ [] → mean ((sampleNorm w x).map fun r => (r.getD t 0) ^ 2) =
        mean (x.map fun r => (r.getD t 0) ^ 2) / (mean (x.map fun r => (r.getD t 0) ^ 2) + 1 / 10 ^ 7)) ∧
      s = Real.sqrt (mean (x.map fun r => (r.getD t 0) ^ 2) + 1 / 10 ^ 7) := by
  refine ⟨by simp [sampleNorm], ?_, fun t ht => ?_⟩
  · intro r hr
    obtain ⟨q, -, rfl⟩ := List.mem_map.mp hr
    simp
  · set m := mean (x.map fun r => (r.getD t 0) ^ 2) with hm
    have hm0 : 0 ≤ m := by
      rw [hm]
      unfold mean
      apply div_nonneg _ (Nat.cast_nonneg _)
      apply List.sum_nonneg
      intro a ha
      obtain ⟨r, -, rfl⟩ := List.mem_map.mp ha
      positivity
    have hme : (x.map fun q => (q.getD t 0) ^ 2).sum * (1 / x.length) = m := by
      rw [hm]
      unfold mean
      rw [List.length_map]
      ring
    have hs : 0 < Real.sqrt (m + 1 / 10 ^ 7) := Real.sqrt_pos.mpr (by positivity)
    have hentry : ∀ r : List ℝ, ((List.range w).map fun t => r.getD t 0 / Real.sqrt ((x.map fun q => (q.getD t 0) ^ 2).sum * (1 / x.length) + 1 / 10 ^ 7)).getD t 0 =
        r.getD t 0 / Real.sqrt (m + 1 / 10 ^ 7) := by
      intro r
      rw [← hme, List.getD_eq_getElem?_getD, List.getElem?_map, List.getElem?_range ht]
      rfl
    refine ⟨_, hs, ?_, ?_, rfl⟩
    · intro c hc
      unfold sampleNorm
      have : ∀ (f : List ℝ → List ℝ), (x.map f).getD c [] = f (x.getD c []) := by
        intro f
        simp [List.getD_eq_getElem?_getD, List.getElem?_map, List.getElem?_eq_getElem hc]
      rw [this]
      exact hentry _
    · intro hne
      unfold sampleNorm
      rw [List.map_map]
      have : ((fun r : List ℝ => (r.getD t 0) ^ 2) ∘ fun r : List ℝ => (List.range w).map fun t => r.getD t 0 / Real.sqrt ((x.map fun q => (q.getD t 0) ^ 2).sum * (1 / x.length) + 1 / 10 ^ 7)) =
          fun r => (r.getD t 0) ^ 2 * (m + 1 / 10 ^ 7)⁻¹ := by
        funext r
        simp only [Function.comp_apply]
        rw [hentry, div_pow, Real.sq_sqrt (by positivity), div_eq_mul_inv]
      rw [this]
      unfold mean
      rw [List.sum_map_mul_right, List.length_map, div_eq_mul_inv m, hm]
      unfold mean
      rw [List.length_map]
      ring

theorem energy_map_div (v : List ℝ) (s : ℝ) : energy (v.map fun a => a / s) = energy v / s ^ 2 := by
  unfold energy
  rw [List.map_map]
  have : ((fun a : ℝ => a ^ 2) ∘ fun a => a / s) = fun a => a ^ 2 * (s ^ 2)⁻¹ := by
    funext a
    simp only [Function.comp_apply]
    rw [div_pow, div_eq_mul_inv]
  rw [this, List.sum_map_mul_right, div_eq_mul_inv]

theorem norm2_map_div (v : List ℝ) (s : ℝ) (hs : 0 < s) : norm2 (v.map fun a => a / s) = norm2 v / s := by
  have := energy_map_div v s
  unfold energy at this
  unfold norm2
  rw [this, Real.sqrt_div (show 0 ≤ (v.map fun a => a ^ 2).sum from energy_nonneg v), Real.sqrt_sq hs.le]

theorem norm2_nonneg (v : List ℝ) : 0 ≤ norm2 v := Real.sqrt_nonneg _

/-- **C145, unit norm**: every example keeps its direction and gets the norm `s / (s + eps)`, below one, where `s` was its norm: zero for a silent
example. -/
theorem C145_unit_norm (eps : ℝ) (he : 0 < eps) (v : List ℝ) :
    (∃ s > 0, unitNorm eps v = v.map fun a => a / s) ∧ norm2 (unitNorm eps v) = norm2 v / (norm2 v + eps) ∧ norm2 (unitNorm eps v) < 1 := by
  have hs : 0 < norm2 v + eps := by linarith [norm2_nonneg v]
  have h1 : norm2 (unitNorm eps v) = norm2 v / (norm2 v + eps) := norm2_map_div v _ hs
  refine ⟨⟨_, hs, rfl⟩, h1, ?_⟩
  rw [h1, div_lt_one hs]
  linarith

example := C145_unit_norm 1 (by norm_num) [3, 4]

/-! ## C146: BandLoss -/

theorem mse_nonneg (xs ys : List (List ℝ)) : 0 ≤ mse xs ys := by
  unfold mse mean
  apply div_nonneg _ (Nat.cast_nonneg _)
  apply List.sum_nonneg
  intro a ha
  obtain ⟨l, hl, ha⟩ := List.mem_flatten.mp ha
  obtain ⟨i, hi, rfl⟩ := List.getElem_of_mem hl
  rw [List.getElem_zipWith] at ha
  exact sq_list_nonneg _ _ a ha

theorem mse_self (xs : List (List ℝ)) : mse xs xs = 0 := by
  unfold mse mean
  have : (List.zipWith (fun f g : List ℝ => List.zipWith (fun a b => (a - b) ^ 2) f g) xs xs).flatten.sum = 0 := by
    apply List.sum_eq_zero
    intro a ha
    obtain ⟨l, hl, ha⟩ := List.mem_flatten.mp ha
    obtain ⟨i, hi, rfl⟩ := List.getElem_of_mem hl
    rw [List.getElem_zipWith] at ha
    obtain ⟨j, hj, rfl⟩ := List.getElem_of_mem ha
    simp
  rw [this, zero_div]

theorem mse_comm (xs ys : List (List ℝ)) : mse xs ys = mse ys xs := by
  unfold mse
  congr 2
  rw [List.zipWith_comm]
  congr 1
  funext f g
  rw [List.zipWith_comm]
  congr 1
  funext a b
  ring

/-- **C146**: for any decomposition into bands and a weight that is not negative the loss is never negative, symmetric, and zero for equal
batches; the features are vectors of norm below one: every band on its own and the vector of the bands' norms. -/
theorem C146_band_loss (bands : List ℝ → List (List ℝ)) (weight : ℝ) (hw : 0 ≤ weight) (batch : List (List ℝ × List ℝ)) :
    0 ≤ bandLoss bands weight batch ∧ bandLoss bands weight (batch.map Prod.swap) = bandLoss bands weight batch ∧
    ∀ xs : List (List ℝ), bandLoss bands weight (xs.map fun x => (x, x)) = 0 := by
  refine ⟨?_, ?_, fun xs => ?_⟩
  · unfold bandLoss
    exact add_nonneg (mse_nonneg _ _) (mul_nonneg (mse_nonneg _ _) hw)
  · unfold bandLoss
    simp only [List.map_map]
    rw [mse_comm, mse_comm (List.map (Prod.snd ∘ _) batch)]
    rfl
  · unfold bandLoss
    simp only [List.map_map]
    have h : ∀ f : List ℝ → List ℝ, mse (xs.map f) (xs.map f) = 0 := fun f => mse_self _
    have e1 := h (fun x => (bandFeatures bands x).1)
    have e2 := h (fun x => (bandFeatures bands x).2)
    simp only [Function.comp_def]
    rw [e1, e2]
    ring

example := C146_band_loss (fun x => [x, x]) 2 (by norm_num) [([1, 2], [3, 4])]

/-- **C146, features**: the features of a row are its bands, each divided by its norm (plus 10⁻⁸) and so of norm below one, and the norms
of the bands, of norm below one together. -/
theorem C146_features (bands : List ℝ → List (List ℝ)) (x : List ℝ) :
    ∃ fine coarse, bandFeatures bands x = (fine.flatten, coarse) ∧ fine.length = (bands x).length ∧ coarse.length = (bands x).length ∧
      List.Forall₂ (fun b f => norm2 f < 1 ∧ ∃ s > 0, f = b.map fun v => v / s) (bands x) fine ∧ norm2 coarse < 1 ∧
      ∃ s > 0, coarse = (bands x).map fun b => norm2 b / s := by
  have key : ∀ v : List ℝ, norm2 (v.map fun a => a / (norm2 v + 1 / 10 ^ 8)) < 1 := by
    intro v
    have hs : 0 < norm2 v + 1 / 10 ^ 8 := by linarith [norm2_nonneg v, show (0 : ℝ) < 1 / 10 ^ 8 by positivity]
    rw [norm2_map_div v _ hs, div_lt_one hs]
    linarith [show (0 : ℝ) < 1 / 10 ^ 8 by positivity]
  refine ⟨_, _, rfl, by simp, by simp, ?_, key _, ?_⟩
  · rw [List.forall₂_map_right_iff]
    apply List.forall₂_same.mpr
    intro b _
    exact ⟨key b, _, by linarith [norm2_nonneg b, show (0 : ℝ) < 1 / 10 ^ 8 by positivity], rfl⟩
  · refine ⟨_, ?_, by rw [List.map_map]; rfl⟩
    linarith [norm2_nonneg ((bands x).map norm2), show (0 : ℝ) < 1 / 10 ^ 8 by positivity]

/-! ## the hypotheses are met -/

/-- C135–C137: two examples of two samples. -/
example : ∃ ds v, discretized 3 [1, 0, -1, 0] = .ok (some ds) ∧
    categoricalLoss 3 (.logProbs (List.replicate 16 (-1))) 2 [1, 0, -1, 0] 2 = .ok (some v) ∧ 0 ≤ v := by
  obtain ⟨ds, v, h1, h2, -, -, h3⟩ := C137_loss 3 (by norm_num) 2 2 (by norm_num) (by norm_num) (by norm_num) (List.replicate 16 (-1)) [1, 0, -1, 0]
    (by simp) (by simp) ⟨1, by simp, by norm_num⟩
  exact ⟨ds, v, h1, h2, h3 (by intro p hp; rw [List.eq_of_mem_replicate hp]; norm_num)⟩

/-- C137, odd widths: one example of three samples. -/
example : (∃ x ∈ ([1, 0, 1] : List ℝ), x ≠ 0) ∧ (1 : Nat) < 3 - 1 := ⟨⟨1, by simp, by norm_num⟩, by norm_num⟩

/-- C142: the identity is such a critic. -/
example : LipschitzWith 1 (id : ℝ → ℝ) := LipschitzWith.id

/-- C143: one example of two numbers. -/
example : gradientPenalty 10 1 (fun xs => xs.map fun _ => [3, 4].map fun a => [a]) [1 / 2] [[[1], [2]]] [[[3], [4]]] =
    .ok (10 * (Real.sqrt (([3, 4].map fun a => a ^ 2).sum) - 1) ^ 2) :=
  C143_linear 10 [3, 4] [1 / 2] [[[1], [2]]] [[[3], [4]]] rfl rfl (by simp)

end Zounds.Loss
