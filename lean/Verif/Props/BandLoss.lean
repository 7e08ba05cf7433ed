import Verif.Model.BandLoss
import Verif.Props.Loss
import Verif.Props.Dct

/-!
# C335–C337: `BandLoss` and `DctTransform` by frequency
-/

namespace Zounds.BandLoss
open Zounds Zounds.Spectral Zounds.Loss Zounds.Conv Finset

/-! ## what is compared -/

/-- The amount of the cosine of `k + 1/2` half periods per `n` samples in a signal. -/
noncomputable def Amount (x : List ℝ) (k : ℕ) : ℝ :=
  ∑ i ∈ range x.length, x.getD i 0 * Real.cos (Real.pi * (i : ℝ) * ((k : ℝ) + 1 / 2) / x.length)

theorem torchDct_amount (x : List ℝ) (hx : x ≠ []) :
    torchDct x = .ok ((List.range x.length).map fun k : ℕ => Amount x k * Real.sqrt (2 / x.length)) := by
  unfold torchDct
  rw [if_neg hx]
  congr 1
  apply List.map_congr_left
  intro k _
  congr 1
  apply sum_congr rfl
  intro i _
  unfold dctBasis
  congr 2
  ring

/-! ## the inverse transform loses nothing -/

theorem basis_columns (n : ℕ) (hn : 0 < n) (t s : ℕ) (ht : t < n) (hs : s < n) :
    ∑ i ∈ range n, (if i = 0 then (1 / 2 : ℝ) else 1) * (Real.sqrt (2 / n) * dctBasis n i t * (Real.sqrt (2 / n) * dctBasis n i s)) =
      if s = t then 1 else 0 := by
  rw [← dctKernel_orthogonal n hn t s ht hs]
  apply sum_congr rfl
  intro i _
  rw [basis_eq _ _ _ hn, basis_eq _ _ _ hn]
  by_cases h : i = 0
  · rw [if_pos h, if_pos h]
    have := Real.mul_self_sqrt (show (0 : ℝ) ≤ 2 by norm_num)
    linear_combination (1 / 2 : ℝ) * dctKernel n i t * dctKernel n i s * this
  · rw [if_neg h, if_neg h]; ring

theorem torchIdct_eq (x : List ℝ) (hx : x ≠ []) : torchIdct x = .ok ((List.range x.length).map fun j : ℕ =>
    (∑ i ∈ range x.length, x.getD i 0 * dctBasis x.length j i) * Real.sqrt (2 / x.length)) := by
  unfold torchIdct
  rw [if_neg hx]

/-- A coefficient from the signal it was made into. -/
theorem idct_coefficient (x y : List ℝ) (h : torchIdct x = .ok y) (s : ℕ) (hs : s < x.length) :
    x.getD s 0 = ∑ j ∈ range x.length, (if j = 0 then (1 / 2 : ℝ) else 1) * (Real.sqrt (2 / x.length) * dctBasis x.length j s) * y.getD j 0 := by
  have hx : x ≠ [] := by rintro rfl; simp at hs
  have hn : 0 < x.length := by omega
  rw [torchIdct_eq x hx] at h
  injection h with h
  subst h
  have h1 : ∀ j ∈ range x.length, (if j = 0 then (1 / 2 : ℝ) else 1) * (Real.sqrt (2 / x.length) * dctBasis x.length j s) *
      ((List.range x.length).map fun j : ℕ => (∑ i ∈ range x.length, x.getD i 0 * dctBasis x.length j i) * Real.sqrt (2 / x.length)).getD j 0 =
      ∑ i ∈ range x.length, x.getD i 0 * ((if j = 0 then (1 / 2 : ℝ) else 1) * (Real.sqrt (2 / x.length) * dctBasis x.length j i *
        (Real.sqrt (2 / x.length) * dctBasis x.length j s))) := by
    intro j hj
    rw [getD_map_range _ _ _ _ (mem_range.1 hj), sum_mul, mul_sum]
    apply sum_congr rfl
    intro i _
    ring
  rw [sum_congr rfl h1, sum_comm]
  have h2 : ∀ i ∈ range x.length, ∑ j ∈ range x.length, x.getD i 0 * ((if j = 0 then (1 / 2 : ℝ) else 1) *
      (Real.sqrt (2 / x.length) * dctBasis x.length j i * (Real.sqrt (2 / x.length) * dctBasis x.length j s))) = if s = i then x.getD s 0 else 0 := by
    intro i hi
    rw [← mul_sum, basis_columns _ hn i s (mem_range.1 hi) hs]
    by_cases h : s = i
    · subst h; simp
    · rw [if_neg h, if_neg h, mul_zero]
  rw [sum_congr rfl h2, sum_ite_eq, if_pos (mem_range.2 hs)]

theorem idct_injective (x y b : List ℝ) (hl : x.length = y.length) (hx : torchIdct x = .ok b) (hy : torchIdct y = .ok b) : x = y := by
  apply List.ext_getElem hl
  intro i h1 h2
  have e1 := idct_coefficient x b hx i h1
  have e2 := idct_coefficient y b hy i h2
  rw [← hl, ← e1] at e2
  rw [List.getD_eq_getElem _ _ h1, List.getD_eq_getElem _ _ h2] at e2
  exact e2.symm

/-! ## the stops -/

theorem stop_spec (f : ℚ) (n : ℕ) (hf : 0 < f) (k : ℕ) : k < (f * (n : ℚ)).floor.toNat ↔ (k : ℚ) + 1 ≤ f * n := by
  have h0 : 0 ≤ (f * (n : ℚ)).floor := by
    rw [Rat.le_floor_iff]; push_cast; positivity
  have : k < (f * (n : ℚ)).floor.toNat ↔ ((k : ℤ) + 1) ≤ (f * (n : ℚ)).floor := by omega
  rw [this, Rat.le_floor_iff]
  push_cast
  rfl

theorem mem_stops (factors : List ℚ) (n : ℕ) (s : ℕ) : s ∈ bandStops factors n ↔ ∃ f ∈ factors, s = (f * (n : ℚ)).floor.toNat := by
  unfold bandStops
  rw [List.mem_map]
  constructor
  · rintro ⟨f, hf, rfl⟩
    exact ⟨f, (List.mergeSort_perm _ _).mem_iff.1 hf, rfl⟩
  · rintro ⟨f, hf, rfl⟩
    exact ⟨f, (List.mergeSort_perm _ _).mem_iff.2 hf, rfl⟩

theorem stops_bounds (factors : List ℚ) (n : ℕ) (hf : ∀ f ∈ factors, f ≤ 1 ∧ 1 ≤ f * n) : ∀ s ∈ bandStops factors n, 0 < s ∧ s ≤ n := by
  intro s hs
  obtain ⟨f, hf1, rfl⟩ := (mem_stops factors n s).1 hs
  obtain ⟨h1, h2⟩ := hf f hf1
  have hn : (0 : ℚ) ≤ n := by positivity
  have hpos : 0 < f := by
    by_contra h
    nlinarith [mul_nonneg (show 0 ≤ -f by linarith) hn]
  constructor
  · rw [stop_spec f n hpos 0]; push_cast; linarith
  · by_contra h
    have := (stop_spec f n hpos n).1 (by omega)
    nlinarith

/-! ## the bands of two signals -/

theorem bands_spec (x : List ℝ) (hx : x ≠ []) (stops : List ℕ) (hpos : ∀ s ∈ stops, 0 < s ∧ s ≤ x.length) :
    ∃ bands, torchDecompose x stops = .ok bands ∧ bands.length = stops.length ∧
      ∀ (i : ℕ) (s : ℕ), stops[i]? = some s → ∃ b, bands[i]? = some b ∧ b.length = s ∧
        torchIdct ((List.range s).map fun k : ℕ => if (0 :: stops).getD i 0 ≤ k then Amount x k * Real.sqrt (2 / x.length) else 0) = .ok b := by
  obtain ⟨c, bands, h1, h2, h3, h4⟩ := C56_decompose x hx stops hpos
  refine ⟨bands, h2, h3, fun i s hs => ?_⟩
  obtain ⟨b, h5, h6, h7⟩ := h4 i s hs
  refine ⟨b, h5, h6, ?_⟩
  rw [← h7]
  congr 1
  apply List.map_congr_left
  intro k hk
  have hk : k < s := List.mem_range.1 hk
  have := (hpos s (List.mem_of_getElem? hs)).2
  rw [torchDct_amount x hx] at h1
  injection h1 with h1
  rw [← h1, getD_map_range _ _ _ _ (by omega)]

/-- Two signals have the same bands exactly if they have the same amounts up to the last stop. -/
theorem bands_agree (x y : List ℝ) (hx : x ≠ []) (hl : x.length = y.length) (stops : List ℕ) (hpos : ∀ s ∈ stops, 0 < s ∧ s ≤ x.length) :
    torchDecompose x stops = torchDecompose y stops ↔ ∀ s ∈ stops, ∀ k < s, Amount x k = Amount y k := by
  have hy : y ≠ [] := by rintro rfl; exact hx (List.length_eq_zero_iff.1 hl)
  obtain ⟨bx, h1, h2, h3⟩ := bands_spec x hx stops hpos
  obtain ⟨bY, h4, h5, h6⟩ := bands_spec y hy stops (hl ▸ hpos)
  have hn : 0 < x.length := List.length_pos_of_ne_nil hx
  have hsq : Real.sqrt (2 / x.length) ≠ 0 := by
    have : (0 : ℝ) < x.length := by exact_mod_cast hn
    exact (Real.sqrt_pos.2 (by positivity)).ne'
  rw [h1, h4]
  constructor
  · intro he
    injection he with he
    subst he
    have key : ∀ (i : ℕ) (s : ℕ), stops[i]? = some s → ∀ k < s, Amount x k = Amount y k := by
      intro i
      induction i with
      | zero =>
        intro s hs k hk
        obtain ⟨b, e1, _, e3⟩ := h3 0 s hs
        obtain ⟨b', e4, _, e6⟩ := h6 0 s hs
        rw [e1] at e4
        injection e4 with e4
        subst e4
        have := idct_injective _ _ _ (by simp) e3 e6
        have := congrArg (fun l => l.getD k 0) this
        rw [getD_map_range _ _ _ _ hk, getD_map_range _ _ _ _ hk] at this
        simp only [List.getD_cons_zero, Nat.zero_le, if_true] at this
        rw [← hl] at this
        exact mul_right_cancel₀ hsq this
      | succ i ih =>
        intro s hs k hk
        have hi : i < stops.length := by
          have := (List.getElem?_eq_some_iff.1 hs).1; omega
        obtain ⟨b, e1, _, e3⟩ := h3 (i + 1) s hs
        obtain ⟨b', e4, _, e6⟩ := h6 (i + 1) s hs
        rw [e1] at e4
        injection e4 with e4
        subst e4
        by_cases hp : stops[i] ≤ k
        · have := idct_injective _ _ _ (by simp) e3 e6
          have := congrArg (fun l => l.getD k 0) this
          rw [getD_map_range _ _ _ _ hk, getD_map_range _ _ _ _ hk] at this
          rw [List.getD_cons_succ, List.getD_eq_getElem _ _ hi, if_pos hp, if_pos hp, ← hl] at this
          exact mul_right_cancel₀ hsq this
        · exact ih stops[i] (List.getElem?_eq_getElem hi) k (by omega)
    intro s hs k hk
    obtain ⟨i, hi, rfl⟩ := List.getElem_of_mem hs
    exact key i _ (List.getElem?_eq_getElem hi) k hk
  · intro h
    congr 1
    apply List.ext_getElem?
    intro i
    by_cases hi : i < stops.length
    · obtain ⟨b, e1, _, e3⟩ := h3 i stops[i] (List.getElem?_eq_getElem hi)
      obtain ⟨b', e4, _, e6⟩ := h6 i stops[i] (List.getElem?_eq_getElem hi)
      have : torchIdct ((List.range stops[i]).map fun k : ℕ => if (0 :: stops).getD i 0 ≤ k then Amount x k * Real.sqrt (2 / x.length) else 0) =
          torchIdct ((List.range stops[i]).map fun k : ℕ => if (0 :: stops).getD i 0 ≤ k then Amount y k * Real.sqrt (2 / y.length) else 0) := by
        congr 1
        apply List.map_congr_left
        intro k hk
        rw [h stops[i] (List.getElem_mem hi) k (List.mem_range.1 hk), hl]
      rw [e3, e6] at this
      injection this with this
      rw [e1, e4, this]
    · rw [List.getElem?_eq_none (by omega), List.getElem?_eq_none (by omega)]

/-! ## the loss -/

theorem list_sum_zero (l : List ℝ) (h : ∀ a ∈ l, 0 ≤ a) (hs : l.sum = 0) : ∀ a ∈ l, a = 0 := by
  induction l with
  | nil => simp
  | cons b l ih =>
    have hb := h b (by simp)
    have hl := List.sum_nonneg (fun a ha => h a (List.mem_cons_of_mem _ ha))
    rw [List.sum_cons] at hs
    intro a ha
    rcases List.mem_cons.1 ha with rfl | ha
    · linarith
    · exact ih (fun a ha => h a (List.mem_cons_of_mem _ ha)) (by linarith) a ha

theorem mse_zero (xs ys : List (List ℝ)) (hl : List.Forall₂ (fun x y => x.length = y.length) xs ys) : mse xs ys = 0 ↔ xs = ys := by
  constructor
  · intro h
    have hall : ∀ a ∈ (List.zipWith (fun f g : List ℝ => List.zipWith (fun a b => (a - b) ^ 2) f g) xs ys).flatten, a = 0 := by
      have hnn : ∀ a ∈ (List.zipWith (fun f g : List ℝ => List.zipWith (fun a b => (a - b) ^ 2) f g) xs ys).flatten, (0 : ℝ) ≤ a := by
        intro a ha
        obtain ⟨l, hl, ha⟩ := List.mem_flatten.mp ha
        obtain ⟨i, hi, rfl⟩ := List.getElem_of_mem hl
        rw [List.getElem_zipWith] at ha
        exact sq_list_nonneg _ _ a ha
      unfold mse mean at h
      rcases div_eq_zero_iff.1 h with h | h
      · exact list_sum_zero _ hnn h
      · have : (List.zipWith (fun f g : List ℝ => List.zipWith (fun a b => (a - b) ^ 2) f g) xs ys).flatten = [] :=
          List.length_eq_zero_iff.1 (by exact_mod_cast h)
        rw [this]; simp
    clear h
    induction hl with
    | nil => rfl
    | @cons x y xs ys hxy _ ih =>
      rw [List.zipWith_cons_cons, List.flatten_cons] at hall
      rw [ih fun a ha => hall a (List.mem_append_right _ ha)]
      congr 1
      apply List.ext_getElem hxy
      intro i h1 h2
      have := hall ((x[i] - y[i]) ^ 2) (List.mem_append_left _ (by
        have hz : i < (List.zipWith (fun a b : ℝ => (a - b) ^ 2) x y).length := by simp; omega
        have := List.getElem_mem hz
        rw [List.getElem_zipWith] at this
        exact this))
      have := pow_eq_zero_iff (two_ne_zero) |>.1 this
      linarith
  · rintro rfl; exact mse_self _

theorem scaled_injective (v w : List ℝ) (h : (v.map fun a => a / (norm2 v + 1 / 10 ^ 8)) = w.map fun a => a / (norm2 w + 1 / 10 ^ 8)) : v = w := by
  have he : (0 : ℝ) < 1 / 10 ^ 8 := by positivity
  obtain ⟨e, hee⟩ : ∃ e : ℝ, e = 1 / 10 ^ 8 := ⟨_, rfl⟩
  rw [← hee] at h he
  have hv : 0 < norm2 v + e := by linarith [norm2_nonneg v]
  have hw : 0 < norm2 w + e := by linarith [norm2_nonneg w]
  have h1 := congrArg norm2 h
  rw [norm2_map_div v _ hv, norm2_map_div w _ hw, div_eq_div_iff hv.ne' hw.ne'] at h1
  have h2 : norm2 v = norm2 w := by
    have : e * norm2 v = e * norm2 w := by linarith
    exact mul_left_cancel₀ he.ne' this
  have hl := congrArg List.length h
  simp only [List.length_map] at hl
  apply List.ext_getElem hl
  intro i h3 h4
  have := congrArg (fun l => l[i]?) h
  simp only [List.getElem?_map, List.getElem?_eq_getElem h3, List.getElem?_eq_getElem h4, Option.map_some, Option.some.injEq] at this
  rw [← h2, div_left_inj' hv.ne'] at this
  exact this

theorem flatten_injective (xs ys : List (List ℝ)) (h : List.Forall₂ (fun x y => x.length = y.length) xs ys) (he : xs.flatten = ys.flatten) : xs = ys := by
  induction h with
  | nil => rfl
  | @cons x y xs ys hxy _ ih =>
    rw [List.flatten_cons, List.flatten_cons] at he
    obtain ⟨e1, e2⟩ := List.append_inj he hxy
    rw [e1, ih e2]

theorem map_scaled_injective (xs ys : List (List ℝ)) (h : (xs.map fun b => b.map fun v => v / (norm2 b + 1 / 10 ^ 8)) = ys.map fun b => b.map fun v => v / (norm2 b + 1 / 10 ^ 8)) :
    xs = ys := by
  have hi : Function.Injective (fun b : List ℝ => b.map fun v => v / (norm2 b + 1 / 10 ^ 8)) := fun v w h => scaled_injective v w h
  exact (List.map_injective_iff.2 hi) h

/-- The lengths of the bands of two signals of one length. -/
theorem bands_lengths (x y : List ℝ) (hx : x ≠ []) (hl : x.length = y.length) (stops : List ℕ) (hpos : ∀ s ∈ stops, 0 < s ∧ s ≤ x.length)
    (bx bY : List (List ℝ)) (h1 : torchDecompose x stops = .ok bx) (h2 : torchDecompose y stops = .ok bY) :
    List.Forall₂ (fun x y => x.length = y.length) bx bY := by
  have hy : y ≠ [] := by rintro rfl; exact hx (List.length_eq_zero_iff.1 hl)
  obtain ⟨bx', e1, e2, e3⟩ := bands_spec x hx stops hpos
  obtain ⟨bY', e4, e5, e6⟩ := bands_spec y hy stops (hl ▸ hpos)
  rw [h1] at e1; injection e1 with e1; subst e1
  rw [h2] at e4; injection e4 with e4; subst e4
  rw [List.forall₂_iff_get]
  refine ⟨by omega, fun i hi1 hi2 => ?_⟩
  have hi : i < stops.length := by omega
  obtain ⟨b, f1, f2, _⟩ := e3 i stops[i] (List.getElem?_eq_getElem hi)
  obtain ⟨b', f3, f4, _⟩ := e6 i stops[i] (List.getElem?_eq_getElem hi)
  rw [List.getElem?_eq_getElem (by omega)] at f1 f3
  injection f1 with f1
  injection f3 with f3
  simp only [List.get_eq_getElem]
  rw [f1, f3, f2, f4]

theorem lossDct_ok (factors : List ℚ) (n : ℕ) (hf : ∀ f ∈ factors, f ≤ 1 ∧ 1 ≤ f * n) (hn : 0 < n) (weight : ℝ) (batch : List (List ℝ × List ℝ))
    (hb : ∀ p ∈ batch, p.1.length = n ∧ p.2.length = n) :
    bandLossDct factors weight batch = .ok (bandLoss (bandsOf factors) weight batch) ∧
    ∀ p ∈ batch, torchDecompose p.1 (bandStops factors n) = .ok (bandsOf factors p.1) ∧ torchDecompose p.2 (bandStops factors n) = .ok (bandsOf factors p.2) := by
  have hall : ∀ x : List ℝ, x.length = n → torchDecompose x (bandStops factors x.length) = .ok (bandsOf factors x) := by
    intro x hx
    have hne : x ≠ [] := by rintro rfl; simp at hx; omega
    obtain ⟨b, h1, _⟩ := bands_spec x hne (bandStops factors x.length) (by rw [hx]; exact stops_bounds factors n hf)
    unfold bandsOf
    rw [h1]
  have m1 := mapM_ok (fun p : List ℝ × List ℝ => torchDecompose p.1 (bandStops factors p.1.length)) id (fun p => bandsOf factors p.1) batch
    (fun p hp => hall p.1 (hb p hp).1)
  have m2 := mapM_ok (fun p : List ℝ × List ℝ => torchDecompose p.2 (bandStops factors p.2.length)) id (fun p => bandsOf factors p.2) batch
    (fun p hp => hall p.2 (hb p hp).2)
  rw [List.map_id] at m1 m2
  constructor
  · unfold bandLossDct
    rw [m1, m2]
  · intro p hp
    have h1 := hall p.1 (hb p hp).1
    have h2 := hall p.2 (hb p hp).2
    rw [(hb p hp).1] at h1
    rw [(hb p hp).2] at h2
    exact ⟨h1, h2⟩

/-- **C335**: `BandLoss` of inputs and targets of `n` samples is zero exactly if each input has the same amounts of every frequency as its target, up to the
largest factor of all; above it they may differ in any way. -/
theorem C335_zero (factors : List ℚ) (top : ℚ) (htop : top ∈ factors) (hmax : ∀ f ∈ factors, f ≤ top) (n : ℕ) (hf : ∀ f ∈ factors, f ≤ 1 ∧ 1 ≤ f * n)
    (weight : ℝ) (hw : 0 ≤ weight) (batch : List (List ℝ × List ℝ)) (hb : ∀ p ∈ batch, p.1.length = n ∧ p.2.length = n) :
    ∃ v, bandLossDct factors weight batch = .ok v ∧ 0 ≤ v ∧
      (v = 0 ↔ ∀ p ∈ batch, ∀ k : ℕ, (k : ℚ) + 1 ≤ top * n → Amount p.1 k = Amount p.2 k) := by
  have hn : 0 < n := by
    by_contra h
    have : n = 0 := by omega
    have := (hf top htop).2
    subst n
    norm_num at this
  have hpos : ∀ f ∈ factors, 0 < f := by
    intro f hf1
    obtain ⟨_, h2⟩ := hf f hf1
    have hn' : (0 : ℚ) ≤ n := by positivity
    by_contra h
    nlinarith [mul_nonneg (show 0 ≤ -f by linarith) hn']
  obtain ⟨h1, h2⟩ := lossDct_ok factors n hf hn weight batch hb
  refine ⟨_, h1, (C146_band_loss _ weight hw batch).1, ?_⟩
  have hrow : ∀ p ∈ batch, (bandsOf factors p.1 = bandsOf factors p.2 ↔ ∀ k : ℕ, (k : ℚ) + 1 ≤ top * n → Amount p.1 k = Amount p.2 k) := by
    intro p hp
    have hne : p.1 ≠ [] := by
      intro h; have := (hb p hp).1; rw [h] at this; simp at this; omega
    have := bands_agree p.1 p.2 hne ((hb p hp).1.trans (hb p hp).2.symm) (bandStops factors n) (by rw [(hb p hp).1]; exact stops_bounds factors n hf)
    rw [(h2 p hp).1, (h2 p hp).2] at this
    constructor
    · intro he k hk
      refine this.1 (by rw [he]) _ ((mem_stops factors n _).2 ⟨top, htop, rfl⟩) k ((stop_spec top n (hpos top htop) k).2 hk)
    · intro h
      have := this.2 (by
        intro s hs k hk
        obtain ⟨f, hf1, rfl⟩ := (mem_stops factors n s).1 hs
        have hk := (stop_spec f n (hpos f hf1) k).1 hk
        have hn' : (0 : ℚ) ≤ n := by positivity
        exact h k (hk.trans (mul_le_mul_of_nonneg_right (hmax f hf1) hn')))
      injection this
  have hlen : ∀ p ∈ batch, List.Forall₂ (fun x y => x.length = y.length) (bandsOf factors p.1) (bandsOf factors p.2) := by
    intro p hp
    have hne : p.1 ≠ [] := by
      intro h; have := (hb p hp).1; rw [h] at this; simp at this; omega
    exact bands_lengths p.1 p.2 hne ((hb p hp).1.trans (hb p hp).2.symm) (bandStops factors n) (by rw [(hb p hp).1]; exact stops_bounds factors n hf)
      _ _ (h2 p hp).1 (h2 p hp).2
  constructor
  · intro h p hp
    refine (hrow p hp).1 ?_
    unfold bandLoss at h
    simp only [] at h
    have hnn := mse_nonneg ((batch.map fun p => bandFeatures (bandsOf factors) p.1).map Prod.fst) ((batch.map fun p => bandFeatures (bandsOf factors) p.2).map Prod.fst)
    have hnn2 := mul_nonneg (mse_nonneg ((batch.map fun p => bandFeatures (bandsOf factors) p.1).map Prod.snd)
      ((batch.map fun p => bandFeatures (bandsOf factors) p.2).map Prod.snd)) hw
    have hz : mse ((batch.map fun p => bandFeatures (bandsOf factors) p.1).map Prod.fst)
      ((batch.map fun p => bandFeatures (bandsOf factors) p.2).map Prod.fst) = 0 := by linarith
    have hfine : ∀ p ∈ batch, List.Forall₂ (fun x y => x.length = y.length)
        ((bandsOf factors p.1).map fun b => b.map fun v => v / (norm2 b + 1 / 10 ^ 8)) ((bandsOf factors p.2).map fun b => b.map fun v => v / (norm2 b + 1 / 10 ^ 8)) := by
      intro p hp
      rw [List.forall₂_map_left_iff, List.forall₂_map_right_iff]
      exact (hlen p hp).imp fun a b h => by simpa using h
    have hflat : ∀ (u w : List (List ℝ)), List.Forall₂ (fun x y => x.length = y.length) u w → u.flatten.length = w.flatten.length := by
      intro u w h
      induction h with
      | nil => rfl
      | cons h _ ih => rw [List.flatten_cons, List.flatten_cons, List.length_append, List.length_append, h, ih]
    rw [mse_zero _ _ (by
      simp only [List.map_map]
      rw [List.forall₂_map_left_iff, List.forall₂_map_right_iff]
      apply List.forall₂_same.2
      intro p hp
      exact hflat _ _ (hfine p hp))] at hz
    simp only [List.map_map] at hz
    have := (List.map_inj_left).1 hz p hp
    exact map_scaled_injective _ _ (flatten_injective _ _ (hfine p hp) this)
  · intro h
    have he : ∀ p ∈ batch, bandFeatures (bandsOf factors) p.1 = bandFeatures (bandsOf factors) p.2 := by
      intro p hp
      unfold bandFeatures
      rw [(hrow p hp).2 (h p hp)]
    have : (batch.map fun p => bandFeatures (bandsOf factors) p.1) = batch.map fun p => bandFeatures (bandsOf factors) p.2 :=
      List.map_congr_left he
    unfold bandLoss
    simp only [this, mse_self]
    ring

theorem half_and_whole : ∀ f ∈ ([1, 1 / 2] : List ℚ), f ≤ 1 ∧ 1 ≤ f * ((4 : ℕ) : ℚ) := by
  intro f hf
  simp only [List.mem_cons, List.not_mem_nil, or_false] at hf
  rcases hf with rfl | rfl <;> norm_num

example := C335_zero [1, 1 / 2] 1 (by simp) (fun f hf => (half_and_whole f hf).1) 4 half_and_whole 1 (by norm_num) [([1, 2, 3, 4], [1, 2, 3, 5])] (by simp)

/-! ### which factors tell all signals apart -/

theorem amounts_determine (x y : List ℝ) (hl : x.length = y.length) (h : ∀ k < x.length, Amount x k = Amount y k) : x = y := by
  by_cases hx : x = []
  · subst hx; exact (List.length_eq_zero_iff.1 hl.symm).symm
  have hy : y ≠ [] := by rintro rfl; exact hx (List.length_eq_zero_iff.1 hl)
  have he : torchDct x = torchDct y := by
    rw [torchDct_amount x hx, torchDct_amount y hy, ← hl]
    congr 1
    apply List.map_congr_left
    intro k hk
    rw [h k (List.mem_range.1 hk)]
  obtain ⟨c, h1, _, h2⟩ := C56_inverse x hx
  obtain ⟨c', h3, _, h4⟩ := C56_inverse y hy
  rw [← he, h1] at h3
  injection h3 with h3
  subst h3
  rw [h2] at h4
  injection h4 with h4
  apply List.ext_getElem hl
  intro i hi1 hi2
  have := congrArg (fun l => l.getD i 0) h4
  rw [getD_map_range _ _ _ _ hi1, getD_map_range _ _ _ _ hi2, List.getD_eq_getElem _ _ hi1, List.getD_eq_getElem _ _ hi2] at this
  exact mul_left_cancel₀ (by split <;> norm_num) this

/-- A signal with one coefficient only. -/
theorem single_coefficient (n s : ℕ) (hs : s < n) : ∃ y : List ℝ, y.length = n ∧ Amount y s ≠ 0 ∧ ∀ k < n, k ≠ s → Amount y k = 0 := by
  have hn : 0 < n := by omega
  have hsq : Real.sqrt (2 / n) ≠ 0 := by
    have : (0 : ℝ) < n := by exact_mod_cast hn
    exact (Real.sqrt_pos.2 (by positivity)).ne'
  have hlen : ((List.range n).map fun i : ℕ => (if i = 0 then (1 / 2 : ℝ) else 1) * (Real.sqrt (2 / n) * dctBasis n i s)).length = n := by simp
  have key : ∀ k < n, Amount ((List.range n).map fun i : ℕ => (if i = 0 then (1 / 2 : ℝ) else 1) * (Real.sqrt (2 / n) * dctBasis n i s)) k * Real.sqrt (2 / n) =
      if s = k then 1 else 0 := by
    intro k hk
    rw [← basis_columns n hn k s hk hs]
    unfold Amount
    rw [hlen, sum_mul]
    apply sum_congr rfl
    intro i hi
    rw [getD_map_range _ _ _ _ (mem_range.1 hi)]
    have : Real.cos (Real.pi * (i : ℝ) * ((k : ℝ) + 1 / 2) / n) = dctBasis n i k := by
      unfold dctBasis; congr 1; ring
    rw [this]
    ring
  refine ⟨_, hlen, ?_, fun k hk hks => ?_⟩
  · intro h
    have := key s hs
    rw [h, if_pos rfl, zero_mul] at this
    exact zero_ne_one this
  · have := key k hk
    rw [if_neg (Ne.symm hks)] at this
    exact (mul_eq_zero.1 this).resolve_right hsq

/-- **C335, which signals it can tell apart**: a loss of zero means equal signals, for all signals of `n` samples, exactly if `1` is among the factors. -/
theorem C335_tells_apart (factors : List ℚ) (hne : factors ≠ []) (n : ℕ) (hf : ∀ f ∈ factors, f ≤ 1 ∧ 1 ≤ f * n) (weight : ℝ) (hw : 0 ≤ weight) :
    (∀ x y : List ℝ, x.length = n → y.length = n → bandLossDct factors weight [(x, y)] = .ok 0 → x = y) ↔ 1 ∈ factors := by
  obtain ⟨top, htop, hmax⟩ : ∃ top ∈ factors, ∀ f ∈ factors, f ≤ top := by
    clear hf
    induction factors with
    | nil => exact absurd rfl hne
    | cons a l ih =>
      by_cases hl : l = []
      · subst hl; exact ⟨a, by simp, by simp⟩
      · obtain ⟨t, h1, h2⟩ := ih hl
        rcases le_total a t with h | h
        · exact ⟨t, by simp [h1], by intro f hf; rcases List.mem_cons.1 hf with rfl | hf; exacts [h, h2 f hf]⟩
        · exact ⟨a, by simp, by intro f hf; rcases List.mem_cons.1 hf with rfl | hf; exacts [le_refl _, (h2 f hf).trans h]⟩
  have hn : 0 < n := by
    by_contra h
    have h0 : n = 0 := by omega
    have := (hf top htop).2
    rw [h0] at this
    norm_num at this
  have hn' : (0 : ℚ) < n := by exact_mod_cast hn
  constructor
  · intro h
    by_contra h1
    have hlt : top < 1 := lt_of_le_of_ne (hf top htop).1 (by rintro rfl; exact h1 htop)
    obtain ⟨y, hy, hy1, hy2⟩ := single_coefficient n (n - 1) (by omega)
    obtain ⟨v, hv, _, hv2⟩ := C335_zero factors top htop hmax n hf weight hw [(List.replicate n 0, y)] (by simp [hy])
    have hzero : ∀ k, Amount (List.replicate n (0 : ℝ)) k = 0 := by
      intro k
      unfold Amount
      apply sum_eq_zero
      intro i _
      rw [List.getD_eq_getElem?_getD, List.getElem?_replicate]
      split <;> simp
    have hv0 : v = 0 := by
      rw [hv2]
      intro p hp k hk
      rw [List.mem_singleton] at hp
      subst hp
      simp only []
      have hk' : k < n - 1 := by
        have h3 : (k : ℚ) + 1 < n := by nlinarith
        have : k + 1 < n := by exact_mod_cast h3
        omega
      rw [hzero, hy2 k (by omega) (by omega)]
    rw [hv0] at hv
    have := h _ y (by simp) hy hv
    rw [← this] at hy1
    exact hy1 (hzero _)
  · intro h1 x y hx hy h
    obtain ⟨v, hv, _, hv2⟩ := C335_zero factors 1 h1 (fun f hf1 => (hf f hf1).1) n hf weight hw [(x, y)] (by simp [hx, hy])
    rw [h] at hv
    injection hv with hv
    have := hv2.1 hv.symm (x, y) (by simp)
    apply amounts_determine x y (by omega)
    intro k hk
    apply this
    rw [one_mul]
    exact_mod_cast (by omega : k + 1 ≤ n)

example : ∀ x y : List ℝ, x.length = 4 → y.length = 4 → bandLossDct [1, 1 / 2] 1 [(x, y)] = .ok 0 → x = y :=
  (C335_tells_apart [1, 1 / 2] (by simp) 4 half_and_whole 1 (by norm_num)).2 (by simp)

example : ¬ ∀ x y : List ℝ, x.length = 4 → y.length = 4 → bandLossDct [1 / 2] 1 [(x, y)] = .ok 0 → x = y := fun h => by
  have := (C335_tells_apart [1 / 2] (by simp) 4 (fun f hf => half_and_whole f (by simp_all)) 1 (by norm_num)).1 h
  norm_num at this

/-! ## volume -/

theorem amount_scale (c : ℝ) (x : List ℝ) (k : ℕ) : Amount (x.map fun a => c * a) k = c * Amount x k := by
  unfold Amount
  rw [List.length_map, mul_sum]
  apply sum_congr rfl
  intro i hi
  have hi := mem_range.1 hi
  rw [List.getD_eq_getElem _ _ (by simpa using hi), List.getD_eq_getElem _ _ hi, List.getElem_map]
  ring

theorem idct_scale (c : ℝ) (x b : List ℝ) (h : torchIdct x = .ok b) : torchIdct (x.map fun a => c * a) = .ok (b.map fun a => c * a) := by
  have hx : x ≠ [] := by rintro rfl; simp [torchIdct] at h
  rw [torchIdct_eq x hx] at h
  injection h with h
  rw [torchIdct_eq _ (by simpa using hx), ← h]
  simp only [List.length_map, List.map_map]
  congr 1
  apply List.map_congr_left
  intro j _
  simp only [Function.comp_apply]
  rw [sum_mul, sum_mul, mul_sum]
  apply sum_congr rfl
  intro i hi
  have hi := mem_range.1 hi
  rw [List.getD_eq_getElem _ _ (by simpa using hi), List.getD_eq_getElem _ _ hi, List.getElem_map]
  ring

theorem bands_scale (c : ℝ) (x : List ℝ) (hx : x ≠ []) (stops : List ℕ) (hpos : ∀ s ∈ stops, 0 < s ∧ s ≤ x.length) (bands : List (List ℝ))
    (h : torchDecompose x stops = .ok bands) : torchDecompose (x.map fun a => c * a) stops = .ok (bands.map fun b => b.map fun a => c * a) := by
  obtain ⟨b1, e1, e2, e3⟩ := bands_spec x hx stops hpos
  obtain ⟨b2, e4, e5, e6⟩ := bands_spec (x.map fun a => c * a) (by simpa using hx) stops (by simpa using hpos)
  rw [h] at e1
  injection e1 with e1
  subst e1
  rw [e4]
  congr 1
  apply List.ext_getElem?
  intro i
  by_cases hi : i < stops.length
  · obtain ⟨b, f1, _, f3⟩ := e3 i stops[i] (List.getElem?_eq_getElem hi)
    obtain ⟨b', f4, _, f6⟩ := e6 i stops[i] (List.getElem?_eq_getElem hi)
    have := idct_scale c _ _ f3
    rw [List.map_map] at this
    have e : ((fun a => c * a) ∘ fun k : ℕ => if (0 :: stops).getD i 0 ≤ k then Amount x k * Real.sqrt (2 / x.length) else 0) =
        fun k : ℕ => if (0 :: stops).getD i 0 ≤ k then Amount (x.map fun a => c * a) k * Real.sqrt (2 / (x.map fun a => c * a).length) else 0 := by
      funext k
      simp only [Function.comp_apply, List.length_map]
      rw [amount_scale]
      split <;> ring
    rw [e, f6] at this
    injection this with this
    rw [List.getElem?_map, f1, f4, this]
    rfl
  · rw [List.getElem?_eq_none (by omega), List.getElem?_eq_none (by simp; omega)]

theorem norm2_scale (c : ℝ) (hc : 0 ≤ c) (b : List ℝ) : norm2 (b.map fun a => c * a) = c * norm2 b := by
  unfold norm2
  rw [List.map_map]
  have : ((fun b : ℝ => b ^ 2) ∘ fun a => c * a) = fun a => c ^ 2 * a ^ 2 := by
    funext a; simp only [Function.comp_apply]; ring
  rw [this, List.sum_map_mul_left, Real.sqrt_mul (by positivity), Real.sqrt_sq hc]

theorem coord_le_norm (b : List ℝ) (a : ℝ) (ha : a ∈ b) : |a| ≤ norm2 b := by
  unfold norm2
  apply Real.abs_le_sqrt
  exact List.single_le_sum (l := b.map fun b => b ^ 2) (by intro x hx; obtain ⟨y, _, rfl⟩ := List.mem_map.1 hx; positivity) _ (List.mem_map.2 ⟨a, ha, rfl⟩)

/-- How far dividing by norm plus `e` is from dividing by the norm. -/
theorem scaled_close (e d c N a : ℝ) (he : 0 < e) (hd : 0 < d) (hc : 0 < c) (h1 : d ≤ N) (h2 : d ≤ c * N) (ha : |a| ≤ N) :
    (a / (N + e) - c * a / (c * N + e)) ^ 2 ≤ (e / d) ^ 2 := by
  have hN : 0 < N := by linarith
  have hcN : 0 < c * N := by linarith
  have e1 : a / (N + e) - c * a / (c * N + e) = (a / N) * (e / (c * N + e) - e / (N + e)) := by
    field_simp
    ring
  have h3 : |a / N| ≤ 1 := by rw [abs_div, abs_of_pos hN, div_le_one hN]; exact ha
  have b1 : 0 < e / (c * N + e) := by positivity
  have b2 : 0 < e / (N + e) := by positivity
  have b3 : e / (c * N + e) ≤ e / d := div_le_div_of_nonneg_left he.le hd (by linarith)
  have b4 : e / (N + e) ≤ e / d := div_le_div_of_nonneg_left he.le hd (by linarith)
  have h4 : |e / (c * N + e) - e / (N + e)| ≤ e / d := by rw [abs_le]; constructor <;> linarith
  rw [e1, ← sq_abs, abs_mul]
  apply pow_le_pow_left₀ (by positivity)
  calc |a / N| * |e / (c * N + e) - e / (N + e)| ≤ 1 * (e / d) := mul_le_mul h3 h4 (abs_nonneg _) (by norm_num)
    _ = e / d := one_mul _

theorem mean_le (l : List ℝ) (M : ℝ) (hM : 0 ≤ M) (h : ∀ a ∈ l, a ≤ M) : mean l ≤ M := by
  unfold mean
  by_cases hl : l = []
  · subst hl; simpa using hM
  · have : (0 : ℝ) < l.length := by exact_mod_cast List.length_pos_of_ne_nil hl
    rw [div_le_iff₀ this]
    have := List.sum_le_card_nsmul l M h
    rw [nsmul_eq_mul] at this
    linarith

/-- **C336**: an input and a target that differ in volume only have a loss of next to nothing: if no band of theirs has a norm below `d`, each of the two
terms of the loss is at most `(10⁻⁸ / d)²`. -/
theorem C336_volume (factors : List ℚ) (n : ℕ) (hn : 0 < n) (hf : ∀ f ∈ factors, f ≤ 1 ∧ 1 ≤ f * n) (weight : ℝ) (hw : 0 ≤ weight) (d : ℝ) (hd : 0 < d)
    (batch : List (List ℝ × ℝ)) (hb : ∀ p ∈ batch, p.1.length = n ∧ 0 < p.2)
    (hloud : ∀ p ∈ batch, ∀ bands, torchDecompose p.1 (bandStops factors n) = .ok bands → ∀ b ∈ bands, d ≤ norm2 b ∧ d ≤ p.2 * norm2 b) :
    ∃ v, bandLossDct factors weight (batch.map fun p => (p.1, p.1.map fun a => p.2 * a)) = .ok v ∧ v ≤ (1 + weight) * (1 / 10 ^ 8 / d) ^ 2 := by
  obtain ⟨h1, h2⟩ := lossDct_ok factors n hf hn weight (batch.map fun p => (p.1, p.1.map fun a => p.2 * a)) (by
    intro q hq
    obtain ⟨p, hp, rfl⟩ := List.mem_map.1 hq
    simp only [List.length_map]
    exact ⟨(hb p hp).1, (hb p hp).1⟩)
  refine ⟨_, h1, ?_⟩
  have he : (0 : ℝ) < 1 / 10 ^ 8 := by positivity
  obtain ⟨e, hee⟩ : ∃ e : ℝ, e = 1 / 10 ^ 8 := ⟨_, rfl⟩
  have hbands : ∀ p ∈ batch, torchDecompose p.1 (bandStops factors n) = .ok (bandsOf factors p.1) ∧
      bandsOf factors (p.1.map fun a => p.2 * a) = (bandsOf factors p.1).map fun b => b.map fun a => p.2 * a := by
    intro p hp
    have hm := h2 (p.1, p.1.map fun a => p.2 * a) (List.mem_map.2 ⟨p, hp, rfl⟩)
    have hne : p.1 ≠ [] := by
      intro h; have := (hb p hp).1; rw [h] at this; simp at this; omega
    have := bands_scale p.2 p.1 hne (bandStops factors n) (by rw [(hb p hp).1]; exact stops_bounds factors n hf) _ hm.1
    rw [hm.2] at this
    injection this with this
    exact ⟨hm.1, this⟩
  have hfine : mse (batch.map fun p => (bandFeatures (bandsOf factors) p.1).1) (batch.map fun p => (bandFeatures (bandsOf factors) (p.1.map fun a => p.2 * a)).1) ≤ (e / d) ^ 2 := by
    unfold mse
    apply mean_le _ _ (by positivity)
    intro a ha
    obtain ⟨l, hl, ha⟩ := List.mem_flatten.1 ha
    rw [List.zipWith_map, List.zipWith_self] at hl
    obtain ⟨p, hp, rfl⟩ := List.mem_map.1 hl
    obtain ⟨g1, g2⟩ := hbands p hp
    unfold bandFeatures at ha
    rw [g2] at ha
    simp only [List.map_map] at ha
    have hq : ∀ bs : List (List ℝ), (∀ b ∈ bs, d ≤ norm2 b ∧ d ≤ p.2 * norm2 b) →
        a ∈ List.zipWith (fun a b => (a - b) ^ 2) (bs.map fun b => b.map fun v => v / (norm2 b + 1 / 10 ^ 8)).flatten
          (bs.map ((fun b => b.map fun v => v / (norm2 b + 1 / 10 ^ 8)) ∘ fun b => b.map fun a => p.2 * a)).flatten → a ≤ (e / d) ^ 2 := by
      intro bs
      induction bs with
      | nil => intro _ h; simp at h
      | cons b bs ih =>
        intro hbs h
        rw [List.map_cons, List.map_cons, List.flatten_cons, List.flatten_cons, List.zipWith_append (by simp)] at h
        rcases List.mem_append.1 h with h | h
        · simp only [Function.comp_apply, List.map_map] at h
          rw [List.zipWith_map, List.zipWith_self] at h
          obtain ⟨v, hv, rfl⟩ := List.mem_map.1 h
          simp only [Function.comp_apply]
          rw [norm2_scale _ (hb p hp).2.le, ← hee]
          exact scaled_close e d p.2 (norm2 b) v (hee ▸ he) hd (hb p hp).2 (hbs b (by simp)).1 (hbs b (by simp)).2 (coord_le_norm b v hv)
        · exact ih (fun b hb => hbs b (by simp [hb])) h
    exact hq _ (hloud p hp _ g1) ha
  have hcoarse : mse (batch.map fun p => (bandFeatures (bandsOf factors) p.1).2) (batch.map fun p => (bandFeatures (bandsOf factors) (p.1.map fun a => p.2 * a)).2) ≤ (e / d) ^ 2 := by
    unfold mse
    apply mean_le _ _ (by positivity)
    intro a ha
    obtain ⟨l, hl, ha⟩ := List.mem_flatten.1 ha
    rw [List.zipWith_map, List.zipWith_self] at hl
    obtain ⟨p, hp, rfl⟩ := List.mem_map.1 hl
    obtain ⟨g1, g2⟩ := hbands p hp
    unfold bandFeatures at ha
    rw [g2] at ha
    have hnorms : ((bandsOf factors p.1).map fun b => b.map fun a => p.2 * a).map norm2 = ((bandsOf factors p.1).map norm2).map fun a => p.2 * a := by
      rw [List.map_map, List.map_map]
      apply List.map_congr_left
      intro b _
      exact norm2_scale _ (hb p hp).2.le b
    simp only [] at ha
    rw [hnorms, norm2_scale _ (hb p hp).2.le] at ha
    simp only [List.map_map] at ha
    rw [List.zipWith_map, List.zipWith_self] at ha
    obtain ⟨b, hb1, rfl⟩ := List.mem_map.1 ha
    simp only [Function.comp_apply]
    have hl := hloud p hp _ g1 b hb1
    have hle : norm2 b ≤ norm2 ((bandsOf factors p.1).map norm2) := by
      have := coord_le_norm _ _ (List.mem_map.2 ⟨b, hb1, rfl⟩ : norm2 b ∈ (bandsOf factors p.1).map norm2)
      rwa [abs_of_nonneg (norm2_nonneg b)] at this
    rw [← hee]
    exact scaled_close e d p.2 _ _ (hee ▸ he) hd (hb p hp).2 (hl.1.trans hle)
      (hl.2.trans (mul_le_mul_of_nonneg_left hle (hb p hp).2.le)) (by rw [abs_of_nonneg (norm2_nonneg b)]; exact hle)
  rw [← hee]
  unfold bandLoss
  simp only [List.map_map, Function.comp_def]
  have := mul_le_mul_of_nonneg_right hcoarse hw
  linarith

/-- The single band of the factor one. -/
theorem whole_band (x : List ℝ) (hx : x ≠ []) :
    torchDecompose x (bandStops [1] x.length) = .ok [(List.range x.length).map fun j => (if j = 0 then 2 else 1) * x.getD j 0] := by
  have hs : bandStops [1] x.length = [x.length] := by
    unfold bandStops
    rw [List.mergeSort_singleton, List.map_singleton, one_mul]
    have : ((x.length : ℚ)).floor = x.length := Int.floor_natCast (R := ℚ) x.length
    rw [this]
    rfl
  have hn : 0 < x.length := List.length_pos_of_ne_nil hx
  rw [hs]
  obtain ⟨c, bands, h1, h2, h3, h4⟩ := C56_decompose x hx [x.length] (by simpa using hn)
  obtain ⟨c', e1, e2, e3⟩ := C56_inverse x hx
  rw [h1] at e1
  injection e1 with e1
  subst e1
  obtain ⟨b, f1, _, f3⟩ := h4 0 x.length rfl
  have hc : ((List.range x.length).map fun k : ℕ => if (0 :: [x.length]).getD 0 0 ≤ k then c.getD k 0 else 0) = c := by
    apply List.ext_getElem (by simp [e2])
    intro i hi1 hi2
    simp [List.getD_eq_getElem _ _ hi2, hi2]
  rw [hc, e3] at f3
  injection f3 with f3
  rw [h2]
  congr 1
  match bands, h3 with
  | [b'], _ =>
    simp only [List.getElem?_cons_zero, Option.some.injEq] at f1
    rw [f1, f3]

/-- Three samples and the same three times as loud; the norm of their only band is more than one. -/
example : ∃ v, bandLossDct [1] 1 [([1, 2, 3], [1, 2, 3].map fun a => 3 * a)] = .ok v ∧ v ≤ (1 + 1) * (1 / 10 ^ 8 / 1) ^ 2 :=
  C336_volume [1] 3 (by norm_num) (by intro f hf; rw [List.mem_singleton] at hf; subst hf; norm_num) 1 (by norm_num) 1 (by norm_num) [([1, 2, 3], 3)]
    (by simp) (by
      intro p hp bands h
      rw [List.mem_singleton] at hp
      subst hp
      have := h.symm.trans (whole_band [1, 2, 3] (by simp))
      injection this with this
      subst this
      intro b hb
      rw [List.mem_singleton] at hb
      have h1 : 1 ≤ norm2 b := by
        subst hb
        refine le_trans ?_ (coord_le_norm _ 2 (by simp [List.range_succ]))
        norm_num
      exact ⟨h1, by simp only []; linarith⟩)

/-! ## tones -/

/-- `n` samples of a sum of cosines, `a k` the strength of the one with `k + 1/2` half periods in `n` samples. -/
noncomputable def Tones (n : ℕ) (K : ℕ) (a : ℕ → ℝ) : List ℝ :=
  (List.range n).map fun i : ℕ => ∑ k ∈ range K, a k * Real.cos (Real.pi * (i : ℝ) * ((k : ℝ) + 1 / 2) / n)

theorem cosine_products (n : ℕ) (hn : 0 < n) (l k : ℕ) (hl : l < n) (hk : k < n) :
    ∑ i ∈ range n, Real.cos (Real.pi * (i : ℝ) * ((l : ℝ) + 1 / 2) / n) * Real.cos (Real.pi * (i : ℝ) * ((k : ℝ) + 1 / 2) / n) =
      (if k = l then (n : ℝ) / 2 else 0) + 1 / 2 := by
  have hn' : (0 : ℝ) < n := by exact_mod_cast hn
  have hcos : ∀ i k : ℕ, Real.cos (Real.pi * (i : ℝ) * ((k : ℝ) + 1 / 2) / n) = dctBasis n i k := by
    intro i k; unfold dctBasis; congr 1; ring
  have hsq : Real.sqrt (2 / n) * Real.sqrt (2 / n) = 2 / n := Real.mul_self_sqrt (by positivity)
  have h := basis_columns n hn l k hl hk
  have e : ∀ i ∈ range n, Real.cos (Real.pi * (i : ℝ) * ((l : ℝ) + 1 / 2) / n) * Real.cos (Real.pi * (i : ℝ) * ((k : ℝ) + 1 / 2) / n) =
      (n / 2) * ((if i = 0 then (1 / 2 : ℝ) else 1) * (Real.sqrt (2 / n) * dctBasis n i l * (Real.sqrt (2 / n) * dctBasis n i k))) + if i = 0 then 1 / 2 else 0 := by
    intro i _
    rw [hcos, hcos]
    have e2 : Real.sqrt (2 / n) * dctBasis n i l * (Real.sqrt (2 / n) * dctBasis n i k) = 2 / n * (dctBasis n i l * dctBasis n i k) := by
      linear_combination dctBasis n i l * dctBasis n i k * hsq
    rw [e2]
    by_cases h0 : i = 0
    · subst h0
      have e3 : ∀ k : ℕ, dctBasis n 0 k = 1 := by intro k; unfold dctBasis; simp
      rw [if_pos rfl, if_pos rfl, e3, e3]
      field_simp
      norm_num
    · rw [if_neg h0, if_neg h0]
      field_simp
      ring
  rw [sum_congr rfl e, sum_add_distrib, ← mul_sum, h, sum_ite_eq', if_pos (mem_range.2 hn)]
  split <;> ring

/-- The amounts of a sum of tones: half a window of each tone's strength, and half the first sample on top of every one. -/
theorem amount_tones (n : ℕ) (hn : 0 < n) (a : ℕ → ℝ) (k : ℕ) (hk : k < n) :
    Amount (Tones n n a) k = n / 2 * a k + (∑ l ∈ range n, a l) / 2 := by
  unfold Amount
  have hlen : (Tones n n a).length = n := by simp [Tones]
  rw [hlen]
  have e : ∀ i ∈ range n, (Tones n n a).getD i 0 * Real.cos (Real.pi * (i : ℝ) * ((k : ℝ) + 1 / 2) / n) =
      ∑ l ∈ range n, a l * (Real.cos (Real.pi * (i : ℝ) * ((l : ℝ) + 1 / 2) / n) * Real.cos (Real.pi * (i : ℝ) * ((k : ℝ) + 1 / 2) / n)) := by
    intro i hi
    unfold Tones
    rw [getD_map_range _ _ _ _ (mem_range.1 hi), sum_mul]
    apply sum_congr rfl
    intro l _
    ring
  rw [sum_congr rfl e, sum_comm]
  have e2 : ∀ l ∈ range n, ∑ i ∈ range n, a l * (Real.cos (Real.pi * (i : ℝ) * ((l : ℝ) + 1 / 2) / n) * Real.cos (Real.pi * (i : ℝ) * ((k : ℝ) + 1 / 2) / n)) =
      (if k = l then n / 2 * a k else 0) + a l / 2 := by
    intro l hl
    rw [← mul_sum, cosine_products n hn l k (mem_range.1 hl) hk]
    by_cases h : k = l
    · subst h; rw [if_pos rfl, if_pos rfl]; ring
    · rw [if_neg h, if_neg h]; ring
  rw [sum_congr rfl e2, sum_add_distrib, sum_ite_eq, if_pos (mem_range.2 hk), sum_div]

theorem tones_first (n K : ℕ) (hn : 0 < n) (a : ℕ → ℝ) : (Tones n K a).getD 0 0 = ∑ l ∈ range K, a l := by
  unfold Tones
  rw [getD_map_range _ _ _ _ hn]
  simp

/-- **C337**: every signal is the sum of cosines of `1/2, 3/2, …` half periods in exactly one way. -/
theorem C337_tones (x : List ℝ) : ∃ a : ℕ → ℝ, x = Tones x.length x.length a ∧
    ∀ b : ℕ → ℝ, x = Tones x.length x.length b → ∀ k < x.length, b k = a k := by
  rcases Nat.eq_zero_or_pos x.length with h0 | hn
  · refine ⟨fun _ => 0, ?_, fun b _ k hk => by omega⟩
    rw [List.length_eq_zero_iff.1 h0]
    rfl
  have hn' : (0 : ℝ) < x.length := by exact_mod_cast hn
  have huniq : ∀ b : ℕ → ℝ, x = Tones x.length x.length b → ∀ k < x.length, b k = 2 / x.length * (Amount x k - x.getD 0 0 / 2) := by
    intro b hb k hk
    have h1 := amount_tones x.length hn b k hk
    have h2 := tones_first x.length x.length hn b
    rw [← hb] at h1 h2
    rw [← h2] at h1
    rw [h1]
    field_simp
    ring
  refine ⟨fun k => 2 / x.length * (Amount x k - x.getD 0 0 / 2), ?_, fun b hb k hk => huniq b hb k hk⟩
  have hsum : ∑ k ∈ range x.length, Amount x k = x.length * x.getD 0 0 := by
    obtain ⟨c, h1, h2, h3⟩ := C56_inverse x (List.length_pos_iff.1 hn)
    have hc := h1.symm.trans (torchDct_amount x (List.length_pos_iff.1 hn))
    injection hc with hc
    have hcl : c ≠ [] := by intro h; rw [h] at h2; simp at h2; omega
    rw [torchIdct_eq c hcl, h2] at h3
    injection h3 with h3
    have := congrArg (fun l => l.getD 0 0) h3
    rw [getD_map_range _ _ _ _ hn, getD_map_range _ _ _ _ hn] at this
    rw [if_pos rfl, hc, sum_mul] at this
    have e : ∀ i ∈ range x.length, ((List.range x.length).map fun k : ℕ => Amount x k * Real.sqrt (2 / x.length)).getD i 0 * dctBasis x.length 0 i *
        Real.sqrt (2 / x.length) = Amount x i * (2 / x.length) := by
      intro i hi
      rw [getD_map_range _ _ _ _ (mem_range.1 hi)]
      have e3 : dctBasis x.length 0 i = 1 := by unfold dctBasis; simp
      rw [e3]
      have hsq : Real.sqrt (2 / x.length) * Real.sqrt (2 / x.length) = 2 / x.length := Real.mul_self_sqrt (by positivity)
      linear_combination Amount x i * hsq
    rw [sum_congr rfl e, ← sum_mul] at this
    field_simp at this
    linarith
  have hl : x.length = (Tones x.length x.length fun k => 2 / x.length * (Amount x k - x.getD 0 0 / 2)).length := by simp [Tones]
  apply amounts_determine x _ hl
  intro k hk
  rw [amount_tones x.length hn _ k hk, ← mul_sum, sum_sub_distrib, hsum, sum_const, card_range, nsmul_eq_mul]
  field_simp
  ring

example := C337_tones [1, 2, 3]

/-- **C337, resampling**: `dct_resample` of a sum of tones to `m` samples is the sum of the tones below the new limit over the same stretch of time, `√(n/m)` times
as loud, and of a multiple of the first sample of every one of them. -/
theorem C337_resample (n m : ℕ) (hn : 0 < n) (hm : 0 < m) (a : ℕ → ℝ) :
    dctResample (Tones n n a) m = .ok ((Tones m (min n m) fun k => a k + (Tones n n a).getD 0 0 / n).map fun v => Real.sqrt (n / m) * v) := by
  have hn' : (0 : ℝ) < n := by exact_mod_cast hn
  have hm' : (0 : ℝ) < m := by exact_mod_cast hm
  have hlen : (Tones n n a).length = n := by simp [Tones]
  have hne : Tones n n a ≠ [] := by intro h; rw [h] at hlen; simp at hlen; omega
  unfold dctResample
  rw [torchDct_amount _ hne]
  simp only []
  rw [torchIdct_eq _ (by intro h; have := congrArg List.length h; simp at this; omega)]
  simp only [List.length_map, List.length_range, hlen]
  congr 1
  have hT : ∀ b : ℕ → ℝ, Tones m (min n m) b = (List.range m).map fun i : ℕ => ∑ k ∈ range (min n m), b k * Real.cos (Real.pi * (i : ℝ) * ((k : ℝ) + 1 / 2) / m) :=
    fun b => rfl
  rw [hT, List.map_map]
  apply List.map_congr_left
  intro j _
  simp only [Function.comp_apply]
  have hroot : Real.sqrt (2 / n) * Real.sqrt (2 / m) * (n / 2) = Real.sqrt (n / m) := by
    rw [← Real.sqrt_mul (by positivity)]
    have : (n / 2 : ℝ) = Real.sqrt ((n / 2) ^ 2) := (Real.sqrt_sq (by positivity)).symm
    rw [this, ← Real.sqrt_mul (by positivity)]
    congr 1
    field_simp
  have hsub : ∑ i ∈ range m, ((List.range m).map fun k : ℕ => ((List.range n).map fun k : ℕ => Amount (Tones n n a) k * Real.sqrt (2 / n)).getD k 0).getD i 0 * dctBasis m j i =
      ∑ i ∈ range (min n m), Amount (Tones n n a) i * Real.sqrt (2 / n) * dctBasis m j i := by
    have hz : ∀ i ∈ range m, i ∉ range (min n m) →
        ((List.range m).map fun k : ℕ => ((List.range n).map fun k : ℕ => Amount (Tones n n a) k * Real.sqrt (2 / n)).getD k 0).getD i 0 * dctBasis m j i = 0 := by
      intro i hi hi2
      rw [mem_range] at hi hi2
      rw [getD_map_range _ _ _ _ hi, getD_map_range_ge _ _ _ _ (by omega), zero_mul]
    rw [← sum_subset (range_subset_range.2 (min_le_right n m)) hz]
    apply sum_congr rfl
    intro i hi
    have hi := mem_range.1 hi
    rw [getD_map_range _ _ _ _ (by omega), getD_map_range _ _ _ _ (by omega)]
  rw [hsub, sum_mul, mul_sum]
  apply sum_congr rfl
  intro k hk
  have hk := mem_range.1 hk
  rw [amount_tones n hn a k (by omega), tones_first n n hn]
  have hcos : Real.cos (Real.pi * (j : ℝ) * ((k : ℝ) + 1 / 2) / m) = dctBasis m j k := by
    unfold dctBasis; congr 1; ring
  rw [hcos, ← hroot]
  field_simp

example := C337_resample 4 6 (by norm_num) (by norm_num) fun k => k

/-- **C337, when it keeps the sound**: resampled to `m` samples a signal is the sum of the same tones, those below the new limit, each `√(n/m)` times as loud, exactly if
its first sample is zero. -/
theorem C337_faithful (n m : ℕ) (hn : 0 < n) (hm : 0 < m) (a : ℕ → ℝ) :
    dctResample (Tones n n a) m = .ok ((Tones m (min n m) a).map fun v => Real.sqrt (n / m) * v) ↔ (Tones n n a).getD 0 0 = 0 := by
  have hn' : (0 : ℝ) < n := by exact_mod_cast hn
  have hm' : (0 : ℝ) < m := by exact_mod_cast hm
  rw [C337_resample n m hn hm a]
  constructor
  · intro h
    injection h with h
    have h2 := congrArg (fun l => l.getD 0 0) h
    have hlen : ∀ b : ℕ → ℝ, 0 < (Tones m (min n m) b).length := by intro b; simpa [Tones] using hm
    have hget : ∀ b : ℕ → ℝ, ((Tones m (min n m) b).map fun v => Real.sqrt (n / m) * v).getD 0 0 = Real.sqrt (n / m) * ∑ l ∈ range (min n m), b l := by
      intro b
      rw [List.getD_eq_getElem _ _ (by simpa using hlen b), List.getElem_map, ← List.getD_eq_getElem _ 0 (hlen b), tones_first m _ hm]
    simp only [hget] at h2
    have hs : Real.sqrt (n / m) ≠ 0 := (Real.sqrt_pos.2 (by positivity)).ne'
    have h3 := mul_left_cancel₀ hs h2
    rw [sum_add_distrib, sum_const, card_range, nsmul_eq_mul] at h3
    have h4 : ((min n m : ℕ) : ℝ) * ((Tones n n a).getD 0 0 / n) = 0 := by linarith
    have h5 : ((min n m : ℕ) : ℝ) ≠ 0 := by
      have : 0 < min n m := by omega
      exact_mod_cast this.ne'
    rcases mul_eq_zero.1 h4 with h6 | h6
    · exact absurd h6 h5
    · exact (div_eq_zero_iff.1 h6).resolve_right hn'.ne'
  · intro h
    rw [h]
    simp

/-- A tone alone, of strength one, starts with one. -/
example : ¬ dctResample (Tones 4 4 fun k => if k = 1 then 1 else 0) 8 =
    .ok ((Tones 8 4 fun k => if k = 1 then 1 else 0).map fun v => Real.sqrt ((4 : ℕ) / (8 : ℕ)) * v) := fun h => by
  have := (C337_faithful 4 8 (by norm_num) (by norm_num) fun k => if k = 1 then 1 else 0).1 h
  rw [tones_first 4 4 (by norm_num)] at this
  simp at this

/-- Two tones of opposite strengths start with zero. -/
example := (C337_faithful 4 8 (by norm_num) (by norm_num) fun k => if k = 1 then 1 else if k = 2 then -1 else 0).2 (by
  rw [tones_first 4 4 (by norm_num)]
  simp [sum_range_succ])

end Zounds.BandLoss
