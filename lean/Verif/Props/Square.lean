import Verif.Model.Square
import Verif.Lemmas.Time
import Mathlib.Algebra.BigOperators.Group.Finset.Basic
import Mathlib.Algebra.Order.BigOperators.Group.Finset
import Mathlib.Data.List.GetD
import Mathlib.Tactic.Linarith
import Mathlib.Tactic.FieldSimp
import Mathlib.Tactic.Ring

/-!
# C154–C157: square views of frequency-adaptive transforms
-/

namespace Zounds.Square

open Zounds.Time

theorem mapE_ok {β γ : Type} {f : β → Except PyErr γ} {l : List β} {r : List γ} :
    mapE f l = .ok r ↔ List.Forall₂ (fun b c => f b = .ok c) l r := by
  induction l generalizing r with
  | nil =>
    simp only [mapE, Except.ok.injEq, List.forall₂_nil_left_iff]
    exact eq_comm
  | cons b bs ih =>
    simp only [mapE]
    cases hb : f b with
    | error e =>
      constructor
      · intro h; cases h
      · intro h; cases h with | cons h1 _ => rw [hb] at h1; cases h1
    | ok c =>
      cases hbs : mapE f bs with
      | error e =>
        constructor
        · intro h; cases h
        · intro h
          cases h with
          | cons h1 h2 => rw [ih.mpr h2] at hbs; cases hbs
      | ok cs =>
        constructor
        · intro h; cases h; exact .cons hb (ih.mp hbs)
        · intro h
          cases h with
          | cons h1 h2 =>
            rw [hb] at h1; cases h1
            have := ih.mpr h2
            rw [hbs] at this; cases this; rfl

theorem mapE_exists {β γ : Type} {f : β → Except PyErr γ} {l : List β} (h : ∀ b ∈ l, ∃ c, f b = .ok c) : ∃ r, mapE f l = .ok r := by
  induction l with
  | nil => exact ⟨[], rfl⟩
  | cons b bs ih =>
    obtain ⟨c, hc⟩ := h b (by simp)
    obtain ⟨cs, hcs⟩ := ih fun x hx => h x (List.mem_cons_of_mem _ hx)
    exact ⟨c :: cs, by simp [mapE, hc, hcs]⟩

/-! ## C154: resampled bands -/

/-- `m` is the greatest number of `l`. -/
def IsMax (l : List ℝ) (m : ℝ) : Prop := m ∈ l ∧ ∀ x ∈ l, x ≤ m

theorem foldl_max (xs : List ℝ) (x : ℝ) : IsMax (x :: xs) (xs.foldl max x) := by
  induction xs generalizing x with
  | nil => exact ⟨by simp, by simp⟩
  | cons y ys ih =>
    obtain ⟨h1, h2⟩ := ih (max x y)
    rw [List.foldl_cons]
    refine ⟨?_, ?_⟩
    · rcases List.mem_cons.mp h1 with h | h
      · rw [h]
        rcases max_choice x y with e | e <;> rw [e] <;> simp
      · exact List.mem_cons_of_mem _ (List.mem_cons_of_mem _ h)
    · intro z hz
      have hm := h2 (max x y) (by simp)
      rcases List.mem_cons.mp hz with rfl | hz
      · exact (le_max_left _ _).trans hm
      · rcases List.mem_cons.mp hz with rfl | hz
        · exact (le_max_right _ _).trans hm
        · exact h2 z (List.mem_cons_of_mem _ hz)

theorem rowMax_ok {l : List ℝ} (h : l ≠ []) : ∃ m, rowMax l = .ok m ∧ IsMax l m := by
  cases l with
  | nil => exact absurd rfl h
  | cons x xs => exact ⟨_, rfl, foldl_max xs x⟩

theorem IsMax.unique {l : List ℝ} {a b : ℝ} (ha : IsMax l a) (hb : IsMax l b) : a = b :=
  le_antisymm (hb.2 a ha.1) (ha.2 b hb.1)

theorem IsMax.map_div {l : List ℝ} {m s : ℝ} (h : IsMax l m) (hs : 0 < s) : IsMax (l.map fun v => v / s) (m / s) := by
  refine ⟨List.mem_map_of_mem h.1, ?_⟩
  intro x hx
  obtain ⟨y, hy, rfl⟩ := List.mem_map.mp hx
  exact div_le_div_of_nonneg_right (h.2 y hy) hs.le

/-- **C154, scale**: a frame of a band that is resampled keeps its loudest value: the result is the resampled frame divided by one positive number, and
its greatest value `m'` is within the tolerance of the greatest value `m` of the frame, `m' (r + eps (m + eps)) = r (m + eps)` where `r` is the
resampled maximum, so never above `m + eps`.  For frames whose greatest value is not negative and resampled ones whose greatest value is positive. -/
theorem C154_scale (R : List ℝ → Nat → List ℝ) (eps : ℝ) (he : 0 < eps) (n : Nat) (row : List ℝ) (m r : ℝ) (hm : IsMax row m)
    (hr : IsMax (R row n) r) (hm0 : 0 ≤ m) (hr0 : 0 < r) :
    ∃ y s m', resampleRow R eps n row = .ok y ∧ 0 < s ∧ y = (R row n).map (fun v => v / s) ∧ IsMax y m' ∧
      m' * (r + eps * (m + eps)) = r * (m + eps) ∧ m' ≤ m + eps := by
  have h1 : row ≠ [] := by rintro rfl; simp [IsMax] at hm
  have h2 : R row n ≠ [] := by intro h; rw [h] at hr; simp [IsMax] at hr
  obtain ⟨a, ha, ha'⟩ := rowMax_ok h1
  obtain ⟨b, hb, hb'⟩ := rowMax_ok h2
  have ea := ha'.unique hm
  have eb := hb'.unique hr
  subst ea eb
  have hs : 0 < b / (a + eps) + eps := by positivity
  have hme : 0 < a + eps := by linarith
  refine ⟨_, b / (a + eps) + eps, b / (b / (a + eps) + eps), ?_, hs, rfl, hb'.map_div hs, ?_, ?_⟩
  · unfold resampleRow
    rw [ha, hb]
  · field_simp
  · rw [div_le_iff₀ hs]
    have : (a + eps) * (b / (a + eps)) = b := by field_simp
    nlinarith

example := C154_scale (fun r n => (List.range n).map fun i => r.getD i 0) (1 / 10) (by norm_num) 2 [1, 3, 2] 3 3 ⟨by simp, by simp; norm_num⟩ ⟨by simp [List.range_succ], by simp [List.range_succ]⟩ (by norm_num) (by norm_num)

theorem flatten_get {l : List (List ℝ)} {n : Nat} (hl : ∀ r ∈ l, r.length = n) (t k : Nat) (ht : t < l.length) (hk : k < n) :
    l.flatten.getD (t * n + k) 0 = (l.getD t []).getD k 0 := by
  induction l generalizing t with
  | nil => simp at ht
  | cons r l ih =>
    have hr := hl r (by simp)
    rw [List.flatten_cons]
    cases t with
    | zero =>
      rw [Nat.zero_mul, Nat.zero_add, List.getD_append _ _ _ _ (by omega)]
      simp
    | succ t =>
      rw [List.getD_append_right _ _ _ _ (by rw [hr, Nat.succ_mul]; omega), hr]
      have : (t + 1) * n + k - n = t * n + k := by rw [Nat.succ_mul]; omega
      rw [this, ih (fun q hq => hl q (List.mem_cons_of_mem _ hq)) t (by simpa using ht)]
      simp

/-- **C154, layout**: for bands of `frames` frames each, none of them empty, and any resampling to `n ≥ 1` coefficients: the square view has `frames`
frames of `n` rows with one number per band, entry (t, k, b) is coefficient `k` of the resampled frame `t` of band `b`, and the second axis has the
period of the frames' duration over `n`, rounded. -/
theorem C154_layout (R : List ℝ → Nat → List ℝ) (eps : ℝ) (td : Dim) (frames n : Nat) (hn : 0 < n) (bands : List (List (List ℝ)))
    (hb : bands ≠ []) (hf : ∀ b ∈ bands, b.length = frames) (hne : ∀ b ∈ bands, ∀ row ∈ b, row ≠ [])
    (hR : ∀ row, (R row n).length = n) :
    ∃ arr, square R eps td frames n bands = .ok (arr, roundHalfEven td.duration n) ∧ arr.length = frames ∧
      ∀ t : Nat, t < frames → (arr.getD t []).length = n ∧ ∀ k : Nat, k < n →
        ((arr.getD t []).getD k []).length = bands.length ∧ ∀ b : Nat, b < bands.length →
          ∃ y, resampleRow R eps n ((bands.getD b []).getD t []) = .ok y ∧ ((arr.getD t []).getD k []).getD b 0 = y.getD k 0 := by
  have hrow : ∀ row : List ℝ, row ≠ [] → ∃ y, resampleRow R eps n row = .ok y ∧ y.length = n := by
    intro row hrow
    obtain ⟨a, ha, -⟩ := rowMax_ok hrow
    obtain ⟨b, hb, -⟩ := rowMax_ok (l := R row n) (by
      intro h
      have := hR row
      rw [h] at this
      simp at this
      omega)
    exact ⟨_, by unfold resampleRow; rw [ha, hb], by simp [hR]⟩
  obtain ⟨res, hres⟩ := mapE_exists (f := mapE (resampleRow R eps n)) (l := bands) (by
    intro b hbm
    apply mapE_exists
    intro row hr
    obtain ⟨y, hy, -⟩ := hrow row (hne b hbm row hr)
    exact ⟨y, hy⟩)
  have hF := mapE_ok.mp hres
  have hlen : res.length = bands.length := hF.length_eq.symm
  have hband : ∀ b : Nat, b < bands.length → (res.getD b []).length = frames ∧ (∀ r ∈ res.getD b [], r.length = n) ∧
      ∀ t : Nat, t < frames → resampleRow R eps n ((bands.getD b []).getD t []) = .ok ((res.getD b []).getD t []) := by
    intro b hbl
    have hb2 : b < res.length := by omega
    have e1 : bands.getD b [] = bands[b] := List.getD_eq_getElem _ _ hbl
    have e2 : res.getD b [] = res[b] := List.getD_eq_getElem _ _ hb2
    have h := (List.forall₂_iff_get.mp hF).2 b hbl hb2
    simp only [List.get_eq_getElem] at h
    have hG := mapE_ok.mp h
    have hl : res[b].length = frames := by rw [← hG.length_eq, hf _ (List.getElem_mem hbl)]
    rw [e1, e2]
    refine ⟨hl, ?_, ?_⟩
    · intro r hr
      obtain ⟨i, hi, rfl⟩ := List.getElem_of_mem hr
      have hi' : i < bands[b].length := by rw [hG.length_eq]; exact hi
      have h1 := (List.forall₂_iff_get.mp hG).2 i hi' hi
      simp only [List.get_eq_getElem] at h1
      obtain ⟨y, hy, hyl⟩ := hrow bands[b][i] (hne _ (List.getElem_mem hbl) _ (List.getElem_mem hi'))
      rw [hy] at h1
      cases h1
      exact hyl
    · intro t ht
      have ht1 : t < bands[b].length := by rw [hf _ (List.getElem_mem hbl)]; exact ht
      have ht2 : t < res[b].length := by omega
      rw [List.getD_eq_getElem _ _ ht1, List.getD_eq_getElem _ _ ht2]
      have h1 := (List.forall₂_iff_get.mp hG).2 t ht1 ht2
      simpa only [List.get_eq_getElem] using h1
  refine ⟨_, by unfold square; rw [hres]; simp only [if_neg hb]; rfl, by simp, fun t ht => ?_⟩
  set stacked := (List.range (frames * n)).map fun i => (res.map List.flatten).map fun b => b.getD i 0 with hst
  have hsl : stacked.length = frames * n := by simp [hst]
  have hge : ((List.range frames).map fun t => (stacked.drop (t * n)).take n).getD t [] = (stacked.drop (t * n)).take n := by
    rw [List.getD_eq_getElem _ _ (by simpa using ht)]
    simp
  have hle : t * n + n ≤ frames * n := by
    calc t * n + n = (t + 1) * n := by ring
      _ ≤ frames * n := Nat.mul_le_mul_right _ (by omega)
  rw [hge]
  refine ⟨by rw [List.length_take, List.length_drop, hsl]; omega, fun k hk => ?_⟩
  have hrowk : ((stacked.drop (t * n)).take n).getD k [] = (res.map List.flatten).map fun b => b.getD (t * n + k) 0 := by
    rw [List.getD_eq_getElem?_getD, List.getElem?_take, if_pos hk, List.getElem?_drop, hst, List.getElem?_map,
      List.getElem?_range (by omega)]
    rfl
  rw [hrowk]
  refine ⟨by simp [hlen], fun b hbl => ?_⟩
  obtain ⟨h1, h2, h3⟩ := hband b hbl
  refine ⟨_, h3 t ht, ?_⟩
  have hb2 : b < res.length := by omega
  rw [List.map_map, List.getD_eq_getElem _ _ (by simpa using hb2)]
  simp only [List.getElem_map, Function.comp_apply]
  have e2 : res.getD b [] = res[b] := List.getD_eq_getElem _ _ hb2
  rw [← e2]
  exact flatten_get h2 t k (by omega) hk

example := C154_layout (fun r n => (List.range n).map fun i => r.getD i 0) (1 / 10) ⟨2, 4, 2⟩ 2 3 (by decide) [[[1], [2]], [[3, 4], [5, 6]]] (by simp) (by simp) (by simp) (by simp)

/-! ## C155: overlap-add -/

/-- Number `b` of row `s`. -/
def entry (out : List (List ℝ)) (s b : Nat) : ℝ := (out.getD s []).getD b 0

theorem addChunk_ok {β : Type} (add : β → β → β) (d : β) (out chunk : List β) (start : Nat) (h : start + chunk.length ≤ out.length) :
    ∃ out', addChunk add out start chunk = .ok out' ∧ out'.length = out.length ∧
      ∀ s : Nat, s < out.length → out'.getD s d =
        if start ≤ s ∧ s < start + chunk.length then add (out.getD s d) (chunk.getD (s - start) d) else out.getD s d := by
  have hl : min (start + chunk.length) out.length - start = chunk.length := by omega
  refine ⟨_, by unfold addChunk; simp only [hl]; rw [if_pos trivial], ?_, ?_⟩
  · simp only [List.length_append, List.length_zipWith, List.length_take, List.length_drop]
    omega
  · intro s hs
    rw [List.append_assoc]
    by_cases h1 : s < start
    · rw [if_neg (by omega), List.getD_append _ _ _ _ (by rw [List.length_take]; omega)]
      rw [List.getD_eq_getElem?_getD, List.getD_eq_getElem?_getD, List.getElem?_take, if_pos h1]
    · rw [List.getD_append_right _ _ _ _ (by rw [List.length_take]; omega)]
      have e1 : (out.take start).length = start := by rw [List.length_take]; omega
      rw [e1]
      have e2 : (List.zipWith add ((out.drop start).take chunk.length) chunk).length = chunk.length := by
        rw [List.length_zipWith, List.length_take, List.length_drop]
        omega
      by_cases h2 : s < start + chunk.length
      · rw [if_pos ⟨by omega, h2⟩, List.getD_append _ _ _ _ (by omega)]
        have h3 : s - start < chunk.length := by omega
        rw [List.getD_eq_getElem _ _ (by omega), List.getElem_zipWith, List.getD_eq_getElem _ _ hs, List.getD_eq_getElem _ _ h3]
        congr 1
        rw [List.getElem_take, List.getElem_drop]
        congr 1
        omega
      · rw [if_neg (by omega), List.getD_append_right _ _ _ _ (by omega), e2]
        rw [List.getD_eq_getElem?_getD, List.getD_eq_getElem?_getD, List.getElem?_drop]
        congr 2
        omega

theorem addChunks_ok (step n B : Nat) (chunks : List (List (List ℝ))) (hc : ∀ c ∈ chunks, c.length = n ∧ ∀ r ∈ c, r.length = B) :
    ∀ (i0 : Nat) (out : List (List ℝ)), (∀ r ∈ out, r.length = B) →
      (∀ j : Nat, j < chunks.length → step * (i0 + j) + n ≤ out.length) →
      ∃ out', addChunks (List.zipWith (· + ·)) step i0 chunks out = .ok out' ∧ out'.length = out.length ∧ (∀ r ∈ out', r.length = B) ∧
        ∀ s b : Nat, s < out.length → b < B → entry out' s b = entry out s b +
          ∑ j ∈ Finset.range chunks.length, if step * (i0 + j) ≤ s ∧ s < step * (i0 + j) + n then
            entry (chunks.getD j []) (s - step * (i0 + j)) b else 0 := by
  induction chunks with
  | nil => intro i0 out ho _; exact ⟨out, rfl, rfl, ho, by simp⟩
  | cons c cs ih =>
    intro i0 out ho hfit
    obtain ⟨hcl, hcr⟩ := hc c (by simp)
    have hfit0 := hfit 0 (by simp)
    obtain ⟨o1, h1, l1, g1⟩ := addChunk_ok (List.zipWith (· + · : ℝ → ℝ → ℝ)) [] out c (step * i0) (by rw [hcl]; simpa using hfit0)
    have hrow : ∀ s : Nat, s < out.length → (out.getD s []).length = B := by
      intro s hs
      rw [List.getD_eq_getElem _ _ hs]
      exact ho _ (List.getElem_mem hs)
    have hcrow : ∀ s : Nat, s < n → (c.getD s []).length = B := by
      intro s hs
      rw [List.getD_eq_getElem _ _ (by omega)]
      exact hcr _ (List.getElem_mem _)
    have ho1 : ∀ r ∈ o1, r.length = B := by
      intro r hr
      obtain ⟨s, hs, rfl⟩ := List.getElem_of_mem hr
      have hs' : s < out.length := by omega
      have := g1 s hs'
      rw [List.getD_eq_getElem _ _ hs] at this
      rw [this]
      split_ifs with hin
      · rw [List.length_zipWith, hrow s hs', hcrow _ (by omega), Nat.min_self]
      · exact hrow s hs'
    obtain ⟨o2, h2, l2, r2, g2⟩ := ih (fun q hq => hc q (List.mem_cons_of_mem _ hq)) (i0 + 1) o1 ho1 (by
      intro j hj
      have := hfit (j + 1) (by simpa using hj)
      rw [l1]
      have e : i0 + 1 + j = i0 + (j + 1) := by omega
      rw [e]
      exact this)
    refine ⟨o2, by simp only [addChunks, h1, h2], by rw [l2, l1], r2, ?_⟩
    intro s b hs hb
    rw [g2 s b (by omega) hb, List.length_cons, Finset.sum_range_succ']
    have e0 : entry o1 s b = entry out s b + if step * i0 ≤ s ∧ s < step * i0 + n then entry c (s - step * i0) b else 0 := by
      unfold entry
      rw [g1 s hs, hcl]
      split_ifs with hin
      · have hb1 : b < (out.getD s []).length := by rw [hrow s hs]; exact hb
        have hb2 : b < (c.getD (s - step * i0) []).length := by rw [hcrow _ (by omega)]; exact hb
        rw [List.getD_eq_getElem _ _ (by rw [List.length_zipWith]; omega), List.getElem_zipWith,
          List.getD_eq_getElem _ _ hb1, List.getD_eq_getElem _ _ hb2]
      · rw [add_zero]
    rw [e0]
    have e1 : ∀ j, i0 + 1 + j = i0 + (j + 1) := fun j => by omega
    simp only [e1, List.getD_cons_succ, List.getD_cons_zero, Nat.add_zero]
    ring

theorem entry_zeros (first B s b : Nat) : entry (List.replicate first (List.replicate B 0)) s b = 0 := by
  unfold entry
  simp only [List.getD_eq_getElem?_getD, List.getElem?_replicate]
  split_ifs <;> simp [List.getElem?_replicate]
  split_ifs <;> rfl

/-- **C155**: for frames that overlap by half or more, with a whole number `step` of rows in the overlap, overlap-add succeeds; the result has
`step (frames + 1)` rows, and row `s` is the sum of the rows of all frames that cover it, frame `i` being put at row `step * i`. -/
theorem C155_overlap_add (td : Dim) (n B step : Nat) (arr : List (List (List ℝ))) (harr : ∀ c ∈ arr, c.length = n ∧ ∀ r ∈ c, r.length = B)
    (hf : 0 < td.frequency) (hov : 2 * td.frequency ≤ td.duration) (hstep : (step : Int) * td.duration = n * (td.duration - td.frequency)) :
    ∃ out, overlapAdd td n B arr = .ok out ∧ out.length = step * (arr.length + 1) ∧ (∀ r ∈ out, r.length = B) ∧
      ∀ s b : Nat, s < out.length → b < B → entry out s b =
        ∑ j ∈ Finset.range arr.length, if step * j ≤ s ∧ s < step * j + n then entry (arr.getD j []) (s - step * j) b else 0 := by
  have hd : 0 < td.duration := by omega
  have hst : (((n : Int) * (td.duration - td.frequency)) / td.duration).toNat = step := by
    rw [← hstep, Int.mul_ediv_cancel _ hd.ne']
    simp
  have hfirst : (roundHalfEven (((arr.length : Int) * n + n) * (td.duration - td.frequency)) td.duration).toNat = step * (arr.length + 1) := by
    have : ((arr.length : Int) * n + n) * (td.duration - td.frequency) = ((step * (arr.length + 1) : Nat) : Int) * td.duration := by
      push_cast
      calc ((arr.length : Int) * n + n) * (td.duration - td.frequency) = (arr.length + 1) * (n * (td.duration - td.frequency)) := by ring
        _ = _ := by rw [← hstep]; ring
    rw [this, round_mul _ _ hd]
    exact Int.toNat_natCast _
  have hn2 : n ≤ 2 * step := by
    have h1 : (n : Int) * td.duration ≤ 2 * step * td.duration := by nlinarith
    have h2 : (n : Int) ≤ 2 * step := le_of_mul_le_mul_right h1 hd
    exact_mod_cast h2
  obtain ⟨out, h1, l1, r1, g1⟩ := addChunks_ok step n B arr harr 0 (List.replicate (step * (arr.length + 1)) (List.replicate B 0))
    (by intro r hr; rw [List.eq_of_mem_replicate hr]; simp) (by
      intro j hj
      rw [List.length_replicate, Nat.zero_add]
      have : step * (j + 2) ≤ step * (arr.length + 1) := Nat.mul_le_mul_left _ (by omega)
      rw [Nat.mul_add] at this
      omega)
  refine ⟨out, ?_, by rw [l1, List.length_replicate], r1, ?_⟩
  · unfold overlapAdd
    simp only [hst, hfirst]
    rw [if_neg (by omega), if_neg (by omega), h1]
  · intro s b hs hb
    rw [g1 s b (by rw [← l1]; exact hs) hb, entry_zeros, zero_add]
    simp only [Nat.zero_add]

example := C155_overlap_add ⟨2, 4, 2⟩ 2 1 1 [[[(5 : ℝ)], [1]], [[2], [3]]] (by simp) (by norm_num) (by norm_num) (by norm_num)

/-- **C155, half overlap**: for frames that overlap by exactly half and an even number `n` of rows every frame is put where it belongs, `n / 2` rows after the
one before. -/
theorem C155_half (td : Dim) (n B : Nat) (arr : List (List (List ℝ))) (harr : ∀ c ∈ arr, c.length = n ∧ ∀ r ∈ c, r.length = B)
    (hf : 0 < td.frequency) (hov : td.duration = 2 * td.frequency) (hn : n % 2 = 0) :
    ∃ out, overlapAdd td n B arr = .ok out ∧ out.length = n / 2 * (arr.length + 1) ∧
      ∀ s b : Nat, s < out.length → b < B → entry out s b =
        ∑ j ∈ Finset.range arr.length, if n / 2 * j ≤ s ∧ s < n / 2 * j + n then entry (arr.getD j []) (s - n / 2 * j) b else 0 := by
  obtain ⟨out, h1, h2, -, h3⟩ := C155_overlap_add td n B (n / 2) arr harr hf (by omega) (by
    rw [hov]
    have : (n : Int) = 2 * ((n / 2 : Nat) : Int) := by omega
    rw [this]
    ring_nf)
  exact ⟨out, h1, h2, h3⟩

/-- **C154, nothing to scale by**: without bands, with a frame without coefficients, or with no coefficients asked for, ValueError. -/
theorem C154_refused (R : List ℝ → Nat → List ℝ) (eps : ℝ) (td : Dim) (frames n : Nat) (bands : List (List (List ℝ)))
    (hR : ∀ row, (R row n).length = n)
    (h : bands = [] ∨ (∃ b ∈ bands, [] ∈ b) ∨ (n = 0 ∧ ∃ b ∈ bands, b ≠ [])) :
    square R eps td frames n bands = .error .valueError := by
  have hrow : ∀ row : List ℝ, (∃ y, resampleRow R eps n row = .ok y) ∨ resampleRow R eps n row = .error .valueError := by
    intro row
    unfold resampleRow
    cases h1 : rowMax row with
    | error e =>
      cases row with
      | nil => right; simp only [rowMax] at h1; cases h1; rfl
      | cons a l => simp [rowMax] at h1
    | ok a =>
      cases h2 : rowMax (R row n) with
      | error e =>
        cases hr : R row n with
        | nil => right; rw [hr] at h2; simp only [rowMax] at h2; cases h2; rfl
        | cons a l => rw [hr] at h2; simp [rowMax] at h2
      | ok b => left; exact ⟨_, rfl⟩
  have hmap : ∀ {β γ : Type} (f : β → Except PyErr γ), (∀ b, (∃ y, f b = .ok y) ∨ f b = .error .valueError) →
      ∀ l : List β, ((∃ ys, mapE f l = .ok ys) ∨ mapE f l = .error .valueError) ∧
        ((∃ b ∈ l, f b = .error .valueError) → mapE f l = .error .valueError) := by
    intro β γ f hf l
    induction l with
    | nil => exact ⟨Or.inl ⟨[], rfl⟩, by simp⟩
    | cons b l ih =>
      rw [mapE]
      rcases hf b with ⟨y, hy⟩ | hy
      · rw [hy]
        rcases ih.1 with ⟨ys, hys⟩ | hys
        · simp only [hys]
          refine ⟨Or.inl ⟨_, rfl⟩, ?_⟩
          rintro ⟨x, hx, hxe⟩
          rcases List.mem_cons.1 hx with rfl | hx
          · rw [hy] at hxe; cases hxe
          · rw [ih.2 ⟨x, hx, hxe⟩] at hys; cases hys
        · simp [hys]
      · rw [hy]; simp
  have hin := hmap (resampleRow R eps n) hrow
  have hout := hmap (mapE (resampleRow R eps n)) (fun l => (hin l).1) bands
  have hbad : ∀ row : List ℝ, row = [] ∨ n = 0 → resampleRow R eps n row = .error .valueError := by
    intro row hr
    rcases hrow row with ⟨y, hy⟩ | hy
    · unfold resampleRow at hy
      rcases hr with rfl | rfl
      · simp [rowMax] at hy
      · have : R row 0 = [] := List.length_eq_zero_iff.1 (hR row)
        rw [this] at hy
        cases hm : rowMax row with
        | error e => rw [hm] at hy; cases hy
        | ok a => rw [hm] at hy; cases hy
    · exact hy
  unfold square
  rcases h with rfl | ⟨b, hb, hnil⟩ | ⟨hn, b, hb, hne⟩
  · simp [mapE]
  · rw [hout.2 ⟨b, hb, (hin b).2 ⟨[], hnil, hbad [] (Or.inl rfl)⟩⟩]
  · obtain ⟨r, hr⟩ := List.exists_mem_of_ne_nil b hne
    rw [hout.2 ⟨b, hb, (hin b).2 ⟨r, hr, hbad r (Or.inr hn)⟩⟩]

example := C154_refused (fun r n => (List.range n).map fun i => r.getD i 0) (1 / 10) ⟨2, 4, 2⟩ 2 3 [] (by simp) (Or.inl rfl)

/-- **C155, no overlap**: the frames one after the other. -/
theorem C155_no_overlap (td : Dim) (n B : Nat) (arr : List (List (List ℝ))) (h : td.duration = td.frequency) :
    overlapAdd td n B arr = .ok arr.flatten := by
  unfold overlapAdd
  simp [h]

example := C155_no_overlap ⟨4, 4, 2⟩ 2 1 [[[(5 : ℝ)], [1]], [[2], [3]]] rfl

/-! ## C156, C157: overlaps other than one half -/

theorem addChunk_short {β : Type} (add : β → β → β) (out chunk : List β) (start : Nat) (h : out.length < start + chunk.length)
    (hc : 1 < chunk.length) : addChunk add out start chunk = .error .valueError := by
  unfold addChunk
  simp only []
  rw [if_neg (by omega), if_neg (by omega)]

theorem addChunk_length {β : Type} (add : β → β → β) (out chunk out' : List β) (start : Nat)
    (h : addChunk add out start chunk = .ok out') : out'.length = out.length := by
  unfold addChunk at h
  simp only [] at h
  by_cases h1 : min (start + chunk.length) out.length - start = chunk.length
  · rw [if_pos h1] at h
    cases h
    simp only [List.length_append, List.length_zipWith, List.length_take, List.length_drop]
    omega
  · rw [if_neg h1] at h
    by_cases h2 : chunk.length = 1
    · rw [if_pos h2] at h
      cases h
      rfl
    · rw [if_neg h2] at h
      cases h

theorem addChunk_error {β : Type} (add : β → β → β) (out chunk : List β) (start : Nat) (e : PyErr)
    (h : addChunk add out start chunk = .error e) : e = .valueError := by
  unfold addChunk at h
  simp only [] at h
  by_cases h1 : min (start + chunk.length) out.length - start = chunk.length
  · rw [if_pos h1] at h; cases h
  · rw [if_neg h1] at h
    by_cases h2 : chunk.length = 1
    · rw [if_pos h2] at h; cases h
    · rw [if_neg h2] at h; cases h; rfl

theorem addChunks_short {β : Type} (add : β → β → β) (step n : Nat) (hn : 1 < n) (chunks : List (List β))
    (hc : ∀ c ∈ chunks, c.length = n) (hne : chunks ≠ []) :
    ∀ (i0 : Nat) (out : List β), out.length < step * (i0 + (chunks.length - 1)) + n →
      addChunks add step i0 chunks out = .error .valueError := by
  induction chunks with
  | nil => exact absurd rfl hne
  | cons c cs ih =>
    intro i0 out ho
    simp only [addChunks]
    cases h : addChunk add out (step * i0) c with
    | error e => simp only []; rw [addChunk_error _ _ _ _ _ h]
    | ok o =>
      simp only []
      have hl := addChunk_length _ _ _ _ _ h
      have hcl := hc c (by simp)
      by_cases hcs : cs = []
      · subst hcs
        rw [addChunk_short _ _ _ _ (by simpa [hcl] using ho) (by omega)] at h
        cases h
      · apply ih (fun q hq => hc q (List.mem_cons_of_mem _ hq)) hcs
        have : 0 < cs.length := List.length_pos_iff.mpr hcs
        rw [hl]
        have e : i0 + 1 + (cs.length - 1) = i0 + ((c :: cs).length - 1) := by simp; omega
        rw [e]
        exact ho

/-- **C156 is false**: a user expects overlap-add to work for any overlap.  For frames that overlap, but by less than half, with a whole number `step` of
rows in the overlap, it raises ValueError whatever the coefficients and the number of frames. -/
theorem C156_refuted (td : Dim) (n B step : Nat) (arr : List (List (List ℝ))) (harr : ∀ c ∈ arr, c.length = n) (hne : arr ≠ [])
    (hf : td.frequency < td.duration) (hov : td.duration < 2 * td.frequency) (hn : 0 < n)
    (hstep : (step : Int) * td.duration = n * (td.duration - td.frequency)) :
    overlapAdd td n B arr = .error .valueError := by
  have hd : 0 < td.duration := by omega
  have hst : (((n : Int) * (td.duration - td.frequency)) / td.duration).toNat = step := by
    rw [← hstep, Int.mul_ediv_cancel _ hd.ne']
    simp
  have hfirst : (roundHalfEven (((arr.length : Int) * n + n) * (td.duration - td.frequency)) td.duration).toNat = step * (arr.length + 1) := by
    have : ((arr.length : Int) * n + n) * (td.duration - td.frequency) = ((step * (arr.length + 1) : Nat) : Int) * td.duration := by
      push_cast
      calc ((arr.length : Int) * n + n) * (td.duration - td.frequency) = (arr.length + 1) * (n * (td.duration - td.frequency)) := by ring
        _ = _ := by rw [← hstep]; ring
    rw [this, round_mul _ _ hd]
    exact Int.toNat_natCast _
  have hnp : (0 : Int) < n := by exact_mod_cast hn
  have hsp : 0 < step := by
    have h1 : (0 : Int) < step * td.duration := by rw [hstep]; exact mul_pos hnp (by omega)
    have h2 : (0 : Int) < step := by nlinarith
    exact_mod_cast h2
  have hn2 : 2 * step < n := by
    have h1 : 2 * (step : Int) * td.duration < n * td.duration := by nlinarith
    have h2 : 2 * (step : Int) < n := lt_of_mul_lt_mul_right h1 hd.le
    exact_mod_cast h2
  unfold overlapAdd
  simp only [hst, hfirst]
  rw [if_neg (by omega), if_neg (by omega)]
  apply addChunks_short _ _ n (by omega) _ harr hne
  have hpos : 0 < arr.length := List.length_pos_iff.mpr hne
  rw [List.length_replicate, Nat.zero_add]
  obtain ⟨k, hk⟩ : ∃ k, arr.length = k + 1 := ⟨arr.length - 1, by omega⟩
  rw [hk]
  have : step * (k + 1 + 1) = step * k + 2 * step := by ring
  have e : k + 1 - 1 = k := by omega
  rw [e]
  omega

/-- **C157 is false**: a user expects frame `i` of frames of `n` rows that advance by `n - step` rows to be put at row `(n - step) i`, so that `T`
frames give `n + (n - step) (T - 1)` rows.  For frames that overlap by more than half the result is longer than that, always: frame `i` is put at
row `step * i`. -/
theorem C157_refuted (td : Dim) (n B step : Nat) (arr : List (List (List ℝ))) (harr : ∀ c ∈ arr, c.length = n ∧ ∀ r ∈ c, r.length = B)
    (hne : arr ≠ []) (hf : 0 < td.frequency) (hov : 2 * td.frequency < td.duration) (hn : 0 < n)
    (hstep : (step : Int) * td.duration = n * (td.duration - td.frequency)) :
    (((n - step : Nat) : Int) * td.duration = n * td.frequency) ∧
    ∃ out, overlapAdd td n B arr = .ok out ∧ n + (n - step) * (arr.length - 1) < out.length ∧
      ∀ s b : Nat, s < out.length → b < B → entry out s b =
        ∑ j ∈ Finset.range arr.length, if step * j ≤ s ∧ s < step * j + n then entry (arr.getD j []) (s - step * j) b else 0 := by
  obtain ⟨out, h1, h2, -, h3⟩ := C155_overlap_add td n B step arr harr hf hov.le hstep
  have hd : 0 < td.duration := by omega
  have hnp : (0 : Int) < n := by exact_mod_cast hn
  have hsn : step ≤ n := by
    have h1 : (step : Int) * td.duration ≤ n * td.duration := by nlinarith
    have h2 : (step : Int) ≤ n := le_of_mul_le_mul_right h1 hd
    exact_mod_cast h2
  have hn2 : n < 2 * step := by
    have h1 : (n : Int) * td.duration < 2 * (step : Int) * td.duration := by nlinarith
    have h2 : (n : Int) < 2 * (step : Int) := lt_of_mul_lt_mul_right h1 hd.le
    exact_mod_cast h2
  refine ⟨?_, out, h1, ?_, h3⟩
  · rw [Nat.cast_sub hsn, sub_mul, hstep]
    ring
  · rw [h2]
    have hpos : 0 < arr.length := List.length_pos_iff.mpr hne
    obtain ⟨k, hk⟩ : ∃ k, arr.length = k + 1 := ⟨arr.length - 1, by omega⟩
    rw [hk]
    have e1 : k + 1 - 1 = k := by omega
    have e2 : step * (k + 1 + 1) = 2 * step + step * k := by ring
    have e3 : (n - step) * k ≤ step * k := Nat.mul_le_mul_right _ (by omega)
    rw [e1, e2]
    omega

/-! ## The hypotheses are met -/

example : IsMax [1, 3, 2] 3 := ⟨by simp, by simp; norm_num⟩
/-- Half overlap, `C155_half`. -/
example : ∃ out, overlapAdd ⟨2, 4, 2⟩ 2 1 [[[(5 : ℝ)], [1]], [[2], [3]]] = .ok out ∧ out.length = 3 := by
  obtain ⟨out, h1, h2, -⟩ := C155_half ⟨2, 4, 2⟩ 2 1 [[[(5 : ℝ)], [1]], [[2], [3]]] (by simp) (by norm_num) (by norm_num) (by norm_num)
  exact ⟨out, h1, by simpa using h2⟩
/-- Overlap one quarter, `C156_refuted`. -/
example : overlapAdd ⟨3, 4, 2⟩ 4 1 [[[(5 : ℝ)], [1], [2], [3]]] = .error .valueError :=
  C156_refuted ⟨3, 4, 2⟩ 4 1 1 _ (by simp) (by simp) (by norm_num) (by norm_num) (by norm_num) (by norm_num)
/-- Overlap three quarters, `C157_refuted`. -/
example : ∃ out, overlapAdd ⟨1, 4, 2⟩ 4 1 [[[(5 : ℝ)], [1], [2], [3]], [[0], [0], [0], [0]]] = .ok out ∧ 5 < out.length := by
  obtain ⟨-, out, h1, h2, -⟩ := C157_refuted ⟨1, 4, 2⟩ 4 1 3 [[[(5 : ℝ)], [1], [2], [3]], [[0], [0], [0], [0]]] (by simp) (by simp)
    (by norm_num) (by norm_num) (by norm_num) (by norm_num)
  exact ⟨out, h1, by simpa using h2⟩

end Zounds.Square
