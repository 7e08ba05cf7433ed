import Verif.Props.Frequency
import Verif.Props.Psychoacoustics

/-!
# C310: which scales overlap enough (`FrequencyScale.ensure_overlap_ratio`)
-/

namespace Zounds.Props.Overlap
open Zounds Zounds.Freq Zounds.Psycho Zounds.Props.Frequency Zounds.Props.Psycho

/-- The factor from one centre frequency of a geometric scale to the next. -/
noncomputable def factor (s e : ℝ) (n : Nat) : ℝ := (e / s) ^ ((1 : ℝ) / ((n : ℝ) - 1))

theorem adjacent_iff {γ : Type} (P : γ → γ → Prop) : ∀ l : List γ, Adjacent P l ↔ ∀ (i : Nat) (h : i + 1 < l.length), P (l[i]) (l[i + 1])
  | [] => by simp [Adjacent]
  | [a] => by simp [Adjacent]
  | a :: b :: r => by
    have ih := adjacent_iff P (b :: r)
    simp only [Adjacent]
    rw [ih]
    constructor
    · rintro ⟨h0, h⟩ i hi
      cases i with
      | zero => exact h0
      | succ i => exact h i (by simpa using hi)
    · intro h
      exact ⟨h 0 (by simp), fun i hi => h (i + 1) (by simpa using hi)⟩

/-- **C310** (geometric scales): a geometric scale of at least two bands whose bandwidths are `r` times the centre frequencies, `r` at most two, passes `ensure_overlap_ratio(required)`, for a positive
ratio, exactly if `required * r ≤ (1 + r/2) - g (1 - r/2)`, where `g` is the factor from centre to centre; otherwise it is an AssertionError. -/
theorem C310_geometric (s e r : ℝ) (n : Nat) (even : Bool) (hs : 0 < s) (hse : s ≤ e) (hr : 0 < r) (hr2 : r ≤ 2) (hn : 2 ≤ n) (required : ℝ) (hq : 0 < required) :
    ∃ bs, (Scale.geometric s e r n even).bands realExt = .ok bs ∧
      (ensureOverlapRatio required bs = .ok () ↔ required * r ≤ (1 + r / 2) - factor s e n * (1 - r / 2)) ∧
      (ensureOverlapRatio required bs = .ok () ∨ ensureOverlapRatio required bs = .error .assertionError) := by
  have he : 0 < e := lt_of_lt_of_le hs hse
  obtain ⟨bs, h1, h2, h3, -, -, h6⟩ := C48_geometric_scale s e r n even hs he hr
  have hband : ∀ x ∈ bs, x.start = x.center * (1 - r / 2) ∧ x.stop = x.center * (1 + r / 2) := by
    intro x hx
    obtain ⟨hc, hratio⟩ := h3 x hx
    have hw : x.bandwidth ≠ 0 := by
      intro h0; rw [h0, div_zero] at hratio
      have : 0 < 1 / r := by positivity
      linarith
    have hb : x.bandwidth = x.center * r := by
      rw [div_eq_div_iff hw hr.ne'] at hratio; linarith
    have hcd : x.center = x.start + x.bandwidth / 2 := rfl
    have hbd : x.bandwidth = x.stop - x.start := rfl
    constructor <;> [linarith; linarith]
  have hwf : ∀ b ∈ bs, WF b := by
    intro b hb
    obtain ⟨hc, -⟩ := h3 b hb
    obtain ⟨e1, e2⟩ := hband b hb
    unfold WF
    rw [e1, e2]
    have := mul_pos hc hr
    linarith
  obtain ⟨k1, k2⟩ := C22_ensure_overlap required bs hwf
  refine ⟨bs, h1, ?_, k2⟩
  rw [k1, adjacent_iff]
  have hg : 1 ≤ factor s e n := by
    unfold factor
    apply Real.one_le_rpow
    · rwa [le_div_iff₀ hs, one_mul]
    · have : (2 : ℝ) ≤ n := by exact_mod_cast hn
      apply div_nonneg <;> linarith
  have hpair : ∀ (i : Nat) (h : i + 1 < bs.length),
      (required * (bs[i]).bandwidth ≤ overlapLength (bs[i]) (bs[i + 1]) ↔ required * r ≤ (1 + r / 2) - factor s e n * (1 - r / 2)) := by
    intro i h
    have hm0 := List.getElem_mem (l := bs) (n := i) (by omega)
    have hm1 := List.getElem_mem h
    obtain ⟨hc, -⟩ := h3 _ hm0
    obtain ⟨a1, a2⟩ := hband _ hm0
    obtain ⟨b1, b2⟩ := hband _ hm1
    have hnext := h6 hn i h
    obtain ⟨c, hcd⟩ : ∃ c, c = (bs[i]).center := ⟨_, rfl⟩
    rw [← hcd] at a1 a2 hc hnext
    rw [hnext] at b1 b2
    have hgd : (e / s) ^ ((1 : ℝ) / ((n : ℝ) - 1)) = factor s e n := rfl
    rw [hgd] at b1 b2
    obtain ⟨g, hgg⟩ : ∃ g, g = factor s e n := ⟨_, rfl⟩
    rw [← hgg] at b1 b2 hg ⊢
    have hcg : c ≤ c * g := by nlinarith
    unfold overlapLength Band.bandwidth
    rw [a1, a2, b1, b2, min_eq_left (by nlinarith), max_eq_right (a := c * (1 - r / 2)) (by nlinarith)]
    have hpos : 0 < required * r := mul_pos hq hr
    constructor
    · intro h
      rcases le_max_iff.1 h with h | h
      · exfalso
        have : 0 < c * (required * r) := mul_pos hc hpos
        nlinarith
      · have : c * (required * r) ≤ c * ((1 + r / 2) - g * (1 - r / 2)) := by nlinarith
        exact le_of_mul_le_mul_left this hc
    · intro h
      apply le_max_of_le_right
      have := mul_le_mul_of_nonneg_left h hc.le
      nlinarith
  constructor
  · intro h
    exact (hpair 0 (by omega)).1 (h 0 (by omega))
  · intro h i hi
    exact (hpair i hi).2 h

/-- **C310** (more bands overlap more): if a geometric scale passes, so does the one with more bands over the same range. -/
theorem C310_more_bands (s e r : ℝ) (n m : Nat) (even : Bool) (hs : 0 < s) (hse : s ≤ e) (hr : 0 < r) (hr2 : r ≤ 2) (hn : 2 ≤ n) (hnm : n ≤ m) (required : ℝ) (hq : 0 < required) :
    ∃ bs cs, (Scale.geometric s e r n even).bands realExt = .ok bs ∧ (Scale.geometric s e r m even).bands realExt = .ok cs ∧
      (ensureOverlapRatio required bs = .ok () → ensureOverlapRatio required cs = .ok ()) := by
  obtain ⟨bs, h1, h2, -⟩ := C310_geometric s e r n even hs hse hr hr2 hn required hq
  obtain ⟨cs, k1, k2, -⟩ := C310_geometric s e r m even hs hse hr hr2 (le_trans hn hnm) required hq
  refine ⟨bs, cs, h1, k1, fun h => ?_⟩
  rw [h2] at h
  rw [k2]
  have hfac : factor s e m ≤ factor s e n := by
    unfold factor
    apply Real.rpow_le_rpow_of_exponent_le
    · rwa [le_div_iff₀ hs, one_mul]
    · have a : (2 : ℝ) ≤ n := by exact_mod_cast hn
      have b : (n : ℝ) ≤ m := by exact_mod_cast hnm
      apply one_div_le_one_div_of_le <;> linarith
  have : factor s e m * (1 - r / 2) ≤ factor s e n * (1 - r / 2) := mul_le_mul_of_nonneg_right hfac (by linarith)
  linarith

example := C310_more_bands 20 20000 (1 / 20) 10 20 false (by norm_num) (by norm_num) (by norm_num) (by norm_num) (by norm_num) (by norm_num) (1 / 2) (by norm_num)

/-- **C310** (linear scales): the bands of a linear scale do not overlap at all: every positive ratio is refused. -/
theorem C310_linear {α : Type} [Field α] [LinearOrder α] [IsStrictOrderedRing α] (X : NumExt α) (b : Band α) (n : Nat) (ev : Bool) (hb : WF b) (hn : 2 ≤ n) (required : α) :
    ∃ bs, (Scale.linear b n ev).bands X = .ok bs ∧
      ensureOverlapRatio required bs = if 0 < required then .error .assertionError else .ok () := by
  obtain ⟨bs, h1, h2, -, -, h5, h6⟩ := C21_linear_tiles X b n ev hb hn
  obtain ⟨k1, k2⟩ := C22_ensure_overlap required bs fun c hc => (h6 c hc).1
  refine ⟨bs, h1, ?_⟩
  have hover : ∀ (i : Nat) (h : i + 1 < bs.length), overlapLength (bs[i]) (bs[i + 1]) = 0 := by
    intro i h
    have hs := h5 i h
    have w0 := (h6 _ (List.getElem_mem (l := bs) (n := i) (by omega))).1
    have w1 := (h6 _ (List.getElem_mem h)).1
    unfold WF at w0 w1
    unfold overlapLength
    rw [min_eq_left (by rw [hs]; exact w1.le), max_eq_right (a := (bs[i]).start) (by rw [← hs]; exact w0.le), hs, sub_self, max_self]
  rw [adjacent_iff] at k1
  split
  · rename_i hq
    rcases k2 with h | h
    · exfalso
      have := k1.1 h 0 (by omega)
      rw [hover 0 (by omega)] at this
      have hw := (C22_center _ (h6 _ (List.getElem_mem (l := bs) (n := 0) (by omega))).1).2.2.2
      exact absurd this (not_le.2 (mul_pos hq hw))
    · exact h
  · rename_i hq
    rw [k1]
    intro i hi
    rw [hover i hi]
    have hw := (C22_center _ (h6 _ (List.getElem_mem (l := bs) (n := i) (by omega))).1).2.2.2
    exact mul_nonpos_of_nonpos_of_nonneg (not_lt.1 hq) hw.le

/-- Three bands from 100 to 400 Hz, as wide as their centre frequencies: the factor is 2, and neighbours share exactly half of the first. -/
example : ∃ bs cs, (Scale.geometric (100 : ℝ) 400 1 3 false).bands realExt = .ok bs ∧ (Scale.geometric (100 : ℝ) 400 1 3 false).bands realExt = .ok cs ∧
    ensureOverlapRatio (1 / 2) bs = .ok () ∧ ensureOverlapRatio (3 / 4) cs = .error .assertionError := by
  have hf : factor 100 400 3 = 2 := by
    unfold factor
    rw [show (400 : ℝ) / 100 = 2 ^ (2 : ℝ) by norm_num, ← Real.rpow_mul (by norm_num)]
    norm_num
  obtain ⟨bs, h1, h2, -⟩ := C310_geometric 100 400 1 3 false (by norm_num) (by norm_num) (by norm_num) (by norm_num) (by norm_num) (1 / 2) (by norm_num)
  obtain ⟨cs, k1, k2, k3⟩ := C310_geometric 100 400 1 3 false (by norm_num) (by norm_num) (by norm_num) (by norm_num) (by norm_num) (3 / 4) (by norm_num)
  rw [hf] at h2 k2
  refine ⟨bs, cs, h1, k1, h2.2 (by norm_num), k3.resolve_left fun h => ?_⟩
  have := k2.1 h
  norm_num at this

example : ∃ bs, (Scale.linear (⟨0, 100⟩ : Band ℚ) 4 false).bands noExt = .ok bs ∧ ensureOverlapRatio (1 / 100) bs = .error .assertionError := by
  obtain ⟨bs, h1, h2⟩ := C310_linear noExt (⟨0, 100⟩ : Band ℚ) 4 false (by unfold WF; norm_num) (by omega) (1 / 100)
  rw [if_pos (by norm_num)] at h2
  exact ⟨bs, h1, h2⟩

end Zounds.Props.Overlap
