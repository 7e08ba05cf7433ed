import Verif.Model.Stretch
import Verif.Props.Dct
import Mathlib.Analysis.Real.Pi.Bounds

/-!
# C58: time stretching and pitch shifting
-/

namespace Zounds.Spectral
open Finset Real

/-- **C58, length**: the result of stretching by `factor` has `⌊n / factor⌋` samples, whatever the audio. -/
theorem C58_stretch_length (x : List ℝ) (factor : ℝ) (hop wl : ℕ) (win : ℕ → List ℝ) (y : List ℝ)
    (h : timeStretch x factor hop wl win = .ok y) : y.length = ⌊(x.length : ℝ) / factor⌋₊ := by
  unfold timeStretch at h
  split at h
  · cases h
  · split at h
    · cases h
    · split at h
      · cases h
      · cases h; simp [addFramesInto]

/-- The window at frame `i`, weighted. -/
theorem stftRow_eq (x : List ℝ) (hop wl : ℕ) (w : List ℝ) (hwl : 0 < wl) (hhop : 0 < hop) (hx : wl ≤ x.length) (hw : w.length = wl) :
    ∃ D, stftRow x hop wl w = .ok D ∧ D.length = (x.length - wl) / hop + 1 ∧
      ∀ i, i < D.length → rfft ((List.range wl).map fun t => x.getD (i * hop + t) 0 * w.getD t 0) = .ok (D.getD i []) := by
  have hwin : ∀ i, i < (x.length - wl) / hop + 1 → List.zipWith (· * ·) ((x.drop (i * hop)).take wl) w =
      (List.range wl).map fun t => x.getD (i * hop + t) 0 * w.getD t 0 := by
    intro i hi
    have hi2 : i * hop ≤ x.length - wl := by
      have : i ≤ (x.length - wl) / hop := by omega
      calc i * hop ≤ (x.length - wl) / hop * hop := Nat.mul_le_mul_right _ this
        _ ≤ _ := Nat.div_mul_le_self _ _
    apply Synth.getD_ext
    · simp; omega
    · intro t ht
      simp only [List.length_zipWith, List.length_take, List.length_drop] at ht
      rw [getD_map_range _ _ _ _ (by omega)]
      rw [List.getD_eq_getElem?_getD, List.getElem?_zipWith, List.getElem?_take_of_lt (by omega), List.getElem?_drop]
      rw [List.getElem?_eq_getElem (by omega), List.getElem?_eq_getElem (by omega : t < w.length)]
      rw [List.getD_eq_getElem?_getD, List.getD_eq_getElem?_getD, List.getElem?_eq_getElem (by omega),
        List.getElem?_eq_getElem (by omega : t < w.length)]
      rfl
  have hsucc : ∀ i : ℕ, ∃ c, rfft ((List.range wl).map fun t => x.getD (i * hop + t) 0 * w.getD t 0) = .ok c := by
    intro i
    unfold rfft
    rw [if_neg (by intro h; have := congrArg List.length h; simp at this; omega)]
    exact ⟨_, rfl⟩
  choose c hc using hsucc
  refine ⟨(List.range ((x.length - wl) / hop + 1)).map c, ?_, by simp, ?_⟩
  · unfold stftRow
    apply mapM_ok
    intro i hi
    rw [hwin i (List.mem_range.1 hi)]
    exact hc i
  · intro i hi
    simp only [List.length_map, List.length_range] at hi
    rw [getD_map_range _ _ _ _ hi]
    exact hc i

/-- With factor one, the accumulated phases are the phases of the frames up to whole turns. -/
theorem newPhase_one (D : List (List ℂ)) (adv : ℝ) (k i : ℕ) :
    ∃ z : ℤ, newPhase D 1 adv k i = ((D.getD i []).getD k 0).arg + z * (2 * π) := by
  induction i with
  | zero => exact ⟨0, by simp [newPhase]⟩
  | succ i ih =>
    obtain ⟨z, hz⟩ := ih
    have hstep : newPhase D 1 adv k (i + 1) = newPhase D 1 adv k i + phaseAdvance D 1 adv k i := by
      unfold newPhase; rw [sum_range_succ]; ring
    have hf : ⌊((i : ℝ) * 1)⌋₊ = i := by simp
    refine ⟨z - npRound ((((D.getD (i + 1) []).getD k 0).arg - ((D.getD i []).getD k 0).arg - adv) / (2 * π)), ?_⟩
    rw [hstep, hz]
    unfold phaseAdvance
    simp only [hf]
    push_cast
    ring

/-- With factor one the coefficients are unchanged. -/
theorem newCoeffs_one (D : List (List ℂ)) (hop n : ℕ) (hD : ∀ r ∈ D, r.length = n) : newCoeffs D 1 hop n = D := by
  unfold newCoeffs
  have hs : nSteps D.length 1 = D.length := by simp [nSteps]
  rw [hs]
  apply List.ext_getElem?
  intro i
  rw [List.getElem?_map]
  by_cases hi : i < D.length
  · rw [List.getElem?_range hi, List.getElem?_eq_getElem hi, Option.map_some]
    congr 1
    have hg : D.getD i [] = D[i] := by rw [List.getD_eq_getElem?_getD, List.getElem?_eq_getElem hi]; rfl
    have hl : D[i].length = n := hD _ (List.getElem_mem hi)
    apply List.ext_getElem?
    intro k
    rw [List.getElem?_map]
    by_cases hk : k < n
    · rw [List.getElem?_range hk, List.getElem?_eq_getElem (by omega), Option.map_some]
      congr 1
      obtain ⟨z, hz⟩ := newPhase_one D (expectedAdvance hop n k) k i
      rw [hz]
      have hm : newMag D 1 k i = ‖(D.getD i []).getD k 0‖ := by
        unfold newMag
        simp
      rw [hm]
      have hc : (D.getD i []).getD k 0 = D[i][k] := by
        rw [hg, List.getD_eq_getElem?_getD, List.getElem?_eq_getElem (by omega)]; rfl
      rw [hc]
      have e : Complex.I * ((D[i][k].arg + z * (2 * π) : ℝ) : ℂ) = (D[i][k].arg : ℂ) * Complex.I + (z : ℂ) * (2 * π * Complex.I) := by
        push_cast; ring
      rw [e, Complex.exp_add, Complex.exp_int_mul_two_pi_mul_I, mul_one, Complex.norm_mul_exp_arg_mul_I]
    · rw [List.getElem?_eq_none (by simpa using hk), List.getElem?_eq_none (by omega)]
      rfl
  · rw [List.getElem?_eq_none (by simpa using hi), List.getElem?_eq_none (by omega)]
    rfl

/-- **C58, stretching by one**: the time does not change, but the loudness does: sample `t` comes back multiplied by the sum of the
squares of the window coefficients of the windows that contain it. -/
theorem C58_unit_factor (x : List ℝ) (hop m : ℕ) (win : ℕ → List ℝ) (hm : 0 < m) (hhop : 0 < hop) (hx : 2 * m ≤ x.length)
    (hw : (win (2 * m)).length = 2 * m) :
    ∃ y, timeStretch x 1 hop (2 * m) win = .ok y ∧ y.length = x.length ∧ ∀ t, t < x.length →
      y.getD t 0 = (∑ i ∈ range ((x.length - 2 * m) / hop + 1),
        if i * hop ≤ t ∧ t < i * hop + 2 * m then (win (2 * m)).getD (t - i * hop) 0 ^ 2 else 0) * x.getD t 0 := by
  obtain ⟨D, hD, hDl, hDi⟩ := stftRow_eq x hop (2 * m) (win (2 * m)) (by omega) hhop hx hw
  have hpos : ∀ i, i < D.length → ∃ r, D.getD i [] = r ∧ r.length = m + 1 ∧
      irfft r = .ok ((List.range (2 * m)).map fun t => x.getD (i * hop + t) 0 * (win (2 * m)).getD t 0) := by
    intro i hi
    obtain ⟨X, h1, h2, h3⟩ := C54_fft_inverse m hm ((List.range (2 * m)).map fun t => x.getD (i * hop + t) 0 * (win (2 * m)).getD t 0) (by simp)
    rw [hDi i hi] at h1
    cases h1
    exact ⟨_, rfl, h2, h3⟩
  have hlen : ∀ r ∈ D, r.length = m + 1 := by
    intro r hr
    obtain ⟨i, hi, rfl⟩ := List.getElem_of_mem hr
    obtain ⟨r', h1, h2, _⟩ := hpos i hi
    rw [List.getD_eq_getElem?_getD, List.getElem?_eq_getElem hi] at h1
    rw [← h2, ← h1]; rfl
  have hDeq : D = (List.range D.length).map fun i => D.getD i [] := by
    apply List.ext_getElem?
    intro i
    rw [List.getElem?_map]
    by_cases hi : i < D.length
    · rw [List.getElem?_range hi, List.getElem?_eq_getElem hi, Option.map_some, List.getD_eq_getElem?_getD,
        List.getElem?_eq_getElem hi]; rfl
    · rw [List.getElem?_eq_none (by omega), List.getElem?_eq_none (by simpa using hi)]; rfl
  have hirfft : D.mapM irfft = .ok ((List.range D.length).map fun i => (List.range (2 * m)).map fun t =>
      x.getD (i * hop + t) 0 * (win (2 * m)).getD t 0) := by
    conv_lhs => rw [hDeq]
    apply mapM_ok
    intro i hi
    obtain ⟨r, h1, _, h3⟩ := hpos i (List.mem_range.1 hi)
    rw [h1]; exact h3
  have h2m : 2 * m / 2 + 1 = m + 1 := by omega
  have hts : timeStretch x 1 hop (2 * m) win = .ok (addFramesInto (((List.range D.length).map fun i => (List.range (2 * m)).map fun t =>
      x.getD (i * hop + t) 0 * (win (2 * m)).getD t 0).map fun f => List.zipWith (· * ·) f (win f.length)) hop ⌊(x.length : ℝ) / 1⌋₊) := by
    unfold timeStretch
    rw [if_neg (by push Not; exact ⟨by norm_num, hx, by omega⟩), hD]
    simp only [h2m]
    rw [newCoeffs_one D hop (m + 1) hlen, hirfft]
  refine ⟨_, hts, ?_, ?_⟩
  · simp [addFramesInto]
  · intro t ht
    have hfl : ⌊(x.length : ℝ) / 1⌋₊ = x.length := by simp
    unfold addFramesInto
    rw [hfl, getD_map_range _ _ _ _ ht]
    simp only [List.length_map, List.length_range, hDl]
    rw [sum_mul]
    apply sum_congr rfl
    intro i hi
    have hi := mem_range.1 hi
    rw [List.map_map, getD_map_range _ _ _ _ hi]
    simp only [Function.comp, List.length_map, List.length_range]
    by_cases h1 : i * hop ≤ t
    · rw [if_pos h1]
      by_cases h2 : t < i * hop + 2 * m
      · rw [if_pos ⟨h1, h2⟩, List.getD_eq_getElem?_getD, List.getElem?_zipWith, List.getElem?_map,
          List.getElem?_range (by omega), List.getElem?_eq_getElem (by omega : t - i * hop < (win (2 * m)).length)]
        have hwt : (win (2 * m)).getD (t - i * hop) 0 = (win (2 * m))[t - i * hop]'(by omega) := by
          rw [List.getD_eq_getElem?_getD, List.getElem?_eq_getElem (by omega)]; rfl
        simp only [Option.map_some, Option.getD_some, hwt]
        have : i * hop + (t - i * hop) = t := by omega
        rw [this]; ring
      · rw [if_neg (by omega), zero_mul, List.getD_eq_getElem?_getD, List.getElem?_eq_none]
        · rfl
        · simp only [List.length_zipWith, List.length_map, List.length_range]; omega
    · rw [if_neg h1, if_neg (by omega), zero_mul]

example := C58_unit_factor [1, 2, 3, 4, 5] 2 2 (fun n => List.replicate n 1) (by decide) (by decide) (by decide) (by simp)

theorem hann_getD (n i : ℕ) (hn : n ≠ 1) (hi : i < n) :
    (hann n).getD i 0 = 1 / 2 - 1 / 2 * cos (2 * π * i / ((n : ℝ) - 1)) := by
  unfold hann
  rw [if_neg hn, getD_map_range _ _ _ _ hi]

theorem hann_length (n : ℕ) : (hann n).length = n := by
  unfold hann
  split
  · rename_i h; rw [h]; rfl
  · simp

/-- **C58, loudness**: with the Hann windows the code uses, a hop of a quarter window, and audio long enough that two overlapping
windows fit, there are samples that stretching by a factor of one makes louder. -/
theorem C58_unit_factor_refuted (x : List ℝ) (h : ℕ) (hh : 2 ≤ h) (hx : 5 * h ≤ x.length) :
    ∃ y g, timeStretch x 1 h (2 * (2 * h)) hann = .ok y ∧ 1 < g ∧ y.getD (2 * h) 0 = g * x.getD (2 * h) 0 := by
  obtain ⟨y, h1, _, h3⟩ := C58_unit_factor x h (2 * h) hann (by omega) (by omega) (by omega) (hann_length _)
  refine ⟨y, _, h1, ?_, h3 (2 * h) (by omega)⟩
  have hr : (1 : ℕ) ≤ (x.length - 2 * (2 * h)) / h := by
    rw [Nat.one_le_div_iff (by omega)]; omega
  have hnn : ∀ i ∈ range ((x.length - 2 * (2 * h)) / h + 1), 0 ≤ (if i * h ≤ 2 * h ∧ 2 * h < i * h + 2 * (2 * h) then
      (hann (2 * (2 * h))).getD (2 * h - i * h) 0 ^ 2 else 0) := by
    intro i _
    split
    · positivity
    · exact le_refl _
  have hsub : ({0, 1} : Finset ℕ) ⊆ range ((x.length - 2 * (2 * h)) / h + 1) := by
    intro i hi
    simp only [mem_insert, mem_singleton] at hi
    exact mem_range.2 (by omega)
  have hle := sum_le_sum_of_subset_of_nonneg hsub (fun i hi _ => hnn i hi)
  refine lt_of_lt_of_le ?_ hle
  rw [sum_pair (by norm_num)]
  rw [if_pos (by omega), if_pos (by omega)]
  have e1 : 2 * h - 0 * h = 2 * h := by omega
  have e2 : 2 * h - 1 * h = h := by omega
  rw [e1, e2, hann_getD _ _ (by omega) (by omega), hann_getD _ _ (by omega) (by omega)]
  have hhR : (2 : ℝ) ≤ h := by exact_mod_cast hh
  have hden : (0 : ℝ) < 4 * h - 1 := by linarith
  have a1 : 2 * π * ((2 * h : ℕ) : ℝ) / (((2 * (2 * h) : ℕ) : ℝ) - 1) = π + π / (4 * h - 1) := by
    push_cast
    have h2 : (4 * (h : ℝ) - 1) ≠ 0 := by linarith
    have h3 : 2 * (2 * (h : ℝ)) - 1 = 4 * h - 1 := by ring
    rw [h3, div_eq_iff h2, add_mul, div_mul_cancel₀ _ h2]
    ring
  have a2 : 2 * π * (h : ℝ) / (((2 * (2 * h) : ℕ) : ℝ) - 1) = π / 2 + π / 2 / (4 * h - 1) := by
    push_cast
    have h2 : (4 * (h : ℝ) - 1) ≠ 0 := by linarith
    have h3 : 2 * (2 * (h : ℝ)) - 1 = 4 * h - 1 := by ring
    rw [h3, div_eq_iff h2, add_mul, div_mul_cancel₀ _ h2]
    ring
  rw [a1, a2, add_comm π, cos_add_pi, add_comm (π / 2), cos_add_pi_div_two]
  have hd7 : (7 : ℝ) ≤ 4 * h - 1 := by linarith
  have hb : π / (4 * (h : ℝ) - 1) ≤ π / 7 := by
    apply div_le_div_of_nonneg_left pi_pos.le (by norm_num) hd7
  have hb0 : 0 < π / (4 * (h : ℝ) - 1) := by positivity
  have hcos : 1 - (π / (4 * (h : ℝ) - 1)) ^ 2 / 2 ≤ cos (π / (4 * (h : ℝ) - 1)) := one_sub_sq_div_two_le_cos
  have hpi : π < 3.15 := pi_lt_d2
  have h45 : π / (4 * (h : ℝ) - 1) ≤ 0.45 := by
    refine hb.trans ?_
    rw [div_le_iff₀ (by norm_num)]; linarith
  have hc9 : 0.89 ≤ cos (π / (4 * (h : ℝ) - 1)) := by nlinarith
  have hs : 0 ≤ sin (π / 2 / (4 * (h : ℝ) - 1)) := by
    apply sin_nonneg_of_nonneg_of_le_pi
    · positivity
    · have : π / 2 / (4 * (h : ℝ) - 1) ≤ π / 2 := div_le_self (by positivity) (by linarith)
      linarith [pi_pos]
  have q1 : (0.945 : ℝ) ≤ 1 / 2 - 1 / 2 * -cos (π / (4 * (h : ℝ) - 1)) := by linarith
  have q2 : (0.5 : ℝ) ≤ 1 / 2 - 1 / 2 * -sin (π / 2 / (4 * (h : ℝ) - 1)) := by linarith
  nlinarith

/-! ## Pitch shifting -/

theorem flatten_const_length {α : Type} (n : ℕ) : ∀ rows : List (List α), (∀ r ∈ rows, r.length = n) → rows.flatten.length = rows.length * n
  | [], _ => by simp
  | r :: rows, h => by
    rw [List.flatten_cons, List.length_append, h r (by simp), flatten_const_length n rows (fun r hr => h r (by simp [hr])),
      List.length_cons]; ring

/-- **C58, pitch shift length**: the result has as many samples as the audio, unless the resampled pieces of the stretched audio come up
short: there are `S / 1024 + 1` of them, of `⌊1024 factor⌋` samples each. -/
theorem C58_pitch_length (resample : List ℝ → ℕ → List ℝ) (hres : ∀ w n, (resample w n).length = n) (x : List ℝ) (semitones : ℝ)
    (hop wl : ℕ) (win : ℕ → List ℝ) (y : List ℝ) (h : pitchShift resample x semitones hop wl win = .ok y) :
    y.length = min x.length ((⌊(x.length : ℝ) / pitchFactor semitones⌋₊ / 1024 + 1) * ⌊1024 * pitchFactor semitones⌋₊) := by
  unfold pitchShift at h
  split at h
  · cases h
  · rename_i s hs
    cases h
    have hsl := C58_stretch_length _ _ _ _ _ _ hs
    unfold resampleWindows
    rw [List.length_take, flatten_const_length ⌊1024 * pitchFactor semitones⌋₊]
    · simp only [List.length_map, List.length_range, List.length_append, List.length_replicate]
      rw [hsl]
      congr 2
      have : ∀ S : ℕ, (S + (1024 - S % 1024)) / 1024 = S / 1024 + 1 := by intro S; omega
      exact this _
    · intro r hr
      obtain ⟨w, _, rfl⟩ := List.mem_map.1 hr
      exact hres _ _

/-- **C58, pitch shift loses the end**: whenever `1024 factor` is not a whole number, long enough audio comes back shorter. -/
theorem C58_pitch_length_refuted (resample : List ℝ → ℕ → List ℝ) (hres : ∀ w n, (resample w n).length = n) (semitones : ℝ)
    (hfrac : Int.fract (1024 * pitchFactor semitones) ≠ 0) :
    ∃ n0 : ℕ, ∀ (x : List ℝ) (hop wl : ℕ) (win : ℕ → List ℝ) (y : List ℝ), n0 ≤ x.length →
      pitchShift resample x semitones hop wl win = .ok y → y.length < x.length := by
  have hp : 0 < pitchFactor semitones := by unfold pitchFactor; positivity
  set φ := pitchFactor semitones with hφ
  set F := ⌊1024 * φ⌋₊ with hF
  have hFle : (F : ℝ) ≤ 1024 * φ := Nat.floor_le (by positivity)
  have hFlt : (F : ℝ) < 1024 * φ := by
    rcases lt_or_eq_of_le hFle with h | h
    · exact h
    · exfalso
      apply hfrac
      rw [← h]
      exact Int.fract_natCast F
  -- the number of pieces is at most n / (1024 φ) + 1
  obtain ⟨n0, hn0⟩ := exists_nat_gt ((F : ℝ) / (1 - F / (1024 * φ)))
  refine ⟨n0, ?_⟩
  intro x hop wl win y hn h
  rw [C58_pitch_length resample hres x semitones hop wl win y h]
  apply min_lt_of_right_lt
  have hε : 0 < 1 - (F : ℝ) / (1024 * φ) := by
    rw [sub_pos, div_lt_one (by positivity)]; exact hFlt
  have hnR : (F : ℝ) < x.length * (1 - F / (1024 * φ)) := by
    rw [← div_lt_iff₀ hε]
    exact lt_of_lt_of_le hn0 (by exact_mod_cast hn)
  have hS : (⌊(x.length : ℝ) / φ⌋₊ : ℝ) ≤ x.length / φ := Nat.floor_le (by positivity)
  have hd : ((⌊(x.length : ℝ) / φ⌋₊ / 1024 : ℕ) : ℝ) ≤ x.length / φ / 1024 := by
    calc ((⌊(x.length : ℝ) / φ⌋₊ / 1024 : ℕ) : ℝ) ≤ (⌊(x.length : ℝ) / φ⌋₊ : ℝ) / 1024 := Nat.cast_div_le
      _ ≤ _ := by apply div_le_div_of_nonneg_right hS (by norm_num)
  have : (((⌊(x.length : ℝ) / φ⌋₊ / 1024 + 1) * F : ℕ) : ℝ) < x.length := by
    push_cast
    have h1 : ((⌊(x.length : ℝ) / φ⌋₊ / 1024 : ℕ) : ℝ) * F ≤ x.length / φ / 1024 * F :=
      mul_le_mul_of_nonneg_right hd (Nat.cast_nonneg _)
    have h2 : (x.length : ℝ) / φ / 1024 * F = x.length * (F / (1024 * φ)) := by field_simp
    nlinarith
  exact_mod_cast this

/-- **C58**: and this is the case for every whole number of semitones that is not a number of octaves (up to ten octaves up). -/
theorem C58_semitones_fract (s : ℤ) (hs : s ≤ 120) (h12 : ¬ (12 : ℤ) ∣ s) : Int.fract (1024 * pitchFactor s) ≠ 0 := by
  intro hz
  rw [Int.fract_eq_iff] at hz
  obtain ⟨_, _, z, hz⟩ := hz
  rw [sub_zero] at hz
  have hpos : 0 < 1024 * pitchFactor s := by unfold pitchFactor; positivity
  have hzpos : 0 < z := by
    have : (0 : ℝ) < z := by rw [← hz]; exact hpos
    exact_mod_cast this
  obtain ⟨k, rfl⟩ : ∃ k : ℕ, z = k := ⟨z.toNat, by omega⟩
  obtain ⟨e, he⟩ : ∃ e : ℕ, 120 - s = e := ⟨(120 - s).toNat, by omega⟩
  have hpow : ((k : ℝ)) ^ 12 = 2 ^ e := by
    have h1 : (1024 * pitchFactor s) ^ (12 : ℕ) = 2 ^ e := by
      unfold pitchFactor
      have : (1024 : ℝ) = 2 ^ (10 : ℝ) := by
        rw [show (10 : ℝ) = ((10 : ℕ) : ℝ) by norm_num, rpow_natCast]; norm_num
      rw [this, ← rpow_add (by norm_num), ← rpow_natCast, ← rpow_mul (by norm_num)]
      have e2 : (10 + -(s : ℝ) / 12) * ((12 : ℕ) : ℝ) = ((e : ℕ) : ℝ) := by
        have : (120 : ℝ) - s = e := by exact_mod_cast he
        push_cast; linarith
      rw [e2, rpow_natCast]
    rw [hz] at h1
    exact_mod_cast h1
  have hpow' : k ^ 12 = 2 ^ e := by exact_mod_cast hpow
  have hk : k ∣ 2 ^ e := by rw [← hpow']; exact dvd_pow_self k (by norm_num)
  obtain ⟨j, _, rfl⟩ := (Nat.dvd_prime_pow Nat.prime_two).1 hk
  rw [← pow_mul] at hpow'
  have := Nat.pow_right_injective (le_refl 2) hpow'
  apply h12
  omega

example := C58_semitones_fract 7 (by decide) (by decide)

/-- `npRound` is a nearest integer, and the even one of two. -/
theorem npRound_spec (x : ℝ) : |x - npRound x| ≤ 1 / 2 ∧ (|x - npRound x| = 1 / 2 → Even (npRound x)) := by
  unfold npRound
  have hff := Int.self_sub_floor x
  by_cases hf : Int.fract x = 1 / 2
  · rw [if_pos hf]
    by_cases he : Even ⌊x⌋
    · rw [if_pos he]
      exact ⟨by rw [hff, hf, abs_of_pos] <;> norm_num, fun _ => he⟩
    · rw [if_neg he]
      refine ⟨?_, fun _ => ?_⟩
      · push_cast
        rw [show x - ((⌊x⌋ : ℝ) + 1) = (x - ⌊x⌋) - 1 by ring, hff, hf, abs_of_neg] <;> norm_num
      · rw [Int.even_add_one]; exact he
  · rw [if_neg hf]
    refine ⟨abs_sub_round x, fun h => absurd ?_ hf⟩
    rw [abs_sub_round_eq_min] at h
    rcases min_choice (Int.fract x) (1 - Int.fract x) with h' | h' <;> rw [h'] at h <;> linarith

/-- The number of new frames: the multiples of the factor below the number of frames. -/
theorem nSteps_iff (n : ℕ) (factor : ℝ) (hf : 0 < factor) (i : ℕ) : i < nSteps n factor ↔ i * factor < n := by
  unfold nSteps
  rw [Nat.lt_ceil, lt_div_iff₀ hf]

/-- **C58, the phase vocoder**: stretching analyzes the audio into weighted windows `hop` samples apart (`D`), and adds up, `hop` samples apart,
new windows: one for every multiple `i * factor` of the factor that lies within the analysis, whose magnitudes are interpolated
linearly between the two windows around that position (silence after the last one), and whose phases start at those of the first
window and advance as the phases between these two windows do, by the number of whole turns that makes the advance nearest to that of
a tone at the centre of the coefficient over `hop` samples. -/
theorem C58_vocoder (x : List ℝ) (factor : ℝ) (hop m : ℕ) (win : ℕ → List ℝ) (hf : 0 < factor) (hm : 0 < m) (hhop : 0 < hop)
    (hx : 2 * m ≤ x.length) (hw : (win (2 * m)).length = 2 * m) :
    ∃ (D C : List (List ℂ)) (φ : ℕ → ℕ → ℝ) (F : List (List ℝ)) (y : List ℝ), timeStretch x factor hop (2 * m) win = .ok y ∧
      D.length = (x.length - 2 * m) / hop + 1 ∧
      (∀ i, i < D.length →
        rfft ((List.range (2 * m)).map fun t => x.getD (i * hop + t) 0 * (win (2 * m)).getD t 0) = .ok (D.getD i [])) ∧
      (∀ i, i < C.length ↔ i * factor < D.length) ∧
      (∀ i, i < C.length → (C.getD i []).length = m + 1) ∧
      (∀ i k, i < C.length → k ≤ m → ∀ (p : ℕ) (w : ℝ), p ≤ i * factor → i * factor < p + 1 → w = i * factor - p →
        (C.getD i []).getD k 0 = (((1 - w) * ‖(D.getD p []).getD k 0‖ + w * ‖(D.getD (p + 1) []).getD k 0‖ : ℝ) : ℂ) *
          Complex.exp (Complex.I * φ k i) ∧
        ∃ z : ℤ, φ k (i + 1) - φ k i = ((D.getD (p + 1) []).getD k 0).arg - ((D.getD p []).getD k 0).arg - 2 * π * z ∧
          |φ k (i + 1) - φ k i - 2 * π * (k / (2 * m) : ℝ) * hop| ≤ π ∧
          (|φ k (i + 1) - φ k i - 2 * π * (k / (2 * m) : ℝ) * hop| = π → Even z)) ∧
      (∀ k, φ k 0 = ((D.getD 0 []).getD k 0).arg) ∧
      F.length = C.length ∧ (∀ i, i < F.length → irfft (C.getD i []) = .ok (F.getD i [])) ∧
      y.length = ⌊(x.length : ℝ) / factor⌋₊ ∧
      ∀ t, t < y.length → y.getD t 0 = ∑ i ∈ range F.length,
        if i * hop ≤ t ∧ t < i * hop + 2 * m then (win (2 * m)).getD (t - i * hop) 0 * (F.getD i []).getD (t - i * hop) 0 else 0 := by
  obtain ⟨D, hD, hDl, hDi⟩ := stftRow_eq x hop (2 * m) (win (2 * m)) (by omega) hhop hx hw
  have h2m : 2 * m / 2 + 1 = m + 1 := by omega
  have hclen : (newCoeffs D factor hop (m + 1)).length = nSteps D.length factor := by simp [newCoeffs]
  have hcg : ∀ i, i < nSteps D.length factor → (newCoeffs D factor hop (m + 1)).getD i [] = (List.range (m + 1)).map fun k =>
      (newMag D factor k i : ℂ) * Complex.exp (Complex.I * newPhase D factor (expectedAdvance hop (m + 1) k) k i) := by
    intro i hi
    unfold newCoeffs
    rw [getD_map_range _ _ _ _ hi]
  have hirsome : ∀ i : ℕ, ∃ f : List ℝ, f.length = 2 * m ∧ irfft ((List.range (m + 1)).map fun k : ℕ =>
      (newMag D factor k i : ℂ) * Complex.exp (Complex.I * newPhase D factor (expectedAdvance hop (m + 1) k) k i)) = .ok f := by
    intro i
    unfold irfft
    rw [if_neg (by simp; omega)]
    exact ⟨_, by simp, rfl⟩
  choose f hfl hfi using hirsome
  have hir : (newCoeffs D factor hop (m + 1)).mapM irfft = .ok ((List.range (nSteps D.length factor)).map f) := by
    unfold newCoeffs
    apply mapM_ok
    intro i _
    exact hfi i
  have hts : timeStretch x factor hop (2 * m) win = .ok (addFramesInto (((List.range (nSteps D.length factor)).map f).map
      fun f => List.zipWith (· * ·) f (win f.length)) hop ⌊(x.length : ℝ) / factor⌋₊) := by
    unfold timeStretch
    rw [if_neg (by push Not; exact ⟨hf, hx, by omega⟩), hD]
    simp only [h2m]
    rw [hir]
  refine ⟨D, newCoeffs D factor hop (m + 1), fun k i => newPhase D factor (expectedAdvance hop (m + 1) k) k i,
    (List.range (nSteps D.length factor)).map f, _, hts, hDl, hDi, ?_, ?_, ?_, ?_, ?_, ?_, ?_, ?_⟩
  · intro i; rw [hclen]; exact nSteps_iff _ _ hf i
  · intro i hi
    rw [hclen] at hi
    rw [hcg i hi]; simp
  · intro i k hi hk p w hp1 hp2 hpw
    rw [hclen] at hi
    have hfloor : ⌊(i * factor : ℝ)⌋₊ = p := by rw [Nat.floor_eq_iff (by positivity)]; exact ⟨hp1, hp2⟩
    have hfract : Int.fract (i * factor : ℝ) = w := by
      rw [Int.fract_eq_iff]
      refine ⟨by rw [hpw]; linarith, by rw [hpw]; linarith, (p : ℤ), by rw [hpw]; push_cast; ring⟩
    have hadv : expectedAdvance hop (m + 1) k = 2 * π * (k / (2 * m) : ℝ) * hop := by
      unfold expectedAdvance
      have : (m : ℝ) ≠ 0 := by positivity
      push_cast
      rw [add_sub_cancel_right, div_eq_iff this]
      field_simp
    constructor
    · rw [hcg i hi, getD_map_range _ _ _ _ (by omega)]
      congr 1
      unfold newMag
      rw [hfloor, hfract]
    · have hstep : newPhase D factor (expectedAdvance hop (m + 1) k) k (i + 1) -
          newPhase D factor (expectedAdvance hop (m + 1) k) k i = phaseAdvance D factor (expectedAdvance hop (m + 1) k) k i := by
        unfold newPhase; rw [sum_range_succ]; ring
      simp only [hstep]
      unfold phaseAdvance
      simp only [hfloor, ← hadv]
      set a := expectedAdvance hop (m + 1) k
      set d := ((D.getD (p + 1) []).getD k 0).arg - ((D.getD p []).getD k 0).arg - a with hd
      obtain ⟨h1, h2⟩ := npRound_spec (d / (2 * π))
      have hpi : 0 < 2 * π := by positivity
      have he : d - 2 * π * npRound (d / (2 * π)) + a - a = 2 * π * (d / (2 * π) - npRound (d / (2 * π))) := by
        field_simp
        ring
      refine ⟨npRound (d / (2 * π)), by rw [hd]; ring, ?_, ?_⟩
      · rw [he, abs_mul, abs_of_pos hpi]
        nlinarith
      · intro h
        apply h2
        rw [he, abs_mul, abs_of_pos hpi] at h
        have : 2 * π * |d / (2 * π) - npRound (d / (2 * π))| = 2 * π * (1 / 2) := by rw [h]; ring
        exact mul_left_cancel₀ hpi.ne' this
  · intro k; simp [newPhase]
  · simp [hclen]
  · intro i hi
    simp only [List.length_map, List.length_range] at hi
    rw [hcg i hi, getD_map_range _ _ _ _ hi]
    exact hfi i
  · simp [addFramesInto]
  · intro t ht
    simp only [addFramesInto, List.length_map, List.length_range] at ht
    unfold addFramesInto
    rw [getD_map_range _ _ _ _ ht]
    simp only [List.length_map, List.length_range]
    apply sum_congr rfl
    intro i hi
    have hi := mem_range.1 hi
    rw [List.map_map, getD_map_range _ _ _ _ hi, getD_map_range _ _ _ _ hi]
    simp only [Function.comp, hfl]
    by_cases h1 : i * hop ≤ t
    · rw [if_pos h1]
      by_cases h2 : t < i * hop + 2 * m
      · rw [if_pos ⟨h1, h2⟩, List.getD_eq_getElem?_getD, List.getElem?_zipWith,
          List.getElem?_eq_getElem (by rw [hfl]; omega : t - i * hop < (f i).length),
          List.getElem?_eq_getElem (by omega : t - i * hop < (win (2 * m)).length),
          List.getD_eq_getElem?_getD, List.getD_eq_getElem?_getD,
          List.getElem?_eq_getElem (by rw [hfl]; omega : t - i * hop < (f i).length),
          List.getElem?_eq_getElem (by omega : t - i * hop < (win (2 * m)).length)]
        simp only [Option.getD_some]
        ring
      · rw [if_neg (by omega), List.getD_eq_getElem?_getD, List.getElem?_eq_none]
        · rfl
        · simp only [List.length_zipWith, hfl]; omega
    · rw [if_neg h1, if_neg (by omega)]

example := C58_vocoder [1, 2, 3, 4, 5] 2 2 2 (fun n => List.replicate n 1) (by norm_num) (by decide) (by decide) (by decide) (by simp)
example : ∃ y, timeStretch [1, 2, 3, 4, 5] 2 2 4 (fun n => List.replicate n 1) = .ok y ∧ y.length = ⌊(5 : ℝ) / 2⌋₊ := by
  obtain ⟨-, -, -, -, y, h, -⟩ := C58_vocoder [1, 2, 3, 4, 5] 2 2 2 (fun n => List.replicate n 1) (by norm_num) (by decide) (by decide) (by decide) (by simp)
  exact ⟨y, h, by simpa using C58_stretch_length [1, 2, 3, 4, 5] 2 2 4 _ y h⟩

theorem flatten_const_getD {α : Type} (n : ℕ) (d : α) : ∀ (rows : List (List α)), (∀ r ∈ rows, r.length = n) → ∀ i j, i < rows.length → j < n →
    rows.flatten.getD (i * n + j) d = (rows.getD i []).getD j d
  | [], _, i, j, hi, _ => by simp at hi
  | r :: rows, h, 0, j, _, hj => by
    have := h r (by simp)
    simp only [List.flatten_cons, Nat.zero_mul, Nat.zero_add, List.getD_cons_zero]
    rw [List.getD_eq_getElem?_getD, List.getD_eq_getElem?_getD, List.getElem?_append_left (by omega)]
  | r :: rows, h, i + 1, j, hi, hj => by
    have hr := h r (by simp)
    simp only [List.flatten_cons, List.getD_cons_succ]
    rw [← flatten_const_getD n d rows (fun r hr => h r (by simp [hr])) i j (by simpa using hi) hj]
    have hle : r.length ≤ (i + 1) * n + j := by rw [hr]; nlinarith
    rw [List.getD_eq_getElem?_getD, List.getD_eq_getElem?_getD, List.getElem?_append_right hle]
    congr 2
    rw [hr, Nat.succ_mul]; omega

/-- **C58, pitch shift content**: the audio is stretched by the factor of the semitones, and every 1024 samples of that, the last ones
completed with zeros, are resampled in place of `⌊1024 factor⌋` samples of the result. -/
theorem C58_pitch_content (resample : List ℝ → ℕ → List ℝ) (hres : ∀ w n, (resample w n).length = n) (x : List ℝ) (semitones : ℝ)
    (hop wl : ℕ) (win : ℕ → List ℝ) (y : List ℝ) (h : pitchShift resample x semitones hop wl win = .ok y) :
    ∃ s, timeStretch x ((2 : ℝ) ^ (-semitones / 12)) hop wl win = .ok s ∧
      ∀ i j, j < ⌊1024 * (2 : ℝ) ^ (-semitones / 12)⌋₊ → i * ⌊1024 * (2 : ℝ) ^ (-semitones / 12)⌋₊ + j < y.length →
        y.getD (i * ⌊1024 * (2 : ℝ) ^ (-semitones / 12)⌋₊ + j) 0 =
          (resample ((List.range 1024).map fun t => s.getD (i * 1024 + t) 0) ⌊1024 * (2 : ℝ) ^ (-semitones / 12)⌋₊).getD j 0 := by
  have hlen := C58_pitch_length resample hres x semitones hop wl win y h
  unfold pitchShift at h
  split at h
  · cases h
  · rename_i s hs
    cases h
    refine ⟨s, hs, ?_⟩
    have hsl := C58_stretch_length _ _ _ _ _ _ hs
    show ∀ i j, j < ⌊1024 * pitchFactor semitones⌋₊ → _
    intro i j hj hij
    change i * ⌊1024 * pitchFactor semitones⌋₊ + j < _ at hij
    change (resampleWindows resample s (pitchFactor semitones) x.length).getD (i * ⌊1024 * pitchFactor semitones⌋₊ + j) 0 =
      (resample ((List.range 1024).map fun t => s.getD (i * 1024 + t) 0) ⌊1024 * pitchFactor semitones⌋₊).getD j 0
    set n := ⌊1024 * pitchFactor semitones⌋₊ with hn
    rw [hlen, ← hsl] at hij
    have hi : i < s.length / 1024 + 1 := by
      by_contra hge
      have : (s.length / 1024 + 1) * n ≤ i * n := Nat.mul_le_mul_right _ (by omega)
      omega
    have hN : ∀ S : ℕ, (S + (1024 - S % 1024)) / 1024 = S / 1024 + 1 := by intro S; omega
    unfold resampleWindows
    rw [List.getD_eq_getElem?_getD, List.getElem?_take_of_lt (by omega), ← List.getD_eq_getElem?_getD]
    rw [flatten_const_getD n]
    · simp only [List.length_append, List.length_replicate, hN]
      rw [List.map_map, getD_map_range _ _ _ _ hi]
      simp only [Function.comp]
      refine congrArg (fun w => (resample w n).getD j 0) ?_
      have hb : i * 1024 + 1024 ≤ s.length + (1024 - s.length % 1024) := by omega
      apply Synth.getD_ext
      · simp only [List.length_take, List.length_drop, List.length_append, List.length_replicate, List.length_map, List.length_range]
        omega
      · intro t ht
        simp only [List.length_take, List.length_drop, List.length_append, List.length_replicate] at ht
        rw [getD_map_range _ _ _ _ (by omega), List.getD_eq_getElem?_getD, List.getElem?_take_of_lt (by omega), List.getElem?_drop,
          List.getD_eq_getElem?_getD]
        by_cases hlt : i * 1024 + t < s.length
        · rw [List.getElem?_append_left hlt]
        · rw [List.getElem?_append_right (by omega), List.getElem?_replicate, List.getElem?_eq_none (by omega), if_pos (by omega)]
          rfl
    · intro r hr
      obtain ⟨w, _, rfl⟩ := List.mem_map.1 hr
      exact hres _ _
    · simp only [List.length_map, List.length_range, List.length_append, List.length_replicate, hN]
      exact hi
    · exact hj

end Zounds.Spectral
