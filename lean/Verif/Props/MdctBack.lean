import Verif.Props.Energy
import Verif.Props.Irfft
import Verif.Props.SynthLinear

/-!
# MDCT coefficients through synthesis and back (C368), and what errors in coefficients do to the sound (C369, C370)
-/

namespace Zounds.MdctBack
open Zounds Zounds.Spectral Zounds.Energy Finset Real

/-! ## The kernel of the transform -/

theorem sum_shifted (l : ℕ) (hl : 0 < l) (n : ℤ) (h : ¬ (2 * l : ℤ) ∣ n) :
    ∑ t ∈ range (2 * l), cos (π / l * ((t : ℝ) + 1 / 2 + l / 2) * n) = 0 := by
  have hl' : (l : ℝ) ≠ 0 := by exact_mod_cast hl.ne'
  have hl'' : (l : ℂ) ≠ 0 := by exact_mod_cast hl.ne'
  have hc := sum_exp_circle (2 * l) (by omega) n
  rw [if_neg (by push_cast; exact h)] at hc
  have : ∑ t ∈ range (2 * l), cos (π / l * ((t : ℝ) + 1 / 2 + l / 2) * n) =
      (Complex.exp ((π / l * (1 / 2 + l / 2) * n : ℝ) * Complex.I) * ∑ t ∈ range (2 * l), Complex.exp (2 * π * Complex.I * n * t / (2 * l : ℕ))).re := by
    rw [mul_sum, Complex.re_sum]
    apply sum_congr rfl
    intro t _
    rw [← Complex.exp_add, show ((π / l * (1 / 2 + l / 2) * n : ℝ) : ℂ) * Complex.I + 2 * π * Complex.I * n * t / ((2 * l : ℕ) : ℂ) =
      ((π / l * ((t : ℝ) + 1 / 2 + l / 2) * n : ℝ) : ℂ) * Complex.I by push_cast; field_simp; ring, Complex.exp_ofReal_mul_I_re]
  rw [this, hc, mul_zero, Complex.zero_re]

/-- Different coefficients have orthogonal windows. -/
theorem mdct_columns (l : ℕ) (hl : 0 < l) (k j : ℕ) (hk : k < l) (hj : j < l) :
    ∑ t ∈ range (2 * l), cos (mdctAngle l t k) * cos (mdctAngle l t j) = if j = k then (l : ℝ) else 0 := by
  have hprod : ∀ t : ℕ, cos (mdctAngle l t k) * cos (mdctAngle l t j) =
      1 / 2 * (cos (π / l * ((t : ℝ) + 1 / 2 + l / 2) * ((k - j : ℤ) : ℝ)) + cos (π / l * ((t : ℝ) + 1 / 2 + l / 2) * ((k + j + 1 : ℤ) : ℝ))) := by
    intro t
    have e1 : π / l * ((t : ℝ) + 1 / 2 + l / 2) * ((k - j : ℤ) : ℝ) = mdctAngle l t k - mdctAngle l t j := by
      unfold mdctAngle; push_cast; ring
    have e2 : π / l * ((t : ℝ) + 1 / 2 + l / 2) * ((k + j + 1 : ℤ) : ℝ) = mdctAngle l t k + mdctAngle l t j := by
      unfold mdctAngle; push_cast; ring
    rw [e1, e2, cos_sub, cos_add]
    ring
  rw [sum_congr rfl fun t _ => hprod t, ← mul_sum, sum_add_distrib, sum_shifted l hl (k + j + 1) (by
    rintro ⟨q, hq⟩
    have hq0 : 0 < q := by
      by_contra hc
      have : (2 * l : ℤ) * q ≤ 0 := Int.mul_nonpos_of_nonneg_of_nonpos (by omega) (by omega)
      omega
    have : (2 * l : ℤ) * 1 ≤ (2 * l : ℤ) * q := Int.mul_le_mul_of_nonneg_left (by omega) (by omega)
    omega)]
  by_cases h : j = k
  · subst h
    rw [if_pos rfl]
    simp
  · rw [if_neg h, sum_shifted l hl (k - j) (by
      rintro ⟨q, hq⟩
      have hq0 : q ≠ 0 := by rintro rfl; omega
      rcases lt_or_gt_of_ne hq0 with hq1 | hq1
      · have : (2 * l : ℤ) * q ≤ (2 * l : ℤ) * (-1) := Int.mul_le_mul_of_nonneg_left (by omega) (by omega)
        omega
      · have : (2 * l : ℤ) * 1 ≤ (2 * l : ℤ) * q := Int.mul_le_mul_of_nonneg_left (by omega) (by omega)
        omega)]
    ring

theorem cos_first (m : ℕ) (hm : 0 < m) (r k : ℕ) (hr : r < m) : cos (mdctAngle m (m - 1 - r) k) = -cos (mdctAngle m r k) := by
  have hm' : (m : ℝ) ≠ 0 := by exact_mod_cast hm.ne'
  have : mdctAngle m (m - 1 - r) k = π - mdctAngle m r k + (k : ℤ) * (2 * π) := by
    unfold mdctAngle
    rw [show ((m - 1 - r : ℕ) : ℝ) = (m : ℝ) - 1 - r by
      rw [Nat.cast_sub (by omega), Nat.cast_sub (by omega)]; push_cast; ring]
    push_cast
    field_simp
    ring
  rw [this, cos_add_int_mul_two_pi, cos_pi_sub]

theorem cos_second (m : ℕ) (hm : 0 < m) (r k : ℕ) (hr : r < m) : cos (mdctAngle m (m + (m - 1 - r)) k) = cos (mdctAngle m (m + r) k) := by
  have hm' : (m : ℝ) ≠ 0 := by exact_mod_cast hm.ne'
  have : mdctAngle m (m + (m - 1 - r)) k = -mdctAngle m (m + r) k + ((2 * k + 1 : ℤ) : ℝ) * (2 * π) := by
    unfold mdctAngle
    rw [show ((m + (m - 1 - r) : ℕ) : ℝ) = (m : ℝ) + ((m : ℝ) - 1 - r) by
      rw [Nat.cast_add, Nat.cast_sub (by omega), Nat.cast_sub (by omega)]; push_cast; ring]
    push_cast
    field_simp
    ring
  rw [this, cos_add_int_mul_two_pi, cos_neg]

/-! ## Sums over half windows -/

theorem anti_sum (m : ℕ) (E : ℕ → ℝ) (h : ∀ r, r < m → E (m - 1 - r) = -E r) : ∑ r ∈ range m, E r = 0 := by
  have h1 : ∑ r ∈ range m, E (m - 1 - r) = ∑ r ∈ range m, E r := sum_range_reflect E m
  rw [sum_congr rfl fun r hr => h r (mem_range.1 hr), sum_neg_distrib] at h1
  linarith

theorem sym_sum (m : ℕ) (u E : ℕ → ℝ) (g : ℝ) (hu : ∀ r, r < m → u r ^ 2 + u (m - 1 - r) ^ 2 = g) (h : ∀ r, r < m → E (m - 1 - r) = E r) :
    ∑ r ∈ range m, u r ^ 2 * E r = g / 2 * ∑ r ∈ range m, E r := by
  have h1 : ∑ r ∈ range m, u (m - 1 - r) ^ 2 * E (m - 1 - r) = ∑ r ∈ range m, u r ^ 2 * E r :=
    sum_range_reflect (fun r => u r ^ 2 * E r) m
  have h2 : ∑ r ∈ range m, u r ^ 2 * E r + ∑ r ∈ range m, u (m - 1 - r) ^ 2 * E (m - 1 - r) = g * ∑ r ∈ range m, E r := by
    rw [← sum_add_distrib, mul_sum]
    apply sum_congr rfl
    intro r hr
    rw [h r (mem_range.1 hr), ← hu r (mem_range.1 hr)]
    ring
  rw [h1] at h2
  linarith

/-- What a window has in a half, with its weights. -/
theorem half_energy (m : ℕ) (u a b : ℕ → ℝ) (g : ℝ) (hu : ∀ r, r < m → u r ^ 2 + u (m - 1 - r) ^ 2 = g)
    (ha : ∀ r, r < m → a (m - 1 - r) = -a r) (hb : ∀ r, r < m → b (m - 1 - r) = b r) :
    ∑ r ∈ range m, (u r * a r + u (m - 1 - r) * b r) ^ 2 = g / 2 * (∑ r ∈ range m, a r ^ 2 + ∑ r ∈ range m, b r ^ 2) := by
  have e : ∀ r ∈ range m, (u r * a r + u (m - 1 - r) * b r) ^ 2 = u r ^ 2 * a r ^ 2 + u (m - 1 - r) ^ 2 * b r ^ 2 + 2 * (u r * u (m - 1 - r) * (a r * b r)) := by
    intro r _; ring
  have h1 : ∀ r, r < m → m - 1 - (m - 1 - r) = r := by intro r hr; omega
  rw [sum_congr rfl e, sum_add_distrib, sum_add_distrib, ← mul_sum, anti_sum m (fun r => u r * u (m - 1 - r) * (a r * b r)) (by
    intro r hr
    rw [h1 r hr, ha r hr, hb r hr]
    ring), sym_sum m u (fun r => a r ^ 2) g hu (by intro r hr; rw [ha r hr]; ring),
    sym_sum m (fun r => u (m - 1 - r)) (fun r => b r ^ 2) g (by
      intro r hr
      rw [h1 r hr, ← hu r hr]
      ring) (by intro r hr; rw [hb r hr])]
  ring

/-! ## Overlap-add of half-lapped windows, everywhere -/

theorem overlapped_all (m k : ℕ) (hm : 0 < m) (F : ℕ → ℕ → ℝ) (q r : ℕ) (hq : q ≤ k + 1) (hr : r < m) :
    Synth.overlapped ((List.range (k + 1)).map fun i => (List.range (2 * m)).map (F i)) m (q * m + r) =
      (if q ≤ k then F q r else 0) + (if 1 ≤ q then F (q - 1) (m + r) else 0) := by
  unfold Synth.overlapped
  have hlen : ((List.range (k + 1)).map fun i => (List.range (2 * m)).map (F i)).length = k + 1 := by simp
  rw [hlen]
  have key : ∀ i ∈ range (k + 1), (if i * m ≤ q * m + r then (((List.range (k + 1)).map fun i => (List.range (2 * m)).map (F i)).getD i []).getD (q * m + r - i * m) 0 else 0) =
      (if i = q then F q r else 0) + (if i + 1 = q then F (q - 1) (m + r) else 0) := by
    intro i hi
    have hi := mem_range.1 hi
    rw [getD_map_range _ _ _ _ hi]
    by_cases h1 : i = q
    · subst h1
      rw [if_pos (by omega), if_pos rfl, if_neg (by omega), Nat.add_sub_cancel_left, getD_map_range _ _ _ _ (by omega), add_zero]
    · by_cases h2 : i + 1 = q
      · subst h2
        have e : (i + 1) * m = i * m + m := by ring
        rw [if_pos (by omega), if_neg h1, if_pos rfl, show (i + 1) * m + r - i * m = m + r by omega, getD_map_range _ _ _ _ (by omega), zero_add, Nat.add_sub_cancel]
      · rw [if_neg h1, if_neg h2, add_zero]
        by_cases h3 : i * m ≤ q * m + r
        · have hiq : i < q := by
            by_contra hc
            have : (q + 1) * m ≤ i * m := Nat.mul_le_mul_right _ (by omega)
            have : (q + 1) * m = q * m + m := by ring
            omega
          have : (i + 2) * m ≤ q * m := Nat.mul_le_mul_right _ (by omega)
          have : (i + 2) * m = i * m + 2 * m := by ring
          rw [if_pos h3, getD_map_range_ge _ _ _ _ (by omega)]
        · rw [if_neg h3]
  rw [sum_congr rfl key, sum_add_distrib]
  congr 1
  · rw [sum_ite_eq']
    by_cases h : q ≤ k
    · rw [if_pos (mem_range.2 (by omega)), if_pos h]
    · rw [if_neg (by rw [mem_range]; omega), if_neg h]
  · by_cases h : 1 ≤ q
    · rw [if_pos h, sum_eq_single (q - 1)]
      · rw [if_pos (by omega)]
      · intro i _ hne; rw [if_neg (by omega)]
      · intro hc; exact absurd (mem_range.2 (by omega)) hc
    · rw [if_neg h]
      apply sum_eq_zero
      intro i _
      rw [if_neg (by omega)]

/-! ## The synthesizer -/

/-- The windows of an inverse MDCT. -/
noncomputable def inverted (m : ℕ) (c : ℕ → ℝ) (t : ℕ) : ℝ := sqrt (2 / m) * ∑ k ∈ range m, c k * cos (mdctAngle m t k)

theorem inverted_first (m : ℕ) (hm : 0 < m) (c : ℕ → ℝ) (r : ℕ) (hr : r < m) : inverted m c (m - 1 - r) = -inverted m c r := by
  unfold inverted
  rw [sum_congr rfl fun k _ => by rw [cos_first m hm r k hr, mul_neg], sum_neg_distrib, mul_neg]

theorem inverted_second (m : ℕ) (hm : 0 < m) (c : ℕ → ℝ) (r : ℕ) (hr : r < m) : inverted m c (m + (m - 1 - r)) = inverted m c (m + r) := by
  unfold inverted
  rw [sum_congr rfl fun k _ => by rw [cos_second m hm r k hr]]

theorem two_div (m : ℕ) (hm : 0 < m) : sqrt (2 / (m : ℝ)) * sqrt (2 / m) * m = 2 := by
  have hm' : (0 : ℝ) < m := by exact_mod_cast hm
  rw [mul_self_sqrt (by positivity)]
  field_simp

/-- Transforming an inverted window gives twice its coefficients. -/
theorem twice (m : ℕ) (hm : 0 < m) (c : ℕ → ℝ) (k : ℕ) (hk : k < m) :
    sqrt (2 / m) * ∑ t ∈ range (2 * m), inverted m c t * cos (mdctAngle m t k) = 2 * c k := by
  unfold inverted
  have e : ∀ t ∈ range (2 * m), sqrt (2 / m) * (∑ j ∈ range m, c j * cos (mdctAngle m t j)) * cos (mdctAngle m t k) =
      ∑ j ∈ range m, sqrt (2 / m) * (c j * (cos (mdctAngle m t k) * cos (mdctAngle m t j))) := by
    intro t _
    rw [mul_assoc, sum_mul, mul_sum]
    exact sum_congr rfl fun j _ => by ring
  rw [sum_congr rfl e, sum_comm]
  have e2 : ∀ j ∈ range m, ∑ t ∈ range (2 * m), sqrt (2 / m) * (c j * (cos (mdctAngle m t k) * cos (mdctAngle m t j))) =
      if j = k then sqrt (2 / m) * (c k * m) else 0 := by
    intro j hj
    rw [← mul_sum, ← mul_sum, mdct_columns m hm k j hk (mem_range.1 hj)]
    by_cases h : j = k
    · rw [if_pos h, if_pos h, h]
    · rw [if_neg h, if_neg h]; ring
  rw [sum_congr rfl e2, sum_ite_eq', if_pos (mem_range.2 hk)]
  linear_combination c k * two_div m hm

/-- An inverted window has twice the energy of its coefficients. -/
theorem twice_energy (m : ℕ) (hm : 0 < m) (c : ℕ → ℝ) : ∑ t ∈ range (2 * m), inverted m c t ^ 2 = 2 * ∑ k ∈ range m, c k ^ 2 := by
  have e : ∀ t ∈ range (2 * m), inverted m c t ^ 2 = ∑ k ∈ range m, c k * (inverted m c t * (sqrt (2 / m) * cos (mdctAngle m t k))) := by
    intro t _
    rw [pow_two]
    conv_lhs => rw [show inverted m c t * inverted m c t = inverted m c t * (sqrt (2 / m) * ∑ k ∈ range m, c k * cos (mdctAngle m t k)) from rfl]
    rw [mul_sum, mul_sum]
    exact sum_congr rfl fun k _ => by ring
  rw [sum_congr rfl e, sum_comm, mul_sum]
  apply sum_congr rfl
  intro k hk
  rw [← mul_sum, ← sum_congr rfl fun t _ => show sqrt (2 / m) * (inverted m c t * cos (mdctAngle m t k)) = inverted m c t * (sqrt (2 / m) * cos (mdctAngle m t k)) by ring,
    ← mul_sum, twice m hm c k (mem_range.1 hk)]
  ring

/-- The ogg vorbis window. -/
noncomputable def ogg (m j : ℕ) : ℝ := (WindowFunc.oggvorbis (2 * m)).getD j 0

theorem ogg_mirror (m r : ℕ) (hr : r < m) : ogg m (m - 1 - r) = ogg m (m + r) := by
  unfold ogg
  rw [← ogg_sym m (m + r) (by omega)]
  congr 1
  omega

theorem ogg_power (m r : ℕ) (hr : r < m) : ogg m r ^ 2 + ogg m (m - 1 - r) ^ 2 = 1 / WindowFunc.oggMax (2 * m) ^ 2 := by
  rw [ogg_mirror m r hr]
  exact ogg_pow m r hr

/-- What the synthesizer makes of coefficients, sample by sample. -/
theorem synthesized (f0 : Int) (m k : ℕ) (hf0 : 0 < f0) (hm : 0 < m) (coeffs : List (List ℝ)) (hlen : coeffs.length = k + 1) (hrows : ∀ c ∈ coeffs, c.length = m) :
    ∃ out, mdctSynthesize ⟨Synth.windowsDim f0 (2 * m) m (k + 1), m, coeffs⟩ = .ok out ∧ out.length = (k + 2) * m ∧
      ∀ q r, q ≤ k + 1 → r < m → out.getD (q * m + r) 0 =
        ogg m r * (if q ≤ k then inverted m (fun j => (coeffs.getD q []).getD j 0) r else 0) +
        ogg m (m - 1 - r) * (if 1 ≤ q then inverted m (fun j => (coeffs.getD (q - 1) []).getD j 0) (m + r) else 0) := by
  have hco : coeffs = (List.range (k + 1)).map fun i => coeffs.getD i [] := by
    apply List.ext_getElem (by simp [hlen])
    intro i h1 h2
    simp [List.getD, h1]
  have hrow : ∀ i ∈ List.range (k + 1), imdct (coeffs.getD i []) = .ok ((List.range (2 * m)).map (inverted m fun j => (coeffs.getD i []).getD j 0)) := by
    intro i hi
    have hi := List.mem_range.1 hi
    have hmem : coeffs.getD i [] ∈ coeffs := by
      have : i < coeffs.length := by omega
      rw [List.getD_eq_getElem?_getD, List.getElem?_eq_getElem this, Option.getD_some]
      exact List.getElem_mem this
    exact C53_imdct m hm _ (hrows _ hmem)
  have hmap : coeffs.mapM imdct = .ok ((List.range (k + 1)).map fun i => (List.range (2 * m)).map (inverted m fun j => (coeffs.getD i []).getD j 0)) := by
    conv_lhs => rw [hco]
    exact mapM_ok imdct (fun i => coeffs.getD i []) _ _ hrow
  let rows : List (List ℝ) := (List.range (k + 1)).map fun i => (List.range (2 * m)).map
    (fun t => ogg m t * inverted m (fun j => (coeffs.getD i []).getD j 0) t)
  have hz : ((List.range (k + 1)).map fun i => (List.range (2 * m)).map (inverted m fun j => (coeffs.getD i []).getD j 0)).map
      (fun r => List.zipWith (· * ·) (WindowFunc.oggvorbis (2 * m)) r) = rows := by
    simp only [rows, List.map_map]
    apply List.map_congr_left
    intro i _
    simp only [Function.comp]
    rw [ogg_list, List.zipWith_map, List.zipWith_self]
    rfl
  obtain ⟨out, e, l, hg⟩ := Synth.C35_overlap_add (⟨Synth.windowsDim f0 (2 * m) m (k + 1), 2 * m, rows⟩ : Synth.Frames ℝ) f0 m k hf0
    (by simp; omega) rfl (by intro r hr; simp only [rows, List.mem_map] at hr; obtain ⟨i, _, rfl⟩ := hr; simp)
  refine ⟨out, ?_, by rw [l]; ring, ?_⟩
  · unfold mdctSynthesize
    simp only [hmap]
    rw [Synth.C35_synthesis_window, ← e, hz]
  · intro q r hq hr
    have hlt : q * m + r < out.length := by
      rw [l]
      have : q * m ≤ (k + 1) * m := Nat.mul_le_mul_right _ hq
      have : (k + 1) * m = k * m + m := by ring
      show q * m + r < k * m + 2 * m
      omega
    rw [hg _ hlt]
    simp only [rows]
    rw [overlapped_all m k hm _ q r hq hr, ogg_mirror m r hr]
    congr 1 <;> split <;> simp

/-- **C368**: any MDCT coefficients come back: windowed again and transformed, the sound made of them has the coefficients it was made of, in every frame, scaled by
`1 / oggMax²`. -/
theorem C368_back (coeffs : List (List ℝ)) (f0 : Int) (m k : ℕ) (hf0 : 0 < f0) (hm : 0 < m) (hlen : coeffs.length = k + 1) (hrows : ∀ c ∈ coeffs, c.length = m) :
    ∃ out, mdctSynthesize ⟨Synth.windowsDim f0 (2 * m) m (k + 1), m, coeffs⟩ = .ok out ∧ out.length = (k + 2) * m ∧
      (weighted (fun t => out.getD t 0) m k).mapM mdct = .ok (coeffs.map fun c => c.map fun v => 1 / WindowFunc.oggMax (2 * m) ^ 2 * v) := by
  obtain ⟨out, h1, h2, h3⟩ := synthesized f0 m k hf0 hm coeffs hlen hrows
  refine ⟨out, h1, h2, ?_⟩
  obtain ⟨G, hG⟩ : ∃ G : ℝ, G = 1 / WindowFunc.oggMax (2 * m) ^ 2 := ⟨_, rfl⟩
  have hp : ∀ r, r < m → ogg m r ^ 2 + ogg m (m - 1 - r) ^ 2 = G := by rw [hG]; exact ogg_power m
  have hp' : ∀ r, r < m → ogg m (m - 1 - r) ^ 2 + ogg m (m - 1 - (m - 1 - r)) ^ 2 = G := by
    intro r hr
    rw [show m - 1 - (m - 1 - r) = r by omega, ← hp r hr]
    ring
  have hrev : ∀ r, r < m → m - 1 - (m - 1 - r) = r := by intro r hr; omega
  rw [← hG]
  have hco : (coeffs.map fun c => c.map fun v => G * v) = (List.range (k + 1)).map fun i => (List.range m).map fun j => G * (coeffs.getD i []).getD j 0 := by
    apply List.ext_getElem (by simp [hlen])
    intro i a1 a2
    simp only [List.length_map] at a1
    have hc : coeffs.getD i [] = coeffs[i] := by simp [List.getD, a1]
    have hl := hrows coeffs[i] (List.getElem_mem a1)
    simp only [List.getElem_map, List.getElem_range]
    apply List.ext_getElem (by simp [hl])
    intro j b1 b2
    simp only [List.length_map] at b1
    simp only [List.getElem_map, List.getElem_range]
    rw [hc]
    simp [List.getD, b1]
  rw [hco]
  unfold weighted
  apply mapM_ok
  intro i hi
  have hi := List.mem_range.1 hi
  rw [C53_mdct m hm _ (by simp)]
  congr 1
  apply List.map_congr_left
  intro j hj
  have hj := List.mem_range.1 hj
  have e1 : ∀ t ∈ range (2 * m), ((List.range (2 * m)).map fun s => (WindowFunc.oggvorbis (2 * m)).getD s 0 * out.getD (i * m + s) 0).getD t 0 * cos (mdctAngle m t j) =
      ogg m t * out.getD (i * m + t) 0 * cos (mdctAngle m t j) := by
    intro t ht
    rw [getD_map_range _ _ _ _ (mem_range.1 ht)]
    rfl
  rw [sum_congr rfl e1, two_mul, sum_range_add]
  obtain ⟨a, ha⟩ : ∃ a : ℕ → ℕ → ℝ, a = fun q r => if q ≤ k then inverted m (fun j => (coeffs.getD q []).getD j 0) r else 0 := ⟨_, rfl⟩
  obtain ⟨b, hb⟩ : ∃ b : ℕ → ℕ → ℝ, b = fun q r => if 1 ≤ q then inverted m (fun j => (coeffs.getD (q - 1) []).getD j 0) (m + r) else 0 := ⟨_, rfl⟩
  have hout : ∀ q r, q ≤ k + 1 → r < m → out.getD (q * m + r) 0 = ogg m r * a q r + ogg m (m - 1 - r) * b q r := by
    intro q r hq hr
    rw [h3 q r hq hr, ha, hb]
  have hanti : ∀ q r, r < m → a q (m - 1 - r) = -a q r := by
    intro q r hr
    rw [ha]
    simp only []
    split
    · exact inverted_first m hm _ r hr
    · simp
  have hsym : ∀ q r, r < m → b q (m - 1 - r) = b q r := by
    intro q r hr
    rw [hb]
    simp only []
    split
    · exact inverted_second m hm _ r hr
    · rfl
  have hfirst : ∑ r ∈ range m, ogg m r * out.getD (i * m + r) 0 * cos (mdctAngle m r j) = G / 2 * ∑ r ∈ range m, a i r * cos (mdctAngle m r j) := by
    have e : ∀ r ∈ range m, ogg m r * out.getD (i * m + r) 0 * cos (mdctAngle m r j) =
        ogg m r ^ 2 * (a i r * cos (mdctAngle m r j)) + ogg m r * ogg m (m - 1 - r) * (b i r * cos (mdctAngle m r j)) := by
      intro r hr
      rw [hout i r (by omega) (mem_range.1 hr)]
      ring
    rw [sum_congr rfl e, sum_add_distrib, anti_sum m (fun r => ogg m r * ogg m (m - 1 - r) * (b i r * cos (mdctAngle m r j))) (by
      intro r hr
      rw [hrev r hr, hsym i r hr, cos_first m hm r j hr]
      ring), add_zero]
    exact sym_sum m (ogg m) (fun r => a i r * cos (mdctAngle m r j)) G hp (by
      intro r hr
      rw [hanti i r hr, cos_first m hm r j hr]
      ring)
  have hsecond : ∑ r ∈ range m, ogg m (m + r) * out.getD (i * m + (m + r)) 0 * cos (mdctAngle m (m + r) j) =
      G / 2 * ∑ r ∈ range m, b (i + 1) r * cos (mdctAngle m (m + r) j) := by
    have e : ∀ r ∈ range m, ogg m (m + r) * out.getD (i * m + (m + r)) 0 * cos (mdctAngle m (m + r) j) =
        ogg m (m - 1 - r) ^ 2 * (b (i + 1) r * cos (mdctAngle m (m + r) j)) + ogg m r * ogg m (m - 1 - r) * (a (i + 1) r * cos (mdctAngle m (m + r) j)) := by
      intro r hr
      rw [show i * m + (m + r) = (i + 1) * m + r by ring, hout (i + 1) r (by omega) (mem_range.1 hr), ← ogg_mirror m r (mem_range.1 hr)]
      ring
    rw [sum_congr rfl e, sum_add_distrib, anti_sum m (fun r => ogg m r * ogg m (m - 1 - r) * (a (i + 1) r * cos (mdctAngle m (m + r) j))) (by
      intro r hr
      rw [hrev r hr, hanti (i + 1) r hr, cos_second m hm r j hr]
      ring), add_zero]
    exact sym_sum m (fun r => ogg m (m - 1 - r)) (fun r => b (i + 1) r * cos (mdctAngle m (m + r) j)) G hp' (by
      intro r hr
      rw [hsym (i + 1) r hr, cos_second m hm r j hr])
  rw [hfirst, hsecond]
  have ht := twice m hm (fun j => (coeffs.getD i []).getD j 0) j hj
  rw [two_mul, sum_range_add] at ht
  have ea : ∀ r, a i r = inverted m (fun j => (coeffs.getD i []).getD j 0) r := by
    intro r; rw [ha]; simp only []; rw [if_pos (by omega)]
  have eb : ∀ r, b (i + 1) r = inverted m (fun j => (coeffs.getD i []).getD j 0) (m + r) := by
    intro r; rw [hb]; simp only []; rw [if_pos (by omega), Nat.add_sub_cancel]
  simp only [ea, eb]
  linear_combination G / 2 * ht

example := C368_back [[1, 2], [3, 4], [5, 6]] 22675736 2 2 (by decide) (by decide) rfl (by simp)

/-- **C369**: the sound has exactly the energy of the coefficients, scaled by `1 / oggMax²`. -/
theorem C369_energy (coeffs : List (List ℝ)) (f0 : Int) (m k : ℕ) (hf0 : 0 < f0) (hm : 0 < m) (hlen : coeffs.length = k + 1) (hrows : ∀ c ∈ coeffs, c.length = m) :
    ∃ out, mdctSynthesize ⟨Synth.windowsDim f0 (2 * m) m (k + 1), m, coeffs⟩ = .ok out ∧
      energy out = 1 / WindowFunc.oggMax (2 * m) ^ 2 * (coeffs.map energy).sum := by
  obtain ⟨out, h1, h2, h3⟩ := synthesized f0 m k hf0 hm coeffs hlen hrows
  refine ⟨out, h1, ?_⟩
  obtain ⟨G, hG⟩ : ∃ G : ℝ, G = 1 / WindowFunc.oggMax (2 * m) ^ 2 := ⟨_, rfl⟩
  have hp : ∀ r, r < m → ogg m r ^ 2 + ogg m (m - 1 - r) ^ 2 = G := by rw [hG]; exact ogg_power m
  rw [← hG]
  obtain ⟨a, ha⟩ : ∃ a : ℕ → ℕ → ℝ, a = fun q r => if q ≤ k then inverted m (fun j => (coeffs.getD q []).getD j 0) r else 0 := ⟨_, rfl⟩
  obtain ⟨b, hb⟩ : ∃ b : ℕ → ℕ → ℝ, b = fun q r => if 1 ≤ q then inverted m (fun j => (coeffs.getD (q - 1) []).getD j 0) (m + r) else 0 := ⟨_, rfl⟩
  have hsplit : energy out = ∑ q ∈ range (k + 2), ∑ r ∈ range m, out.getD (q * m + r) 0 ^ 2 := by
    have := blocks_span (fun t => out.getD t 0) m 0 (k + 2)
    simp only [zero_add, zero_mul] at this
    rw [this, energy_eq, h2]
    unfold span
    rw [Nat.Ico_zero_eq_range]
  have hblock : ∀ q ∈ range (k + 2), ∑ r ∈ range m, out.getD (q * m + r) 0 ^ 2 = G / 2 * (∑ r ∈ range m, a q r ^ 2 + ∑ r ∈ range m, b q r ^ 2) := by
    intro q hq
    have hq := mem_range.1 hq
    rw [← half_energy m (ogg m) (a q) (b q) G hp (by
      intro r hr
      rw [ha]
      simp only []
      split
      · exact inverted_first m hm _ r hr
      · simp) (by
      intro r hr
      rw [hb]
      simp only []
      split
      · exact inverted_second m hm _ r hr
      · rfl)]
    apply sum_congr rfl
    intro r hr
    rw [h3 q r (by omega) (mem_range.1 hr), ha, hb]
  rw [hsplit, sum_congr rfl hblock, ← mul_sum, sum_add_distrib, sum_range_succ (fun q => ∑ r ∈ range m, a q r ^ 2), sum_range_succ' (fun q => ∑ r ∈ range m, b q r ^ 2)]
  have z1 : ∑ r ∈ range m, a (k + 1) r ^ 2 = 0 := by
    apply sum_eq_zero
    intro r _
    rw [ha]; simp only []; rw [if_neg (by omega)]; ring
  have z2 : ∑ r ∈ range m, b 0 r ^ 2 = 0 := by
    apply sum_eq_zero
    intro r _
    rw [hb]; simp only []; rw [if_neg (by omega)]; ring
  rw [z1, z2, add_zero, add_zero, ← sum_add_distrib]
  have hframe : ∀ q ∈ range (k + 1), ∑ r ∈ range m, a q r ^ 2 + ∑ r ∈ range m, b (q + 1) r ^ 2 = 2 * energy (coeffs.getD q []) := by
    intro q hq
    have hq := mem_range.1 hq
    have hmem : coeffs.getD q [] ∈ coeffs := by
      have : q < coeffs.length := by omega
      rw [List.getD_eq_getElem?_getD, List.getElem?_eq_getElem this, Option.getD_some]
      exact List.getElem_mem this
    have := twice_energy m hm fun j => (coeffs.getD q []).getD j 0
    rw [two_mul m, sum_range_add] at this
    rw [energy_eq, hrows _ hmem, ← this, ha, hb]
    congr 1
    apply sum_congr rfl
    intro r _
    simp only []
    rw [if_pos (by omega)]
  rw [sum_congr rfl hframe, ← mul_sum]
  have hsum : (coeffs.map energy).sum = ∑ q ∈ range (k + 1), energy (coeffs.getD q []) := by
    rw [← list_sum_range]
    congr 1
    apply List.ext_getElem (by simp [hlen])
    intro i a1 a2
    simp only [List.length_map] at a1
    simp [List.getD, a1]
  rw [hsum]
  ring

example := C369_energy [[1, 2], [3, 4], [5, 6]] 22675736 2 2 (by decide) (by decide) rfl (by simp)

/-- The difference of two sets of coefficients. -/
theorem sub_energy (a b : List ℝ) (h : a.length = b.length) : energy (SynthLinear.mix (-1) a b) = energy (List.zipWith (· - ·) a b) := by
  unfold SynthLinear.mix energy
  induction a generalizing b with
  | nil => rfl
  | cons x xs ih =>
    cases b with
    | nil => simp at h
    | cons y ys =>
      simp only [List.zipWith_cons_cons, List.map_cons, List.sum_cons]
      rw [ih ys (by simpa using h)]
      ring

/-- **C369** (errors): the energy of the difference of the sounds of two sets of coefficients is exactly the energy of the difference of the coefficients, scaled by
`1 / oggMax²`: an error in the coefficients is neither amplified nor hidden. -/
theorem C369_error (one other : List (List ℝ)) (f0 : Int) (m k : ℕ) (hf0 : 0 < f0) (hm : 0 < m) (h1 : one.length = k + 1) (h2 : other.length = k + 1)
    (r1 : ∀ c ∈ one, c.length = m) (r2 : ∀ c ∈ other, c.length = m) :
    ∃ a b, mdctSynthesize ⟨Synth.windowsDim f0 (2 * m) m (k + 1), m, one⟩ = .ok a ∧ mdctSynthesize ⟨Synth.windowsDim f0 (2 * m) m (k + 1), m, other⟩ = .ok b ∧
      a.length = b.length ∧
      ∑ t ∈ range a.length, (a.getD t 0 - b.getD t 0) ^ 2 =
        1 / WindowFunc.oggMax (2 * m) ^ 2 * (List.zipWith (fun c d => energy (List.zipWith (· - ·) c d)) one other).sum := by
  have hs : SynthLinear.SameSize one other := by
    unfold SynthLinear.SameSize
    apply List.ext_getElem (by simp [h1, h2])
    intro i a1 a2
    simp only [List.length_map] at a1 a2
    simp [r1 _ (List.getElem_mem a1), r2 _ (List.getElem_mem a2)]
  obtain ⟨a, ea, la, -⟩ := synthesized f0 m k hf0 hm one h1 r1
  obtain ⟨b, s, eb, es, lb, ls, hst⟩ := (SynthLinear.C361_mdct (-1) (Synth.windowsDim f0 (2 * m) m (k + 1)) m one other hs).1 a ea
  refine ⟨a, b, ea, eb, lb.symm, ?_⟩
  obtain ⟨s', es', hE⟩ := C369_energy (SynthLinear.mixRows (-1) one other) f0 m k hf0 hm (by simp [SynthLinear.mixRows, h1, h2]) (by
    intro c hc
    unfold SynthLinear.mixRows at hc
    obtain ⟨i, hi, rfl⟩ := List.getElem_of_mem hc
    simp only [List.length_zipWith] at hi
    rw [List.getElem_zipWith, SynthLinear.mix_length _ _ _ (by rw [r1 _ (List.getElem_mem _), r2 _ (List.getElem_mem _)])]
    exact r1 _ (List.getElem_mem _))
  rw [es] at es'
  cases es'
  have e1 : ∑ t ∈ range a.length, (a.getD t 0 - b.getD t 0) ^ 2 = energy s := by
    rw [energy_eq, ls]
    apply sum_congr rfl
    intro t _
    rw [hst t]
    ring
  rw [e1, hE]
  congr 2
  unfold SynthLinear.mixRows
  apply List.ext_getElem (by simp)
  intro i a1 a2
  simp only [List.length_map, List.length_zipWith] at a1
  simp only [List.getElem_map, List.getElem_zipWith]
  exact sub_energy _ _ (by rw [r1 _ (List.getElem_mem _), r2 _ (List.getElem_mem _)])

example := C369_error [[1, 2], [3, 4], [5, 6]] [[1, 2], [3, 5], [5, 5]] 22675736 2 2 (by decide) (by decide) rfl rfl (by simp) (by simp)

/-! ## C370: the FFT and DCT synthesizers -/

/-- Windows weighted by the ogg vorbis window and overlapped, sample by sample. -/
theorem ogg_overlap (f0 : Int) (m k : ℕ) (hf0 : 0 < f0) (hm : 0 < m) (ys : List (List ℝ)) (hlen : ys.length = k + 1) (hrows : ∀ y ∈ ys, y.length = 2 * m) :
    ∃ out, Synth.overlapAdd (some (WindowFunc.oggvorbis (2 * m))) ⟨Synth.windowsDim f0 (2 * m) m (k + 1), 2 * m, ys⟩ = .ok out ∧ out.length = (k + 2) * m ∧
      ∀ q r, q ≤ k + 1 → r < m → out.getD (q * m + r) 0 =
        ogg m r * (if q ≤ k then (ys.getD q []).getD r 0 else 0) + ogg m (m - 1 - r) * (if 1 ≤ q then (ys.getD (q - 1) []).getD (m + r) 0 else 0) := by
  let rows : List (List ℝ) := (List.range (k + 1)).map fun i => (List.range (2 * m)).map (fun t => ogg m t * (ys.getD i []).getD t 0)
  have hz : ys.map (fun r => List.zipWith (· * ·) (WindowFunc.oggvorbis (2 * m)) r) = rows := by
    apply List.ext_getElem (by simp [rows, hlen])
    intro i a1 a2
    simp only [List.length_map] at a1
    have hl := hrows _ (List.getElem_mem a1)
    have hy : ys.getD i [] = ys[i] := by simp [List.getD, a1]
    simp only [rows, List.getElem_map, List.getElem_range]
    rw [hy]
    have hol : (WindowFunc.oggvorbis (2 * m)).length = 2 * m := by rw [ogg_list]; simp
    apply List.ext_getElem (by simp [hl, hol])
    intro j b1 b2
    simp only [List.length_map, List.length_range] at b2
    simp [ogg, List.getD, hl, hol, b2]
  obtain ⟨out, e, l, hg⟩ := Synth.C35_overlap_add (⟨Synth.windowsDim f0 (2 * m) m (k + 1), 2 * m, rows⟩ : Synth.Frames ℝ) f0 m k hf0
    (by simp; omega) rfl (by intro r hr; simp only [rows, List.mem_map] at hr; obtain ⟨i, _, rfl⟩ := hr; simp)
  refine ⟨out, ?_, by rw [l]; ring, ?_⟩
  · rw [Synth.C35_synthesis_window, ← e, hz]
  · intro q r hq hr
    have hlt : q * m + r < out.length := by
      rw [l]
      have : q * m ≤ (k + 1) * m := Nat.mul_le_mul_right _ hq
      have : (k + 1) * m = k * m + m := by ring
      show q * m + r < k * m + 2 * m
      omega
    rw [hg _ hlt]
    simp only [rows]
    rw [overlapped_all m k hm _ q r hq hr, ogg_mirror m r hr]
    congr 1 <;> split <;> simp

/-- Overlapping never adds more than the energy of the windows. -/
theorem overlap_energy (f0 : Int) (m k : ℕ) (hf0 : 0 < f0) (hm : 0 < m) (ys : List (List ℝ)) (hlen : ys.length = k + 1) (hrows : ∀ y ∈ ys, y.length = 2 * m) :
    ∃ out, Synth.overlapAdd (some (WindowFunc.oggvorbis (2 * m))) ⟨Synth.windowsDim f0 (2 * m) m (k + 1), 2 * m, ys⟩ = .ok out ∧ out.length = (k + 2) * m ∧
      energy out ≤ 1 / WindowFunc.oggMax (2 * m) ^ 2 * (ys.map energy).sum := by
  obtain ⟨out, h1, h2, h3⟩ := ogg_overlap f0 m k hf0 hm ys hlen hrows
  refine ⟨out, h1, h2, ?_⟩
  obtain ⟨G, hG⟩ : ∃ G : ℝ, G = 1 / WindowFunc.oggMax (2 * m) ^ 2 := ⟨_, rfl⟩
  have hp : ∀ r, r < m → ogg m r ^ 2 + ogg m (m - 1 - r) ^ 2 = G := by rw [hG]; exact ogg_power m
  rw [← hG]
  obtain ⟨a, ha⟩ : ∃ a : ℕ → ℕ → ℝ, a = fun q r => if q ≤ k then (ys.getD q []).getD r 0 else 0 := ⟨_, rfl⟩
  obtain ⟨b, hb⟩ : ∃ b : ℕ → ℕ → ℝ, b = fun q r => if 1 ≤ q then (ys.getD (q - 1) []).getD (m + r) 0 else 0 := ⟨_, rfl⟩
  have hsplit : energy out = ∑ q ∈ range (k + 2), ∑ r ∈ range m, out.getD (q * m + r) 0 ^ 2 := by
    have := blocks_span (fun t => out.getD t 0) m 0 (k + 2)
    simp only [zero_add, zero_mul] at this
    rw [this, energy_eq, h2]
    unfold span
    rw [Nat.Ico_zero_eq_range]
  have hblock : ∀ q ∈ range (k + 2), ∑ r ∈ range m, out.getD (q * m + r) 0 ^ 2 ≤ G * (∑ r ∈ range m, a q r ^ 2 + ∑ r ∈ range m, b q r ^ 2) := by
    intro q hq
    have hq := mem_range.1 hq
    rw [← sum_add_distrib, mul_sum]
    apply sum_le_sum
    intro r hr
    have hr := mem_range.1 hr
    have e : out.getD (q * m + r) 0 = ogg m r * a q r + ogg m (m - 1 - r) * b q r := by rw [h3 q r (by omega) hr, ha, hb]
    rw [e, ← hp r hr]
    nlinarith [sq_nonneg (ogg m r * b q r - ogg m (m - 1 - r) * a q r)]
  rw [hsplit]
  refine (sum_le_sum hblock).trans (le_of_eq ?_)
  rw [← mul_sum, sum_add_distrib, sum_range_succ (fun q => ∑ r ∈ range m, a q r ^ 2), sum_range_succ' (fun q => ∑ r ∈ range m, b q r ^ 2)]
  have z1 : ∑ r ∈ range m, a (k + 1) r ^ 2 = 0 := by
    apply sum_eq_zero
    intro r _
    rw [ha]; simp only []; rw [if_neg (by omega)]; ring
  have z2 : ∑ r ∈ range m, b 0 r ^ 2 = 0 := by
    apply sum_eq_zero
    intro r _
    rw [hb]; simp only []; rw [if_neg (by omega)]; ring
  rw [z1, z2, add_zero, add_zero, ← sum_add_distrib]
  have hframe : ∀ q ∈ range (k + 1), ∑ r ∈ range m, a q r ^ 2 + ∑ r ∈ range m, b (q + 1) r ^ 2 = energy (ys.getD q []) := by
    intro q hq
    have hq := mem_range.1 hq
    have hmem : ys.getD q [] ∈ ys := by
      have : q < ys.length := by omega
      rw [List.getD_eq_getElem?_getD, List.getElem?_eq_getElem this, Option.getD_some]
      exact List.getElem_mem this
    rw [energy_eq, hrows _ hmem, two_mul, sum_range_add, ha, hb]
    congr 1
    apply sum_congr rfl
    intro r _
    simp only []
    rw [if_pos (by omega)]
  rw [sum_congr rfl hframe]
  congr 1
  rw [← list_sum_range]
  congr 1
  apply List.ext_getElem (by simp [hlen])
  intro i a1 a2
  simp only [List.length_map, List.length_range] at a1
  have : i < ys.length := by omega
  simp [List.getD, this]

/-- Every frame of a synthesizer is inverted, and the result overlapped. -/
theorem rows_inverted {β : Type} (T : List β → Except PyErr (List ℝ)) (E : List β → ℝ) (n : ℕ) :
    ∀ coeffs : List (List β), (∀ c ∈ coeffs, ∃ y, T c = .ok y ∧ y.length = n ∧ energy y ≤ E c) →
      ∃ ys, coeffs.mapM T = .ok ys ∧ ys.length = coeffs.length ∧ (∀ y ∈ ys, y.length = n) ∧ (ys.map energy).sum ≤ (coeffs.map E).sum
  | [], _ => ⟨[], rfl, rfl, by simp, by simp⟩
  | c :: cs, h => by
    obtain ⟨y, e1, e2, e3⟩ := h c (by simp)
    obtain ⟨ys, f1, f2, f3, f4⟩ := rows_inverted T E n cs fun d hd => h d (by simp [hd])
    refine ⟨y :: ys, ?_, by simp [f2], ?_, ?_⟩
    · rw [List.mapM_cons, e1, f1]
      rfl
    · intro z hz
      rcases List.mem_cons.1 hz with rfl | hz
      · exact e2
      · exact f3 z hz
    · simp only [List.map_cons, List.sum_cons]
      exact add_le_add e3 f4

/-- The energy of a spectrum whose ends are made real. -/
theorem realEnds_energy (X : List ℂ) : spectrumEnergy (realEnds X) ≤ spectrumEnergy X := by
  unfold spectrumEnergy
  rw [realEnds_length, list_sum_range, list_sum_range]
  apply sum_le_sum
  intro k hk
  have hk := mem_range.1 hk
  apply mul_le_mul_of_nonneg_left _ (by split <;> norm_num)
  unfold realEnds
  rw [getD_map_range _ _ _ _ hk]
  split
  · rw [Complex.norm_real, Real.norm_eq_abs]
    exact pow_le_pow_left₀ (abs_nonneg _) (Complex.abs_re_le_norm _) 2
  · exact le_rfl

/-- **C370** (FFTSynthesizer): the sound never has more than the energy of the spectra, scaled by `1 / oggMax²`. -/
theorem C370_fft (coeffs : List (List ℂ)) (f0 : Int) (m k : ℕ) (hf0 : 0 < f0) (hm : 0 < m) (hlen : coeffs.length = k + 1) (hrows : ∀ c ∈ coeffs, c.length = m + 1) :
    ∃ out, fftSynthesize ⟨Synth.windowsDim f0 (2 * m) m (k + 1), m + 1, coeffs⟩ = .ok out ∧ out.length = (k + 2) * m ∧
      energy out ≤ 1 / WindowFunc.oggMax (2 * m) ^ 2 * (coeffs.map spectrumEnergy).sum := by
  obtain ⟨ys, e1, e2, e3, e4⟩ := rows_inverted irfft spectrumEnergy (2 * m) coeffs (by
    intro c hc
    obtain ⟨y, h1, h2, h3⟩ := C54_irfft_inverse c (by rw [hrows c hc]; omega)
    rw [hrows c hc, Nat.add_sub_cancel] at h2
    obtain ⟨Y, g1, -, g3⟩ := C363_fft m hm y h2
    rw [h3] at g1
    cases g1
    exact ⟨y, h1, h2, by rw [← g3]; exact realEnds_energy c⟩)
  obtain ⟨out, h1, h2, h3⟩ := overlap_energy f0 m k hf0 hm ys (by rw [e2, hlen]) e3
  refine ⟨out, ?_, h2, h3.trans (mul_le_mul_of_nonneg_left e4 (by positivity))⟩
  unfold fftSynthesize
  simp only [e1, Nat.add_sub_cancel]
  exact h1

example := C370_fft [[1, 2, Complex.I], [3, 4, 5]] 22675736 2 1 (by decide) (by decide) rfl (by simp)

/-- **C370** (DCTSynthesizer with the ogg vorbis window). -/
theorem C370_dct (coeffs : List (List ℝ)) (f0 : Int) (m k : ℕ) (hf0 : 0 < f0) (hm : 0 < m) (hlen : coeffs.length = k + 1) (hrows : ∀ c ∈ coeffs, c.length = 2 * m) :
    ∃ out, dctSynthesize (some (WindowFunc.oggvorbis (2 * m))) ⟨Synth.windowsDim f0 (2 * m) m (k + 1), 2 * m, coeffs⟩ = .ok out ∧ out.length = (k + 2) * m ∧
      energy out ≤ 1 / WindowFunc.oggMax (2 * m) ^ 2 * (coeffs.map energy).sum := by
  obtain ⟨ys, e1, e2, e3, e4⟩ := rows_inverted scipyIdct energy (2 * m) coeffs (by
    intro c hc
    have hne : c ≠ [] := by rintro rfl; have := hrows _ hc; simp at this; omega
    obtain ⟨y, h1, h2⟩ := C362_idct c hne
    obtain ⟨y', h1', h2', -⟩ := C54_idct_inverse c hne
    rw [h1] at h1'
    cases h1'
    exact ⟨y, h1, by rw [h2', hrows c hc], by rw [h2]⟩)
  obtain ⟨out, h1, h2, h3⟩ := overlap_energy f0 m k hf0 hm ys (by rw [e2, hlen]) e3
  refine ⟨out, ?_, h2, h3.trans (mul_le_mul_of_nonneg_left e4 (by positivity))⟩
  unfold dctSynthesize
  simp only [e1]
  exact h1

example := C370_dct [[1, 2, 3, 4], [3, 4, 5, 6]] 22675736 2 1 (by decide) (by decide) rfl (by simp)

/-- One sample of a window. -/
def spike (n at_ : ℕ) (v : ℝ) : List ℝ := (List.range n).map fun t => if t = at_ then v else 0

theorem spike_energy (n p : ℕ) (v : ℝ) (hp : p < n) : energy (spike n p v) = v ^ 2 := by
  unfold spike
  rw [energy_map_range, sum_eq_single p]
  · rw [if_pos rfl]
  · intro t _ ht; rw [if_neg ht]; ring
  · intro h; exact absurd (mem_range.2 hp) h

/-- Two windows which cancel. -/
theorem cancelled (f0 : Int) (m : ℕ) (hf0 : 0 < f0) (hm : 0 < m) :
    Synth.overlapAdd (some (WindowFunc.oggvorbis (2 * m))) ⟨Synth.windowsDim f0 (2 * m) m 2, 2 * m, [spike (2 * m) m (-ogg m 0), spike (2 * m) 0 (ogg m (m - 1))]⟩ =
      .ok (List.replicate (3 * m) 0) := by
  obtain ⟨out, h1, h2, h3⟩ := ogg_overlap f0 m 1 hf0 hm [spike (2 * m) m (-ogg m 0), spike (2 * m) 0 (ogg m (m - 1))] rfl (by simp [spike])
  refine h1.trans ?_
  congr 1
  apply List.ext_getElem (by simp [h2])
  intro t a1 a2
  have hq : t / m ≤ 2 := by
    have : t < 3 * m := by simpa using a2
    have := Nat.div_lt_of_lt_mul (show t < m * 3 by omega)
    omega
  have := h3 (t / m) (t % m) hq (Nat.mod_lt _ hm)
  rw [Nat.div_add_mod'] at this
  have e : out[t] = out.getD t 0 := by simp [List.getD, a1]
  rw [e, this, List.getElem_replicate]
  obtain ⟨r, hr⟩ : ∃ r, r = t % m := ⟨_, rfl⟩
  have hrm : r < m := by rw [hr]; exact Nat.mod_lt _ hm
  rw [← hr]
  have s0 : ∀ (p i : ℕ) (v : ℝ), i < 2 * m → (spike (2 * m) p v).getD i 0 = if i = p then v else 0 := by
    intro p i v hi
    unfold spike
    rw [getD_map_range _ _ _ _ hi]
  clear this h3 hr
  obtain ⟨q, hqq⟩ : ∃ q, q = t / m := ⟨_, rfl⟩
  rw [← hqq] at hq ⊢
  rcases show q = 0 ∨ q = 1 ∨ q = 2 by omega with h | h | h <;> rw [h]
  · show ogg m r * (spike (2 * m) m (-ogg m 0)).getD r 0 + ogg m (m - 1 - r) * 0 = 0
    rw [s0 _ _ _ (by omega), if_neg (by omega)]
    ring
  · show ogg m r * (spike (2 * m) 0 (ogg m (m - 1))).getD r 0 + ogg m (m - 1 - r) * (spike (2 * m) m (-ogg m 0)).getD (m + r) 0 = 0
    rw [s0 _ _ _ (by omega), s0 _ _ _ (by omega)]
    by_cases h0 : r = 0
    · subst h0; simp; ring
    · rw [if_neg h0, if_neg (by omega)]; ring
  · show ogg m r * 0 + ogg m (m - 1 - r) * (spike (2 * m) 0 (ogg m (m - 1))).getD (m + r) 0 = 0
    rw [s0 _ _ _ (by omega), if_neg (by omega)]
    ring

theorem cancelled_energy (m : ℕ) (hm : 0 < m) :
    1 < energy (spike (2 * m) m (-ogg m 0)) + energy (spike (2 * m) 0 (ogg m (m - 1))) := by
  have e : energy (spike (2 * m) m (-ogg m 0)) + energy (spike (2 * m) 0 (ogg m (m - 1))) = 1 / WindowFunc.oggMax (2 * m) ^ 2 := by
    rw [spike_energy _ _ _ (by omega), spike_energy _ _ _ (by omega), ← ogg_power m 0 hm]
    simp
  have h1 := WindowFunc.oggMax_pos (2 * m) (by omega)
  have h2 := WindowFunc.oggMax_lt_one m hm
  rw [e, lt_div_iff₀ (by positivity), one_mul]
  exact pow_lt_one₀ h1.le h2 (by decide)

/-- Refuted: that, as MDCT coefficients do, FFT coefficients come back from the sound made of them: for every size there are two spectra, not silent, whose sound is
silence. -/
theorem C370_fft_refuted (f0 : Int) (m : ℕ) (hf0 : 0 < f0) (hm : 0 < m) : ∃ coeffs : List (List ℂ), coeffs.length = 2 ∧ (∀ c ∈ coeffs, c.length = m + 1) ∧
    1 < (coeffs.map spectrumEnergy).sum ∧
    fftSynthesize ⟨Synth.windowsDim f0 (2 * m) m 2, m + 1, coeffs⟩ = .ok (List.replicate (3 * m) 0) := by
  obtain ⟨X, a1, a2, a3⟩ := C54_fft_inverse m hm (spike (2 * m) m (-ogg m 0)) (by simp [spike])
  obtain ⟨Y, b1, b2, b3⟩ := C54_fft_inverse m hm (spike (2 * m) 0 (ogg m (m - 1))) (by simp [spike])
  obtain ⟨X', c1, -, c2⟩ := C363_fft m hm (spike (2 * m) m (-ogg m 0)) (by simp [spike])
  obtain ⟨Y', d1, -, d2⟩ := C363_fft m hm (spike (2 * m) 0 (ogg m (m - 1))) (by simp [spike])
  rw [a1] at c1; cases c1
  rw [b1] at d1; cases d1
  refine ⟨[X, Y], rfl, by simp [a2, b2], ?_, ?_⟩
  · simp only [List.map_cons, List.map_nil, List.sum_cons, List.sum_nil, add_zero, c2, d2]
    exact cancelled_energy m hm
  · unfold fftSynthesize
    simp only [List.mapM_cons, List.mapM_nil, a3, b3]
    exact cancelled f0 m hf0 hm

example := C370_fft_refuted 22675736 2 (by decide) (by decide)

/-- The same of DCT coefficients. -/
theorem C370_dct_refuted (f0 : Int) (m : ℕ) (hf0 : 0 < f0) (hm : 0 < m) : ∃ coeffs : List (List ℝ), coeffs.length = 2 ∧ (∀ c ∈ coeffs, c.length = 2 * m) ∧
    1 < (coeffs.map energy).sum ∧
    dctSynthesize (some (WindowFunc.oggvorbis (2 * m))) ⟨Synth.windowsDim f0 (2 * m) m 2, 2 * m, coeffs⟩ = .ok (List.replicate (3 * m) 0) := by
  have hne : ∀ p v, spike (2 * m) p v ≠ [] := by
    intro p v h
    have := congrArg List.length h
    simp [spike] at this
    omega
  obtain ⟨X, a1, a2, a3⟩ := C54_dct_inverse (spike (2 * m) m (-ogg m 0)) (hne _ _)
  obtain ⟨Y, b1, b2, b3⟩ := C54_dct_inverse (spike (2 * m) 0 (ogg m (m - 1))) (hne _ _)
  obtain ⟨X', c1, c2⟩ := C362_dct (spike (2 * m) m (-ogg m 0)) (hne _ _)
  obtain ⟨Y', d1, d2⟩ := C362_dct (spike (2 * m) 0 (ogg m (m - 1))) (hne _ _)
  rw [a1] at c1; cases c1
  rw [b1] at d1; cases d1
  refine ⟨[X, Y], rfl, by simp [a2, b2, spike], ?_, ?_⟩
  · simp only [List.map_cons, List.map_nil, List.sum_cons, List.sum_nil, add_zero, c2, d2]
    exact cancelled_energy m hm
  · unfold dctSynthesize
    simp only [List.mapM_cons, List.mapM_nil, a3, b3]
    exact cancelled f0 m hf0 hm

example := C370_dct_refuted 22675736 2 (by decide) (by decide)

end Zounds.MdctBack
