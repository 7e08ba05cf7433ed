import Verif.Props.Stretch
import Verif.Props.Irfft
import Verif.Props.Periodic
import Mathlib.Tactic.IntervalCases

/-!
# C387: stretching a sound keeps its pitch
-/

namespace Zounds.SteadyStretch
open Zounds Zounds.Spectral Finset
open _root_.Zounds.Periodic (Repeats getD_mod)

/-- Where the frames are all the same, the new frames are, too. -/
theorem coefficient (D : List (List ℂ)) (Z : List ℂ) (hD : ∀ i, i < D.length → D.getD i [] = Z) (f : ℝ) (hf : 0 < f) (adv : ℝ) (k i : ℕ)
    (hi : i * f + 1 < D.length) :
    (newMag D f k i : ℂ) * Complex.exp (Complex.I * newPhase D f adv k i) = Z.getD k 0 := by
  have hp : ∀ j : ℕ, j ≤ i → D.getD ⌊((j : ℝ) * f : ℝ)⌋₊ [] = Z ∧ D.getD (⌊((j : ℝ) * f : ℝ)⌋₊ + 1) [] = Z := by
    intro j hj
    have h1 : (j : ℝ) * f ≤ i * f := mul_le_mul_of_nonneg_right (by exact_mod_cast hj) hf.le
    have h2 : ((⌊((j : ℝ) * f : ℝ)⌋₊ : ℕ) : ℝ) ≤ j * f := Nat.floor_le (by positivity)
    have h3 : ⌊((j : ℝ) * f : ℝ)⌋₊ + 1 < D.length := by
      have : ((⌊((j : ℝ) * f : ℝ)⌋₊ + 1 : ℕ) : ℝ) < D.length := by
        push_cast
        linarith
      exact_mod_cast this
    exact ⟨hD _ (by omega), hD _ h3⟩
  have hmag : newMag D f k i = ‖Z.getD k 0‖ := by
    unfold newMag
    rw [(hp i le_rfl).1, (hp i le_rfl).2]
    ring
  have h0 : D.getD 0 [] = Z := by
    have : (0 : ℝ) < D.length := by
      have : 0 ≤ (i : ℝ) * f := by positivity
      linarith
    exact hD 0 (by exact_mod_cast this)
  have hadv : ∀ j ∈ range i, phaseAdvance D f adv k j = ((-npRound (-adv / (2 * Real.pi)) : ℤ) : ℝ) * (2 * Real.pi) := by
    intro j hj
    unfold phaseAdvance
    simp only
    rw [(hp j (mem_range.1 hj).le).1, (hp j (mem_range.1 hj).le).2, sub_self, zero_sub]
    push_cast
    ring
  unfold newPhase
  rw [hmag, h0, sum_congr rfl hadv, sum_const, card_range, nsmul_eq_mul]
  obtain ⟨z, hz⟩ : ∃ z : ℤ, z = i * -npRound (-adv / (2 * Real.pi)) := ⟨_, rfl⟩
  have e : Complex.I * (((Z.getD k 0).arg + (i : ℝ) * (((-npRound (-adv / (2 * Real.pi)) : ℤ) : ℝ) * (2 * Real.pi)) : ℝ) : ℂ) =
      ((Z.getD k 0).arg : ℂ) * Complex.I + (z : ℂ) * (2 * Real.pi * Complex.I) := by
    rw [hz]
    push_cast
    ring
  rw [e, Complex.exp_add, Complex.exp_int_mul_two_pi_mul_I, mul_one, Complex.norm_mul_exp_arg_mul_I]

/-- All frames of the analysis of a sound that repeats itself every `hop` samples. -/
theorem frames (x : List ℝ) (hop m : ℕ) (w : List ℝ) (hm : 0 < m) (hhop : 0 < hop) (hx : 2 * m ≤ x.length) (hw : w.length = 2 * m) (hp : Repeats hop x) :
    ∃ D Z, stftRow x hop (2 * m) w = .ok D ∧ D.length = (x.length - 2 * m) / hop + 1 ∧ Z.length = m + 1 ∧ (∀ i, i < D.length → D.getD i [] = Z) ∧
      irfft Z = .ok ((List.range (2 * m)).map fun t => x.getD t 0 * w.getD t 0) := by
  obtain ⟨D, hD, hDl, hDi⟩ := stftRow_eq x hop (2 * m) w (by omega) hhop hx hw
  obtain ⟨Z, h1, h2, h3⟩ := C54_fft_inverse m hm ((List.range (2 * m)).map fun t => x.getD t 0 * w.getD t 0) (by simp)
  refine ⟨D, Z, hD, hDl, h2, ?_, h3⟩
  intro i hi
  have h4 := hDi i hi
  have h5 : i * hop ≤ x.length - 2 * m := by
    have : i ≤ (x.length - 2 * m) / hop := by omega
    calc i * hop ≤ (x.length - 2 * m) / hop * hop := Nat.mul_le_mul_right _ this
      _ ≤ _ := Nat.div_mul_le_self _ _
  have h6 : ((List.range (2 * m)).map fun t => x.getD (i * hop + t) 0 * w.getD t 0) = (List.range (2 * m)).map fun t => x.getD t 0 * w.getD t 0 := by
    apply List.map_congr_left
    intro t ht
    have ht := List.mem_range.1 ht
    have e1 := getD_mod hop x hp 0 (i * hop + t) (by omega)
    have e2 := getD_mod hop x hp 0 t (by omega)
    simp only [Nat.zero_add, Nat.mul_add_mod_self_right] at e1 e2
    rw [e1, e2]
  rw [h6, h1] at h4
  exact (Except.ok.inj h4).symm

/-! ## C387 -/

/-- **C387**: stretching, by any factor, a sound that repeats itself every `hop` samples: up to the end of the analysis, sample `t` is the sample of the
sound at the same place in its period, times the squares of the coefficients of the windows over it. -/
theorem C387_same_period (x : List ℝ) (factor : ℝ) (hop m : ℕ) (win : ℕ → List ℝ) (hf : 0 < factor) (hm : 0 < m) (hhop : 0 < hop)
    (hx : 2 * m ≤ x.length) (hw : (win (2 * m)).length = 2 * m) (hp : Repeats hop x) :
    ∃ y, timeStretch x factor hop (2 * m) win = .ok y ∧ y.length = ⌊(x.length : ℝ) / factor⌋₊ ∧
      ∀ t, t < y.length → ((t / hop : ℕ) : ℝ) * factor < ((x.length - 2 * m) / hop : ℕ) →
        y.getD t 0 = (∑ i ∈ range (t / hop + 1), if t < i * hop + 2 * m then (win (2 * m)).getD (t - i * hop) 0 ^ 2 else 0) * x.getD (t % hop) 0 := by
  obtain ⟨D, Z, h1, h2, h3, h4, h5⟩ := frames x hop m (win (2 * m)) hm hhop hx hw hp
  have h2m : 2 * m / 2 + 1 = m + 1 := by omega
  -- every new frame has an inverse of as many samples as a window
  have hinv : ∀ i : ℕ, ∃ g, irfft ((List.range (m + 1)).map fun k =>
      (newMag D factor k i : ℂ) * Complex.exp (Complex.I * newPhase D factor (expectedAdvance hop (m + 1) k) k i)) = .ok g ∧ g.length = 2 * m := by
    intro i
    obtain ⟨g, g1, g2, _⟩ := C54_irfft_inverse ((List.range (m + 1)).map fun k =>
      (newMag D factor k i : ℂ) * Complex.exp (Complex.I * newPhase D factor (expectedAdvance hop (m + 1) k) k i)) (by simp; omega)
    refine ⟨g, g1, ?_⟩
    rw [g2]
    simp
  choose g g1 g2 using hinv
  have hgood : ∀ i : ℕ, (i : ℝ) * factor + 1 < D.length → g i = (List.range (2 * m)).map fun t => x.getD t 0 * (win (2 * m)).getD t 0 := by
    intro i hi
    have e : ((List.range (m + 1)).map fun k =>
        (newMag D factor k i : ℂ) * Complex.exp (Complex.I * newPhase D factor (expectedAdvance hop (m + 1) k) k i)) = Z := by
      apply List.ext_getElem
      · simp [h3]
      intro k k1 k2
      rw [List.getElem_map, List.getElem_range, coefficient D Z h4 factor hf _ k i hi, List.getD_eq_getElem?_getD, List.getElem?_eq_getElem k2]
      rfl
    have := g1 i
    rw [e, h5] at this
    exact (Except.ok.inj this).symm
  have hmap : (newCoeffs D factor hop (m + 1)).mapM irfft = .ok ((List.range (nSteps D.length factor)).map g) := by
    unfold newCoeffs
    apply mapM_ok
    intro i _
    exact g1 i
  have hts : timeStretch x factor hop (2 * m) win = .ok (addFramesInto (((List.range (nSteps D.length factor)).map g).map fun f =>
      List.zipWith (· * ·) f (win f.length)) hop ⌊(x.length : ℝ) / factor⌋₊) := by
    unfold timeStretch
    rw [if_neg (by push Not; exact ⟨hf, hx, by omega⟩), h1]
    simp only [h2m]
    rw [hmap]
  refine ⟨_, hts, C58_stretch_length _ _ _ _ _ _ hts, ?_⟩
  intro t ht hlast
  have hl := C58_stretch_length _ _ _ _ _ _ hts
  rw [hl] at ht
  unfold addFramesInto
  rw [getD_map_range _ _ _ _ ht]
  simp only [List.length_map, List.length_range]
  have hstep : ∀ i, i ≤ t / hop → (i : ℝ) * factor + 1 < D.length := by
    intro i hi
    have a1 : (i : ℝ) * factor ≤ ((t / hop : ℕ) : ℝ) * factor := mul_le_mul_of_nonneg_right (by exact_mod_cast hi) hf.le
    rw [h2]
    push_cast at hlast ⊢
    linarith
  have hsub : range (t / hop + 1) ⊆ range (nSteps D.length factor) := by
    intro i hi
    rw [mem_range, nSteps_iff _ _ hf]
    have := hstep i (by have := mem_range.1 hi; omega)
    linarith
  rw [← sum_subset hsub, sum_mul]
  · apply sum_congr rfl
    intro i hi
    have hi' : i ≤ t / hop := by have := mem_range.1 hi; omega
    have hin := mem_range.1 (hsub hi)
    have hle : i * hop ≤ t := le_trans (Nat.mul_le_mul_right _ hi') (Nat.div_mul_le_self _ _)
    rw [if_pos hle, List.map_map, getD_map_range _ _ _ _ hin]
    simp only [Function.comp]
    rw [g2 i, hgood i (hstep i hi')]
    by_cases h : t < i * hop + 2 * m
    · rw [if_pos h, List.getD_eq_getElem?_getD, List.getElem?_zipWith, List.getElem?_map,
        List.getElem?_range (by omega), List.getElem?_eq_getElem (by omega : t - i * hop < (win (2 * m)).length)]
      have hwt : (win (2 * m)).getD (t - i * hop) 0 = (win (2 * m))[t - i * hop]'(by omega) := by
        rw [List.getD_eq_getElem?_getD, List.getElem?_eq_getElem (by omega)]; rfl
      simp only [Option.map_some, Option.getD_some, hwt]
      have e1 := getD_mod hop x hp 0 (t - i * hop) (by omega)
      simp only [Nat.zero_add] at e1
      have e2 : (t - i * hop) % hop = t % hop := by
        conv_rhs => rw [← Nat.sub_add_cancel hle, Nat.add_mul_mod_self_right]
      rw [e1, e2]
      ring
    · rw [if_neg h, zero_mul, List.getD_eq_getElem?_getD, List.getElem?_eq_none]
      · rfl
      · simp only [List.length_zipWith, List.length_map, List.length_range]; omega
  · intro i _ hi
    have hi : t / hop < i := by simpa using hi
    rw [if_neg]
    have := (Nat.div_lt_iff_lt_mul hhop).1 hi
    omega

/-- The squares of the coefficients of the windows over sample `t`, added up. -/
noncomputable def gain (w : List ℝ) (hop t : ℕ) : ℝ := ∑ i ∈ range (t / hop + 1), if t < i * hop + w.length then w.getD (t - i * hop) 0 ^ 2 else 0

/-- From the end of the first window on, that depends on the place in the period only. -/
theorem gain_repeats (w : List ℝ) (hop t : ℕ) (hhop : 0 < hop) (ht : w.length ≤ t + hop) : gain w hop (t + hop) = gain w hop t := by
  unfold gain
  rw [Nat.add_div_right t hhop, sum_range_succ', if_neg (by omega), add_zero]
  apply sum_congr rfl
  intro i _
  have e : t + hop - (i + 1) * hop = t - i * hop := by
    rw [Nat.add_mul, Nat.one_mul, Nat.add_sub_add_right]
  rw [e]
  by_cases h : t < i * hop + w.length
  · rw [if_pos h, if_pos (by rw [Nat.add_mul, Nat.one_mul]; omega)]
  · rw [if_neg h, if_neg (by rw [Nat.add_mul, Nat.one_mul]; omega)]

/-- **C387, the period**: from the end of the first window to the end of the analysis, the stretched sound repeats itself every `hop` samples as the sound does, by whatever
factor it is stretched. -/
theorem C387_repeats (x : List ℝ) (factor : ℝ) (hop m : ℕ) (win : ℕ → List ℝ) (hf : 0 < factor) (hm : 0 < m) (hhop : 0 < hop)
    (hx : 2 * m ≤ x.length) (hw : (win (2 * m)).length = 2 * m) (hp : Repeats hop x) :
    ∃ y, timeStretch x factor hop (2 * m) win = .ok y ∧ y.length = ⌊(x.length : ℝ) / factor⌋₊ ∧
      ∀ t, t + hop < y.length → 2 * m ≤ t + hop → ((t / hop + 1 : ℕ) : ℝ) * factor < ((x.length - 2 * m) / hop : ℕ) → y.getD (t + hop) 0 = y.getD t 0 := by
  obtain ⟨y, h1, h2, h3⟩ := C387_same_period x factor hop m win hf hm hhop hx hw hp
  refine ⟨y, h1, h2, ?_⟩
  intro t a b c
  have c' : ((t / hop : ℕ) : ℝ) * factor < ((x.length - 2 * m) / hop : ℕ) := by
    push_cast at c ⊢
    linarith
  rw [h3 t (by omega) c', h3 (t + hop) a (by rw [Nat.add_div_right t hhop]; exact c)]
  have := gain_repeats (win (2 * m)) hop t hhop (by omega)
  unfold gain at this
  rw [hw] at this
  rw [this, Nat.add_mod_right]

/-- **C387, sines**: what the sine synthesizer makes of `k · s / hop` hertz for the `k` of a list is, stretched by any factor, up to the end of the analysis the sum of sines of the same
frequencies, as loud as the windows over a sample make it. -/
theorem C387_sines (r : Time.SampleRate) (hr : r ∈ Time.supportedRates) (d : Int) (factor : ℝ) (hop m : ℕ) (win : ℕ → List ℝ) (hf : 0 < factor) (hm : 0 < m)
    (hhop : 0 < hop) (hw : (win (2 * m)).length = 2 * m) (ks : List ℕ) (hne : ks ≠ []) (hk : ∀ k ∈ ks, 0 < k)
    (hx : 2 * m ≤ Tones.sineCount r.samplesPerSecond d) :
    ∃ x y, Tones.sine ⟨r, true⟩ d (ks.map fun k : ℕ => (k : ℝ) * r.samplesPerSecond / hop) = .ok ⟨r, .vec x⟩ ∧
      timeStretch x factor hop (2 * m) win = .ok y ∧
      ∀ t, t < y.length → ((t / hop : ℕ) : ℝ) * factor < ((x.length - 2 * m) / hop : ℕ) →
        y.getD t 0 = (∑ i ∈ range (t / hop + 1), if t < i * hop + 2 * m then (win (2 * m)).getD (t - i * hop) 0 ^ 2 else 0) *
          ((ks.map fun k : ℕ => Real.sin (2 * Real.pi * ((k : ℝ) * r.samplesPerSecond / hop) * t / r.samplesPerSecond)).sum / ks.length) := by
  have hs : r.samplesPerSecond ≠ 0 := by
    clear hx
    revert r
    decide
  have hs' : (r.samplesPerSecond : ℝ) ≠ 0 := by exact_mod_cast hs
  have hw' : (hop : ℝ) ≠ 0 := by exact_mod_cast hhop.ne'
  obtain ⟨x, h1, hp⟩ := Periodic.C386_sine r hr d hop hhop ks hne hk
  obtain ⟨x', h1', h2, h3⟩ := Tones.C61_sine_samples r d (ks.map fun k : ℕ => (k : ℝ) * r.samplesPerSecond / hop) (by simpa using hne) (by
    intro h
    obtain ⟨k, hkm, hk1⟩ := List.mem_map.1 h
    have hkp : (k : ℝ) ≠ 0 := by exact_mod_cast (hk k hkm).ne'
    exact (div_ne_zero (mul_ne_zero hkp hs') hw') hk1)
  rw [h1] at h1'
  cases h1'
  obtain ⟨y, h4, _, h5⟩ := C387_same_period x factor hop m win hf hm hhop (by omega) hw hp
  refine ⟨x, y, h1, h4, ?_⟩
  intro t ht hl
  rw [h5 t ht hl]
  congr 1
  have hmod : t % hop < hop := Nat.mod_lt _ hhop
  have hlen : t % hop < x.length := by
    have hpos : (0 : ℝ) < ((x.length - 2 * m) / hop : ℕ) := lt_of_le_of_lt (by positivity) hl
    have hpos : 0 < (x.length - 2 * m) / hop := by exact_mod_cast hpos
    have := (Nat.one_le_div_iff hhop).1 hpos
    omega
  rw [h3 _ hlen, List.map_map, List.length_map]
  congr 2
  apply List.map_congr_left
  intro k _
  simp only [Function.comp]
  have e : 2 * Real.pi * ((k : ℝ) * r.samplesPerSecond / hop) * (t : ℝ) / r.samplesPerSecond =
      2 * Real.pi * ((k : ℝ) * r.samplesPerSecond / hop) * ((t % hop : ℕ) : ℝ) / r.samplesPerSecond + ((k * (t / hop) : ℕ) : ℝ) * (2 * Real.pi) := by
    have := Nat.mod_add_div t hop
    have ht' : (t : ℝ) = ((t % hop : ℕ) : ℝ) + hop * ((t / hop : ℕ) : ℝ) := by exact_mod_cast this.symm
    rw [ht']
    generalize ((t % hop : ℕ) : ℝ) = A
    push_cast
    field_simp
  rw [e, Real.sin_add_nat_mul_two_pi]

/-- A square wave of a period of two samples, stretched to twice its length in windows of four samples: sample 5 is among those the theorems speak of. -/
example : ∃ x : List ℝ, x.length = 12 ∧ 2 * 2 ≤ x.length ∧ Repeats 2 x ∧ ((5 / 2 + 1 : ℕ) : ℝ) * (1 / 2) < ((x.length - 2 * 2) / 2 : ℕ) ∧
    5 + 2 < ⌊(x.length : ℝ) / (1 / 2)⌋₊ ∧ (hann (2 * 2)).length = 2 * 2 := by
  refine ⟨[1, -1, 1, -1, 1, -1, 1, -1, 1, -1, 1, -1], rfl, by decide, ?_, ?_, ?_, hann_length _⟩
  · intro i hi
    simp only [List.length_cons, List.length_nil] at hi
    have : i < 10 := by omega
    interval_cases i <;> rfl
  · norm_num
  · have : ((12 : ℕ) : ℝ) / (1 / 2) = (24 : ℕ) := by norm_num
    rw [show ([1, -1, 1, -1, 1, -1, 1, -1, 1, -1, 1, -1] : List ℝ).length = 12 from rfl, this, Nat.floor_natCast]
    decide

end Zounds.SteadyStretch
