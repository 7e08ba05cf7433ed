import Verif.Props.Stretch
import Verif.Props.Fft
import Verif.Props.Dct
import Verif.Props.Descriptors
import Mathlib.Algebra.Order.Floor.Semifield

/-!
# Exact conditions for claims about spectral transforms (C103 to C108)
-/

namespace Zounds.Spectral
open Finset Real

/-- **C103, exact**: an FFT of windows of `n` samples with `p` zeros of padding is undone by the inverse FFT, for every window of that
size, exactly when the size is even (and not zero) and there is no padding. -/
theorem C103_exact (n p : ℕ) :
    (∀ x : List ℝ, x.length = n → ∃ X, zfft x p = .ok X ∧ irfft X = .ok x) ↔ n ≠ 0 ∧ n % 2 = 0 ∧ p = 0 := by
  constructor
  · intro h
    -- the number of samples that come back
    obtain ⟨X, hX, hY⟩ := h (1 :: List.replicate (n - 1) 0) (by
      by_contra hn
      have h0 : n = 0 := by
        simp at hn; omega
      subst h0
      obtain ⟨X, hX, hY⟩ := h [] rfl
      unfold zfft rfft at hX
      split at hX
      · cases hX
      · cases hX
        unfold irfft at hY
        split at hY
        · cases hY
        · rename_i hl
          simp at hl
          have := congrArg List.length (Except.ok.inj hY)
          simp at this
          omega)
    have hn0 : n ≠ 0 := by
      rintro rfl
      obtain ⟨X, hX, hY⟩ := h [] rfl
      unfold zfft rfft at hX
      split at hX
      · cases hX
      · cases hX
        unfold irfft at hY
        split at hY
        · cases hY
        · rename_i hl
          simp at hl
          have := congrArg List.length (Except.ok.inj hY)
          simp at this
          omega
    have hlen : (1 :: List.replicate (n - 1) (0 : ℝ)).length = n := by simp; omega
    unfold zfft at hX
    have hl2 : ((1 :: List.replicate (n - 1) (0 : ℝ)) ++ List.replicate p 0).length = n + p := by
      rw [List.length_append, hlen, List.length_replicate]
    unfold rfft at hX
    rw [if_neg (by simp), hl2] at hX
    cases hX
    have hXl : ∀ f : ℕ → ℂ, ((List.range ((n + p) / 2 + 1)).map f).length = (n + p) / 2 + 1 := by intro f; simp
    unfold irfft at hY
    rw [hXl] at hY
    split at hY
    · cases hY
    rename_i hge
    have hY' := Except.ok.inj hY
    have hl := congrArg List.length hY'
    rw [List.length_map, List.length_range, hlen] at hl
    refine ⟨hn0, by omega, ?_⟩
    by_contra hp
    have hp1 : p = 1 := by omega
    subst hp1
    -- the impulse comes back smaller than it was
    set g := (n + 1) / 2 with hg
    have hg1 : (n + 1) / 2 + 1 - 1 = g := by omega
    have h2g : 2 * g = n := by omega
    have hgpos : 0 < g := by omega
    have hh := congrArg (fun l => l.getD 0 0) hY'
    rw [hg1] at hh
    beta_reduce at hh
    rw [getD_map_range _ _ _ _ (by omega)] at hh
    have hcoef : ∀ k, k < g + 1 → ((List.range (g + 1)).map fun k : ℕ => ((1 / sqrt ((n + 1 : ℕ) : ℝ) : ℝ) : ℂ) *
        ∑ t ∈ range (n + 1), (((1 :: List.replicate (n - 1) (0 : ℝ)) ++ List.replicate 1 0).getD t 0 : ℂ) *
          Complex.exp (-2 * π * Complex.I * t * k / ((n + 1 : ℕ) : ℂ))).getD k 0 = ((1 / sqrt ((n + 1 : ℕ) : ℝ) : ℝ) : ℂ) := by
      intro k hk
      rw [getD_map_range _ _ _ _ hk, sum_eq_single 0]
      · simp
      · intro t ht ht0
        have : ((1 :: List.replicate (n - 1) (0 : ℝ)) ++ List.replicate 1 0).getD t 0 = 0 := by
          obtain ⟨t', rfl⟩ : ∃ t', t = t' + 1 := ⟨t - 1, by omega⟩
          rw [List.cons_append, List.getD_cons_succ, ← List.replicate_add, List.getD_eq_getElem?_getD]
          by_cases h : t' < n - 1 + 1
          · rw [List.getElem?_replicate_of_lt h]; rfl
          · rw [List.getElem?_eq_none (by simpa using h)]; rfl
        rw [this]; simp
      · intro h; simp at h
    rw [hcoef 0 (by omega), hcoef g (by omega), sum_congr rfl (fun k hk => by
      rw [hcoef (k + 1) (by have := mem_range.1 hk; omega)])] at hh
    simp only [Complex.ofReal_re, pow_zero, mul_one, Nat.cast_zero, mul_zero, zero_div, Complex.exp_zero, sum_const, card_range,
      nsmul_eq_mul, List.getD_cons_zero] at hh
    have hN : (0 : ℝ) < (n + 1 : ℕ) := by positivity
    have hG : (0 : ℝ) < ((2 * g : ℕ) : ℝ) := by exact_mod_cast (by omega : 0 < 2 * g)
    have hsum : 1 / sqrt ((n + 1 : ℕ) : ℝ) + 1 / sqrt ((n + 1 : ℕ) : ℝ) + ((g - 1 : ℕ) : ℝ) * (2 * (1 / sqrt ((n + 1 : ℕ) : ℝ))) =
        ((2 * g : ℕ) : ℝ) * (1 / sqrt ((n + 1 : ℕ) : ℝ)) := by
      rw [Nat.cast_sub (by omega)]; push_cast; ring
    rw [hsum] at hh
    have hs1 : sqrt ((2 * g : ℕ) : ℝ) < sqrt ((n + 1 : ℕ) : ℝ) := by
      apply Real.sqrt_lt_sqrt hG.le
      exact_mod_cast (by omega : 2 * g < n + 1)
    have hs0 : 0 < sqrt ((2 * g : ℕ) : ℝ) := Real.sqrt_pos.2 hG
    have hsN : 0 < sqrt ((n + 1 : ℕ) : ℝ) := Real.sqrt_pos.2 hN
    have hsq := Real.mul_self_sqrt hG.le
    have : sqrt ((2 * g : ℕ) : ℝ) / sqrt ((n + 1 : ℕ) : ℝ) = 1 := by
      rw [← hh]
      field_simp
      nlinarith [hsq]
    rw [div_eq_one_iff_eq hsN.ne'] at this
    linarith
  · rintro ⟨hn0, he, rfl⟩ x hx
    obtain ⟨X, h1, -, h2⟩ := C54_fft_inverse (n / 2) (by omega) x (by omega)
    refine ⟨X, ?_, h2⟩
    unfold zfft
    simpa using h1

/-- **C104, exact**: applying the node's transform twice, which is what `DCTIVSynthesizer` does, gives every window of `l` samples
back exactly when `l` is one. -/
theorem C104_exact (l : ℕ) :
    (∀ x : List ℝ, x.length = l → ∃ y, dctiv x = .ok y ∧ dctiv y = .ok x) ↔ l = 1 := by
  constructor
  · intro h
    rcases lt_or_ge l 2 with hl | hl
    · rcases (by omega : l = 0 ∨ l = 1) with rfl | rfl
      · obtain ⟨y, hy, -⟩ := h [] rfl
        simp [dctiv] at hy
      · rfl
    · obtain ⟨y, z, h1, h2, h3⟩ := C55_involution_refuted l hl
      obtain ⟨y', h1', h2'⟩ := h (1 :: List.replicate (l - 1) 0) (by simp; omega)
      rw [h1] at h1'
      cases h1'
      rw [h2] at h2'
      cases h2'
      simp at h3
  · rintro rfl x hx
    obtain ⟨a, rfl⟩ := List.length_eq_one_iff.1 hx
    exact ⟨_, C55_single a, C55_single a⟩

/-- **C105, exact, inverse**: `idct` of `dct` gives a signal back exactly when it has samples and its first one is zero. -/
theorem C105_inverse (x : List ℝ) : (∃ c, torchDct x = .ok c ∧ torchIdct c = .ok x) ↔ x ≠ [] ∧ x.getD 0 0 = 0 := by
  cases x with
  | nil => simp [torchDct]
  | cons a x =>
    constructor
    · rintro ⟨c, h1, h2⟩
      refine ⟨by simp, ?_⟩
      by_contra ha
      obtain ⟨c', y, h1', h2', -, h4⟩ := C56_inverse_refuted a x ha
      rw [h1] at h1'
      cases h1'
      rw [h2] at h2'
      cases h2'
      exact h4 rfl
    · rintro ⟨-, ha⟩
      obtain ⟨c, h1, -, h2⟩ := C56_inverse (a :: x) (by simp)
      refine ⟨c, h1, h2.trans ?_⟩
      congr 1
      apply List.ext_getElem?
      intro i
      rw [List.getElem?_map]
      by_cases hi : i < (a :: x).length
      · rw [List.getElem?_range hi, List.getElem?_eq_getElem hi, Option.map_some, List.getD_eq_getElem _ _ hi]
        congr 1
        split
        · rename_i h0
          subst h0
          have : a = 0 := ha
          simp [this]
        · ring
      · rw [List.getElem?_eq_none (by simpa using hi), List.getElem?_eq_none (by omega)]; rfl

/-- **C105, exact, window cache**: after coefficients of size `n` have been asked for with windowing function `w`, asking with `v` gives
those of `v` exactly when they are those of `w`. -/
theorem C105_window {β : Type} (cache : List (ℕ × List β)) (n : ℕ) (w v : ℕ → List β) (h : cache.lookup n = none) :
    (cachedWindow (cachedWindow cache n w).1 n v).2 = v n ↔ w n = v n := by
  rw [(C56_window_cached cache n w v h).2]

example := C105_window [(4, [1])] 3 (fun n => List.replicate n 1) (fun n => List.replicate n 2) rfl

/-- **C105, exact, layout**: with a window that is not all zeros, `short_time_dct` of every signal of `L` samples has coefficient `i` of
window `j` in row `i`, column `j`, exactly when windows have one sample or there is only one window. -/
theorem C105_layout (window : List ℝ) (size step L : ℕ) (hs : 0 < size) (hst : 0 < step) (hL : size ≤ L)
    (hw : window.length = size) (hnz : ∃ t, window.getD t 0 ≠ 0) :
    (∀ x : List ℝ, x.length = L → ∀ (c : ℕ → List ℝ) (out : List (List ℝ)),
      (∀ i, i < (L - size) / step + 1 →
        torchDct ((List.range size).map fun t => x.getD (i * step + t) 0 * window.getD t 0) = .ok (c i)) →
      shortTimeDct x size step window = .ok out →
      ∀ i j, i < size → j < (L - size) / step + 1 → (out.getD i []).getD j 0 = (c j).getD i 0) ↔
    size = 1 ∨ L < size + step := by
  constructor
  · intro h
    by_contra hcon
    rw [not_or, not_lt] at hcon
    obtain ⟨h1, h2⟩ := hcon
    -- the last sample with a weight
    have hlt : ∀ t, window.getD t 0 ≠ 0 → t < size := by
      intro t ht
      by_contra hge
      exact ht (List.getD_eq_default window _ (by omega))
    obtain ⟨t, ht, hmax⟩ : ∃ t, window.getD t 0 ≠ 0 ∧ ∀ t', t < t' → window.getD t' 0 = 0 := by
      classical
      obtain ⟨t0, ht0⟩ := hnz
      have hb : ∀ n, window.getD n 0 ≠ 0 → n ≤ size := fun n hn => (hlt n hn).le
      refine ⟨Nat.findGreatest (fun n => window.getD n 0 ≠ 0) size, Nat.findGreatest_spec (P := fun n => window.getD n 0 ≠ 0) (hb t0 ht0) ht0, ?_⟩
      intro t' ht'
      by_contra hne
      exact absurd (Nat.le_findGreatest (P := fun n => window.getD n 0 ≠ 0) (hb t' hne) hne) (by omega)
    have htl := hlt t ht
    -- an impulse that only the second window sees
    set x : List ℝ := (List.range L).map fun i => if i = step + t then 1 else 0 with hx
    have hxl : x.length = L := by simp [hx]
    have hxg : ∀ i, i < L → x.getD i 0 = if i = step + t then 1 else 0 := by
      intro i hi; rw [hx, getD_map_range _ _ _ _ hi]
    have hlay := C56_short_time_refuted x window size step (by omega) hst (by omega) hw
    rw [hxl] at hlay
    obtain ⟨c, out, k1, k2, k3⟩ := hlay
    have hn : 1 ≤ (L - size) / step := (Nat.one_le_div_iff hst).2 (by omega)
    have hgood := h x hxl c out k1 k2 0 1 hs (by omega)
    rw [k3] at hgood
    have hz : ((List.range size).map fun t' => x.getD (0 * step + t') 0 * window.getD t' 0) = List.replicate size 0 := by
      rw [List.eq_replicate_iff]
      refine ⟨by simp, ?_⟩
      intro y hy
      obtain ⟨t', ht', rfl⟩ := List.mem_map.1 hy
      have ht'' := List.mem_range.1 ht'
      rw [hxg _ (by omega), Nat.zero_mul, Nat.zero_add]
      split
      · rw [hmax t' (by omega)]; ring
      · ring
    have hc0 : (c 0).getD 1 0 = 0 := by
      have := k1 0 (by omega)
      rw [hz] at this
      unfold torchDct at this
      rw [if_neg (by simp; omega)] at this
      rw [← Except.ok.inj this, List.length_replicate, getD_map_range _ _ _ _ (by omega)]
      rw [sum_eq_zero]; · ring
      intro i hi
      rw [List.getD_eq_getElem?_getD, List.getElem?_replicate_of_lt (mem_range.1 hi)]
      simp
    have hc1 : (c 1).getD 0 0 ≠ 0 := by
      have := k1 1 (by omega)
      unfold torchDct at this
      rw [if_neg (by
        intro he
        have := congrArg List.length he
        simp at this; omega)] at this
      rw [← Except.ok.inj this]
      simp only [List.length_map, List.length_range]
      rw [getD_map_range _ _ _ _ hs, sum_eq_single t]
      · rw [getD_map_range _ _ _ _ htl, hxg _ (by omega), if_pos (by omega)]
        apply mul_ne_zero
        · apply mul_ne_zero
          · simpa using ht
          · unfold dctBasis
            apply ne_of_gt
            apply Real.cos_pos_of_mem_Ioo
            have hsz : (0 : ℝ) < size := by exact_mod_cast hs
            have htR : (t : ℝ) + 1 ≤ size := by exact_mod_cast htl
            have hpi := Real.pi_pos
            have e : π / size * ((t : ℝ) * (((0 : ℕ) : ℝ) + 1 / 2)) = π / 2 * (t / size) := by
              push_cast; field_simp; ring
            rw [e]
            have hq : (t : ℝ) / size < 1 := by rw [div_lt_one hsz]; linarith
            have hq0 : 0 ≤ (t : ℝ) / size := by positivity
            constructor
            · have : 0 ≤ π / 2 * (t / size) := by positivity
              linarith
            · have : π / 2 * (t / size) < π / 2 * 1 := by
                apply mul_lt_mul_of_pos_left hq (by positivity)
              linarith
        · apply ne_of_gt
          apply Real.sqrt_pos.2
          have hsz : (0 : ℝ) < size := by exact_mod_cast hs
          positivity
      · intro i hi hne
        rw [getD_map_range _ _ _ _ (mem_range.1 hi), hxg _ (by have := mem_range.1 hi; omega), if_neg (by omega)]
        ring
      · intro hnot; exact absurd (mem_range.2 htl) hnot
    rw [hc0] at hgood
    exact hc1 hgood.symm
  · intro hcase x hx c out k1 k2 i j hi hj
    subst hx
    obtain ⟨c', out', k1', k2', -, k4⟩ := C56_short_time x window size step hs hst hL hw
    rw [k2] at k2'
    cases k2'
    rw [k4 i j hi hj]
    have hcc : ∀ i, i < (x.length - size) / step + 1 → c' i = c i := by
      intro i hi
      have a := k1 i hi
      rw [k1' i hi] at a
      exact Except.ok.inj a
    rcases hcase with rfl | hlt
    · obtain rfl : i = 0 := by omega
      rw [Nat.zero_mul, Nat.zero_add, Nat.div_one, Nat.mod_one, hcc j hj]
    · have h0 : (x.length - size) / step = 0 := Nat.div_eq_of_lt (by omega)
      rw [h0] at hj ⊢
      obtain rfl : j = 0 := by omega
      have e : i * (0 + 1) + 0 = i := by omega
      rw [e, Nat.div_eq_of_lt hi, Nat.mod_eq_of_lt hi, hcc 0 (by omega)]

example := C105_layout [1, 1] 2 1 5 (by decide) (by decide) (by decide) rfl ⟨0, by simp⟩

/-- **C106, exact**: shifting the phases of the `m = N / 2 + 1` coefficients of a window of `N` samples by a time of `s` samples is
the transform of the window delayed by `s` samples, for every (periodic) window, exactly when `N m` divides `s (N − m)`. -/
theorem C106_exact (N : ℕ) (hN : 0 < N) (s : ℤ) :
    (∀ x : ℤ → ℝ, (∀ t : ℤ, x (t + N) = x t) → ∃ X Y, rfft ((List.range N).map fun t : ℕ => x t) = .ok X ∧
      rfft ((List.range N).map fun t : ℕ => x ((t : ℤ) - s)) = .ok Y ∧ phaseShift X s = Y) ↔
    (N : ℤ) * ((N / 2 + 1 : ℕ) : ℤ) ∣ s * (N - ((N / 2 + 1 : ℕ) : ℤ)) := by
  have hN' : (N : ℂ) ≠ 0 := by exact_mod_cast hN.ne'
  have hm' : ((N / 2 + 1 : ℕ) : ℂ) ≠ 0 := by exact_mod_cast Nat.succ_ne_zero (N / 2)
  have hne : ∀ f : ℕ → ℝ, (List.range N).map f ≠ [] := by
    intro f hf
    have := congrArg List.length hf
    simp at this; omega
  have hr : ∀ f : ℤ → ℝ, rfft ((List.range N).map fun t : ℕ => f t) = .ok ((List.range (N / 2 + 1)).map fun k : ℕ =>
      ((1 / sqrt N : ℝ) : ℂ) * ∑ t ∈ range N, (f t : ℂ) * Complex.exp (-2 * π * Complex.I * t * k / N)) := by
    intro f
    unfold rfft
    rw [if_neg (hne _)]
    simp only [List.length_map, List.length_range]
    congr 1
    apply List.map_congr_left
    intro k _
    congr 1
    apply sum_congr rfl
    intro t ht
    rw [getD_map_range _ _ _ _ (mem_range.1 ht)]
  constructor
  · intro h
    rcases (by omega : N = 1 ∨ 2 ≤ N) with rfl | h2
    · simp
    obtain ⟨imp, himp⟩ : ∃ f : ℤ → ℝ, ∀ t, f t = if (N : ℤ) ∣ t then 1 else 0 := ⟨_, fun _ => rfl⟩
    have hper : ∀ t : ℤ, imp (t + N) = imp t := by
      intro t
      simp only [himp, Int.dvd_add_left (dvd_refl (N : ℤ))]
    obtain ⟨X, Y, h1, h2', h3⟩ := h imp hper
    have e1 := (hr imp).symm.trans h1
    have e2 := (hr (fun t => imp (t - s))).symm.trans h2'
    cases e1
    cases e2
    have hk : (1 : ℕ) < N / 2 + 1 := by omega
    have h4 := congrArg (fun l => l.getD 1 0) h3
    unfold phaseShift at h4
    simp only [List.length_map, List.length_range] at h4
    rw [getD_map_range _ _ _ _ hk, getD_map_range _ _ _ _ hk, getD_map_range _ _ _ _ hk,
      rfft_delayed N hN imp hper s 1] at h4
    have hS : ∑ t ∈ range N, (imp (t : ℤ) : ℂ) * Complex.exp (-2 * π * Complex.I * t * ((1 : ℕ) : ℂ) / N) = 1 := by
      rw [sum_eq_single 0]
      · simp [himp]
      · intro t ht ht0
        have : ¬ (N : ℤ) ∣ (t : ℤ) := by
          intro hd
          have := Nat.le_of_dvd (by omega) (Int.natCast_dvd_natCast.1 hd)
          have := mem_range.1 ht
          omega
        rw [himp, if_neg this]; simp
      · intro hnot; exact absurd (mem_range.2 hN) hnot
    rw [hS, mul_one] at h4
    have hs0 : ((1 / sqrt N : ℝ) : ℂ) ≠ 0 := by
      have : (0 : ℝ) < sqrt N := Real.sqrt_pos.2 (by exact_mod_cast hN)
      exact_mod_cast (by positivity : (1 / sqrt (N : ℝ)) ≠ 0)
    rw [one_mul] at h4
    have h5 := mul_left_cancel₀ hs0 h4
    obtain ⟨n, hn⟩ := Complex.exp_eq_exp_iff_exists_int.1 h5
    have hpi : (2 * π * Complex.I : ℂ) ≠ 0 := Complex.two_pi_I_ne_zero
    refine ⟨-n, ?_⟩
    have hc : (s : ℂ) * (N - ((N / 2 + 1 : ℕ) : ℂ)) = N * ((N / 2 + 1 : ℕ) : ℂ) * (-n) := by
      apply mul_left_cancel₀ hpi
      have hn' : -(((1 : ℕ) : ℂ) * 2 * Complex.I * π / ((N / 2 + 1 : ℕ) : ℂ)) * s * (N * ((N / 2 + 1 : ℕ) : ℂ)) =
        (-2 * π * Complex.I * ((1 : ℕ) : ℂ) * s / N + n * (2 * π * Complex.I)) * (N * ((N / 2 + 1 : ℕ) : ℂ)) := by rw [hn]
      have a1 : -(((1 : ℕ) : ℂ) * 2 * Complex.I * π / ((N / 2 + 1 : ℕ) : ℂ)) * s * (N * ((N / 2 + 1 : ℕ) : ℂ)) =
          -(2 * Complex.I * π * s * N) := by
        generalize ((N / 2 + 1 : ℕ) : ℂ) = m at hm' ⊢
        push_cast
        field_simp
      have a2 : (-2 * π * Complex.I * ((1 : ℕ) : ℂ) * s / N + n * (2 * π * Complex.I)) * (N * ((N / 2 + 1 : ℕ) : ℂ)) =
          -(2 * π * Complex.I * s * ((N / 2 + 1 : ℕ) : ℂ)) + n * (2 * π * Complex.I) * (N * ((N / 2 + 1 : ℕ) : ℂ)) := by
        generalize ((N / 2 + 1 : ℕ) : ℂ) = m at hm' ⊢
        push_cast
        field_simp
      rw [a1, a2] at hn'
      linear_combination -hn'
    apply Int.cast_injective (α := ℂ)
    rw [Int.cast_mul, Int.cast_mul, Int.cast_mul, Int.cast_sub, Int.cast_neg, Int.cast_natCast, Int.cast_natCast]
    exact hc
  · rintro ⟨q, hq⟩ x hper
    refine ⟨_, _, hr x, hr (fun t => x (t - s)), ?_⟩
    unfold phaseShift
    simp only [List.length_map, List.length_range]
    apply List.map_congr_left
    intro k hk
    rw [getD_map_range _ _ _ _ (List.mem_range.1 hk), rfft_delayed N hN x hper s k, mul_assoc]
    congr 2
    rw [Complex.exp_eq_exp_iff_exists_int]
    refine ⟨-(k * q), ?_⟩
    have hc : (s : ℂ) * (N - ((N / 2 + 1 : ℕ) : ℂ)) = N * ((N / 2 + 1 : ℕ) : ℂ) * q := by
      have := congrArg (fun z : ℤ => (z : ℂ)) hq
      beta_reduce at this
      rw [Int.cast_mul, Int.cast_mul, Int.cast_mul, Int.cast_sub, Int.cast_natCast, Int.cast_natCast] at this
      exact this
    push_cast
    have hm2 : ((N / 2 : ℕ) : ℂ) + 1 ≠ 0 := by exact_mod_cast hm'
    push_cast at hc
    generalize ((N / 2 : ℕ) : ℂ) + 1 = m at hm2 hc ⊢
    field_simp
    linear_combination (-k : ℂ) * hc

example := C106_exact 4 (by decide) 3

/-- What the stretched windows add up to: at sample `t` of `L`, the squared coefficients of all windows of `wl` samples that contain it. -/
noncomputable def squares (win : List ℝ) (hop wl L t : ℕ) : ℝ :=
  ∑ i ∈ range ((L - wl) / hop + 1), if i * hop ≤ t ∧ t < i * hop + wl then win.getD (t - i * hop) 0 ^ 2 else 0

/-- **C107, exact, stretching by one**: all audio of `L` samples, one window or more, is unchanged by a stretch by one exactly
when the squares of the coefficients of the overlapping windows add up to one at every sample. -/
theorem C107_stretch (L hop m : ℕ) (win : ℕ → List ℝ) (hm : 0 < m) (hhop : 0 < hop) (hL : 2 * m ≤ L)
    (hw : (win (2 * m)).length = 2 * m) :
    (∀ x : List ℝ, x.length = L → timeStretch x 1 hop (2 * m) win = .ok x) ↔
      ∀ t, t < L → squares (win (2 * m)) hop (2 * m) L t = 1 := by
  constructor
  · intro h t ht
    obtain ⟨y, h1, h2, h3⟩ := C58_unit_factor (List.replicate L 1) hop m win hm hhop (by simpa using hL) hw
    rw [h _ (by simp)] at h1
    cases h1
    have := h3 t (by simpa using ht)
    simp only [List.length_replicate] at this
    have hg : (List.replicate L (1 : ℝ)).getD t 0 = 1 := by
      rw [List.getD_eq_getElem?_getD, List.getElem?_replicate_of_lt ht]; rfl
    rw [hg, mul_one] at this
    exact this.symm
  · intro h x hx
    subst hx
    obtain ⟨y, h1, h2, h3⟩ := C58_unit_factor x hop m win hm hhop hL hw
    rw [h1]
    congr 1
    apply List.ext_getElem h2
    intro t h4 h5
    have := h3 t h5
    have hone := h t h5
    unfold squares at hone
    rw [hone, one_mul, List.getD_eq_getElem _ _ h4, List.getD_eq_getElem _ _ h5] at this
    exact this

example := C107_stretch 8 2 2 (fun n => List.replicate n 1) (by decide) (by decide) (by decide) (by simp)

/-- **C107, exact, shifting**: `pitch_shift` keeps the number of samples of all audio of one window or more exactly when 1024 times
its factor is a whole number (which it is, among whole numbers of semitones up to ten octaves up, only for octaves). -/
theorem C107_pitch (resample : List ℝ → ℕ → List ℝ) (hres : ∀ w n, (resample w n).length = n) (semitones : ℝ)
    (hop m : ℕ) (win : ℕ → List ℝ) (hm : 0 < m) (hhop : 0 < hop) (hw : (win (2 * m)).length = 2 * m) :
    (∀ x : List ℝ, 2 * m ≤ x.length → ∃ y, pitchShift resample x semitones hop (2 * m) win = .ok y ∧ y.length = x.length) ↔
      Int.fract (1024 * pitchFactor semitones) = 0 := by
  have hp : 0 < pitchFactor semitones := by unfold pitchFactor; positivity
  constructor
  · intro h
    by_contra hf
    obtain ⟨n0, h0⟩ := C58_pitch_length_refuted resample hres semitones hf
    obtain ⟨y, h1, h2⟩ := h (List.replicate (n0 + 2 * m) 0) (by simp)
    have := h0 _ hop (2 * m) win y (by simp) h1
    omega
  · intro hf x hx
    obtain ⟨D, C, φ, F, s, hs, -⟩ := C58_vocoder x (pitchFactor semitones) hop m win hp hm hhop hx hw
    have hok : pitchShift resample x semitones hop (2 * m) win =
        .ok (resampleWindows resample s (pitchFactor semitones) x.length) := by
      unfold pitchShift; rw [hs]
    refine ⟨_, hok, ?_⟩
    rw [C58_pitch_length resample hres x semitones hop (2 * m) win _ hok]
    apply min_eq_left
    set f := pitchFactor semitones with hfdef
    set P := ⌊1024 * f⌋₊ with hP
    have hPe : (P : ℝ) = 1024 * f := by
      have h1 : (⌊1024 * f⌋ : ℝ) = 1024 * f := by
        have := Int.self_sub_floor (1024 * f)
        rw [hf] at this; linarith
      rw [hP, natCast_floor_eq_intCast_floor (by positivity), h1]
    have hPpos : 0 < P := by
      have : (0 : ℝ) < P := by rw [hPe]; positivity
      exact_mod_cast this
    have hfP : f = P / 1024 := by rw [hPe]; ring
    have hdiv : ⌊(x.length : ℝ) / f⌋₊ / 1024 = x.length / P := by
      have : (x.length : ℝ) / f = ((x.length * 1024 : ℕ) : ℝ) / (P : ℕ) := by
        rw [hfP]; push_cast
        have : (P : ℝ) ≠ 0 := by exact_mod_cast hPpos.ne'
        field_simp
      rw [this, Nat.floor_div_natCast, Nat.floor_natCast, Nat.div_div_eq_div_mul]
      rw [Nat.mul_div_mul_right _ _ (by norm_num)]
    rw [hdiv, Nat.add_mul, Nat.one_mul]
    have := Nat.div_add_mod x.length P
    have := Nat.mod_lt x.length hPpos
    have e : x.length / P * P = P * (x.length / P) := Nat.mul_comm _ _
    omega

example := C107_pitch (fun w n => List.replicate n (w.getD 0 0)) (by simp) 3 2 2 (fun n => List.replicate n 1) (by decide) (by decide) (by simp)

end Zounds.Spectral

namespace Zounds.Descriptors
open Finset

/-- **C108, exact, centroid**: turning the volume of a frame up by `c` leaves the centroid unchanged exactly when the frame is silent or
`c` is 1 or −1. -/
theorem C108_centroid (row : List ℝ) (c : ℝ) :
    centroid (row.map fun x => c * x) = centroid row ↔ (∀ x ∈ row, x = 0) ∨ |c| = 1 := by
  rw [C62_centroid_volume_refuted]
  constructor
  · intro h
    by_cases h0 : ∀ x ∈ row, x = 0
    · exact .inl h0
    · right
      have hpos : 0 < centroid row := by
        rw [C62_centroid_value]
        push Not at h0
        obtain ⟨x, hx, hx0⟩ := h0
        obtain ⟨j, hj, rfl⟩ := List.getElem_of_mem hx
        have hlen : (0 : ℝ) < row.length := by exact_mod_cast (by omega : 0 < row.length)
        apply div_pos
        · apply sum_pos'
          · intro i _; positivity
          · refine ⟨j, mem_range.2 hj, ?_⟩
            rw [List.getD_eq_getElem _ _ hj]
            positivity
        · positivity
      have : (|c| - 1) * centroid row = 0 := by linarith
      rcases mul_eq_zero.1 this with h | h
      · linarith
      · linarith
  · rintro (h | h)
    · have : centroid row = 0 := by
        rw [C62_centroid_value, sum_eq_zero]
        · simp
        · intro j hj
          rw [List.getD_eq_getElem _ _ (mem_range.1 hj), h _ (List.getElem_mem _)]
          simp
      rw [this, mul_zero]
    · rw [h, one_mul]

/-- **C108, exact, cepstral coefficients**: asked for at least one coefficient and excluding the zeroth, turning up the volume by
`c > 0` leaves the coefficients of every frame unchanged exactly when `c` is one, whatever the floor of the logarithm. -/
theorem C108_bfcc (floor c : ℝ) (n e : ℕ) (hf : 0 < floor) (hc : 0 < c) (hn : 0 < n) (he : 0 < e) :
    (∀ row : List ℝ, bfcc floor n e (row.map fun x => c * x) = bfcc floor n e row) ↔ c = 1 := by
  constructor
  · intro h
    set row : List ℝ := 1 :: List.replicate e 0 with hrow
    have hlen : row.length = e + 1 := by simp [hrow]
    have h0 := congrArg (fun l => l.getD 0 0) (h row)
    have hval : ∀ a : ℝ, 0 < a → (bfcc floor n e (row.map fun x => a * x)).getD 0 0 =
        2 * ((Real.log (a + floor) - Real.log floor) * Real.cos (Real.pi * e / (2 * (e + 1)))) := by
      intro a ha
      rw [C62_bfcc_value _ _ _ _ _ (by simp [hlen]; omega)]
      congr 1
      have hz := cos_sum_zero (e + 1) e (by omega) (by omega)
      have hl : (row.map fun x => a * x).length = e + 1 := by simp [hlen]
      rw [hl, sum_range_succ']
      rw [sum_range_succ'] at hz
      have hterm : ∀ t ∈ range e, Real.log (|(row.map fun x => a * x).getD (t + 1) 0| + floor) *
          Real.cos (Real.pi * ((e + 0 : ℕ) : ℝ) * (2 * ((t + 1 : ℕ) : ℝ) + 1) / (2 * ((e + 1 : ℕ) : ℝ))) =
          Real.log floor * Real.cos (Real.pi * (e : ℝ) * (2 * ((t + 1 : ℕ) : ℝ) + 1) / (2 * ((e + 1 : ℕ) : ℝ))) := by
        intro t ht
        have : (row.map fun x => a * x).getD (t + 1) 0 = 0 := by
          rw [hrow, List.map_cons, List.getD_cons_succ, List.map_replicate, List.getD_eq_getElem?_getD,
            List.getElem?_replicate_of_lt (mem_range.1 ht)]
          simp
        rw [this, abs_zero, zero_add, Nat.add_zero]
      rw [sum_congr rfl hterm, ← mul_sum]
      have h1 : (row.map fun x => a * x).getD 0 0 = a := by simp [hrow]
      rw [h1, abs_of_pos ha]
      have hcos : Real.cos (Real.pi * ((e + 0 : ℕ) : ℝ) * (2 * ((0 : ℕ) : ℝ) + 1) / (2 * ((e + 1 : ℕ) : ℝ))) =
          Real.cos (Real.pi * e / (2 * (e + 1))) := by
        congr 1; push_cast; ring
      have hcos' : Real.cos (Real.pi * (e : ℝ) * (2 * ((0 : ℕ) : ℝ) + 1) / (2 * ((e + 1 : ℕ) : ℝ))) =
          Real.cos (Real.pi * e / (2 * (e + 1))) := by
        congr 1; push_cast; ring
      rw [hcos'] at hz
      rw [hcos]
      linear_combination Real.log floor * hz
    have h1 : (row.map fun x => (1 : ℝ) * x) = row := by simp
    have hb := hval 1 one_pos
    rw [h1] at hb
    have ha := hval c hc
    beta_reduce at h0
    rw [ha, hb] at h0
    have hcos : Real.cos (Real.pi * e / (2 * (e + 1))) ≠ 0 := by
      apply ne_of_gt
      apply Real.cos_pos_of_mem_Ioo
      have hpi := Real.pi_pos
      have heq : Real.pi * e / (2 * (e + 1)) = Real.pi / 2 * (e / (e + 1)) := by field_simp
      rw [heq]
      have hq : (e : ℝ) / (e + 1) < 1 := by rw [div_lt_one (by positivity)]; linarith
      constructor
      · have : 0 ≤ Real.pi / 2 * ((e : ℝ) / (e + 1)) := by positivity
        linarith
      · have : Real.pi / 2 * ((e : ℝ) / (e + 1)) < Real.pi / 2 * 1 := mul_lt_mul_of_pos_left hq (by positivity)
        linarith
    have h2 : Real.log (c + floor) = Real.log (1 + floor) := by
      have := mul_right_cancel₀ hcos (mul_left_cancel₀ (two_ne_zero) h0)
      linarith
    have := Real.log_injOn_pos (show c + floor ∈ Set.Ioi 0 from by simp; linarith)
      (show 1 + floor ∈ Set.Ioi 0 from by simp; linarith) h2
    linarith
  · rintro rfl row
    simp

example := C108_bfcc (1 / 10) 2 13 1 (by norm_num) (by norm_num) (by decide) (by decide)

end Zounds.Descriptors
