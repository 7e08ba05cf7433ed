import Verif.Props.SineSpectrum
import Verif.Props.Rainbow

/-!
# C388: what `apply_scale` makes of sines
-/

namespace Zounds.ScaleSine
open Zounds Zounds.Freq Zounds.Time Zounds.ScaleApply
open _root_.Zounds.Props.Frequency (touches rowsTouching Ordered Sliceable C21_linear_ordered)
open _root_.Zounds.SineSpectrum (windowSpectrum C384_spectrum)

/-- The scale of a spectrum of `n` coefficients, in real numbers. -/
def spectrumScale (r : SampleRate) (n : ℕ) : Scale ℝ := .linear ⟨0, (r.nyquist : ℝ)⟩ n false

theorem spectrumScale_bands (E : NumExt ℝ) (r : SampleRate) (h : 0 < r.nyquist) (n : ℕ) (hn : 2 ≤ n) :
    (spectrumScale r n).bands E = .ok ((List.range n).map (part ⟨0, (r.nyquist : ℝ)⟩ n)) := by
  show linearBands _ _ = _
  exact linearBands_eq _ _ (by show (0 : ℝ) < r.nyquist; exact_mod_cast h) hn

theorem nyquist_pos (r : SampleRate) (hr : r ∈ supportedRates) : 0 < r.nyquist := by
  revert r
  decide

theorem sum_filter (n : ℕ) (f : ℕ → Band ℝ) (g : ℕ → ℝ) (b : Band ℝ) :
    (rowsTouching ((List.range n).map f) b ((List.range n).map g)).sum = ((List.range n).map fun j => if touches b (f j) = true then g j else 0).sum := by
  unfold rowsTouching
  rw [List.zip_map']
  induction List.range n with
  | nil => rfl
  | cons a l ih =>
    rw [List.map_cons, List.map_cons, List.sum_cons, ← ih]
    by_cases h : touches b (f a) = true
    · rw [List.filter_cons_of_pos (by simpa using h), if_pos h, List.map_cons, List.sum_cons]
    · rw [List.filter_cons_of_neg (by simpa using h), if_neg h, zero_add]

/-- A list as a function of the place. -/
theorem eq_range {β : Type} (l : List β) (d : β) (n : ℕ) (h : l.length = n) : l = (List.range n).map fun j => l.getD j d := by
  apply List.ext_getElem
  · simp [h]
  intro j h1 h2
  rw [List.getElem_map, List.getElem_range, List.getD_eq_getElem?_getD, List.getElem?_eq_getElem h1]
  rfl

theorem re_turn (a θ : ℝ) : ((a : ℂ) * Complex.exp (((θ - Real.pi / 2 : ℝ) : ℂ) * Complex.I)).re = a * Real.sin θ := by
  rw [Complex.re_ofReal_mul, Complex.exp_ofReal_mul_I_re, Real.cos_sub_pi_div_two]

/-! ## C388 -/

/-- **C388, one sine**: `apply_scale`, with a window of ones, gives for a window of a sine of `k · s / w` hertz that starts at sample `o` the number `√w / 2 · |sin (2π k o / w)|` in every band
of the new scale that touches the sine's band, and zero in every other. -/
theorem C388_sine (E : NumExt ℝ) (r : SampleRate) (hr : r ∈ supportedRates) (d : Int) (w k : ℕ) (h0 : 0 < k) (hk : 2 * k < w)
    (o : ℕ) (ho : o + w ≤ Tones.sineCount r.samplesPerSecond d) (scale : Scale ℝ) (sbs : List (Band ℝ)) (hsb : scale.bands E = .ok sbs) :
    ∃ xs X sc out y, Tones.sine ⟨r, true⟩ d [(k : ℝ) * r.samplesPerSecond / w] = .ok ⟨r, .vec xs⟩ ∧ windowSpectrum xs r o w = .ok (X, sc) ∧
      Rainbow.applyScale E scale (spectrumScale r (w / 2 + 1)) (fun n => List.replicate n 1) [X] = .ok out ∧ out = [y] ∧ y.length = sbs.length ∧
      ∀ (i : ℕ) (b : Band ℝ), sbs[i]? = some b → y[i]? = some (if touches b (part ⟨0, (r.nyquist : ℝ)⟩ (w / 2 + 1) k) = true then
        Real.sqrt w / 2 * |Real.sin (2 * Real.pi * k * o / w)| else 0) := by
  obtain ⟨xs, X, h1, h2, h3, h4⟩ := C384_spectrum r hr d w [k] (by simp) (by
    intro k' hk'
    rw [List.mem_singleton] at hk'
    subst hk'
    exact ⟨h0, hk⟩) o ho
  have hny := nyquist_pos r hr
  have hb := spectrumScale_bands E r hny (w / 2 + 1) (by omega)
  obtain ⟨out, h5, h6, h7⟩ := Rainbow.C165_apply_scale E scale (spectrumScale r (w / 2 + 1)) sbs hsb (fun _ => by unfold spectrumScale; simp) rfl _ hb
    (C21_linear_ordered _ _ (by show (0 : ℝ) < r.nyquist; exact_mod_cast hny)) (by simp [spectrumScale, Scale.len]) (fun n => List.replicate n 1) (by simp) [X]
    (by simp [h3])
  obtain ⟨y, h8, h9, h10⟩ := h7 0 X rfl
  have hout : out = [y] := by
    rw [List.length_singleton] at h6
    obtain ⟨z, rfl⟩ := List.length_eq_one_iff.1 h6
    simpa using h8
  refine ⟨xs, X, _, out, y, h1, h2, h5, hout, h9, ?_⟩
  intro i b hi
  rw [h10 i b hi]
  congr 1
  rw [C64_ones]
  have hX : (X.map fun z => |z.re|) = (List.range (w / 2 + 1)).map fun j => if j = k then Real.sqrt w / 2 * |Real.sin (2 * Real.pi * k * o / w)| else 0 := by
    conv_lhs => rw [eq_range X 0 (w / 2 + 1) h3]
    rw [List.map_map]
    apply List.map_congr_left
    intro j hj
    have hj := List.mem_range.1 hj
    simp only [Function.comp]
    rw [h4 j (by omega), re_turn]
    by_cases hjk : j = k
    · subst hjk
      rw [if_pos rfl, List.count_singleton_self, abs_mul, List.length_singleton, Nat.cast_one, div_one, one_mul, abs_of_nonneg (by positivity : 0 ≤ Real.sqrt w / 2)]
    · have : ([k] : List ℕ).count j = 0 := List.count_eq_zero_of_not_mem (by simpa using hjk)
      rw [if_neg hjk, this]
      simp
  rw [hX, sum_filter]
  have hsum : ∀ v : ℝ, ((List.range (w / 2 + 1)).map fun j => if touches b (part ⟨0, (r.nyquist : ℝ)⟩ (w / 2 + 1) j) = true then (if j = k then v else 0) else 0).sum =
      if touches b (part ⟨0, (r.nyquist : ℝ)⟩ (w / 2 + 1) k) = true then v else 0 := by
    intro v
    rw [list_sum_eq, List.length_map, List.length_range, Finset.sum_eq_single k]
    · rw [Spectral.getD_map_range _ _ _ _ (by omega), if_pos rfl]
    · intro j hj hne
      rw [Spectral.getD_map_range _ _ _ _ (Finset.mem_range.1 hj), if_neg hne, ite_self]
    · intro h
      exact absurd (Finset.mem_range.2 (by omega)) h
  exact hsum _

/-- **C388, refuted**: one expects the bands that touch a synthesized sine's to be loud.  In half-lapped windows of `2m` samples of the sine synthesizer's mix of `k · s / 2m` hertz for the `k` of
any list, `apply_scale` gives zero in every band of every scale, in every frame. -/
theorem C388_refuted (E : NumExt ℝ) (r : SampleRate) (hr : r ∈ supportedRates) (d : Int) (m : ℕ) (ks : List ℕ) (hne : ks ≠ []) (hk : ∀ k ∈ ks, 0 < k ∧ 2 * k < 2 * m)
    (n : ℕ) (hn : ∀ i < n, i * m + 2 * m ≤ Tones.sineCount r.samplesPerSecond d) (scale : Scale ℝ) (sbs : List (Band ℝ)) (hsb : scale.bands E = .ok sbs)
    (window : ℕ → List ℝ) (hwin : ∀ k, (window k).length = k) :
    ∃ xs Xs out, Tones.sine ⟨r, true⟩ d (ks.map fun k : ℕ => (k : ℝ) * r.samplesPerSecond / (2 * m : ℕ)) = .ok ⟨r, .vec xs⟩ ∧ Xs.length = n ∧
      (∀ i < n, ∃ sc, windowSpectrum xs r (i * m) (2 * m) = .ok (Xs.getD i [], sc) ∧ ∀ k ∈ ks, (Xs.getD i []).getD k 0 ≠ 0) ∧
      Rainbow.applyScale E scale (spectrumScale r (m + 1)) window Xs = .ok out ∧ out.length = n ∧ ∀ y ∈ out, y.length = sbs.length ∧ ∀ v ∈ y, v = 0 := by
  obtain ⟨k0, hk0⟩ := List.exists_mem_of_ne_nil ks hne
  have hm : 2 ≤ m := by
    have := hk k0 hk0
    omega
  have hm' : (m : ℝ) ≠ 0 := by exact_mod_cast (by omega : m ≠ 0)
  have hs : r.samplesPerSecond ≠ 0 := by
    clear hn
    revert r
    decide
  have hs' : (r.samplesPerSecond : ℝ) ≠ 0 := by exact_mod_cast hs
  obtain ⟨xs, h1, _, _⟩ := Tones.C61_sine_samples r d (ks.map fun k : ℕ => (k : ℝ) * r.samplesPerSecond / (2 * m : ℕ)) (by simpa using hne) (by
    intro h
    obtain ⟨k, hkm, hk1⟩ := List.mem_map.1 h
    have hkp : (k : ℝ) ≠ 0 := by exact_mod_cast (hk k hkm).1.ne'
    exact (div_ne_zero (mul_ne_zero hkp hs') (by exact_mod_cast (by omega : 2 * m ≠ 0))) hk1)
  have hall : ∀ i : ℕ, ∃ X : List ℂ, i < n → (∃ sc, windowSpectrum xs r (i * m) (2 * m) = .ok (X, sc) ∧ ∀ k ∈ ks, X.getD k 0 ≠ 0) ∧ X.length = m + 1 ∧
      ∀ z ∈ X, z.re = 0 := by
    intro i
    by_cases hi : i < n
    · obtain ⟨xs', X, a1, a2, a3, a4⟩ := C384_spectrum r hr d (2 * m) ks hne hk (i * m) (hn i hi)
      rw [h1] at a1
      cases a1
      refine ⟨X, fun _ => ⟨⟨_, a2, ?_⟩, by rw [a3]; omega, ?_⟩⟩
      · intro k hkm
        rw [a4 k (by have := (hk k hkm).2; omega)]
        apply mul_ne_zero
        · rw [Complex.ofReal_ne_zero]
          have c1 : (0 : ℝ) < ks.count k := by exact_mod_cast List.count_pos_iff.2 hkm
          have c2 : (0 : ℝ) < ks.length := by exact_mod_cast List.length_pos_of_ne_nil hne
          have c3 : 0 < Real.sqrt (2 * m : ℕ) := Real.sqrt_pos.2 (by exact_mod_cast (by omega : 0 < 2 * m))
          positivity
        · exact Complex.exp_ne_zero _
      · intro z hz
        obtain ⟨j, hj, rfl⟩ := List.getElem_of_mem hz
        have e : X[j] = X.getD j 0 := by
          rw [List.getD_eq_getElem?_getD, List.getElem?_eq_getElem hj]
          rfl
        rw [e, a4 j (by omega), re_turn]
        have e2 : 2 * Real.pi * j * ((i * m : ℕ) : ℝ) / ((2 * m : ℕ) : ℝ) = ((j * i : ℕ) : ℝ) * Real.pi := by
          push_cast
          field_simp
        rw [e2, Real.sin_nat_mul_pi, mul_zero]
    · exact ⟨[], fun h => absurd h hi⟩
  choose F hF using hall
  have hny := nyquist_pos r hr
  obtain ⟨out, h5, h6, h7⟩ := Rainbow.C165_apply_scale E scale (spectrumScale r (m + 1)) sbs hsb (fun _ => by unfold spectrumScale; simp) rfl _
    (spectrumScale_bands E r hny (m + 1) (by omega)) (C21_linear_ordered _ _ (by show (0 : ℝ) < r.nyquist; exact_mod_cast hny)) (by simp [spectrumScale, Scale.len])
    window hwin ((List.range n).map F) (by
      intro X hX
      obtain ⟨i, hi, rfl⟩ := List.mem_map.1 hX
      simp [(hF i (List.mem_range.1 hi)).2.1])
  have hz := Rainbow.C166_refuted E scale (spectrumScale r (m + 1)) window ((List.range n).map F) (by
    intro X hX
    obtain ⟨i, hi, rfl⟩ := List.mem_map.1 hX
    exact (hF i (List.mem_range.1 hi)).2.2) out h5
  rw [List.length_map, List.length_range] at h6
  refine ⟨xs, (List.range n).map F, out, h1, by simp, ?_, h5, h6, ?_⟩
  · intro i hi
    rw [Spectral.getD_map_range _ _ _ _ hi]
    exact (hF i hi).1
  · intro y hy
    refine ⟨?_, hz.2 y hy⟩
    obtain ⟨t, ht, rfl⟩ := List.getElem_of_mem hy
    obtain ⟨y', b1, b2, _⟩ := h7 t (F t) (by rw [List.getElem?_map, List.getElem?_range (by omega)]; rfl)
    rw [List.getElem?_eq_getElem ht] at b1
    cases b1
    exact b2

/-- A second of two sines at 44100 samples per second in 85 half-lapped windows of 1024 samples. -/
example : ToneFilter.sr44 ∈ supportedRates ∧ (∀ k ∈ [16, 20], 0 < k ∧ 2 * k < 2 * 512) ∧
    84 * 512 + 2 * 512 ≤ Tones.sineCount ToneFilter.sr44.samplesPerSecond (10 ^ 12) := by decide +kernel

end Zounds.ScaleSine
