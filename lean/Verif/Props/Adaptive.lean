import Verif.Model.Adaptive
import Verif.Props.FaTransform
import Verif.Props.Resynth

/-!
# The frequency-adaptive graph and its synthesizer (C314)
-/

namespace Zounds.Adaptive
open Zounds Zounds.Freq Zounds.FaTransform Zounds.Resynth Zounds.Props.Frequency Zounds.Props.FreqAdaptive

variable {α : Type} [Field α] [LinearOrder α]

/-- Specification: the weight coefficient `k` of `n` gets from the bands `bs` together, each weighted by a hanning window; the spectrum's bins are `ls`. -/
noncomputable def total (ls bs : List (Band α)) (n k : Nat) : ℝ := (bs.map fun b => weightAt WindowFunc.hanning n (bandRun false ls b) k).sum

/-- Specification: a frame with its coefficients weighted. -/
noncomputable def scaled (W : Nat → ℝ) (r : List ℂ) : List ℂ := (List.range r.length).map fun (k : Nat) => (W k : ℂ) * r.getD k 0

theorem hanning_ends (n : Nat) (hn : 2 ≤ n) : (WindowFunc.hanning n).getD 0 0 = 0 ∧ (WindowFunc.hanning n).getD (n - 1) 0 = 0 := by
  unfold WindowFunc.hanning
  rw [if_neg (by omega), Spectral.getD_map_range _ _ _ _ (by omega), Spectral.getD_map_range _ _ _ _ (by omega)]
  have h0 : ((n : ℝ) - 1) ≠ 0 := by
    have : (2 : ℝ) ≤ n := by exact_mod_cast hn
    linarith
  constructor
  · simp
  · rw [Nat.cast_sub (by omega)]
    have : 2 * Real.pi * ((n : ℝ) - (1 : ℕ)) / ((n : ℝ) - 1) = 2 * Real.pi := by
      push_cast
      field_simp
    rw [this, Real.cos_two_pi]
    ring

theorem weight_end (n : Nat) (run : Nat × Nat) (hwide : run.1 + 2 ≤ min run.2 n) (k : Nat) (hk : k = run.1 ∨ k + 1 = min run.2 n) :
    weightAt WindowFunc.hanning n run k = 0 := by
  unfold weightAt
  split
  · obtain ⟨h1, h2⟩ := hanning_ends (min run.2 n - run.1) (by omega)
    rcases hk with rfl | hk
    · rw [Nat.sub_self]; exact h1
    · rw [show k - run.1 = min run.2 n - run.1 - 1 by omega]; exact h2
  · rfl

/-- **C314, the ends**: whatever the scale, its bands give neither the first nor the last coefficient of a frame any weight. -/
theorem C314_ends (ls bs : List (Band α)) (n : Nat) (hn : 0 < n) (hwide : ∀ b ∈ bs, (bandRun false ls b).1 + 2 ≤ min (bandRun false ls b).2 n) :
    total ls bs n 0 = 0 ∧ total ls bs n (n - 1) = 0 := by
  unfold total
  constructor
  · apply List.sum_eq_zero
    intro x hx
    obtain ⟨b, hb, rfl⟩ := List.mem_map.1 hx
    by_cases h : (bandRun false ls b).1 = 0
    · exact weight_end n _ (hwide b hb) 0 (Or.inl h.symm)
    · unfold weightAt
      rw [if_neg (by omega)]
  · apply List.sum_eq_zero
    intro x hx
    obtain ⟨b, hb, rfl⟩ := List.mem_map.1 hx
    have := hwide b hb
    by_cases h : n - 1 + 1 = min (bandRun false ls b).2 n
    · exact weight_end n _ (hwide b hb) _ (Or.inr h)
    · unfold weightAt
      rw [if_neg (by omega)]

variable [IsStrictOrderedRing α]

theorem synth_scaled (X : NumExt α) (ny : α) (hny : 0 < ny) (n : Nat) (hn : 2 ≤ n) (sf : Int) (hsf : 0 < sf) (td : Time.Dim)
    (htd : td.duration = (2 * (n - 1) : Nat) * sf) (rows : List (List ℂ)) (hne : rows ≠ []) (hrows : ∀ r ∈ rows, r.length = n)
    (scale : Scale α) (bs ls : List (Band α)) (hbs : ScaleOk X scale bs) (hbne : bs ≠ [])
    (hls : (Scale.linear ⟨0, ny⟩ n false).bands X = .ok ls) (hwide : ∀ b ∈ bs, (bandRun false ls b).1 + 2 ≤ min (bandRun false ls b).2 n) :
    ∃ fa, analyze X Spectral.irfft hanningC (.linear ⟨0, ny⟩ n false) rows scale = .ok fa ∧ fa.rows.length = rows.length ∧
      fftSynthesize X scale ny sf td fa = Spectral.fftSynthesize ⟨td, n, rows.map (scaled (total ls bs n))⟩ := by
  have hl : ∀ n, (WindowFunc.hanning n).length = n := WindowFunc.hanning_length
  obtain ⟨fa, res, h1, h2, h3, h4, h5⟩ := C60_fft X WindowFunc.hanning hl (.linear ⟨0, ny⟩ n false) (by intro b; simp) ls hls rows hne hrows scale bs hbs hbne hwide
  obtain ⟨fa', k1, k2, -⟩ := analyze_ok X _ _ _ _ 2 undone_fft hanningC (by intro n; simp [hanningC, hl]) (.linear ⟨0, ny⟩ n false) (by intro b; simp) ls hls n rows hne
    hrows scale bs hbs hbne (by intro b hb; have := hwide b hb; simp only [Scale.alwaysEven]; omega)
  have hfa : fa' = fa := by
    have := k1.symm.trans h1
    exact Except.ok.inj this
  subst hfa
  refine ⟨fa', k1, k2, ?_⟩
  have hres : res = rows.map (scaled (total ls bs n)) := by
    apply List.ext_getElem (by rw [h3, List.length_map])
    intro t a b
    have hb : t < rows.length := by rw [h3] at a; exact a
    have e1 : res.getD t [] = res[t] := by simp [List.getD_eq_getElem?_getD, a]
    have e2 : rows.getD t [] = rows[t] := by simp [List.getD_eq_getElem?_getD, hb]
    have l1 : (res[t]).length = n := h4 _ (List.getElem_mem a)
    have l2 : (rows[t]).length = n := hrows _ (List.getElem_mem hb)
    rw [List.getElem_map]
    apply getD_ext (by rw [l1]; simp [scaled, l2])
    intro k hk
    rw [l1] at hk
    have := h5 t hb k hk
    rw [e1, e2] at this
    rw [this, Scale.len, Scale.alwaysEven]
    unfold scaled
    rw [Spectral.getD_map_range _ _ _ _ (by rw [l2]; exact hk)]
    have hall : (bs.map fun b => (weightAt WindowFunc.hanning n (bandRun false ls b) k : ℂ) *
          if k = (bandRun false ls b).1 ∨ k + 1 = min (bandRun false ls b).2 n then
            ((((rows[t]).getD k 0).re : ℝ) : ℂ) else (rows[t]).getD k 0) =
        bs.map fun b => (weightAt WindowFunc.hanning n (bandRun false ls b) k : ℂ) * (rows[t]).getD k 0 := by
      apply List.map_congr_left
      intro b' hb'
      split
      · rename_i he
        rw [weight_end n _ (hwide b' hb') k he]
        simp
      · rfl
    rw [hall, List.sum_map_mul_right]
    have hsum : (bs.map fun b => (weightAt WindowFunc.hanning n (bandRun false ls b) k : ℂ)).sum = ((total ls bs n k : ℝ) : ℂ) :=
      sum_cast (fun b => weightAt WindowFunc.hanning n (bandRun false ls b) k) bs
    rw [hsum]
  unfold fftSynthesize
  have hq : (td.duration / sf).toNat / 2 + 1 = n := by
    rw [htd, Int.mul_ediv_cancel _ (by omega)]; simp; omega
  simp only [hq, Band.new, if_neg (not_le.2 hny), h2, hres]

/-- **C314, weighting**: however the samples of a sound arrive, the sound made from a frequency-adaptive graph's feature is the one `FFTSynthesizer` makes from the frames of the graph
with every coefficient multiplied by the weight the bands of the scale give it. -/
theorem C314_weighted (X : NumExt α) (ny : α) (hny : 0 < ny) (m : Nat) (hm : 0 < m) (f0 : Int) (hf0 : 0 < f0)
    (scale : Scale α) (bs ls : List (Band α)) (hbs : ScaleOk X scale bs) (hbne : bs ≠ [])
    (hls : (Scale.linear ⟨0, ny⟩ (m + 1) false).bands X = .ok ls) (hwide : ∀ b ∈ bs, (bandRun false ls b).1 + 2 ≤ min (bandRun false ls b).2 (m + 1))
    (chunks : List (List ℝ)) (last : List ℝ) :
    ∃ g, Stft.graphStft m (2 * m) 0 chunks last = .ok g ∧ g ≠ [] ∧
      viaAdaptive X scale ny f0 m (2 * m) chunks last =
        Spectral.fftSynthesize ⟨frameDim f0 m (2 * m) g.length, m + 1, g.map (scaled (total ls bs (m + 1)))⟩ := by
  obtain ⟨k, hk, hks, g, h1, h2, h3⟩ := Stft.graph_frames (2 * m) m (by omega) (by omega) (by omega) chunks last
  obtain ⟨hpos, -⟩ := frames_enough m _ k hm hk hks
  have hg : g ≠ [] := by rintro rfl; rw [List.length_nil] at h2; omega
  have hrow : ∀ r ∈ g, r.length = m + 1 := by
    intro r hr
    obtain ⟨i, hi, rfl⟩ := List.getElem_of_mem hr
    have hF := h3 i hi
    unfold Stft.FrameOf at hF
    obtain ⟨Y, e1, e2, -⟩ := Spectral.C54_fft_inverse m hm (List.zipWith (· * ·) (Stft.windowAt (chunks.flatten ++ last) m (2 * m) i) (WindowFunc.oggvorbis (2 * m)))
      (by simp [Stft.windowAt, WindowFunc.oggvorbis_length])
    rw [e1] at hF
    rw [← Except.ok.inj hF]
    exact e2
  refine ⟨g, h1, hg, ?_⟩
  obtain ⟨fa, e1, e2, e3⟩ := synth_scaled X ny hny (m + 1) (by omega) f0 hf0 (frameDim f0 m (2 * m) g.length)
    (by simp only [frameDim, Nat.add_sub_cancel]; push_cast; ring) g hg hrow scale bs ls hbs hbne hls hwide
  unfold viaAdaptive graphAdaptive
  rw [h1]
  simp only []
  rw [Nat.mul_div_cancel_left m (by omega), e1]
  simp only []
  rw [e2, e3]

/-! ## The time domain -/

/-- Specification: the mean of `2 m` numbers. -/
noncomputable def mean (m : Nat) (y : List ℝ) : ℝ := (∑ t ∈ Finset.range (2 * m), y.getD t 0) / (2 * m)

/-- Specification: the mean of `2 m` numbers of which every second has its sign changed: how much there is of the fastest oscillation. -/
noncomputable def altMean (m : Nat) (y : List ℝ) : ℝ := (∑ t ∈ Finset.range (2 * m), (-1) ^ t * y.getD t 0) / (2 * m)

/-- Specification: numbers without their mean and without their fastest oscillation. -/
noncomputable def centred (m : Nat) (y : List ℝ) : List ℝ := (List.range (2 * m)).map fun (t : Nat) => y.getD t 0 - mean m y - (-1) ^ t * altMean m y

omit [IsStrictOrderedRing α] [LinearOrder α] [Field α] in
/-- A frame without its first and last coefficient is the spectrum of the samples without their mean and their fastest oscillation. -/
theorem irfft_centred (m : Nat) (hm : 0 < m) (y : List ℝ) (hy : y.length = 2 * m) (W : Nat → ℝ) (h0 : W 0 = 0) (hl : W m = 0)
    (hone : ∀ k, 0 < k → k < m → W k = 1) :
    ∃ Y, Spectral.rfft y = .ok Y ∧ Y.length = m + 1 ∧ Spectral.irfft (scaled W Y) = .ok (centred m y) := by
  obtain ⟨Y, e1, e2, e3⟩ := Spectral.C54_fft_inverse m hm y hy
  refine ⟨Y, e1, e2, ?_⟩
  have hN : (0 : ℝ) < ((2 * m : ℕ) : ℝ) := by exact_mod_cast (by omega : 0 < 2 * m)
  have hsq : (1 / Real.sqrt ((2 * m : ℕ) : ℝ)) * (1 / Real.sqrt ((2 * m : ℕ) : ℝ)) = 1 / (2 * m) := by
    rw [div_mul_div_comm, one_mul, Real.mul_self_sqrt hN.le]
    push_cast
    rfl
  obtain ⟨c, hc⟩ : ∃ c, c = 1 / Real.sqrt ((2 * m : ℕ) : ℝ) := ⟨_, rfl⟩
  rw [← hc] at hsq
  have hyne : y ≠ [] := by rintro rfl; simp at hy; omega
  have hY : ∀ k, k < m + 1 → Y.getD k 0 = (c : ℂ) * ∑ t ∈ Finset.range (2 * m), (y.getD t 0 : ℂ) * Complex.exp (-2 * Real.pi * Complex.I * t * k / (2 * m : ℕ)) := by
    intro k hk
    unfold Spectral.rfft at e1
    rw [if_neg hyne, hy, ← hc] at e1
    rw [← Except.ok.inj e1, Spectral.getD_map_range _ _ _ _ (by omega)]
  have hY0 : (Y.getD 0 0).re = c * ∑ t ∈ Finset.range (2 * m), y.getD t 0 := by
    rw [hY 0 (by omega)]
    simp only [Nat.cast_zero, mul_zero, zero_div, Complex.exp_zero, mul_one]
    rw [← Complex.ofReal_sum, ← Complex.ofReal_mul, Complex.ofReal_re]
  have hYm : (Y.getD m 0).re = c * ∑ t ∈ Finset.range (2 * m), (-1) ^ t * y.getD t 0 := by
    rw [hY m (by omega)]
    have hexp : ∀ t : ℕ, Complex.exp (-2 * Real.pi * Complex.I * t * m / (2 * m : ℕ)) = (((-1) ^ t : ℝ) : ℂ) := by
      intro t
      have hm0 : (m : ℂ) ≠ 0 := by exact_mod_cast hm.ne'
      have : (-2 * Real.pi * Complex.I * t * m / ((2 * m : ℕ) : ℂ) : ℂ) = -((t : ℂ) * (Real.pi * Complex.I)) := by
        push_cast
        field_simp
      rw [this, Complex.exp_neg, Complex.exp_nat_mul, Complex.exp_pi_mul_I]
      push_cast
      rw [← inv_pow]
      norm_num
    rw [Finset.sum_congr rfl fun t _ => by rw [hexp t, ← Complex.ofReal_mul, mul_comm], ← Complex.ofReal_sum, ← Complex.ofReal_mul, Complex.ofReal_re]
  have hls : (scaled W Y).length = m + 1 := by simp [scaled, e2]
  have hs : ∀ k, k < m + 1 → (scaled W Y).getD k 0 = (W k : ℂ) * Y.getD k 0 := by
    intro k hk
    unfold scaled
    rw [Spectral.getD_map_range _ _ _ _ (by omega)]
  unfold Spectral.irfft at e3 ⊢
  rw [if_neg (by omega)] at e3
  rw [if_neg (by omega)]
  simp only [e2, hls, Nat.add_sub_cancel, ← hc] at e3 ⊢
  have e3' := Except.ok.inj e3
  congr 1
  unfold centred
  apply List.map_congr_left
  intro t ht
  have ht' : t < 2 * m := List.mem_range.1 ht
  have hyt : y.getD t 0 = c * ((Y.getD 0 0).re + (Y.getD m 0).re * (-1) ^ t +
      ∑ k ∈ Finset.range (m - 1), 2 * (Y.getD (k + 1) 0 * Complex.exp (2 * Real.pi * Complex.I * (k + 1) * t / (2 * m : ℕ))).re) := by
    conv_lhs => rw [← e3']
    rw [Spectral.getD_map_range _ _ _ _ ht']
  have hsum : ∑ k ∈ Finset.range (m - 1), 2 * ((scaled W Y).getD (k + 1) 0 * Complex.exp (2 * Real.pi * Complex.I * (k + 1) * t / (2 * m : ℕ))).re =
      ∑ k ∈ Finset.range (m - 1), 2 * (Y.getD (k + 1) 0 * Complex.exp (2 * Real.pi * Complex.I * (k + 1) * t / (2 * m : ℕ))).re := by
    apply Finset.sum_congr rfl
    intro k hk
    have := Finset.mem_range.1 hk
    rw [hs (k + 1) (by omega), hone (k + 1) (by omega) (by omega), Complex.ofReal_one, one_mul]
  rw [hsum, hs 0 (by omega), hs m (by omega), h0, hl]
  have hmean : mean m y = c * (Y.getD 0 0).re := by
    rw [hY0, ← mul_assoc, hsq]
    unfold mean
    ring
  have halt : altMean m y = c * (Y.getD m 0).re := by
    rw [hYm, ← mul_assoc, hsq]
    unfold altMean
    ring
  rw [hmean, halt, hyt]
  simp
  ring

/-- Specification: the `i`-th window of the sound, weighted. -/
noncomputable def weightedWindow (x : List ℝ) (m i : Nat) : List ℝ := (List.range (2 * m)).map fun (j : Nat) => (WindowFunc.oggvorbis (2 * m)).getD j 0 * x.getD (i * m + j) 0

/-- Specification: what the windows that sample `t` lies in lose of their mean and of their fastest oscillation, weighted once more. -/
noncomputable def lost (x : List ℝ) (m frames t : Nat) : ℝ := ∑ i ∈ Finset.range frames, if i * m ≤ t ∧ t < i * m + 2 * m then
  (WindowFunc.oggvorbis (2 * m)).getD (t - i * m) 0 * (mean m (weightedWindow x m i) + (-1) ^ (t - i * m) * altMean m (weightedWindow x m i)) else 0

/-- **C314, what is lost**: when the bands give all other coefficients the weight one, the sound that comes back is the one `FFTSynthesizer` would give back (the original times
`1 / oggMax²`) less the weighted means and fastest oscillations of the windows. -/
theorem C314_lost (X : NumExt α) (ny : α) (hny : 0 < ny) (m : Nat) (hm : 0 < m) (f0 : Int) (hf0 : 0 < f0)
    (scale : Scale α) (bs ls : List (Band α)) (hbs : ScaleOk X scale bs) (hbne : bs ≠ [])
    (hls : (Scale.linear ⟨0, ny⟩ (m + 1) false).bands X = .ok ls) (hwide : ∀ b ∈ bs, (bandRun false ls b).1 + 2 ≤ min (bandRun false ls b).2 (m + 1))
    (hone : ∀ k, 0 < k → k < m → total ls bs (m + 1) k = 1) (chunks : List (List ℝ)) (last : List ℝ) :
    ∃ out frames, viaAdaptive X scale ny f0 m (2 * m) chunks last = .ok out ∧ out.length = (frames + 1) * m ∧ (chunks.flatten ++ last).length ≤ out.length ∧
      ∀ t, m ≤ t → t < frames * m →
        out.getD t 0 = (1 / WindowFunc.oggMax (2 * m) ^ 2) * (chunks.flatten ++ last).getD t 0 - lost (chunks.flatten ++ last) m frames t := by
  obtain ⟨W, hW⟩ : ∃ W, W = total ls bs (m + 1) := ⟨_, rfl⟩
  obtain ⟨hw0, hwm⟩ := C314_ends ls bs (m + 1) (by omega) hwide
  rw [Nat.add_sub_cancel] at hwm
  obtain ⟨g, hg, hne, hvia⟩ := C314_weighted X ny hny m hm f0 hf0 scale bs ls hbs hbne hls hwide chunks last
  obtain ⟨k, hk, hks, hrun⟩ := Stft.run_frames (2 * m) m (by omega) (by omega) (by omega) chunks last
  obtain ⟨hpos, hlong⟩ := frames_enough m _ k hm hk hks
  generalize hn : k + Npx.nPad ((chunks.flatten ++ last).length - k * m) (2 * m) m = n at hpos hlong hrun
  obtain ⟨k', rfl⟩ : ∃ k', n = k' + 1 := ⟨n - 1, by omega⟩
  obtain ⟨x, hx⟩ : ∃ x, x = chunks.flatten ++ last := ⟨_, rfl⟩
  rw [← hx] at hlong ⊢
  rw [← hW] at hw0 hwm hone hvia
  choose Y y1 y2 y3 using fun i : ℕ => irfft_centred m hm (weightedWindow x m i) (by simp [weightedWindow]) W hw0 hwm hone
  have hgY : g = (List.range (k' + 1)).map Y := by
    unfold Stft.graphStft at hg
    rw [hrun] at hg
    simp only [] at hg
    unfold SlidingWindow.applyFunc at hg
    rw [List.map_map] at hg
    have := windows_eq m (k' + 1) x
    rw [hx] at this
    have hg' : (((List.range (k' + 1)).map fun i => List.zipWith (· * ·) (WindowFunc.oggvorbis (2 * m)) (Stft.windowAt (chunks.flatten ++ last) m (2 * m) i)).mapM
        fun r => Spectral.zfft r 0) = .ok g := hg
    rw [← this] at hg'
    have hok : ((List.range (k' + 1)).map fun i => weightedWindow x m i).mapM (fun r => Spectral.zfft r 0) = .ok ((List.range (k' + 1)).map Y) := by
      apply Spectral.mapM_ok (fun r => Spectral.zfft r 0) _ Y
      intro i _
      unfold Spectral.zfft
      simpa using y1 i
    unfold weightedWindow at hok
    rw [hx] at hok
    exact Except.ok.inj (hg'.symm.trans hok)
  rw [hvia, hgY]
  have hmap : ((List.range (k' + 1)).map Y).map (scaled W) = (List.range (k' + 1)).map fun i => scaled W (Y i) := by rw [List.map_map]; rfl
  unfold Spectral.fftSynthesize
  simp only [hmap, List.length_map, List.length_range, Nat.add_sub_cancel]
  rw [Spectral.mapM_ok Spectral.irfft (fun i => scaled W (Y i)) (fun i => centred m (weightedWindow x m i)) _ fun i _ => y3 i]
  simp only []
  obtain ⟨out0, a1, a2, a3⟩ := WindowFunc.C50_ogg_roundtrip (fun t => x.getD t 0) f0 m k' hf0 hm
  obtain ⟨outA, b1, b2, b3⟩ := Synth.C35_overlap_add (⟨Synth.windowsDim f0 (2 * m) m (k' + 1), 2 * m,
    ((List.range (k' + 1)).map fun i => weightedWindow x m i).map fun r => List.zipWith (· * ·) (WindowFunc.oggvorbis (2 * m)) r⟩ : Synth.Frames ℝ) f0 m k' hf0
    (by simp; omega) rfl (by intro r hr; simp only [List.map_map, List.mem_map] at hr; obtain ⟨i, _, rfl⟩ := hr; simp [weightedWindow, WindowFunc.oggvorbis_length])
  obtain ⟨outB, c1, c2, c3⟩ := Synth.C35_overlap_add (⟨Synth.windowsDim f0 (2 * m) m (k' + 1), 2 * m,
    ((List.range (k' + 1)).map fun i => centred m (weightedWindow x m i)).map fun r => List.zipWith (· * ·) (WindowFunc.oggvorbis (2 * m)) r⟩ : Synth.Frames ℝ) f0 m k' hf0
    (by simp; omega) rfl (by intro r hr; simp only [List.map_map, List.mem_map] at hr; obtain ⟨i, _, rfl⟩ := hr; simp [centred, WindowFunc.oggvorbis_length])
  have hAB : outA = out0 := by
    rw [Synth.C35_synthesis_window] at a1
    exact Except.ok.inj (b1.symm.trans a1)
  have e : (k' + 1 + 1) * m = k' * m + 2 * m := by ring
  refine ⟨outB, k' + 1, ?_, ?_, ?_, ?_⟩
  · rw [Synth.C35_synthesis_window]
    exact c1
  · rw [c2]; exact e.symm
  · rw [c2]
    simp only
    omega
  · intro t ht1 ht2
    have e2 : (k' + 1) * m = k' * m + m := by ring
    have htB : t < outB.length := by rw [c2]; simp only; omega
    have htA : t < outA.length := by rw [b2]; simp only; omega
    rw [← a3 t ht1 ht2, ← hAB, c3 t htB, b3 t htA]
    unfold Synth.overlapped lost
    simp only [List.length_map, List.length_range]
    rw [← Finset.sum_sub_distrib]
    apply Finset.sum_congr rfl
    intro i hi
    have hi' := Finset.mem_range.1 hi
    have r1 : (((List.range (k' + 1)).map fun i => weightedWindow x m i).map fun r => List.zipWith (· * ·) (WindowFunc.oggvorbis (2 * m)) r).getD i [] =
        List.zipWith (· * ·) (WindowFunc.oggvorbis (2 * m)) (weightedWindow x m i) := by
      rw [List.getD_eq_getElem?_getD]
      simp only [List.getElem?_map, List.getElem?_range hi', Option.map_some, Option.getD_some]
    have r2 : (((List.range (k' + 1)).map fun i => centred m (weightedWindow x m i)).map fun r => List.zipWith (· * ·) (WindowFunc.oggvorbis (2 * m)) r).getD i [] =
        List.zipWith (· * ·) (WindowFunc.oggvorbis (2 * m)) (centred m (weightedWindow x m i)) := by
      rw [List.getD_eq_getElem?_getD]
      simp only [List.getElem?_map, List.getElem?_range hi', Option.map_some, Option.getD_some]
    rw [r1, r2]
    by_cases h1 : i * m ≤ t
    · rw [if_pos h1, if_pos h1]
      by_cases h2 : t < i * m + 2 * m
      · rw [if_pos ⟨h1, h2⟩]
        have hj : t - i * m < 2 * m := by omega
        obtain ⟨j, hjd⟩ : ∃ j, j = t - i * m := ⟨_, rfl⟩
        rw [← hjd] at hj ⊢
        have z : ∀ v : List ℝ, v.length = 2 * m → (List.zipWith (· * ·) (WindowFunc.oggvorbis (2 * m)) v).getD j 0 = (WindowFunc.oggvorbis (2 * m)).getD j 0 * v.getD j 0 := by
          intro v hv
          rw [List.getD_eq_getElem _ _ (by simp [WindowFunc.oggvorbis_length, hv, hj]), List.getD_eq_getElem _ _ (by rw [WindowFunc.oggvorbis_length]; exact hj),
            List.getD_eq_getElem _ _ (by rw [hv]; exact hj), List.getElem_zipWith]
        rw [z (weightedWindow x m i) (by simp [weightedWindow]), z (centred m (weightedWindow x m i)) (by simp [centred])]
        have : (centred m (weightedWindow x m i)).getD j 0 = (weightedWindow x m i).getD j 0 - mean m (weightedWindow x m i) - (-1) ^ j * altMean m (weightedWindow x m i) := by
          unfold centred
          rw [Spectral.getD_map_range _ _ _ _ hj]
        rw [this]
        ring
      · rw [if_neg (by omega)]
        have z : ∀ v : List ℝ, (List.zipWith (· * ·) (WindowFunc.oggvorbis (2 * m)) v).getD (t - i * m) 0 = 0 := by
          intro v
          rw [List.getD_eq_getElem?_getD, List.getElem?_eq_none (by simp [WindowFunc.oggvorbis_length]; omega)]
          rfl
        rw [z, z]
        simp
    · rw [if_neg h1, if_neg h1, if_neg (by omega)]
      simp

/-! ## An example: windows of eight samples, three bands of three bins each -/

def threeBands : List (Band ℚ) := [⟨0, 60⟩, ⟨25, 75⟩, ⟨45, 95⟩]

theorem three_wide : ∀ b ∈ threeBands, (bandRun false fiveBands b).1 + 2 ≤ min (bandRun false fiveBands b).2 (4 + 1) := by decide +kernel

theorem three_total : ∀ k, 0 < k → k < 4 → total fiveBands threeBands (4 + 1) k = 1 := by
  have r1 : bandRun false fiveBands ⟨0, 60⟩ = (0, 3) := by decide +kernel
  have r2 : bandRun false fiveBands ⟨25, 75⟩ = (1, 4) := by decide +kernel
  have r3 : bandRun false fiveBands ⟨45, 95⟩ = (2, 5) := by decide +kernel
  have hh : WindowFunc.hanning 3 = [0, 1, 0] := by
    unfold WindowFunc.hanning
    simp [List.range_succ]
    refine ⟨by rw [show 2 * Real.pi / (3 - 1) = Real.pi by ring, Real.cos_pi]; norm_num, ?_⟩
    rw [show 2 * Real.pi * 2 / (3 - 1) = 2 * Real.pi by ring, Real.cos_two_pi]
    norm_num
  intro k h1 h2
  simp only [total, threeBands, List.map_cons, List.map_nil, List.sum_cons, List.sum_nil, r1, r2, r3, weightAt]
  have : k = 1 ∨ k = 2 ∨ k = 3 := by omega
  rcases this with rfl | rfl | rfl <;> simp [hh]

/-- A scale the node accepts when asked to check its overlap; a sound of thirteen samples that arrives in two pieces loses the means of its windows. -/
example : construct noExt (.explicit threeBands) true = .ok () ∧ ∃ out frames,
    viaAdaptive noExt (.explicit threeBands) 100 5000000 4 8 [[1, 2, 3, 4, 5, 6]] [7, 8, 9, 10, 11, 12, 13] = .ok out ∧ 13 ≤ out.length ∧ 4 < frames * 4 ∧
      out.getD 4 0 = (1 / WindowFunc.oggMax 8 ^ 2) * 5 - lost [1, 2, 3, 4, 5, 6, 7, 8, 9, 10, 11, 12, 13] 4 frames 4 := by
  refine ⟨by decide +kernel, ?_⟩
  obtain ⟨out, frames, h1, h2, h3, h4⟩ := C314_lost noExt (100 : ℚ) (by norm_num) 4 (by norm_num) 5000000 (by norm_num) (.explicit threeBands) threeBands fiveBands
    ⟨rfl, rfl, by decide +kernel⟩ (by simp [threeBands]) five_bands three_wide three_total [[1, 2, 3, 4, 5, 6]] [7, 8, 9, 10, 11, 12, 13]
  have h3' : 13 ≤ out.length := by simpa using h3
  refine ⟨out, frames, h1, h3', by omega, ?_⟩
  have := h4 4 (by norm_num) (by omega)
  simpa using this

/-- **C314, constant sounds**: what a constant sound loses is not nothing: the mean of its weighted windows is positive. -/
theorem C314_constant (m : Nat) (hm : 0 < m) (c : ℝ) (hc : 0 < c) (n i : Nat) (hi : i * m + 2 * m ≤ n) : 0 < mean m (weightedWindow (List.replicate n c) m i) := by
  unfold mean weightedWindow
  apply div_pos
  · apply Finset.sum_pos
    · intro t ht
      have ht' := Finset.mem_range.1 ht
      rw [Spectral.getD_map_range _ _ _ _ ht', List.getD_eq_getElem (List.replicate n c) _ (by simp; omega), List.getElem_replicate]
      apply mul_pos ?_ hc
      rw [List.getD_eq_getElem _ _ (by rw [WindowFunc.oggvorbis_length]; exact ht')]
      exact ((WindowFunc.C50_ogg_range (2 * m) (by omega)).1 _ (List.getElem_mem _)).1
    · exact ⟨0, Finset.mem_range.2 (by omega)⟩
  · have : (0 : ℝ) < m := by exact_mod_cast hm
    linarith

example := C314_ends fiveBands threeBands (4 + 1) (by norm_num) three_wide
example := C314_weighted noExt (100 : ℚ) (by norm_num) 4 (by norm_num) 5000000 (by norm_num) (.explicit threeBands) threeBands fiveBands
    ⟨rfl, rfl, by decide +kernel⟩ (by simp [threeBands]) five_bands three_wide [[1, 2, 3, 4, 5, 6]] [7, 8, 9, 10, 11, 12, 13]
example : 0 < mean 4 (weightedWindow (List.replicate 20 3) 4 2) := C314_constant 4 (by norm_num) 3 (by norm_num) 20 2 (by norm_num)

end Zounds.Adaptive
