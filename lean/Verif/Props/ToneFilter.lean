import Verif.Model.ToneFilter
import Verif.Props.Filter
import Verif.Props.Bins

/-!
# C383: keeping a band of the spectrum keeps the tones in it
-/

namespace Zounds.ToneFilter
open Zounds Zounds.Arr Zounds.Freq
open _root_.Zounds.Bins (tone toneWindow fromSampleRate)
open _root_.Zounds.Props.Frequency (touches WF)
open _root_.Zounds.Filter (bandPass)
open Finset

/-! ## Specification -/

/-- A tone that completes `number` periods in the window. -/
structure Tone where
  number : ℕ
  amplitude : ℝ
  phase : ℝ

/-- Its frequency in hertz, for windows of `w` samples at `s` samples per second. -/
def Tone.hertz (c : Tone) (s : ℤ) (w : ℕ) : ℚ := c.number * s / w

/-- A window of `w` samples of all the tones of a list together. -/
noncomputable def sound (s : ℤ) (w : ℕ) (ts : List Tone) : List ℝ :=
  (List.range w).map fun t => (ts.map fun c => tone s (c.hertz s w : ℚ) c.amplitude c.phase t).sum

/-! ## The transform is linear -/

/-- A coefficient of the transform. -/
noncomputable def coef (w : ℕ) (x : ℕ → ℝ) (j : ℕ) : ℂ :=
  ((1 / Real.sqrt w : ℝ) : ℂ) * ∑ t ∈ range w, (x t : ℂ) * Complex.exp (-2 * Real.pi * Complex.I * t * j / w)

theorem coef_sum (w j : ℕ) (ts : List Tone) (f : Tone → ℕ → ℝ) :
    coef w (fun t => (ts.map fun c => f c t).sum) j = (ts.map fun c => coef w (f c) j).sum := by
  induction ts with
  | nil => simp [coef]
  | cons c ts ih =>
    rw [List.map_cons, List.sum_cons, ← ih]
    unfold coef
    rw [← mul_add, ← sum_add_distrib]
    congr 1
    apply sum_congr rfl
    intro t _
    simp only [List.map_cons, List.sum_cons]
    push_cast
    ring

theorem zfft_eq (w : ℕ) (hw : 0 < w) (x : ℕ → ℝ) :
    Spectral.zfft ((List.range w).map x) 0 = .ok ((List.range (w / 2 + 1)).map (coef w x)) := by
  unfold Spectral.zfft Spectral.rfft
  have hne : (List.range w).map x ≠ [] := by
    intro h
    have := congrArg List.length h
    simp at this
    omega
  rw [List.replicate_zero, List.append_nil, if_neg hne, List.length_map, List.length_range]
  congr 1
  apply List.map_congr_left
  intro j _
  unfold coef
  congr 1
  apply sum_congr rfl
  intro t ht
  rw [Spectral.getD_map_range _ _ _ _ (mem_range.1 ht)]

theorem coef_tone (s : ℤ) (hs : s ≠ 0) (w : ℕ) (hw : 0 < w) (c : Tone) (hc : 2 * c.number ≤ w) (j : ℕ) (hj : j < w / 2 + 1) (hne : j ≠ c.number) :
    coef w (tone s (c.hertz s w : ℚ) c.amplitude c.phase) j = 0 := by
  obtain ⟨X, h1, _, h3, _⟩ := Bins.rfft_tone s c.amplitude c.phase (by exact_mod_cast hs) w c.number hw hc
  unfold toneWindow at h1
  rw [zfft_eq w hw] at h1
  cases h1
  have := h3 j hne
  rw [Spectral.getD_map_range _ _ _ _ hj] at this
  rw [← this]
  congr 2
  unfold Tone.hertz
  push_cast
  rfl

/-- Leaving out the coefficients outside the band leaves the coefficients of the tones inside. -/
theorem coef_filter (s : ℤ) (hs : s ≠ 0) (w : ℕ) (hw : 0 < w) (keep : ℕ → Bool) (ts : List Tone) (hts : ∀ c ∈ ts, 2 * c.number ≤ w) (j : ℕ)
    (hj : j < w / 2 + 1) :
    ((ts.filter fun c => keep c.number).map fun c => coef w (tone s (c.hertz s w : ℚ) c.amplitude c.phase) j).sum =
      if keep j = true then (ts.map fun c => coef w (tone s (c.hertz s w : ℚ) c.amplitude c.phase) j).sum else 0 := by
  induction ts with
  | nil => simp
  | cons c ts ih =>
    have ih := ih fun c hc => hts c (List.mem_cons_of_mem _ hc)
    have h0 := hts c List.mem_cons_self
    rw [List.map_cons, List.sum_cons]
    by_cases hjc : j = c.number
    · subst hjc
      by_cases hk : keep c.number = true
      · rw [List.filter_cons_of_pos (by simpa using hk), List.map_cons, List.sum_cons, ih, if_pos hk, if_pos hk]
      · rw [List.filter_cons_of_neg (by simpa using hk), ih, if_neg hk, if_neg hk]
    · have hz := coef_tone s hs w hw c h0 j hj hjc
      by_cases hk : keep c.number = true
      · rw [List.filter_cons_of_pos (by simpa using hk), List.map_cons, List.sum_cons, ih, hz, zero_add, zero_add]
      · rw [List.filter_cons_of_neg (by simpa using hk), ih, hz, zero_add]

/-! ## Bands -/

/-- Every proper band that meets the scale touches one of its bands. -/
theorem some_touches (v : ℚ) (hv : 0 < v) (m : ℕ) (hm : 0 < m) (q : Band ℚ) (h1 : q.start < q.stop) (h2 : q.start ≤ v) (h3 : 0 < q.stop) :
    ∃ b ∈ (List.range m).map (part ⟨0, v⟩ m), touches q b = true := by
  by_contra hc
  have hc' : ∀ j, j < m → touches q (part ⟨0, v⟩ m j) = false := by
    intro j hj
    by_contra h
    exact hc ⟨_, List.mem_map.2 ⟨j, List.mem_range.2 hj, rfl⟩, by simpa using h⟩
  have hm' : (0 : ℚ) < m := by exact_mod_cast hm
  have key : ∀ j, j < m → (part ⟨0, v⟩ m j).start < q.stop := by
    intro j
    induction j with
    | zero =>
      intro _
      rw [Bins.part_start]
      simpa using h3
    | succ j ih =>
      intro hj
      have h4 := ih (by omega)
      have h5 := hc' j (by omega)
      unfold touches at h5
      simp only [Bool.and_eq_false_iff, decide_eq_false_iff_not] at h5
      rcases h5 with h5 | h5
      · rw [Bins.part_start]
        rw [Bins.part_stop] at h5
        push_cast
        linarith
      · exact absurd h4 h5
  have h4 := key (m - 1) (by omega)
  have h5 := hc' (m - 1) (by omega)
  unfold touches at h5
  simp only [Bool.and_eq_false_iff, decide_eq_false_iff_not] at h5
  rcases h5 with h5 | h5
  · rw [Bins.part_stop] at h5
    have : (((m - 1 : ℕ) : ℚ) + 1) = m := by exact_mod_cast (by omega : m - 1 + 1 = m)
    rw [this, mul_div_assoc, mul_div_cancel₀ _ hm'.ne'] at h5
    exact h5 h2
  · exact h5 h4

/-! ## C383 -/

/-- **C383, the tones whose bands touch**: analysing windows of sums of tones, keeping what touches a band, and going back, gives the same windows of
only the tones whose coefficient's band touches the band.  (`FrequencyBand`s are proper; the band meets the scale, otherwise filtering is a ValueError.) -/
theorem C383_touching (E : NumExt ℚ) (r : Time.SampleRate) (hs : 0 < r.nyquist) (h : ℕ) (hh : 0 < h) (m : Mem ℂ) (a : Awu (LibDim ℚ) Nat)
    (ha : Held m a) (n : ℕ) (d : LibDim ℚ) (sp : Spectrum a n d (fromSampleRate r (h + 1))) (ts : ℕ → List Tone)
    (hts : ∀ i < n, ∀ c ∈ ts i, c.number ≤ h) (hw : Holds m a n fun i => sound r.samplesPerSecond (2 * h) (ts i))
    (q : Band ℚ) (h1 : q.start < q.stop) (h2 : q.start ≤ r.nyquist) (h3 : 0 < q.stop) :
    ∃ m' f, bandPass (libOps E) 0 m a (.custom (.band q)) = .ok (m', f) ∧ f.shape = a.shape ∧ f.dims = a.dims ∧
      ∀ i < n, back m' f (h + 1) i = .ok (sound r.samplesPerSecond (2 * h) ((ts i).filter fun c =>
        decide (q.start ≤ ((c.number : ℚ) + 1) * r.nyquist / (h + 1)) && decide ((c.number : ℚ) * r.nyquist / (h + 1) < q.stop))) := by
  have hny : (0 : ℚ) < r.nyquist := by exact_mod_cast hs
  have hs0 : r.samplesPerSecond ≠ 0 := by
    intro hc
    unfold Time.SampleRate.nyquist at hs
    rw [hc] at hs
    simp at hs
  have hbs := Bins.bands_eq E r hs (h + 1) (by omega)
  obtain ⟨m', f, hf, hsh, hdim, _, hget, _⟩ := Filter.C359_linear E (0 : ℂ) m a ha n d ⟨0, (r.nyquist : ℚ)⟩ (h + 1) hny (by omega) sp _ hbs q
    (some_touches _ hny (h + 1) (by omega) q h1 h2 h3)
  refine ⟨m', f, hf, hsh, hdim, ?_⟩
  intro i hi
  obtain ⟨row, hrow, hval⟩ := hw i hi
  have hwpos : 0 < 2 * h := by omega
  have hhalf : 2 * h / 2 + 1 = h + 1 := by omega
  unfold sound at hrow
  rw [zfft_eq _ hwpos] at hrow
  cases hrow
  simp only [List.length_map, List.length_range] at hval
  rw [hhalf] at hval
  obtain ⟨keep, hkeep⟩ : ∃ keep : ℕ → Bool, keep = fun k : ℕ => decide (q.start ≤ ((k : ℚ) + 1) * r.nyquist / (h + 1)) &&
    decide ((k : ℚ) * r.nyquist / (h + 1) < q.stop) := ⟨_, rfl⟩
  have hcong : (fun c : Tone => decide (q.start ≤ ((c.number : ℚ) + 1) * r.nyquist / (h + 1)) &&
      decide ((c.number : ℚ) * r.nyquist / (h + 1) < q.stop)) = fun c => keep c.number := by rw [hkeep]
  rw [hcong]
  have htouch : ∀ j, touches q (part ⟨0, (r.nyquist : ℚ)⟩ (h + 1) j) = keep j := by
    intro j
    unfold touches
    rw [hkeep, Bins.part_start, Bins.part_stop]
    push_cast
    rfl
  unfold back
  have hrowf : ((List.range (h + 1)).map fun j => (m'.read f).get [i, j]) =
      (List.range (h + 1)).map (coef (2 * h) fun t => (((ts i).filter fun c => keep c.number).map fun c =>
        tone r.samplesPerSecond (c.hertz r.samplesPerSecond (2 * h) : ℚ) c.amplitude c.phase t).sum) := by
    apply List.map_congr_left
    intro j hj
    have hj' := List.mem_range.1 hj
    rw [coef_sum _ _ _ fun c t => tone r.samplesPerSecond (c.hertz r.samplesPerSecond (2 * h) : ℚ) c.amplitude c.phase t]
    rw [coef_filter _ hs0 _ hwpos keep (ts i) (fun c hc => by have := hts i hi c hc; omega) j (by omega)]
    rw [hget i j (part ⟨0, (r.nyquist : ℚ)⟩ (h + 1) j) hi (by rw [List.getElem?_map, List.getElem?_range hj']; rfl), htouch j]
    rw [hval j hj', Spectral.getD_map_range _ _ _ _ (by omega)]
    rw [coef_sum _ _ _ fun c t => tone r.samplesPerSecond (c.hertz r.samplesPerSecond (2 * h) : ℚ) c.amplitude c.phase t]
  rw [hrowf]
  obtain ⟨Y, hY, _, hback⟩ := Spectral.C54_fft_inverse h hh (sound r.samplesPerSecond (2 * h) ((ts i).filter fun c => keep c.number)) (by simp [sound])
  have hz := zfft_eq (2 * h) hwpos fun t => (((ts i).filter fun c => keep c.number).map fun c =>
        tone r.samplesPerSecond (c.hertz r.samplesPerSecond (2 * h) : ℚ) c.amplitude c.phase t).sum
  unfold Spectral.zfft at hz
  rw [List.replicate_zero, List.append_nil] at hz
  unfold sound at hY
  rw [hz] at hY
  cases hY
  rw [hhalf] at hback
  exact hback

/-- **C383, a band-pass filter**: at a rate of an even number of samples per second, if every tone's frequency is either in the band or at least a
bandwidth of the scale below or above it, what comes back is exactly the tones whose frequencies are in the band. -/
theorem C383_bandpass (E : NumExt ℚ) (r : Time.SampleRate) (v : ℕ) (hr : r.samplesPerSecond = 2 * v) (hv : 0 < v) (h : ℕ) (hh : 0 < h) (m : Mem ℂ)
    (a : Awu (LibDim ℚ) Nat) (ha : Held m a) (n : ℕ) (d : LibDim ℚ) (sp : Spectrum a n d (fromSampleRate r (h + 1))) (ts : ℕ → List Tone)
    (hts : ∀ i < n, ∀ c ∈ ts i, c.number ≤ h) (hw : Holds m a n fun i => sound r.samplesPerSecond (2 * h) (ts i))
    (q : Band ℚ) (h1 : q.start < q.stop) (h2 : q.start ≤ r.nyquist) (h3 : 0 < q.stop)
    (clear : ∀ i < n, ∀ c ∈ ts i, (q.start ≤ c.hertz r.samplesPerSecond (2 * h) ∧ c.hertz r.samplesPerSecond (2 * h) < q.stop) ∨
      c.hertz r.samplesPerSecond (2 * h) + r.nyquist / (h + 1) < q.start ∨ q.stop ≤ c.hertz r.samplesPerSecond (2 * h) - r.nyquist / (h + 1)) :
    ∃ m' f, bandPass (libOps E) 0 m a (.custom (.band q)) = .ok (m', f) ∧ f.shape = a.shape ∧ f.dims = a.dims ∧
      ∀ i < n, back m' f (h + 1) i = .ok (sound r.samplesPerSecond (2 * h) ((ts i).filter fun c =>
        decide (q.start ≤ c.hertz r.samplesPerSecond (2 * h)) && decide (c.hertz r.samplesPerSecond (2 * h) < q.stop))) := by
  have hny := Bins.nyq_even r v hr
  obtain ⟨m', f, hf, hsh, hdim, hback⟩ := C383_touching E r (by omega) h hh m a ha n d sp ts hts hw q h1 h2 h3
  refine ⟨m', f, hf, hsh, hdim, ?_⟩
  intro i hi
  rw [hback i hi]
  congr 2
  apply List.filter_congr
  intro c hc
  have hk := hts i hi c hc
  have hcl := clear i hi c hc
  have hh' : (0 : ℚ) < h := by exact_mod_cast hh
  have hv' : (0 : ℚ) < v := by exact_mod_cast hv
  have hk' : (c.number : ℚ) ≤ h := by exact_mod_cast hk
  have hk0 : (0 : ℚ) ≤ c.number := by positivity
  have hnq : ((r.nyquist : ℤ) : ℚ) = v := by rw [hny]; simp
  have hf' : c.hertz r.samplesPerSecond (2 * h) = c.number * v / h := by
    unfold Tone.hertz
    rw [hr]
    push_cast
    field_simp
  rw [hf'] at hcl ⊢
  rw [hnq] at hcl ⊢
  -- the frequency lies between the ends of the band
  have s1 : (c.number : ℚ) * v / (h + 1) ≤ c.number * v / h := by
    rw [div_le_div_iff₀ (by linarith) hh']
    nlinarith [mul_nonneg hk0 hv'.le]
  have s2 : (c.number : ℚ) * v / h ≤ (c.number + 1) * v / (h + 1) := by
    rw [div_le_div_iff₀ hh' (by linarith)]
    nlinarith [mul_le_mul_of_nonneg_right hk' hv'.le]
  have s3 : ((c.number : ℚ) + 1) * v / (h + 1) = c.number * v / (h + 1) + v / (h + 1) := by ring
  rcases hcl with ⟨c1, c2⟩ | c1 | c1
  · rw [decide_eq_true (by linarith), decide_eq_true (by linarith), decide_eq_true c1, decide_eq_true c2]
  · have hw0 : 0 < (v : ℚ) / (h + 1) := by positivity
    rw [decide_eq_false (p := q.start ≤ (c.number + 1) * v / (h + 1)) (by linarith), decide_eq_false (p := q.start ≤ c.number * v / h) (by linarith)]
    rfl
  · have hw0 : 0 < (v : ℚ) / (h + 1) := by positivity
    rw [decide_eq_false (p := (c.number : ℚ) * v / (h + 1) < q.stop) (by linarith), decide_eq_false (p := (c.number : ℚ) * v / h < q.stop) (by linarith)]
    rw [Bool.and_false, Bool.and_false]

/-! ## Example: 689 Hz and 17 kHz together, of which 600 to 800 Hz is kept -/

/-- 44100 samples per second. -/
def sr44 : Time.SampleRate := ⟨22675736, 22675736⟩

noncomputable def two : List Tone := [⟨16, 1, 0⟩, ⟨400, 1 / 2, 1⟩]

noncomputable def twoMem : Mem ℂ := ⟨coef (2 * 512) fun t => (two.map fun c => tone sr44.samplesPerSecond (c.hertz sr44.samplesPerSecond (2 * 512) : ℚ) c.amplitude c.phase t).sum, 513⟩

def twoHeld : Awu (LibDim ℚ) Nat := ⟨[1, 512 + 1], [.identity, .freq (fromSampleRate sr44 (512 + 1))], fun p => Nd.ravel [1, 512 + 1] p⟩

theorem twoHeld_held : Held twoMem twoHeld :=
  ⟨fun p hp => Nat.lt_of_lt_of_le (Nd.ravel_lt (shape := [1, 512 + 1]) hp) (by simp [twoMem, Nd.size]), fun p q hp hq he => by
    rw [← Nd.unravel_ravel (shape := [1, 512 + 1]) hp, ← Nd.unravel_ravel (shape := [1, 512 + 1]) hq]
    exact congrArg _ he⟩

theorem twoHolds : Holds twoMem twoHeld 1 fun _ => sound sr44.samplesPerSecond (2 * 512) two := by
  intro i hi
  have hi0 : i = 0 := by omega
  subst hi0
  refine ⟨_, zfft_eq (2 * 512) (by omega) _, ?_⟩
  intro j hj
  rw [List.length_map, List.length_range] at hj
  rw [Spectral.getD_map_range _ _ _ _ hj]
  show twoMem.cells (Nd.ravel [1, 512 + 1] [0, j]) = _
  have : Nd.ravel [1, 512 + 1] [0, j] = j := by simp [Nd.ravel, Nd.size]
  rw [this]
  rfl

/-- The 17 kHz tone is gone, the 689 Hz tone is as it was. -/
example : ∃ m' f, bandPass (libOps Props.Frequency.noExt) 0 twoMem twoHeld (.custom (.band ⟨600, 800⟩)) = .ok (m', f) ∧
    back m' f 513 0 = .ok (sound sr44.samplesPerSecond (2 * 512) [⟨16, 1, 0⟩]) := by
  have hsps : sr44.samplesPerSecond = 44100 := by decide
  have hny : sr44.nyquist = 22050 := by decide
  obtain ⟨m', f, h1, _, _, h2⟩ := C383_bandpass Props.Frequency.noExt sr44 22050 (by decide) (by decide) 512 (by decide) twoMem twoHeld twoHeld_held 1 .identity
    ⟨rfl, rfl, Or.inl rfl⟩ (fun _ => two) (by
      intro i _ c hc
      simp only [two, List.mem_cons, List.not_mem_nil, or_false] at hc
      rcases hc with rfl | rfl <;> norm_num) twoHolds ⟨600, 800⟩ (by norm_num) (by rw [hny]; norm_num) (by norm_num) (by
      intro i _ c hc
      simp only [two, List.mem_cons, List.not_mem_nil, or_false] at hc
      rcases hc with rfl | rfl
      · left
        rw [hsps]
        norm_num [Tone.hertz]
      · right
        right
        rw [hsps, hny]
        norm_num [Tone.hertz])
  refine ⟨m', f, h1, ?_⟩
  have hfil : (two.filter fun c => decide ((600 : ℚ) ≤ c.hertz 44100 (2 * 512)) && decide (c.hertz 44100 (2 * 512) < 800)) = [⟨16, 1, 0⟩] := by
    unfold two
    rw [List.filter_cons_of_pos (by norm_num [Tone.hertz]), List.filter_cons_of_neg (by norm_num [Tone.hertz]), List.filter_nil]
  have := h2 0 (by omega)
  rw [hsps] at this ⊢
  rw [this]
  exact congrArg (fun l => Except.ok (sound 44100 (2 * 512) l)) hfil

end Zounds.ToneFilter
