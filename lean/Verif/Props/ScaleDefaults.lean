import Verif.Model.ScaleDefaults
import Verif.Props.ScaleApply
import Verif.Props.Psychoacoustics
import Verif.Props.Stretch

/-!
# `apply_scale` without a window (C303), chroma of a band in Hertz (C304)
-/

namespace Zounds.ScaleDefaults
open Zounds Zounds.Freq Zounds.Props.Frequency Zounds.ScaleApply

section
variable {α : Type} [Field α] [LinearOrder α]

theorem bareRow_spec (X : NumExt α) (other : Scale α) (hs : Sliceable other) (heven : other.alwaysEven = false)
    (obs : List (Band α)) (hb : other.bands X = .ok obs) (ho : Ordered obs) (hlen : other.len = obs.length) (b : Band α) :
    bareRow X other b = if ∃ o ∈ obs, touches b o = true then .error .typeError else .ok (List.replicate obs.length 0) := by
  have e : other.getSlice X (.band b) = .ok (.run (bisectLeft (obs.map Band.stop) b.start) (bisectLeft (obs.map Band.start) b.stop)) := by
    cases other with
    | chroma b => exact absurd rfl (hs b)
    | _ => simp only [Scale.getSlice, hb, bandRun, heven]; rfl
  obtain ⟨h1, h2, h3⟩ := run_spec obs ho b
  generalize bisectLeft (obs.map Band.stop) b.start = lo at *
  generalize bisectLeft (obs.map Band.start) b.stop = hi at *
  simp only [bareRow, e, hlen]
  have key : min hi obs.length - lo = 0 ↔ ¬ ∃ o ∈ obs, touches b o = true := by
    constructor
    · rintro h ⟨o, ho, ht⟩
      obtain ⟨i, hi', rfl⟩ := List.mem_iff_getElem.1 ho
      have := (h3 i hi').1 ht
      omega
    · intro h
      by_contra hc
      have hlt : lo < obs.length := by omega
      exact h ⟨obs[lo], List.getElem_mem hlt, (h3 lo hlt).2 (by omega)⟩
  by_cases hex : ∃ o ∈ obs, touches b o = true
  · rw [if_pos hex]
    exact if_neg (fun hc => (key.1 hc) hex)
  · rw [if_neg hex]
    exact if_pos (key.2 hex)

theorem sequence_bare {β : Type} (f : β → Except PyErr (List α)) (p : β → Prop) [DecidablePred p] (z : List α) (e : PyErr)
    (hf : ∀ x, f x = if p x then .error e else .ok z) (l : List β) :
    Freq.sequence (l.map f) = if ∃ x ∈ l, p x then .error e else .ok (List.replicate l.length z) := by
  induction l with
  | nil => simp [Freq.sequence]
  | cons x l ih =>
    simp only [List.map_cons, hf x]
    by_cases hx : p x
    · simp only [hx, if_true, Freq.sequence]
      rw [if_pos ⟨x, by simp, hx⟩]
    · simp only [hx, if_false, Freq.sequence, ih]
      by_cases hex : ∃ y ∈ l, p y
      · rw [if_pos hex]
        obtain ⟨y, hy, hp⟩ := hex
        rw [if_pos ⟨y, by simp [hy], hp⟩]
      · rw [if_neg hex]
        have : ¬ ∃ y ∈ x :: l, p y := by
          rintro ⟨y, hy, hp⟩
          rcases List.mem_cons.1 hy with rfl | hy
          · exact hx hp
          · exact hex ⟨y, hy, hp⟩
        rw [if_neg this]
        rfl

theorem dot_zeros (n : Nat) (r : List α) : dot (List.replicate n 0) r = 0 := by
  unfold dot
  apply List.sum_eq_zero
  intro x hx
  rw [List.mem_iff_getElem] at hx
  obtain ⟨i, hi, rfl⟩ := hx
  simp

/-- **C303** (no window): applying a scale without a window to a spectrum on an ordered scale is a TypeError as soon as one band of the scale touches
one of the spectrum's; otherwise every coefficient is zero. -/
theorem C303_no_window (X : NumExt α) (scale other : Scale α) (sbs : List (Band α)) (hsb : scale.bands X = .ok sbs)
    (hs : Sliceable other) (heven : other.alwaysEven = false) (obs : List (Band α)) (hb : other.bands X = .ok obs) (ho : Ordered obs)
    (hlen : other.len = obs.length) (rows : List (List α)) :
    ((∃ b ∈ sbs, ∃ o ∈ obs, touches b o = true) → applyBare X scale other rows = .error .typeError) ∧
    ((∀ b ∈ sbs, ∀ o ∈ obs, touches b o = false) → applyBare X scale other rows = .ok (rows.map fun _ => List.replicate sbs.length 0)) := by
  classical
  have hseq := sequence_bare (bareRow X other) (fun b => ∃ o ∈ obs, touches b o = true) (List.replicate obs.length (0 : α)) .typeError
    (fun b => by rw [bareRow_spec X other hs heven obs hb ho hlen b]) sbs
  constructor
  · intro h
    unfold applyBare
    rw [hsb]
    simp only [hseq, h, if_true]
  · intro h
    have hn : ¬ ∃ b ∈ sbs, ∃ o ∈ obs, touches b o = true := by
      rintro ⟨b, hb, o, ho, ht⟩
      rw [h b hb o ho] at ht
      cases ht
    unfold applyBare
    rw [hsb]
    simp only [hseq, hn, if_false, Except.ok.injEq]
    apply List.map_congr_left
    intro r _
    rw [List.map_replicate, dot_zeros]
end

/-- **C303** (`apply_scale`): in particular for `apply_scale(x, scale)`, as `window=None` is its default. -/
theorem C303_apply_scale (X : NumExt ℝ) (scale other : Scale ℝ) (sbs : List (Band ℝ)) (hsb : scale.bands X = .ok sbs)
    (hs : Sliceable other) (heven : other.alwaysEven = false) (obs : List (Band ℝ)) (hb : other.bands X = .ok obs) (ho : Ordered obs)
    (hlen : other.len = obs.length) (coeffs : List (List ℂ)) (b o : Band ℝ) (h1 : b ∈ sbs) (h2 : o ∈ obs) (ht : touches b o = true) :
    applyScaleBare X scale other coeffs = .error .typeError :=
  (C303_no_window X scale other sbs hsb hs heven obs hb ho hlen _).1 ⟨b, h1, o, h2, ht⟩

example : applyBare noExt (.linear ⟨0, 100⟩ 2 false : Scale ℚ) (.linear ⟨0, 100⟩ 4 false) [[1, 2, 3, 4]] = .error .typeError := by decide +kernel
example : applyBare noExt (.linear ⟨200, 300⟩ 2 false : Scale ℚ) (.linear ⟨0, 100⟩ 4 false) [[1, 2, 3, 4]] = .ok [[0, 0]] := by decide +kernel

/-! ## Chroma -/

theorem semitonesToHz_strictMono : StrictMono Psycho.semitonesToHz := by
  intro x y h
  unfold Psycho.semitonesToHz
  have h1 : (1 : ℝ) < (2 : ℝ) ^ ((1 : ℝ) / 12) := Real.one_lt_rpow (by norm_num) (by norm_num)
  have := Real.rpow_lt_rpow_of_exponent_lt h1 h
  linarith

/-- **C304** (a band from zero): the chroma of a band that starts at 0 Hz - the band of an audio sample rate, for one - is an OverflowError, that of a
band that starts below is a ValueError. -/
theorem C304_from_zero (X : NumExt ℝ) (band : Band ℝ) (other : Scale ℝ) (window : Nat → List ℝ) (rows : List (List ℝ)) :
    (band.start = 0 → chroma X band other window rows = .error .overflowError) ∧
    (band.start < 0 → chroma X band other window rows = .error .valueError) := by
  constructor
  · intro h
    simp only [chroma, semitone, h, if_true]
  · intro h
    simp only [chroma, semitone, h, if_true, if_neg h.ne]

/-- **C304** (what is counted): for a band above zero the chroma always exists; coefficient `c` adds up the windowed sums of the bands from tone `s` to tone
`s + 2`, for the semitones `s` leaving `c` on division by twelve, from one below the semitone nearest to the start of the band to three below the one nearest to its stop. -/
theorem C304_counted (X : NumExt ℝ) (band : Band ℝ) (h0 : 0 < band.start) (h1 : 0 < band.stop) (other : Scale ℝ) (hs : Sliceable other)
    (heven : other.alwaysEven = false) (obs : List (Band ℝ)) (hb : other.bands X = .ok obs) (ho : Ordered obs) (hlen : other.len = obs.length)
    (window : Nat → List ℝ) (hwin : ∀ k, (window k).length = k) (rows : List (List ℝ)) (hrows : ∀ r ∈ rows, r.length = obs.length) :
    ∃ start stop : ℤ, |Psycho.hzToSemitones band.start - start| ≤ 1 / 2 ∧ |Psycho.hzToSemitones band.stop - stop| ≤ 1 / 2 ∧
    ∃ out, chroma X band other window rows = .ok out ∧ out.length = rows.length ∧
      ∀ (t : Nat) (r : List ℝ), rows[t]? = some r → ∃ y, out[t]? = some y ∧ y.length = 12 ∧
        ∀ c : Nat, c < 12 → y[c]? = some (((chromaTones start stop).map fun s =>
          if s % 12 = (c : ℤ) then windowedSum window obs ⟨Psycho.semitonesToHz s, Psycho.semitonesToHz ((s + 2 : ℤ) : ℝ)⟩ r else 0).sum) := by
  refine ⟨Spectral.npRound (Psycho.hzToSemitones band.start), Spectral.npRound (Psycho.hzToSemitones band.stop), (Spectral.npRound_spec _).1,
    (Spectral.npRound_spec _).1, ?_⟩
  have e : chroma X band other window rows = applyChroma X other window (fun s : ℤ => Psycho.semitonesToHz s)
      (Spectral.npRound (Psycho.hzToSemitones band.start)) (Spectral.npRound (Psycho.hzToSemitones band.stop)) rows := by
    simp only [chroma, semitone, h0.ne', h1.ne', not_lt.2 h0.le, not_lt.2 h1.le, if_false]
  rw [e]
  exact C64_chroma X other hs heven obs hb ho hlen window hwin (fun s : ℤ => Psycho.semitonesToHz s)
    (fun s => semitonesToHz_strictMono (by push_cast; linarith)) _ _ rows hrows

/-- **C304** (refuted: the top of the band is not counted): the bands of all counted tones end half a semitone or more below the stop of the band (`stop` is
the semitone nearest to it), while the lowest may begin up to one and a half semitones below its start. -/
theorem C304_top_refuted (band : Band ℝ) (h0 : 0 < band.start) (h1 : 0 < band.stop) (start stop : ℤ)
    (hstart : |Psycho.hzToSemitones band.start - start| ≤ 1 / 2) (hstop : |Psycho.hzToSemitones band.stop - stop| ≤ 1 / 2) (s : ℤ)
    (hs : s ∈ chromaTones start stop) :
    Psycho.semitonesToHz ((s + 2 : ℤ) : ℝ) ≤ Psycho.semitonesToHz (Psycho.hzToSemitones band.stop - 1 / 2) ∧
    Psycho.semitonesToHz (Psycho.hzToSemitones band.stop - 1 / 2) < band.stop ∧
    Psycho.semitonesToHz (Psycho.hzToSemitones band.start - 3 / 2) ≤ Psycho.semitonesToHz s := by
  obtain ⟨ha, hb⟩ := (C64_chroma_tones start stop s).1 hs
  have ha' : (start : ℝ) - 1 ≤ s := by exact_mod_cast ha
  have hb' : (s : ℝ) ≤ (stop : ℝ) - 3 := by exact_mod_cast hb
  rw [abs_le] at hstart hstop
  refine ⟨semitonesToHz_strictMono.monotone (by push_cast; linarith [hstop.1]), ?_, semitonesToHz_strictMono.monotone (by linarith [hstart.2])⟩
  calc Psycho.semitonesToHz (Psycho.hzToSemitones band.stop - 1 / 2) < Psycho.semitonesToHz (Psycho.hzToSemitones band.stop) :=
        semitonesToHz_strictMono (by linarith)
    _ = band.stop := Props.Psycho.C48_semitones_right_inverse _ h1

/-- From A3 (220 Hz) to A5 (880 Hz): semitones -12 to 12, and the tones -13 to 9. -/
example : semitone 220 = .ok (-12) ∧ semitone 880 = .ok 12 ∧ (chromaTones (-12) 12).length = 23 := by
  have h220 : Psycho.hzToSemitones 220 = ((-12 : ℤ) : ℝ) := by
    have e : (220 : ℝ) = Psycho.semitonesToHz (((-12 : ℤ) : ℝ)) := by
      have := (Props.Psycho.C48_octave (-12)).1
      rw [show (-12 : ℝ) + 12 = 0 by norm_num, (Props.Psycho.C48_octave 0).2] at this
      push_cast
      linarith
    rw [e, Props.Psycho.C48_semitones_left_inverse]
  have h880 : Psycho.hzToSemitones 880 = ((12 : ℤ) : ℝ) := by
    have e : (880 : ℝ) = Psycho.semitonesToHz (((12 : ℤ) : ℝ)) := by
      have := (Props.Psycho.C48_octave 0).1
      rw [(Props.Psycho.C48_octave 0).2, zero_add] at this
      push_cast
      linarith
    rw [e, Props.Psycho.C48_semitones_left_inverse]
  have hr : ∀ z : ℤ, Spectral.npRound (z : ℝ) = z := by
    intro z
    simp [Spectral.npRound]
  refine ⟨?_, ?_, rfl⟩
  · unfold semitone
    rw [if_neg (by norm_num), if_neg (by norm_num), h220, hr]
  · unfold semitone
    rw [if_neg (by norm_num), if_neg (by norm_num), h880, hr]

example := C303_no_window noExt (.linear (⟨0, 100⟩ : Band ℚ) 2 false) (.linear ⟨0, 100⟩ 4 false) [⟨0, 50⟩, ⟨50, 100⟩] (by decide +kernel) (fun b h => nomatch h) rfl
  [⟨0, 25⟩, ⟨25, 50⟩, ⟨50, 75⟩, ⟨75, 100⟩] (by decide +kernel) four_ordered rfl [[1, 2, 3, 4]]

end Zounds.ScaleDefaults
