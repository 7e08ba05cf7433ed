import Verif.Model.Psychoacoustics
import Verif.Lemmas.Frequency
import Mathlib.Analysis.SpecialFunctions.Arsinh
import Mathlib.Tactic.Linarith
import Mathlib.Tactic.FieldSimp
import Mathlib.Tactic.NormNum
/-!
# Property C48: perceptual frequency scales
-/

namespace Zounds.Props.Psycho
open Zounds Zounds.Freq Zounds.Psycho

/-! ## Conversions -/

theorem barkToHz_eq (b : ℝ) : barkToHz b = 600 * Real.sinh (b / 6) := by
  unfold barkToHz
  rw [Real.sinh_eq, neg_div]
  ring

theorem hzToBark_eq (hz : ℝ) : hzToBark hz = 6 * Real.arsinh (hz / 600) := by
  unfold hzToBark Real.arsinh
  rw [add_comm ((hz / 600) ^ 2) 1]

/-- **C48.** Bark to hertz and back. -/
theorem C48_bark_left_inverse (b : ℝ) : hzToBark (barkToHz b) = b := by
  rw [hzToBark_eq, barkToHz_eq, mul_div_cancel_left₀ _ (by norm_num), Real.arsinh_sinh]
  ring

/-- **C48.** Hertz to Bark and back. -/
theorem C48_bark_right_inverse (hz : ℝ) : barkToHz (hzToBark hz) = hz := by
  rw [hzToBark_eq, barkToHz_eq, mul_div_cancel_left₀ _ (by norm_num), Real.sinh_arsinh]
  ring

/-- **C48.** The Bark conversion preserves order. -/
theorem C48_bark_strict_mono : StrictMono barkToHz := by
  intro a b h
  rw [barkToHz_eq, barkToHz_eq]
  have := Real.sinh_lt_sinh.2 (show a / 6 < b / 6 by linarith)
  linarith

/-- **C48.** -/
theorem C48_to_bark_strict_mono : StrictMono hzToBark := by
  intro a b h
  rw [hzToBark_eq, hzToBark_eq]
  have := Real.arsinh_lt_arsinh.2 (show a / 600 < b / 600 by linarith)
  linarith

/-- **C48.** Mel to hertz and back. -/
theorem C48_mel_left_inverse (m : ℝ) : hzToMel (melToHz m) = m := by
  unfold hzToMel melToHz
  rw [mul_div_cancel_left₀ _ (by norm_num), add_sub_cancel, Real.log_exp]
  ring

/-- **C48.** Hertz to Mel and back, for every frequency above -700 Hz. -/
theorem C48_mel_right_inverse (hz : ℝ) (h : -700 < hz) : melToHz (hzToMel hz) = hz := by
  unfold hzToMel melToHz
  rw [mul_div_cancel_left₀ _ (by norm_num), Real.exp_log (by linarith)]
  ring

example := C48_mel_right_inverse 440 (by norm_num)

/-- **C48.** The Mel conversion preserves order. -/
theorem C48_mel_strict_mono : StrictMono melToHz := by
  intro a b h
  unfold melToHz
  have := Real.exp_lt_exp.2 (show a / 1127 < b / 1127 by linarith)
  linarith

/-- **C48.** -/
theorem C48_to_mel_strict_mono (a b : ℝ) (ha : -700 < a) (h : a < b) : hzToMel a < hzToMel b := by
  unfold hzToMel
  have := Real.log_lt_log (show 0 < 1 + a / 700 by linarith) (show 1 + a / 700 < 1 + b / 700 by linarith)
  linarith

example := C48_to_mel_strict_mono 220 440 (by norm_num) (by norm_num)

/-- **C48.** The zero of both scales is 0 Hz. -/
theorem C48_zero : barkToHz 0 = 0 ∧ melToHz 0 = 0 := by
  constructor <;> simp [barkToHz, melToHz]

theorem semitone_base_log : Real.log ((2 : ℝ) ^ ((1 : ℝ) / 12)) = Real.log 2 / 12 := by
  rw [Real.log_rpow (by norm_num)]; ring

/-- **C48.** Semitones to hertz and back. -/
theorem C48_semitones_left_inverse (x : ℝ) : hzToSemitones (semitonesToHz x) = x := by
  have h2 : 0 < Real.log 2 := Real.log_pos (by norm_num)
  unfold hzToSemitones semitonesToHz
  rw [mul_div_cancel_left₀ _ (by norm_num), Real.log_rpow (by positivity), semitone_base_log]
  field_simp

/-- **C48.** Hertz to semitones and back, for positive frequencies. -/
theorem C48_semitones_right_inverse (hz : ℝ) (h : 0 < hz) : semitonesToHz (hzToSemitones hz) = hz := by
  have h2 : 0 < Real.log 2 := Real.log_pos (by norm_num)
  unfold hzToSemitones semitonesToHz
  rw [Real.rpow_def_of_pos (show (0:ℝ) < 2 ^ ((1 : ℝ) / 12) by positivity), semitone_base_log,
    mul_div_cancel₀ _ (by positivity), Real.exp_log (by positivity)]
  field_simp

example := C48_semitones_right_inverse 440 (by norm_num)

/-- **C48.** Twelve semitones are one octave, and zero semitones is concert pitch. -/
theorem C48_octave (x : ℝ) : semitonesToHz (x + 12) = 2 * semitonesToHz x ∧ semitonesToHz 0 = 440 := by
  constructor
  · unfold semitonesToHz
    rw [Real.rpow_add (by positivity), ← Real.rpow_mul (by norm_num : (0:ℝ) ≤ 2) ((1:ℝ)/12) 12]
    norm_num
    ring
  · simp [semitonesToHz]

/-! ## Scales -/

theorem sequence_map_ok {β γ : Type} (f : β → Except PyErr γ) (g : β → γ) (l : List β)
    (h : ∀ x ∈ l, f x = .ok (g x)) : Freq.sequence (l.map f) = .ok (l.map g) := by
  rw [sequence_ok, List.map_map]
  exact List.map_congr_left h

theorem linspace_length (a b : ℝ) (n : Nat) : (linspace a b n).length = n := by simp [linspace]

theorem linspace_get (a b : ℝ) (n k : Nat) (h : k < (linspace a b n).length) :
    (linspace a b n)[k] = a + k * ((b - a) / ((n : ℝ) - 1)) := by simp [linspace]

theorem linspace_first (a b : ℝ) (n : Nat) (h : 0 < (linspace a b n).length) : (linspace a b n)[0] = a := by
  rw [linspace_get]; simp

theorem linspace_last (a b : ℝ) (n : Nat) (hn : 2 ≤ n) (h : n - 1 < (linspace a b n).length) :
    (linspace a b n)[n - 1] = b := by
  rw [linspace_get]
  have h1 : ((n : ℝ) - 1) ≠ 0 := by
    have : (2 : ℝ) ≤ n := by exact_mod_cast hn
    linarith
  rw [Nat.cast_sub (by omega)]
  field_simp
  push_cast
  ring

theorem linspace_increasing (a b : ℝ) (n : Nat) (hab : a < b) : (linspace a b n).Pairwise (· < ·) := by
  rw [List.pairwise_iff_getElem]
  intro i j hi hj hij
  rw [linspace_get, linspace_get]
  rw [linspace_length] at hi hj
  have h1 : (0 : ℝ) < (n : ℝ) - 1 := by
    have : (2 : ℝ) ≤ n := by exact_mod_cast (by omega : 2 ≤ n)
    linarith
  have h2 : 0 < (b - a) / ((n : ℝ) - 1) := div_pos (by linarith) h1
  have h3 : (i : ℝ) < j := by exact_mod_cast hij
  have := mul_lt_mul_of_pos_right h3 h2
  linarith

/-- What a perceptual scale promises: `n` bands of equivalent rectangular bandwidth whose
centres increase from the lower to the upper end of the frequency band. -/
structure Perceptual (b : Band ℝ) (n : Nat) (bs : List (Band ℝ)) : Prop where
  count : bs.length = n
  first : ∀ h : 0 < bs.length, (bs[0]).center = b.start
  last : 2 ≤ n → ∀ h : n - 1 < bs.length, (bs[n - 1]).center = b.stop
  increasing : (bs.map Band.center).Pairwise (· < ·)
  width : ∀ x ∈ bs, x.bandwidth = 108 / 1000 * x.center + 247 / 10
  wellFormed : ∀ x ∈ bs, x.start < x.stop

/-- The construction shared by the two scales. -/
theorem perceptual_of (toP toHz : ℝ → ℝ) (hinv : ∀ x, -200 < x → toHz (toP x) = x)
    (hmono : StrictMono toHz) (hmonoP : ∀ a b, -200 < a → a < b → toP a < toP b)
    (b : Band ℝ) (n : Nat) (hb : b.start < b.stop) (h0 : -200 < b.start) :
    ∃ bs, Freq.sequence (((linspace (toP b.start) (toP b.stop) n).map toHz).map fun c => Band.fromCenter c (erb c)) = .ok bs ∧
      Perceptual b n bs := by
  have hP := hmonoP _ _ h0 hb
  have hge : ∀ c ∈ (linspace (toP b.start) (toP b.stop) n).map toHz, b.start ≤ c := by
    intro c hc
    obtain ⟨p, hp, rfl⟩ := List.mem_map.1 hc
    obtain ⟨k, hk, rfl⟩ := List.mem_iff_getElem.1 hp
    rw [linspace_get]
    rw [linspace_length] at hk
    rw [← hinv b.start h0]
    apply hmono.monotone
    rcases Nat.lt_or_ge 1 n with h1 | h1
    · have hn1 : (0 : ℝ) < (n : ℝ) - 1 := by
        have : (2 : ℝ) ≤ n := by exact_mod_cast (by omega : 2 ≤ n)
        linarith
      rw [hinv b.start h0]
      have : 0 ≤ (k : ℝ) * ((toP b.stop - toP b.start) / ((n : ℝ) - 1)) :=
        mul_nonneg (Nat.cast_nonneg k) (div_nonneg (by linarith) hn1.le)
      linarith
    · have : k = 0 := by omega
      subst this
      rw [hinv b.start h0]; simp
  refine ⟨_, sequence_map_ok _ (fun c => (⟨c - erb c / 2, c + erb c / 2⟩ : Band ℝ)) _ ?_, ?_⟩
  · intro c hc
    have := hge c hc
    unfold Band.fromCenter Band.new
    rw [if_neg]
    simp only [erb]
    linarith
  · have hc : ∀ c : ℝ, (⟨c - erb c / 2, c + erb c / 2⟩ : Band ℝ).center = c := by
      intro c; simp only [Band.center, Band.bandwidth]; ring
    refine ⟨by simp [linspace_length], ?_, ?_, ?_, ?_, ?_⟩
    · intro h
      simp only [List.getElem_map, hc, linspace_first, hinv _ h0]
    · intro hn h
      simp only [List.getElem_map, hc, linspace_last _ _ _ hn, hinv _ (h0.trans hb)]
    · rw [List.map_map]
      have : (Band.center ∘ fun c => (⟨c - erb c / 2, c + erb c / 2⟩ : Band ℝ)) = id := by
        funext c; exact hc c
      rw [this, List.map_id, List.pairwise_map]
      exact (linspace_increasing _ _ n hP).imp fun h => hmono h
    · intro x hx
      obtain ⟨c, _, rfl⟩ := List.mem_map.1 hx
      rw [hc]
      simp only [Band.bandwidth, erb]
      ring
    · intro x hx
      obtain ⟨c, hcm, rfl⟩ := List.mem_map.1 hx
      have := hge c hcm
      simp only [erb]
      linarith

/-- **C48.** A `BarkScale` on a band that starts at 0 Hz or above (indeed above -200 Hz). -/
theorem C48_bark_scale (b : Band ℝ) (n : Nat) (hb : b.start < b.stop) (h0 : -200 < b.start) :
    ∃ bs, (Scale.bark b n).bands realExt = .ok bs ∧ Perceptual b n bs :=
  perceptual_of hzToBark barkToHz (fun x _ => C48_bark_right_inverse x) C48_bark_strict_mono
    (fun _ _ _ h => C48_to_bark_strict_mono h) b n hb h0

example := C48_bark_scale ⟨20, 20000⟩ 64 (by norm_num) (by norm_num)

/-- **C48.** A `MelScale`. -/
theorem C48_mel_scale (b : Band ℝ) (n : Nat) (hb : b.start < b.stop) (h0 : -200 < b.start) :
    ∃ bs, (Scale.mel b n).bands realExt = .ok bs ∧ Perceptual b n bs :=
  perceptual_of hzToMel melToHz (fun x hx => C48_mel_right_inverse x (by linarith)) C48_mel_strict_mono
    (fun a b ha h => C48_to_mel_strict_mono a b (by linarith) h) b n hb h0

example := C48_mel_scale ⟨20, 20000⟩ 64 (by norm_num) (by norm_num)

/-- **C48, refuted.** The bands of a perceptual scale do not stay inside the scale's own
frequency band: whenever it has two bands and starts at 0 Hz or above, the first sticks
out below and the last above. -/
theorem C48_bands_inside_fails (b : Band ℝ) (n : Nat) (bs : List (Band ℝ)) (h : Perceptual b n bs) (hn : 2 ≤ n)
    (h0 : 0 ≤ b.start) (hb : b.start < b.stop) (h1 : 0 < bs.length) (h2 : n - 1 < bs.length) :
    (bs[0]).start < b.start ∧ b.stop < (bs[n - 1]).stop := by
  have f := h.first h1
  have l := h.last hn h2
  have wf := h.width _ (List.getElem_mem h1)
  have wl := h.width _ (List.getElem_mem h2)
  simp only [Band.center, Band.bandwidth] at f l wf wl
  constructor <;> linarith

example : ∃ bs, (Scale.mel (⟨20, 20000⟩ : Band ℝ) 64).bands realExt = .ok bs ∧ ∀ (h1 : 0 < bs.length) (h2 : 63 < bs.length), (bs[0]).start < 20 ∧ 20000 < (bs[63]).stop := by
  obtain ⟨bs, h, hp⟩ := C48_mel_scale ⟨20, 20000⟩ 64 (by norm_num) (by norm_num)
  exact ⟨bs, h, fun h1 h2 => C48_bands_inside_fails ⟨20, 20000⟩ 64 bs hp (by norm_num) (by norm_num) (by norm_num) h1 h2⟩

/-- The full slice `scale[:]` of a scale. -/
def fullSlice : Index ℝ := .slice .none .none

theorem getScale_full_bark (b : Band ℝ) (n : Nat) (bs : List (Band ℝ)) (f l : Band ℝ)
    (hbs : (Scale.bark b n).bands realExt = .ok bs)
    (hf : bs.head? = some f) (hl : bs.getLast? = some l) (hfl : f.start < l.stop) :
    (Scale.bark b n).getScale realExt fullSlice = .ok (.bark ⟨f.start, l.stop⟩ bs.length) := by
  unfold Scale.getScale
  rw [hbs]
  have hsl : pySlice bs (0 : Int) (bs.length : Int) = bs := by
    rw [pySlice]; unfold pyBound; rw [if_neg (by omega), if_neg (by omega)]; simp
  simp only [fullSlice, sliceList, Bnd.asInt, Option.getD_none, hsl, Scale.fromSlice, spanOf, hf, hl,
    Band.new, if_neg (not_le.2 hfl)]

theorem getScale_full_mel (b : Band ℝ) (n : Nat) (bs : List (Band ℝ)) (f l : Band ℝ)
    (hbs : (Scale.mel b n).bands realExt = .ok bs)
    (hf : bs.head? = some f) (hl : bs.getLast? = some l) (hfl : f.start < l.stop) :
    (Scale.mel b n).getScale realExt fullSlice = .ok (.mel ⟨f.start, l.stop⟩ bs.length) := by
  unfold Scale.getScale
  rw [hbs]
  have hsl : pySlice bs (0 : Int) (bs.length : Int) = bs := by
    rw [pySlice]; unfold pyBound; rw [if_neg (by omega), if_neg (by omega)]; simp
  simp only [fullSlice, sliceList, Bnd.asInt, Option.getD_none, hsl, Scale.fromSlice, spanOf, hf, hl,
    Band.new, if_neg (not_le.2 hfl)]

/-- **C48, refuted.** Even the full slice `scale[:]` of a `BarkScale` or `MelScale` with at
least two bands is a different scale: its first centre frequency has moved down. -/
theorem C48_full_slice_fails (b : Band ℝ) (n : Nat) (hn : 2 ≤ n) (h0 : 0 ≤ b.start) (hb : b.start < b.stop)
    (mk : Band ℝ → Nat → Scale ℝ) (hmk : mk = Scale.bark ∨ mk = Scale.mel) :
    ∃ bs s' bs', (mk b n).bands realExt = .ok bs ∧ (mk b n).getScale realExt fullSlice = .ok s' ∧
      s'.bands realExt = .ok bs' ∧ ∃ (h : 0 < bs.length) (h' : 0 < bs'.length),
      (bs'[0]).center < (bs[0]).center := by
  have key : ∀ (mk : Band ℝ → Nat → Scale ℝ),
      (∀ (b : Band ℝ) (n : Nat), b.start < b.stop → -200 < b.start →
        ∃ bs, (mk b n).bands realExt = .ok bs ∧ Perceptual b n bs) →
      (∀ (b : Band ℝ) (n : Nat) (bs : List (Band ℝ)) (f l : Band ℝ), (mk b n).bands realExt = .ok bs →
        bs.head? = some f → bs.getLast? = some l → f.start < l.stop →
        (mk b n).getScale realExt fullSlice = .ok (mk ⟨f.start, l.stop⟩ bs.length)) →
      ∃ bs s' bs', (mk b n).bands realExt = .ok bs ∧ (mk b n).getScale realExt fullSlice = .ok s' ∧
        s'.bands realExt = .ok bs' ∧ ∃ (h : 0 < bs.length) (h' : 0 < bs'.length),
        (bs'[0]).center < (bs[0]).center := by
    intro mk hsc hget
    obtain ⟨bs, h1, hp⟩ := hsc b n hb (by linarith)
    have hlen : 0 < bs.length := by rw [hp.count]; omega
    have hlast : n - 1 < bs.length := by rw [hp.count]; omega
    obtain ⟨hin1, hin2⟩ := C48_bands_inside_fails b n bs hp hn h0 hb hlen hlast
    have hf : bs.head? = some bs[0] := by rw [List.head?_eq_getElem?, List.getElem?_eq_getElem hlen]
    have hl : bs.getLast? = some bs[n - 1] := by
      rw [List.getLast?_eq_getElem?, hp.count, List.getElem?_eq_getElem hlast]
    have hfl : (bs[0]).start < (bs[n - 1]).stop := by linarith
    have hg := hget b n bs _ _ h1 hf hl hfl
    have hw := hp.width _ (List.getElem_mem hlen)
    have hc := hp.first hlen
    have hstart : (bs[0]).start = b.start - (108 / 1000 * b.start + 247 / 10) / 2 := by
      rw [hc] at hw
      simp only [Band.center, Band.bandwidth] at hc hw
      linarith
    obtain ⟨bs', h2, hp'⟩ := hsc ⟨(bs[0]).start, (bs[n - 1]).stop⟩ bs.length hfl (by
      show -200 < (bs[0]).start
      rw [hstart]; linarith)
    have hlen' : 0 < bs'.length := by rw [hp'.count]; exact hlen
    refine ⟨bs, _, bs', h1, hg, h2, hlen, hlen', ?_⟩
    rw [hp'.first hlen', hc]
    exact hin1
  rcases hmk with rfl | rfl
  · exact key Scale.bark C48_bark_scale getScale_full_bark
  · exact key Scale.mel C48_mel_scale getScale_full_mel

example := C48_full_slice_fails ⟨20, 20000⟩ 64 (by norm_num) (by norm_num) (by norm_num) Scale.bark (Or.inl rfl)

theorem geomspace_get (a b : ℝ) (n k : Nat) (h : k < (geomspace a b n).length) :
    (geomspace a b n)[k] = a * (b / a) ^ ((k : ℝ) / ((n : ℝ) - 1)) := by simp [geomspace]

/-- **C48.** A `GeometricScale` between positive centre frequencies, with positive
bandwidth ratio: `n` bands, constant Q, the first and last centres as requested, and a
constant factor between consecutive centres. -/
theorem C48_geometric_scale (s e r : ℝ) (n : Nat) (even : Bool) (hs : 0 < s) (he : 0 < e) (hr : 0 < r) :
    ∃ bs, (Scale.geometric s e r n even).bands realExt = .ok bs ∧ bs.length = n ∧
      (∀ x ∈ bs, 0 < x.center ∧ x.center / x.bandwidth = 1 / r) ∧
      (∀ h : 0 < bs.length, (bs[0]).center = s) ∧
      (2 ≤ n → ∀ h : n - 1 < bs.length, (bs[n - 1]).center = e) ∧
      (2 ≤ n → ∀ i (h : i + 1 < bs.length),
        (bs[i + 1]).center = (bs[i]).center * (e / s) ^ ((1 : ℝ) / ((n : ℝ) - 1))) := by
  have hpos : ∀ c ∈ geomspace s e n, 0 < c := by
    intro c hc
    obtain ⟨k, _, rfl⟩ := List.mem_map.1 hc
    positivity
  have hcen : ∀ c : ℝ, (⟨c - c * r / 2, c + c * r / 2⟩ : Band ℝ).center = c := by
    intro c; simp only [Band.center, Band.bandwidth]; ring
  refine ⟨(geomspace s e n).map fun c => ⟨c - c * r / 2, c + c * r / 2⟩, ?_, ?_, ?_, ?_, ?_, ?_⟩
  · show geometricBands realExt s e r n = _
    unfold geometricBands
    refine sequence_map_ok _ _ _ ?_
    intro c hc
    have := mul_pos (hpos c hc) hr
    unfold Band.fromCenter Band.new
    rw [if_neg]
    linarith
  · simp [geomspace]
  · intro x hx
    obtain ⟨c, hc, rfl⟩ := List.mem_map.1 hx
    have hcp := hpos c hc
    rw [hcen]
    refine ⟨hcp, ?_⟩
    simp only [Band.bandwidth]
    rw [show c + c * r / 2 - (c - c * r / 2) = c * r by ring]
    field_simp
  · intro h
    simp only [List.getElem_map, hcen, geomspace_get]
    simp
  · intro hn h
    simp only [List.getElem_map, hcen, geomspace_get]
    have h1 : ((n : ℝ) - 1) ≠ 0 := by
      have : (2 : ℝ) ≤ n := by exact_mod_cast hn
      linarith
    rw [Nat.cast_sub (by omega), Nat.cast_one, div_self h1, Real.rpow_one, mul_div_cancel₀ _ hs.ne']
  · intro hn i h
    simp only [List.getElem_map, hcen, geomspace_get]
    rw [mul_assoc, ← Real.rpow_add (by positivity)]
    congr 2
    push_cast
    ring

example := C48_geometric_scale 20 5000 (1 / 10) 64 false (by norm_num) (by norm_num) (by norm_num)

example : ∃ b : Band ℝ, b.start < b.stop ∧ 0 ≤ b.start := ⟨⟨20, 20000⟩, by norm_num⟩

end Zounds.Props.Psycho
