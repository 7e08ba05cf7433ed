import Verif.Props.Float64

/-!
# C322, C323: the lengths of synthesized sounds in double precision
-/

namespace Zounds.Float64
open Zounds Zounds.Time

theorem fl64_nat (n : ℤ) (h0 : 0 ≤ n) (h : n ≤ 2 ^ 53) : fl64 n = n := fl64_int n (by rw [abs_of_nonneg h0]; exact h)

theorem floor12 (a b : ℤ) : ⌊(a * b / 10 ^ 12 : ℚ)⌋ = a * b / 10 ^ 12 := by
  have := Rat.floor_intCast_div_natCast (a * b) (10 ^ 12)
  rw [show (10 ^ 12 : ℚ) = 1000000000000 by norm_num]
  simpa using this

theorem ceil12 (a b : ℤ) : ⌈(a * b / 10 ^ 12 : ℚ)⌉ = -((-(b * a)) / 10 ^ 12) := by
  have := Rat.ceil_intCast_div_natCast (a * b) (10 ^ 12)
  rw [mul_comm b a, show (10 ^ 12 : ℚ) = 1000000000000 by norm_num]
  simpa using this

/-- The product of the rate and the seconds, twice rounded. -/
theorem tone_error (sr d : ℤ) (h0 : 0 ≤ sr) (h1 : sr ≤ 2 ^ 53) (d0 : 0 ≤ d) (d1 : d ≤ 2 ^ 53) :
    |fl64 (fl64 sr * quot d (10 ^ 12)) - (sr * d / 10 ^ 12 : ℚ)| ≤ (sr * d / 10 ^ 12 : ℚ) * (3 / 2 ^ 53) ∧ 0 ≤ fl64 (fl64 sr * quot d (10 ^ 12)) := by
  rw [fl64_nat sr h0 h1, quot_eq d _ (by rw [abs_of_nonneg d0]; exact d1) (by norm_num)]
  have hs : (0 : ℚ) ≤ sr := by exact_mod_cast h0
  have hd : (0 : ℚ) ≤ d := by exact_mod_cast d0
  rw [show ((10 ^ 12 : ℤ) : ℚ) = 10 ^ 12 by norm_num]
  obtain ⟨a1, a2⟩ := fl64_bounds ((d : ℚ) / 10 ^ 12) (by positivity)
  obtain ⟨q, hq⟩ : ∃ q, q = fl64 ((d : ℚ) / 10 ^ 12) := ⟨_, rfl⟩
  rw [← hq] at a1 a2 ⊢
  have q0 : 0 ≤ q := by rw [hq]; exact fl64_nonneg _ (by positivity)
  have hsq : 0 ≤ (sr : ℚ) * q := by positivity
  refine ⟨?_, fl64_nonneg _ hsq⟩
  obtain ⟨b1, b2⟩ := fl64_bounds ((sr : ℚ) * q) hsq
  obtain ⟨x, hx⟩ : ∃ x, x = (sr * d / 10 ^ 12 : ℚ) := ⟨_, rfl⟩
  have x0 : 0 ≤ x := by rw [hx]; positivity
  have c1 : x * (1 - 1 / 2 ^ 53) ≤ sr * q := by
    have := mul_le_mul_of_nonneg_left a1 hs
    rw [hx]; linarith
  have c2 : sr * q ≤ x * (1 + 1 / 2 ^ 53) := by
    have := mul_le_mul_of_nonneg_left a2 hs
    rw [hx]; linarith
  rw [← hx, abs_le]
  constructor <;> nlinarith

/-- Durations of whole seconds give exactly the samples they should. -/
theorem C322_seconds (sr s : ℤ) (h0 : 0 ≤ sr) (h1 : sr ≤ 2 ^ 53) (s0 : 0 ≤ s) (s1 : s * 10 ^ 12 ≤ 2 ^ 53) (hp : sr * s ≤ 2 ^ 53) :
    toneCount sr (s * 10 ^ 12) = sr * s := by
  unfold toneCount
  rw [fl64_nat sr h0 h1, quot_eq _ _ (by rw [abs_of_nonneg (by omega)]; exact s1) (by norm_num)]
  have e : ((s * 10 ^ 12 : ℤ) : ℚ) / ((10 ^ 12 : ℤ) : ℚ) = s := by push_cast; field_simp
  rw [e, fl64_nat s s0 (by omega), show (sr : ℚ) * s = ((sr * s : ℤ) : ℚ) by push_cast; ring, fl64_nat _ (by positivity) hp]
  unfold trunc
  have : (0 : ℚ) ≤ ((sr * s : ℤ) : ℚ) := by exact_mod_cast (by positivity : (0 : ℤ) ≤ sr * s)
  rw [if_neg (not_lt.2 this), Int.floor_intCast]

example : toneCount 44100 (60 * 10 ^ 12) = 44100 * 60 := C322_seconds 44100 60 (by norm_num) (by norm_num) (by norm_num) (by norm_num) (by norm_num)

/-- Other durations give at most one sample too many or too few. -/
theorem C322_within_one (sr d : ℤ) (h0 : 0 ≤ sr) (h1 : sr ≤ 2 ^ 53) (d0 : 0 ≤ d) (d1 : d ≤ 2 ^ 53) (hp : sr * d ≤ 2 ^ 50 * 10 ^ 12) :
    |toneCount sr d - Tones.sampleCount sr d| ≤ 1 := by
  obtain ⟨e1, e2⟩ := tone_error sr d h0 h1 d0 d1
  have e1' := abs_le.1 e1
  have hx : (sr * d / 10 ^ 12 : ℚ) ≤ 2 ^ 50 := by
    rw [div_le_iff₀ (by norm_num)]
    have : ((sr * d : ℤ) : ℚ) ≤ ((2 ^ 50 * 10 ^ 12 : ℤ) : ℚ) := by exact_mod_cast hp
    push_cast at this; linarith
  have hfl : Tones.sampleCount sr d = ⌊(sr * d / 10 ^ 12 : ℚ)⌋ := by
    unfold Tones.sampleCount
    rw [Int.tdiv_eq_ediv_of_nonneg (by positivity), floor12]
  unfold toneCount trunc
  rw [if_neg (not_lt.2 e2), hfl]
  obtain ⟨y, hy⟩ : ∃ y, y = fl64 (fl64 sr * quot d (10 ^ 12)) := ⟨_, rfl⟩
  obtain ⟨x, hxx⟩ : ∃ x, x = (sr * d / 10 ^ 12 : ℚ) := ⟨_, rfl⟩
  rw [← hy, ← hxx] at e1'
  rw [← hxx] at hx
  rw [← hy, ← hxx]
  have f1 := Int.floor_le y
  have f2 := Int.lt_floor_add_one y
  have f3 := Int.floor_le x
  have f4 := Int.lt_floor_add_one x
  have g1 : ((⌊y⌋ - ⌊x⌋ : ℤ) : ℚ) < ((2 : ℤ) : ℚ) := by push_cast; linarith
  have g2 : ((-2 : ℤ) : ℚ) < ((⌊y⌋ - ⌊x⌋ : ℤ) : ℚ) := by push_cast; linarith
  have g1' : ⌊y⌋ - ⌊x⌋ < 2 := by exact_mod_cast g1
  have g2' : -2 < ⌊y⌋ - ⌊x⌋ := by exact_mod_cast g2
  rw [abs_le]; omega

example := C322_within_one 44100 1500000000000 (by norm_num) (by norm_num) (by norm_num) (by norm_num) (by norm_num)

/-- Durations of whole milliseconds: the right number of samples, or, where that is a whole number, possibly one too few. -/
theorem C322_milliseconds (sr ms : ℤ) (h0 : 0 ≤ sr) (h1 : sr ≤ 2 ^ 53) (d0 : 0 ≤ ms) (d1 : ms * 10 ^ 9 ≤ 2 ^ 53) (hp : sr * ms ≤ 2 ^ 50) :
    toneCount sr (ms * 10 ^ 9) = sr * ms / 1000 ∨ (sr * ms % 1000 = 0 ∧ toneCount sr (ms * 10 ^ 9) = sr * ms / 1000 - 1) := by
  obtain ⟨e1, e2⟩ := tone_error sr (ms * 10 ^ 9) h0 h1 (by omega) d1
  have hx : (sr * ((ms * 10 ^ 9 : ℤ) : ℚ) / 10 ^ 12 : ℚ) = ((sr * ms : ℤ) : ℚ) / 1000 := by push_cast; ring
  rw [hx] at e1
  have e1' := abs_le.1 e1
  obtain ⟨p, hpp⟩ : ∃ p, p = sr * ms := ⟨_, rfl⟩
  have p0 : 0 ≤ p := by rw [hpp]; positivity
  rw [← hpp] at hp e1' ⊢
  have hpq : (p : ℚ) ≤ 2 ^ 50 := by exact_mod_cast hp
  have m1 := Int.emod_add_mul_ediv p 1000
  have m2 := Int.emod_nonneg p (by norm_num : (1000 : ℤ) ≠ 0)
  have m3 := Int.emod_lt_of_pos p (by norm_num : (0 : ℤ) < 1000)
  obtain ⟨n, hn⟩ : ∃ n, n = p / 1000 := ⟨_, rfl⟩
  obtain ⟨r, hr⟩ : ∃ r, r = p % 1000 := ⟨_, rfl⟩
  rw [← hn, ← hr] at m1
  rw [← hr] at m2 m3 ⊢
  rw [← hn]
  have m1q : (r : ℚ) + 1000 * n = p := by exact_mod_cast m1
  unfold toneCount trunc
  rw [if_neg (not_lt.2 e2)]
  obtain ⟨y, hy⟩ : ∃ y, y = fl64 (fl64 sr * quot (ms * 10 ^ 9) (10 ^ 12)) := ⟨_, rfl⟩
  rw [← hy] at e1' ⊢
  have err : (p : ℚ) / 1000 * (3 / 2 ^ 53) < 1 / 1000 := by linarith
  by_cases hr0 : r = 0
  · have hrq : (r : ℚ) = 0 := by exact_mod_cast hr0
    have f1 := Int.floor_le y
    have f2 := Int.lt_floor_add_one y
    have g1 : ((⌊y⌋ : ℤ) : ℚ) < ((n + 1 : ℤ) : ℚ) := by push_cast; linarith
    have g2 : ((n - 2 : ℤ) : ℚ) < ((⌊y⌋ : ℤ) : ℚ) := by push_cast; linarith
    have g1' : ⌊y⌋ < n + 1 := by exact_mod_cast g1
    have g2' : n - 2 < ⌊y⌋ := by exact_mod_cast g2
    rcases (by omega : ⌊y⌋ = n ∨ ⌊y⌋ = n - 1) with h | h
    · exact Or.inl h
    · exact Or.inr ⟨hr0, h⟩
  · left
    have r1 : (1 : ℚ) ≤ r := by exact_mod_cast (by omega : 1 ≤ r)
    have r2 : (r : ℚ) ≤ 999 := by exact_mod_cast (by omega : r ≤ 999)
    rw [Int.floor_eq_iff]
    constructor <;> linarith

example : toneCount 22050 (333 * 10 ^ 9) = 7342 := by
  have h := C322_milliseconds 22050 333 (by norm_num) (by norm_num) (by norm_num) (by norm_num) (by norm_num)
  norm_num at h ⊢
  exact h

/-- Refuted: 350 ms of noise at 44.1 kHz are 15434 samples, one too few; 9 ms at 48 kHz are 431 instead of 432. -/
theorem C322_count_refuted : toneCount 44100 (350 * 10 ^ 9) = 15434 ∧ Tones.sampleCount 44100 (350 * 10 ^ 9) = 15435 ∧
    toneCount 48000 (9 * 10 ^ 9) = 431 ∧ Tones.sampleCount 48000 (9 * 10 ^ 9) = 432 := by
  refine ⟨?_, by decide, ?_, by decide⟩
  · have q : quot (350 * 10 ^ 9) (10 ^ 12) = ((6305039478318694 : ℤ) : ℚ) * 2 ^ (-54 : ℤ) := by
      rw [quot_eq _ _ (by norm_num) (by norm_num)]
      exact fl64_of _ _ _ (by norm_num) (by norm_num) (by rw [abs_lt]; norm_num)
    unfold toneCount
    rw [q, fl64_nat 44100 (by norm_num) (by norm_num), fl64_of _ 8485480987361279 (-39) (by norm_num) (by norm_num) (by rw [abs_lt]; norm_num)]
    unfold trunc
    rw [if_neg (by norm_num), Int.floor_eq_iff]; norm_num
  · have q : quot (9 * 10 ^ 9) (10 ^ 12) = ((5188146770730811 : ℤ) : ℚ) * 2 ^ (-59 : ℤ) := by
      rw [quot_eq _ _ (by norm_num) (by norm_num)]
      exact fl64_of _ _ _ (by norm_num) (by norm_num) (by rw [abs_lt]; norm_num)
    unfold toneCount
    rw [q, fl64_nat 48000 (by norm_num) (by norm_num), fl64_of _ 7599824371187711 (-44) (by norm_num) (by norm_num) (by rw [abs_lt]; norm_num)]
    unfold trunc
    rw [if_neg (by norm_num), Int.floor_eq_iff]; norm_num

/-- One tick lasts a tenth of a second, exactly as many samples as it should. -/
theorem C322_tick_length (sr : ℤ) (h0 : 0 ≤ sr) (h1 : sr ≤ 2 ^ 50) : tickLength sr = Tones.tickLength sr := by
  have hs : (0 : ℚ) ≤ sr := by exact_mod_cast h0
  have hsu : (sr : ℚ) ≤ 2 ^ 50 := by exact_mod_cast h1
  have t : fl64 (1 / 10) = ((7205759403792794 : ℤ) : ℚ) * 2 ^ (-56 : ℤ) := fl64_of _ _ _ (by norm_num) (by norm_num) (by rw [abs_lt]; norm_num)
  have tl : (1 / 10 : ℚ) ≤ fl64 (1 / 10) := by rw [t]; norm_num
  obtain ⟨_, tu⟩ := fl64_bounds (1 / 10) (by norm_num)
  unfold tickLength Tones.tickLength
  rw [fl64_nat sr h0 (by omega)]
  obtain ⟨c, hc⟩ : ∃ c, c = fl64 (1 / 10) := ⟨_, rfl⟩
  rw [← hc] at tl tu ⊢
  have hsc : 0 ≤ (sr : ℚ) * c := mul_nonneg hs (by linarith)
  obtain ⟨_, b2⟩ := fl64_bounds ((sr : ℚ) * c) hsc
  have m1 := Int.emod_add_mul_ediv sr 10
  have m2 := Int.emod_nonneg sr (by norm_num : (10 : ℤ) ≠ 0)
  have m3 := Int.emod_lt_of_pos sr (by norm_num : (0 : ℤ) < 10)
  obtain ⟨n, hn⟩ : ∃ n, n = sr / 10 := ⟨_, rfl⟩
  rw [← hn] at m1 ⊢
  have n0 : 0 ≤ n := by omega
  have low : ((n : ℤ) : ℚ) ≤ fl64 (sr * c) := by
    apply fl64_ge _ _ (double_int n (by rw [abs_of_nonneg n0]; omega))
    have : (10 : ℚ) * n ≤ sr := by exact_mod_cast (by omega : 10 * n ≤ sr)
    nlinarith
  have high : fl64 (sr * c) < ((n + 1 : ℤ) : ℚ) := by
    have h9 : (sr : ℚ) ≤ 10 * n + 9 := by exact_mod_cast (by omega : sr ≤ 10 * n + 9)
    have e1 : (sr : ℚ) * c ≤ sr * (1 / 10 * (1 + 1 / 2 ^ 53)) := mul_le_mul_of_nonneg_left tu hs
    push_cast
    nlinarith
  unfold trunc
  rw [if_neg (not_lt.2 (fl64_nonneg _ hsc)), Int.floor_eq_iff.2 ⟨low, by push_cast at high; exact high⟩]
  omega

example : tickLength 44100 = 4410 := by
  rw [C322_tick_length 44100 (by norm_num) (by norm_num)]; decide

/-- Ticks whose period divides a second are placed exactly. -/
theorem C322_step_divides (sr tf n : ℤ) (h0 : 0 ≤ sr) (h1 : sr ≤ 2 ^ 53) (hn : n * tf = 10 ^ 12) (hn0 : 0 < n) :
    tickStep sr tf = sr / n ∧ Tones.tickStep sr tf = sr / n := by
  have ht : 0 < tf := by
    by_contra h; push Not at h; nlinarith
  have htb : tf ≤ 10 ^ 12 := by nlinarith
  have hnb : n ≤ 10 ^ 12 := by nlinarith
  have htq : (0 : ℚ) < tf := by exact_mod_cast ht
  have e : ((10 ^ 12 : ℤ) : ℚ) / tf = n := by rw [← hn]; push_cast; field_simp
  constructor
  · unfold tickStep
    rw [fl64_nat sr h0 h1, quot_eq _ _ (by norm_num) (by rw [abs_of_pos ht]; omega), e, fl64_nat n hn0.le (by omega)]
    obtain ⟨m, rfl⟩ : ∃ m : ℕ, n = m := ⟨n.toNat, by omega⟩
    have := Rat.floor_intCast_div_natCast sr m
    exact_mod_cast this
  · unfold Tones.tickStep
    rw [← hn, Int.mul_ediv_mul_of_pos_left _ _ ht]

example : tickStep 44100 (100 * 10 ^ 9) = 4410 ∧ Tones.tickStep 44100 (100 * 10 ^ 9) = 4410 :=
  C322_step_divides 44100 (100 * 10 ^ 9) 10 (by norm_num) (by norm_num) (by norm_num) (by norm_num)

/-- Ticks are at most one sample per tick from where they should be. -/
theorem C322_step_within_one (sr tf : ℤ) (h0 : 0 ≤ sr) (h1 : sr ≤ 2 ^ 53) (ht : 0 < tf) (ht1 : tf ≤ 2 ^ 53) (hp : sr * tf ≤ 2 ^ 50 * 10 ^ 12) :
    |tickStep sr tf - Tones.tickStep sr tf| ≤ 1 := by
  have hs : (0 : ℚ) ≤ sr := by exact_mod_cast h0
  have htq : (0 : ℚ) < tf := by exact_mod_cast ht
  obtain ⟨a1, a2⟩ := fl64_bounds (10 ^ 12 / tf : ℚ) (by positivity)
  have hfl : Tones.tickStep sr tf = ⌊(sr * tf / 10 ^ 12 : ℚ)⌋ := by
    unfold Tones.tickStep
    rw [floor12]
  unfold tickStep
  rw [fl64_nat sr h0 h1, quot_eq _ _ (by norm_num) (by rw [abs_of_pos ht]; exact ht1), show ((10 ^ 12 : ℤ) : ℚ) = 10 ^ 12 by norm_num, hfl]
  obtain ⟨q, hq⟩ : ∃ q, q = fl64 (10 ^ 12 / tf : ℚ) := ⟨_, rfl⟩
  rw [← hq] at a1 a2 ⊢
  have hR : (0 : ℚ) < 10 ^ 12 / tf := by positivity
  have q0 : 0 < q := lt_of_lt_of_le (mul_pos hR (by norm_num)) a1
  obtain ⟨x, hx⟩ : ∃ x, x = (sr * tf / 10 ^ 12 : ℚ) := ⟨_, rfl⟩
  have x0 : 0 ≤ x := by rw [hx]; positivity
  have hxu : x ≤ 2 ^ 50 := by
    rw [hx, div_le_iff₀ (by norm_num)]
    have : ((sr * tf : ℤ) : ℚ) ≤ ((2 ^ 50 * 10 ^ 12 : ℤ) : ℚ) := by exact_mod_cast hp
    push_cast at this; linarith
  have hsx : (sr : ℚ) = x * (10 ^ 12 / tf) := by rw [hx]; field_simp
  have y1 : sr / q ≤ x * (1 + 2 / 2 ^ 53) := by
    rw [div_le_iff₀ q0]
    have : x * (10 ^ 12 / tf) ≤ x * (1 + 2 / 2 ^ 53) * ((10 ^ 12 / tf) * (1 - 1 / 2 ^ 53)) := by
      have : (1 : ℚ) ≤ (1 + 2 / 2 ^ 53) * (1 - 1 / 2 ^ 53) := by norm_num
      have hxr : 0 ≤ x * (10 ^ 12 / tf) := by positivity
      nlinarith
    have h2 : x * (1 + 2 / 2 ^ 53) * ((10 ^ 12 / tf) * (1 - 1 / 2 ^ 53)) ≤ x * (1 + 2 / 2 ^ 53) * q := mul_le_mul_of_nonneg_left a1 (by positivity)
    rw [hsx]; linarith
  have y2 : x * (1 - 2 / 2 ^ 53) ≤ sr / q := by
    rw [le_div_iff₀ q0]
    have : x * (1 - 2 / 2 ^ 53) * ((10 ^ 12 / tf) * (1 + 1 / 2 ^ 53)) ≤ x * (10 ^ 12 / tf) := by
      have : (1 - 2 / 2 ^ 53) * (1 + 1 / 2 ^ 53) ≤ (1 : ℚ) := by norm_num
      have hxr : 0 ≤ x * (10 ^ 12 / tf) := by positivity
      nlinarith
    have h2 : x * (1 - 2 / 2 ^ 53) * q ≤ x * (1 - 2 / 2 ^ 53) * ((10 ^ 12 / tf) * (1 + 1 / 2 ^ 53)) :=
      mul_le_mul_of_nonneg_left a2 (mul_nonneg x0 (by norm_num))
    rw [hsx]; linarith
  rw [← hx]
  obtain ⟨y, hy⟩ : ∃ y, y = sr / q := ⟨_, rfl⟩
  rw [← hy] at y1 y2 ⊢
  have f1 := Int.floor_le y
  have f2 := Int.lt_floor_add_one y
  have f3 := Int.floor_le x
  have f4 := Int.lt_floor_add_one x
  have g1 : ((⌊y⌋ - ⌊x⌋ : ℤ) : ℚ) < ((2 : ℤ) : ℚ) := by push_cast; linarith
  have g2 : ((-2 : ℤ) : ℚ) < ((⌊y⌋ - ⌊x⌋ : ℤ) : ℚ) := by push_cast; linarith
  have g1' : ⌊y⌋ - ⌊x⌋ < 2 := by exact_mod_cast g1
  have g2' : -2 < ⌊y⌋ - ⌊x⌋ := by exact_mod_cast g2
  rw [abs_le]; omega

example := C322_step_within_one 44100 500000000000 (by norm_num) (by norm_num) (by norm_num) (by norm_num) (by norm_num)

/-- Refuted: at 44.1 kHz ticks every 30 ms, which is 1323 samples, come every 1322: after ten seconds they are 333 samples early. -/
theorem C322_step_refuted : tickStep 44100 (30 * 10 ^ 9) = 1322 ∧ Tones.tickStep 44100 (30 * 10 ^ 9) = 1323 := by
  refine ⟨?_, by decide⟩
  have q : quot (10 ^ 12) (30 * 10 ^ 9) = ((4691249611844267 : ℤ) : ℚ) * 2 ^ (-47 : ℤ) := by
    rw [quot_eq _ _ (by norm_num) (by norm_num)]
    exact fl64_of _ _ _ (by norm_num) (by norm_num) (by rw [abs_lt]; norm_num)
  unfold tickStep
  rw [q, fl64_nat 44100 (by norm_num) (by norm_num), Int.floor_eq_iff]
  norm_num

/-! ## C323: sines -/

/-- The number of phases of a sine: at most one away from the least number of samples that covers the duration. -/
theorem C323_within_one (sr d : ℤ) (hz : ℚ) (hhz : 0 < hz) (h0 : 0 < sr) (h1 : sr ≤ 2 ^ 53) (d0 : 0 ≤ d) (d1 : d ≤ 2 ^ 53) (hp : sr * d ≤ 2 ^ 49 * 10 ^ 12) :
    |sineCount sr d hz - Tones.sineCount sr d| ≤ 1 := by
  obtain ⟨e1, e2⟩ := tone_error sr d h0.le h1 d0 d1
  have hsq : (0 : ℚ) < sr := by exact_mod_cast h0
  have hdq : (0 : ℚ) ≤ d := by exact_mod_cast d0
  have hcl : ((Tones.sineCount sr d : ℕ) : ℤ) = ⌈(sr * d / 10 ^ 12 : ℚ)⌉ := by
    unfold Tones.sineCount
    rw [ceil12]
    have hnn : 0 ≤ d * sr := by positivity
    have : -(d * sr) / 10 ^ 12 ≤ 0 := by omega
    omega
  rw [hcl]
  simp only [sineCount]
  rw [mul_comm (quot d (10 ^ 12))]
  obtain ⟨ts, hts⟩ : ∃ ts, ts = fl64 (fl64 sr * quot d (10 ^ 12)) := ⟨_, rfl⟩
  rw [← hts] at e1 e2 ⊢
  obtain ⟨x, hx⟩ : ∃ x, x = (sr * d / 10 ^ 12 : ℚ) := ⟨_, rfl⟩
  rw [← hx] at e1 ⊢
  have e1' := abs_le.1 e1
  have x0 : 0 ≤ x := by rw [hx]; positivity
  have hxu : x ≤ 2 ^ 49 := by
    rw [hx, div_le_iff₀ (by norm_num)]
    have : ((sr * d : ℤ) : ℚ) ≤ ((2 ^ 49 * 10 ^ 12 : ℤ) : ℚ) := by exact_mod_cast hp
    push_cast at this; linarith
  obtain ⟨c, hc⟩ : ∃ c, c = fl64 (hz / fl64 sr) := ⟨_, rfl⟩
  have c0 : 0 < c := by
    rw [hc, fl64_nat sr h0.le h1]
    have hr : 0 < hz / sr := by positivity
    exact lt_of_lt_of_le (mul_pos hr (by norm_num)) (fl64_bounds _ hr.le).1
  rw [← hc]
  have tc0 : 0 ≤ ts * c := by positivity
  obtain ⟨a1, a2⟩ := fl64_bounds (ts * c) tc0
  obtain ⟨a, ha⟩ : ∃ a, a = fl64 (ts * c) := ⟨_, rfl⟩
  rw [← ha] at a1 a2 ⊢
  have a0 : 0 ≤ a := by rw [ha]; exact fl64_nonneg _ tc0
  obtain ⟨b1, b2⟩ := fl64_bounds (a / c) (by positivity)
  have ac1 : ts * (1 - 1 / 2 ^ 53) ≤ a / c := by rw [le_div_iff₀ c0]; linarith
  have ac2 : a / c ≤ ts * (1 + 1 / 2 ^ 53) := by rw [div_le_iff₀ c0]; linarith
  obtain ⟨y, hy⟩ : ∃ y, y = fl64 (a / c) := ⟨_, rfl⟩
  rw [← hy] at b1 b2 ⊢
  have tsu : ts ≤ 2 ^ 49 * 2 := by nlinarith
  have y1 : y - x < 1 := by nlinarith
  have y2 : x - y < 1 := by nlinarith
  have f1 := Int.le_ceil y
  have f2 := Int.ceil_lt_add_one y
  have f3 := Int.le_ceil x
  have f4 := Int.ceil_lt_add_one x
  have g1 : ((⌈y⌉ - ⌈x⌉ : ℤ) : ℚ) < ((2 : ℤ) : ℚ) := by push_cast; linarith
  have g2 : ((-2 : ℤ) : ℚ) < ((⌈y⌉ - ⌈x⌉ : ℤ) : ℚ) := by push_cast; linarith
  have g1' : ⌈y⌉ - ⌈x⌉ < 2 := by exact_mod_cast g1
  have g2' : -2 < ⌈y⌉ - ⌈x⌉ := by exact_mod_cast g2
  rw [abs_le]; omega

example := C323_within_one 44100 1500000000000 440 (by norm_num) (by norm_num) (by norm_num) (by norm_num) (by norm_num) (by norm_num)

/-- Octaves have the same number of phases, so sines an octave apart can always be mixed. -/
theorem C323_octaves (sr d : ℤ) (hz : ℚ) (k : ℤ) : sineCount sr d (hz * 2 ^ k) = sineCount sr d hz := by
  have hp : (2 : ℚ) ^ k ≠ 0 := by positivity
  simp only [sineCount]
  rw [mul_div_right_comm, fl64_scale, ← mul_assoc, fl64_scale, mul_div_mul_right _ _ hp]

/-- Mixing gives a sound exactly if all frequencies have as many phases. -/
theorem C323_mix (sr d : ℤ) (f : ℚ) (fs : List ℚ) (n : ℤ) :
    sineLength sr d (f :: fs) = some n ↔ ∀ g ∈ f :: fs, sineCount sr d g = n := by
  simp only [sineLength, List.mem_cons, forall_eq_or_imp]
  by_cases h : fs.all (fun g => decide (sineCount sr d g = sineCount sr d f))
  · rw [if_pos h]
    rw [List.all_eq_true] at h
    simp only [decide_eq_true_eq] at h
    constructor
    · intro e
      have e := Option.some.inj e
      exact ⟨e, fun g hg => (h g hg).trans e⟩
    · rintro ⟨e, _⟩; rw [e]
  · rw [if_neg h]
    constructor
    · intro e; exact absurd e (by simp)
    · rintro ⟨e, h2⟩
      exfalso; apply h
      rw [List.all_eq_true]
      intro g hg
      rw [decide_eq_true_eq, h2 g hg, e]

theorem sine_of (sr s n : ℤ) (hz : ℚ) (m1 e1 m2 e2 m3 e3 : ℤ) (h0 : 0 ≤ sr) (h1 : sr ≤ 2 ^ 53) (s0 : 0 ≤ s) (s1 : s * 10 ^ 12 ≤ 2 ^ 53) (hp : s * sr ≤ 2 ^ 53)
    (c : fl64 (hz / sr) = m1 * 2 ^ e1) (a : fl64 (((s * sr : ℤ) : ℚ) * (m1 * 2 ^ e1)) = m2 * 2 ^ e2) (b : fl64 ((m2 * 2 ^ e2) / (m1 * 2 ^ e1)) = m3 * 2 ^ e3)
    (hn : ⌈(m3 * 2 ^ e3 : ℚ)⌉ = n) : sineCount sr (s * 10 ^ 12) hz = n := by
  have hts : fl64 (quot (s * 10 ^ 12) (10 ^ 12) * fl64 sr) = ((s * sr : ℤ) : ℚ) := by
    rw [fl64_nat sr h0 h1, quot_eq _ _ (by rw [abs_of_nonneg (by omega)]; exact s1) (by norm_num)]
    have e : ((s * 10 ^ 12 : ℤ) : ℚ) / ((10 ^ 12 : ℤ) : ℚ) = s := by push_cast; field_simp
    rw [e, fl64_nat s s0 (by omega), show (s : ℚ) * sr = ((s * sr : ℤ) : ℚ) by push_cast; ring, fl64_nat _ (by positivity) hp]
  simp only [sineCount]
  rw [hts, fl64_nat sr h0 h1, c, a, b, hn]

/-- Refuted: one second of 9, 18, 36, ... Hz at 16 kHz is 16001 samples, one of 55, 110, 220, 440, ... Hz 16000, so mixing 18 and 440 Hz raises; five seconds of 15 Hz at
44.1 kHz are 220501 samples. -/
theorem C323_refuted (j k : ℤ) :
    sineCount 16000 (1 * 10 ^ 12) (9 * 2 ^ j) = 16001 ∧ sineCount 16000 (1 * 10 ^ 12) (55 * 2 ^ k) = 16000 ∧
    sineLength 16000 (1 * 10 ^ 12) [9 * 2 ^ j, 55 * 2 ^ k] = none ∧ Tones.sineCount 16000 (1 * 10 ^ 12) = 16000 ∧
    sineCount 44100 (5 * 10 ^ 12) (15 * 2 ^ j) = 220501 := by
  have h9 : sineCount 16000 (1 * 10 ^ 12) 9 = 16001 := by
    refine sine_of 16000 1 16001 9 5188146770730811 (-63) 5066549580791808 (-49) 8796093022208001 (-39) (by norm_num) (by norm_num) (by norm_num) (by norm_num) (by norm_num)
      (fl64_of _ _ _ (by norm_num) (by norm_num) (by rw [abs_lt]; norm_num)) (fl64_of _ _ _ (by norm_num) (by norm_num) (by rw [abs_lt]; norm_num))
      (fl64_of _ _ _ (by norm_num) (by norm_num) (by rw [abs_lt]; norm_num)) ?_
    rw [Int.ceil_eq_iff]; norm_num
  have h55 : sineCount 16000 (1 * 10 ^ 12) 55 = 16000 := by
    refine sine_of 16000 1 16000 55 7926335344172073 (-61) 7740561859543040 (-47) 8796093022208000 (-39) (by norm_num) (by norm_num) (by norm_num) (by norm_num) (by norm_num)
      (fl64_of _ _ _ (by norm_num) (by norm_num) (by rw [abs_lt]; norm_num)) (fl64_of _ _ _ (by norm_num) (by norm_num) (by rw [abs_lt]; norm_num))
      (fl64_of _ _ _ (by norm_num) (by norm_num) (by rw [abs_lt]; norm_num)) ?_
    rw [Int.ceil_eq_iff]; norm_num
  have h15 : sineCount 44100 (5 * 10 ^ 12) 15 = 220501 := by
    refine sine_of 44100 5 220501 15 6274402746159711 (-64) 5277655813324800 (-46) 7576322310144001 (-35) (by norm_num) (by norm_num) (by norm_num) (by norm_num) (by norm_num)
      (fl64_of _ _ _ (by norm_num) (by norm_num) (by rw [abs_lt]; norm_num)) (fl64_of _ _ _ (by norm_num) (by norm_num) (by rw [abs_lt]; norm_num))
      (fl64_of _ _ _ (by norm_num) (by norm_num) (by rw [abs_lt]; norm_num)) ?_
    rw [Int.ceil_eq_iff]; norm_num
  refine ⟨by rw [C323_octaves, h9], by rw [C323_octaves, h55], ?_, by decide, by rw [C323_octaves, h15]⟩
  simp only [sineLength, List.all_cons, List.all_nil, Bool.and_true, decide_eq_true_eq]
  rw [C323_octaves, C323_octaves, h9, h55]
  simp

end Zounds.Float64
