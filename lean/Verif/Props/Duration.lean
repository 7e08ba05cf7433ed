import Mathlib.Tactic.Linarith
import Mathlib.Tactic.Ring
import Mathlib.Tactic.FieldSimp
import Mathlib.Tactic.NormNum
import Mathlib.Tactic.Positivity
import Mathlib.Tactic.Push
import Verif.Model.Duration

/-!
# C371: what `Seconds(x)` and its siblings stand for
-/

namespace Zounds.Duration
open Zounds Zounds.Time

/-- Seconds in each unit. -/
def seconds : TUnit → ℚ
  | .h => 3600
  | .m => 60
  | .s => 1
  | .ms => 1 / 1000
  | .us => 1 / 1000000
  | .ns => 1 / 1000000000
  | .ps => 1 / 1000000000000

/-- The time a duration stands for, in seconds. -/
def inSeconds (d : Dur) : ℚ := d.count * seconds d.unit

theorem seconds_pos (u : TUnit) : 0 < seconds u := by cases u <;> norm_num [seconds]

/-- **C371** (whole numbers): a duration of a whole number of units is exactly that time, in every unit. -/
theorem C371_whole (u : TUnit) (n : Int) : ∃ d, construct u (.val n) = .ok d ∧ inSeconds d = n * seconds u ∧ d.toPs = n * u.ps1 := by
  refine ⟨⟨n, u⟩, ?_, rfl, by simp [Dur.toPs]⟩
  unfold construct pyInt
  split <;> simp_all

example := C371_whole .ms (-3)

/-- The model's picoseconds are the time in seconds. -/
theorem C371_picoseconds (d : Dur) : (d.toPs : ℚ) = 1000000000000 * inSeconds d := by
  obtain ⟨n, u⟩ := d
  unfold Dur.toPs inSeconds
  cases u <;> simp [TUnit.ps1, seconds] <;> ring

example := C371_picoseconds ⟨5, .m⟩

/-- **C371** (fractions): of any other number of units the fraction is dropped: the duration is the whole number of units next to it towards zero. -/
theorem C371_fraction (u : TUnit) (x : ℚ) : ∃ d n, construct u (.val x) = .ok d ∧ inSeconds d = (n : Int) * seconds u ∧
    |inSeconds d| ≤ |x * seconds u| ∧ |x * seconds u - inSeconds d| < seconds u ∧ 0 ≤ x * inSeconds d := by
  have hs := seconds_pos u
  by_cases h : 0 ≤ x
  · refine ⟨⟨⌊x⌋, u⟩, ⌊x⌋, by simp [construct, pyInt, h], rfl, ?_⟩
    have h1 := Int.floor_le x
    have h2 := Int.lt_floor_add_one x
    have h3 : (0 : ℚ) ≤ ⌊x⌋ := by exact_mod_cast Int.floor_nonneg.2 h
    show |(⌊x⌋ : ℚ) * seconds u| ≤ |x * seconds u| ∧ |x * seconds u - ⌊x⌋ * seconds u| < seconds u ∧ 0 ≤ x * (⌊x⌋ * seconds u)
    refine ⟨?_, ?_, by positivity⟩
    · rw [abs_of_nonneg (by positivity), abs_of_nonneg (by positivity)]
      exact mul_le_mul_of_nonneg_right h1 hs.le
    · rw [← sub_mul, abs_of_nonneg (mul_nonneg (by linarith) hs.le)]
      calc (x - ⌊x⌋) * seconds u < 1 * seconds u := mul_lt_mul_of_pos_right (by linarith) hs
        _ = seconds u := one_mul _
  · have hx : x < 0 := not_le.1 h
    refine ⟨⟨⌈x⌉, u⟩, ⌈x⌉, by simp [construct, pyInt, h], rfl, ?_⟩
    have h1 := Int.le_ceil x
    have h2 := Int.ceil_lt_add_one x
    have h3 : (⌈x⌉ : ℚ) ≤ 0 := by exact_mod_cast Int.ceil_le.2 (by exact_mod_cast hx.le)
    show |(⌈x⌉ : ℚ) * seconds u| ≤ |x * seconds u| ∧ |x * seconds u - ⌈x⌉ * seconds u| < seconds u ∧ 0 ≤ x * (⌈x⌉ * seconds u)
    refine ⟨?_, ?_, ?_⟩
    · rw [abs_mul, abs_mul, abs_of_nonpos h3, abs_of_neg hx]
      exact mul_le_mul_of_nonneg_right (by linarith) (abs_nonneg _)
    · rw [← sub_mul, abs_mul, abs_of_nonpos (by linarith : x - ⌈x⌉ ≤ 0), abs_of_pos hs]
      calc -(x - ⌈x⌉) * seconds u < 1 * seconds u := mul_lt_mul_of_pos_right (by linarith) hs
        _ = seconds u := one_mul _
    · nlinarith [mul_nonneg (mul_nonneg (neg_nonneg.2 hx.le) (neg_nonneg.2 h3)) hs.le]

example := C371_fraction .s (5 / 2)

/-- **C371** (when it is exact): the duration is the time asked for just when the number is whole. -/
theorem C371_exact (u : TUnit) (x : ℚ) : (∃ d, construct u (.val x) = .ok d ∧ inSeconds d = x * seconds u) ↔ ∃ n : Int, x = n := by
  have hs := seconds_pos u
  constructor
  · rintro ⟨d, h1, h2⟩
    obtain ⟨d', n, e1, e2, -⟩ := C371_fraction u x
    rw [h1] at e1
    cases e1
    exact ⟨n, mul_right_cancel₀ hs.ne' (h2.symm.trans e2)⟩
  · rintro ⟨n, rfl⟩
    obtain ⟨d, h1, h2, -⟩ := C371_whole u n
    exact ⟨d, h1, h2⟩

example := (C371_exact .s 3).2 ⟨3, by norm_num⟩

/-- Refuted: that `Seconds(x)` is a duration of `x` seconds: half a second, or any less than one, is no time at all. -/
theorem C371_refuted (u : TUnit) (x : ℚ) (h : |x| < 1) : ∃ d, construct u (.val x) = .ok d ∧ inSeconds d = 0 := by
  obtain ⟨d, n, e1, e2, e3, -, -⟩ := C371_fraction u x
  refine ⟨d, e1, ?_⟩
  have hs := seconds_pos u
  rw [e2, abs_mul, abs_mul, abs_of_pos hs] at e3
  have hn : |(n : ℚ)| < 1 := lt_of_le_of_lt (le_of_mul_le_mul_right e3 hs) h
  have : |n| < 1 := by exact_mod_cast hn
  have hz : n = 0 := Int.abs_lt_one_iff.1 this
  rw [e2, hz]
  simp

example := C371_refuted .s (1 / 2) (by norm_num [abs_lt])

/-- No duration of NaN or of infinitely many units. -/
theorem C371_no_number (u : TUnit) : construct u .nan = .error .valueError ∧ construct u .inf = .error .overflowError := ⟨rfl, rfl⟩

/-- **C371** (units agree): the number of units is that of the next smaller ones: `Hours(n) == Minutes(60 n)` and so on. -/
theorem C371_units (n : Int) : ∃ h m s ms us ns ps,
    construct .h (.val n) = .ok h ∧ construct .m (.val (60 * n : Int)) = .ok m ∧ construct .s (.val (3600 * n : Int)) = .ok s ∧
    construct .ms (.val (3600 * 1000 * n : Int)) = .ok ms ∧ construct .us (.val (3600 * 1000000 * n : Int)) = .ok us ∧
    construct .ns (.val (3600 * 1000000000 * n : Int)) = .ok ns ∧ construct .ps (.val (3600 * 1000000000000 * n : Int)) = .ok ps ∧
    h.eq m = true ∧ m.eq s = true ∧ s.eq ms = true ∧ ms.eq us = true ∧ us.eq ns = true ∧ ns.eq ps = true ∧ h.eq ps = true := by
  have hc : ∀ (u : TUnit) (k : Int), construct u (.val k) = .ok ⟨k, u⟩ := by
    intro u k
    unfold construct pyInt
    split <;> simp_all
  refine ⟨⟨n, .h⟩, ⟨60 * n, .m⟩, ⟨3600 * n, .s⟩, ⟨3600 * 1000 * n, .ms⟩, ⟨3600 * 1000000 * n, .us⟩, ⟨3600 * 1000000000 * n, .ns⟩, ⟨3600 * 1000000000000 * n, .ps⟩,
    hc _ _, hc _ _, hc _ _, hc _ _, hc _ _, hc _ _, hc _ _, ?_⟩
  simp [Dur.eq, Dur.cast, TUnit.finer, TUnit.ps1]
  omega

example := C371_units 2

end Zounds.Duration
