import Mathlib.Tactic.Linarith
import Mathlib.Tactic.NormNum
import Mathlib.Tactic.Ring
import Mathlib.Tactic.FieldSimp
import Mathlib.Tactic.Positivity
import Mathlib.Tactic.LinearCombination
import Verif.Model.FloatSizes
import Verif.Model.Resample
import Verif.Model.Reservoir
import Verif.Lemmas.Float64
import Verif.Props.Float64
import Verif.Props.FloatTones
import Verif.Props.FloatRange
import Verif.Props.Reservoir
import Mathlib.Algebra.Order.Floor.Semifield

namespace Zounds.FloatSizes
open Zounds Zounds.Float64 Zounds.Time

theorem rint_roundDiv (a b : ℕ) (hb : 0 < b) : rint ((a : ℚ) / b) = Resample.roundDiv a b := by
  have h := rint_eq_rhe a b (by exact_mod_cast hb)
  push_cast at h
  rw [h]
  unfold roundHalfEven Resample.roundDiv
  have e1 : (a : ℤ) / b = ((a / b : ℕ) : ℤ) := by simp
  have e2 : (a : ℤ) - ((a / b : ℕ) : ℤ) * b = ((a % b : ℕ) : ℤ) := by
    have := Nat.div_add_mod a b
    rw [Nat.mul_comm] at this
    have h : (((a / b) * b + a % b : ℕ) : ℤ) = a := by rw [this]
    push_cast at h ⊢
    omega
  simp only [e1, e2]
  split_ifs <;> omega

/-- A number close enough to a half is rounded to it. -/
theorem fl64_half (h : ℤ) (y : ℚ) (ho : h % 2 = 1) (h3 : 3 ≤ h) (hb : h ≤ 2 ^ 53) (hy : |y - h / 2| ≤ (h / 2) / 2 ^ 54) : fl64 y = h / 2 := by
  have hpos : (0 : ℚ) < (h : ℚ) / 2 := by
    have : (0 : ℚ) < h := by exact_mod_cast (by omega : 0 < h)
    linarith
  obtain ⟨e, e1, e2⟩ := exists_binade ((h : ℚ) / 2) hpos.ne'
  rw [abs_of_pos hpos] at e1 e2
  have hd : IsDouble ((h : ℚ) / 2) := double_half h (by rw [abs_of_nonneg (by omega)]; exact hb)
  obtain ⟨m, hm⟩ := double_multiple _ hd e (by rw [abs_of_pos hpos]; exact e1)
  have P : (0 : ℚ) < 2 ^ (e - 52) := by positivity
  have E1 : (2 : ℚ) ^ e = 2 ^ 52 * 2 ^ (e - 52) := by
    rw [show (2 : ℚ) ^ 52 = 2 ^ (52 : ℤ) by norm_num, ← zpow_add₀ (by norm_num)]; congr 1; ring
  have E2 : (2 : ℚ) ^ (e + 1) = 2 ^ 53 * 2 ^ (e - 52) := by
    rw [show (2 : ℚ) ^ 53 = 2 ^ (53 : ℤ) by norm_num, ← zpow_add₀ (by norm_num)]; congr 1; ring
  rw [hm] at e1 e2
  rw [E1] at e1
  rw [E2] at e2
  have m1 : (2 : ℚ) ^ 52 ≤ m := le_of_mul_le_mul_right e1 P
  have m2 : (m : ℚ) < 2 ^ 53 := lt_of_mul_lt_mul_right e2 P.le
  have m3 : (2 : ℚ) ^ 52 ≠ m := by
    intro hc
    rw [← hc, ← E1] at hm
    have hh : (h : ℚ) = 2 ^ (e + 1) := by
      rw [zpow_add₀ (by norm_num), ← hm]; ring
    have he : 0 < e + 1 := by
      by_contra hneg
      rw [not_lt] at hneg
      have : (2 : ℚ) ^ (e + 1) ≤ 2 ^ (0 : ℤ) := zpow_le_zpow_right₀ (by norm_num) hneg
      rw [← hh, zpow_zero] at this
      have : h ≤ 1 := by exact_mod_cast this
      omega
    obtain ⟨k, hk⟩ := Int.eq_ofNat_of_zero_le (by omega : 0 ≤ e)
    rw [hk] at hh
    have hh2 : h = 2 ^ (k + 1) := by
      have : (h : ℚ) = ((2 ^ (k + 1) : ℤ) : ℚ) := by
        rw [hh]; push_cast
        exact_mod_cast rfl
      exact_mod_cast this
    rw [hh2, pow_succ] at ho
    omega
  have m1' : (2 : ℤ) ^ 52 + 1 ≤ m := by
    have a : (2 : ℤ) ^ 52 ≤ m := by exact_mod_cast m1
    have b : (2 : ℤ) ^ 52 ≠ m := by
      intro hc; apply m3; rw [← hc]; norm_num
    omega
  have m2' : m + 1 ≤ (2 : ℤ) ^ 53 := by
    have a : m < (2 : ℤ) ^ 53 := by exact_mod_cast m2
    omega
  have m1q : (2 : ℚ) ^ 52 + 1 ≤ m := by exact_mod_cast m1'
  have m2q : (m : ℚ) + 1 ≤ 2 ^ 53 := by exact_mod_cast m2'
  obtain ⟨z, hz⟩ : ∃ z, z = y / 2 ^ (e - 52) := ⟨_, rfl⟩
  have hyz : y = z * 2 ^ (e - 52) := by rw [hz]; field_simp
  have hzm : |z - m| < 1 / 2 := by
    have : |z - m| ≤ m / 2 ^ 54 := by
      rw [hm, hyz, ← sub_mul, abs_mul, abs_of_pos P, mul_div_right_comm] at hy
      exact le_of_mul_le_mul_right hy P
    refine lt_of_le_of_lt this ?_
    norm_num at m2q ⊢
    linarith
  have hzz := abs_lt.1 hzm
  have zpos : 0 < z := by norm_num at m1q hzz; linarith [hzz.1]
  have ypos : 0 < y := by rw [hyz]; positivity
  rw [fl64_binade y e, ← hz, rint_unique z m hzm.le (fun hh => absurd hh hzm.ne), hm]
  · rw [abs_of_pos ypos, hyz, E1]
    exact mul_le_mul_of_nonneg_right (by norm_num at m1q hzz ⊢; linarith [hzz.1]) P.le
  · rw [abs_of_pos ypos, hyz, E2]
    exact mul_lt_mul_of_pos_right (by norm_num at m2q hzz ⊢; linarith [hzz.2]) P

theorem fl64_natCast (n : ℕ) (h : n ≤ 2 ^ 53) : fl64 (n : ℚ) = n := by
  have := fl64_nat (n : ℤ) (by omega) (by exact_mod_cast h)
  simpa using this

/-- The frames of the output buffer, if the ratio is close enough to that of the rates. -/
theorem out_eq (orig new n : ℕ) (h0 : 0 < orig) (hn : n ≤ 2 ^ 53) (hb : n * new < 2 ^ 50)
    (ht : 2 * (n * new % orig) = orig → |fl64 ((new : ℚ) / orig) - new / orig| ≤ new / orig / 2 ^ 54 ∧
      (fl64 ((new : ℚ) / orig) ≤ new / orig ∨ |fl64 ((new : ℚ) / orig) - new / orig| < new / orig / 2 ^ 54)) :
    outFrames orig new n = Resample.roundDiv (n * new) orig := by
  have ho : (0 : ℚ) < orig := by exact_mod_cast h0
  rw [← rint_roundDiv _ _ h0]
  unfold outFrames
  rw [fl64_natCast n hn]
  obtain ⟨r, hr⟩ : ∃ r, r = fl64 ((new : ℚ) / orig) := ⟨_, rfl⟩
  rw [← hr] at ht ⊢
  obtain ⟨x, hx⟩ : ∃ x : ℚ, x = ((n * new : ℕ) : ℚ) / orig := ⟨_, rfl⟩
  have hxn : x = n * (new / orig) := by rw [hx]; push_cast; ring
  rw [← hx]
  have x0 : 0 ≤ x := by rw [hx]; positivity
  by_cases tie : 2 * (n * new % orig) = orig
  · obtain ⟨t1, t2⟩ := ht tie
    -- `x` is half of an odd number
    obtain ⟨k, hk⟩ : ∃ k, k = n * new / orig := ⟨_, rfl⟩
    have hdm := Nat.div_add_mod (n * new) orig
    have hxh : x = ((2 * k + 1 : ℤ) : ℚ) / 2 := by
      rw [hx, div_eq_div_iff ho.ne' (by norm_num)]
      have : n * new * 2 = (2 * k + 1) * orig := by
        rw [← hk] at hdm
        calc n * new * 2 = (orig * k + n * new % orig) * 2 := by rw [hdm]
          _ = 2 * k * orig + 2 * (n * new % orig) := by ring
          _ = 2 * k * orig + orig := by rw [tie]
          _ = (2 * k + 1) * orig := by ring
      exact_mod_cast this
    have hbx : x < 2 ^ 50 := by
      rw [hx, div_lt_iff₀ ho]
      have a : ((n * new : ℕ) : ℚ) < 2 ^ 50 := by exact_mod_cast hb
      have b : (1 : ℚ) ≤ orig := by exact_mod_cast h0
      have : (2 : ℚ) ^ 50 ≤ 2 ^ 50 * orig := by linarith
      linarith
    have hkb : (2 * k + 1 : ℤ) ≤ 2 ^ 53 := by
      have : ((2 * k + 1 : ℤ) : ℚ) ≤ 2 ^ 53 := by
        norm_num at hbx hxh ⊢; linarith
      exact_mod_cast this
    have hy : |(n : ℚ) * r - x| ≤ x / 2 ^ 54 := by
      rw [hxn, ← mul_sub, abs_mul, abs_of_nonneg (Nat.cast_nonneg n), mul_div_assoc]
      exact mul_le_mul_of_nonneg_left t1 (Nat.cast_nonneg n)
    by_cases k0 : k = 0
    · -- a half: rounded down in any case
      have xh : x = 1 / 2 := by rw [hxh, k0]; norm_num
      have rx : rint x = 0 := rint_unique _ 0 (by rw [xh]; norm_num) (by norm_num)
      rw [rx]
      have low : fl64 ((n : ℚ) * r) ≤ 1 / 2 := by
        rcases t2 with t | t
        · refine fl64_le _ _ ⟨1, -1, by norm_num, by norm_num⟩ ?_
          rw [← xh, hxn]
          exact mul_le_mul_of_nonneg_left t (Nat.cast_nonneg n)
        · have n0 : (0 : ℚ) < n := by
            rcases Nat.eq_zero_or_pos n with h | h
            · rw [hxn, h] at xh; norm_num at xh
            · exact_mod_cast h
          have hy' : |(n : ℚ) * r - x| < x / 2 ^ 54 := by
            rw [hxn, ← mul_sub, abs_mul, abs_of_nonneg (Nat.cast_nonneg n), mul_div_assoc]
            exact mul_lt_mul_of_pos_left t n0
          rw [xh] at hy'
          have hyy := abs_lt.1 hy'
          by_cases c : (n : ℚ) * r ≤ 1 / 2
          · exact fl64_le _ _ ⟨1, -1, by norm_num, by norm_num⟩ c
          · rw [not_le] at c
            have p : 0 < (n : ℚ) * r := by linarith
            rw [fl64_binade _ (-1) (by rw [abs_of_pos p]; norm_num at c ⊢; linarith) (by rw [abs_of_pos p]; norm_num at hyy ⊢; linarith [hyy.2])]
            rw [rint_unique _ (2 ^ 52)]
            · norm_num
            · rw [abs_le]; norm_num at hyy c ⊢; constructor <;> linarith [hyy.1, hyy.2]
            · norm_num
      have pos : 0 ≤ fl64 ((n : ℚ) * r) := fl64_nonneg _ (by
        rw [xh] at hy
        have := (abs_le.1 hy).1
        norm_num at this ⊢; linarith)
      apply rint_unique
      · rw [abs_le]; norm_num; constructor <;> linarith
      · intro _; norm_num
    · rw [fl64_half (2 * k + 1) _ (by omega) (by omega) hkb (by rw [← hxh]; exact hy), ← hxh]
  · -- `x` is not half-way: the error is too small to matter
    obtain ⟨q1, q2⟩ := rint_spec x
    have hne : |x - rint x| ≠ 1 / 2 := by
      intro hh
      have hh2 : x - rint x = 1 / 2 ∨ x - rint x = -(1 / 2) := by
        rcases abs_choice (x - rint x) with h | h
        · left; linarith
        · right; linarith
      apply tie
      have key : ∃ k : ℤ, 2 * ((n * new : ℕ) : ℤ) = (2 * k + 1) * orig := by
        have c : ∀ k : ℤ, x = k + 1 / 2 → 2 * ((n * new : ℕ) : ℤ) = (2 * k + 1) * orig := by
          intro k hk
          rw [hx, div_eq_iff ho.ne'] at hk
          have : (2 : ℚ) * ((n * new : ℕ) : ℚ) = (2 * k + 1) * orig := by rw [hk]; ring
          exact_mod_cast this
        rcases hh2 with h | h
        · exact ⟨rint x, c _ (by linarith)⟩
        · exact ⟨rint x - 1, c _ (by push_cast; linarith)⟩
      obtain ⟨k, hk⟩ := key
      have hdm := Nat.div_add_mod (n * new) orig
      have hlt := Nat.mod_lt (n * new) h0
      obtain ⟨j, hj⟩ : ∃ j, j = n * new / orig := ⟨_, rfl⟩
      obtain ⟨m, hm⟩ : ∃ m, m = n * new % orig := ⟨_, rfl⟩
      rw [← hj, ← hm] at hdm
      rw [← hm] at hlt ⊢
      rw [← hdm] at hk
      push_cast at hk
      have h1 : 2 * (m : ℤ) = (2 * (k - j) + 1) * orig := by linear_combination hk
      have h2 : k - j = 0 := by
        have a : (2 * (k - j) + 1) * (orig : ℤ) < 2 * orig := by rw [← h1]; omega
        have b : (0 : ℤ) ≤ (2 * (k - j) + 1) * (orig : ℤ) := by rw [← h1]; omega
        have o : (0 : ℤ) < orig := by exact_mod_cast h0
        have a' : 2 * (k - j) + 1 < 2 := lt_of_mul_lt_mul_right a o.le
        have b' : 0 ≤ 2 * (k - j) + 1 := by
          by_contra hc
          rw [not_le] at hc
          have := mul_neg_of_neg_of_pos hc o
          omega
        omega
      rw [h2] at h1
      omega
    have hgap : |x - rint x| ≤ 1 / 2 - 1 / (2 * orig) := by
      have hlt : |x - rint x| < 1 / 2 := lt_of_le_of_ne q1 hne
      have e : x - rint x = (((n * new : ℕ) : ℤ) - rint x * orig : ℤ) / (orig : ℚ) := by
        rw [hx]; push_cast; field_simp
      rw [e, abs_div, abs_of_pos ho, ← Int.cast_abs] at hlt ⊢
      rw [div_lt_div_iff₀ ho (by norm_num)] at hlt
      have hlt' : |((n * new : ℕ) : ℤ) - rint x * orig| * 2 < 1 * orig := by exact_mod_cast hlt
      have hle : 2 * |((n * new : ℕ) : ℤ) - rint x * orig| + 1 ≤ orig := by omega
      have hle' : 2 * ((|((n * new : ℕ) : ℤ) - rint x * orig| : ℤ) : ℚ) + 1 ≤ orig := by exact_mod_cast hle
      rw [div_le_iff₀ ho]
      have : (1 / 2 - 1 / (2 * (orig : ℚ))) * orig = (orig - 1) / 2 := by field_simp
      rw [this]; linarith
    obtain ⟨l1, u1⟩ := fl64_bounds ((new : ℚ) / orig) (by positivity)
    rw [← hr] at l1 u1
    have r0 : 0 ≤ r := by rw [hr]; exact fl64_nonneg _ (by positivity)
    have n0 : (0 : ℚ) ≤ n := Nat.cast_nonneg n
    obtain ⟨l2, u2⟩ := fl64_bounds ((n : ℚ) * r) (by positivity)
    have nl : x * (1 - 1 / 2 ^ 53) ≤ n * r := by
      rw [hxn, mul_assoc]; exact mul_le_mul_of_nonneg_left l1 n0
    have nu : n * r ≤ x * (1 + 1 / 2 ^ 53) := by
      rw [hxn, mul_assoc]; exact mul_le_mul_of_nonneg_left u1 n0
    have err : |fl64 ((n : ℚ) * r) - x| ≤ x / 2 ^ 51 := by
      have up : fl64 ((n : ℚ) * r) ≤ x * (1 + 1 / 2 ^ 53) * (1 + 1 / 2 ^ 53) :=
        le_trans u2 (mul_le_mul_of_nonneg_right nu (by norm_num))
      have lo : x * (1 - 1 / 2 ^ 53) * (1 - 1 / 2 ^ 53) ≤ fl64 ((n : ℚ) * r) :=
        le_trans (mul_le_mul_of_nonneg_right nl (by norm_num)) l2
      rw [abs_le]; norm_num at up lo ⊢; constructor <;> linarith
    have small : x / 2 ^ 51 < 1 / (2 * orig) := by
      rw [hx, div_div, div_lt_div_iff₀ (by positivity) (by positivity)]
      have a : ((n * new : ℕ) : ℚ) < 2 ^ 50 := by exact_mod_cast hb
      have : ((n * new : ℕ) : ℚ) * (2 * orig) < 2 ^ 50 * (2 * orig) := mul_lt_mul_of_pos_right a (by positivity)
      linarith
    have tot : |fl64 ((n : ℚ) * r) - rint x| < 1 / 2 := by
      have := abs_sub_le (fl64 ((n : ℚ) * r)) x (rint x)
      linarith
    exact rint_unique _ _ tot.le (fun h => absurd h tot.ne)

/-- The reduced fraction has an odd denominator: no tie. -/
theorem no_tie (a orig g o : ℕ) (e : orig = g * o) (hg : g ∣ a) (h0 : 0 < g) (ho : o % 2 = 1) : 2 * (a % orig) ≠ orig := by
  intro h
  obtain ⟨c, rfl⟩ := hg
  rw [e, Nat.mul_mod_mul_left] at h
  have h2 : g * (2 * (c % o)) = g * o := by rw [← h]; ring
  have := Nat.eq_of_mul_eq_mul_left h0 h2
  omega

/-- The library's ratio for two rates. -/
theorem tie_of (new orig n : ℕ) (m e : ℤ) (h1 : 2 ^ (e + 52) ≤ |(new : ℚ) / orig|) (h2 : |(new : ℚ) / orig| < 2 ^ (e + 53)) (h3 : |(new : ℚ) / orig / 2 ^ e - m| < 1 / 2)
    (t1 : |(m : ℚ) * 2 ^ e - new / orig| ≤ new / orig / 2 ^ 54) (t2 : (m : ℚ) * 2 ^ e ≤ new / orig ∨ |(m : ℚ) * 2 ^ e - new / orig| < new / orig / 2 ^ 54) :
    2 * (n * new % orig) = orig → |fl64 ((new : ℚ) / orig) - new / orig| ≤ new / orig / 2 ^ 54 ∧
      (fl64 ((new : ℚ) / orig) ≤ new / orig ∨ |fl64 ((new : ℚ) / orig) - new / orig| < new / orig / 2 ^ 54) := by
  intro _
  rw [fl64_of _ m e h1 h2 h3]
  exact ⟨t1, t2⟩

theorem odd_of (new orig n g o : ℕ) (P : Prop) (e : orig = g * o) (hg : g ∣ new) (h0 : 0 < g) (ho : o % 2 = 1) : 2 * (n * new % orig) = orig → P :=
  fun h => absurd h (no_tie _ _ g o e (Dvd.dvd.mul_left hg n) h0 ho)

/-- **C325** (the output buffer): from any of the six rates to any other, the buffer made for `n` samples has the number of frames exact arithmetic gives, `n` times the
ratio of the rates, rounded, halves to the even number. -/
theorem C325_out_frames (r s : SampleRate) (hr : r ∈ supportedRates) (hs : s ∈ supportedRates) (n : ℕ) (hn : n < 2 ^ 33) :
    outFrames r.samplesPerSecond.toNat s.samplesPerSecond.toNat n = Resample.roundDiv (n * s.samplesPerSecond.toNat) r.samplesPerSecond.toNat := by
  have hrr : r.samplesPerSecond.toNat ∈ [96000, 48000, 44100, 22050, 16000, 11025] := by
    revert r; unfold supportedRates; decide
  have hss : s.samplesPerSecond.toNat ∈ [96000, 48000, 44100, 22050, 16000, 11025] := by
    clear hrr; revert s; unfold supportedRates; decide
  generalize r.samplesPerSecond.toNat = orig at *
  generalize s.samplesPerSecond.toNat = new at *
  simp only [List.mem_cons, List.not_mem_nil, or_false] at hrr hss
  have hb : n * new < 2 ^ 50 := by
    have : n * new ≤ n * 96000 := Nat.mul_le_mul_left n (by omega)
    omega
  refine out_eq orig new n (by omega) (by omega) hb ?_
  rcases hrr with rfl | rfl | rfl | rfl | rfl | rfl <;> rcases hss with rfl | rfl | rfl | rfl | rfl | rfl
  · exact odd_of 96000 96000 n 96000 1 _ (by norm_num) (by decide) (by norm_num) (by norm_num)
  · exact tie_of 48000 96000 n 4503599627370496 (-53) (by norm_num) (by norm_num) (by rw [abs_lt]; norm_num) (by rw [abs_le]; norm_num) (Or.inl (by norm_num))
  · exact tie_of 44100 96000 n 8275364315293286 (-54) (by norm_num) (by norm_num) (by rw [abs_lt]; norm_num) (by rw [abs_le]; norm_num) (Or.inl (by norm_num))
  · exact tie_of 22050 96000 n 8275364315293286 (-55) (by norm_num) (by norm_num) (by rw [abs_lt]; norm_num) (by rw [abs_le]; norm_num) (Or.inl (by norm_num))
  · exact tie_of 16000 96000 n 6004799503160661 (-55) (by norm_num) (by norm_num) (by rw [abs_lt]; norm_num) (by rw [abs_le]; norm_num) (Or.inl (by norm_num))
  · exact tie_of 11025 96000 n 8275364315293286 (-56) (by norm_num) (by norm_num) (by rw [abs_lt]; norm_num) (by rw [abs_le]; norm_num) (Or.inl (by norm_num))
  · exact odd_of 96000 48000 n 48000 1 _ (by norm_num) (by decide) (by norm_num) (by norm_num)
  · exact odd_of 48000 48000 n 48000 1 _ (by norm_num) (by decide) (by norm_num) (by norm_num)
  · exact tie_of 44100 48000 n 8275364315293286 (-53) (by norm_num) (by norm_num) (by rw [abs_lt]; norm_num) (by rw [abs_le]; norm_num) (Or.inl (by norm_num))
  · exact tie_of 22050 48000 n 8275364315293286 (-54) (by norm_num) (by norm_num) (by rw [abs_lt]; norm_num) (by rw [abs_le]; norm_num) (Or.inl (by norm_num))
  · exact odd_of 16000 48000 n 16000 3 _ (by norm_num) (by decide) (by norm_num) (by norm_num)
  · exact tie_of 11025 48000 n 8275364315293286 (-55) (by norm_num) (by norm_num) (by rw [abs_lt]; norm_num) (by rw [abs_le]; norm_num) (Or.inl (by norm_num))
  · exact odd_of 96000 44100 n 300 147 _ (by norm_num) (by decide) (by norm_num) (by norm_num)
  · exact odd_of 48000 44100 n 300 147 _ (by norm_num) (by decide) (by norm_num) (by norm_num)
  · exact odd_of 44100 44100 n 44100 1 _ (by norm_num) (by decide) (by norm_num) (by norm_num)
  · exact tie_of 22050 44100 n 4503599627370496 (-53) (by norm_num) (by norm_num) (by rw [abs_lt]; norm_num) (by rw [abs_le]; norm_num) (Or.inl (by norm_num))
  · exact odd_of 16000 44100 n 100 441 _ (by norm_num) (by decide) (by norm_num) (by norm_num)
  · exact tie_of 11025 44100 n 4503599627370496 (-54) (by norm_num) (by norm_num) (by rw [abs_lt]; norm_num) (by rw [abs_le]; norm_num) (Or.inl (by norm_num))
  · exact odd_of 96000 22050 n 150 147 _ (by norm_num) (by decide) (by norm_num) (by norm_num)
  · exact odd_of 48000 22050 n 150 147 _ (by norm_num) (by decide) (by norm_num) (by norm_num)
  · exact odd_of 44100 22050 n 22050 1 _ (by norm_num) (by decide) (by norm_num) (by norm_num)
  · exact odd_of 22050 22050 n 22050 1 _ (by norm_num) (by decide) (by norm_num) (by norm_num)
  · exact odd_of 16000 22050 n 50 441 _ (by norm_num) (by decide) (by norm_num) (by norm_num)
  · exact tie_of 11025 22050 n 4503599627370496 (-53) (by norm_num) (by norm_num) (by rw [abs_lt]; norm_num) (by rw [abs_le]; norm_num) (Or.inl (by norm_num))
  · exact odd_of 96000 16000 n 16000 1 _ (by norm_num) (by decide) (by norm_num) (by norm_num)
  · exact odd_of 48000 16000 n 16000 1 _ (by norm_num) (by decide) (by norm_num) (by norm_num)
  · exact tie_of 44100 16000 n 6206523236469965 (-51) (by norm_num) (by norm_num) (by rw [abs_lt]; norm_num) (by rw [abs_le]; norm_num) (Or.inr (by rw [abs_lt]; norm_num))
  · exact tie_of 22050 16000 n 6206523236469965 (-52) (by norm_num) (by norm_num) (by rw [abs_lt]; norm_num) (by rw [abs_le]; norm_num) (Or.inr (by rw [abs_lt]; norm_num))
  · exact odd_of 16000 16000 n 16000 1 _ (by norm_num) (by decide) (by norm_num) (by norm_num)
  · exact tie_of 11025 16000 n 6206523236469965 (-53) (by norm_num) (by norm_num) (by rw [abs_lt]; norm_num) (by rw [abs_le]; norm_num) (Or.inr (by rw [abs_lt]; norm_num))
  · exact odd_of 96000 11025 n 75 147 _ (by norm_num) (by decide) (by norm_num) (by norm_num)
  · exact odd_of 48000 11025 n 75 147 _ (by norm_num) (by decide) (by norm_num) (by norm_num)
  · exact odd_of 44100 11025 n 11025 1 _ (by norm_num) (by decide) (by norm_num) (by norm_num)
  · exact odd_of 22050 11025 n 11025 1 _ (by norm_num) (by decide) (by norm_num) (by norm_num)
  · exact odd_of 16000 11025 n 25 441 _ (by norm_num) (by decide) (by norm_num) (by norm_num)
  · exact odd_of 11025 11025 n 11025 1 _ (by norm_num) (by decide) (by norm_num) (by norm_num)

/-- One second at 44.1 kHz brought down to 16 kHz; 160 samples at 16 kHz make 110.25 frames at 11025 Hz; 160 at 96 kHz make 73.5 at 44.1 kHz, a tie. -/
example : outFrames 44100 16000 44100 = 16000 ∧ outFrames 16000 11025 160 = 110 ∧ outFrames 96000 44100 160 = 74 := by
  have h := fun (r s : SampleRate) hr hs n hn => C325_out_frames r s hr hs n hn
  refine ⟨?_, ?_, ?_⟩
  · exact h ⟨22675736, 22675736⟩ ⟨62500000, 62500000⟩ (by decide) (by decide) 44100 (by norm_num)
  · exact h ⟨62500000, 62500000⟩ ⟨90702947, 90702947⟩ (by decide) (by decide) 160 (by norm_num)
  · exact h ⟨10416666, 10416666⟩ ⟨22675736, 22675736⟩ (by decide) (by decide) 160 (by norm_num)

/-- The number of whole units in `w`, close to `N` parts of size `1 / t`. -/
theorem floor_close (w : ℚ) (N : ℤ) (t : ℕ) (ht : 0 < t) (h : |w - N / t| < 1 / t) :
    ⌊w⌋ ≤ N / t ∧ N / t - 1 ≤ ⌊w⌋ ∧ (⌊w⌋ ≠ N / t → (t : ℤ) ∣ N) := by
  have ht' : (0 : ℚ) < t := by exact_mod_cast ht
  have hti : (0 : ℤ) < t := by exact_mod_cast ht
  have h1 := Int.emod_add_mul_ediv N t
  have h2 := Int.emod_nonneg N hti.ne'
  have h3 := Int.emod_lt_of_pos N hti
  obtain ⟨q, hq⟩ : ∃ q, q = N / (t : ℤ) := ⟨_, rfl⟩
  obtain ⟨m, hm⟩ : ∃ m, m = N % (t : ℤ) := ⟨_, rfl⟩
  rw [← hq, ← hm] at h1
  rw [← hm] at h2 h3
  rw [← hq]
  have hN : (N : ℚ) / t = q + m / t := by
    rw [← h1]; push_cast; field_simp; ring
  rw [hN] at h
  have hh := abs_lt.1 h
  have m3 : (m : ℚ) / t + 1 / t ≤ 1 := by
    rw [← add_div, div_le_one ht']
    exact_mod_cast (by omega : m + 1 ≤ t)
  have m2 : (0 : ℚ) ≤ m / t := div_nonneg (by exact_mod_cast h2) ht'.le
  have t1 : (1 : ℚ) / t ≤ 1 := by
    rw [div_le_one ht']; exact_mod_cast ht
  have a1 : ⌊w⌋ ≤ q := by
    have : ⌊w⌋ < q + 1 := by
      rw [Int.floor_lt]; push_cast; linarith [hh.2]
    omega
  have a2 : q - 1 ≤ ⌊w⌋ := by
    rw [Int.le_floor]; push_cast; linarith [hh.1]
  refine ⟨a1, a2, fun hne => ?_⟩
  by_contra hd
  have m0 : m ≠ 0 := by
    intro h0
    apply hd
    rw [← h1, h0, zero_add]
    exact Dvd.intro _ rfl
  have : q ≤ ⌊w⌋ := by
    rw [Int.le_floor]
    have : (1 : ℚ) / t ≤ m / t := by
      apply div_le_div_of_nonneg_right _ ht'.le
      exact_mod_cast (by omega : 1 ≤ m)
    linarith [hh.1]
  omega

/-- **C326** (a feature's share of the reservoir): the number of rows a feature contributes is the one exact arithmetic gives, or one less, and the latter only if its
share is a whole number (and more than one row). -/
theorem C326_contribution (nsamples size total : ℕ) (ht : 0 < total) (hs : size ≤ total) (ht2 : total ≤ 2 ^ 50) (hp : nsamples * size < 2 ^ 50) (hn : nsamples ≤ 2 ^ 53) :
    contribution nsamples size total ≤ Reservoir.contribution nsamples size total ∧
    (Reservoir.contribution nsamples size total : ℤ) - 1 ≤ contribution nsamples size total ∧
    1 ≤ contribution nsamples size total ∧
    (contribution nsamples size total ≠ Reservoir.contribution nsamples size total → total ∣ nsamples * size) := by
  have ht' : (0 : ℚ) < total := by exact_mod_cast ht
  unfold contribution Reservoir.contribution
  rw [fl64_natCast nsamples hn, fl64_natCast size (by omega), fl64_natCast total (by omega)]
  obtain ⟨r, hr⟩ : ∃ r, r = fl64 ((size : ℚ) / total) := ⟨_, rfl⟩
  rw [← hr]
  obtain ⟨l1, u1⟩ := fl64_bounds ((size : ℚ) / total) (by positivity)
  rw [← hr] at l1 u1
  have r0 : 0 ≤ r := by rw [hr]; exact fl64_nonneg _ (by positivity)
  have n0 : (0 : ℚ) ≤ nsamples := Nat.cast_nonneg _
  obtain ⟨l2, u2⟩ := fl64_bounds ((nsamples : ℚ) * r) (by positivity)
  obtain ⟨x, hx⟩ : ∃ x : ℚ, x = ((nsamples * size : ℕ) : ℚ) / total := ⟨_, rfl⟩
  have x0 : 0 ≤ x := by rw [hx]; positivity
  have hxn : x = nsamples * (size / total) := by rw [hx]; push_cast; ring
  have nl : x * (1 - 1 / 2 ^ 53) ≤ nsamples * r := by
    rw [hxn, mul_assoc]; exact mul_le_mul_of_nonneg_left l1 n0
  have nu : nsamples * r ≤ x * (1 + 1 / 2 ^ 53) := by
    rw [hxn, mul_assoc]; exact mul_le_mul_of_nonneg_left u1 n0
  have err : |fl64 ((nsamples : ℚ) * r) - x| ≤ x / 2 ^ 51 := by
    have up : fl64 ((nsamples : ℚ) * r) ≤ x * (1 + 1 / 2 ^ 53) * (1 + 1 / 2 ^ 53) :=
      le_trans u2 (mul_le_mul_of_nonneg_right nu (by norm_num))
    have lo : x * (1 - 1 / 2 ^ 53) * (1 - 1 / 2 ^ 53) ≤ fl64 ((nsamples : ℚ) * r) :=
      le_trans (mul_le_mul_of_nonneg_right nl (by norm_num)) l2
    rw [abs_le]; norm_num at up lo ⊢; constructor <;> linarith
  have small : x / 2 ^ 51 < 1 / total := by
    rw [hx, div_div, div_lt_div_iff₀ (by positivity) ht']
    have a : ((nsamples * size : ℕ) : ℚ) < 2 ^ 50 := by exact_mod_cast hp
    have : ((nsamples * size : ℕ) : ℚ) * total < 2 ^ 50 * total := mul_lt_mul_of_pos_right a ht'
    linarith
  have pos : 0 ≤ fl64 ((nsamples : ℚ) * r) := fl64_nonneg _ (by positivity)
  have tr : trunc (fl64 ((nsamples : ℚ) * r)) = ⌊fl64 ((nsamples : ℚ) * r)⌋ := by
    unfold trunc; exact if_neg (not_lt.2 pos)
  obtain ⟨f1, f2, f3⟩ := floor_close (fl64 ((nsamples : ℚ) * r)) ((nsamples * size : ℕ) : ℤ) total ht (by
    rw [Int.cast_natCast, ← hx]; exact lt_of_le_of_lt err small)
  rw [tr]
  have e : ((nsamples * size : ℕ) : ℤ) / (total : ℤ) = ((nsamples * size / total : ℕ) : ℤ) := by simp
  rw [e] at f1 f2 f3
  rw [Nat.cast_max]
  push_cast at f1 f2 f3 ⊢
  refine ⟨by omega, by omega, by omega, fun hne => ?_⟩
  have : (total : ℤ) ∣ ((nsamples * size : ℕ) : ℤ) := by
    push_cast
    exact f3 (by intro h; apply hne; rw [h])
  exact_mod_cast this

example := C326_contribution 1000 3 7 (by norm_num) (by norm_num) (by norm_num) (by norm_num) (by norm_num)

/-- **C326** (all the features together): the reservoir receives at most its size and one row per feature. -/
theorem C326_all (n : ℕ) (sizes : List ℕ) (total : ℕ) (ht : total = sizes.sum) (hpos : 0 < total) (ht2 : total ≤ 2 ^ 50) (hp : n * total < 2 ^ 50) (hn : n ≤ 2 ^ 53) :
    (sizes.map (fun s => contribution n s total)).sum ≤ n + sizes.length := by
  have h := (Reservoir.C27_contributions n sizes total ht hpos).2
  have key : ∀ l : List ℕ, (∀ s ∈ l, s ≤ total) →
      (l.map (fun s => contribution n s total)).sum ≤ (((l.map (fun s => Reservoir.contribution n s total)).sum : ℕ) : ℤ) := by
    intro l
    induction l with
    | nil => intro _; simp
    | cons s l ih =>
      intro hl
      have h1 := ih (fun x hx => hl x (List.mem_cons_of_mem _ hx))
      have hs := hl s List.mem_cons_self
      have h2 := (C326_contribution n s total hpos hs ht2 (lt_of_le_of_lt (Nat.mul_le_mul_left n hs) hp) hn).1
      simp only [List.map_cons, List.sum_cons]
      push_cast
      push_cast at h1
      omega
  have hk := key sizes (fun s hs => by rw [ht]; exact List.le_sum_of_mem hs)
  have h' : (((sizes.map (fun s => Reservoir.contribution n s total)).sum : ℕ) : ℤ) ≤ ((n + sizes.length : ℕ) : ℤ) := by exact_mod_cast h
  push_cast at h' hk ⊢
  omega

example : ([1, 0, 3].map (fun s => contribution 2 s 4)).sum ≤ 2 + 3 := C326_all 2 [1, 0, 3] 4 rfl (by norm_num) (by norm_num) (by norm_num) (by norm_num)

/-- Refuted: one feature in forty-nine of equal size contributes one row to a reservoir of 98, not two. -/
theorem C326_contribution_refuted : contribution 98 1 49 = 1 ∧ Reservoir.contribution 98 1 49 = 2 := by
  refine ⟨?_, by decide⟩
  unfold contribution
  rw [fl64_natCast 98 (by norm_num), fl64_natCast 1 (by norm_num), fl64_natCast 49 (by norm_num)]
  rw [fl64_of (((1 : ℕ) : ℚ) / ((49 : ℕ) : ℚ)) 5882252574524729 (-58) (by norm_num) (by norm_num) (by rw [abs_lt]; norm_num)]
  rw [fl64_of _ 9007199254740991 (-52) (by norm_num) (by norm_num) (by rw [abs_lt]; norm_num)]
  have : trunc (((9007199254740991 : ℤ) : ℚ) * 2 ^ (-52 : ℤ)) = 1 := by
    unfold trunc
    rw [if_neg (by norm_num), Int.floor_eq_iff]; norm_num
  rw [this]; norm_num

/-- **C326** (samples read at a time): for a known subtype, at least one channel and a positive rate the number of samples read at a time is at least one second's worth;
it is the number exact arithmetic gives or one less, the latter only if the buffer holds whole frames. -/
theorem C326_chunk_size (subtype : String) (channels rate nbytes d : ℕ) (hs : Buffer.byteDepth.lookup subtype = some d) (hd : 0 < d) (hr : 0 < rate) (hc : 0 < channels)
    (hb : nbytes < 2 ^ 50) (hrb : rate * (d * channels) ≤ 2 ^ 46) :
    ∃ (m : ℤ) (n : ℕ), chunkSizeSamples subtype channels rate nbytes = .ok m ∧ Buffer.chunkSizeSamples subtype channels rate nbytes = .ok n ∧
      rate ≤ m ∧ m ≤ n ∧ (n : ℤ) - 1 ≤ m ∧ (m ≠ n → d * channels ∣ nbytes) := by
  have h0 : d * rate * channels ≠ 0 := by positivity
  unfold chunkSizeSamples Buffer.chunkSizeSamples
  simp only [hs, h0, if_false]
  refine ⟨_, _, rfl, rfl, ?_⟩
  obtain ⟨k, hk⟩ : ∃ k, k = d * channels := ⟨_, rfl⟩
  have k0 : 0 < k := by rw [hk]; positivity
  have k0' : (0 : ℚ) < k := by exact_mod_cast k0
  have r0' : (0 : ℚ) < rate := by exact_mod_cast hr
  have k1' : (1 : ℚ) ≤ k := by exact_mod_cast k0
  have hkr : ((d * rate * channels : ℕ) : ℚ) = k * rate := by rw [hk]; push_cast; ring
  rw [hkr, ← hk]
  rw [← hk] at hrb
  have hrq : (rate : ℚ) * k ≤ 2 ^ 46 := by exact_mod_cast hrb
  have hbq : (nbytes : ℚ) < 2 ^ 50 := by exact_mod_cast hb
  rw [show (2 : ℚ) ^ 50 = 1125899906842624 by norm_num] at hbq
  have hr53 : rate ≤ 2 ^ 53 := by
    have : rate * 1 ≤ rate * k := Nat.mul_le_mul_left _ k0
    omega
  unfold chunkSamples
  rw [fl64_natCast rate hr53]
  have hkr2 : ((k * rate : ℕ) : ℚ) = k * rate := by push_cast; ring
  rw [hkr2]
  obtain ⟨Y, hY⟩ : ∃ Y : ℚ, Y = (nbytes : ℚ) / (k * rate) := ⟨_, rfl⟩
  rw [← hY]
  have Y0 : 0 ≤ Y := by rw [hY]; positivity
  have eY := fl64_error Y
  rw [abs_of_nonneg Y0] at eY
  have eZ := fl64_error (fl64 Y - 6)
  obtain ⟨v, hv⟩ : ∃ v : ℚ, v = max 1 (Y - 6) := ⟨_, rfl⟩
  obtain ⟨z, hz⟩ : ∃ z : ℚ, z = max 1 (fl64 (fl64 Y - 6)) := ⟨_, rfl⟩
  rw [← hv, ← hz]
  have v1 : 1 ≤ v := by rw [hv]; exact le_max_left _ _
  have z1 : 1 ≤ z := by rw [hz]; exact le_max_left _ _
  have vY : v ≤ 1 + Y := by rw [hv]; exact max_le (by linarith) (by linarith)
  have zv : |z - v| ≤ (2 * Y + 7) / 2 ^ 52 := by
    have hh : |fl64 (fl64 Y - 6) - (Y - 6)| ≤ (2 * Y + 7) / 2 ^ 52 := by
      have a1 := abs_le.1 eY
      have ab : |fl64 Y - 6| ≤ 2 * Y + 6 := by
        rw [abs_le]; norm_num at a1 ⊢; constructor <;> linarith [a1.1, a1.2]
      have a2 := abs_le.1 eZ
      have a3 : |fl64 Y - 6| / 2 ^ 53 ≤ (2 * Y + 6) / 2 ^ 53 := by
        apply div_le_div_of_nonneg_right ab; norm_num
      rw [abs_le]; norm_num at a1 a2 a3 ⊢; constructor <;> linarith [a1.1, a1.2, a2.1, a2.2]
    rw [hv, hz]
    exact le_trans (abs_max_sub_max_le_max _ _ _ _) (by
      rw [sub_self, abs_zero]; exact max_le (by positivity) hh)
  obtain ⟨l2, u2⟩ := fl64_bounds (z * rate) (by positivity)
  have low : (rate : ℚ) ≤ fl64 (z * rate) := by
    refine fl64_ge _ _ ?_ ?_
    · have := double_int (rate : ℤ) (by rw [abs_of_nonneg (by omega)]; exact_mod_cast hr53)
      simpa using this
    · nlinarith
  have tr : trunc (fl64 (z * rate)) = ⌊fl64 (z * rate)⌋ := by
    unfold trunc; exact if_neg (not_lt.2 (by linarith))
  rw [tr]
  -- the exact number is a multiple of `1 / k`
  have hYr : Y * rate = (nbytes : ℚ) / k := by rw [hY]; field_simp
  obtain ⟨N, hN, hNd⟩ : ∃ N : ℤ, v * rate = (N : ℚ) / k ∧ ((k : ℤ) ∣ N → N / k = rate ∨ (k : ℤ) ∣ nbytes) := by
    by_cases c : (1 : ℚ) ≤ Y - 6
    · refine ⟨(nbytes : ℤ) - 6 * rate * k, ?_, ?_⟩
      · rw [hv, max_eq_right c, sub_mul, hYr]; push_cast; field_simp
      · intro h
        right
        have := Int.dvd_add h (Dvd.intro_left (6 * (rate : ℤ)) rfl : (k : ℤ) ∣ 6 * rate * k)
        simpa using this
    · rw [not_le] at c
      refine ⟨rate * k, ?_, ?_⟩
      · rw [hv, max_eq_left c.le]; push_cast; field_simp
      · intro _
        left
        exact Int.mul_ediv_cancel _ (by exact_mod_cast k0.ne')
  have yk : Y * rate * k = nbytes := by rw [hYr]; field_simp
  have close : |fl64 (z * rate) - v * rate| < 1 / k := by
    rw [lt_div_iff₀ k0']
    have b1 : |fl64 (z * rate) - z * rate| ≤ z * rate / 2 ^ 53 := by
      have := fl64_error (z * rate)
      rwa [abs_of_nonneg (a := z * rate) (by positivity)] at this
    have b2 : |z * rate - v * rate| ≤ (2 * Y + 7) / 2 ^ 52 * rate := by
      rw [← sub_mul, abs_mul, abs_of_pos r0']
      exact mul_le_mul_of_nonneg_right zv r0'.le
    have b3 : z ≤ 2 * Y + 9 := by
      have := (abs_le.1 zv).2
      norm_num at this
      linarith
    have b4 : z * rate / 2 ^ 53 ≤ (2 * Y + 9) * rate / 2 ^ 53 := by
      apply div_le_div_of_nonneg_right _ (by norm_num)
      exact mul_le_mul_of_nonneg_right b3 r0'.le
    have b5 : |fl64 (z * rate) - v * rate| ≤ (2 * Y + 9) * rate / 2 ^ 53 + (2 * Y + 7) / 2 ^ 52 * rate :=
      le_trans (abs_sub_le _ (z * rate) _) (add_le_add (b1.trans b4) b2)
    have b6 : ((2 * Y + 9) * rate / 2 ^ 53 + (2 * Y + 7) / 2 ^ 52 * rate) * k = (6 * (Y * rate * k) + 23 * (rate * k)) / 2 ^ 53 := by ring
    have b7 := mul_le_mul_of_nonneg_right b5 k0'.le
    rw [b6, yk] at b7
    norm_num at b7 hrq ⊢
    linarith
  rw [hN] at close ⊢
  obtain ⟨f1, f2, f3⟩ := floor_close _ N k k0 close
  have fl : ((N : ℚ) / k).floor = N / k := by
    have := Rat.floor_intCast_div_natCast N k
    exact this
  rw [fl]
  have low' : (rate : ℤ) ≤ ⌊fl64 (z * rate)⌋ := by rw [Int.le_floor]; exact_mod_cast low
  have nn : ((N / (k : ℤ)).toNat : ℤ) = N / k := Int.toNat_of_nonneg (by omega)
  rw [nn]
  refine ⟨low', f1, f2, fun hne => ?_⟩
  rcases hNd (f3 hne) with h | h
  · exact absurd (le_antisymm f1 (by rw [h]; exact low')) hne
  · exact_mod_cast h

example : ∃ (m : ℤ) (n : ℕ), chunkSizeSamples "PCM_16" 2 44100 5000000 = .ok m ∧ Buffer.chunkSizeSamples "PCM_16" 2 44100 5000000 = .ok n ∧
    (44100 : ℕ) ≤ m ∧ m ≤ n ∧ (n : ℤ) - 1 ≤ m ∧ (m ≠ n → 2 * 2 ∣ 5000000) :=
  C326_chunk_size _ _ _ _ 2 (by decide) (by decide) (by decide) (by decide) (by norm_num) (by norm_num)

end Zounds.FloatSizes
