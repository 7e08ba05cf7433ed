import Verif.Model.Float64
import Verif.Lemmas.Time
import Mathlib.Tactic.Linarith
import Mathlib.Tactic.NormNum
import Mathlib.Tactic.Ring
import Mathlib.Tactic.FieldSimp
import Mathlib.Tactic.Positivity
import Mathlib.Tactic.Push
import Mathlib.Algebra.Order.Field.Power

/-!
# Facts about rounding to double precision
-/

namespace Zounds.Float64
open Zounds Zounds.Time

/-- A double precision number (exponents unbounded). -/
def IsDouble (x : ℚ) : Prop := ∃ m e : ℤ, |m| < 2 ^ 53 ∧ x = m * 2 ^ e

theorem rhe_spec (n d : ℤ) (hd : 0 < d) :
    2 * |n - roundHalfEven n d * d| ≤ d ∧ (2 * |n - roundHalfEven n d * d| = d → roundHalfEven n d % 2 = 0) := by
  have h1 := Int.emod_add_mul_ediv n d
  have h2 := Int.emod_nonneg n (by omega : d ≠ 0)
  have h3 := Int.emod_lt_of_pos n hd
  unfold roundHalfEven
  obtain ⟨q, hq⟩ : ∃ q, q = n / d := ⟨_, rfl⟩
  obtain ⟨r, hr⟩ : ∃ r, r = n % d := ⟨_, rfl⟩
  rw [← hq, ← hr] at h1
  rw [← hr] at h2 h3
  rw [← hq]
  have e0 : n - q * d = r := by rw [← h1]; ring
  have e1 : n - (q + 1) * d = r - d := by rw [← h1]; ring
  simp only [e0]
  split
  · rw [e0, abs_of_nonneg h2]; omega
  · split
    · rw [e1, abs_of_nonpos (by omega)]; omega
    · split
      · rw [e0, abs_of_nonneg h2]; omega
      · rw [e1, abs_of_nonpos (by omega)]; omega

/-- `rint` is within a half, and even at a tie. -/
theorem rint_spec (x : ℚ) : |x - rint x| ≤ 1 / 2 ∧ (|x - rint x| = 1 / 2 → rint x % 2 = 0) := by
  have hd : (0 : ℤ) < x.den := by exact_mod_cast x.den_pos
  have hq : (0 : ℚ) < x.den := by exact_mod_cast x.den_pos
  obtain ⟨h1, h2⟩ := rhe_spec x.num x.den hd
  have hx : x = x.num / x.den := (Rat.num_div_den x).symm
  have key : |x - rint x| * x.den = ((|x.num - roundHalfEven x.num x.den * x.den| : ℤ) : ℚ) := by
    have : (x - rint x) * x.den = ((x.num - roundHalfEven x.num x.den * x.den : ℤ) : ℚ) := by
      unfold rint; push_cast
      have : x * x.den = x.num := Rat.mul_den_eq_num x
      linarith
    rw [Int.cast_abs, ← this, abs_mul, abs_of_pos hq]
  constructor
  · have : (2 : ℚ) * ((|x.num - roundHalfEven x.num x.den * x.den| : ℤ) : ℚ) ≤ x.den := by exact_mod_cast h1
    rw [← key] at this
    nlinarith
  · intro h
    apply h2
    have : (2 : ℚ) * ((|x.num - roundHalfEven x.num x.den * x.den| : ℤ) : ℚ) = x.den := by rw [← key, h]; ring
    exact_mod_cast this

/-- An integer nearest to `x`, even at a tie, is `rint x`. -/
theorem rint_unique (x : ℚ) (k : ℤ) (h : |x - k| ≤ 1 / 2) (h2 : |x - k| = 1 / 2 → k % 2 = 0) : rint x = k := by
  obtain ⟨h3, h4⟩ := rint_spec x
  have hb1 := abs_le.1 h
  have hb2 := abs_le.1 h3
  have c1 : (rint x : ℚ) ≤ k + 1 := by linarith
  have c2 : (k : ℚ) ≤ rint x + 1 := by linarith
  have c1' : rint x ≤ k + 1 := by exact_mod_cast c1
  have c2' : k ≤ rint x + 1 := by exact_mod_cast c2
  rcases (by omega : rint x = k ∨ rint x = k + 1 ∨ rint x + 1 = k) with e | e | e
  · exact e
  · have e' : (rint x : ℚ) = k + 1 := by exact_mod_cast e
    have t : x = k + 1 / 2 := by linarith
    have a1 : k % 2 = 0 := h2 (by rw [t, show ((k : ℚ) + 1 / 2 - k) = 1 / 2 by ring]; norm_num)
    have a2 : rint x % 2 = 0 := h4 (by rw [e', t, show ((k : ℚ) + 1 / 2 - (k + 1)) = -(1 / 2) by ring]; norm_num)
    omega
  · have e' : (rint x : ℚ) = k - 1 := by have : (rint x : ℚ) + 1 = k := by exact_mod_cast e
                                         linarith
    have t : x = k - 1 / 2 := by linarith
    have a1 : k % 2 = 0 := h2 (by rw [t, show ((k : ℚ) - 1 / 2 - k) = -(1 / 2) by ring]; norm_num)
    have a2 : rint x % 2 = 0 := h4 (by rw [e', t, show ((k : ℚ) - 1 / 2 - (k - 1)) = 1 / 2 by ring]; norm_num)
    omega

/-- No integer is nearer than `rint x`. -/
theorem rint_nearest (x : ℚ) (k : ℤ) : |x - rint x| ≤ |x - k| := by
  by_cases h : |x - k| < 1 / 2
  · have : rint x = k := rint_unique x k h.le (fun e => absurd e h.ne)
    rw [this]
  · exact (rint_spec x).1.trans (not_lt.1 h)

theorem rint_int (k : ℤ) : rint k = k := rint_unique _ _ (by simp) (by simp)

theorem rint_eq_rhe (a b : ℤ) (hb : 0 < b) : rint ((a : ℚ) / b) = roundHalfEven a b := by
  have hq : (0 : ℚ) < b := by exact_mod_cast hb
  obtain ⟨h1, h2⟩ := rhe_spec a b hb
  have key : |(a : ℚ) / b - roundHalfEven a b| * b = ((|a - roundHalfEven a b * b| : ℤ) : ℚ) := by
    have : ((a : ℚ) / b - roundHalfEven a b) * b = ((a - roundHalfEven a b * b : ℤ) : ℚ) := by
      push_cast; field_simp
    rw [Int.cast_abs, ← this, abs_mul, abs_of_pos hq]
  apply rint_unique
  · have : (2 : ℚ) * ((|a - roundHalfEven a b * b| : ℤ) : ℚ) ≤ b := by exact_mod_cast h1
    rw [← key] at this
    nlinarith
  · intro h
    apply h2
    have : (2 : ℚ) * ((|a - roundHalfEven a b * b| : ℤ) : ℚ) = b := by rw [← key, h]; ring
    exact_mod_cast this

/-- `fl64` on a binade: if `2^e ≤ |x| < 2^(e+1)` the result is the nearest multiple of `2^(e-52)`. -/
theorem fl64_binade (x : ℚ) (e : ℤ) (h1 : 2 ^ e ≤ |x|) (h2 : |x| < 2 ^ (e + 1)) :
    fl64 x = rint (x / 2 ^ (e - 52)) * 2 ^ (e - 52) := by
  have hp : (0 : ℚ) < 2 ^ e := by positivity
  have hx : x ≠ 0 := by intro h; rw [h, abs_zero] at h1; linarith
  have hpos : 0 < |x| := abs_pos.2 hx
  have a1 : e ≤ Int.log 2 |x| := (Int.zpow_le_iff_le_log (by norm_num) hpos).1 (by exact_mod_cast h1)
  have a2 : Int.log 2 |x| < e + 1 := (Int.lt_zpow_iff_log_lt (by norm_num) hpos).1 (by exact_mod_cast h2)
  have : Int.log 2 |x| = e := by omega
  unfold fl64
  rw [if_neg hx, this]

theorem exists_binade (x : ℚ) (hx : x ≠ 0) : ∃ e : ℤ, 2 ^ e ≤ |x| ∧ |x| < 2 ^ (e + 1) := by
  have hpos : 0 < |x| := abs_pos.2 hx
  refine ⟨Int.log 2 |x|, ?_, ?_⟩
  · exact_mod_cast Int.zpow_log_le_self (b := 2) (by norm_num) hpos
  · exact_mod_cast Int.lt_zpow_succ_log_self (b := 2) (by norm_num) |x|

theorem fl64_zero : fl64 0 = 0 := by simp [fl64]

/-- A double whose size is at least `2^e` is a multiple of `2^(e-52)`. -/
theorem double_multiple (y : ℚ) (hy : IsDouble y) (e : ℤ) (h : 2 ^ e ≤ |y|) : ∃ k : ℤ, y = k * 2 ^ (e - 52) := by
  obtain ⟨m, t, hm, rfl⟩ := hy
  have hp : (0 : ℚ) < 2 ^ t := by positivity
  rw [abs_mul, abs_of_pos hp] at h
  have hm' : (|(m : ℚ)|) < 2 ^ 53 := by
    have : ((|m| : ℤ) : ℚ) < ((2 ^ 53 : ℤ) : ℚ) := by exact_mod_cast hm
    rw [Int.cast_abs] at this
    exact_mod_cast this
  have : (2 : ℚ) ^ e < 2 ^ (53 + t) := by
    rw [zpow_add₀ (by norm_num)]
    calc (2 : ℚ) ^ e ≤ |(m : ℚ)| * 2 ^ t := h
      _ < 2 ^ 53 * 2 ^ t := by nlinarith
      _ = _ := by norm_cast
  have hlt : e < 53 + t := (zpow_lt_zpow_iff_right₀ (by norm_num)).1 this
  obtain ⟨n, hn⟩ : ∃ n : ℕ, t = (e - 52) + n := ⟨(t - (e - 52)).toNat, by omega⟩
  refine ⟨m * 2 ^ n, ?_⟩
  rw [hn, zpow_add₀ (by norm_num)]
  push_cast
  rw [zpow_natCast]
  ring

/-- The result is a double. -/
theorem fl64_double (x : ℚ) : IsDouble (fl64 x) := by
  by_cases hx : x = 0
  · rw [hx, fl64_zero]; exact ⟨0, 0, by norm_num, by norm_num⟩
  · obtain ⟨e, h1, h2⟩ := exists_binade x hx
    rw [fl64_binade x e h1 h2]
    have hp : (0 : ℚ) < 2 ^ (e - 52) := by positivity
    have hb : |x / 2 ^ (e - 52)| < 2 ^ 53 := by
      rw [abs_div, abs_of_pos hp, div_lt_iff₀ hp]
      have : (2 : ℚ) ^ (e + 1) = 2 ^ 53 * 2 ^ (e - 52) := by
        rw [← zpow_natCast, ← zpow_add₀ (by norm_num)]; congr 1; push_cast; ring
      rw [← this]; exact h2
    have hs : |rint (x / 2 ^ (e - 52))| ≤ 2 ^ 53 := by
      have h3 := abs_le.1 (rint_spec (x / 2 ^ (e - 52))).1
      have h4 := abs_lt.1 hb
      have l1 : ((rint (x / 2 ^ (e - 52)) : ℤ) : ℚ) < ((2 ^ 53 + 1 : ℤ) : ℚ) := by push_cast; linarith
      have l2 : ((-(2 ^ 53) - 1 : ℤ) : ℚ) < ((rint (x / 2 ^ (e - 52)) : ℤ) : ℚ) := by push_cast; linarith
      have l1' : rint (x / 2 ^ (e - 52)) < 2 ^ 53 + 1 := by exact_mod_cast l1
      have l2' : -(2 ^ 53) - 1 < rint (x / 2 ^ (e - 52)) := by exact_mod_cast l2
      rw [abs_le]; omega
    rcases lt_or_eq_of_le hs with h | h
    · exact ⟨_, _, h, rfl⟩
    · rcases (abs_eq (by norm_num : (0 : ℤ) ≤ 2 ^ 53)).1 h with h' | h'
      · refine ⟨1, e - 52 + 53, by norm_num, ?_⟩
        rw [h', zpow_add₀ (by norm_num)]; push_cast; norm_cast; ring
      · refine ⟨-1, e - 52 + 53, by norm_num, ?_⟩
        rw [h', zpow_add₀ (by norm_num), show (2 : ℚ) ^ (53 : ℤ) = 2 ^ 53 by norm_cast]; push_cast; ring

/-- No double is nearer than the result. -/
theorem fl64_nearest (x y : ℚ) (hy : IsDouble y) : |x - fl64 x| ≤ |x - y| := by
  by_cases hx : x = 0
  · rw [hx, fl64_zero]; simp
  · obtain ⟨e, h1, h2⟩ := exists_binade x hx
    rw [fl64_binade x e h1 h2]
    have hp : (0 : ℚ) < 2 ^ (e - 52) := by positivity
    have grid : ∀ k : ℤ, |x - rint (x / 2 ^ (e - 52)) * 2 ^ (e - 52)| ≤ |x - k * 2 ^ (e - 52)| := by
      intro k
      have h := rint_nearest (x / 2 ^ (e - 52)) k
      have f : ∀ j : ℤ, |x - j * 2 ^ (e - 52)| = |x / 2 ^ (e - 52) - j| * 2 ^ (e - 52) := by
        intro j
        rw [← abs_of_pos hp, ← abs_mul, abs_of_pos hp]
        congr 1; field_simp
      rw [f, f]
      exact mul_le_mul_of_nonneg_right h hp.le
    by_cases hb : 2 ^ e ≤ |y|
    · obtain ⟨k, rfl⟩ := double_multiple y hy e hb
      exact grid k
    · have hb' := not_le.1 hb
      have e52 : (2 : ℚ) ^ e = ((2 ^ 52 : ℤ) : ℚ) * 2 ^ (e - 52) := by
        rw [Int.cast_pow, Int.cast_ofNat]
        rw [← zpow_natCast, ← zpow_add₀ (by norm_num)]; congr 1; push_cast; ring
      have hy' := abs_lt.1 hb'
      rcases le_or_gt 0 x with hs | hs
      · have g := grid (2 ^ 52)
        rw [← e52] at g
        rw [abs_of_nonneg hs] at h1
        rw [abs_of_nonneg (by linarith : (0 : ℚ) ≤ x - 2 ^ e)] at g
        rw [abs_of_nonneg (by linarith : (0 : ℚ) ≤ x - y)]
        linarith
      · have g := grid (-(2 ^ 52))
        rw [Int.cast_neg, neg_mul, ← e52] at g
        rw [abs_of_neg hs] at h1
        rw [abs_of_nonpos (by linarith : x - -2 ^ e ≤ 0)] at g
        rw [abs_of_nonpos (by linarith : x - y ≤ 0)]
        linarith

/-- Doubles are not changed. -/
theorem fl64_self (x : ℚ) (hx : IsDouble x) : fl64 x = x := by
  have h := fl64_nearest x x hx
  rw [sub_self, abs_zero] at h
  have := abs_nonpos_iff.1 h
  linarith

/-- The relative error is at most `2^-53`. -/
theorem fl64_error (x : ℚ) : |fl64 x - x| ≤ |x| / 2 ^ 53 := by
  by_cases hx : x = 0
  · rw [hx, fl64_zero]; simp
  · obtain ⟨e, h1, h2⟩ := exists_binade x hx
    rw [fl64_binade x e h1 h2]
    have hp : (0 : ℚ) < 2 ^ (e - 52) := by positivity
    have h := (rint_spec (x / 2 ^ (e - 52))).1
    have f : |rint (x / 2 ^ (e - 52)) * 2 ^ (e - 52) - x| = |x / 2 ^ (e - 52) - rint (x / 2 ^ (e - 52))| * 2 ^ (e - 52) := by
      rw [abs_sub_comm, ← abs_of_pos hp, ← abs_mul, abs_of_pos hp]
      congr 1; field_simp
    rw [f]
    have e53 : (2 : ℚ) ^ e = 2 ^ 53 * (1 / 2 * 2 ^ (e - 52)) := by
      have : (2 : ℚ) ^ e = 2 ^ 52 * 2 ^ (e - 52) := by
        rw [← zpow_natCast, ← zpow_add₀ (by norm_num)]; congr 1; push_cast; ring
      rw [this]; norm_num; ring
    rw [le_div_iff₀ (by norm_num)]
    nlinarith

theorem fl64_ge (x d : ℚ) (hd : IsDouble d) (h : d ≤ x) : d ≤ fl64 x := by
  by_contra hc
  have hn := fl64_nearest x d hd
  rw [abs_of_nonneg (by linarith), abs_of_nonneg (by linarith)] at hn
  linarith

theorem fl64_le (x d : ℚ) (hd : IsDouble d) (h : x ≤ d) : fl64 x ≤ d := by
  by_contra hc
  have hn := fl64_nearest x d hd
  rw [abs_of_nonpos (by linarith), abs_of_nonpos (by linarith)] at hn
  linarith

/-- Scaling by a power of two is exact. -/
theorem fl64_scale (x : ℚ) (k : ℤ) : fl64 (x * 2 ^ k) = fl64 x * 2 ^ k := by
  by_cases hx : x = 0
  · simp [hx, fl64_zero]
  · obtain ⟨e, h1, h2⟩ := exists_binade x hx
    have hp : (0 : ℚ) < 2 ^ k := by positivity
    rw [fl64_binade x e h1 h2, fl64_binade (x * 2 ^ k) (e + k)]
    · have : (2 : ℚ) ^ (e + k - 52) = 2 ^ (e - 52) * 2 ^ k := by
        rw [← zpow_add₀ (by norm_num)]; congr 1; ring
      rw [this, mul_div_mul_right _ _ hp.ne']; ring
    · rw [abs_mul, abs_of_pos hp, zpow_add₀ (by norm_num)]
      exact mul_le_mul_of_nonneg_right h1 hp.le
    · rw [abs_mul, abs_of_pos hp, show e + k + 1 = (e + 1) + k by ring, zpow_add₀ (by norm_num) (e + 1)]
      exact mul_lt_mul_of_pos_right h2 hp

theorem double_int (k : ℤ) (h : |k| ≤ 2 ^ 53) : IsDouble k := by
  rcases lt_or_eq_of_le h with h | h
  · exact ⟨k, 0, h, by simp⟩
  · rcases (abs_eq (by norm_num : (0 : ℤ) ≤ 2 ^ 53)).1 h with h' | h'
    · exact ⟨1, 53, by norm_num, by rw [h']; norm_num⟩
    · exact ⟨-1, 53, by norm_num, by rw [h']; norm_num⟩

theorem double_half (k : ℤ) (h : |k| ≤ 2 ^ 53) : IsDouble (k / 2) := by
  rcases lt_or_eq_of_le h with h | h
  · exact ⟨k, -1, h, by rw [zpow_neg_one]; ring⟩
  · rcases (abs_eq (by norm_num : (0 : ℤ) ≤ 2 ^ 53)).1 h with h' | h'
    · exact ⟨1, 52, by norm_num, by rw [h']; norm_num⟩
    · exact ⟨-1, 52, by norm_num, by rw [h']; norm_num⟩

theorem fl64_int (k : ℤ) (h : |k| ≤ 2 ^ 53) : fl64 k = k := fl64_self _ (double_int k h)

/-- The quotient of two counts that fit in 53 bits has one rounding. -/
theorem quot_eq (a b : ℤ) (ha : |a| ≤ 2 ^ 53) (hb : |b| ≤ 2 ^ 53) : quot a b = fl64 (a / b) := by
  unfold quot; rw [fl64_int a ha, fl64_int b hb]

/-- The floor of a double quotient is the floor of the quotient. -/
theorem floor_quot (a b : ℤ) (ha : |a| < 2 ^ 53) (hb : 0 < b) : ⌊fl64 ((a : ℚ) / b)⌋ = a / b := by
  have hq : (0 : ℚ) < b := by exact_mod_cast hb
  have habs := abs_lt.1 ha
  have h1 := Int.emod_add_mul_ediv a b
  have h2 := Int.emod_nonneg a (by omega : b ≠ 0)
  have h3 := Int.emod_lt_of_pos a hb
  obtain ⟨k, hk⟩ : ∃ k, k = a / b := ⟨_, rfl⟩
  rw [← hk] at h1 ⊢
  have lo : (k : ℚ) ≤ a / b := by
    rw [le_div_iff₀ hq]; exact_mod_cast (by nlinarith : k * b ≤ a)
  have hi : (a : ℚ) / b ≤ ((k + 1 : ℤ) : ℚ) - 1 / b := by
    rw [div_le_iff₀ hq, sub_mul, one_div, inv_mul_cancel₀ hq.ne']
    have : a + 1 ≤ (k + 1) * b := by nlinarith
    have : (a : ℚ) + 1 ≤ ((k + 1 : ℤ) : ℚ) * b := by exact_mod_cast this
    linarith
  have bk : |k| ≤ 2 ^ 53 := by
    rw [abs_le]; constructor
    · rw [hk]; have := Int.ediv_le_ediv hb habs.1.le
      have : -(2 ^ 53 : ℤ) ≤ -(2 ^ 53) / b := by
        rw [Int.le_ediv_iff_mul_le hb]; nlinarith
      omega
    · rw [hk]
      have : a / b ≤ 2 ^ 53 := by
        have : a / b < 2 ^ 53 + 1 := by rw [Int.ediv_lt_iff_lt_mul hb]; nlinarith
        omega
      exact this
  have bk1 : |k + 1| ≤ 2 ^ 53 := by
    rw [abs_le] at bk ⊢
    refine ⟨by omega, ?_⟩
    have : a / b < 2 ^ 53 := by rw [Int.ediv_lt_iff_lt_mul hb]; nlinarith
    omega
  have f1 := fl64_ge _ _ (double_int k bk) lo
  have f2 : fl64 ((a : ℚ) / b) < ((k + 1 : ℤ) : ℚ) := by
    have hib : (0 : ℚ) < 1 / b := by positivity
    have f3 := fl64_le _ _ (double_int (k + 1) bk1) (by linarith : (a : ℚ) / b ≤ ((k + 1 : ℤ) : ℚ))
    rcases lt_or_eq_of_le f3 with h | h
    · exact h
    · exfalso
      have err := fl64_error ((a : ℚ) / b)
      rw [h, abs_of_nonneg (by linarith), abs_div, abs_of_pos hq] at err
      have ha' : |(a : ℚ)| < 2 ^ 53 := by
        have : ((|a| : ℤ) : ℚ) < ((2 ^ 53 : ℤ) : ℚ) := by exact_mod_cast ha
        rw [Int.cast_abs] at this; exact_mod_cast this
      have : |(a : ℚ)| / b / 2 ^ 53 < 1 / b := by
        rw [div_div, div_lt_div_iff₀ (by positivity) hq]; nlinarith
      linarith
  rw [Int.floor_eq_iff]
  exact ⟨f1, by push_cast at f2; exact f2⟩

/-- Rounding a double quotient to an integer is rounding the quotient. -/
theorem rint_quot (a b : ℤ) (ha : |a| < 2 ^ 52) (hb : 0 < b) : rint (fl64 ((a : ℚ) / b)) = roundHalfEven a b := by
  have hq : (0 : ℚ) < b := by exact_mod_cast hb
  rw [← rint_eq_rhe a b hb]
  obtain ⟨x, hx⟩ : ∃ x, x = (a : ℚ) / b := ⟨_, rfl⟩
  obtain ⟨k, hk⟩ : ∃ k, k = rint x := ⟨_, rfl⟩
  rw [← hx, ← hk]
  obtain ⟨s1, s2⟩ := rint_spec x
  rw [← hk] at s1 s2
  have s1' := abs_le.1 s1
  have ha' : |(a : ℚ)| < 2 ^ 52 := by
    have : ((|a| : ℤ) : ℚ) < ((2 ^ 52 : ℤ) : ℚ) := by exact_mod_cast ha
    rw [Int.cast_abs] at this; exact_mod_cast this
  have b1 : (1 : ℚ) ≤ b := by exact_mod_cast hb
  have xb : |x| < 2 ^ 52 := by
    rw [hx, abs_div, abs_of_pos hq, div_lt_iff₀ hq]; nlinarith
  have xb' := abs_lt.1 xb
  have kb1 : (k : ℚ) < ((2 ^ 52 + 1 : ℤ) : ℚ) := by push_cast; linarith
  have kb2 : ((-(2 ^ 52) - 1 : ℤ) : ℚ) < k := by push_cast; linarith
  have kb1' : k < 2 ^ 52 + 1 := by exact_mod_cast kb1
  have kb2' : -(2 ^ 52) - 1 < k := by exact_mod_cast kb2
  have kb3 : k ≠ 2 ^ 52 ∨ x < k := by
    by_contra h; push Not at h; rw [h.1] at h; push_cast at h; linarith
  have err := fl64_error x
  have ex : |x| / 2 ^ 53 < 1 / (2 * b) := by
    rw [hx, abs_div, abs_of_pos hq, div_div, div_lt_div_iff₀ (by positivity) (by positivity)]; nlinarith
  -- twice the distance from `k` is a multiple of `1 / b`
  have gap : ∀ s : ℤ, x ≠ (s : ℚ) / 2 → 1 / (2 * b) ≤ |x - s / 2| := by
    intro s hs
    have e : x - s / 2 = ((2 * a - s * b : ℤ) : ℚ) / (2 * b) := by rw [hx]; push_cast; field_simp
    rw [e, abs_div, abs_of_pos (by positivity : (0 : ℚ) < 2 * b)]
    apply div_le_div_of_nonneg_right _ (by positivity)
    have : (2 * a - s * b : ℤ) ≠ 0 := by
      intro h0; rw [h0] at e; apply hs; push_cast at e; rw [zero_div] at e; linarith
    have : 1 ≤ |(2 * a - s * b : ℤ)| := Int.one_le_abs this
    exact_mod_cast this
  have bnd : ∀ s : ℤ, s = 2 * k + 1 ∨ s = 2 * k - 1 → ((s : ℚ) / 2 - x = 0 ∨ 1 / (2 * b) ≤ |x - s / 2|) := by
    intro s _
    by_cases h : x = (s : ℚ) / 2
    · left; linarith
    · right; exact gap s h
  apply rint_unique
  · rw [abs_le]
    constructor
    · -- lower half integer
      rcases bnd (2 * k - 1) (Or.inr rfl) with h | h
      · have : fl64 x = x := fl64_self x (by
          have : x = ((2 * k - 1 : ℤ) : ℚ) / 2 := by linarith
          rw [this]; apply double_half; rw [abs_le]
          push_cast at h
          have : ((-(2 ^ 52) : ℤ) : ℚ) < k := by push_cast; linarith
          have : -(2 ^ 52) < k := by exact_mod_cast this
          omega)
        rw [this]; linarith
      · have p : (0 : ℚ) ≤ x - ((2 * k - 1 : ℤ) : ℚ) / 2 := by push_cast; linarith
        rw [abs_of_nonneg p] at h
        have := (abs_le.1 err).1
        push_cast at h; linarith
    · rcases bnd (2 * k + 1) (Or.inl rfl) with h | h
      · have : fl64 x = x := fl64_self x (by
          have : x = ((2 * k + 1 : ℤ) : ℚ) / 2 := by linarith
          rw [this]; apply double_half; rw [abs_le]
          push_cast at h
          refine ⟨by omega, ?_⟩
          have : k ≠ 2 ^ 52 := by
            rcases kb3 with h' | h'
            · exact h'
            · exfalso; linarith
          omega)
        rw [this]; linarith
      · have p : x - ((2 * k + 1 : ℤ) : ℚ) / 2 ≤ 0 := by push_cast; linarith
        rw [abs_of_nonpos p] at h
        have := (abs_le.1 err).2
        push_cast at h; linarith
  · intro hh
    rcases (abs_eq (by norm_num : (0 : ℚ) ≤ 1 / 2)).1 hh with h' | h'
    · rcases bnd (2 * k + 1) (Or.inl rfl) with h | h
      · apply s2; push_cast at h
        rw [show x - k = 1 / 2 by linarith]; norm_num
      · exfalso
        have p : x - ((2 * k + 1 : ℤ) : ℚ) / 2 ≤ 0 := by push_cast; linarith
        rw [abs_of_nonpos p] at h
        have := (abs_le.1 err).2
        push_cast at h; linarith
    · rcases bnd (2 * k - 1) (Or.inr rfl) with h | h
      · apply s2; push_cast at h
        rw [show x - k = -(1 / 2) by linarith]; norm_num
      · exfalso
        have p : (0 : ℚ) ≤ x - ((2 * k - 1 : ℤ) : ℚ) / 2 := by push_cast; linarith
        rw [abs_of_nonneg p] at h
        have := (abs_le.1 err).1
        push_cast at h; linarith

end Zounds.Float64
