import Verif.Model.WindowFunc
import Verif.Props.Synth
import Mathlib.Tactic.FieldSimp
import Mathlib.Analysis.SpecialFunctions.Trigonometric.Bounds

/-!
# C50: windowing functions
-/

namespace Zounds.WindowFunc
open Real

variable {α β : Type}

/-! ## Weighting -/

/-- **C50, weights**: sample `i` along the last axis of every row is multiplied by coefficient `i`; nothing else changes. -/
theorem C50_weights [Mul α] (cast : β → α) (f : Nat → List β) (a : LastAxis α) (hf : ∀ n, (f n).length = n) :
    ∃ out, apply cast (some f) a = .ok out ∧ out.lead = a.lead ∧ out.n = a.n ∧ out.rows.length = a.rows.length ∧
      ∀ (j i : Nat) (x : α) (c : β), (a.rows[j]?.bind fun r => r[i]?) = some x → (f a.n)[i]? = some c →
        (out.rows[j]?.bind fun r => r[i]?) = some (cast c * x) := by
  refine ⟨_, if_pos (hf a.n), rfl, rfl, by simp, ?_⟩
  intro j i x c hx hc
  simp only [List.getElem?_map]
  cases hr : a.rows[j]? with
  | none => rw [hr] at hx; simp at hx
  | some r =>
    rw [hr] at hx
    simp at hx
    simp [List.getElem?_zipWith, hx, hc]

example := C50_weights (α := ℚ) (β := ℚ) id (fun n => List.replicate n (3 / 4)) ⟨[1], 3, [[5, -7, 100]]⟩ (by simp)

/-- **C50, identity**: the identity windowing function changes nothing. -/
theorem C50_identity [Mul α] (cast : β → α) (a : LastAxis α) : apply cast none a = .ok a := rfl

/-- **C50, refuted for integer samples**: coefficients are truncated to integers, so a window whose coefficients are all in `[0, 1)`
silences integer audio. -/
theorem C50_integer_refuted (f : Nat → List ℝ) (a : LastAxis Int) (hf : (f a.n).length = a.n)
    (ha : ∀ r ∈ a.rows, r.length = a.n) (h01 : ∀ c ∈ f a.n, 0 ≤ c ∧ c < 1) :
    ∃ out, apply toIntCast (some f) a = .ok out ∧ out.rows = a.rows.map fun _ => List.replicate a.n 0 := by
  refine ⟨_, if_pos hf, ?_⟩
  simp only
  apply List.map_congr_left
  intro r hr
  apply List.ext_getElem
  · simp [hf, ha r hr]
  · intro i h1 h2
    have hi : i < (f a.n).length := by simp at h1; omega
    have := h01 _ (List.getElem_mem hi)
    have hz : toIntCast (f a.n)[i] = 0 := by
      unfold toIntCast
      rw [if_pos this.1, Int.floor_eq_zero_iff]
      exact ⟨this.1, this.2⟩
    simp [hz]

/-- **C50, refuted for audio with a channel axis**: windows of audio with `c` channels are weighted along the channels: the
coefficient does not depend on the position in the window, and the window function is asked for only `c` coefficients. -/
theorem C50_channels_refuted [Mul α] (cast : β → α) (f : Nat → List β) (frames n c : Nat) (rows : List (List α))
    (hf : (f c).length = c) :
    ∃ out, apply cast (some f) ⟨[frames, n], c, rows⟩ = .ok out ∧
      out.rows = rows.map fun r => List.zipWith (fun w x => cast w * x) (f c) r :=
  ⟨_, if_pos hf, rfl⟩

/-! ## Hanning -/

theorem hanning_length (n : Nat) : (hanning n).length = n := by
  unfold hanning; split
  · rename_i h; simp [h]
  · simp

/-- **C50, hanning**: coefficients lie in `[0, 1]`. -/
theorem C50_hanning_range (n : Nat) : ∀ c ∈ hanning n, 0 ≤ c ∧ c ≤ 1 := by
  intro c hc
  unfold hanning at hc
  split at hc
  · simp at hc; subst hc; norm_num
  · simp only [List.mem_map] at hc
    obtain ⟨i, -, rfl⟩ := hc
    have h1 := Real.cos_le_one (2 * Real.pi * (i : ℝ) / ((n : ℝ) - 1))
    have h2 := Real.neg_one_le_cos (2 * Real.pi * (i : ℝ) / ((n : ℝ) - 1))
    constructor <;> linarith

/-- **C50, refuted**: a Hanning window for stereo audio has the coefficients 0 and 0: every sample is silenced. -/
theorem C50_hanning_stereo_refuted (frames n : Nat) (rows : List (List ℝ)) (hr : ∀ r ∈ rows, r.length = 2) :
    ∃ out, apply id (some hanning) ⟨[frames, n], 2, rows⟩ = .ok out ∧ out.rows = rows.map fun _ => [0, 0] := by
  have h2 : hanning 2 = [0, 0] := by
    norm_num [hanning, List.range_succ]
  obtain ⟨out, e, h⟩ := C50_channels_refuted (id : ℝ → ℝ) hanning frames n 2 rows (hanning_length 2)
  refine ⟨out, e, ?_⟩
  rw [h, h2]
  apply List.map_congr_left
  intro r hr'
  match r, hr r hr' with
  | [x, y], _ => simp

/-- **C50, refuted**: `np.hanning` is the symmetric window, so half-lapped Hanning windows do not add up to one: already the first
sample of the overlap is short. -/
theorem C50_hanning_shift_refuted (m : Nat) (hm : 2 ≤ m) :
    ∃ a b, (hanning (2 * m))[0]? = some a ∧ (hanning (2 * m))[m]? = some b ∧ a + b < 1 := by
  have h1 : 2 * m ≠ 1 := by omega
  have hm' : (2 : ℝ) ≤ m := by exact_mod_cast hm
  refine ⟨0, 1 / 2 - 1 / 2 * Real.cos (2 * Real.pi * (m : ℝ) / (((2 * m : Nat) : ℝ) - 1)), ?_, ?_, ?_⟩
  · have h0 : 0 < 2 * m := by omega
    simp [hanning, h1, h0]
  · have : m < 2 * m := by omega
    simp [hanning, h1, this]
  · -- the angle is strictly between π and 2 π
    have hpos : (0 : ℝ) < ((2 * m : Nat) : ℝ) - 1 := by push_cast; linarith
    have hlt : -1 < Real.cos (2 * Real.pi * (m : ℝ) / (((2 * m : Nat) : ℝ) - 1)) := by
      have e : 2 * Real.pi * (m : ℝ) / (((2 * m : Nat) : ℝ) - 1) = Real.pi / (((2 * m : Nat) : ℝ) - 1) + Real.pi := by
        field_simp; push_cast; ring
      rw [e, Real.cos_add_pi]
      have hx0 : 0 < Real.pi / (((2 * m : Nat) : ℝ) - 1) := div_pos Real.pi_pos hpos
      have hx1 : Real.pi / (((2 * m : Nat) : ℝ) - 1) < 2 * Real.pi := by
        rw [div_lt_iff₀ hpos]; push_cast; nlinarith [Real.pi_pos]
      have : Real.cos (Real.pi / (((2 * m : Nat) : ℝ) - 1)) < 1 := by
        have hx2 : Real.pi / (((2 * m : Nat) : ℝ) - 1) ≤ Real.pi := by
          rw [div_le_iff₀ hpos]; push_cast; nlinarith [Real.pi_pos]
        have := Real.cos_lt_cos_of_nonneg_of_le_pi (le_refl 0) hx2 hx0
        simpa using this
      linarith
    linarith

/-! ## Ogg Vorbis window -/

theorem angle_sq (x : ℝ) : 0 ≤ 1 / 2 * π * Real.sin x ^ 2 ∧ 1 / 2 * π * Real.sin x ^ 2 ≤ π / 2 := by
  have h1 := Real.sin_sq_le_one x
  have h2 := sq_nonneg (Real.sin x)
  have h3 := Real.pi_pos
  constructor
  · positivity
  · nlinarith

theorem oggRaw_nonneg (n i : Nat) : 0 ≤ oggRaw n i := by
  obtain ⟨h1, h2⟩ := angle_sq (((i : ℝ) + 1 / 2) / (n : ℝ) * π)
  exact Real.sin_nonneg_of_nonneg_of_le_pi h1 (by linarith [Real.pi_pos])

theorem oggRaw_le_one (n i : Nat) : oggRaw n i ≤ 1 := Real.sin_le_one _

theorem oggRaw_pos (n i : Nat) (h : i < n) : 0 < oggRaw n i := by
  have hn : (0 : ℝ) < n := by exact_mod_cast (by omega : 0 < n)
  have hi : (i : ℝ) + 1 / 2 < n := by
    have : ((i + 1 : Nat) : ℝ) ≤ n := by exact_mod_cast h
    push_cast at this; linarith
  have h1 : 0 < ((i : ℝ) + 1 / 2) / (n : ℝ) * π := by positivity
  have h2 : ((i : ℝ) + 1 / 2) / (n : ℝ) * π < π := by
    have : ((i : ℝ) + 1 / 2) / (n : ℝ) < 1 := (div_lt_one hn).2 hi
    nlinarith [Real.pi_pos]
  have hs := Real.sin_pos_of_pos_of_lt_pi h1 h2
  obtain ⟨-, hle⟩ := angle_sq (((i : ℝ) + 1 / 2) / (n : ℝ) * π)
  unfold oggRaw
  apply Real.sin_pos_of_pos_of_lt_pi
  · have := Real.pi_pos; positivity
  · linarith [Real.pi_pos]

theorem foldr_max_ge (l : List ℝ) (x : ℝ) (h : x ∈ l) : x ≤ l.foldr max 0 := by
  induction l with
  | nil => simp at h
  | cons y ys ih =>
    simp only [List.foldr_cons]
    rcases List.mem_cons.1 h with rfl | h
    · exact le_max_left _ _
    · exact le_trans (ih h) (le_max_right _ _)

theorem foldr_max_mem (l : List ℝ) (h : l ≠ []) (h0 : ∀ x ∈ l, 0 ≤ x) : l.foldr max 0 ∈ l := by
  induction l with
  | nil => exact absurd rfl h
  | cons y ys ih =>
    simp only [List.foldr_cons]
    by_cases hy : ys = []
    · subst hy
      simp [max_eq_left (h0 y (by simp))]
    · have := ih hy (fun x hx => h0 x (by simp [hx]))
      rcases max_choice y (ys.foldr max 0) with e | e
      · rw [e]; simp
      · rw [e]; simp [this]

theorem oggMax_spec (n : Nat) (h : 0 < n) : (∃ i < n, oggMax n = oggRaw n i) ∧ ∀ i < n, oggRaw n i ≤ oggMax n := by
  constructor
  · have := foldr_max_mem ((List.range n).map (oggRaw n)) (by simp; omega) (by
      intro x hx; simp at hx; obtain ⟨i, -, rfl⟩ := hx; exact oggRaw_nonneg n i)
    simp only [List.mem_map, List.mem_range] at this
    obtain ⟨i, hi, e⟩ := this
    exact ⟨i, hi, e.symm⟩
  · intro i hi
    exact foldr_max_ge _ _ (List.mem_map.2 ⟨i, by simpa using hi, rfl⟩)

theorem oggMax_pos (n : Nat) (h : 0 < n) : 0 < oggMax n := by
  obtain ⟨i, hi, e⟩ := (oggMax_spec n h).1
  rw [e]; exact oggRaw_pos n i hi

theorem oggMax_le_one (n : Nat) (h : 0 < n) : oggMax n ≤ 1 := by
  obtain ⟨i, hi, e⟩ := (oggMax_spec n h).1
  rw [e]; exact oggRaw_le_one n i

theorem oggvorbis_length (n : Nat) : (oggvorbis n).length = n := by simp [oggvorbis]

theorem oggvorbis_get (n i : Nat) (h : i < n) : (oggvorbis n)[i]? = some (oggRaw n i * (1 / oggMax n)) := by
  simp [oggvorbis, h]

/-- **C50, ogg vorbis range**: every coefficient is in `(0, 1]` and the largest is exactly 1. -/
theorem C50_ogg_range (n : Nat) (h : 0 < n) : (∀ c ∈ oggvorbis n, 0 < c ∧ c ≤ 1) ∧ (1 : ℝ) ∈ oggvorbis n := by
  have hM := oggMax_pos n h
  constructor
  · intro c hc
    simp only [oggvorbis, List.mem_map, List.mem_range] at hc
    obtain ⟨i, hi, rfl⟩ := hc
    have h1 := oggRaw_pos n i hi
    have h2 := (oggMax_spec n h).2 i hi
    refine ⟨by positivity, ?_⟩
    rw [mul_one_div, div_le_one hM]; exact h2
  · obtain ⟨i, hi, e⟩ := (oggMax_spec n h).1
    simp only [oggvorbis, List.mem_map, List.mem_range]
    exact ⟨i, hi, by rw [← e, mul_one_div, div_self hM.ne']⟩

example := C50_ogg_range 2048 (by decide)

/-- **C50, ogg vorbis symmetry**. -/
theorem C50_ogg_symmetric (n i : Nat) (h : i < n) : (oggvorbis n)[n - 1 - i]? = (oggvorbis n)[i]? := by
  rw [oggvorbis_get n i h, oggvorbis_get n (n - 1 - i) (by omega)]
  have hn : (n : ℝ) ≠ 0 := by exact_mod_cast (by omega : n ≠ 0)
  have : oggRaw n (n - 1 - i) = oggRaw n i := by
    unfold oggRaw
    have e : (((n - 1 - i : Nat) : ℝ) + 1 / 2) / (n : ℝ) * π = π - ((i : ℝ) + 1 / 2) / (n : ℝ) * π := by
      have : ((n - 1 - i : Nat) : ℝ) = (n : ℝ) - 1 - i := by
        rw [Nat.cast_sub (by omega), Nat.cast_sub (by omega)]; simp
      rw [this]; field_simp; ring
    rw [e, Real.sin_pi_sub]
  rw [this]

example := C50_ogg_symmetric 2048 7 (by decide)

theorem oggRaw_power (m i : Nat) (hm : 0 < m) : oggRaw (2 * m) i ^ 2 + oggRaw (2 * m) (i + m) ^ 2 = 1 := by
  have hm' : (m : ℝ) ≠ 0 := by exact_mod_cast hm.ne'
  unfold oggRaw
  have e : (((i + m : Nat) : ℝ) + 1 / 2) / ((2 * m : Nat) : ℝ) * π = ((i : ℝ) + 1 / 2) / ((2 * m : Nat) : ℝ) * π + π / 2 := by
    push_cast; field_simp; ring
  rw [e, Real.sin_add_pi_div_two]
  have e2 : 1 / 2 * π * Real.cos (((i : ℝ) + 1 / 2) / ((2 * m : Nat) : ℝ) * π) ^ 2 =
      π / 2 - 1 / 2 * π * Real.sin (((i : ℝ) + 1 / 2) / ((2 * m : Nat) : ℝ) * π) ^ 2 := by
    rw [Real.cos_sq']; ring
  rw [e2, Real.sin_pi_div_two_sub, Real.sin_sq_add_cos_sq]

/-- **C50, ogg vorbis power**: half a window apart, the squares of the coefficients sum to the same value everywhere: one over the
square of the largest unscaled coefficient. -/
theorem C50_ogg_power (m i : Nat) (h : i < m) :
    ∃ a b, (oggvorbis (2 * m))[i]? = some a ∧ (oggvorbis (2 * m))[i + m]? = some b ∧
      a ^ 2 + b ^ 2 = 1 / oggMax (2 * m) ^ 2 := by
  refine ⟨_, _, oggvorbis_get _ i (by omega), oggvorbis_get _ (i + m) (by omega), ?_⟩
  have := oggRaw_power m i (by omega)
  rw [mul_pow, mul_pow, ← add_mul, this, one_mul, one_div_pow]

example := C50_ogg_power 1024 7 (by decide)

/-- For windows of even size no unscaled coefficient reaches one. -/
theorem oggMax_lt_one (m : Nat) (hm : 0 < m) : oggMax (2 * m) < 1 := by
  obtain ⟨i, hi, e⟩ := (oggMax_spec (2 * m) (by omega)).1
  rw [e]
  by_cases h : i < m
  · have h1 := oggRaw_power m i hm
    have h2 := oggRaw_pos (2 * m) (i + m) (by omega)
    have h3 := oggRaw_nonneg (2 * m) i
    nlinarith
  · have h1 := oggRaw_power m (i - m) hm
    have e2 : i - m + m = i := by omega
    rw [e2] at h1
    have h2 := oggRaw_pos (2 * m) (i - m) (by omega)
    have h3 := oggRaw_nonneg (2 * m) i
    nlinarith

/-- **C50, refuted**: the squares never sum to one (the Princen-Bradley condition): the scaling makes the sum larger than one for every
even window size. -/
theorem C50_princen_bradley_refuted (m i : Nat) (h : i < m) :
    ∃ a b, (oggvorbis (2 * m))[i]? = some a ∧ (oggvorbis (2 * m))[i + m]? = some b ∧ 1 < a ^ 2 + b ^ 2 := by
  obtain ⟨a, b, ha, hb, e⟩ := C50_ogg_power m i h
  refine ⟨a, b, ha, hb, ?_⟩
  rw [e]
  have h1 := oggMax_pos (2 * m) (by omega)
  have h2 := oggMax_lt_one m (by omega)
  rw [lt_div_iff₀ (by positivity), one_mul]
  nlinarith

/-- **C50, how far off**: the largest unscaled coefficient of a window of `n = 2 m` samples is at least `1 − (π²/8) (π/(2 n))⁴`. -/
theorem C50_ogg_gain_bound (m : Nat) (hm : 0 < m) :
    1 - π ^ 2 / 8 * (π / (2 * ((2 * m : Nat) : ℝ))) ^ 4 ≤ oggMax (2 * m) := by
  have hm' : (m : ℝ) ≠ 0 := by exact_mod_cast hm.ne'
  refine le_trans ?_ ((oggMax_spec (2 * m) (by omega)).2 m (by omega))
  set y : ℝ := π / (2 * ((2 * m : Nat) : ℝ)) with hy
  have e : ((m : ℝ) + 1 / 2) / ((2 * m : Nat) : ℝ) * π = y + π / 2 := by
    rw [hy]; push_cast; field_simp; ring
  unfold oggRaw
  rw [e, Real.sin_add_pi_div_two]
  have e2 : 1 / 2 * π * Real.cos y ^ 2 = π / 2 - 1 / 2 * π * Real.sin y ^ 2 := by
    rw [Real.cos_sq']; ring
  rw [e2, Real.sin_pi_div_two_sub]
  have h1 := Real.one_sub_sq_div_two_le_cos (x := 1 / 2 * π * Real.sin y ^ 2)
  have h2 : Real.sin y ^ 2 ≤ y ^ 2 := by
    have := Real.abs_sin_le_abs (x := y)
    exact sq_le_sq.2 this
  have h3 : Real.sin y ^ 4 ≤ y ^ 4 := by
    have h4 : 0 ≤ Real.sin y ^ 2 := sq_nonneg _
    nlinarith [sq_nonneg y]
  have h5 : (1 / 2 * π * Real.sin y ^ 2) ^ 2 / 2 = π ^ 2 / 8 * Real.sin y ^ 4 := by ring
  rw [h5] at h1
  have h6 : π ^ 2 / 8 * Real.sin y ^ 4 ≤ π ^ 2 / 8 * y ^ 4 := by
    apply mul_le_mul_of_nonneg_left h3; positivity
  linarith

example := C50_ogg_gain_bound 1024 (by decide)

/-- **C50, refuted**: for stereo audio the ogg vorbis window has the coefficients 1 and 1: windows are not weighted at all. -/
theorem C50_ogg_stereo_refuted (frames n : Nat) (rows : List (List ℝ)) (hr : ∀ r ∈ rows, r.length = 2) :
    ∃ out, apply id (some oggvorbis) ⟨[frames, n], 2, rows⟩ = .ok out ∧ out.rows = rows := by
  have h0 := C50_ogg_symmetric 2 0 (by omega)
  have hmem := (C50_ogg_range 2 (by omega)).2
  have hl := oggvorbis_length 2
  have h2 : oggvorbis 2 = [1, 1] := by
    match hw : oggvorbis 2, hl with
    | [a, b], _ =>
      rw [hw] at h0 hmem
      simp at h0 hmem
      rcases hmem with h | h
      · rw [← h] at h0 ⊢; rw [h0]
      · rw [← h] at h0 ⊢; rw [← h0]
  obtain ⟨out, e, h⟩ := C50_channels_refuted (id : ℝ → ℝ) oggvorbis frames n 2 rows hl
  refine ⟨out, e, ?_⟩
  rw [h, h2]
  have : ∀ r ∈ rows, List.zipWith (fun c x => id c * x) [1, 1] r = id r := by
    intro r hr'
    match r, hr r hr' with
    | [x, y], _ => simp
  rw [List.map_congr_left this, List.map_id]

/-! ## Analysis and synthesis with the ogg vorbis window -/

/-- **C50, analysis and synthesis**: a signal cut into half-lapped windows, weighted by the ogg vorbis window, weighted by it again on
synthesis and overlap-added, comes back scaled by `1 / oggMax²` everywhere but in the first and last half window. -/
theorem C50_ogg_roundtrip (x : Nat → ℝ) (f0 : Int) (m k : Nat) (hf0 : 0 < f0) (hm : 0 < m) :
    ∃ out, Synth.overlapAdd (some (oggvorbis (2 * m)))
        (⟨Synth.windowsDim f0 (2 * m) m (k + 1), 2 * m,
          (List.range (k + 1)).map fun i => (List.range (2 * m)).map fun j => (oggvorbis (2 * m)).getD j 0 * x (i * m + j)⟩ :
            Synth.Frames ℝ) = .ok out ∧
      out.length = (k + 2) * m ∧
      ∀ t, m ≤ t → t < (k + 1) * m → out.getD t 0 = (1 / oggMax (2 * m) ^ 2) * x t := by
  have hs : oggvorbis (2 * m) = (List.range (2 * m)).map fun j => oggRaw (2 * m) j * (1 / oggMax (2 * m)) := rfl
  have hget : ∀ j, j < 2 * m → (oggvorbis (2 * m)).getD j 0 = oggRaw (2 * m) j * (1 / oggMax (2 * m)) := by
    intro j hj
    rw [List.getD_eq_getElem?_getD, oggvorbis_get _ _ hj]; rfl
  have hshift : Synth.ShiftSum (fun j => oggRaw (2 * m) j * (1 / oggMax (2 * m)) * (oggRaw (2 * m) j * (1 / oggMax (2 * m))))
      (2 * m) m (1 / oggMax (2 * m) ^ 2) := by
    intro r hr
    have hp := oggRaw_power m r hm
    have h2 : (Finset.range (2 * m)) = Finset.range (2 + (2 * m - 2)) := by congr 1; omega
    rw [h2, Finset.sum_range_add]
    rw [Finset.sum_range_succ, Finset.sum_range_succ, Finset.sum_range_zero, Finset.sum_eq_zero]
    · rw [if_pos (by omega), if_pos (by omega)]
      simp only [Nat.zero_mul, Nat.one_mul, Nat.add_zero]
      have : oggRaw (2 * m) r * (1 / oggMax (2 * m)) * (oggRaw (2 * m) r * (1 / oggMax (2 * m))) +
          oggRaw (2 * m) (r + m) * (1 / oggMax (2 * m)) * (oggRaw (2 * m) (r + m) * (1 / oggMax (2 * m))) =
          (oggRaw (2 * m) r ^ 2 + oggRaw (2 * m) (r + m) ^ 2) * (1 / oggMax (2 * m)) ^ 2 := by ring
      rw [zero_add, add_zero, this, hp, one_mul, one_div_pow]
    · intro i _
      rw [if_neg]
      have : 2 * m ≤ (2 + i) * m := Nat.mul_le_mul_right _ (by omega)
      omega
  obtain ⟨out, e, l, h⟩ := Synth.C35_analysis_synthesis x (fun j => oggRaw (2 * m) j * (1 / oggMax (2 * m)))
    (fun j => oggRaw (2 * m) j * (1 / oggMax (2 * m))) f0 (2 * m) m k (1 / oggMax (2 * m) ^ 2) hf0 (by omega) hm hshift
  refine ⟨out, ?_, by rw [l]; ring, ?_⟩
  · rw [hs, ← e]
    congr 2
    unfold Synth.weightedWindows
    apply List.map_congr_left
    intro i _
    apply List.map_congr_left
    intro j hj
    rw [← hs, hget j (List.mem_range.1 hj)]
  · intro t h1 h2
    apply h t (by omega) h2
    rw [l]
    have : (k + 1) * m ≤ k * m + 2 * m := by rw [Nat.succ_mul]; omega
    omega

example := C50_ogg_roundtrip (fun t => (t : ℝ)) 22675736 1024 3 (by decide) (by decide)

/-- The hypotheses are met: a window function of the right length, integer samples that a window of 3/4 silences. -/
example : ∃ out, apply toIntCast (some fun n => List.replicate n (3 / 4 : ℝ)) ⟨[1], 3, [[5, -7, 100]]⟩ = .ok out ∧
    out.rows = [[0, 0, 0]] := by
  obtain ⟨out, h1, h2⟩ := C50_integer_refuted (fun n => List.replicate n (3 / 4 : ℝ)) ⟨[1], 3, [[5, -7, 100]]⟩ (by simp) (by simp)
    (by intro c hc; simp at hc; subst hc; norm_num)
  exact ⟨out, h1, by rw [h2]; rfl⟩

end Zounds.WindowFunc
