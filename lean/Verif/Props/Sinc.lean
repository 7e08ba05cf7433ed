import Verif.Model.Sinc
import Verif.Props.Conv
import Mathlib.Analysis.SpecialFunctions.Trigonometric.Arctan

/-!
# C309: the sinc layer
-/

namespace Zounds.Sinc
open Zounds Zounds.Conv

/-! ## Specification -/

/-- The coordinate of tap `t` of `taps`: equally spaced, symmetric around zero, from `-π` to `π`. -/
noncomputable def coordinate (taps t : Nat) : ℝ := Real.pi * (2 * t - (taps - 1)) / (taps - 1)

/-- The impulse response of the ideal band pass filter from `a` to `b` (radians), up to a constant, at `x`. -/
noncomputable def bandPass (a b x : ℝ) : ℝ := 2 * (Real.sin (b * x) - Real.sin (a * x)) / x

theorem linear_coordinate (taps t : Nat) (h : 2 ≤ taps) : linear taps t = coordinate taps t := by
  unfold linear coordinate
  rw [if_neg (by omega)]
  have : (taps : ℝ) - 1 ≠ 0 := by
    have : (2 : ℝ) ≤ taps := by exact_mod_cast h
    linarith
  field_simp
  ring

theorem coordinate_zero_iff (taps t : Nat) (h : 2 ≤ taps) : coordinate taps t = 0 ↔ 2 * t + 1 = taps := by
  have h2 : (2 : ℝ) ≤ taps := by exact_mod_cast h
  have h1 : (taps : ℝ) - 1 ≠ 0 := by linarith
  unfold coordinate
  rw [div_eq_zero_iff, or_iff_left h1, mul_eq_zero, or_iff_right Real.pi_ne_zero]
  constructor
  · intro he
    have : (2 * t + 1 : ℝ) = taps := by linarith
    exact_mod_cast this
  · intro he
    have : (2 * t + 1 : ℝ) = taps := by exact_mod_cast he
    linarith

/-- **C309** (even numbers of taps): while a band's first frequency is not zero, tap `t` of its filter is the ideal band pass filter of its two frequencies at the tap's
coordinate, times the Hamming window. -/
theorem C309_filter (taps : Nat) (heven : taps % 2 = 0) (h : 2 ≤ taps) (p : ℝ × ℝ) (hp : p.1 ≠ 0) (t : Nat) :
    tap taps p t = some (bandPass (sincStart p) (sincStop p) (coordinate taps t) * (27 / 50 - 23 / 50 * Real.cos (2 * Real.pi * t / taps))) := by
  have hx : coordinate taps t ≠ 0 := by
    rw [Ne, coordinate_zero_iff taps t h]; omega
  have hs : 0 < sincStart p := abs_pos.2 hp
  have hu : 0 < sincStop p := lt_of_lt_of_le hs (C130_sinc_band p).2
  unfold tap sinc
  rw [linear_coordinate taps t h, if_neg (mul_ne_zero hx hu.ne'), if_neg (mul_ne_zero hx hs.ne')]
  simp only [Option.some.injEq]
  unfold bandPass window
  rw [if_neg (by omega)]
  have e1 := hs.ne'
  have e2 := hu.ne'
  congr 1
  rw [mul_comm (sincStop p) (coordinate taps t), mul_comm (sincStart p) (coordinate taps t)]
  field_simp

/-- **C309** (NaN): a tap of at least two is NaN exactly if it is the middle one of an odd number of taps, or a parameter is such that the band starts at zero. -/
theorem C309_nan_iff (taps : Nat) (h : 2 ≤ taps) (p : ℝ × ℝ) (t : Nat) : tap taps p t = none ↔ 2 * t + 1 = taps ∨ p.1 = 0 := by
  have hs : sincStart p = 0 ↔ p.1 = 0 := abs_eq_zero
  have hle := C130_sinc_band p
  unfold tap sinc
  rw [linear_coordinate taps t h]
  by_cases hc : 2 * t + 1 = taps
  · have := (coordinate_zero_iff taps t h).2 hc
    simp [this, hc]
  · have hx : coordinate taps t ≠ 0 := fun e => hc ((coordinate_zero_iff taps t h).1 e)
    by_cases hp : p.1 = 0
    · have : sincStart p = 0 := hs.2 hp
      rw [if_pos (c := coordinate taps t * sincStart p = 0) (by rw [this, mul_zero])]
      simp only [hp, or_true, iff_true]
      split
      · rename_i e; cases e
      · rfl
    · have hs' : 0 < sincStart p := lt_of_le_of_ne hle.1 (Ne.symm fun e => hp (hs.1 e))
      have hu : 0 < sincStop p := lt_of_lt_of_le hs' hle.2
      rw [if_neg (mul_ne_zero hx hu.ne'), if_neg (mul_ne_zero hx hs'.ne')]
      simp [hc, hp]

theorem nanSum_some (l : List ℝ) : nanSum (l.map some) = some l.sum := by
  induction l with
  | nil => rfl
  | cons a l ih => simp [nanSum, ih]

theorem nanSum_none (l : List (Option ℝ)) (h : none ∈ l) : nanSum l = none := by
  induction l with
  | nil => simp at h
  | cons a l ih =>
    cases a with
    | none => rfl
    | some v =>
      have : none ∈ l := by simpa using h
      simp [nanSum, ih this]

/-- **C309** (size): a signal of at least one sample gets one row for every band; a row is as long as the signal if the number of taps is odd and one sample longer if it
is even. -/
theorem C309_size (taps : Nat) (h : 1 ≤ taps) (params : List (ℝ × ℝ)) (x : List ℝ) (hx : x ≠ []) :
    ∃ rows, forward taps params x = .ok rows ∧ rows.length = params.length ∧ ∀ r ∈ rows, r.length = x.length + 1 - taps % 2 := by
  have hl : 1 ≤ x.length := List.length_pos_iff.2 hx
  have key : ∀ bank : List (List (Option ℝ)), (∀ w ∈ bank, w.length = taps) →
      ∃ rows, mapE (fun w => convolve w x (taps / 2)) bank = .ok rows ∧ rows.length = bank.length ∧ ∀ r ∈ rows, r.length = x.length + 1 - taps % 2 := by
    intro bank
    induction bank with
    | nil => intro _; exact ⟨[], rfl, rfl, by simp⟩
    | cons w bank ih =>
      intro hw
      obtain ⟨rows, h1, h2, h3⟩ := ih fun v hv => hw v (by simp [hv])
      have hwl := hw w (by simp)
      have hok : ¬ x.length + 2 * (taps / 2) < w.length := by omega
      unfold mapE
      simp only [convolve, hok, if_false]
      simp only [convolve] at h1
      rw [h1]
      refine ⟨_, rfl, by simp [h2], ?_⟩
      intro r hr
      rcases List.mem_cons.1 hr with rfl | hr
      · simp only [List.length_map, List.length_range]; omega
      · exact h3 r hr
  unfold forward
  rw [if_neg (by simp [hx]; omega)]
  obtain ⟨rows, h1, h2, h3⟩ := key (filterBank taps params) (by
    intro w hw
    simp only [filterBank, List.mem_map] at hw
    obtain ⟨p, -, rfl⟩ := hw
    simp)
  exact ⟨rows, h1, by rw [h2]; simp [filterBank], h3⟩

/-- **C309** (values, even numbers of taps): sample `i` of a band's row is the sum of the taps times the samples around it, zeros outside the signal. -/
theorem C309_values (taps : Nat) (heven : taps % 2 = 0) (h : 2 ≤ taps) (params : List (ℝ × ℝ)) (hp : ∀ p ∈ params, p.1 ≠ 0) (x : List ℝ) (hx : x ≠ []) :
    ∃ rows, forward taps params x = .ok rows ∧ ∀ (b : Nat) p, params[b]? = some p → ∀ i : Nat, i ≤ x.length → ∃ r, rows[b]? = some r ∧
      r[i]? = some (some (((List.range taps).map fun (t : Nat) =>
        bandPass (sincStart p) (sincStop p) (coordinate taps t) * (27 / 50 - 23 / 50 * Real.cos (2 * Real.pi * t / taps)) *
          (if taps / 2 ≤ i + t then x.getD (i + t - taps / 2) 0 else 0)).sum)) := by
  have hl : 1 ≤ x.length := List.length_pos_iff.2 hx
  have key : ∀ ps : List (ℝ × ℝ), (∀ p ∈ ps, p.1 ≠ 0) →
      ∃ rows, mapE (fun w => convolve w x (taps / 2)) (filterBank taps ps) = .ok rows ∧ ∀ (b : Nat) p, ps[b]? = some p → ∀ i : Nat, i ≤ x.length → ∃ r, rows[b]? = some r ∧
      r[i]? = some (some (((List.range taps).map fun (t : Nat) =>
        bandPass (sincStart p) (sincStop p) (coordinate taps t) * (27 / 50 - 23 / 50 * Real.cos (2 * Real.pi * t / taps)) *
          (if taps / 2 ≤ i + t then x.getD (i + t - taps / 2) 0 else 0)).sum)) := by
    intro ps
    induction ps with
    | nil => intro _; exact ⟨[], rfl, by simp⟩
    | cons q ps ih =>
      intro hq
      obtain ⟨rows, h1, h2⟩ := ih fun v hv => hq v (by simp [hv])
      have hok : ¬ x.length + 2 * (taps / 2) < ((List.range taps).map (tap taps q)).length := by simp; omega
      simp only [filterBank] at h1
      simp only [filterBank, List.map_cons, mapE, h1]
      rw [convolve, if_neg hok]
      refine ⟨_, rfl, ?_⟩
      intro b p hb i hi
      cases b with
      | succ b => simpa using h2 b p (by simpa using hb) i hi
      | zero =>
        simp only [List.getElem?_cons_zero, Option.some.injEq] at hb
        subst hb
        refine ⟨_, rfl, ?_⟩
        rw [List.getElem?_map, List.getElem?_range (by simp; omega), Option.map_some, ← nanSum_some]
        congr 2
        rw [List.length_map, List.length_range, List.map_map]
        apply List.map_congr_left
        intro t ht
        have ht' := List.mem_range.1 ht
        have e1 : ((List.range taps).map (tap taps q)).getD t none = tap taps q t := by
          rw [List.getD_eq_getElem?_getD, List.getElem?_map, List.getElem?_range ht']; rfl
        rw [e1, C309_filter taps heven h q (hq q (by simp)) t]
        simp only [nanMul, Function.comp, Option.some.injEq]
        congr 1
        unfold padded
        rw [List.getD_eq_getElem?_getD, List.append_assoc, List.getElem?_append, List.length_replicate]
        by_cases hc : taps / 2 ≤ i + t
        · rw [if_neg (by omega), if_pos hc, List.getElem?_append]
          by_cases hd : i + t - taps / 2 < x.length
          · rw [if_pos hd, List.getD_eq_getElem?_getD]
          · rw [if_neg hd, List.getD_eq_getElem?_getD, List.getElem?_eq_none (l := x) (by omega), List.getElem?_replicate]
            split <;> rfl
        · rw [if_pos (by omega), if_neg hc, List.getElem?_replicate]
          split <;> rfl
  unfold forward
  rw [if_neg (by simp [hx]; omega)]
  exact key params hp

/-- **C309, refuted** (odd numbers of taps from three on): the layer computes nothing but NaN, whatever the parameters and the signal are. -/
theorem C309_odd_refuted (taps : Nat) (hodd : taps % 2 = 1) (h : 3 ≤ taps) (params : List (ℝ × ℝ)) (x : List ℝ) (hx : x ≠ []) :
    ∃ rows, forward taps params x = .ok rows ∧ rows.length = params.length ∧ ∀ r ∈ rows, r = List.replicate x.length none := by
  obtain ⟨rows, h1, h2, h3⟩ := C309_size taps (by omega) params x hx
  refine ⟨rows, h1, h2, ?_⟩
  have key : ∀ (ps : List (ℝ × ℝ)) rows, mapE (fun w => convolve w x (taps / 2)) (filterBank taps ps) = .ok rows → ∀ r ∈ rows, ∀ v ∈ r, v = none := by
    intro ps
    induction ps with
    | nil => intro rows h; simp only [filterBank, List.map_nil, mapE, Except.ok.injEq] at h; subst h; simp
    | cons q ps ih =>
      intro rows hr
      have hok : ¬ x.length + 2 * (taps / 2) < ((List.range taps).map (tap taps q)).length := by
        have : 1 ≤ x.length := List.length_pos_iff.2 hx
        simp; omega
      simp only [filterBank, List.map_cons, mapE] at hr
      simp only [filterBank] at ih
      rw [convolve, if_neg hok] at hr
      cases hm : mapE (fun w => convolve w x (taps / 2)) (List.map (fun p => List.map (tap taps p) (List.range taps)) ps) with
        | error e => rw [hm] at hr; simp at hr
        | ok cs =>
            rw [hm] at hr
            simp only [Except.ok.injEq] at hr
            subst hr
            intro r hr
            rcases List.mem_cons.1 hr with rfl | hr
            · intro v hv
              obtain ⟨i, -, rfl⟩ := List.mem_map.1 hv
              apply nanSum_none
              apply List.mem_map.2
              refine ⟨taps / 2, by simp; omega, ?_⟩
              have e1 : ((List.range taps).map (tap taps q)).getD (taps / 2) none = tap taps q (taps / 2) := by
                rw [List.getD_eq_getElem?_getD, List.getElem?_map, List.getElem?_range (by omega)]; rfl
              rw [e1, (C309_nan_iff taps (by omega) q (taps / 2)).2 (.inl (by omega))]
              rfl
            · exact ih _ hm r hr
  intro r hr
  have hall : ∀ v ∈ r, v = none := by
    unfold forward at h1
    rw [if_neg (by simp [hx]; omega)] at h1
    exact key params rows h1 r hr
  have hlen := h3 r hr
  rw [hodd, Nat.add_sub_cancel] at hlen
  exact List.eq_replicate_iff.2 ⟨hlen, hall⟩

/-- **C309, refuted** (linear phase): with an even number of taps no filter is symmetric: taps at opposite ends differ wherever the band pass filter is not zero, since the window is not symmetric. -/
theorem C309_symmetric_refuted (taps : Nat) (heven : taps % 2 = 0) (h : 2 ≤ taps) (p : ℝ × ℝ) (hp : p.1 ≠ 0) (t : Nat) (ht : t < taps) :
    tap taps p t = tap taps p (taps - 1 - t) ↔ bandPass (sincStart p) (sincStop p) (coordinate taps t) = 0 := by
  rw [C309_filter taps heven h p hp, C309_filter taps heven h p hp, Option.some.injEq]
  have hT : (2 : ℝ) ≤ taps := by exact_mod_cast h
  have hcast : ((taps - 1 - t : Nat) : ℝ) = taps - 1 - t := by
    rw [Nat.cast_sub (by omega), Nat.cast_sub (by omega)]; simp
  have hc : coordinate taps (taps - 1 - t) = -coordinate taps t := by
    unfold coordinate; rw [hcast]
    have : (taps : ℝ) - 1 ≠ 0 := by linarith
    field_simp; ring
  have hb : bandPass (sincStart p) (sincStop p) (coordinate taps (taps - 1 - t)) = bandPass (sincStart p) (sincStop p) (coordinate taps t) := by
    unfold bandPass; rw [hc]
    simp only [mul_neg, Real.sin_neg]
    rw [div_neg, ← neg_div]; congr 1; ring
  rw [hb]
  have hcos : Real.cos (2 * Real.pi * ((taps - 1 - t : Nat) : ℝ) / taps) = Real.cos (2 * Real.pi * (t + 1) / taps) := by
    have e : 2 * Real.pi * ((taps - 1 - t : Nat) : ℝ) / taps = 2 * Real.pi - 2 * Real.pi * (t + 1) / taps := by
      rw [hcast]; field_simp; ring
    rw [e, Real.cos_two_pi_sub]
  rw [hcos]
  have hne : Real.cos (2 * Real.pi * t / taps) ≠ Real.cos (2 * Real.pi * (t + 1) / taps) := by
    intro he
    have hd := Real.cos_sub_cos (2 * Real.pi * t / taps) (2 * Real.pi * (t + 1) / taps)
    rw [he, sub_self] at hd
    have e1 : (2 * Real.pi * t / taps + 2 * Real.pi * (t + 1) / taps) / 2 = Real.pi * ((2 * t + 1 : ℝ) / taps) := by field_simp; ring
    have e2 : (2 * Real.pi * t / taps - 2 * Real.pi * (t + 1) / taps) / 2 = -(Real.pi / taps) := by field_simp; ring
    rw [e1, e2, Real.sin_neg] at hd
    have h2 : 0 < Real.sin (Real.pi / taps) := by
      apply Real.sin_pos_of_pos_of_lt_pi (by positivity)
      rw [div_lt_iff₀ (by linarith)]
      nlinarith [Real.pi_pos]
    have h3 : Real.sin (Real.pi * ((2 * t + 1 : ℝ) / taps)) = 0 := by
      by_contra hn
      have : -2 * Real.sin (Real.pi * ((2 * t + 1 : ℝ) / taps)) * -Real.sin (Real.pi / taps) ≠ 0 := by
        apply mul_ne_zero (mul_ne_zero (by norm_num) hn) (by linarith [h2] : -Real.sin (Real.pi / taps) ≠ 0) |> fun h => h
      exact this hd.symm
    obtain ⟨k, hk⟩ := Real.sin_eq_zero_iff.1 h3
    have hk2 : (k : ℝ) * taps = 2 * t + 1 := by
      have : (k : ℝ) = (2 * t + 1) / taps := by
        have := Real.pi_ne_zero
        apply mul_left_cancel₀ this
        rw [mul_comm, hk]
      rw [this]; field_simp
    have hk3 : k * (taps : Int) = 2 * t + 1 := by exact_mod_cast hk2
    have : (k * (taps : Int)) % 2 = 0 := by
      rw [Int.mul_emod]
      have : (taps : Int) % 2 = 0 := by omega
      rw [this]; simp
    omega
  constructor
  · intro he
    by_contra hz
    have := mul_left_cancel₀ hz he
    apply hne; linarith
  · intro hz; rw [hz]; ring

/-- A band of 1 to 2 radians and four taps. -/
example : ∃ rows, forward 4 [(1, 2)] [1, 2, 3] = .ok rows ∧ rows.length = 1 ∧ ∀ r ∈ rows, r.length = 4 := C309_size 4 (by omega) [(1, 2)] [1, 2, 3] (by simp)

example : ∃ rows, forward 3 [(1, 2)] [1, 2] = .ok rows ∧ rows.length = 1 ∧ ∀ r ∈ rows, r = [none, none] := C309_odd_refuted 3 rfl (by omega) [(1, 2)] [1, 2] (by simp)

/-- **C309, one tap**: a filter of one tap, which is evaluated at `-pi` and not weighted, is one number. -/
theorem C309_one_tap (p : ℝ × ℝ) (hp : p.1 ≠ 0) : tap 1 p 0 = some (2 * (Real.sin (Real.pi * sincStop p) - Real.sin (Real.pi * sincStart p)) / Real.pi) := by
  have hs : 0 < sincStart p := abs_pos.2 hp
  have hu : 0 < sincStop p := lt_of_lt_of_le hs (C130_sinc_band p).2
  have hpi := Real.pi_ne_zero
  have h1 : -Real.pi * sincStop p ≠ 0 := mul_ne_zero (neg_ne_zero.2 hpi) hu.ne'
  have h2 : -Real.pi * sincStart p ≠ 0 := mul_ne_zero (neg_ne_zero.2 hpi) hs.ne'
  unfold tap sinc linear window
  simp only [if_true, h1, h2, if_false]
  rw [neg_mul, neg_mul, Real.sin_neg, Real.sin_neg, neg_div_neg_eq, neg_div_neg_eq, Option.some.injEq]
  field_simp

example := C309_one_tap (1 / 4, 1 / 8) (by norm_num)

example := C309_filter 4 rfl (by omega) (1 / 4, 1 / 8) (by norm_num) 1
example := (C309_nan_iff 3 (by omega) (1 / 4, 1 / 8) 1).2 (Or.inl rfl)
example := C309_values 4 rfl (by omega) [(1, 2)] (by simp) [1, 2, 3] (by simp)

end Zounds.Sinc
