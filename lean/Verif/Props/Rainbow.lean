import Verif.Model.Rainbow
import Verif.Props.Loudness
import Verif.Props.ScaleApply
import Mathlib.Data.List.GetD
import Mathlib.Analysis.Real.Pi.Bounds
import Mathlib.Tactic.Linarith
import Mathlib.Tactic.FieldSimp
import Mathlib.Tactic.Ring

/-!
# C163–C166: rainbowgrams and scales applied to short time transforms
-/

namespace Zounds.Rainbow
open Zounds.Loudness Zounds.Props.Loudness

/-! ## C163: hue -/

theorem npMod_range (x y : ℝ) (hy : 0 < y) : 0 ≤ npMod x y ∧ npMod x y < y := by
  unfold npMod
  have h1 := Int.floor_le (x / y)
  have h2 := Int.lt_floor_add_one (x / y)
  rw [le_div_iff₀ hy] at h1
  rw [div_lt_iff₀ hy] at h2
  constructor <;> nlinarith

/-- The correction is a multiple of the full turn, and leaves a step of at most half a turn. -/
theorem phCorrect_spec (dd : ℝ) : (∃ q : ℤ, phCorrect dd = q * (2 * Real.pi)) ∧ |dd + phCorrect dd| ≤ Real.pi := by
  have hpi := Real.pi_pos
  obtain ⟨h0, h1⟩ := npMod_range (dd + Real.pi) (2 * Real.pi) (by linarith)
  unfold phCorrect
  simp only []
  by_cases h : |dd| < Real.pi
  · rw [if_pos h]
    exact ⟨⟨0, by simp⟩, by rw [add_zero]; exact h.le⟩
  · rw [if_neg h]
    have e : npMod (dd + Real.pi) (2 * Real.pi) - Real.pi - dd = -⌊(dd + Real.pi) / (2 * Real.pi)⌋ * (2 * Real.pi) := by
      unfold npMod
      ring
    by_cases hm : npMod (dd + Real.pi) (2 * Real.pi) - Real.pi = -Real.pi ∧ 0 < dd
    · rw [if_pos hm]
      refine ⟨⟨1 - ⌊(dd + Real.pi) / (2 * Real.pi)⌋, ?_⟩, ?_⟩
      · push_cast
        have := hm.1
        linarith
      · rw [show dd + (Real.pi - dd) = Real.pi by ring, abs_of_pos hpi]
    · rw [if_neg hm]
      refine ⟨⟨-⌊(dd + Real.pi) / (2 * Real.pi)⌋, by push_cast; exact e⟩, ?_⟩
      rw [add_sub_cancel, abs_le]
      constructor <;> linarith

theorem unwrapFrom_length (as : List ℝ) : ∀ prev acc, (unwrapFrom prev acc as).length = as.length := by
  induction as with
  | nil => intros; rfl
  | cons a as ih => intro prev acc; simp [unwrapFrom, ih]

theorem unwrapFrom_spec (as : List ℝ) : ∀ (prev acc : ℝ) (q : ℤ), acc = q * (2 * Real.pi) →
    (∀ t, t < as.length → ∃ p : ℤ, (unwrapFrom prev acc as).getD t 0 = as.getD t 0 + p * (2 * Real.pi)) ∧
    ∀ t, t < as.length → |((prev + acc) :: unwrapFrom prev acc as).getD (t + 1) 0 - ((prev + acc) :: unwrapFrom prev acc as).getD t 0| ≤ Real.pi := by
  induction as with
  | nil => intro prev acc q _; exact ⟨fun t h => by simp at h, fun t h => by simp at h⟩
  | cons a as ih =>
    intro prev acc q hq
    obtain ⟨⟨p, hp⟩, hle⟩ := phCorrect_spec (a - prev)
    obtain ⟨i1, i2⟩ := ih a (acc + phCorrect (a - prev)) (q + p) (by push_cast; rw [hq, hp]; ring)
    refine ⟨fun t ht => ?_, fun t ht => ?_⟩
    · cases t with
      | zero => exact ⟨q + p, by simp only [unwrapFrom, List.getD_cons_zero]; rw [hq, hp]; push_cast; ring⟩
      | succ t =>
        simp only [unwrapFrom, List.getD_cons_succ]
        exact i1 t (by simpa using ht)
    · cases t with
      | zero =>
        simp only [unwrapFrom, List.getD_cons_succ, List.getD_cons_zero]
        rw [show a + (acc + phCorrect (a - prev)) - (prev + acc) = a - prev + phCorrect (a - prev) by ring]
        exact hle
      | succ t =>
        have := i2 t (by simpa using ht)
        simp only [unwrapFrom]
        rw [List.getD_cons_succ, List.getD_cons_succ]
        exact this

/-- **C163, unwrapping**: unwrapped angles are the angles up to full turns, and never step by more than half a turn. -/
theorem C163_unwrap (as : List ℝ) : (unwrap as).length = as.length ∧
    (∀ t, t < as.length → ∃ p : ℤ, (unwrap as).getD t 0 = as.getD t 0 + p * (2 * Real.pi)) ∧
    ∀ t, t + 1 < as.length → |(unwrap as).getD (t + 1) 0 - (unwrap as).getD t 0| ≤ Real.pi := by
  cases as with
  | nil => exact ⟨rfl, fun t h => by simp at h, fun t h => by simp at h⟩
  | cons a as =>
    obtain ⟨i1, i2⟩ := unwrapFrom_spec as a 0 0 (by simp)
    refine ⟨by simp [unwrap, unwrapFrom_length], fun t ht => ?_, fun t ht => ?_⟩
    · cases t with
      | zero => exact ⟨0, by simp [unwrap]⟩
      | succ t =>
        simp only [unwrap, List.getD_cons_succ]
        exact i1 t (by simpa using ht)
    · have := i2 t (by simpa using ht)
      rw [add_zero] at this
      exact this

theorem unwrap_step (as : List ℝ) (δ : ℝ) (hδ : |δ| < Real.pi) (t : ℕ) (ht : t + 1 < as.length)
    (h : ∃ p : ℤ, as.getD (t + 1) 0 = as.getD t 0 + δ + p * (2 * Real.pi)) :
    (unwrap as).getD (t + 1) 0 = (unwrap as).getD t 0 + δ := by
  obtain ⟨-, h1, h2⟩ := C163_unwrap as
  obtain ⟨p0, e0⟩ := h1 t (by omega)
  obtain ⟨p1, e1⟩ := h1 (t + 1) ht
  obtain ⟨p, e⟩ := h
  have hle := h2 t ht
  have hpi := Real.pi_pos
  have hd : (unwrap as).getD (t + 1) 0 - (unwrap as).getD t 0 - δ = ((p1 - p0 + p : ℤ) : ℝ) * (2 * Real.pi) := by
    rw [e0, e1, e]
    push_cast
    ring
  have hz : p1 - p0 + p = 0 := by
    rw [abs_lt] at hδ
    rw [abs_le] at hle
    have hlt : |((p1 - p0 + p : ℤ) : ℝ)| < 1 := by
      rw [abs_lt]
      constructor
      · by_contra hc
        push Not at hc
        nlinarith
      · by_contra hc
        push Not at hc
        nlinarith
    have : |p1 - p0 + p| < 1 := by exact_mod_cast hlt
    exact Int.abs_lt_one_iff.mp this
  rw [hz, Int.cast_zero, zero_mul] at hd
  linarith

theorem gradient_const (f : List ℝ) (δ : ℝ) (h2 : 2 ≤ f.length) (h : ∀ t, t + 1 < f.length → f.getD (t + 1) 0 = f.getD t 0 + δ) (t : ℕ)
    (ht : t < f.length) : (gradient f).getD t 0 = δ := by
  unfold gradient
  rw [List.getD_eq_getElem _ _ (by simpa using ht), List.getElem_map, List.getElem_range]
  split_ifs with h0 h1
  · rw [h 0 (by omega)]
    ring
  · obtain ⟨k, rfl⟩ : ∃ k, t = k + 1 := ⟨t - 1, by omega⟩
    rw [Nat.add_sub_cancel, h k (by omega)]
    ring
  · obtain ⟨k, rfl⟩ : ∃ k, t = k + 1 := ⟨t - 1, by omega⟩
    rw [Nat.add_sub_cancel, h (k + 1) (by omega), h k (by omega)]
    ring

/-- **C163, a steady partial has one hue**: a coefficient whose phase advances by `δ`, less than half a turn, from each frame to the next, whatever its
magnitudes, has the rate `δ` in every frame. -/
theorem C163_steady (coeffs : List (List ℂ)) (n j : ℕ) (hj : j < n) (h2 : 2 ≤ coeffs.length) (hn : 2 ≤ n) (δ φ : ℝ) (hδ : |δ| < Real.pi)
    (r : ℕ → ℝ) (hr : ∀ t, 0 < r t)
    (hc : ∀ t, t < coeffs.length → (coeffs.getD t []).getD j 0 = r t * Complex.exp (((φ + δ * t : ℝ) : ℂ) * Complex.I)) :
    ∃ rate, phaseRate coeffs n = .ok rate ∧ rate.length = coeffs.length ∧ ∀ t, t < coeffs.length →
      (rate.getD t []).length = n ∧ (rate.getD t []).getD j 0 = δ := by
  refine ⟨_, by unfold phaseRate; rw [if_neg (by omega)], by simp, fun t ht => ?_⟩
  rw [List.getD_eq_getElem _ _ (by simpa using ht), List.getElem_map, List.getElem_range]
  refine ⟨by simp, ?_⟩
  rw [List.getD_eq_getElem _ _ (by simpa using hj), List.getElem_map, List.getElem_map, List.getElem_range]
  set as := (column coeffs 0 j).map Complex.arg with has
  have hal : as.length = coeffs.length := by simp [has, column]
  have hag : ∀ t, t < coeffs.length → ∃ p : ℤ, as.getD t 0 = φ + δ * t + p * (2 * Real.pi) := by
    intro t ht
    have e : as.getD t 0 = Complex.arg ((coeffs.getD t []).getD j 0) := by
      rw [List.getD_eq_getElem _ _ (by omega), List.getD_eq_getElem coeffs _ ht]
      simp only [has, column, List.getElem_map]
    rw [e, hc t ht, Complex.arg_real_mul _ (hr t), Complex.arg_exp_mul_I]
    refine ⟨-toIocDiv Real.two_pi_pos (-Real.pi) (φ + δ * t), ?_⟩
    rw [toIocMod, zsmul_eq_mul]
    push_cast
    ring
  apply gradient_const
  · rw [(C163_unwrap as).1, hal]; exact h2
  · intro t ht
    rw [(C163_unwrap as).1, hal] at ht
    apply unwrap_step as δ hδ t (by omega)
    obtain ⟨p, hp⟩ := hag t (by omega)
    obtain ⟨p', hp'⟩ := hag (t + 1) ht
    refine ⟨p' - p, ?_⟩
    rw [hp, hp']
    push_cast
    ring
  · rw [(C163_unwrap as).1, hal]; exact ht

/-! ## C164: brightness -/

theorem unitScale_length (x : List ℝ) (hx : x ≠ []) : ∃ y, unitScale x = .ok y ∧ y.length = x.length := by
  obtain ⟨mn, h1, -⟩ := vmin_spec x hx
  obtain ⟨mx, h2, -⟩ := vmax_spec (x.map fun v => v - mn) (by simpa using hx)
  exact ⟨(x.map fun v => v - mn).map fun v => fdiv v mx, by unfold unitScale; simp only [h1, h2], by simp⟩

theorem flatten_length_const {β : Type} (l : List (List β)) (n : ℕ) (h : ∀ r ∈ l, r.length = n) : l.flatten.length = l.length * n := by
  induction l with
  | nil => simp
  | cons r l ih =>
    rw [List.flatten_cons, List.length_append, ih fun q hq => h q (List.mem_cons_of_mem _ hq), h r (by simp), List.length_cons]
    ring

/-- **C164**: for two or more frames of two or more coefficients whose real parts do not all have the same absolute value, and any colormap with three or
more components, a rainbowgram has one colour of three components for every coefficient: the colour of its hue, times a brightness that grows strictly with
the absolute value of the coefficient's real part, is between 0 and 1, and is 0 for the weakest and 1 for the strongest coefficient. -/
theorem C164_brightness (colormap : Option ℝ → List ℝ) (hcm : ∀ h, 3 ≤ (colormap h).length) (coeffs : List (List ℂ)) (n : ℕ)
    (h2 : 2 ≤ coeffs.length) (hn : 2 ≤ n) (hrows : ∀ r ∈ coeffs, r.length = n) (a b : ℂ) (ha : a ∈ coeffs.flatten) (hb : b ∈ coeffs.flatten)
    (hab : |a.re| ≠ |b.re|) :
    ∃ (out : List (List (Option ℝ))) (hues : List (Option ℝ)), rainbowgram colormap coeffs n = .ok out ∧ out.length = coeffs.flatten.length ∧ hues.length = coeffs.flatten.length ∧
      ∃ f : ℝ → ℝ, StrictMono f ∧ (∀ z ∈ coeffs.flatten, 0 ≤ f |z.re| ∧ f |z.re| ≤ 1) ∧ (∃ z ∈ coeffs.flatten, f |z.re| = 0) ∧
        (∃ z ∈ coeffs.flatten, f |z.re| = 1) ∧
        ∀ k, k < out.length → (out.getD k []).length = 3 ∧
          ∀ c, c < 3 → (out.getD k []).getD c none = some ((colormap (hues.getD k none)).getD c 0 * f |(coeffs.flatten.getD k 0).re|) := by
  set L : ℝ → ℝ := fun v => logModulus (v * 1000) with hL
  have hLm : StrictMono L := by
    intro u v huv
    exact C46_log_modulus_strict_mono (by linarith)
  obtain ⟨g, hg, gm, g1, ⟨v0, hv0, g0⟩, ⟨v1, hv1, g1'⟩⟩ := C46_unit_scale (coeffs.flatten.map fun z => L |z.re|) (L |a.re|) (L |b.re|)
    (List.mem_map.mpr ⟨a, ha, rfl⟩) (List.mem_map.mpr ⟨b, hb, rfl⟩) (fun h => hab (hLm.injective h))
  have hrate : ∃ rate, phaseRate coeffs n = .ok rate ∧ rate.flatten.length = coeffs.length * n := by
    refine ⟨_, by unfold phaseRate; rw [if_neg (by omega)], ?_⟩
    rw [flatten_length_const _ n]
    · simp
    · intro r hr
      obtain ⟨t, -, rfl⟩ := List.mem_map.mp hr
      simp
  obtain ⟨rate, hr1, hr2⟩ := hrate
  have hne : rate.flatten ≠ [] := by
    intro h
    rw [h] at hr2
    have : 0 < coeffs.length * n := Nat.mul_pos (by omega) (by omega)
    rw [List.length_nil] at hr2
    omega
  obtain ⟨hues, hh1, hh2⟩ := unitScale_length rate.flatten hne
  have hfl := flatten_length_const coeffs n hrows
  refine ⟨_, hues, by unfold rainbowgram; rw [hg]; simp only [hr1, hh1]; rfl, ?_, by rw [hh2, hr2, hfl], fun v => g (L v), gm.comp hLm, ?_, ?_, ?_, ?_⟩
  · rw [List.length_zipWith, hh2, hr2]
    simp only [List.length_map]
    omega
  · intro z hz
    exact g1 _ (List.mem_map.mpr ⟨z, hz, rfl⟩)
  · obtain ⟨z, hz, rfl⟩ := List.mem_map.mp hv0
    exact ⟨z, hz, g0⟩
  · obtain ⟨z, hz, rfl⟩ := List.mem_map.mp hv1
    exact ⟨z, hz, g1'⟩
  · intro k hk
    have hk2 : k < hues.length ∧ k < coeffs.flatten.length := by
      rw [List.length_zipWith, List.length_map, List.length_map] at hk
      omega
    rw [List.getD_eq_getElem _ _ hk, List.getElem_zipWith]
    simp only [List.getElem_map, Option.map_some]
    rw [List.getD_eq_getElem hues _ hk2.1, List.getD_eq_getElem coeffs.flatten _ hk2.2]
    have h3 := hcm hues[k]
    refine ⟨by simp; omega, fun c hc => ?_⟩
    rw [List.getD_eq_getElem _ _ (by simp; omega), List.getElem_map, List.getElem_take, List.getD_eq_getElem (colormap hues[k]) _ (by omega)]

theorem flatten_at {β : Type} (d : β) (n : ℕ) : ∀ (rows : List (List β)), (∀ r ∈ rows, r.length = n) → ∀ i j : ℕ, i < rows.length → j < n →
    rows.flatten.getD (i * n + j) d = (rows.getD i []).getD j d := by
  intro rows
  induction rows with
  | nil => intro _ i j hi; simp at hi
  | cons r rest ih =>
    intro h i j hi hj
    have hr := h r (by simp)
    cases i with
    | zero =>
      simp only [List.flatten_cons, Nat.zero_mul, Nat.zero_add, List.getD_eq_getElem?_getD, List.getElem?_cons_zero, Option.getD_some]
      rw [List.getElem?_append_left (by omega)]
    | succ i =>
      have h1 := ih (fun q hq => h q (by simp [hq])) i j (by simpa using hi) hj
      simp only [List.getD_eq_getElem?_getD, List.flatten_cons, List.getElem?_cons_succ] at h1 ⊢
      rw [← h1, List.getElem?_append_right (by rw [hr, Nat.succ_mul]; omega)]
      congr 2
      rw [hr, Nat.succ_mul]
      omega

/-- **C164, colours**: the colour of coefficient `j` of frame `t` is the colour map's colour for a number between 0 and 1 that grows strictly with the
coefficient's rate of phase change, darkened by a factor that grows strictly with the absolute value of its real part. -/
theorem C164_colours (colormap : Option ℝ → List ℝ) (hcm : ∀ h, 3 ≤ (colormap h).length) (coeffs : List (List ℂ)) (n : ℕ)
    (hrows : ∀ r ∈ coeffs, r.length = n) (a b : ℂ) (ha : a ∈ coeffs.flatten) (hb : b ∈ coeffs.flatten)
    (hab : |a.re| ≠ |b.re|) (rate : List (List ℝ)) (hrate : phaseRate coeffs n = .ok rate) (u v : ℝ) (hu : u ∈ rate.flatten)
    (hv : v ∈ rate.flatten) (huv : u ≠ v) :
    ∃ (out : List (List (Option ℝ))) (f g : ℝ → ℝ), rainbowgram colormap coeffs n = .ok out ∧ out.length = coeffs.length * n ∧
      StrictMono f ∧ StrictMono g ∧ (∀ z ∈ coeffs.flatten, 0 ≤ f |z.re| ∧ f |z.re| ≤ 1) ∧ (∀ r ∈ rate.flatten, 0 ≤ g r ∧ g r ≤ 1) ∧
      ∀ t j c : ℕ, t < coeffs.length → j < n → c < 3 →
        (out.getD (t * n + j) []).getD c none =
          some ((colormap (some (g ((rate.getD t []).getD j 0)))).getD c 0 * f |((coeffs.getD t []).getD j 0).re|) := by
  set L : ℝ → ℝ := fun v => logModulus (v * 1000) with hL
  have hLm : StrictMono L := by
    intro u v huv
    exact C46_log_modulus_strict_mono (by linarith)
  obtain ⟨f, hf, fm, f1, -, -⟩ := C46_unit_scale (coeffs.flatten.map fun z => L |z.re|) (L |a.re|) (L |b.re|)
    (List.mem_map.mpr ⟨a, ha, rfl⟩) (List.mem_map.mpr ⟨b, hb, rfl⟩) (fun h => hab (hLm.injective h))
  obtain ⟨g, hg, gm, g1, -, -⟩ := C46_unit_scale rate.flatten u v hu hv huv
  have hr1 : rate.length = coeffs.length ∧ ∀ r ∈ rate, r.length = n := by
    unfold phaseRate at hrate
    split at hrate
    · cases hrate
    · simp only [Except.ok.injEq] at hrate
      rw [← hrate]
      refine ⟨by simp, fun r hr => ?_⟩
      obtain ⟨t, -, rfl⟩ := List.mem_map.mp hr
      simp
  have hl1 := flatten_length_const coeffs n hrows
  have hl2 := flatten_length_const rate n hr1.2
  rw [hr1.1] at hl2
  refine ⟨_, fun v => f (L v), g, by unfold rainbowgram; rw [hf]; simp only [hrate, hg]; rfl, ?_, fm.comp hLm, gm, ?_, g1, ?_⟩
  · rw [List.length_zipWith]
    simp only [List.length_map]
    omega
  · intro z hz
    exact f1 _ (List.mem_map.mpr ⟨z, hz, rfl⟩)
  · intro t j c ht hj hc
    have hk : t * n + j < coeffs.length * n := by
      calc t * n + j < t * n + n := by omega
        _ = (t + 1) * n := by ring
        _ ≤ coeffs.length * n := Nat.mul_le_mul_right _ ht
    rw [List.getD_eq_getElem (List.zipWith _ _ _) [] (by simp only [List.length_zipWith, List.length_map]; omega), List.getElem_zipWith]
    simp only [List.getElem_map, Option.map_some]
    rw [← flatten_at 0 n coeffs hrows t j ht hj, ← flatten_at 0 n rate hr1.2 t j (by omega) hj,
      List.getD_eq_getElem rate.flatten _ (by omega), List.getD_eq_getElem coeffs.flatten _ (by omega)]
    have h3 := hcm (some (g (rate.flatten[t * n + j]'(by omega))))
    rw [List.getD_eq_getElem (colormap _) 0 (lt_of_lt_of_le hc h3), List.getD_eq_getElem (List.map _ _) none (by simp; omega), List.getElem_map,
      List.getElem_take]

/-! ## C165, C166: `apply_scale` -/

open Freq ScaleApply Zounds.Props.Frequency in
/-- **C165**: applying a scale to frames of as many coefficients as their own scale has bands gives one frame per frame and one number per band of the new
scale: the windowed sum of the absolute values of the real parts of the coefficients whose bands touch it; nothing else is looked at. -/
theorem C165_apply_scale (X : NumExt ℝ) (scale other : Scale ℝ) (sbs : List (Band ℝ)) (hsb : scale.bands X = .ok sbs)
    (hs : Sliceable other) (heven : other.alwaysEven = false)
    (obs : List (Band ℝ)) (hb : other.bands X = .ok obs) (ho : Ordered obs) (hlen : other.len = obs.length)
    (window : Nat → List ℝ) (hwin : ∀ k, (window k).length = k) (coeffs : List (List ℂ)) (hrows : ∀ r ∈ coeffs, r.length = obs.length) :
    ∃ out, Rainbow.applyScale X scale other window coeffs = .ok out ∧ out.length = coeffs.length ∧
      ∀ (t : Nat) (r : List ℂ), coeffs[t]? = some r → ∃ y, out[t]? = some y ∧ y.length = sbs.length ∧
        ∀ (i : Nat) (b : Band ℝ), sbs[i]? = some b → y[i]? = some (windowedSum window obs b (r.map fun z => |z.re|)) := by
  obtain ⟨out, h1, h2, h3⟩ := C64_apply X scale other sbs hsb hs heven obs hb ho hlen window hwin
    (coeffs.map fun row => row.map fun z : ℂ => |z.re|) (by
      intro r hr
      obtain ⟨q, hq, rfl⟩ := List.mem_map.mp hr
      simpa using hrows q hq)
  refine ⟨out, h1, by simpa using h2, fun t r hr => h3 t _ ?_⟩
  rw [List.getElem?_map, hr]
  rfl

theorem dot_zeros (b : List ℝ) (r : List ℝ) (h : ∀ v ∈ r, v = 0) : ScaleApply.dot b r = 0 := by
  unfold ScaleApply.dot
  induction b generalizing r with
  | nil => simp
  | cons x b ih =>
    cases r with
    | nil => simp
    | cons v r =>
      rw [List.zipWith_cons_cons, List.sum_cons, ih r fun u hu => h u (List.mem_cons_of_mem _ hu), h v (by simp)]
      simp

/-- **C166 is false**: a user expects `apply_scale` to measure the magnitudes of the coefficients.  Only their real parts count: for every scale, window and
array of purely imaginary coefficients, however large, the result is zero everywhere. -/
theorem C166_refuted (X : Freq.NumExt ℝ) (scale other : Freq.Scale ℝ) (window : Nat → List ℝ) (coeffs : List (List ℂ))
    (him : ∀ r ∈ coeffs, ∀ z ∈ r, z.re = 0) (out : List (List ℝ)) (h : applyScale X scale other window coeffs = .ok out) :
    out.length = coeffs.length ∧ ∀ y ∈ out, ∀ v ∈ y, v = 0 := by
  unfold applyScale ScaleApply.applyScale at h
  cases hb : ScaleApply.basis X scale other window with
  | error e => rw [hb] at h; cases h
  | ok bas =>
    rw [hb] at h
    cases h
    refine ⟨by simp, fun y hy v hv => ?_⟩
    obtain ⟨r, hr, rfl⟩ := List.mem_map.mp hy
    obtain ⟨q, hq, rfl⟩ := List.mem_map.mp hr
    obtain ⟨b, -, rfl⟩ := List.mem_map.mp hv
    apply dot_zeros
    intro u hu
    obtain ⟨z, hz, rfl⟩ := List.mem_map.mp hu
    rw [him q hq z hz, abs_zero]

/-! ## The hypotheses are met -/

example : ∃ out, rainbowgram (fun _ => [1, 0, 0, 1]) [[1, 0], [0, Complex.I]] 2 = .ok out ∧ out.length = 4 := by
  obtain ⟨out, -, h1, h2, -⟩ := C164_brightness (fun _ => [1, 0, 0, 1]) (by simp) [[1, 0], [0, Complex.I]] 2 (by simp) le_rfl (by simp) 1 0 (by simp) (by simp)
    (by simp)
  exact ⟨out, h1, by simpa using h2⟩
/-- Two frames of two coefficients, the phase of the second going from 0 to a right angle. -/
example : ∃ out, rainbowgram (fun h => [h.getD 0, 0, 0, 1]) [[1, 1], [1, Complex.I]] 2 = .ok out ∧ out.length = 4 := by
  obtain ⟨rate, hr⟩ : ∃ rate, phaseRate [[1, 1], [1, Complex.I]] 2 = .ok rate := ⟨_, rfl⟩
  have hr' := hr
  simp only [phaseRate] at hr'
  rw [if_neg (by simp)] at hr'
  simp only [Except.ok.injEq] at hr'
  have h0 : (0 : ℝ) ∈ rate.flatten := by
    rw [← hr']
    simp [List.range_succ, gradient, unwrap, unwrapFrom, column, phCorrect, Real.pi_pos]
  have h1 : Real.pi / 2 ∈ rate.flatten := by
    rw [← hr']
    have e : |Real.pi / 2| < Real.pi := by
      rw [abs_of_pos (by positivity)]
      linarith [Real.pi_pos]
    simp [List.range_succ, gradient, unwrap, unwrapFrom, column, phCorrect, Complex.arg_I, e]
  obtain ⟨out, -, -, h2, h3, -⟩ := C164_colours (fun h => [h.getD 0, 0, 0, 1]) (by simp) [[1, 1], [1, Complex.I]] 2 (by simp) 1 Complex.I
    (by simp) (by simp) (by simp) rate hr 0 (Real.pi / 2) h0 h1 (by have := Real.pi_pos; linarith [show (0:ℝ) < Real.pi / 2 by positivity])
  exact ⟨out, h2, h3⟩
/-- A partial advancing by one radian per frame. -/
example : ∃ rate, phaseRate ((List.range 3).map fun t : ℕ => [0, (((t : ℝ) + 1 : ℝ) : ℂ) * Complex.exp (((0 + 1 * t : ℝ) : ℂ) * Complex.I)]) 2 = .ok rate ∧
    (rate.getD 2 []).getD 1 0 = 1 := by
  obtain ⟨rate, h1, -, h2⟩ := C163_steady ((List.range 3).map fun t : ℕ => [0, (((t : ℝ) + 1 : ℝ) : ℂ) * Complex.exp (((0 + 1 * t : ℝ) : ℂ) * Complex.I)]) 2 1
    (by norm_num) (by simp) (by norm_num) 1 0 (by rw [abs_one]; linarith [Real.pi_gt_three]) (fun t => (t : ℝ) + 1) (fun t => by positivity) (by
      intro t ht
      rw [List.getD_eq_getElem _ _ ht, List.getElem_map, List.getElem_range]
      rfl)
  exact ⟨rate, h1, (h2 2 (by simp)).2⟩

end Zounds.Rainbow
