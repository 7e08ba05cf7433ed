import Verif.Model.Loudness
import Mathlib.Tactic.Linarith
import Mathlib.Tactic.FieldSimp
import Mathlib.Tactic.NormNum
/-!
# Property C46: loudness transforms, and C49: the categorical representation
-/

namespace Zounds.Props.Loudness
open Zounds Zounds.Loudness

/-! ## Helpers -/

theorem npSign_pos {x : ℝ} (h : 0 < x) : npSign x = 1 := by
  unfold npSign; rw [if_neg (not_lt.2 h.le), if_pos h]

theorem npSign_neg {x : ℝ} (h : x < 0) : npSign x = -1 := by
  unfold npSign; rw [if_pos h]

theorem npSign_zero : npSign 0 = 0 := by simp [npSign]

theorem npSign_mul_pos {x y : ℝ} (hy : 0 < y) : npSign (npSign x * y) = npSign x := by
  rcases lt_trichotomy x 0 with h | h | h
  · rw [npSign_neg h, npSign_neg (by linarith)]
  · subst h; simp [npSign_zero]
  · rw [npSign_pos h, one_mul, npSign_pos hy]

theorem npSign_mul_abs (x : ℝ) : npSign x * |x| = x := by
  rcases lt_trichotomy x 0 with h | h | h
  · rw [npSign_neg h, abs_of_neg h]; ring
  · subst h; simp
  · rw [npSign_pos h, abs_of_pos h]; ring

theorem npSign_oddness (x : ℝ) : npSign (-x) = -npSign x := by
  rcases lt_trichotomy x 0 with h | h | h
  · rw [npSign_neg h, npSign_pos (by linarith)]; ring
  · subst h; simp [npSign_zero]
  · rw [npSign_pos h, npSign_neg (by linarith)]

/-- A function of the form sign times an increasing function of the modulus that vanishes
at zero. -/
theorem sign_strictMono (g : ℝ → ℝ) (g0 : g 0 = 0)
    (gm : ∀ a b, 0 ≤ a → a < b → g a < g b) : StrictMono fun x => npSign x * g |x| := by
  intro a b h
  have hp : ∀ c, 0 < c → 0 < g c := fun c hc => by have := gm 0 c le_rfl hc; rwa [g0] at this
  rcases lt_trichotomy a 0 with ha | ha | ha
  · rcases lt_trichotomy b 0 with hb | hb | hb
    · simp only [npSign_neg ha, npSign_neg hb, abs_of_neg ha, abs_of_neg hb]
      have := gm (-b) (-a) (by linarith) (by linarith)
      linarith
    · subst hb
      simp only [npSign_neg ha, npSign_zero, abs_of_neg ha]
      have := hp (-a) (by linarith)
      linarith
    · simp only [npSign_neg ha, npSign_pos hb, abs_of_neg ha, abs_of_pos hb]
      have := hp (-a) (by linarith)
      have := hp b hb
      linarith
  · subst ha
    simp only [npSign_zero, npSign_pos h, abs_of_pos h]
    have := hp b h
    linarith
  · have hb : 0 < b := ha.trans h
    simp only [npSign_pos ha, npSign_pos hb, abs_of_pos ha, abs_of_pos hb]
    have := gm a b ha.le h
    linarith

/-- Composition of two such functions. -/
theorem sign_comp (g k : ℝ → ℝ) (gp : ∀ a, 0 < a → 0 < g a) (hk : ∀ a, 0 < a → k (g a) = a) (x : ℝ) :
    npSign (npSign x * g |x|) * k (abs (npSign x * g (abs x))) = x := by
  rcases lt_trichotomy x 0 with h | h | h
  · have hx := gp |x| (abs_pos.2 h.ne)
    rw [npSign_mul_pos hx, npSign_neg h, neg_one_mul, neg_one_mul, abs_neg, abs_of_pos hx,
      hk _ (abs_pos.2 h.ne), abs_of_neg h]
    ring
  · subst h; simp [npSign_zero]
  · have hx := gp |x| (abs_pos.2 h.ne')
    rw [npSign_mul_pos hx, npSign_pos h, one_mul, one_mul, abs_of_pos hx,
      hk _ (abs_pos.2 h.ne'), abs_of_pos h]

/-! ## C46: log modulus -/

/-- **C46.** `inverse_log_modulus` undoes `log_modulus`, for every real. -/
theorem C46_log_modulus_left_inverse (x : ℝ) : inverseLogModulus (logModulus x) = x := by
  have := sign_comp (fun a => Real.log (a + 1)) (fun a => Real.exp a - 1)
    (fun a ha => Real.log_pos (by linarith))
    (fun a ha => by rw [Real.exp_log (by linarith)]; ring) x
  unfold inverseLogModulus logModulus
  rw [mul_comm]
  exact this

/-- **C46.** `log_modulus` undoes `inverse_log_modulus`, for every real. -/
theorem C46_log_modulus_right_inverse (x : ℝ) : logModulus (inverseLogModulus x) = x := by
  have := sign_comp (fun a => Real.exp a - 1) (fun a => Real.log (a + 1))
    (fun a ha => by have := Real.add_one_lt_exp ha.ne'; linarith)
    (fun a ha => by simp) x
  unfold inverseLogModulus logModulus
  rw [mul_comm (Real.exp |x| - 1)]
  exact this

/-- **C46.** `log_modulus` is strictly increasing, odd, and its inverse is strictly increasing. -/
theorem C46_log_modulus_strict_mono : StrictMono logModulus :=
  sign_strictMono (fun a => Real.log (a + 1)) (by simp) fun a b ha hab =>
    Real.log_lt_log (by linarith) (by linarith)

/-- **C46.** -/
theorem C46_inverse_log_modulus_strict_mono : StrictMono inverseLogModulus := by
  have := sign_strictMono (fun a => Real.exp a - 1) (by simp) fun a b _ hab => by
    have := Real.exp_lt_exp.2 hab; linarith
  intro a b h
  have := this h
  unfold inverseLogModulus
  rw [mul_comm, mul_comm (Real.exp |b| - 1)]
  exact this

/-- **C46.** -/
theorem C46_log_modulus_odd (x : ℝ) : logModulus (-x) = -logModulus x := by
  simp [logModulus, npSign_oddness]

/-! ## C46: mu law -/

/-- **C46.** `inverse_mu_law` undoes `mu_law` with the same positive `mu`, for every real
(not only in `[-1, 1]`). -/
theorem C46_mu_law_left_inverse (mu x : ℝ) (hmu : 0 < mu) : inverseMuLaw mu (muLaw mu x) = x := by
  have hl : 0 < Real.log (1 + mu) := Real.log_pos (by linarith)
  have := sign_comp (fun a => Real.log (1 + mu * a) / Real.log (1 + mu))
    (fun a => (Real.exp (a * Real.log (1 + mu)) - 1) / mu)
    (fun a ha => div_pos (Real.log_pos (by have := mul_pos hmu ha; linarith)) hl)
    (fun a ha => by
      rw [div_mul_cancel₀ _ hl.ne', Real.exp_log (by have := mul_pos hmu ha; linarith)]
      field_simp
      ring) x
  unfold inverseMuLaw muLaw
  simp only
  rw [mul_comm]
  exact this

example := C46_mu_law_left_inverse 255 (-1 / 3) (by norm_num)

/-- **C46.** `mu_law` undoes `inverse_mu_law`, for every real. -/
theorem C46_mu_law_right_inverse (mu x : ℝ) (hmu : 0 < mu) : muLaw mu (inverseMuLaw mu x) = x := by
  have hl : 0 < Real.log (1 + mu) := Real.log_pos (by linarith)
  have := sign_comp (fun a => (Real.exp (a * Real.log (1 + mu)) - 1) / mu)
    (fun a => Real.log (1 + mu * a) / Real.log (1 + mu))
    (fun a ha => div_pos (by have := Real.add_one_lt_exp (mul_pos ha hl).ne'; linarith [mul_pos ha hl]) hmu)
    (fun a ha => by
      rw [mul_div_cancel₀ _ hmu.ne', add_sub_cancel, Real.log_exp]
      field_simp) x
  unfold inverseMuLaw muLaw
  simp only
  rw [mul_comm ((Real.exp (|x| * Real.log (1 + mu)) - 1) / mu)]
  exact this

example := C46_mu_law_right_inverse 255 (-1 / 3) (by norm_num)

/-- **C46.** `mu_law` is strictly increasing. -/
theorem C46_mu_law_strict_mono (mu : ℝ) (hmu : 0 < mu) : StrictMono (muLaw mu) := by
  have hl : 0 < Real.log (1 + mu) := Real.log_pos (by linarith)
  exact sign_strictMono (fun a => Real.log (1 + mu * a) / Real.log (1 + mu)) (by simp) fun a b ha hab => by
    have h1 : 0 ≤ mu * a := mul_nonneg hmu.le ha
    have h2 : mu * a < mu * b := mul_lt_mul_of_pos_left hab hmu
    exact div_lt_div_of_pos_right (Real.log_lt_log (by linarith) (by linarith)) hl

example := C46_mu_law_strict_mono 255 (by norm_num)

/-- **C46.** -/
theorem C46_mu_law_odd (mu x : ℝ) : muLaw mu (-x) = -muLaw mu x := by
  simp [muLaw, npSign_oddness]

/-- **C46.** -/
theorem C46_inverse_log_modulus_odd (x : ℝ) : inverseLogModulus (-x) = -inverseLogModulus x := by
  simp [inverseLogModulus, npSign_oddness]

/-- **C46.** -/
theorem C46_inverse_mu_law_odd (mu x : ℝ) (hmu : 0 < mu) : inverseMuLaw mu (-x) = -inverseMuLaw mu x := by
  apply (C46_mu_law_strict_mono mu hmu).injective
  rw [C46_mu_law_odd, C46_mu_law_right_inverse mu _ hmu, C46_mu_law_right_inverse mu _ hmu]

/-- **C46.** -/
theorem C46_inverse_mu_law_strict_mono (mu : ℝ) (hmu : 0 < mu) : StrictMono (inverseMuLaw mu) := by
  intro a b h
  apply (C46_mu_law_strict_mono mu hmu).lt_iff_lt.1
  rwa [C46_mu_law_right_inverse mu _ hmu, C46_mu_law_right_inverse mu _ hmu]

example := C46_inverse_mu_law_odd 255 (1 / 2) (by norm_num)
example := C46_inverse_mu_law_strict_mono 255 (by norm_num)

/-- **C46.** Full scale stays full scale. -/
theorem C46_mu_law_one (mu : ℝ) (hmu : 0 < mu) : muLaw mu 1 = 1 := by
  have hl : 0 < Real.log (1 + mu) := Real.log_pos (by linarith)
  simp only [muLaw]
  rw [npSign_pos one_pos, abs_one, mul_one, one_mul, div_self hl.ne']

example := C46_mu_law_one 255 (by norm_num)

/-- **C46.** The stated range: `mu_law` maps `[-1, 1]`, and nothing else, into `[-1, 1]`. -/
theorem C46_mu_law_range (mu x : ℝ) (hmu : 0 < mu) : |muLaw mu x| ≤ 1 ↔ |x| ≤ 1 := by
  have hm := C46_mu_law_strict_mono mu hmu
  have h1 := C46_mu_law_one mu hmu
  have h2 : muLaw mu (-1) = -1 := by rw [C46_mu_law_odd, h1]
  rw [abs_le, abs_le]
  constructor
  · rintro ⟨a, b⟩
    rw [← h2] at a
    rw [← h1] at b
    exact ⟨hm.le_iff_le.1 a, hm.le_iff_le.1 b⟩
  · rintro ⟨a, b⟩
    have a := hm.le_iff_le.2 a
    have b := hm.le_iff_le.2 b
    rw [h2] at a
    rw [h1] at b
    exact ⟨a, b⟩

example := C46_mu_law_range 255 (-1 / 3) (by norm_num)

example : muLaw 255 (1 / 17) = 1 / 2 := by
  have h16 : Real.log 256 = 2 * Real.log 16 := by
    rw [show (256 : ℝ) = 16 ^ 2 by norm_num, Real.log_pow]; norm_num
  have hl : 0 < Real.log 16 := Real.log_pos (by norm_num)
  simp only [muLaw]
  rw [npSign_pos (by norm_num), abs_of_pos (by norm_num)]
  norm_num
  rw [h16]
  field_simp

/-! ## C46: decibels -/

/-- **C46.** `decibel` preserves order on positive amplitudes. -/
theorem C46_decibel_strict_mono (x y : ℝ) (hx : 0 < x) (hxy : x < y) : decibel x < decibel y := by
  unfold decibel
  have := Real.logb_lt_logb (b := 10) (by norm_num) hx hxy
  linarith

example := C46_decibel_strict_mono (1 / 3) 2 (by norm_num) (by norm_num)

/-- **C46.** A factor becomes an offset, and ten times the amplitude is 20 dB more. -/
theorem C46_decibel_mul (x y : ℝ) (hx : 0 < x) (hy : 0 < y) : decibel (x * y) = decibel x + decibel y := by
  unfold decibel
  rw [Real.logb_mul hx.ne' hy.ne']
  ring

example := C46_decibel_mul (1 / 3) 2 (by norm_num) (by norm_num)

/-- **C46.** -/
theorem C46_decibel_ten (x : ℝ) (hx : 0 < x) : decibel (10 * x) = 20 + decibel x := by
  rw [C46_decibel_mul 10 x (by norm_num) hx]
  unfold decibel
  rw [Real.logb_self_eq_one (by norm_num)]
  ring

example := C46_decibel_ten (1 / 3) (by norm_num)

/-! ## C46: scaling -/

theorem foldl_max_spec (xs : List ℝ) : ∀ x : ℝ, (∀ v ∈ x :: xs, v ≤ xs.foldl max x) ∧ xs.foldl max x ∈ x :: xs := by
  induction xs with
  | nil => intro x; simp
  | cons y ys ih =>
    intro x
    obtain ⟨h1, h2⟩ := ih (max x y)
    simp only [List.foldl_cons]
    refine ⟨?_, ?_⟩
    · intro v hv
      have hm := h1 (max x y) (by simp)
      rcases List.mem_cons.1 hv with h | h
      · subst h; exact (le_max_left _ _).trans hm
      · rcases List.mem_cons.1 h with h | h
        · subst h; exact (le_max_right _ _).trans hm
        · exact h1 v (List.mem_cons_of_mem _ h)
    · rcases List.mem_cons.1 h2 with h | h
      · rw [h]
        rcases max_choice x y with hc | hc <;> rw [hc] <;> simp
      · simp [h]

theorem foldl_min_spec (xs : List ℝ) : ∀ x : ℝ, (∀ v ∈ x :: xs, xs.foldl min x ≤ v) ∧ xs.foldl min x ∈ x :: xs := by
  induction xs with
  | nil => intro x; simp
  | cons y ys ih =>
    intro x
    obtain ⟨h1, h2⟩ := ih (min x y)
    simp only [List.foldl_cons]
    refine ⟨?_, ?_⟩
    · intro v hv
      have hm := h1 (min x y) (by simp)
      rcases List.mem_cons.1 hv with h | h
      · subst h; exact hm.trans (min_le_left _ _)
      · rcases List.mem_cons.1 h with h | h
        · subst h; exact hm.trans (min_le_right _ _)
        · exact h1 v (List.mem_cons_of_mem _ h)
    · rcases List.mem_cons.1 h2 with h | h
      · rw [h]
        rcases min_choice x y with hc | hc <;> rw [hc] <;> simp
      · simp [h]

theorem vmax_spec (x : List ℝ) (hx : x ≠ []) : ∃ m, vmax x = .ok m ∧ m ∈ x ∧ ∀ v ∈ x, v ≤ m := by
  cases x with
  | nil => exact absurd rfl hx
  | cons a as => exact ⟨_, rfl, (foldl_max_spec as a).2, (foldl_max_spec as a).1⟩

theorem vmin_spec (x : List ℝ) (hx : x ≠ []) : ∃ m, vmin x = .ok m ∧ m ∈ x ∧ ∀ v ∈ x, m ≤ v := by
  cases x with
  | nil => exact absurd rfl hx
  | cons a as => exact ⟨_, rfl, (foldl_min_spec as a).2, (foldl_min_spec as a).1⟩

/-- **C46.** `instance_scale` of a non-empty vector: the returned maximum is the largest
absolute value, every scaled entry lies strictly inside `(-1, 1)`, and multiplying back
by the maximum plus epsilon restores the vector. -/
theorem C46_instance_scale (eps : ℝ) (heps : 0 < eps) (x : List ℝ) (hx : x ≠ []) :
    ∃ mx scaled, instanceScale eps x = .ok (mx, scaled) ∧
      (∀ v ∈ x, |v| ≤ mx) ∧ (∃ v ∈ x, |v| = mx) ∧
      (∀ s ∈ scaled, -1 < s ∧ s < 1) ∧
      scaled.map (fun s => s * (mx + eps)) = x := by
  obtain ⟨m, h1, h2, h3⟩ := vmax_spec (x.map fun v => |v|) (by simpa using hx)
  have hm : ∀ v ∈ x, |v| ≤ m := fun v hv => h3 _ (List.mem_map.2 ⟨v, hv, rfl⟩)
  have hm0 : 0 ≤ m := by
    obtain ⟨v, _, hv⟩ := List.mem_map.1 h2
    rw [← hv]; exact abs_nonneg v
  refine ⟨m, _, by unfold instanceScale; rw [h1], hm, ?_, ?_, ?_⟩
  · obtain ⟨v, hv, e⟩ := List.mem_map.1 h2
    exact ⟨v, hv, e⟩
  · intro s hs
    obtain ⟨v, hv, rfl⟩ := List.mem_map.1 hs
    have := abs_le.1 (hm v hv)
    have hp : 0 < m + eps := by linarith
    exact ⟨by rw [lt_div_iff₀ hp]; linarith, by rw [div_lt_iff₀ hp]; linarith⟩
  · have hp : m + eps ≠ 0 := by linarith
    rw [List.map_map]
    conv_rhs => rw [← List.map_id x]
    apply List.map_congr_left
    intro v _
    simp only [Function.comp, id]
    rw [div_mul_cancel₀ _ hp]

example := C46_instance_scale 1 (by norm_num) [1, -3] (by simp)

/-- **C46, refuted.** `instance_scale` does not bring the peak to one, however loud it is:
its peak is `mx / (mx + eps)`. -/
theorem C46_instance_scale_peak (eps : ℝ) (heps : 0 < eps) (x : List ℝ) (hx : x ≠ []) (mx : ℝ)
    (scaled : List ℝ) (h : instanceScale eps x = .ok (mx, scaled)) :
    ∀ s ∈ scaled, |s| ≤ mx / (mx + eps) ∧ mx / (mx + eps) < 1 := by
  obtain ⟨m, h1, h2, h3⟩ := vmax_spec (x.map fun v => |v|) (by simpa using hx)
  unfold instanceScale at h
  rw [h1] at h
  cases h
  have hm0 : 0 ≤ mx := by
    obtain ⟨v, _, hv⟩ := List.mem_map.1 h2
    rw [← hv]; exact abs_nonneg v
  have hp : 0 < mx + eps := by linarith
  intro s hs
  obtain ⟨v, hv, rfl⟩ := List.mem_map.1 hs
  refine ⟨?_, by rw [div_lt_one hp]; linarith⟩
  rw [abs_div, abs_of_pos hp]
  exact div_le_div_of_nonneg_right (h3 _ (List.mem_map.2 ⟨v, hv, rfl⟩)) hp.le

example := C46_instance_scale_peak 1 (by norm_num) [1, -3] (by simp) 3 [1 / 4, -3 / 4] (by unfold instanceScale vmax; norm_num)

example : instanceScale 1 [1, -3] = .ok (3, [1 / 4, -3 / 4]) := by
  unfold instanceScale vmax
  norm_num

/-- **C46 (partial).** `unit_scale` maps a vector that is not constant into `[0, 1]`,
reaching both ends, and keeps the order of its entries. -/
theorem C46_unit_scale (x : List ℝ) (a b : ℝ) (ha : a ∈ x) (hb : b ∈ x) (hab : a ≠ b) :
    ∃ f : ℝ → ℝ, unitScale x = .ok (x.map fun v => some (f v)) ∧ StrictMono f ∧
      (∀ v ∈ x, 0 ≤ f v ∧ f v ≤ 1) ∧ (∃ v ∈ x, f v = 0) ∧ (∃ v ∈ x, f v = 1) := by
  have hne : x ≠ [] := List.ne_nil_of_mem ha
  obtain ⟨mn, h1, h2, h3⟩ := vmin_spec x hne
  obtain ⟨mx, k1, k2, k3⟩ := vmax_spec (x.map fun v => v - mn) (by simpa using hne)
  have hmx : 0 < mx := by
    have e1 := k3 _ (List.mem_map.2 ⟨a, ha, rfl⟩)
    have e2 := k3 _ (List.mem_map.2 ⟨b, hb, rfl⟩)
    have l1 := h3 a ha
    have l2 := h3 b hb
    rcases lt_or_gt_of_ne hab with h | h <;> linarith
  refine ⟨fun v => (v - mn) / mx, ?_, ?_, ?_, ?_, ?_⟩
  · unfold unitScale
    rw [h1]
    simp only
    rw [k1]
    simp only [List.map_map]
    congr 1
    apply List.map_congr_left
    intro v _
    simp [fdiv, hmx.ne']
  · intro u v huv
    exact div_lt_div_of_pos_right (by linarith) hmx
  · intro v hv
    have l := h3 v hv
    have u := k3 _ (List.mem_map.2 ⟨v, hv, rfl⟩)
    exact ⟨div_nonneg (by linarith) hmx.le, by rw [div_le_one hmx]; exact u⟩
  · exact ⟨mn, h2, by simp⟩
  · obtain ⟨v, hv, e⟩ := List.mem_map.1 k2
    exact ⟨v, hv, by
      show (v - mn) / mx = 1
      rw [show v - mn = mx from e, div_self hmx.ne']⟩

example := C46_unit_scale [1, -3, 2] 1 2 (by simp) (by simp) (by norm_num)

/-- **C46, refuted.** The guard against division by zero does not work: a constant
vector (silence, for example) becomes all NaN. -/
theorem C46_unit_scale_constant_fails (n : Nat) (c : ℝ) :
    unitScale (List.replicate (n + 1) c) = .ok (List.replicate (n + 1) none) := by
  obtain ⟨mn, h1, h2, _⟩ := vmin_spec (List.replicate (n + 1) c) (by simp)
  have hmn : mn = c := List.eq_of_mem_replicate h2
  obtain ⟨mx, k1, k2, _⟩ := vmax_spec ((List.replicate (n + 1) c).map fun v => v - mn) (by simp)
  have hmx : mx = 0 := by
    obtain ⟨v, hv, e⟩ := List.mem_map.1 k2
    rw [List.eq_of_mem_replicate hv, hmn] at e
    linarith
  unfold unitScale
  rw [h1]
  simp only
  rw [k1]
  simp [fdiv, hmx]

/-! ## C46: one-hot vectors -/

/-- `i` is the position of the first largest entry. -/
def IsArgmax (x : List ℝ) (i : Nat) : Prop :=
  ∃ h : i < x.length, (∀ j (hj : j < x.length), x[j] ≤ x[i]) ∧ ∀ j (hj : j < x.length), j < i → x[j] < x[i]

theorem argmaxFrom_spec : ∀ (xs pre : List ℝ) (bi : Nat) (best : ℝ),
    IsArgmax pre bi → pre[bi]? = some best →
    IsArgmax (pre ++ xs) (argmaxFrom best bi pre.length xs) := by
  intro xs
  induction xs with
  | nil => intro pre bi best h _; simpa [argmaxFrom] using h
  | cons x xs ih =>
    intro pre bi best h hb
    obtain ⟨hlt, hmax, hfirst⟩ := h
    have hbest : pre[bi] = best := by
      rw [List.getElem?_eq_getElem hlt] at hb; exact Option.some.inj hb
    rw [show pre ++ x :: xs = (pre ++ [x]) ++ xs by simp]
    unfold argmaxFrom
    split
    · rename_i hx
      have := ih (pre ++ [x]) pre.length x ?_ ?_
      · simpa using this
      · refine ⟨by simp, ?_, ?_⟩
        · intro j hj
          rw [List.getElem_concat_length rfl (by simp)]
          rcases Nat.lt_or_ge j pre.length with hj' | hj'
          · rw [List.getElem_append_left hj']
            have := hmax j hj'
            rw [hbest] at this
            linarith
          · have : j = pre.length := by simp at hj; omega
            subst this
            simp
        · intro j hj hj'
          rw [List.getElem_concat_length rfl (by simp), List.getElem_append_left hj']
          have := hmax j hj'
          rw [hbest] at this
          linarith
      · simp
    · rename_i hx
      have := ih (pre ++ [x]) bi best ?_ ?_
      · simpa using this
      · refine ⟨by simp; omega, ?_, ?_⟩
        · intro j hj
          rw [List.getElem_append_left hlt, hbest]
          rcases Nat.lt_or_ge j pre.length with hj' | hj'
          · rw [List.getElem_append_left hj', ← hbest]; exact hmax j hj'
          · have : j = pre.length := by simp at hj; omega
            subst this
            simpa using not_lt.1 hx
        · intro j hj hj'
          rw [List.getElem_append_left hlt, List.getElem_append_left (by omega)]
          exact hfirst j (by omega) hj'
      · rw [List.getElem?_append_left hlt]; exact hb

theorem argmax_spec (x : List ℝ) (hx : x ≠ []) : ∃ i, argmax x = .ok i ∧ IsArgmax x i := by
  cases x with
  | nil => exact absurd rfl hx
  | cons a as =>
    refine ⟨_, rfl, ?_⟩
    have := argmaxFrom_spec as [a] 0 a ⟨by simp, by intro j hj; simp at hj; subst hj; exact le_rfl,
      by intro j _ h; exact absurd h (Nat.not_lt_zero j)⟩ rfl
    simpa using this

theorem IsArgmax.unique {x : List ℝ} {i j : Nat} (hi : IsArgmax x i) (hj : IsArgmax x j) : i = j := by
  obtain ⟨hi1, hi2, hi3⟩ := hi
  obtain ⟨hj1, hj2, hj3⟩ := hj
  rcases Nat.lt_trichotomy i j with h | h | h
  · exact absurd (hj3 i hi1 h) (not_lt.2 (hi2 j hj1))
  · exact h
  · exact absurd (hi3 j hj1 h) (not_lt.2 (hj2 i hi1))

/-- **C46.** `inverse_one_hot` of a non-empty distribution is `2 k / n - 1`, `k` the position
of the first largest of its `n` entries; so it lies in `[-1, 1)`. -/
theorem C46_inverse_one_hot (x : List ℝ) (k : Nat) (hk : IsArgmax x k) :
    ∃ v, inverseOneHot x = .ok v ∧ v = 2 * k / x.length - 1 ∧ -1 ≤ v ∧ v < 1 := by
  have hne : x ≠ [] := by
    obtain ⟨h, _⟩ := hk
    intro h0; rw [h0] at h; simp at h
  obtain ⟨i, h1, h2⟩ := argmax_spec x hne
  have hik : i = k := h2.unique hk
  subst hik
  have hn : (0 : ℝ) < x.length := by
    exact_mod_cast List.length_pos_iff.2 hne
  have hlt : (i : ℝ) < x.length := by exact_mod_cast hk.1
  have e : ((i : ℝ) / x.length - 1 / 2) * 2 = 2 * i / x.length - 1 := by field_simp
  refine ⟨_, by unfold inverseOneHot; rw [h1], e, ?_, ?_⟩
  · have : (0 : ℝ) ≤ (i : ℝ) / x.length := by positivity
    linarith
  · have : (i : ℝ) / x.length < 1 := by rw [div_lt_one hn]; exact hlt
    linarith

example := C46_inverse_one_hot [0, 1, 0, 1] 1 ⟨by decide, by
  refine ⟨?_, ?_⟩
  · intro j hj
    match j, hj with
    | 0, _ => simp
    | 1, _ => simp
    | 2, _ => simp
    | 3, _ => simp
  · intro j hj h1
    have : j = 0 := by omega
    subst this; simp⟩

/-- **C46.** An empty distribution is refused. -/
theorem C46_inverse_one_hot_empty : inverseOneHot [] = .error .valueError := rfl

example : IsArgmax [0, 1, 0, 1] 1 :=
  ⟨by decide, by
    intro j hj
    match j, hj with
    | 0, _ => simp
    | 1, _ => simp
    | 2, _ => simp
    | 3, _ => simp, by
    intro j _ hlt
    have : j = 0 := by omega
    subst this; simp⟩

/-! ## C49: the categorical representation -/

theorem oneHot_ok (mu k : Nat) (h : k ≤ mu) :
    oneHot mu k = .ok ((List.range (mu + 1)).map fun j => if j = k then 1 else 0) := by
  unfold oneHot; rw [if_pos (by omega)]

theorem mapM_oneHot (mu : Nat) : ∀ ks : List Nat, (∀ k ∈ ks, k ≤ mu) →
    ks.mapM (oneHot mu) = .ok (ks.map fun k => (List.range (mu + 1)).map fun j => if j = k then (1 : ℝ) else 0) := by
  intro ks
  induction ks with
  | nil => intro _; rfl
  | cons k ks ih =>
    intro h
    rw [List.mapM_cons, oneHot_ok mu k (h k (by simp)), ih fun x hx => h x (by simp [hx])]
    rfl

theorem categories_length (junk : List ℝ) (mu : Nat) (x : List ℝ) (ks : List Nat)
    (h : categories junk mu false x = .ok ks) : ks.length = x.length := by
  unfold categories at h
  simp only [Bool.false_eq_true, if_false] at h
  split at h
  · cases h
  · cases h; simp

theorem mem_categories_lt (junk : List ℝ) (mu : Nat) (nrm : Bool) (x : List ℝ) (ks : List Nat)
    (h : categories junk mu nrm x = .ok ks) : ∀ k ∈ ks, k < 256 := by
  unfold categories at h
  split at h
  · cases h
  · dsimp only at h
    split at h
    · cases h
    · cases h
      intro k hk
      simp only [List.mem_map] at hk
      obtain ⟨v, _, rfl⟩ := hk
      exact Nat.mod_lt _ (by norm_num)

theorem range_set (n k : Nat) :
    ((List.range n).map fun j => if j = k then (1 : ℝ) else 0) = (List.replicate n (0 : ℝ)).set k 1 := by
  apply List.ext_getElem
  · simp
  · intro i h1 h2
    rw [List.getElem_set]
    simp [eq_comm]

/-- **C49.** With the default of 256 categories, `categorical` turns every sample into a
vector of 256 entries, exactly one of which is 1, the others 0; it never fails on a
non-empty signal, normalised or not. -/
theorem C49_one_hot (junk : List ℝ) (nrm : Bool) (x : List ℝ) (c : List (List ℝ))
    (h : categorical junk 255 nrm x = .ok c) :
    ∀ row ∈ c, ∃ k < 256, row = (List.replicate 256 (0 : ℝ)).set k 1 := by
  unfold categorical at h
  cases hk : categories junk 255 nrm x with
  | error e => rw [hk] at h; cases h
  | ok ks =>
    rw [hk] at h
    have hlt := mem_categories_lt junk 255 nrm x ks hk
    simp only at h
    rw [mapM_oneHot 255 ks fun k hk => by have := hlt k hk; omega] at h
    cases h
    intro row hrow
    obtain ⟨k, hk, rfl⟩ := List.mem_map.1 hrow
    refine ⟨k, hlt k hk, ?_⟩
    exact range_set 256 k

/-- **C49.** -/
theorem C49_total (junk : List ℝ) (x : List ℝ) (hx : x ≠ []) :
    ∃ c, categorical junk 255 false x = .ok c ∧ c.length = x.length := by
  obtain ⟨mn, h1, _⟩ := vmin_spec (x.map (muLaw 255)) (by simpa using hx)
  have : ∃ ks, categories junk 255 false x = .ok ks := by
    unfold categories
    simp only [Bool.false_eq_true, if_false]
    rw [h1]
    exact ⟨_, rfl⟩
  obtain ⟨ks, hks⟩ := this
  have hlt := mem_categories_lt junk 255 false x ks hks
  refine ⟨_, by unfold categorical; rw [hks]; exact mapM_oneHot 255 ks fun k hk => by have := hlt k hk; omega, ?_⟩
  simpa using categories_length junk 255 x ks hks

example : ∃ c : List (List ℝ), c.length = 2 ∧ ∀ row ∈ c, ∃ k < 256, row = (List.replicate 256 (0 : ℝ)).set k 1 := by
  obtain ⟨c, h1, h2⟩ := C49_total [] [1 / 2, -1 / 3] (by simp)
  exact ⟨c, h2, C49_one_hot [] false _ c h1⟩

/-- Position of the largest entry of a one-hot vector. -/
theorem argmax_oneHot (mu k : Nat) (h : k ≤ mu) :
    argmax ((List.range (mu + 1)).map fun j => if j = k then (1 : ℝ) else 0) = .ok k := by
  obtain ⟨i, h1, h2⟩ := argmax_spec ((List.range (mu + 1)).map fun j => if j = k then (1 : ℝ) else 0) (by simp)
  rw [h1]
  congr 1
  refine h2.unique ⟨by simp; omega, ?_, ?_⟩
  · intro j hj
    simp only [List.getElem_map, List.getElem_range]
    split <;> simp
  · intro j hj hlt
    simp only [List.getElem_map, List.getElem_range]
    rw [if_neg (by omega)]; simp

/-- Encode a signal and decode every sample of the result. -/
noncomputable def roundTrip (junk : List ℝ) (nrm : Bool) (x : List ℝ) : Except PyErr (List ℝ) :=
  match categorical junk 255 nrm x with
  | .error e => .error e
  | .ok c => c.mapM (inverseCategorical 255)

theorem mapM_ok {α β : Type} (f : α → Except PyErr β) (g : α → β) : ∀ l : List α,
    (∀ a ∈ l, f a = .ok (g a)) → l.mapM f = .ok (l.map g) := by
  intro l
  induction l with
  | nil => intro _; rfl
  | cons a as ih =>
    intro h
    rw [List.mapM_cons, h a (by simp), ih fun x hx => h x (by simp [hx])]
    rfl

/-- **C49 (partial).** What the round trip computes.  Let the signal lie in `[-1, 1]` and
reach `-1`.  Then the result is, in the compressed domain, *half* the original up to the
quantisation step: twice the compressed result is within `2/255` below the compressed
original. -/
theorem C49_round_trip_partial (junk : List ℝ) (x : List ℝ) (hx : ∀ v ∈ x, |v| ≤ 1) (hm : (-1) ∈ x) :
    ∃ y : List ℝ, roundTrip junk false x = .ok y ∧ y.length = x.length ∧
      ∀ i (h : i < x.length) (h' : i < y.length),
        2 * muLaw 255 y[i] ≤ muLaw 255 x[i] ∧ muLaw 255 x[i] < 2 * muLaw 255 y[i] + 2 / 255 := by
  have hne : x ≠ [] := List.ne_nil_of_mem hm
  have hmono := C46_mu_law_strict_mono 255 (by norm_num)
  have hone := C46_mu_law_one 255 (by norm_num)
  have hmone : muLaw 255 (-1) = -1 := by rw [C46_mu_law_odd, hone]
  obtain ⟨mn, h1, h2, h3⟩ := vmin_spec (x.map (muLaw 255)) (by simpa using hne)
  have hmn : mn = -1 := by
    have a := h3 _ (List.mem_map.2 ⟨-1, hm, rfl⟩)
    obtain ⟨v, hv, e⟩ := List.mem_map.1 h2
    have := hmono.le_iff_le.2 (abs_le.1 (hx v hv)).1
    rw [hmone] at a this
    rw [e] at this
    linarith
  -- the category of a sample
  let q : ℝ → Nat := fun v => ⌊(muLaw 255 v + 1) * (1 / 2) * 255⌋₊
  have hrange : ∀ v ∈ x, -1 ≤ muLaw 255 v ∧ muLaw 255 v ≤ 1 := fun v hv =>
    abs_le.1 ((C46_mu_law_range 255 v (by norm_num)).2 (hx v hv))
  have hq : ∀ v ∈ x, q v ≤ 255 := by
    intro v hv
    have := hrange v hv
    have : ⌊(muLaw 255 v + 1) * (1 / 2) * 255⌋₊ ≤ ⌊(255 : ℝ)⌋₊ := Nat.floor_le_floor (by linarith)
    have e : ⌊(255 : ℝ)⌋₊ = 255 := by
      rw [show (255 : ℝ) = ((255 : ℕ) : ℝ) by norm_num, Nat.floor_natCast]
    rwa [e] at this
  have hcats : categories junk 255 false x = .ok (x.map q) := by
    unfold categories
    simp only [Bool.false_eq_true, if_false]
    rw [h1]
    simp only [List.map_map, hmn]
    congr 1
    apply List.map_congr_left
    intro v hv
    have := hq v hv
    simp only [Function.comp, toUint8, sub_neg_eq_add]
    exact Nat.mod_eq_of_lt (by show q v < 256; omega)
  have hcat : categorical junk 255 false x =
      .ok ((x.map q).map fun k => (List.range (255 + 1)).map fun j => if j = k then (1 : ℝ) else 0) := by
    unfold categorical
    rw [hcats]
    exact mapM_oneHot 255 _ (by
      intro k hk
      obtain ⟨v, hv, rfl⟩ := List.mem_map.1 hk
      exact hq v hv)
  have hinv : ((x.map q).map fun k => (List.range (255 + 1)).map fun j => if j = k then (1 : ℝ) else 0).mapM
      (inverseCategorical 255) = .ok (x.map fun v => inverseMuLaw 255 ((q v : ℝ) / 255 - 1 / 2)) := by
    rw [List.map_map]
    have : ∀ l : List ℝ, (∀ v ∈ l, v ∈ x) →
        (l.map ((fun k => (List.range (255 + 1)).map fun j => if j = k then (1 : ℝ) else 0) ∘ q)).mapM
          (inverseCategorical 255) = .ok (l.map fun v => inverseMuLaw 255 ((q v : ℝ) / 255 - 1 / 2)) := by
      intro l
      induction l with
      | nil => intro _; rfl
      | cons a as ih =>
        intro hl
        rw [List.map_cons, List.mapM_cons, ih fun v hv => hl v (by simp [hv])]
        have : inverseCategorical 255 (((fun k => (List.range (255 + 1)).map fun j => if j = k then (1 : ℝ) else 0) ∘ q) a) =
            .ok (inverseMuLaw 255 ((q a : ℝ) / 255 - 1 / 2)) := by
          unfold inverseCategorical
          simp only [Function.comp]
          rw [argmax_oneHot 255 (q a) (hq a (hl a (by simp)))]
          norm_num
        rw [this]
        rfl
    exact this x fun v hv => hv
  refine ⟨_, by unfold roundTrip; rw [hcat]; exact hinv, by simp, ?_⟩
  intro i hi hi'
  rw [List.getElem_map, C46_mu_law_right_inverse 255 _ (by norm_num)]
  have hv := hrange x[i] (List.getElem_mem hi)
  have l1 : (q x[i] : ℝ) ≤ (muLaw 255 x[i] + 1) * (1 / 2) * 255 := Nat.floor_le (by linarith)
  have l2 : (muLaw 255 x[i] + 1) * (1 / 2) * 255 < (q x[i] : ℝ) + 1 := Nat.lt_floor_add_one _
  constructor
  · have : (q x[i] : ℝ) / 255 ≤ (muLaw 255 x[i] + 1) * (1 / 2) := by
      rw [div_le_iff₀ (by norm_num)]; exact l1
    linarith
  · have : (muLaw 255 x[i] + 1) * (1 / 2) < ((q x[i] : ℝ) + 1) / 255 := by
      rw [lt_div_iff₀ (by norm_num)]; exact l2
    have e : ((q x[i] : ℝ) + 1) / 255 = (q x[i] : ℝ) / 255 + 1 / 255 := by ring
    rw [e] at this
    linarith

example := C49_round_trip_partial [] [-1, 0, 1 / 2] (by intro v hv; simp only [List.mem_cons, List.not_mem_nil, or_false] at hv; rcases hv with rfl | rfl | rfl <;> norm_num [abs_le]) (by simp)

/-- **C49, refuted.** `inverse_categorical` does not invert `categorical`: every sample of a
signal in `[-1, 1]` that reaches `-1` comes back with modulus at most `1/17`, so a full
scale sample `1` is off by at least `16/17`. -/
theorem C49_round_trip_fails (junk : List ℝ) (x : List ℝ) (hx : ∀ v ∈ x, |v| ≤ 1) (hm : (-1) ∈ x) (h1 : 1 ∈ x) :
    ∃ y : List ℝ, roundTrip junk false x = .ok y ∧ ∃ i, ∃ (h : i < x.length) (h' : i < y.length),
      x[i] = 1 ∧ y[i] ≤ 1 / 17 := by
  obtain ⟨y, hy, hlen, hb⟩ := C49_round_trip_partial junk x hx hm
  obtain ⟨i, hi, e⟩ := List.mem_iff_getElem.1 h1
  refine ⟨y, hy, i, hi, by omega, e, ?_⟩
  have := (hb i hi (by omega)).1
  rw [e, C46_mu_law_one 255 (by norm_num)] at this
  have h17 : muLaw 255 (1 / 17) = 1 / 2 := by
    have h16 : Real.log 256 = 2 * Real.log 16 := by
      rw [show (256 : ℝ) = 16 ^ 2 by norm_num, Real.log_pow]; norm_num
    have hl : 0 < Real.log 16 := Real.log_pos (by norm_num)
    simp only [muLaw]
    rw [npSign_pos (by norm_num), abs_of_pos (by norm_num)]
    norm_num
    rw [h16]
    field_simp
  refine (C46_mu_law_strict_mono 255 (by norm_num)).le_iff_le.1 ?_
  rw [h17]
  linarith

example := C49_round_trip_fails [] [-1, 0, 1] (by intro v hv; simp only [List.mem_cons, List.not_mem_nil, or_false] at hv; rcases hv with rfl | rfl | rfl <;> norm_num) (by simp) (by simp)

example : ∀ v ∈ [(-1 : ℝ), 0, 1], |v| ≤ 1 := by
  intro v hv
  simp only [List.mem_cons, List.not_mem_nil, or_false] at hv
  rcases hv with rfl | rfl | rfl <;> norm_num

/-- **C49.** Normalising first means dividing by the largest sample, when that is not zero. -/
theorem C49_normalized (junk x : List ℝ) (mu : Nat) (m : ℝ) (hm : m ∈ x) (hmax : ∀ v ∈ x, v ≤ m) (h0 : m ≠ 0) :
    categorical junk mu true x = categorical junk mu false (x.map fun v => v / m) := by
  obtain ⟨m', h1, h2, h3⟩ := vmax_spec x (List.ne_nil_of_mem hm)
  have : m' = m := le_antisymm (hmax m' h2) (h3 m hm)
  subst this
  unfold categorical categories Loudness.normalize
  simp [h1, h0]

example := C49_normalized [] [-1, 0, 1 / 2] 255 (1 / 2) (by simp) (by intro v hv; simp only [List.mem_cons, List.not_mem_nil, or_false] at hv; rcases hv with rfl | rfl | rfl <;> norm_num) (by norm_num)

/-- **C49, refuted for silence.** When the largest sample is zero (silence, for one) the masked division leaves its result uninitialised: the
categories are those of whatever the memory held. -/
theorem C49_normalized_silence (junk x : List ℝ) (mu : Nat) (hm : 0 ∈ x) (hmax : ∀ v ∈ x, v ≤ 0) :
    categorical junk mu true x = categorical junk mu false junk := by
  obtain ⟨m', h1, h2, h3⟩ := vmax_spec x (List.ne_nil_of_mem hm)
  have : m' = 0 := le_antisymm (hmax m' h2) (h3 0 hm)
  subst this
  unfold categorical categories Loudness.normalize
  simp [h1]

example := C49_normalized_silence [1 / 4, 1 / 5] [0, -1] 255 (by simp) (by intro v hv; simp only [List.mem_cons, List.not_mem_nil, or_false] at hv; rcases hv with rfl | rfl <;> norm_num)

/-- **C49.** An empty signal is a ValueError, normalised or not. -/
theorem C49_empty (junk : List ℝ) (mu : Nat) (nrm : Bool) : categorical junk mu nrm [] = .error .valueError := by
  cases nrm <;> rfl

/-- **C46.** So is scaling it. -/
theorem C46_instance_scale_empty (eps : ℝ) : instanceScale eps [] = .error .valueError := rfl

/-- **C49.** A sample whose category does not exist is an IndexError: the result is never a row without a category. -/
theorem C49_no_such_category (junk x : List ℝ) (mu : Nat) (nrm : Bool) (ks : List Nat) (h : categories junk mu nrm x = .ok ks)
    (k : Nat) (hk : k ∈ ks) (hbig : mu < k) : categorical junk mu nrm x = .error .indexError := by
  unfold categorical
  rw [h]
  simp only
  clear h
  induction ks with
  | nil => cases hk
  | cons a ks ih =>
    rw [List.mapM_cons]
    by_cases ha : mu < a
    · have : oneHot mu a = .error .indexError := by unfold oneHot; rw [if_neg (by omega)]
      rw [this]; rfl
    · have hk' : k ∈ ks := by
        rcases List.mem_cons.mp hk with rfl | hk
        · exact absurd hbig ha
        · exact hk
      rw [oneHot_ok mu a (by omega), ih hk']
      rfl

end Zounds.Props.Loudness
