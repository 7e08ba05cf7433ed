import Verif.Model.FilterBanks
import Mathlib.Data.List.GetD
import Mathlib.Algebra.BigOperators.Ring.List
import Mathlib.Algebra.Order.BigOperators.Group.List
import Mathlib.Tactic.Linarith
import Mathlib.Tactic.FieldSimp
import Mathlib.Tactic.Ring

/-!
# C160–C162: filter banks
-/

namespace Zounds.FilterBanks

/-! ## C160: Morlet wavelets -/

/-- The number of scalings a caller gives for `n` bands: any for a number. -/
def Scaling.fits (n : ℕ) : Scaling → Prop
  | .number _ => True
  | .list l => l.length = n
  | .other => False

/-- The scaling of band `i`. -/
def Scaling.at (i : ℕ) : Scaling → ℝ
  | .number s => s
  | .list l => l.getD i 0
  | .other => 0

/-- **C160, refusals**: a bank is made exactly when the scalings are a number or as many as there are bands (and the kernel is not empty); otherwise it is
a ValueError for a collection of another size, a TypeError for anything else. -/
theorem C160_refused (eps : ℝ) (sr kernel : ℕ) (hk : 0 < kernel) (centers : List ℝ) (scaling : Scaling) (normalize : Bool) :
    ((∃ bank, morletBank eps sr kernel centers scaling normalize = .ok bank) ↔ scaling.fits centers.length) ∧
    (∀ l, scaling = .list l → l.length ≠ centers.length → morletBank eps sr kernel centers scaling normalize = .error .valueError) ∧
    (scaling = .other → morletBank eps sr kernel centers scaling normalize = .error .typeError) := by
  have hk' : ¬ (kernel = 0 ∧ centers ≠ []) := fun h => by omega
  refine ⟨?_, ?_, ?_⟩
  · cases scaling with
    | number s => simp [morletBank, scalings, hk', Scaling.fits, hk.ne']
    | list l =>
      unfold morletBank scalings Scaling.fits
      by_cases h : l.length = centers.length
      · simp [h, hk.ne']
      · simp [h]
    | other => simp [morletBank, scalings, Scaling.fits]
  · rintro l rfl h
    simp [morletBank, scalings, h]
  · rintro rfl
    simp [morletBank, scalings]

example := C160_refused (1 / 10) 11025 64 (by decide) [440, 880] (.list [0.5, 1]) true

theorem linspace_sub (M : ℕ) (s : ℝ) (k : ℕ) (h : k < M) (h1 : 1 < M) : linspace M s (M - 1 - k) = -linspace M s k := by
  unfold linspace
  have hM : ((M - 1 - k : ℕ) : ℝ) = (M : ℝ) - 1 - k := by
    rw [Nat.cast_sub (by omega), Nat.cast_sub (by omega)]
    simp
  have h2 : (M : ℝ) - 1 ≠ 0 := by
    have : (1 : ℝ) < M := by exact_mod_cast h1
    linarith
  rw [hM]
  field_simp
  ring

theorem morlet_get (M : ℕ) (w s : ℝ) (k : ℕ) (h : k < M) : (morlet M w s).getD k 0 =
    (Real.cos (w * linspace M s k) - Real.exp (-0.5 * w ^ 2)) * (Real.exp (-0.5 * linspace M s k ^ 2) * Real.pi ^ (-0.25 : ℝ)) := by
  rw [List.getD_eq_getElem _ _ (by simpa [morlet] using h)]
  simp [morlet]

theorem morlet_symm (M : ℕ) (w s : ℝ) (k : ℕ) (h : k < M) : (morlet M w s).getD (M - 1 - k) 0 = (morlet M w s).getD k 0 := by
  by_cases h1 : 1 < M
  · rw [morlet_get _ _ _ _ h, morlet_get _ _ _ _ (by omega), linspace_sub M s k h h1, mul_neg, Real.cos_neg, neg_sq]
  · congr 1
    omega

theorem norm_map_div (row : List ℝ) (d : ℝ) (hd : 0 < d) : norm (row.map fun v => v / d) = norm row / d := by
  unfold norm
  have : ((row.map fun v => v / d).map fun v => v ^ 2).sum = (row.map fun v => v ^ 2).sum / d ^ 2 := by
    rw [List.map_map, div_eq_mul_inv, ← List.sum_map_mul_right]
    congr 1
    apply List.map_congr_left
    intro v _
    simp only [Function.comp_apply]
    rw [div_pow, div_eq_mul_inv]
  rw [this, Real.sqrt_div' _ (by positivity), Real.sqrt_sq hd.le]

theorem norm_nonneg (row : List ℝ) : 0 ≤ norm row := Real.sqrt_nonneg _

theorem scalings_ok (n : ℕ) (scaling : Scaling) (h : scaling.fits n) :
    ∃ ss, scalings n scaling = .ok ss ∧ ss.length = n ∧ ∀ i, i < n → ss.getD i 0 = scaling.at i := by
  cases scaling with
  | number s =>
    refine ⟨_, rfl, by simp, fun i hi => ?_⟩
    rw [List.getD_eq_getElem _ _ (by simpa using hi)]
    simp [Scaling.at]
  | list l =>
    unfold Scaling.fits at h
    exact ⟨l, by simp [scalings, h], h, fun i _ => rfl⟩
  | other => exact absurd h (by simp [Scaling.fits])

/-- **C160**: one filter per band, each of `kernel` taps and symmetric, so that it delays all frequencies alike; without normalization tap `k` of the
filter of a band with centre frequency `c` and scaling `s` is a Gaussian bell of positive height around the middle of the filter times a cosine that is
at its maximum there and has frequency `c K / (K - 1)`, less a constant.  (Not `c` itself: the wavelet is spread over `K - 1` steps, the frequency is
computed for `K`.) -/
theorem C160_wave (eps : ℝ) (sr kernel : ℕ) (hsr : 0 < sr) (hk : 1 < kernel) (centers : List ℝ) (scaling : Scaling)
    (h : scaling.fits centers.length) (hs : ∀ i, i < centers.length → scaling.at i ≠ 0) :
    ∃ bank, morletBank eps sr kernel centers scaling false = .ok bank ∧ bank.length = centers.length ∧
      ∀ i, i < centers.length → (bank.getD i []).length = kernel ∧ ∃ a : ℝ, 0 < a ∧ ∀ k : ℕ, k < kernel →
        (bank.getD i []).getD k 0 =
          (Real.cos (2 * Real.pi * (centers.getD i 0 * kernel / (kernel - 1)) * (k - (kernel - 1) / 2) / sr) - a) *
            (Real.exp (-(4 * Real.pi * scaling.at i * (k - (kernel - 1) / 2) / (kernel - 1)) ^ 2 / 2) * Real.pi ^ (-(1 / 4) : ℝ)) := by
  obtain ⟨ss, h1, h2, h3⟩ := scalings_ok _ _ h
  have hK : (1 : ℝ) < kernel := by exact_mod_cast hk
  have hK1 : (kernel : ℝ) - 1 ≠ 0 := by linarith
  have hK0 : (kernel : ℝ) ≠ 0 := by linarith
  have hsr' : (sr : ℝ) ≠ 0 := by exact_mod_cast hsr.ne'
  refine ⟨_, by unfold morletBank; simp only [h1]; rw [if_neg (fun hh => by omega)], by simp [h2], fun i hi => ?_⟩
  have hi2 : i < ss.length := by omega
  have hss : ss[i] = scaling.at i := by rw [← h3 i hi, List.getD_eq_getElem _ _ hi2]
  have hg : (if false = true then (List.zipWith (fun c s => morlet kernel (omega sr kernel c s) s) centers ss).map
      fun row => row.map fun v => v / (norm row + eps) else List.zipWith (fun c s => morlet kernel (omega sr kernel c s) s) centers ss).getD i [] =
      morlet kernel (omega sr kernel centers[i] (scaling.at i)) (scaling.at i) := by
    rw [if_neg (by simp), List.getD_eq_getElem _ _ (by simp; omega), List.getElem_zipWith, hss]
  rw [hg]
  refine ⟨by simp [morlet], Real.exp (-0.5 * omega sr kernel centers[i] (scaling.at i) ^ 2), Real.exp_pos _, fun k hk' => ?_⟩
  rw [morlet_get _ _ _ _ hk', List.getD_eq_getElem _ _ hi]
  have hsi := hs i hi
  congr 3
  · unfold omega linspace
    field_simp
    ring
  · unfold linspace
    field_simp
    ring
  · norm_num

example := C160_wave (1 / 10) 11025 64 (by decide) (by decide) [440, 880] (.number 1) trivial (by intro i _; norm_num [Scaling.at])

/-- **C160, normalization**: every filter of a normalized bank is the filter that is made without, divided by one positive number; it is symmetric, and of norm
`n / (n + eps)` where `n` is the norm it had: just below one. -/
theorem C160_normalized (eps : ℝ) (he : 0 < eps) (sr kernel : ℕ) (hk : 0 < kernel) (centers : List ℝ) (scaling : Scaling)
    (h : scaling.fits centers.length) :
    ∃ plain bank, morletBank eps sr kernel centers scaling false = .ok plain ∧ morletBank eps sr kernel centers scaling true = .ok bank ∧
      plain.length = centers.length ∧ bank.length = centers.length ∧
      ∀ i, i < centers.length → (bank.getD i []).length = kernel ∧
        (∀ k, k < kernel → (bank.getD i []).getD (kernel - 1 - k) 0 = (bank.getD i []).getD k 0) ∧
        (∃ d, 0 < d ∧ bank.getD i [] = (plain.getD i []).map fun v => v / d) ∧
        norm (bank.getD i []) = norm (plain.getD i []) / (norm (plain.getD i []) + eps) ∧ norm (bank.getD i []) < 1 := by
  obtain ⟨ss, h1, h2, h3⟩ := scalings_ok _ _ h
  have hk' : ¬ (kernel = 0 ∧ centers ≠ []) := fun h => by omega
  refine ⟨_, _, by unfold morletBank; simp only [h1]; rw [if_neg hk'], by unfold morletBank; simp only [h1]; rw [if_neg hk'], by simp [h2], by simp [h2],
    fun i hi => ?_⟩
  have hi2 : i < ss.length := by omega
  simp only [if_true, Bool.false_eq_true, if_false]
  set plain := List.zipWith (fun c s => morlet kernel (omega sr kernel c s) s) centers ss with hp
  have hpl : plain.length = centers.length := by rw [hp, List.length_zipWith, h2, Nat.min_self]
  have e1 : plain.getD i [] = morlet kernel (omega sr kernel centers[i] ss[i]) ss[i] := by
    rw [List.getD_eq_getElem _ _ (by omega)]
    simp only [hp, List.getElem_zipWith]
  have e2 : (plain.map fun row => row.map fun v => v / (norm row + eps)).getD i [] =
      (plain.getD i []).map fun v => v / (norm (plain.getD i []) + eps) := by
    rw [List.getD_eq_getElem _ _ (by simpa using by omega), List.getElem_map, List.getD_eq_getElem _ _ (by omega)]
  have hd : 0 < norm (plain.getD i []) + eps := by have := norm_nonneg (plain.getD i []); linarith
  rw [e2]
  have hlen : (plain.getD i []).length = kernel := by rw [e1]; simp [morlet]
  refine ⟨by rw [List.length_map, hlen], ?_, ⟨_, hd, rfl⟩, norm_map_div _ _ hd, ?_⟩
  · intro k hk2
    have hz : ∀ j, ((plain.getD i []).map fun v => v / (norm (plain.getD i []) + eps)).getD j 0 = (plain.getD i []).getD j 0 / (norm (plain.getD i []) + eps) := by
      intro j
      have := List.getD_map (f := fun v : ℝ => v / (norm (plain.getD i []) + eps)) (n := j) (d := (0 : ℝ)) (l := plain.getD i [])
      simpa using this
    rw [hz, hz]
    congr 1
    rw [e1]
    exact morlet_symm _ _ _ _ hk2
  · rw [norm_map_div _ _ hd, div_lt_one hd]
    linarith

example := C160_normalized (1 / 10) (by norm_num) 11025 64 (by decide) [440, 880] (.list [0.5, 1]) rfl

/-! ## C161, C162: FIR filters -/

/-- **C161, design**: for a band that reaches into the range from 0 to the Nyquist frequency every filter is designed for frequencies that do not decrease, from 0
to 1 (the Nyquist frequency); the gain is zero at both ends and value `j` of the window at the `j`-th of as many equal steps through the part of the
band that is in range. -/
theorem C161_design (nyq start stop : ℝ) (hn : 0 < nyq) (h1 : start ≤ stop) (h2 : 0 ≤ stop) (h3 : start ≤ nyq) (win : List ℝ) :
    let a := max 0 start
    let b := min nyq stop
    let d := design nyq start stop win
    a ≤ b ∧ d.1.length = win.length + 2 ∧ d.2.length = win.length + 2 ∧ d.1.Pairwise (· ≤ ·) ∧ d.1.head? = some 0 ∧ d.1.getLast? = some 1 ∧
      d.2.head? = some 0 ∧ d.2.getLast? = some 0 ∧
      ∀ j : ℕ, j < win.length → d.2.getD (j + 1) 0 = win.getD j 0 ∧ d.1.getD (j + 1) 0 * nyq = a + j * ((b - a) / win.length) ∧
        d.1.getD (j + 1) 0 * nyq ≤ b := by
  intro a b d
  have hab : a ≤ b := by
    simp only [a, b]
    exact max_le (le_min hn.le h2) (le_min h3 h1)
  have ha0 : 0 ≤ a := le_max_left _ _
  have hbn : b ≤ nyq := min_le_left _ _
  have hd1 : d.1 = 0 :: ((List.range win.length).map (fun j : ℕ => a / nyq + j * ((b / nyq - a / nyq) / win.length)) ++ [1]) := rfl
  have hd2 : d.2 = 0 :: (win ++ [0]) := rfl
  have hval : ∀ j : ℕ, j < win.length → a / nyq + j * ((b / nyq - a / nyq) / win.length) ≤ b / nyq := by
    intro j hj
    have hw : (0 : ℝ) < win.length := by exact_mod_cast (by omega)
    have hj' : (j : ℝ) ≤ win.length := by exact_mod_cast hj.le
    have hba : 0 ≤ b / nyq - a / nyq := by rw [← sub_div]; exact div_nonneg (by linarith) hn.le
    have : (j : ℝ) * ((b / nyq - a / nyq) / win.length) ≤ win.length * ((b / nyq - a / nyq) / win.length) :=
      mul_le_mul_of_nonneg_right hj' (div_nonneg hba hw.le)
    rw [mul_div_cancel₀ _ hw.ne'] at this
    linarith
  have hmem : ∀ v ∈ (List.range win.length).map (fun j : ℕ => a / nyq + j * ((b / nyq - a / nyq) / win.length)), 0 ≤ v ∧ v ≤ 1 := by
    intro v hv
    obtain ⟨j, hj, rfl⟩ := List.mem_map.mp hv
    have hj' := List.mem_range.mp hj
    refine ⟨?_, (hval j hj').trans ((div_le_one hn).mpr hbn)⟩
    have hba : 0 ≤ b / nyq - a / nyq := by rw [← sub_div]; exact div_nonneg (by linarith) hn.le
    positivity
  refine ⟨hab, by simp [hd1], by simp [hd2], ?_, by simp [hd1], ?_, by simp [hd2], ?_, ?_⟩
  · rw [hd1, List.pairwise_cons, List.pairwise_append]
    refine ⟨?_, ?_, by simp, ?_⟩
    · intro v hv
      rcases List.mem_append.mp hv with hv | hv
      · exact (hmem v hv).1
      · rw [List.mem_singleton] at hv
        rw [hv]
        norm_num
    · rw [List.pairwise_map]
      refine List.pairwise_lt_range.imp ?_
      intro i j hij
      have hba : 0 ≤ b / nyq - a / nyq := by rw [← sub_div]; exact div_nonneg (by linarith) hn.le
      have : (i : ℝ) ≤ j := by exact_mod_cast hij.le
      have := mul_le_mul_of_nonneg_right this (div_nonneg hba (Nat.cast_nonneg win.length))
      linarith
    · intro v hv u hu
      rw [List.mem_singleton] at hu
      rw [hu]
      exact (hmem v hv).2
  · rw [hd1, ← List.cons_append, List.getLast?_append]
    rfl
  · rw [hd2, ← List.cons_append, List.getLast?_append]
    rfl
  · intro j hj
    have g1 : d.1.getD (j + 1) 0 = a / nyq + j * ((b / nyq - a / nyq) / win.length) := by
      rw [hd1, List.getD_cons_succ, List.getD_append _ _ _ _ (by simpa using hj), List.getD_eq_getElem _ _ (by simpa using hj)]
      simp
    refine ⟨by rw [hd2, List.getD_cons_succ, List.getD_append _ _ _ _ hj], ?_, ?_⟩
    · rw [g1]
      field_simp
    · rw [g1]
      have := mul_le_mul_of_nonneg_right (hval j hj) hn.le
      rwa [div_mul_cancel₀ _ hn.ne'] at this

example := C161_design 11025 100 200 (by norm_num) (by norm_num) (by norm_num) (by norm_num) [1, 2, 1]

theorem firLoop_get (firwin2 : ℕ → List ℝ → List ℝ → Except PyErr (List ℝ)) (nyq : ℝ) (taps : ℕ) :
    ∀ (bands : List (ℝ × ℝ)) (ws bank : List (List ℝ)), firLoop firwin2 nyq taps bands ws = .ok bank →
      bank.length = bands.length ∧ ∀ i, i < bands.length →
        (i < ws.length → firwin2 taps (design nyq (bands.getD i (0, 0)).1 (bands.getD i (0, 0)).2 (ws.getD i [])).1
          (design nyq (bands.getD i (0, 0)).1 (bands.getD i (0, 0)).2 (ws.getD i [])).2 = .ok (bank.getD i [])) ∧
        (ws.length ≤ i → bank.getD i [] = List.replicate taps 0) := by
  intro bands
  induction bands with
  | nil => intro ws bank h; simp only [firLoop] at h; cases h; simp
  | cons b bands ih =>
    intro ws bank h
    cases ws with
    | nil =>
      simp only [firLoop] at h
      cases h
      refine ⟨by simp, fun i hi => ⟨fun h => by simp at h, fun _ => ?_⟩⟩
      rw [List.getD_eq_getElem _ _ (by simpa using hi), List.getElem_map]
    | cons w ws =>
      simp only [firLoop] at h
      cases h1 : firwin2 taps (design nyq b.1 b.2 w).1 (design nyq b.1 b.2 w).2 with
      | error e => rw [h1] at h; cases h
      | ok row =>
        rw [h1] at h
        simp only [] at h
        cases h2 : firLoop firwin2 nyq taps bands ws with
        | error e => rw [h2] at h; cases h
        | ok rows =>
          rw [h2] at h
          cases h
          obtain ⟨l, g⟩ := ih ws rows h2
          refine ⟨by simp [l], fun i hi => ?_⟩
          cases i with
          | zero => exact ⟨fun _ => h1, fun h => by simp at h⟩
          | succ i =>
            simp only [List.getD_cons_succ, List.length_cons, Nat.succ_lt_succ_iff, Nat.succ_le_succ_iff]
            exact g i (by simpa using hi)

/-- **C161**: with one window for all bands, or one for each, a bank has one filter per band in the order of the scale, each of them what `firwin2` makes of
the design of `C161_design` for its own band and window. -/
theorem C161_bank (firwin2 : ℕ → List ℝ → List ℝ → Except PyErr (List ℝ)) (nyq : ℝ) (taps : ℕ) (bands : List (ℝ × ℝ)) (w : Window)
    (hw : ∀ ws, w = .rows ws → ws.length = bands.length) (bank : List (List ℝ)) (h : firBank firwin2 nyq taps bands w = .ok bank) :
    bank.length = bands.length ∧ ∀ i, i < bands.length → ∃ win, (w = .one win ∨ ∃ ws, w = .rows ws ∧ ws.getD i [] = win) ∧
      firwin2 taps (design nyq (bands.getD i (0, 0)).1 (bands.getD i (0, 0)).2 win).1
        (design nyq (bands.getD i (0, 0)).1 (bands.getD i (0, 0)).2 win).2 = .ok (bank.getD i []) := by
  cases w with
  | one w =>
    obtain ⟨l, g⟩ := firLoop_get _ _ _ _ _ _ h
    refine ⟨l, fun i hi => ⟨w, .inl rfl, ?_⟩⟩
    have := (g i hi).1 (by simpa using hi)
    rwa [List.getD_eq_getElem (List.replicate _ _) _ (by simpa using hi), List.getElem_replicate] at this
  | rows ws =>
    obtain ⟨l, g⟩ := firLoop_get _ _ _ _ _ _ h
    have := hw ws rfl
    exact ⟨l, fun i hi => ⟨_, .inr ⟨ws, rfl, rfl⟩, (g i hi).1 (by omega)⟩⟩

example := C161_bank (fun taps _ _ => .ok (List.replicate taps 1)) 11025 4 [(0, 100), (100, 200)] (.one [1, 2, 1]) (fun _ h => nomatch h) _ rfl

theorem firLoop_exists (firwin2 : ℕ → List ℝ → List ℝ → Except PyErr (List ℝ)) (nyq : ℝ) (taps : ℕ) :
    ∀ (bands : List (ℝ × ℝ)) (ws : List (List ℝ)),
      (∀ b ∈ bands, ∀ w ∈ ws, ∃ row, firwin2 taps (design nyq b.1 b.2 w).1 (design nyq b.1 b.2 w).2 = .ok row) →
      ∃ bank, firLoop firwin2 nyq taps bands ws = .ok bank := by
  intro bands
  induction bands with
  | nil => intro ws _; exact ⟨[], by simp [firLoop]⟩
  | cons b bands ih =>
    intro ws h
    cases ws with
    | nil => exact ⟨(b :: bands).map fun _ => List.replicate taps 0, by simp only [firLoop]⟩
    | cons w ws =>
      obtain ⟨row, h1⟩ := h b (by simp) w (by simp)
      obtain ⟨rows, h2⟩ := ih ws fun b hb w hw => h b (List.mem_cons_of_mem _ hb) w (List.mem_cons_of_mem _ hw)
      exact ⟨row :: rows, by simp only [firLoop, h1, h2]⟩

/-- **C162 is false**: a user expects windows that do not match the bands to be refused.  With fewer windows than bands a bank is made, whatever the bands, as
long as `firwin2` accepts the designs, and all filters without a window are zero. -/
theorem C162_refuted (firwin2 : ℕ → List ℝ → List ℝ → Except PyErr (List ℝ)) (nyq : ℝ) (taps : ℕ) (bands : List (ℝ × ℝ)) (ws : List (List ℝ))
    (hok : ∀ b ∈ bands, ∀ w ∈ ws, ∃ row, firwin2 taps (design nyq b.1 b.2 w).1 (design nyq b.1 b.2 w).2 = .ok row)
    (_hlt : ws.length < bands.length) :
    ∃ bank, firBank firwin2 nyq taps bands (.rows ws) = .ok bank ∧
      ∀ i, ws.length ≤ i → i < bands.length → bank.getD i [] = List.replicate taps 0 := by
  obtain ⟨bank, h⟩ := firLoop_exists firwin2 nyq taps bands ws hok
  exact ⟨bank, h, fun i h1 h2 => ((firLoop_get _ _ _ _ _ _ h).2 i h2).2 h1⟩

/-! ## The hypotheses are met -/

example : (Scaling.list [0.5, 1]).fits [440, 880].length ∧ ∀ i, i < [440, 880].length → (Scaling.list [0.5, 1]).at i ≠ 0 :=
  ⟨rfl, by
    intro i hi
    have : i = 0 ∨ i = 1 := by simp at hi; omega
    rcases this with rfl | rfl <;> norm_num [Scaling.at]⟩
example : ∃ bank, firBank (fun taps _ _ => .ok (List.replicate taps 1)) 11025 4 [(0, 100), (100, 200)] (.rows [[1, 2, 1]]) = .ok bank ∧
    bank.getD 1 [] = [0, 0, 0, 0] := by
  obtain ⟨bank, h1, h2⟩ := C162_refuted (fun taps _ _ => .ok (List.replicate taps 1)) 11025 4 [(0, 100), (100, 200)] [[1, 2, 1]]
    (fun _ _ _ _ => ⟨_, rfl⟩) (by simp)
  exact ⟨bank, h1, h2 1 (by simp) (by simp)⟩

end Zounds.FilterBanks
