import Verif.Model.Vq
import Verif.Props.Pipeline
import Verif.Props.Codebook
import Verif.Props.Loudness

/-!
# C354-C358: a learned audio encoder (examples/mdct_synth.py)
-/

namespace Zounds.Vq
open Zounds Zounds.Pipeline
open Zounds.Codebook (Nearest dist)

/-! ## Specification -/

/-- A frame, every number times `c`. -/
def scaled (c : ℝ) (x : List ℝ) : List ℝ := x.map (c * ·)

/-- The Euclidean length of a frame, its loudness. -/
noncomputable def loudness (x : List ℝ) : ℝ := Real.sqrt ((x.map fun v => v ^ 2).sum)

/-- `y` is the nearest codeword to the shape of the frame `x` (the first of those equally near), at the loudness of `x`; silence stays silence. -/
def Quantised (codebook : List (List ℝ)) (x y : List ℝ) : Prop :=
  (loudness x = 0 → y = List.replicate x.length 0) ∧
  (loudness x ≠ 0 → ∃ b, Nearest codebook (scaled (1 / loudness x) x) b ∧ y = scaled (loudness x) (codebook.getD b []))

/-! ## Lemmas -/

theorem loudness_eq (x : List ℝ) : loudness x = Pipeline.norm x := rfl

theorem sumsq_nonneg (l : List ℝ) : 0 ≤ (l.map fun v => v ^ 2).sum := by
  apply List.sum_nonneg
  intro v hv
  obtain ⟨w, _, rfl⟩ := List.mem_map.1 hv
  positivity

theorem loudness_nonneg (x : List ℝ) : 0 ≤ loudness x := Real.sqrt_nonneg _

theorem loudness_scaled (c : ℝ) (x : List ℝ) : loudness (scaled c x) = |c| * loudness x := by
  unfold loudness scaled
  have h : ((x.map (c * ·)).map fun v => v ^ 2).sum = c ^ 2 * (x.map fun v => v ^ 2).sum := by
    rw [List.map_map, ← List.sum_map_mul_left]
    congr 1
    apply List.map_congr_left
    intro v _
    simp only [Function.comp]
    ring
  rw [h, Real.sqrt_mul (by positivity), Real.sqrt_sq_eq_abs]

theorem scaled_scaled (a b : ℝ) (x : List ℝ) : scaled a (scaled b x) = scaled (a * b) x := by
  unfold scaled
  rw [List.map_map]
  apply List.map_congr_left
  intro v _
  simp only [Function.comp]
  ring

theorem scaled_one (x : List ℝ) : scaled 1 x = x := by simp [scaled]

theorem scaled_zero (x : List ℝ) : scaled 0 x = List.replicate x.length 0 := by
  induction x with
  | nil => rfl
  | cons a x ih =>
    rw [List.length_cons, List.replicate_succ, ← ih]
    simp [scaled]

theorem silent (x : List ℝ) (h : loudness x = 0) : x = List.replicate x.length 0 := by
  apply List.eq_replicate_iff.2
  exact ⟨rfl, norm_zero x h⟩

theorem loudness_silence (n : Nat) : loudness (List.replicate n 0) = 0 := by simp [loudness]

theorem quantised_unique (codebook : List (List ℝ)) (x y y' : List ℝ) (h : Quantised codebook x y) (h' : Quantised codebook x y') : y = y' := by
  by_cases hx : loudness x = 0
  · rw [h.1 hx, h'.1 hx]
  · obtain ⟨b, h1, h2⟩ := h.2 hx
    obtain ⟨b', h1', h2'⟩ := h'.2 hx
    rw [h2, h2', Codebook.nearest_unique codebook _ b b' h1 h1']

theorem forall₂_unique {α β : Type} (R : α → β → Prop) (hR : ∀ a b b', R a b → R a b' → b = b') : ∀ (l : List α) (m m' : List β),
    List.Forall₂ R l m → List.Forall₂ R l m' → m = m'
  | _, _, _, .nil, .nil => rfl
  | _, _, _, .cons h t, .cons h' t' => by rw [hR _ _ _ h h', forall₂_unique R hR _ _ _ t t']

theorem toCode_ofCode (code : List ℕ) (h : ∀ v ∈ code, v = 0 ∨ v = 1) : toCode (ofCode code) = code := by
  unfold toCode ofCode
  rw [List.map_map]
  conv_rhs => rw [← List.map_id code]
  apply List.map_congr_left
  intro v hv
  rcases h v hv with rfl | rfl <;> simp

theorem oneHot_bits (n : ℕ) (code : List ℕ) (b : ℕ) (h : Codebook.OneHot n code b) : ∀ v ∈ code, v = 0 ∨ v = 1 := by
  intro v hv
  obtain ⟨i, hi, rfl⟩ := List.mem_iff_getElem.1 hv
  have := h.2.2 i (by rw [← h.1]; exact hi)
  rw [List.getD_eq_getElem?_getD, List.getElem?_eq_getElem hi, Option.getD_some] at this
  rw [this]
  split <;> simp

/-- Encoding and decoding. -/
theorem code_decode (dim : ℕ) (codebook d : List (List ℝ)) (hne : codebook ≠ []) (hd : ∀ x ∈ d, x.length = dim) :
    ∃ codes ys, Codebook.encode dim codebook d = .ok codes ∧ Codebook.decode codebook ((codes.map ofCode).map toCode) = .ok ys ∧
      List.Forall₂ (fun x y => ∃ b, Nearest codebook x b ∧ y = codebook.getD b []) d ys := by
  choose b code h1 h2 h3 using Codebook.encodeRow_spec codebook hne
  refine ⟨d.map code, d.map fun x => codebook.getD (b x) [], ?_, ?_, ?_⟩
  · unfold Codebook.encode
    rw [if_neg (by push Not; exact hd), Codebook.mapM_ok_of _ _ code (fun x _ => h1 x)]
  · have e1 : ((d.map code).map ofCode).map toCode = d.map code := by
      rw [List.map_map, List.map_map]
      apply List.map_congr_left
      intro x _
      exact toCode_ofCode _ (oneHot_bits _ _ _ (h3 x))
    unfold Codebook.decode
    rw [e1, List.map_map]
    have e2 : d.map (Codebook.onesOf ∘ code) = d.map fun x => [b x] := by
      apply List.map_congr_left
      intro x _
      exact Codebook.onesOf_oneHot _ _ _ (h3 x)
    rw [e2, Codebook.flatten_singletons, Codebook.mapM_ok_of _ _ (fun i => codebook.getD i []), List.map_map]
    · rfl
    · intro i hi
      obtain ⟨x, _, rfl⟩ := List.mem_map.1 hi
      unfold Codebook.codeword
      rw [List.getD_eq_getElem?_getD, List.getElem?_eq_getElem (h2 x).1]
      rfl
  · rw [List.forall₂_map_right_iff]
    exact List.forall₂_same.2 fun x _ => ⟨b x, h2 x, rfl⟩

theorem unitNorm_rows (junk : Nat → Nat → ℝ) (dim : ℕ) (rows : List (List ℝ)) (hd : ∀ x ∈ rows, x.length = dim) :
    ∀ x ∈ (Pipeline.unitNorm junk ⟨[dim], rows⟩).1.rows, x.length = dim := by
  intro x hx
  obtain ⟨i, hi, rfl⟩ := List.mem_mapIdx.1 hx
  have := hd _ (List.getElem_mem hi)
  unfold divWhere
  split <;> simpa using this

/-- Decoded rows times the norms. -/
theorem rows_back (junk : Nat → Nat → ℝ) (dim : ℕ) (codebook : List (List ℝ)) (hc : ∀ c ∈ codebook, c.length = dim) (rows ys : List (List ℝ)) (hd : ∀ x ∈ rows, x.length = dim)
    (h : List.Forall₂ (fun x y => ∃ b, Nearest codebook x b ∧ y = codebook.getD b []) (rows.mapIdx fun i r => divWhere (junk i) r (Pipeline.norm r)) ys) :
    List.Forall₂ (Quantised codebook) rows (List.zipWith (fun r n => r.map (· * n)) ys (rows.map Pipeline.norm)) := by
  rw [List.forall₂_iff_get] at h ⊢
  obtain ⟨hl, hg⟩ := h
  rw [List.length_mapIdx] at hl
  refine ⟨by simp [hl], ?_⟩
  intro i h1 h2
  obtain ⟨b, hb, hy⟩ := hg i (by simpa using h1) (by omega)
  simp only [List.get_eq_getElem, List.getElem_mapIdx, List.getElem_zipWith, List.getElem_map] at hb hy ⊢
  rw [hy]
  have hbl : b < codebook.length := hb.1
  have hlen : (codebook.getD b []).length = dim := by
    rw [List.getD_eq_getElem?_getD, List.getElem?_eq_getElem hbl]
    exact hc _ (List.getElem_mem hbl)
  have e : (codebook.getD b []).map (· * Pipeline.norm rows[i]) = scaled (loudness rows[i]) (codebook.getD b []) := by
    apply List.map_congr_left
    intro v _
    rw [loudness_eq]
    ring
  rw [e]
  constructor
  · intro h0
    rw [h0, scaled_zero, hlen, hd _ (List.getElem_mem h1)]
  · intro h0
    refine ⟨b, ?_, rfl⟩
    have : divWhere (junk i) rows[i] (Pipeline.norm rows[i]) = scaled (1 / loudness rows[i]) rows[i] := by
      unfold divWhere scaled
      rw [if_pos (by rw [← loudness_eq]; exact h0)]
      apply List.map_congr_left
      intro v _
      rw [loudness_eq]
      ring
    rw [← this]
    exact hb

theorem unit_pass (junk : Nat → Nat → ℝ) (dim : ℕ) (codebook : List (List ℝ)) (hne : codebook ≠ []) (hc : ∀ c ∈ codebook, c.length = dim) (rows : List (List ℝ)) (hr : rows ≠ [])
    (hd : ∀ x ∈ rows, x.length = dim) :
    ∃ out codes, forwardAll (plainPipeline junk dim codebook) ⟨[dim], rows⟩ =
        .ok (⟨[codebook.length], codes⟩, [.step (.norms (rows.map Pipeline.norm)), .book codebook]) ∧
      (kmeans dim codebook).inverse ⟨[codebook.length], codes⟩ (.book codebook) = .ok ⟨[dim], out⟩ ∧
      List.Forall₂ (Quantised codebook) rows (List.zipWith (fun r n => r.map (· * n)) out (rows.map Pipeline.norm)) := by
  obtain ⟨codes, ys, h1, h2, h3⟩ := code_decode dim codebook _ hne (unitNorm_rows junk dim rows hd)
  refine ⟨ys, codes.map ofCode, ?_, ?_, rows_back junk dim codebook hc rows ys hd h3⟩
  · simp only [plainPipeline, forwardAll, Proc.step, lift, hr, and_false, if_false, Step.proc, Except.map, liftOut, kmeans, h1]
    rfl
  · simp only [kmeans, h2]

/-! ## C354 -/

/-- **C354**: encoding frames and decoding them again gives, for every frame, the nearest codeword at the frame's loudness, and silence for silence; whatever is in memory. -/
theorem C354_pass (junk : Nat → Nat → ℝ) (dim : ℕ) (codebook : List (List ℝ)) (hne : codebook ≠ []) (hc : ∀ c ∈ codebook, c.length = dim) (rows : List (List ℝ)) (hr : rows ≠ [])
    (hd : ∀ x ∈ rows, x.length = dim) :
    ∃ out, fullPass (plainPipeline junk dim codebook) ⟨[dim], rows⟩ = .ok ⟨[dim], out⟩ ∧ List.Forall₂ (Quantised codebook) rows out := by
  obtain ⟨ys, codes, h1, h2, h3⟩ := unit_pass junk dim codebook hne hc rows hr hd
  refine ⟨_, ?_, h3⟩
  unfold fullPass transform
  rw [h1]
  simp only [Result.inverseTransform, plainPipeline, List.reverse_cons, List.reverse_nil, List.nil_append, List.cons_append, List.zip_cons_cons, List.zip_nil_right, backAll, h2]
  rfl

/-- **C354** (with logarithmic amplitude): the same of the logarithms. -/
theorem C354_log (junk : Nat → Nat → ℝ) (dim : ℕ) (codebook : List (List ℝ)) (hne : codebook ≠ []) (hc : ∀ c ∈ codebook, c.length = dim) (rows : List (List ℝ)) (hr : rows ≠ [])
    (hd : ∀ x ∈ rows, x.length = dim) :
    ∃ out, fullPass (logPipeline junk dim codebook) ⟨[dim], rows⟩ = .ok ⟨[dim], out⟩ ∧
      List.Forall₂ (fun x y => Quantised codebook (x.map Loudness.logModulus) (y.map Loudness.logModulus)) rows out := by
  obtain ⟨ys, codes, h1, h2, h3⟩ := unit_pass junk dim codebook hne hc (rows.map (List.map Loudness.logModulus)) (by simpa using hr) (by simpa using hd)
  refine ⟨(List.zipWith (fun r n => r.map (· * n)) ys ((rows.map (List.map Loudness.logModulus)).map Pipeline.norm)).map (List.map Loudness.inverseLogModulus), ?_, ?_⟩
  · unfold fullPass transform
    have e : forwardAll (logPipeline junk dim codebook) ⟨[dim], rows⟩ = .ok (⟨[codebook.length], codes⟩,
        [.step .none, .step (.norms ((rows.map (List.map Loudness.logModulus)).map Pipeline.norm)), .book codebook]) := by
      rw [show logPipeline junk dim codebook = lift (Step.log.proc junk) false :: plainPipeline junk dim codebook from rfl, forwardAll]
      have : (lift (Step.log.proc junk) false).step ⟨[dim], rows⟩ = .ok (⟨[dim], rows.map (List.map Loudness.logModulus)⟩, .step .none) := by
        simp [Proc.step, lift, Step.proc, Except.map, liftOut, mapAll]
      rw [this]
      simp only [h1]
    rw [e]
    simp only [Result.inverseTransform, logPipeline, List.reverse_cons, List.reverse_nil, List.nil_append, List.cons_append, List.zip_cons_cons, List.zip_nil_right, backAll, h2]
    rfl
  · rw [List.forall₂_map_right_iff]
    rw [List.forall₂_map_left_iff] at h3
    refine h3.imp ?_
    intro x y h
    have : (y.map Loudness.inverseLogModulus).map Loudness.logModulus = y := by
      rw [List.map_map]
      conv_rhs => rw [← List.map_id y]
      apply List.map_congr_left
      intro v _
      exact Props.Loudness.C46_log_modulus_right_inverse v
    rw [this]
    exact h

/-- **C354** (errors): no frames, frames of another size, or no codewords: a ValueError. -/
theorem C354_errors (junk : Nat → Nat → ℝ) (dim n : ℕ) (codebook : List (List ℝ)) (rows : List (List ℝ)) (hd : ∀ x ∈ rows, x.length = n) (h : rows = [] ∨ n ≠ dim ∨ codebook = []) :
    fullPass (plainPipeline junk dim codebook) ⟨[n], rows⟩ = .error .valueError := by
  unfold fullPass transform
  by_cases hr : rows = []
  · subst hr
    simp [plainPipeline, forwardAll, Proc.step, lift]
  · have hu := unitNorm_rows junk n rows hd
    have hne : (Pipeline.unitNorm junk ⟨[n], rows⟩).1.rows ≠ [] := by
      simpa [Pipeline.unitNorm] using hr
    have he : Codebook.encode dim codebook (Pipeline.unitNorm junk ⟨[n], rows⟩).1.rows = .error .valueError := by
      apply Codebook.C179_errors
      rcases h with h | h | h
      · exact absurd h hr
      · left
        obtain ⟨x, hx⟩ := List.exists_mem_of_ne_nil _ hne
        exact ⟨x, hx, by rw [hu x hx]; exact h⟩
      · exact Or.inr ⟨h, hne⟩
    simp only [plainPipeline, forwardAll, Proc.step, lift, hr, and_false, if_false, Step.proc, Except.map, liftOut, kmeans, he]

/-! ## Witnesses -/

/-- Two codewords, one of length one. -/
noncomputable def book2 : List (List ℝ) := [[1, 0], [0, 1 / 2]]

theorem book2_size : ∀ c ∈ book2, c.length = 2 := by
  intro c h
  simp only [book2, List.mem_cons, List.not_mem_nil, or_false] at h
  rcases h with rfl | rfl <;> rfl

example (junk : Nat → Nat → ℝ) := C354_pass junk 2 book2 (by simp [book2]) book2_size [[3, 4], [0, 0]] (by simp) (by simp)
example (junk : Nat → Nat → ℝ) := C354_log junk 2 book2 (by simp [book2]) book2_size [[3, -4], [0, 0]] (by simp) (by simp)
example (junk : Nat → Nat → ℝ) := C354_errors junk 2 3 book2 [[1, 2, 3]] (by simp) (Or.inr (Or.inl (by decide)))

/-! ## C355: the error -/

theorem dist_scaled (c : ℝ) (x y : List ℝ) : dist (scaled c x) (scaled c y) = |c| * dist x y := by
  unfold Codebook.dist scaled
  have h : (List.zipWith (fun a b => (a - b) ^ 2) (x.map (c * ·)) (y.map (c * ·))).sum = c ^ 2 * (List.zipWith (fun a b => (a - b) ^ 2) x y).sum := by
    induction x generalizing y with
    | nil => simp
    | cons a x ih =>
      cases y with
      | nil => simp
      | cons b y => simp only [List.map_cons, List.zipWith_cons_cons, List.sum_cons, ih]; ring
  rw [h, Real.sqrt_mul (by positivity), Real.sqrt_sq_eq_abs]

/-- **C355** (error): what comes back is the codeword at the frame's loudness that is nearest to the frame, and its distance from the frame is the loudness times the distance of the shape from
the codeword. -/
theorem C355_error (codebook : List (List ℝ)) (x y : List ℝ) (hc : ∀ c ∈ codebook, c.length = x.length) (h : Quantised codebook x y) :
    (∀ c ∈ codebook, dist x y ≤ dist x (scaled (loudness x) c)) ∧
    (loudness x ≠ 0 → ∃ c ∈ codebook, y = scaled (loudness x) c ∧ dist x y = loudness x * dist (scaled (1 / loudness x) x) c) := by
  by_cases hx : loudness x = 0
  · refine ⟨?_, fun h0 => absurd hx h0⟩
    intro c hcm
    rw [h.1 hx, hx, scaled_zero, hc c hcm]
  · obtain ⟨b, hb, hy⟩ := h.2 hx
    have hm : codebook.getD b [] ∈ codebook := by
      rw [List.getD_eq_getElem?_getD, List.getElem?_eq_getElem hb.1]
      exact List.getElem_mem hb.1
    have key : ∀ c, dist x (scaled (loudness x) c) = loudness x * dist (scaled (1 / loudness x) x) c := by
      intro c
      have e : x = scaled (loudness x) (scaled (1 / loudness x) x) := by
        rw [scaled_scaled, mul_one_div_cancel hx, scaled_one]
      conv_lhs => rw [e]
      rw [scaled_scaled, mul_one_div_cancel hx, scaled_one, ← abs_of_nonneg (loudness_nonneg x), ← dist_scaled, abs_of_nonneg (loudness_nonneg x), scaled_scaled,
        mul_one_div_cancel hx, scaled_one]
    refine ⟨?_, fun _ => ⟨_, hm, hy, by rw [hy, key]⟩⟩
    intro c hcm
    rw [hy, key, key]
    obtain ⟨j, hj, rfl⟩ := List.mem_iff_getElem.1 hcm
    have := hb.2.1 j hj
    rw [List.getD_eq_getElem?_getD (l := codebook) (i := j), List.getElem?_eq_getElem hj, Option.getD_some] at this
    exact mul_le_mul_of_nonneg_left this (loudness_nonneg x)

example (junk : Nat → Nat → ℝ) : True := by
  obtain ⟨out, _, h⟩ := C354_pass junk 2 book2 (by simp [book2]) book2_size [[3, 4]] (by simp) (by simp)
  cases h with
  | cons h t => have := C355_error book2 [3, 4] _ (fun c hc => book2_size c hc) h; trivial

/-! ## C356: the loudness -/

/-- `c` is the mean of the frames `fs`, coordinate by coordinate: what k-means makes of the frames of a cluster. -/
def MeanOf (dim : ℕ) (fs : List (List ℝ)) (c : List ℝ) : Prop :=
  fs ≠ [] ∧ c.length = dim ∧ (∀ f ∈ fs, f.length = dim) ∧ ∀ k < dim, c.getD k 0 = (fs.map fun f => f.getD k 0).sum / fs.length

theorem sum_coords (f : ℝ → ℝ) : ∀ x : List ℝ, (x.map f).sum = ((List.range x.length).map fun k => f (x.getD k 0)).sum := by
  intro x
  congr 1
  apply List.ext_getElem (by simp)
  intro i h1 h2
  simp [List.getElem?_eq_getElem (show i < x.length by simpa using h1)]

theorem dist_coords (x y : List ℝ) (h : x.length = y.length) : dist x y ^ 2 = ((List.range x.length).map fun k => (x.getD k 0 - y.getD k 0) ^ 2).sum := by
  unfold Codebook.dist
  rw [Real.sq_sqrt]
  · congr 1
    apply List.ext_getElem (by simp [h])
    intro i h1 h2
    simp only [List.length_zipWith] at h1
    simp [List.getElem?_eq_getElem (show i < x.length by omega), List.getElem?_eq_getElem (show i < y.length by omega)]
  · apply List.sum_nonneg
    intro v hv
    obtain ⟨i, hi, rfl⟩ := List.mem_iff_getElem.1 hv
    rw [List.getElem_zipWith]
    positivity

theorem loudness_sq (x : List ℝ) : loudness x ^ 2 = ((List.range x.length).map fun k => x.getD k 0 ^ 2).sum := by
  unfold loudness
  rw [Real.sq_sqrt (sumsq_nonneg x)]
  exact sum_coords (fun v => v ^ 2) x

theorem sum_swap {α β : Type} (l : List α) (m : List β) (f : α → β → ℝ) : (l.map fun a => (m.map fun b => f a b).sum).sum = (m.map fun b => (l.map fun a => f a b).sum).sum := by
  induction l with
  | nil => simp
  | cons a l ih => simp only [List.map_cons, List.sum_cons, ih, ← List.sum_map_add]

theorem sum_zero : ∀ l : List ℝ, (∀ v ∈ l, 0 ≤ v) → l.sum = 0 → ∀ v ∈ l, v = 0
  | [], _, _, v, hv => nomatch hv
  | a :: l, h, hs, v, hv => by
    have h1 := h a List.mem_cons_self
    have h2 := List.sum_nonneg fun w hw => h w (List.mem_cons_of_mem a hw)
    rw [List.sum_cons] at hs
    rcases List.mem_cons.1 hv with rfl | hv
    · linarith
    · exact sum_zero l (fun w hw => h w (List.mem_cons_of_mem a hw)) (by linarith) v hv

/-- **C356** (codewords): the mean of frames of length one is shorter than one, by as much as the frames differ: the square of its length is one less the mean of the squares of their distances
from it. -/
theorem C356_mean (dim : ℕ) (fs : List (List ℝ)) (c : List ℝ) (h : MeanOf dim fs c) (hu : ∀ f ∈ fs, loudness f = 1) :
    loudness c ^ 2 = 1 - (fs.map fun f => dist f c ^ 2).sum / fs.length ∧ loudness c ≤ 1 ∧ (loudness c = 1 ↔ ∀ f ∈ fs, f = c) := by
  obtain ⟨hne, hl, hf, hk⟩ := h
  have hn : (0 : ℝ) < fs.length := by exact_mod_cast List.length_pos_iff.2 hne
  have hd : ∀ f ∈ fs, dist f c ^ 2 = ((List.range dim).map fun k => (f.getD k 0 - c.getD k 0) ^ 2).sum := by
    intro f hm
    rw [dist_coords f c (by rw [hf f hm, hl]), hf f hm]
  have h1 : ((List.range dim).map fun k => (fs.map fun f => f.getD k 0 ^ 2).sum).sum = (fs.length : ℝ) := by
    rw [sum_swap]
    have : (fs.map fun f => ((List.range dim).map fun k => f.getD k 0 ^ 2).sum) = fs.map fun _ => (1 : ℝ) := by
      apply List.map_congr_left
      intro f hm
      rw [← hf f hm, ← loudness_sq, hu f hm, one_pow]
    rw [this]
    simp
  have hsum : (fs.map fun f => dist f c ^ 2).sum = fs.length - fs.length * loudness c ^ 2 := by
    have e0 : (fs.map fun f => dist f c ^ 2) = fs.map fun f => ((List.range dim).map fun k => (f.getD k 0 - c.getD k 0) ^ 2).sum := List.map_congr_left hd
    have e1 : (fun k => (fs.map fun f => (f.getD k 0 - c.getD k 0) ^ 2).sum) = fun k => (fs.map fun f => f.getD k 0 ^ 2).sum + (-2 * c.getD k 0 * (fs.map fun f => f.getD k 0).sum + fs.length * c.getD k 0 ^ 2) := by
      funext k
      have : (fs.map fun f => (f.getD k 0 - c.getD k 0) ^ 2) = fs.map fun f => f.getD k 0 ^ 2 + (-2 * c.getD k 0 * f.getD k 0 + c.getD k 0 ^ 2) := by
        apply List.map_congr_left
        intro f _
        ring
      rw [this, List.sum_map_add, List.sum_map_add, List.sum_map_mul_left]
      simp
    rw [e0, sum_swap, e1, List.sum_map_add, h1, loudness_sq, hl, ← List.sum_map_mul_left]
    have e2 : ((List.range dim).map fun k => -2 * c.getD k 0 * (fs.map fun f => f.getD k 0).sum + fs.length * c.getD k 0 ^ 2) =
        (List.range dim).map fun k => (-1) * (fs.length * c.getD k 0 ^ 2) := by
      apply List.map_congr_left
      intro k hkm
      have := hk k (List.mem_range.1 hkm)
      have h3 : (fs.map fun f => f.getD k 0).sum = fs.length * c.getD k 0 := by rw [this]; field_simp
      rw [h3]
      ring
    rw [e2, List.sum_map_mul_left]
    ring
  have h0 : 0 ≤ (fs.map fun f => dist f c ^ 2).sum := by
    apply List.sum_nonneg
    intro v hv
    obtain ⟨f, _, rfl⟩ := List.mem_map.1 hv
    positivity
  have heq : loudness c ^ 2 = 1 - (fs.map fun f => dist f c ^ 2).sum / fs.length := by
    rw [hsum]
    field_simp
    ring
  have hle : loudness c ≤ 1 := by
    have : 0 ≤ (fs.map fun f => dist f c ^ 2).sum / fs.length := by positivity
    nlinarith [loudness_nonneg c]
  refine ⟨heq, hle, ?_, ?_⟩
  · intro h1' f hm
    have hz : (fs.map fun f => dist f c ^ 2).sum = 0 := by rw [hsum, h1']; ring
    have hall := sum_zero _ (fun v hv => by
      obtain ⟨f, _, rfl⟩ := List.mem_map.1 hv
      positivity) hz (dist f c ^ 2) (List.mem_map.2 ⟨f, hm, rfl⟩)
    exact Codebook.dist_eq_zero f c (by rw [hf f hm, hl]) (by simpa using hall)
  · intro hall
    obtain ⟨f, hm⟩ := List.exists_mem_of_ne_nil _ hne
    rw [← hall f hm, hu f hm]

/-- **C356** (frames): with codewords that are means of frames of length one, a frame never comes back louder than it was, and only as loud if it is silent or all frames of the codeword are the
same. -/
theorem C356_quieter (dim : ℕ) (codebook : List (List ℝ)) (cluster : ℕ → List (List ℝ)) (hm : ∀ b < codebook.length, MeanOf dim (cluster b) (codebook.getD b []))
    (hu : ∀ b, ∀ f ∈ cluster b, loudness f = 1) (x y : List ℝ) (h : Quantised codebook x y) :
    loudness y ≤ loudness x ∧ (loudness x ≠ 0 → ∃ b, Nearest codebook (scaled (1 / loudness x) x) b ∧
      loudness y ^ 2 = loudness x ^ 2 * (1 - ((cluster b).map fun f => dist f (codebook.getD b []) ^ 2).sum / (cluster b).length) ∧
      (loudness y = loudness x ↔ ∀ f ∈ cluster b, f = codebook.getD b [])) := by
  by_cases hx : loudness x = 0
  · refine ⟨?_, fun h0 => absurd hx h0⟩
    rw [h.1 hx, loudness_silence, hx]
  · obtain ⟨b, hb, hy⟩ := h.2 hx
    obtain ⟨h1, h2, h3⟩ := C356_mean dim (cluster b) _ (hm b hb.1) (hu b)
    have hpos : 0 < loudness x := lt_of_le_of_ne (loudness_nonneg x) (Ne.symm hx)
    have e : loudness y = loudness x * loudness (codebook.getD b []) := by
      rw [hy, loudness_scaled, abs_of_pos hpos]
    refine ⟨?_, fun _ => ⟨b, hb, ?_, ?_⟩⟩
    · rw [e]; nlinarith
    · rw [e, mul_pow, h1]
    · rw [← h3, e]
      constructor
      · intro hh
        have : loudness x * (loudness (codebook.getD b []) - 1) = 0 := by linarith
        rcases mul_eq_zero.1 this with h' | h'
        · exact absurd h' hx
        · linarith
      · intro hh; rw [hh, mul_one]

/-- Two frames of length one and their mean. -/
theorem mean_witness : MeanOf 2 [[1, 0], [0, 1]] [1 / 2, 1 / 2] ∧ ∀ f ∈ [[(1 : ℝ), 0], [0, 1]], loudness f = 1 := by
  refine ⟨⟨by simp, rfl, by simp, ?_⟩, ?_⟩
  · intro k hk
    have : k = 0 ∨ k = 1 := by omega
    rcases this with rfl | rfl <;> simp
  · intro f hf
    simp only [List.mem_cons, List.not_mem_nil, or_false] at hf
    rcases hf with rfl | rfl <;> simp [loudness]

example := C356_mean 2 _ _ mean_witness.1 mean_witness.2

example (junk : Nat → Nat → ℝ) : True := by
  obtain ⟨out, _, h⟩ := C354_pass junk 2 [[1 / 2, 1 / 2]] (by simp) (by simp) [[3, 4]] (by simp) (by simp)
  cases h with
  | cons h t =>
    have := C356_quieter 2 [[1 / 2, 1 / 2]] (fun _ => [[1, 0], [0, 1]]) (fun b hb => by
      have : b = 0 := by simpa using hb
      subst this
      exact mean_witness.1) (fun _ => mean_witness.2) [3, 4] _ h
    trivial

/-! ## C357: again -/

theorem quantised_size (codebook : List (List ℝ)) (x y : List ℝ) (hc : ∀ c ∈ codebook, c.length = x.length) (h : Quantised codebook x y) : y.length = x.length := by
  by_cases hx : loudness x = 0
  · rw [h.1 hx]; simp
  · obtain ⟨b, hb, hy⟩ := h.2 hx
    rw [hy, scaled, List.length_map, List.getD_eq_getElem?_getD, List.getElem?_eq_getElem hb.1, Option.getD_some]
    exact hc _ (List.getElem_mem hb.1)

theorem dist_nonneg (x y : List ℝ) : 0 ≤ dist x y := Real.sqrt_nonneg _

theorem quantised_again (codebook : List (List ℝ)) (x y : List ℝ) (hc : ∀ c ∈ codebook, c.length = x.length) (hu : ∀ c ∈ codebook, loudness c = 1) (h : Quantised codebook x y) :
    Quantised codebook y y := by
  by_cases hx : loudness x = 0
  · have hy := h.1 hx
    have h0 : loudness y = 0 := by rw [hy, loudness_silence]
    refine ⟨fun _ => ?_, fun h1 => absurd h0 h1⟩
    rw [hy]; simp
  · obtain ⟨b, hb, hy⟩ := h.2 hx
    have hm : codebook.getD b [] ∈ codebook := by
      rw [List.getD_eq_getElem?_getD, List.getElem?_eq_getElem hb.1]
      exact List.getElem_mem hb.1
    have hpos : 0 < loudness x := lt_of_le_of_ne (loudness_nonneg x) (Ne.symm hx)
    have hl : loudness y = loudness x := by rw [hy, loudness_scaled, abs_of_pos hpos, hu _ hm, mul_one]
    refine ⟨fun h1 => absurd (hl ▸ h1) hx, fun _ => ?_⟩
    have hs : scaled (1 / loudness y) y = codebook.getD b [] := by
      rw [hl, hy, scaled_scaled, one_div_mul_cancel hx, scaled_one]
    have hne : codebook ≠ [] := by rintro rfl; simp at hm
    obtain ⟨b', _, _, hb', _⟩ := Codebook.encodeRow_spec codebook hne (codebook.getD b [])
    refine ⟨b', by rw [hs]; exact hb', ?_⟩
    have hm' : codebook.getD b' [] ∈ codebook := by
      rw [List.getD_eq_getElem?_getD, List.getElem?_eq_getElem hb'.1]
      exact List.getElem_mem hb'.1
    have h1 := hb'.2.1 b hb.1
    rw [Codebook.dist_self] at h1
    have h2 : codebook.getD b [] = codebook.getD b' [] :=
      Codebook.dist_eq_zero _ _ (by rw [hc _ hm, hc _ hm']) (le_antisymm h1 (dist_nonneg _ _))
    rw [hl, ← h2, hy]

/-- **C357**: with codewords of length one, a second pass changes nothing. -/
theorem C357_again (junk junk' : Nat → Nat → ℝ) (dim : ℕ) (codebook : List (List ℝ)) (hc : ∀ c ∈ codebook, c.length = dim) (hu : ∀ c ∈ codebook, loudness c = 1)
    (rows : List (List ℝ)) (hd : ∀ x ∈ rows, x.length = dim) (out : Batch) (h : fullPass (plainPipeline junk dim codebook) ⟨[dim], rows⟩ = .ok out) :
    fullPass (plainPipeline junk' dim codebook) out = .ok out := by
  have hne : codebook ≠ [] := by
    rintro rfl
    rw [C354_errors junk dim dim [] rows hd (Or.inr (Or.inr rfl))] at h
    exact nomatch h
  have hr : rows ≠ [] := by
    rintro rfl
    rw [C354_errors junk dim dim codebook [] hd (Or.inl rfl)] at h
    exact nomatch h
  obtain ⟨out', h1, h2⟩ := C354_pass junk dim codebook hne hc rows hr hd
  rw [h] at h1
  cases h1
  have hd' : ∀ y ∈ out', y.length = dim := by
    intro y hy
    obtain ⟨i, hi, rfl⟩ := List.mem_iff_getElem.1 hy
    rw [List.forall₂_iff_get] at h2
    have hx : i < rows.length := by rw [h2.1]; exact hi
    have := quantised_size codebook rows[i] out'[i] (fun c hcm => by rw [hc c hcm, hd _ (List.getElem_mem hx)]) (h2.2 i hx hi)
    rw [this, hd _ (List.getElem_mem hx)]
  have hr' : out' ≠ [] := by
    rintro rfl
    cases h2
    exact hr rfl
  obtain ⟨out'', h3, h4⟩ := C354_pass junk' dim codebook hne hc out' hr' hd'
  have h5 : List.Forall₂ (Quantised codebook) out' out' := by
    rw [List.forall₂_same]
    intro y hy
    obtain ⟨i, hi, rfl⟩ := List.mem_iff_getElem.1 hy
    rw [List.forall₂_iff_get] at h2
    have hx : i < rows.length := by rw [h2.1]; exact hi
    exact quantised_again codebook rows[i] out'[i] (fun c hcm => by rw [hc c hcm, hd _ (List.getElem_mem hx)]) hu (h2.2 i hx hi)
  rw [h3, forall₂_unique _ (quantised_unique codebook) _ _ _ h4 h5]

example (junk junk' : Nat → Nat → ℝ) : True := by
  obtain ⟨out, h1, _⟩ := C354_pass junk 2 [[1, 0], [0, 1]] (by simp) (by simp) [[3, 4], [0, 0]] (by simp) (by simp)
  have := C357_again junk junk' 2 [[1, 0], [0, 1]] (by simp) (by intro c hc; simp at hc; rcases hc with rfl | rfl <;> simp [loudness]) [[3, 4], [0, 0]] (by simp) _ h1
  trivial

theorem one_codeword (junk : Nat → Nat → ℝ) (r v : ℝ) (hv : 0 < v) : fullPass (plainPipeline junk 1 [[r]]) ⟨[1], [[v]]⟩ = .ok ⟨[1], [[v * r]]⟩ := by
  obtain ⟨out, h1, h2⟩ := C354_pass junk 1 [[r]] (by simp) (by simp) [[v]] (by simp) (by simp)
  rw [h1]
  cases h2 with
  | cons h t =>
    cases t
    have hl : loudness [v] = v := by simp [loudness, Real.sqrt_sq hv.le]
    obtain ⟨b, hb, hy⟩ := h.2 (by rw [hl]; exact hv.ne')
    have : b = 0 := by have := hb.1; simpa using this
    subst this
    rw [hy, hl]
    rfl

/-- **C357, refuted** (in general): with a codeword that is shorter, every pass makes a frame quieter still. -/
theorem C357_again_refuted (junk : Nat → Nat → ℝ) (r v : ℝ) (hr : 0 < r) (hr1 : r < 1) (hv : 0 < v) :
    fullPass (plainPipeline junk 1 [[r]]) ⟨[1], [[v]]⟩ = .ok ⟨[1], [[v * r]]⟩ ∧ fullPass (plainPipeline junk 1 [[r]]) ⟨[1], [[v * r]]⟩ = .ok ⟨[1], [[v * r * r]]⟩ ∧
      v * r * r < v * r :=
  ⟨one_codeword junk r v hv, one_codeword junk r (v * r) (by positivity), by nlinarith [mul_pos hv hr]⟩

example (junk : Nat → Nat → ℝ) := C357_again_refuted junk (1 / 2) 3 (by norm_num) (by norm_num) (by norm_num)

/-! ## C358: volume -/

theorem quantised_scaled (codebook : List (List ℝ)) (x y : List ℝ) (g : ℝ) (hg : 0 < g) (h : Quantised codebook x y) : Quantised codebook (scaled g x) (scaled g y) := by
  have hl : loudness (scaled g x) = g * loudness x := by rw [loudness_scaled, abs_of_pos hg]
  constructor
  · intro h0
    rw [hl] at h0
    have hx : loudness x = 0 := by
      rcases mul_eq_zero.1 h0 with h' | h'
      · exact absurd h' hg.ne'
      · exact h'
    rw [h.1 hx, scaled, scaled]
    simp
  · intro h0
    rw [hl] at h0
    have hx : loudness x ≠ 0 := fun hx => h0 (by rw [hx, mul_zero])
    obtain ⟨b, hb, hy⟩ := h.2 hx
    refine ⟨b, ?_, ?_⟩
    · rw [hl, scaled_scaled, show 1 / (g * loudness x) * g = 1 / loudness x by field_simp]
      exact hb
    · rw [hy, hl, scaled_scaled]

/-- **C358**: making the frames louder or quieter, each by a positive factor of its own, does the same to what comes back, and nothing else. -/
theorem C358_volume (junk junk' : Nat → Nat → ℝ) (dim : ℕ) (codebook : List (List ℝ)) (hc : ∀ c ∈ codebook, c.length = dim) (rows : List (List ℝ)) (hd : ∀ x ∈ rows, x.length = dim)
    (gains : List ℝ) (hl : gains.length = rows.length) (hg : ∀ g ∈ gains, 0 < g) (out : List (List ℝ))
    (h : fullPass (plainPipeline junk dim codebook) ⟨[dim], rows⟩ = .ok ⟨[dim], out⟩) :
    fullPass (plainPipeline junk' dim codebook) ⟨[dim], List.zipWith scaled gains rows⟩ = .ok ⟨[dim], List.zipWith scaled gains out⟩ := by
  have hne : codebook ≠ [] := by
    rintro rfl
    rw [C354_errors junk dim dim [] rows hd (Or.inr (Or.inr rfl))] at h
    exact nomatch h
  have hr : rows ≠ [] := by
    rintro rfl
    rw [C354_errors junk dim dim codebook [] hd (Or.inl rfl)] at h
    exact nomatch h
  obtain ⟨out', h1, h2⟩ := C354_pass junk dim codebook hne hc rows hr hd
  rw [h] at h1
  simp only [Except.ok.injEq, Batch.mk.injEq, true_and] at h1
  subst h1
  have hr' : List.zipWith scaled gains rows ≠ [] := by
    intro h0
    have := congrArg List.length h0
    rw [List.length_zipWith, hl, Nat.min_self] at this
    exact hr (List.length_eq_zero_iff.1 this)
  have hd' : ∀ x ∈ List.zipWith scaled gains rows, x.length = dim := by
    intro x hx
    obtain ⟨i, hi, rfl⟩ := List.mem_iff_getElem.1 hx
    rw [List.getElem_zipWith, scaled, List.length_map]
    exact hd _ (List.getElem_mem _)
  obtain ⟨out'', h3, h4⟩ := C354_pass junk' dim codebook hne hc _ hr' hd'
  have h5 : List.Forall₂ (Quantised codebook) (List.zipWith scaled gains rows) (List.zipWith scaled gains out) := by
    rw [List.forall₂_iff_get] at h2 ⊢
    refine ⟨by rw [List.length_zipWith, List.length_zipWith, h2.1], ?_⟩
    intro i a b
    simp only [List.get_eq_getElem, List.getElem_zipWith]
    exact quantised_scaled _ _ _ _ (hg _ (List.getElem_mem _)) (h2.2 i (by simp at a; omega) (by simp at b; omega))
  rw [h3, forall₂_unique _ (quantised_unique codebook) _ _ _ h4 h5]

example (junk junk' : Nat → Nat → ℝ) : True := by
  obtain ⟨out, h1, _⟩ := C354_pass junk 2 book2 (by simp [book2]) book2_size [[3, 4], [0, 0]] (by simp) (by simp)
  have := C358_volume junk junk' 2 book2 book2_size [[3, 4], [0, 0]] (by simp) [2, 7] rfl (by simp) out h1
  trivial

theorem one_codeword_log (junk : Nat → Nat → ℝ) (v : ℝ) (hv : 0 < v) : fullPass (logPipeline junk 1 [[1 / 2]]) ⟨[1], [[v]]⟩ = .ok ⟨[1], [[Real.sqrt (v + 1) - 1]]⟩ := by
  obtain ⟨out, h1, h2⟩ := C354_log junk 1 [[1 / 2]] (by simp) (by simp) [[v]] (by simp) (by simp)
  rw [h1]
  cases h2 with
  | @cons _ y _ _ h t =>
    cases t
    have hlm : ∀ w : ℝ, 0 < w → Loudness.logModulus w = Real.log (w + 1) := by
      intro w hw
      simp [Loudness.logModulus, Loudness.npSign, hw, not_lt.2 hw.le, abs_of_pos hw]
    have hlog : 0 < Real.log (v + 1) := Real.log_pos (by linarith)
    have hl : loudness ([v].map Loudness.logModulus) = Real.log (v + 1) := by
      simp [loudness, hlm v hv, Real.sqrt_sq hlog.le]
    obtain ⟨b, hb, hy⟩ := h.2 (by rw [hl]; exact hlog.ne')
    have : b = 0 := by have := hb.1; simpa using this
    subst this
    rw [hl] at hy
    have hs : 1 < Real.sqrt (v + 1) := by
      rw [Real.lt_sqrt (by norm_num)]; linarith
    have hsq : Loudness.logModulus (Real.sqrt (v + 1) - 1) = Real.log (v + 1) * (1 / 2) := by
      rw [hlm _ (by linarith), sub_add_cancel, Real.log_sqrt (by linarith)]
      ring
    have hy' : y.map Loudness.logModulus = [Loudness.logModulus (Real.sqrt (v + 1) - 1)] := by rw [hy, hsq]; rfl
    obtain ⟨w, rfl, hw⟩ := List.map_eq_singleton_iff.1 hy'
    rw [Props.Loudness.C46_log_modulus_strict_mono.injective hw]

/-- **C358, refuted** (with logarithmic amplitude): a frame five times as loud comes back three times as loud. -/
theorem C358_log_refuted (junk : Nat → Nat → ℝ) :
    fullPass (logPipeline junk 1 [[1 / 2]]) ⟨[1], [[3]]⟩ = .ok ⟨[1], [[1]]⟩ ∧ fullPass (logPipeline junk 1 [[1 / 2]]) ⟨[1], [[5 * 3]]⟩ = .ok ⟨[1], [[3]]⟩ := by
  have h2 : Real.sqrt (3 + 1) - 1 = 1 := by
    rw [show (3 + 1 : ℝ) = 2 ^ 2 by norm_num, Real.sqrt_sq (by norm_num)]; norm_num
  have h4 : Real.sqrt (5 * 3 + 1) - 1 = 3 := by
    rw [show (5 * 3 + 1 : ℝ) = 4 ^ 2 by norm_num, Real.sqrt_sq (by norm_num)]; norm_num
  refine ⟨?_, ?_⟩
  · rw [one_codeword_log junk 3 (by norm_num), h2]
  · rw [one_codeword_log junk (5 * 3) (by norm_num), h4]

end Zounds.Vq
