import Verif.Model.Experiment
import Mathlib.Tactic.Linarith
import Mathlib.Tactic.NormNum

/-!
# Gan experiments (C281 - C283)
-/

namespace Zounds.Experiment
open Zounds.Learn (rangeStep)

/-- A preprocessing function that can be called the way the trainer calls it. -/
def Callable {R : Type} (p : Option (PyFun R)) : Prop := ∀ f, p = some f → f.arity = 2

theorem callPrep_ok {R : Type} (p : Option (PyFun R)) (h : Callable p) (epoch : Nat) (x : List R) : ∃ y, callPrep p epoch x = .ok y := by
  cases p with
  | none => exact ⟨x, rfl⟩
  | some f => exact ⟨f.run epoch x, if_pos (h f rfl)⟩

theorem critics_ok {R : Type} (p : Option (PyFun R)) (h : Callable p) (real fake : List R) (epoch : Nat) : ∀ n s,
    critics p real fake epoch n s = (⟨s.critic + n, s.generator⟩, none) := by
  intro n
  induction n with
  | zero => intro s; rfl
  | succ n ih =>
    intro s
    obtain ⟨y1, h1⟩ := callPrep_ok p h epoch real
    obtain ⟨y2, h2⟩ := callPrep_ok p h epoch fake
    simp only [critics, h1, h2, ih]
    congr 2
    omega

theorem oneBatch_ok {R : Type} (p : Option (PyFun R)) (h : Callable p) (c : Nat) (hc : 0 < c) (real fake : List R) (epoch : Nat) (s : Steps) :
    oneBatch p c real fake epoch s = (⟨s.critic + c, s.generator + 1⟩, none) := by
  obtain ⟨y, h1⟩ := callPrep_ok p h epoch fake
  unfold oneBatch
  rw [critics_ok p h]
  simp only [h1]
  exact if_neg (by omega)

theorem manyBatches_ok {R : Type} (p : Option (PyFun R)) (h : Callable p) (c : Nat) (hc : 0 < c) (real fake : List R) (epoch : Nat) : ∀ k s,
    manyBatches p c real fake epoch k s = (⟨s.critic + k * c, s.generator + k⟩, none) := by
  intro k
  induction k with
  | zero => intro s; simp [manyBatches]
  | succ k ih =>
    intro s
    simp only [manyBatches, oneBatch_ok p h c hc, ih]
    congr 2
    · rw [Nat.succ_mul]; omega
    · omega

/-- **C281** (what does hold): with no preprocessing function, or one of epoch and minibatch, a call of `train` in an epoch before the last makes
`n_critic_iterations` steps of the critic and one of the generator for every minibatch. -/
theorem C281_trains {R : Type} (p : Option (PyFun R)) (h : Callable p) (epochs nCritic b n : Nat) (hc : 0 < nCritic) (hb : 0 < b) (real fake : List R) (epoch : Nat)
    (he : epoch < epochs) :
    train p epochs nCritic b n real fake epoch = (⟨(n + b - 1) / b * nCritic, (n + b - 1) / b⟩, none) := by
  unfold train
  simp only [manyEpochs]
  rw [if_neg (by omega), if_neg (by omega), manyBatches_ok p h nCritic hc]
  simp [rangeStep]

example := C281_trains (some (⟨2, fun _ x => x⟩ : PyFun Nat)) (by rintro f ⟨⟩; rfl) 3 5 4 10 (by decide) (by decide) [1, 2] [3, 4] 1 (by decide)

theorem manyEpochs_ok {R : Type} (p : Option (PyFun R)) (h : Callable p) (epochs nCritic b n : Nat) (hc : 0 < nCritic) (hb : 0 < b) (real fake : List R) :
    ∀ (c epoch : Nat) (s : Steps), manyEpochs p epochs nCritic b n real fake c epoch s =
      (⟨s.critic + min c (epochs - epoch) * ((n + b - 1) / b * nCritic), s.generator + min c (epochs - epoch) * ((n + b - 1) / b)⟩, none) := by
  intro c
  induction c with
  | zero => intro epoch s; simp [manyEpochs]
  | succ c ih =>
    intro epoch s
    simp only [manyEpochs]
    by_cases he : epochs ≤ epoch
    · rw [if_pos he, show epochs - epoch = 0 by omega]
      simp
    · rw [if_neg he, if_neg (by omega), manyBatches_ok p h nCritic hc]
      simp only [ih]
      rw [show min (c + 1) (epochs - epoch) = min c (epochs - (epoch + 1)) + 1 by omega]
      simp only [rangeStep, List.length_map, List.length_range, Nat.add_mul, Nat.one_mul]
      congr 2 <;> omega

/-- **C281** (any checkpoint_epochs): a call of `train` trains for `checkpoint_epochs` epochs, but not beyond the trainer's `epochs`; every epoch makes one step of
the generator and `n_critic_iterations` of the critic for every minibatch. -/
theorem C281_checkpoints {R : Type} (p : Option (PyFun R)) (h : Callable p) (checkpoint epochs nCritic b n : Nat) (hc : 0 < nCritic) (hb : 0 < b) (real fake : List R)
    (epoch : Nat) :
    trainFor checkpoint p epochs nCritic b n real fake epoch =
      (⟨min checkpoint (epochs - epoch) * ((n + b - 1) / b * nCritic), min checkpoint (epochs - epoch) * ((n + b - 1) / b)⟩, none) := by
  unfold trainFor
  rw [manyEpochs_ok p h epochs nCritic b n hc hb]
  simp

example := C281_checkpoints (none : Option (PyFun Nat)) (by rintro f ⟨⟩) 2 5 5 4 10 (by decide) (by decide) [1, 2] [3, 4] 1

/-- **C281, refuted**: with the experiment's default for preprocess_minibatch (a function of one argument), training on any examples ends with TypeError
before the first step. -/
theorem C281_default_refuted {R : Type} (epochs nCritic b n : Nat) (hb : 0 < b) (hn : 0 < n) (real fake : List R) (epoch : Nat) (he : epoch < epochs) :
    train (some (defaultPrep R)) epochs nCritic b n real fake epoch = (⟨0, 0⟩, some .typeError) := by
  have hp : ∀ x, callPrep (some (defaultPrep R)) epoch x = .error .typeError := fun x => rfl
  have h1 : oneBatch (some (defaultPrep R)) nCritic real fake epoch ⟨0, 0⟩ = (⟨0, 0⟩, some .typeError) := by
    unfold oneBatch
    cases nCritic with
    | zero => simp only [critics, hp]
    | succ c => simp only [critics, hp]
  have hk : ∃ k, (rangeStep n b).length = k + 1 := by
    have : 0 < (n + b - 1) / b := Nat.div_pos (by omega) hb
    exact ⟨(n + b - 1) / b - 1, by simp only [rangeStep, List.length_map, List.length_range]; omega⟩
  obtain ⟨k, hk⟩ := hk
  unfold train
  simp only [manyEpochs]
  rw [if_neg (by omega), if_neg (by omega), hk]
  simp only [manyBatches, h1]

/-- **C281, exactly**: a call of `train` (before the last epoch, with at least one example and at least one iteration of the critic) ends without an exception if
and only if there is no preprocessing function or one of two arguments; otherwise it ends with TypeError before the first step. -/
theorem C281_exact {R : Type} (p : Option (PyFun R)) (epochs nCritic b n : Nat) (hc : 0 < nCritic) (hb : 0 < b) (hn : 0 < n) (real fake : List R) (epoch : Nat)
    (he : epoch < epochs) :
    ((train p epochs nCritic b n real fake epoch).2 = none ↔ ∀ f, p = some f → f.arity = 2) ∧
    ((∃ f, p = some f ∧ f.arity ≠ 2) → train p epochs nCritic b n real fake epoch = (⟨0, 0⟩, some .typeError)) := by
  have key : ∀ f : PyFun R, f.arity ≠ 2 → train (some f) epochs nCritic b n real fake epoch = (⟨0, 0⟩, some .typeError) := by
    intro f hf
    have hp : ∀ x, callPrep (some f) epoch x = .error .typeError := fun x => if_neg hf
    have h1 : oneBatch (some f) nCritic real fake epoch ⟨0, 0⟩ = (⟨0, 0⟩, some .typeError) := by
      unfold oneBatch
      cases nCritic with
      | zero => simp only [critics, hp]
      | succ c => simp only [critics, hp]
    have hk : ∃ k, (rangeStep n b).length = k + 1 := by
      have : 0 < (n + b - 1) / b := Nat.div_pos (by omega) hb
      exact ⟨(n + b - 1) / b - 1, by simp only [rangeStep, List.length_map, List.length_range]; omega⟩
    obtain ⟨k, hk⟩ := hk
    unfold train
    simp only [manyEpochs]
    rw [if_neg (by omega), if_neg (by omega), hk]
    simp only [manyBatches, h1]
  refine ⟨⟨fun h f hf => ?_, fun h => by rw [C281_trains p h epochs nCritic b n hc hb real fake epoch he]⟩, ?_⟩
  · by_contra h2
    subst hf
    rw [key f h2] at h
    cases h
  · rintro ⟨f, rfl, hf⟩
    exact key f hf

example := C281_exact (some (⟨3, fun _ x => x⟩ : PyFun Nat)) 3 5 4 10 (by decide) (by decide) (by decide) [1, 2] [3, 4] 1 (by decide)

example : Callable (none : Option (PyFun Nat)) ∧ Callable (some (⟨2, fun _ x => x⟩ : PyFun Nat)) :=
  ⟨fun _ h => (nomatch h), fun f h => by cases h; rfl⟩

/-! ## The sounds shown -/

/-- **C282** (what does hold): after a batch of at least two sounds of at least two samples each, of one channel (with or without an axis for it), `fake_audio` is
one of these sounds, number for number. -/
theorem C282_fake {α : Type} (b l : Nat) (hb : 2 ≤ b) (hl : 2 ≤ l) (get : List Nat → α) (draw : Nat → Nat) (hd : ∀ n, 0 < n → draw n < n) :
    (∃ r i, i < b ∧ fakeAudio id (batchComplete ⟨[b, 1, l], get⟩) draw = .ok r ∧ r.shape = [l] ∧ ∀ t, t < l → r.get [t] = get [i, 0, t]) ∧
    (∃ r i, i < b ∧ fakeAudio id (batchComplete ⟨[b, l], get⟩) draw = .ok r ∧ r.shape = [l] ∧ ∀ t, t < l → r.get [t] = get [i, t]) := by
  have h1 : b ≠ 1 := by omega
  have h2 : l ≠ 1 := by omega
  obtain ⟨b', rfl⟩ : ∃ b', b = b' + 2 := ⟨b - 2, by omega⟩
  have hdb := hd (b' + 2) (by omega)
  constructor
  · refine ⟨⟨[l], fun idx => get (unsqueeze [b' + 2, 1, l] (draw (b' + 2) :: idx))⟩, draw (b' + 2), hdb, ?_, rfl, ?_⟩
    · simp [fakeAudio, batchComplete, choice, Nd.squeeze, h2]
    · intro t _
      simp [unsqueeze, h2]
  · refine ⟨⟨[l], fun idx => get (unsqueeze [b' + 2, l] (draw (b' + 2) :: idx))⟩, draw (b' + 2), hdb, ?_, rfl, ?_⟩
    · simp [fakeAudio, batchComplete, choice, Nd.squeeze, h2]
    · intro t _
      simp [unsqueeze, h2]

example := C282_fake 4 8 (by decide) (by decide) (fun i => i) (fun n => n / 2) (fun n h => Nat.div_lt_self h (by decide))

/-- **C282, refuted** (a batch of one): with batch_size=1 the axis of the batch is squeezed away and a single number is chosen: ValueError, for every sound. -/
theorem C282_single_refuted {α : Type} (l : Nat) (hl : 2 ≤ l) (get : List Nat → α) (draw : Nat → Nat) :
    fakeAudio id (batchComplete ⟨[1, 1, l], get⟩) draw = .error .valueError ∧ fakeAudio id (batchComplete ⟨[1, l], get⟩) draw = .error .valueError := by
  obtain ⟨l', rfl⟩ : ∃ l', l = l' + 2 := ⟨l - 2, by omega⟩
  constructor <;> simp [fakeAudio, batchComplete, choice, Nd.squeeze]

/-- **C282, refuted** (too early): before the first batch is complete there is nothing to choose from: TypeError. -/
theorem C282_early_refuted {α : Type} (transform : Nd α → Nd α) (draw : Nat → Nat) : fakeAudio transform none draw = .error .typeError := rfl

/-- **C282, refuted** (no sounds): after a batch of no sounds there is nothing to choose from: IndexError. -/
theorem C282_none_refuted {α : Type} (l : Nat) (hl : 2 ≤ l) (get : List Nat → α) (draw : Nat → Nat) :
    fakeAudio id (batchComplete ⟨[0, 1, l], get⟩) draw = .error .indexError ∧ fakeAudio id (batchComplete ⟨[0, l], get⟩) draw = .error .indexError := by
  obtain ⟨l', rfl⟩ : ∃ l', l = l' + 2 := ⟨l - 2, by omega⟩
  constructor <;> simp [fakeAudio, batchComplete, choice, Nd.squeeze]

/-- The greatest of some numbers. -/
def Greatest (xs : List ℝ) (m : ℝ) : Prop := m ∈ xs ∧ ∀ x ∈ xs, x ≤ m

theorem listMax_spec (xs : List ℝ) (m : ℝ) : listMax xs = some m ↔ Greatest xs m := by
  have key : ∀ xs : List ℝ, xs ≠ [] → ∃ m, listMax xs = some m ∧ Greatest xs m := by
    intro xs
    induction xs with
    | nil => intro h; exact absurd rfl h
    | cons x xs ih =>
      intro _
      by_cases hx : xs = []
      · subst hx
        exact ⟨x, rfl, by simp [Greatest]⟩
      · obtain ⟨m, h1, h2, h3⟩ := ih hx
        refine ⟨max x m, by simp only [listMax, h1], ?_, ?_⟩
        · rcases max_choice x m with h | h <;> rw [h]
          · exact List.mem_cons_self
          · exact List.mem_cons_of_mem _ h2
        · intro y hy
          rcases List.mem_cons.mp hy with rfl | hy
          · exact le_max_left _ _
          · exact le_trans (h3 y hy) (le_max_right _ _)
  constructor
  · intro h
    have hne : xs ≠ [] := by rintro rfl; cases h
    obtain ⟨m', h1, h2⟩ := key xs hne
    rw [h] at h1; cases h1; exact h2
  · intro h
    have hne : xs ≠ [] := by rintro rfl; exact absurd h.1 (by simp)
    obtain ⟨m', h1, h2⟩ := key xs hne
    rw [h1, le_antisymm (h.2 m' h2.1) (h2.2 m h.1)]

/-- **C283** (exactly when): the sound is scaled to a peak of one exactly if its greatest sample is not zero and no sample is further from zero than
that one. -/
theorem C283_scaled (xs : List ℝ) (m : ℝ) (hm : Greatest xs m) :
    (∃ ys, scaled xs = .ok (some ys) ∧ (∃ c, 0 < c ∧ ys = xs.map (c * ·)) ∧ Greatest (ys.map (|·|)) 1) ↔ m ≠ 0 ∧ ∀ x ∈ xs, |x| ≤ |m| := by
  have hl := (listMax_spec xs m).mpr hm
  constructor
  · rintro ⟨ys, h1, -, h3⟩
    unfold scaled at h1
    simp only [hl] at h1
    by_cases h0 : |m| = 0
    · rw [if_pos h0] at h1
      simp at h1
    rw [if_neg h0] at h1
    have hys : xs.map (· / |m|) = ys := by simpa using h1
    subst hys
    have hpos : 0 < |m| := lt_of_le_of_ne (abs_nonneg m) (Ne.symm h0)
    refine ⟨abs_pos.mp hpos, ?_⟩
    intro x hx
    have := h3.2 (|x / (|m|)|) (by
      simp only [List.map_map, List.mem_map, Function.comp]
      exact ⟨x, hx, rfl⟩)
    rw [abs_div, abs_abs, div_le_one hpos] at this
    exact this
  · rintro ⟨hne, hle⟩
    have hpos : 0 < |m| := abs_pos.mpr hne
    refine ⟨xs.map (· / |m|), ?_, ⟨|m|⁻¹, inv_pos.mpr hpos, ?_⟩, ?_, ?_⟩
    · unfold scaled
      simp only [hl]
      rw [if_neg (ne_of_gt hpos)]
    · apply List.map_congr_left
      intro x _
      rw [div_eq_inv_mul]
    · simp only [List.map_map, List.mem_map, Function.comp]
      exact ⟨m, hm.1, by rw [abs_div, abs_abs, div_self (ne_of_gt hpos)]⟩
    · intro y hy
      simp only [List.map_map, List.mem_map, Function.comp] at hy
      obtain ⟨x, hx, rfl⟩ := hy
      rw [abs_div, abs_abs, div_le_one hpos]
      exact hle x hx

/-- **C283, refuted** (a deep trough): of a sound whose greatest sample is `a > 0` and whose least is `-(k·a)`, the result has a peak of `k`. -/
theorem C283_trough_refuted (a k : ℝ) (ha : 0 < a) (hk : 1 ≤ k) :
    ∃ ys, scaled [-(k * a), a] = .ok (some ys) ∧ Greatest (ys.map (|·|)) k := by
  have hg : Greatest [-(k * a), a] a := by
    refine ⟨by simp, ?_⟩
    intro x hx
    simp only [List.mem_cons, List.not_mem_nil, or_false] at hx
    rcases hx with rfl | rfl
    · nlinarith
    · exact le_refl _
  have hl := (listMax_spec _ _).mpr hg
  have hab : |a| = a := abs_of_pos ha
  refine ⟨[-(k * a), a].map (· / |a|), ?_, ?_⟩
  · unfold scaled
    simp only [hl]
    rw [if_neg (by rw [hab]; exact ne_of_gt ha)]
  · have e1 : |-(k * a) / a| = k := by
      rw [abs_div, abs_neg, abs_mul, hab, mul_div_assoc, div_self (ne_of_gt ha), mul_one, abs_of_nonneg (by linarith)]
    have e2 : |a / a| = 1 := by rw [div_self (ne_of_gt ha), abs_one]
    simp only [List.map_cons, List.map_nil, hab, e1, e2]
    refine ⟨by simp, ?_⟩
    intro x hx
    simp only [List.mem_cons, List.not_mem_nil, or_false] at hx
    rcases hx with rfl | rfl
    · exact le_refl _
    · exact hk

/-- **C283, refuted** (nothing above zero): a sound whose greatest sample is zero - silence, or, as for every sound shown, one that ends in silence and
never is above zero - is divided by zero. -/
theorem C283_zero_refuted (xs : List ℝ) (h : Greatest xs 0) : scaled xs = .ok none := by
  unfold scaled
  simp only [(listMax_spec xs 0).mpr h]
  rw [if_pos abs_zero]

example : Greatest [-(3 / 4 : ℝ), -(1 / 2), 0] 0 := by
  refine ⟨by simp, ?_⟩
  intro x hx
  simp only [List.mem_cons, List.not_mem_nil, or_false] at hx
  rcases hx with rfl | rfl | rfl <;> norm_num

example : Greatest [-(1 / 2 : ℝ), 3 / 4] (3 / 4) ∧ ∀ x ∈ [-(1 / 2 : ℝ), 3 / 4], |x| ≤ |(3 / 4 : ℝ)| := by
  refine ⟨⟨by simp, ?_⟩, ?_⟩
  all_goals
    intro x hx
    simp only [List.mem_cons, List.not_mem_nil, or_false] at hx
    rcases hx with rfl | rfl <;> norm_num [abs_le]

example := C283_scaled [-(1 / 2 : ℝ), 3 / 4] (3 / 4) ⟨by simp, by
  intro x hx
  simp only [List.mem_cons, List.not_mem_nil, or_false] at hx
  rcases hx with rfl | rfl <;> norm_num⟩

end Zounds.Experiment
