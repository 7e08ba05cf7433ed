import Verif.Model.Learn
import Mathlib.Tactic.Common
import Mathlib.Tactic.Linarith
import Mathlib.Tactic.Ring
import Mathlib.Tactic.NormNum
import Mathlib.Data.Rat.Floor
import Mathlib.Algebra.Order.Field.Rat
import Mathlib.Data.List.Nodup

/-!
# C38: applying a network in chunks; C39: trainers
-/

namespace Zounds.Learn

/-! ## C38 -/

/-- A network that treats rows independently. -/
def RowWise {α β : Type} (net : List α → List β) : Prop := ∃ f : α → β, ∀ x, net x = x.map f

theorem chunks_flatten {α : Type} (x : List α) (c k : Nat) :
    ((List.range k).map fun i => (x.take (i * c + c)).drop (i * c)).flatten = x.take (k * c) := by
  induction k with
  | zero => simp
  | succ k ih =>
    rw [List.range_succ, List.map_append, List.flatten_append, ih]
    simp only [List.map_cons, List.map_nil, List.flatten_cons, List.flatten_nil, List.append_nil]
    rw [Nat.succ_mul]
    have : x.take (k * c) = (x.take (k * c + c)).take (k * c) := by rw [List.take_take]; congr 1; omega
    rw [this, List.take_append_drop]

theorem enough_chunks (n c : Nat) (hc : 0 < c) : n ≤ (n + c - 1) / c * c := by
  have := Nat.div_add_mod (n + c - 1) c
  have h2 := Nat.mod_lt (n + c - 1) hc
  rw [Nat.mul_comm]; omega

/-- **C38**: for a network that treats rows independently and at least one row, every positive chunk size gives the same rows in the same
order as no chunking. -/
theorem C38_chunking {α β : Type} (net : List α → List β) (hnet : RowWise net) (x : List α) (hx : x ≠ []) (c : Nat) (hc : 0 < c) :
    applyNetwork net x (some (c : Int)) = applyNetwork net x none := by
  obtain ⟨f, hf⟩ := hnet
  have h0 : ¬ ((c : Int) = 0) := by omega
  have h1 : ¬ ((c : Int) < 0) := by omega
  have hxl : 0 < x.length := List.length_pos_iff.2 hx
  have hk : 0 < (x.length + c - 1) / c := Nat.div_pos (by omega) hc
  have hne : (rangeStep x.length c).map (fun i => net ((x.take (i + c)).drop i)) ≠ [] := by
    intro h
    have := congrArg List.length h
    simp [rangeStep] at this
    rcases this with h | h <;> omega
  have hflat : ((rangeStep x.length c).map (fun i => net ((x.take (i + c)).drop i))).flatten = net x := by
    have h := chunks_flatten x c ((x.length + c - 1) / c)
    rw [List.take_of_length_le (enough_chunks _ _ hc)] at h
    calc ((rangeStep x.length c).map (fun i => net ((x.take (i + c)).drop i))).flatten
        = (((List.range ((x.length + c - 1) / c)).map fun i => (x.take (i * c + c)).drop (i * c)).map (List.map f)).flatten := by
          unfold rangeStep
          simp only [List.map_map]
          congr 1
          apply List.map_congr_left
          intro i _
          simp only [Function.comp, hf]
      _ = net x := by rw [← List.map_flatten, h, hf]
  simp only [applyNetwork, h0, h1, if_false, Int.toNat_natCast]
  cases hch : (rangeStep x.length c).map (fun i => net ((x.take (i + c)).drop i)) with
  | nil => exact absurd hch hne
  | cons a as =>
    show Except.ok (a :: as).flatten = _
    rw [← hch, hflat]

example := C38_chunking (fun x : List Nat => x.map (· + 1)) ⟨_, fun _ => rfl⟩ [1, 2, 3, 4, 5] (by simp) 2 (by decide)

/-- **C38, general networks**: what chunking computes for any network: the network on consecutive pieces of `c` rows (the last may be
shorter), one after the other. -/
theorem C38_pieces {α β : Type} (net : List α → List β) (x : List α) (hx : x ≠ []) (c : Nat) (hc : 0 < c) :
    ∃ pieces : List (List α), pieces.flatten = x ∧ (∀ p ∈ pieces, p ≠ [] ∧ p.length ≤ c) ∧
      (∀ p ∈ pieces.dropLast, p.length = c) ∧
      applyNetwork net x (some (c : Int)) = .ok (pieces.map net).flatten := by
  have h0 : ¬ ((c : Int) = 0) := by omega
  have h1 : ¬ ((c : Int) < 0) := by omega
  have hxl : 0 < x.length := List.length_pos_iff.2 hx
  have hk : 0 < (x.length + c - 1) / c := Nat.div_pos (by omega) hc
  have hlast : ∀ i, i < (x.length + c - 1) / c → i * c < x.length := by
    intro i hi
    have h1 := Nat.div_mul_le_self (x.length + c - 1) c
    have h2 : (i + 1) * c ≤ (x.length + c - 1) / c * c := Nat.mul_le_mul_right _ (by omega)
    rw [Nat.succ_mul] at h2
    omega
  refine ⟨(List.range ((x.length + c - 1) / c)).map fun i => (x.take (i * c + c)).drop (i * c), ?_, ?_, ?_, ?_⟩
  · rw [chunks_flatten, List.take_of_length_le (enough_chunks _ _ hc)]
  · intro p hp
    simp only [List.mem_map, List.mem_range] at hp
    obtain ⟨i, hi, rfl⟩ := hp
    have := hlast i hi
    constructor
    · intro h
      have := congrArg List.length h
      simp at this; omega
    · simp; omega
  · intro p hp
    rw [← List.map_dropLast] at hp
    obtain ⟨i, hi, rfl⟩ := List.mem_map.1 hp
    have hi' : i + 1 < (x.length + c - 1) / c := by
      obtain ⟨j, hj⟩ : ∃ j, (x.length + c - 1) / c = j + 1 := ⟨(x.length + c - 1) / c - 1, by omega⟩
      rw [hj, List.range_succ, List.dropLast_concat] at hi
      simp at hi; omega
    have := hlast (i + 1) hi'
    rw [Nat.succ_mul] at this
    simp; omega
  · simp only [applyNetwork, h0, h1, if_false, Int.toNat_natCast, rangeStep, List.map_map]
    cases hch : (List.range ((x.length + c - 1) / c)).map
        ((fun i => net ((x.take (i + c)).drop i)) ∘ fun i => i * c) with
    | nil =>
      have := congrArg List.length hch
      simp at this
      rcases this with h | h <;> omega
    | cons a as =>
      simp only
      rw [← hch]; rfl

example := C38_pieces (fun x : List Nat => x.map (· + 1)) [1, 2, 3, 4, 5] (by simp) 2 (by decide)

/-- **C38, refuted without rows**: an empty batch is fine without chunking and a ValueError with any chunk size. -/
theorem C38_empty_refuted {α β : Type} (net : List α → List β) (c : Int) :
    applyNetwork net [] none = .ok (net []) ∧ applyNetwork net [] (some c) = .error .valueError := by
  refine ⟨rfl, ?_⟩
  simp only [applyNetwork]
  split
  · rfl
  · have : (c.toNat - 1) / c.toNat = 0 := by
      by_cases h : c.toNat = 0
      · simp [h]
      · exact Nat.div_eq_of_lt (by omega)
    by_cases h : c < 0
    · simp [h]
    · simp [h, rangeStep, this]

/-- **C38, chunk sizes that are not positive** are refused. -/
theorem C38_bad_chunksize {α β : Type} (net : List α → List β) (x : List α) (c : Int) (hc : c ≤ 0) :
    applyNetwork net x (some c) = .error .valueError := by
  simp only [applyNetwork]
  split
  · rfl
  · have : c < 0 := by omega
    simp [this]

example := C38_bad_chunksize (fun x : List Nat => x.map (· + 1)) [1, 2, 3, 4, 5] (-2) (by decide)

/-- **C38, refuted for networks that mix rows**: one that subtracts the first row of the batch from every row gives different
results in chunks. -/
theorem C38_mixing_refuted :
    let net : List Int → List Int := fun x => x.map fun v => v - x.headD 0
    applyNetwork net [1, 2, 3, 4] (some 2) ≠ applyNetwork net [1, 2, 3, 4] none := by
  decide

example : RowWise (fun x : List Nat => x.map (· + 1)) := ⟨_, fun _ => rfl⟩
example : applyNetwork (fun x : List Nat => x.map (· + 1)) [1, 2, 3, 4, 5] (some 2) = .ok [2, 3, 4, 5, 6] := by decide

/-! ## C39 -/

/-- The number of epochs a trainer runs in total before it stops. -/
def Stop.total (s : Stop) (epochs : Nat) : Nat :=
  match s with
  | .atEpochs => epochs
  | .afterEpochs => epochs + 1

theorem done_iff (s : Stop) (epochs epoch : Nat) : s.done epochs epoch = true ↔ s.total epochs ≤ epoch := by
  cases s <;> simp [Stop.done, Stop.total, Nat.succ_le_iff]

/-- The callback calls of one epoch: for every batch in order, every callback once. -/
def epochEvents (callbacks batches : List Nat) (epoch : Nat) : List (Nat × Nat × Nat) :=
  batches.flatMap fun b => callbacks.map fun c => (c, epoch, b)

theorem epochLoop_eq (s : Stop) (t : Trainer) (batches : List Nat) : ∀ fuel epoch,
    epochLoop s t batches fuel epoch =
      ((List.range' epoch (min fuel (s.total t.epochs - epoch))).flatMap (epochEvents t.callbacks batches),
        min fuel (s.total t.epochs - epoch)) := by
  intro fuel
  induction fuel with
  | zero => intro epoch; simp [epochLoop]
  | succ fuel ih =>
    intro epoch
    unfold epochLoop
    by_cases h : s.done t.epochs epoch = true
    · have h' := (done_iff s t.epochs epoch).1 h
      have : s.total t.epochs - epoch = 0 := by omega
      simp [h, this]
    · have h' : epoch < s.total t.epochs := by
        by_contra hc; exact h ((done_iff s t.epochs epoch).2 (by omega))
      have h2 : s.done t.epochs epoch = false := by simpa using h
      simp only [h2, Bool.false_eq_true, if_false, ih]
      have : min (fuel + 1) (s.total t.epochs - epoch) = min fuel (s.total t.epochs - (epoch + 1)) + 1 := by omega
      rw [this, List.range'_succ, List.flatMap_cons]
      rfl

/-- **C39, one call**: a call of `train` runs the next epochs, at most `checkpoint_epochs` of them and never beyond the total, and calls
every registered callback exactly once for every batch of each, in order; it remembers how far it got. -/
theorem C39_train (s : Stop) (t : Trainer) (n : Nat) (hb : 0 < t.batchSize) :
    ∃ t', train s t n =
        .ok ((List.range' t.currentEpoch (min t.checkpointEpochs (s.total t.epochs - t.currentEpoch))).flatMap
          (epochEvents t.callbacks (rangeStep n t.batchSize)), t') ∧
      t'.currentEpoch = t.currentEpoch + min t.checkpointEpochs (s.total t.epochs - t.currentEpoch) ∧
      t'.epochs = t.epochs ∧ t'.batchSize = t.batchSize ∧ t'.checkpointEpochs = t.checkpointEpochs ∧ t'.callbacks = t.callbacks := by
  refine ⟨{ t with currentEpoch := t.currentEpoch + min t.checkpointEpochs (s.total t.epochs - t.currentEpoch) }, ?_, rfl, rfl, rfl, rfl, rfl⟩
  unfold train
  rw [if_neg (by omega), epochLoop_eq]

example := C39_train .atEpochs ⟨2, 2, 5, 0, [7, 8]⟩ 5 (by decide)

/-- **C39, all calls**: feeding a stream of data sets, `train` runs in total `checkpoint_epochs` epochs per call until the total is
reached, and none after that: the epochs run, in order, are `0, 1, 2, …` up to that number. -/
theorem C39_many (s : Stop) (ns : List Nat) : ∀ t : Trainer, 0 < t.batchSize → t.currentEpoch ≤ s.total t.epochs →
    ∃ ev t', trainMany s t ns = .ok (ev, t') ∧
      t'.currentEpoch = min (t.currentEpoch + ns.length * t.checkpointEpochs) (s.total t.epochs) ∧
      ∀ e, (∃ c b, (c, e, b) ∈ ev) → t.currentEpoch ≤ e ∧ e < t'.currentEpoch := by
  induction ns with
  | nil => intro t _ h; exact ⟨[], t, rfl, by simp; omega, by simp⟩
  | cons n ns ih =>
    intro t hb hle
    obtain ⟨t1, e1, c1, p1, p2, p3, p4⟩ := C39_train s t n hb
    obtain ⟨ev, t2, e2, c2, h2⟩ := ih t1 (by omega) (by rw [c1, p1]; omega)
    refine ⟨_, t2, by simp only [trainMany, e1, e2]; rfl, ?_, ?_⟩
    · rw [c2, c1, p1, p3, List.length_cons, Nat.succ_mul]; omega
    · rintro e ⟨c, b, hm⟩
      rcases List.mem_append.1 hm with hm | hm
      · rw [List.mem_flatMap] at hm
        obtain ⟨e', he', hm⟩ := hm
        rw [List.mem_range'_1] at he'
        simp only [epochEvents, List.mem_flatMap, List.mem_map, Prod.mk.injEq] at hm
        obtain ⟨_, _, _, _, -, rfl, -⟩ := hm
        rw [p1] at c2
        omega
      · have := h2 e ⟨c, b, hm⟩
        omega

example := C39_many .atEpochs [5, 6, 7] ⟨2, 2, 5, 0, [7, 8]⟩ (by decide) (by decide)

/-- **C39, every epoch is complete**: in one epoch, a callback registered once is called exactly once for each batch. -/
theorem C39_once_per_batch (callbacks batches : List Nat) (epoch c b : Nat) (hc : callbacks.Nodup) (hb : batches.Nodup)
    (hcm : c ∈ callbacks) (hbm : b ∈ batches) : (epochEvents callbacks batches epoch).count (c, epoch, b) = 1 := by
  unfold epochEvents
  rw [List.Nodup.count, if_pos]
  · simp [hcm, hbm]
  · rw [List.nodup_flatMap]
    constructor
    · intro b _
      exact hc.map (fun x y h => by simpa using h)
    · apply hb.imp
      intro b1 b2 hne
      rw [Function.onFun, List.disjoint_left]
      intro x h1 h2
      simp only [List.mem_map] at h1 h2
      obtain ⟨_, _, rfl⟩ := h1
      obtain ⟨_, _, h⟩ := h2
      simp at h
      exact hne h.2.symm

example := C39_once_per_batch [7, 8] [0, 2, 4] 1 8 2 (by decide) (by decide) (by decide) (by decide)

/-- **C39, batches**: the batches of an epoch start at `0, batch_size, 2·batch_size, …` below the number of examples. -/
theorem C39_batches (n step : Nat) (h : 0 < step) :
    (rangeStep n step).Nodup ∧ ∀ b, b ∈ rangeStep n step ↔ b < n ∧ step ∣ b := by
  unfold rangeStep
  constructor
  · exact List.Nodup.map (fun i j h' => Nat.eq_of_mul_eq_mul_right h h') List.nodup_range
  · intro b
    simp only [List.mem_map, List.mem_range]
    constructor
    · rintro ⟨i, hi, rfl⟩
      refine ⟨?_, Nat.dvd_mul_left _ _⟩
      have h1 := Nat.div_mul_le_self (n + step - 1) step
      have h2 : (i + 1) * step ≤ (n + step - 1) / step * step := Nat.mul_le_mul_right _ (by omega)
      rw [Nat.succ_mul] at h2
      omega
    · rintro ⟨hb, k, rfl⟩
      refine ⟨k, ?_, Nat.mul_comm _ _⟩
      rw [Nat.lt_div_iff_mul_lt h, Nat.mul_comm]
      omega

example := C39_batches 5 2 (by decide)

/-- **C39, supervised and adversarial trainers**: however many data sets arrive, they run exactly `epochs` epochs at most, and exactly
`epochs` once enough have arrived. -/
theorem C39_exact_epochs (t : Trainer) (ns : List Nat) (hb : 0 < t.batchSize) (h0 : t.currentEpoch = 0)
    (henough : t.epochs ≤ ns.length * t.checkpointEpochs) :
    ∃ ev t', trainMany .atEpochs t ns = .ok (ev, t') ∧ t'.currentEpoch = t.epochs ∧
      ∀ e, (∃ c b, (c, e, b) ∈ ev) → e < t.epochs := by
  obtain ⟨ev, t', h1, h2, h3⟩ := C39_many .atEpochs ns t hb (by simp [h0])
  have : t'.currentEpoch = t.epochs := by rw [h2, h0]; simp only [Stop.total]; omega
  exact ⟨ev, t', h1, this, fun e he => by have := h3 e he; omega⟩

example := C39_exact_epochs ⟨2, 2, 5, 0, [7, 8]⟩ [5, 6, 7] (by decide) rfl (by decide)

/-- **C39, refuted for the base trainer and the triplet embedding trainer**: asked for `epochs` epochs they run one more. -/
theorem C39_one_more_refuted (t : Trainer) (ns : List Nat) (hb : 0 < t.batchSize) (h0 : t.currentEpoch = 0)
    (henough : t.epochs + 1 ≤ ns.length * t.checkpointEpochs) :
    ∃ ev t', trainMany .afterEpochs t ns = .ok (ev, t') ∧ t'.currentEpoch = t.epochs + 1 := by
  obtain ⟨ev, t', h1, h2, h3⟩ := C39_many .afterEpochs ns t hb (by simp [h0])
  exact ⟨ev, t', h1, by rw [h2, h0]; simp only [Stop.total]; omega⟩

/-- **C39, refuted for a single data set**: with the default of one epoch per call, one call runs one epoch whatever number was asked
for. -/
theorem C39_one_call_refuted (s : Stop) (t : Trainer) (n : Nat) (hb : 0 < t.batchSize) (h0 : t.currentEpoch = 0)
    (hc : t.checkpointEpochs = 1) (he : 2 ≤ t.epochs) : ∃ ev t', train s t n = .ok (ev, t') ∧ t'.currentEpoch = 1 := by
  obtain ⟨t', h1, h2, -⟩ := C39_train s t n hb
  refine ⟨_, t', h1, ?_⟩
  rw [h2, h0, hc]
  cases s <;> simp [Stop.total] <;> omega

/-- **C39, the triplet trainer's batches**: whole batches only; a data set smaller than the batch size trains nothing but uses up its
epochs. -/
theorem C39_triplet (t : Trainer) (n : Nat) (hb : 0 < t.batchSize) :
    ∃ t', trainTriplet t n = .ok ((List.range' t.currentEpoch (min t.checkpointEpochs (t.epochs + 1 - t.currentEpoch))).flatMap
        (epochEvents t.callbacks (List.range (n / t.batchSize))), t') ∧
      t'.currentEpoch = t.currentEpoch + min t.checkpointEpochs (t.epochs + 1 - t.currentEpoch) := by
  refine ⟨{ t with currentEpoch := t.currentEpoch + min t.checkpointEpochs (t.epochs + 1 - t.currentEpoch) }, ?_, rfl⟩
  unfold trainTriplet
  rw [if_neg (by omega), epochLoop_eq]
  rfl

example := C39_triplet ⟨2, 2, 5, 0, [7, 8]⟩ 5 (by decide)

theorem C39_triplet_small_refuted (t : Trainer) (n : Nat) (h : n < t.batchSize) :
    ∃ t', trainTriplet t n = .ok ([], t') ∧
      t'.currentEpoch = t.currentEpoch + min t.checkpointEpochs (t.epochs + 1 - t.currentEpoch) := by
  obtain ⟨t', h1, h2⟩ := C39_triplet t n (by omega)
  refine ⟨t', ?_, h2⟩
  rw [h1, Nat.div_eq_of_lt h]
  simp [epochEvents]

/-! ### callbacks -/

/-- **C39, registering**: registering makes the callback registered, once however often it is done, and keeps the others. -/
theorem C39_register (t : Trainer) (c : Nat) (h : t.callbacks.Nodup) :
    (t.register c).callbacks.Nodup ∧ (∀ x, x ∈ (t.register c).callbacks ↔ x = c ∨ x ∈ t.callbacks) ∧
    (t.register c).register c = t.register c ∧ (t.register c).epochs = t.epochs ∧ (t.register c).currentEpoch = t.currentEpoch := by
  unfold Trainer.register
  by_cases hc : c ∈ t.callbacks
  · simp [hc, h]
  · refine ⟨?_, ?_, ?_, ?_, ?_⟩
    · simp only [hc, if_false]
      rw [List.nodup_append]
      refine ⟨h, by simp, ?_⟩
      intro a ha b hb
      simp at hb; subst hb
      rintro rfl; exact hc ha
    · intro x; simp [hc]; tauto
    all_goals simp [hc]

example := C39_register ⟨2, 2, 5, 0, [7, 8]⟩ 9 (by decide)

/-- **C39, unregistering**: the callback is gone, all others stay. -/
theorem C39_unregister (t : Trainer) (c : Nat) :
    ∀ x, x ∈ (t.unregister c).callbacks ↔ x ≠ c ∧ x ∈ t.callbacks := by
  intro x; simp [Trainer.unregister]; tauto

/-- **C39, after unregistering** it is never called again. -/
theorem C39_not_called (s : Stop) (t : Trainer) (c : Nat) (n : Nat) (hb : 0 < t.batchSize) (ev) (t')
    (h : train s (t.unregister c) n = .ok (ev, t')) : ∀ e b, (c, e, b) ∉ ev := by
  obtain ⟨t1, h1, -⟩ := C39_train s (t.unregister c) n hb
  rw [h1] at h
  simp only [Except.ok.injEq, Prod.mk.injEq] at h
  obtain ⟨rfl, -⟩ := h
  intro e b hm
  simp only [List.mem_flatMap, epochEvents, List.mem_map, Prod.mk.injEq] at hm
  obtain ⟨_, _, _, _, c', hc', rfl, -, -⟩ := hm
  exact ((C39_unregister t c' c').1 hc').1 rfl

example : ∃ ev t', train .atEpochs (Trainer.unregister ⟨2, 2, 5, 0, [7, 8]⟩ 7) 5 = .ok (ev, t') ∧ ∀ e b, (7, e, b) ∉ ev :=
  ⟨_, _, rfl, C39_not_called .atEpochs ⟨2, 2, 5, 0, [7, 8]⟩ 7 5 (by decide) _ _ rfl⟩

/-- **C39, refuted for bound methods**: `unregister(obj.method)` never removes the bound method that was registered: the expression makes
a new object, which is not among the callbacks. -/
theorem C39_bound_method_refuted (t : Trainer) (c : Nat) (alive : List Nat) (h : ∀ x ∈ t.callbacks, x ∈ alive)
    (hf : FreshBoundMethod alive c) : (t.unregister c).callbacks = t.callbacks := by
  unfold Trainer.unregister
  simp only
  rw [List.filter_eq_self]
  intro x hx
  have : x ≠ c := by rintro rfl; exact hf (h x hx)
  simpa using this

/-! ### supervised training -/

/-- **C39, refuted**: the supervised trainer reports the test error as the training error and the training error as the test error. -/
theorem C39_errors_swapped_refuted {E : Type} (e te : E) :
    (supervisedReport e (some te)).trainError = some te ∧ (supervisedReport e (some te)).testError = some e := ⟨rfl, rfl⟩

/-- **C39, hold-out**: the held-out examples and the training examples are disjoint pieces that make up the data, and the number held
out is the given fraction rounded down. -/
theorem C39_holdout {α : Type} (p : Rat) (data : List α) (h0 : 0 ≤ p) (h1 : p ≤ 1) :
    (holdoutSplit p data).1 ++ (holdoutSplit p data).2 = data ∧
    ((holdoutSplit p data).1.length : Rat) ≤ p * data.length ∧ p * data.length < (holdoutSplit p data).1.length + 1 := by
  unfold holdoutSplit
  refine ⟨List.take_append_drop _ _, ?_⟩
  simp only [List.length_take]
  have hnn : 0 ≤ p * data.length := by positivity
  have hfl : 0 ≤ (p * data.length).floor := Rat.le_floor_iff.2 (by simpa using hnn)
  have hcast : (((p * data.length).floor.toNat : Nat) : Rat) = (((p * data.length).floor : Int) : Rat) := by
    rw [← Int.cast_natCast, Int.toNat_of_nonneg hfl]
  have hle : (p * data.length).floor.toNat ≤ data.length := by
    have : (((p * data.length).floor.toNat : Nat) : Rat) ≤ data.length := by
      rw [hcast]
      refine le_trans (Rat.floor_le _) ?_
      have : (0 : Rat) ≤ data.length := by positivity
      nlinarith
    exact_mod_cast this
  rw [min_eq_left hle, hcast]
  refine ⟨Rat.floor_le _, ?_⟩
  have := Rat.lt_floor_add_one (p * data.length)
  push_cast at this; exact this

example := C39_holdout (1 / 4) [1, 2, 3, 4, 5] (by norm_num) (by norm_num)

/-- A trainer asked for two epochs of batches of two, with two callbacks, on five examples. -/
example : train .atEpochs ⟨2, 2, 5, 0, [7, 8]⟩ 5 = .ok
    ([(7, 0, 0), (8, 0, 0), (7, 0, 2), (8, 0, 2), (7, 0, 4), (8, 0, 4), (7, 1, 0), (8, 1, 0), (7, 1, 2), (8, 1, 2), (7, 1, 4), (8, 1, 4)],
      ⟨2, 2, 5, 2, [7, 8]⟩) := by rfl

end Zounds.Learn
