import Verif.Model.Training
import Verif.Props.Learn
import Verif.Props.Loss
import Mathlib.Data.Rat.Floor

/-!
# C218–C229: supervised, adversarial and triplet training
-/

namespace Zounds.Training
open Zounds.Learn (rangeStep Report supervisedReport)

variable {θ β γ σ ρ R T L E : Type}

/-! ## Loops -/

/-- Two calls of a training loop, one after the other, are one longer call. -/
theorem epochs_add {S : Type} (total : Nat) (body : Nat → S → Except PyErr S) (epochOf : S → Nat)
    (hbody : ∀ e s s', body e s = .ok s' → epochOf s' = epochOf s + 1) (b : Nat) :
    ∀ (a : Nat) (s : S), epochs total body (a + b) (epochOf s) s =
      match epochs total body a (epochOf s) s with
      | .error e => .error e
      | .ok s' => epochs total body b (epochOf s') s' := by
  intro a
  induction a with
  | zero => intro s; simp [epochs]
  | succ a ih =>
    intro s
    rw [Nat.succ_add]
    simp only [epochs]
    by_cases h : total ≤ epochOf s
    · rw [if_pos h, if_pos h]
      cases b with
      | zero => simp [epochs]
      | succ b => simp [epochs, h]
    · rw [if_neg h, if_neg h]
      cases hb : body (epochOf s) s with
      | error e => rfl
      | ok s' =>
        simp only []
        rw [← hbody _ _ _ hb]
        exact ih s'

theorem batches_inv {S : Type} (f : S → Nat → Except PyErr S) (Q : S → Prop) (hf : ∀ s i, Q s → ∃ s', f s i = .ok s' ∧ Q s') :
    ∀ (is : List Nat) (s : S), Q s → ∃ s', batches f s is = .ok s' ∧ Q s' := by
  intro is
  induction is with
  | nil => intro s h; exact ⟨s, rfl, h⟩
  | cons i is ih =>
    intro s h
    obtain ⟨s1, h1, h2⟩ := hf s i h
    obtain ⟨s2, h3, h4⟩ := ih s1 h2
    exact ⟨s2, by simp only [batches, h1, h3], h4⟩

/-- A loop whose rounds all succeed: what it does to a view of the state is the fold of what its rounds do. -/
theorem batches_view {S V : Type} (f : S → Nat → Except PyErr S) (Q : S → Prop) (view : S → V) (g : V → Nat → V)
    (hf : ∀ s i, Q s → ∃ s', f s i = .ok s' ∧ Q s' ∧ view s' = g (view s) i) :
    ∀ (is : List Nat) (s : S), Q s → ∃ s', batches f s is = .ok s' ∧ Q s' ∧ view s' = is.foldl g (view s) := by
  intro is
  induction is with
  | nil => intro s h; exact ⟨s, rfl, h, rfl⟩
  | cons i is ih =>
    intro s h
    obtain ⟨s1, h1, h2, h3⟩ := hf s i h
    obtain ⟨s2, h4, h5, h6⟩ := ih s1 h2
    exact ⟨s2, by simp only [batches, h1, h4], h5, by rw [h6, h3]; rfl⟩

theorem epochs_view {S V : Type} (total : Nat) (body : Nat → S → Except PyErr S) (Q : S → Prop) (view : S → V) (g : V → Nat → V)
    (hf : ∀ e s, Q s → ∃ s', body e s = .ok s' ∧ Q s' ∧ view s' = g (view s) e) :
    ∀ (fuel e : Nat) (s : S), Q s → ∃ s', epochs total body fuel e s = .ok s' ∧ Q s' ∧
      view s' = (List.range' e (min fuel (total - e))).foldl g (view s) := by
  intro fuel
  induction fuel with
  | zero => intro e s h; exact ⟨s, rfl, h, by simp⟩
  | succ fuel ih =>
    intro e s h
    by_cases ht : total ≤ e
    · exact ⟨s, by simp [epochs, ht], h, by rw [show total - e = 0 by omega]; simp⟩
    · obtain ⟨s1, h1, h2, h3⟩ := hf e s h
      obtain ⟨s2, h4, h5, h6⟩ := ih (e + 1) s1 h2
      refine ⟨s2, by simp only [epochs, if_neg ht, h1, h4], h5, ?_⟩
      rw [h6, h3, show min (fuel + 1) (total - e) = min fuel (total - (e + 1)) + 1 by omega, List.range'_succ]
      rfl

/-! ## C218: supervised training -/

/-- The minibatches of the training data: `b` rows and their labels at a time. -/
def miniBatches (b : Nat) (d : List R) (l : List L) : List (List R × List L) :=
  (rangeStep d.length b).map fun i => ((d.drop i).take b, (l.drop i).take b)

/-- **C218, the minibatches**: they are non-empty, have at most `b` rows, and put together they are the training rows with their labels, each once and in order. -/
theorem C218_minibatches (b : Nat) (hb : 0 < b) (d : List R) (l : List L) (hl : l.length = d.length) :
    ((miniBatches b d l).map Prod.fst).flatten = d ∧ ((miniBatches b d l).map Prod.snd).flatten = l ∧
    ∀ m ∈ miniBatches b d l, m.1 ≠ [] ∧ m.1.length ≤ b ∧ m.2.length = m.1.length := by
  have key : ∀ {α : Type} (x : List α), x.length = d.length →
      ((List.range ((d.length + b - 1) / b)).map fun i => (x.drop (i * b)).take b).flatten = x := by
    intro α x hx
    have h := Learn.chunks_flatten x b ((d.length + b - 1) / b)
    rw [List.take_of_length_le (by rw [hx]; exact Learn.enough_chunks _ _ hb)] at h
    rw [← h]
    congr 1
    apply List.map_congr_left
    intro i _
    rw [h, List.drop_take]
    congr 1
    omega
  refine ⟨?_, ?_, ?_⟩
  · have := key d rfl
    simpa [miniBatches, rangeStep, List.map_map, Function.comp_def] using this
  · have := key l hl
    simpa [miniBatches, rangeStep, List.map_map, Function.comp_def] using this
  · intro m hm
    obtain ⟨i, hi, rfl⟩ := List.mem_map.1 hm
    have hlt := ((Learn.C39_batches d.length b hb).2 i).1 hi |>.1
    refine ⟨?_, by simp, by simp [hl]⟩
    intro h
    have := congrArg List.length h
    simp at this
    omega

example := C218_minibatches (R := Nat) (L := Nat) 2 (by decide) [1, 2, 3, 4, 5] [6, 7, 8, 9, 10] rfl

theorem runBatch_ok (P : Sup θ β γ σ ρ R T L E) (hok : ∀ t u x y, P.raises t u x y = none) (s : SupState θ β γ σ ρ R T E) (d : List R) (l : List L) (test : Bool) :
    runBatch P s d l test = .ok ({ s with
      net := if test then s.net else (P.opt s.net (P.add s.grads (P.gradient s.net s.buf (P.dataPre d) (P.labelPre l))) s.optim).1,
      buf := (P.forward s.net s.buf (P.dataPre d)).2,
      grads := if test then s.grads else P.add s.grads (P.gradient s.net s.buf (P.dataPre d) (P.labelPre l)),
      optim := if test then s.optim else (P.opt s.net (P.add s.grads (P.gradient s.net s.buf (P.dataPre d) (P.labelPre l))) s.optim).2,
      samples := some ((P.dataPre d).zip (P.forward s.net s.buf (P.dataPre d)).1) }, P.loss (P.forward s.net s.buf (P.dataPre d)).1 (P.labelPre l)) := by
  unfold runBatch
  simp only [hok]
  cases test <;> rfl

theorem testBatch_ok (P : Sup θ β γ σ ρ R T L E) (hok : ∀ t u x y, P.raises t u x y = none) (b : Nat) (testD : List R) (testL : List L) (k : Nat) (s : SupState θ β γ σ ρ R T E) :
    ∃ s' te, testBatch P b testD testL k s = .ok (s', te) ∧ s'.net = s.net ∧ s'.optim = s.optim ∧ s'.epoch = s.epoch ∧ s'.log = s.log ∧ s'.grads = s.grads ∧
      (te.isSome ↔ k ≠ 0) ∧
      ((∀ t u x, (P.forward t u x).2 = u) → s'.buf = s.buf) := by
  unfold testBatch
  by_cases hk : k = 0
  · exact ⟨s, none, by simp [hk], rfl, rfl, rfl, rfl, rfl, by simp [hk], fun _ => rfl⟩
  · rw [if_neg hk]
    simp only []
    rw [runBatch_ok P hok]
    exact ⟨_, _, rfl, rfl, rfl, rfl, rfl, rfl, by simp [hk], fun h => h _ _ _⟩

/-- One step of the optimizer with the gradient of one minibatch and nothing else. -/
def sgdStep (P : Sup θ β γ σ ρ R T L E) (u : β) (p : θ × σ) (m : List R × List L) : θ × σ :=
  P.opt p.1 (P.gradient p.1 u (P.dataPre m.1) (P.labelPre m.2)) p.2

theorem supStep_ok (P : Sup θ β γ σ ρ R T L E) (hadd : ∀ g, P.add P.zero g = g) (hok : ∀ t u x y, P.raises t u x y = none)
    (hbuf : ∀ t u x, (P.forward t u x).2 = u)
    (b : Nat) (testD : List R) (testL : List L) (k : Nat) (d : List R) (l : List L) (epoch : Nat) (s : SupState θ β γ σ ρ R T E) (i : Nat) :
    ∃ s', supStep P b testD testL k d l epoch s i = .ok s' ∧ s'.buf = s.buf ∧ s'.epoch = s.epoch ∧
      (s'.net, s'.optim) = sgdStep P s.buf (s.net, s.optim) ((d.drop i).take b, (l.drop i).take b) ∧
      (∃ e, s'.log = s.log ++ [e] ∧ e.epoch = epoch ∧ e.batch = i) := by
  unfold supStep
  rw [runBatch_ok P hok]
  simp only []
  obtain ⟨s2, te, h1, h2, h3, h4, h5, h6, h7, h8⟩ := testBatch_ok P hok b testD testL k _
  rw [h1]
  refine ⟨_, rfl, ?_, h4, ?_, ?_⟩
  · show s2.buf = s.buf
    rw [h8 hbuf]
    exact hbuf _ _ _
  · show (s2.net, s2.optim) = _
    rw [h2, h3]
    simp [sgdStep, hadd]
  · exact ⟨_, by rw [show s2.log = s.log from h5], rfl, rfl⟩

/-- **C218**: supervised training makes one step of the optimizer for every minibatch of the training rows, in order and as often as there are epochs left before the
checkpoint, each with the gradient of exactly that minibatch; held out rows, random draws and earlier gradients have no part in it.  (For networks without running
statistics; the network and the loss do not raise.) -/
theorem C218_supervised (P : Sup θ β γ σ ρ R T L E) (hadd : ∀ g, P.add P.zero g = g) (hok : ∀ t u x y, P.raises t u x y = none)
    (hbuf : ∀ t u x, (P.forward t u x).2 = u) (total b checkpoint : Nat) (hb : 0 < b) (holdout : Rat) (data : List R) (labels : List L) (s : SupState θ β γ σ ρ R T E) :
    ∃ s', supTrain P total b checkpoint holdout data labels s = .ok s' ∧ s'.buf = s.buf ∧
      s'.epoch = s.epoch + min checkpoint (total - s.epoch) ∧
      (s'.net, s'.optim) =
        (List.replicate (min checkpoint (total - s.epoch)) (miniBatches b (data.drop (holdout * data.length).floor.toNat) (labels.drop (holdout * data.length).floor.toNat))).flatten.foldl
          (sgdStep P s.buf) (s.net, s.optim) := by
  unfold supTrain
  simp only []
  set k := (holdout * data.length).floor.toNat
  set d := data.drop k
  set l := labels.drop k
  obtain ⟨s', h1, h2, h3⟩ := epochs_view total (supEpoch P b (data.take k) (labels.take k) k d l) (fun t => t.buf = s.buf)
    (fun t => ((t.net, t.optim), t.epoch)) (fun v _ => ((miniBatches b d l).foldl (sgdStep P s.buf) v.1, v.2 + 1)) (by
      intro e t ht
      obtain ⟨t', h1, h2, h3⟩ := batches_view (supStep P b (data.take k) (labels.take k) k d l e) (fun t => t.buf = s.buf) (fun t => ((t.net, t.optim), t.epoch))
        (fun v i => (sgdStep P s.buf v.1 ((d.drop i).take b, (l.drop i).take b), v.2)) (by
          intro t i ht
          obtain ⟨t', g1, g2, g3, g4, -⟩ := supStep_ok P hadd hok hbuf b (data.take k) (labels.take k) k d l e t i
          exact ⟨t', g1, by rw [g2, ht], by simp only []; rw [g3, g4, ht]⟩) (rangeStep d.length b) t ht
      refine ⟨{ t' with epoch := t'.epoch + 1 }, ?_, h2, ?_⟩
      · unfold supEpoch
        rw [if_neg (by omega), h1]
      · have hfold : ∀ (is : List Nat) (v : (θ × σ) × Nat),
            is.foldl (fun v i => (sgdStep P s.buf v.1 ((d.drop i).take b, (l.drop i).take b), v.2)) v =
              ((is.map fun i => ((d.drop i).take b, (l.drop i).take b)).foldl (sgdStep P s.buf) v.1, v.2) := by
          intro is
          induction is with
          | nil => intro v; rfl
          | cons i is ih => intro v; simp only [List.foldl_cons, List.map_cons]; rw [ih]
        rw [hfold] at h3
        have e1 : (t'.net, t'.optim) = _ := congrArg Prod.fst h3
        have e2 : t'.epoch = _ := congrArg Prod.snd h3
        simp only []
        rw [e1, e2]
        rfl) checkpoint s.epoch s rfl
  have hfold : ∀ (es : List Nat) (v : (θ × σ) × Nat),
      es.foldl (fun v _ => ((miniBatches b d l).foldl (sgdStep P s.buf) v.1, v.2 + 1)) v =
        ((List.replicate es.length (miniBatches b d l)).flatten.foldl (sgdStep P s.buf) v.1, v.2 + es.length) := by
    intro es
    induction es with
    | nil => intro v; rfl
    | cons i is ih =>
      intro v
      simp only [List.foldl_cons, List.length_cons, List.replicate_succ, List.flatten_cons, List.foldl_append]
      rw [ih]
      simp only [Prod.mk.injEq, true_and]
      omega
  rw [hfold] at h3
  refine ⟨s', h1, h2, ?_, ?_⟩
  · have := congrArg Prod.snd h3
    simpa using this
  · have := congrArg Prod.fst h3
    simpa using this

/-- **C218, held out rows**: two data sets of the same size with the same training rows give the same network, whatever is held out. -/
theorem C218_holdout (P : Sup θ β γ σ ρ R T L E) (hadd : ∀ g, P.add P.zero g = g) (hok : ∀ t u x y, P.raises t u x y = none)
    (hbuf : ∀ t u x, (P.forward t u x).2 = u) (total b checkpoint : Nat) (hb : 0 < b) (holdout : Rat) (data data' : List R) (labels labels' : List L)
    (hlen : data'.length = data.length)
    (hd : data'.drop (holdout * data.length).floor.toNat = data.drop (holdout * data.length).floor.toNat)
    (hl : labels'.drop (holdout * data.length).floor.toNat = labels.drop (holdout * data.length).floor.toNat) (s : SupState θ β γ σ ρ R T E) :
    ∃ s' s'', supTrain P total b checkpoint holdout data labels s = .ok s' ∧ supTrain P total b checkpoint holdout data' labels' s = .ok s'' ∧
      s'.net = s''.net ∧ s'.optim = s''.optim ∧ s'.buf = s''.buf := by
  obtain ⟨s', h1, h2, -, h3⟩ := C218_supervised P hadd hok hbuf total b checkpoint hb holdout data labels s
  obtain ⟨s'', g1, g2, -, g3⟩ := C218_supervised P hadd hok hbuf total b checkpoint hb holdout data' labels' s
  rw [hlen, hd, hl, ← h3] at g3
  have := Prod.mk.inj g3
  exact ⟨s', s'', h1, g1, this.1.symm, this.2.symm, by rw [h2, g2]⟩

/-! ## C219: held out data and running statistics -/

/-- A network `x ↦ w·x` whose one buffer adds up all rows it has seen, the squared error and plain gradient descent with rate one tenth (in integers: no division, rate one). -/
def tally : Sup Int Int Int Unit Unit Int Int Int Int where
  forward := fun w u x => (x.map (w * ·), u + x.sum)
  loss := fun y l => (List.zipWith (fun a b => (a - b) ^ 2) y l).sum
  gradient := fun w _ x l => (List.zipWith (fun a b => 2 * a * (w * a - b)) x l).sum
  zero := 0
  add := (· + ·)
  opt := fun w g _ => (w - g, ())
  raises := fun _ _ _ _ => none
  dataPre := id
  labelPre := id
  draw := fun _ _ k => (List.replicate k 0, ())

/-- **C219, refuted**: a network with running statistics is changed by the held out rows: the same training rows, another held out row, other statistics. -/
theorem C219_statistics_refuted :
    ∃ s' s'', supTrain tally 1 1 1 (1 / 2) [10, 1] [0, 1] ⟨0, 0, 0, (), (), none, 0, []⟩ = .ok s' ∧
      supTrain tally 1 1 1 (1 / 2) [20, 1] [0, 1] ⟨0, 0, 0, (), (), none, 0, []⟩ = .ok s'' ∧
      [10, 1].drop 1 = [20, 1].drop 1 ∧ s'.net = s''.net ∧ s'.buf ≠ s''.buf := by
  have hk : ((1 / 2 : Rat) * (2 : Nat)).floor.toNat = 1 := by
    have : ((1 / 2 : Rat) * (2 : Nat)) = (1 : Int) := by norm_num
    rw [this, Rat.floor_intCast]
    rfl
  have h1 : ∀ a b : Int, supTrain tally 1 1 1 (1 / 2) [a, 1] [0, 1] ⟨0, 0, 0, (), (), none, 0, []⟩ =
      epochs 1 (supEpoch tally 1 [a] [0] 1 [1] [1]) 1 0 ⟨0, 0, 0, (), (), none, 0, []⟩ := by
    intro a _
    unfold supTrain
    simp only [List.length_cons, List.length_nil, Nat.zero_add, Nat.reduceAdd]
    rw [hk]
    rfl
  rw [h1 10 0, h1 20 0]
  exact ⟨_, _, rfl, rfl, rfl, by decide, by decide⟩

/-! ## C220: checkpoints -/

theorem supEpoch_epoch (P : Sup θ β γ σ ρ R T L E) (b : Nat) (testD : List R) (testL : List L) (k : Nat) (d : List R) (l : List L) (e : Nat)
    (s s' : SupState θ β γ σ ρ R T E) (h : supEpoch P b testD testL k d l e s = .ok s') : s'.epoch = s.epoch + 1 := by
  have hrun : ∀ (s s' : SupState θ β γ σ ρ R T E) d l t e, runBatch P s d l t = .ok (s', e) → s'.epoch = s.epoch := by
    intro s s' d l t e h
    unfold runBatch at h
    simp only [] at h
    split at h
    · cases h
    · cases h; rfl
  have hstep : ∀ (s s' : SupState θ β γ σ ρ R T E) i, supStep P b testD testL k d l e s i = .ok s' → s'.epoch = s.epoch := by
    intro s s' i h
    unfold supStep at h
    split at h
    · cases h
    · rename_i s1 e1 hr
      have h1 := hrun _ _ _ _ _ _ hr
      split at h
      · cases h
      · rename_i s2 te ht
        cases h
        show s2.epoch = s.epoch
        unfold testBatch at ht
        split at ht
        · cases ht; exact h1
        · simp only [] at ht
          split at ht
          · cases ht
          · rename_i s3 e3 hr3
            cases ht
            rw [hrun _ _ _ _ _ _ hr3]
            exact h1
  unfold supEpoch at h
  split at h
  · cases h
  · split at h
    · cases h
    · rename_i t ht
      cases h
      show t.epoch + 1 = s.epoch + 1
      have : ∀ (is : List Nat) (s t : SupState θ β γ σ ρ R T E), batches (supStep P b testD testL k d l e) s is = .ok t → t.epoch = s.epoch := by
        intro is
        induction is with
        | nil => intro s t h; cases h; rfl
        | cons i is ih =>
          intro s t h
          simp only [batches] at h
          split at h
          · cases h
          · rename_i s1 h1
            rw [ih _ _ h, hstep _ _ _ h1]
      rw [this _ _ _ ht]

/-- **C220, supervised**: calling `train` for `a` and then for `b` more epochs is the same as calling it once for `a + b`: network, statistics, optimizer, random source and the calls
of the callbacks are the same, errors included. -/
theorem C220_supervised (P : Sup θ β γ σ ρ R T L E) (total n : Nat) (holdout : Rat) (data : List R) (labels : List L) (a b : Nat) (s : SupState θ β γ σ ρ R T E) :
    supTrain P total n (a + b) holdout data labels s =
      match supTrain P total n a holdout data labels s with
      | .error e => .error e
      | .ok s' => supTrain P total n b holdout data labels s' := by
  unfold supTrain
  simp only []
  set k := (holdout * data.length).floor.toNat
  have h := epochs_add total (supEpoch P n (data.take k) (labels.take k) k (data.drop k) (labels.drop k)) (fun s => s.epoch) (fun e s s' h => supEpoch_epoch P _ _ _ _ _ _ _ _ _ h) b a s
  rw [h]
  cases epochs total (supEpoch P n (data.take k) (labels.take k) k (data.drop k) (labels.drop k)) a s.epoch s <;> rfl

variable {θg θd γg γd σg σd κ ρn ρt Z A : Type}

/-- A trainer with both networks unfrozen: everything else as it was. -/
def unfrozen (s : GanState θg θd γg γd σg σd ρn ρt R E) : GanState θg θd γg γd σg σd ρn ρt R E := { s with trainG := true, trainD := true }

theorem ganStep_flags (G : Gan θg θd γg γd σg σd κ ρn ρt R Z A E) (nCritic b : Nat) (data : List R) (epoch : Nat)
    (s t : GanState θg θd γg γd σg σd ρn ρt R E) (h : unfrozen s = unfrozen t) (i : Nat) : ganStep G nCritic b data epoch s i = ganStep G nCritic b data epoch t i := by
  have : ∀ u : GanState θg θd γg γd σg σd ρn ρt R E, ganStep G nCritic b data epoch u i = ganStep G nCritic b data epoch (unfrozen u) i := fun u => rfl
  rw [this s, this t, h]

theorem batches_flags (G : Gan θg θd γg γd σg σd κ ρn ρt R Z A E) (nCritic b : Nat) (data : List R) (epoch : Nat) (is : List Nat)
    (s t : GanState θg θd γg γd σg σd ρn ρt R E) (h : unfrozen s = unfrozen t) :
    (batches (ganStep G nCritic b data epoch) s is).map unfrozen = (batches (ganStep G nCritic b data epoch) t is).map unfrozen := by
  cases is with
  | nil => simp [batches, Except.map, h]
  | cons i is => simp only [batches, ganStep_flags G nCritic b data epoch s t h i]

theorem ganEpoch_flags (G : Gan θg θd γg γd σg σd κ ρn ρt R Z A E) (nCritic b : Nat) (data : List R) (epoch : Nat)
    (s t : GanState θg θd γg γd σg σd ρn ρt R E) (h : unfrozen s = unfrozen t) :
    (ganEpoch G nCritic b data epoch s).map unfrozen = (ganEpoch G nCritic b data epoch t).map unfrozen := by
  unfold ganEpoch
  split
  · rfl
  · have := batches_flags G nCritic b data epoch (rangeStep data.length b) s t h
    cases h1 : batches (ganStep G nCritic b data epoch) s (rangeStep data.length b) with
    | error e =>
      cases h2 : batches (ganStep G nCritic b data epoch) t (rangeStep data.length b) with
      | error e' => rw [h1, h2] at this; simpa [Except.map] using this
      | ok t' => rw [h1, h2] at this; simp [Except.map] at this
    | ok s' =>
      cases h2 : batches (ganStep G nCritic b data epoch) t (rangeStep data.length b) with
      | error e' => rw [h1, h2] at this; simp [Except.map] at this
      | ok t' =>
        rw [h1, h2] at this
        simp only [Except.map, Except.ok.injEq, unfrozen, GanState.mk.injEq] at this ⊢
        obtain ⟨a1, a2, a3, a4, a5, a6, a7, a8, a9, a10, a11, a12, a13⟩ := this
        simp [a1, a2, a3, a4, a5, a6, a9, a10, a11, a12, a13]

theorem epochs_flags (G : Gan θg θd γg γd σg σd κ ρn ρt R Z A E) (total nCritic b : Nat) (data : List R) : ∀ (fuel epoch : Nat)
    (s t : GanState θg θd γg γd σg σd ρn ρt R E), unfrozen s = unfrozen t →
    (epochs total (ganEpoch G nCritic b data) fuel epoch s).map unfrozen = (epochs total (ganEpoch G nCritic b data) fuel epoch t).map unfrozen := by
  intro fuel
  induction fuel with
  | zero => intro e s t h; simp [epochs, Except.map, h]
  | succ fuel ih =>
    intro e s t h
    simp only [epochs]
    split
    · simp [Except.map, h]
    · have := ganEpoch_flags G nCritic b data e s t h
      cases h1 : ganEpoch G nCritic b data e s with
      | error x =>
        cases h2 : ganEpoch G nCritic b data e t with
        | error x' => rw [h1, h2] at this; simpa [Except.map] using this
        | ok t' => rw [h1, h2] at this; simp [Except.map] at this
      | ok s' =>
        cases h2 : ganEpoch G nCritic b data e t with
        | error x' => rw [h1, h2] at this; simp [Except.map] at this
        | ok t' =>
          rw [h1, h2] at this
          exact ih (e + 1) s' t' (by simpa [Except.map] using this)

theorem criticLoop_keeps (G : Gan θg θd γg γd σg σd κ ρn ρt R Z A E) (b : Nat) (data : List R) (epoch : Nat) : ∀ (n : Nat) (s : GanState θg θd γg γd σg σd ρn ρt R E) (e : Scores E),
    (criticLoop G b data epoch n s e).1.g = s.g ∧ (criticLoop G b data epoch n s e).1.optimG = s.optimG ∧ (criticLoop G b data epoch n s e).1.trainD = s.trainD ∧
    (criticLoop G b data epoch n s e).1.epoch = s.epoch ∧ (criticLoop G b data epoch n s e).1.log = s.log ∧
    (s.optimD.isSome → (criticLoop G b data epoch n s e).1.optimD.isSome) ∧ ((criticLoop G b data epoch n s e).2.isSome ↔ n ≠ 0 ∨ e.isSome) := by
  intro n
  induction n with
  | zero => intro s e; simp [criticLoop]
  | succ n ih =>
    intro s e
    obtain ⟨h1, h2, h3, h4, h5, h6, h7⟩ := ih (criticIter G b data epoch s).1 (some (criticIter G b data epoch s).2)
    refine ⟨h1, h2, h3, h4, h5, fun _ => h6 rfl, ?_⟩
    simp only [criticLoop]
    rw [h7]
    simp

theorem ganStep_keeps (G : Gan θg θd γg γd σg σd κ ρn ρt R Z A E) (nCritic b : Nat) (data : List R) (epoch : Nat)
    (s s' : GanState θg θd γg γd σg σd ρn ρt R E) (i : Nat) (h : ganStep G nCritic b data epoch s i = .ok s') :
    s'.epoch = s.epoch ∧ (s.optimD.isSome → s'.optimD.isSome) ∧ s'.optimG.isSome := by
  unfold ganStep at h
  simp only [] at h
  set s0 : GanState θg θd γg γd σg σd ρn ρt R E := { s with gradG := G.zeroG, gradD := G.zeroD, trainG := false, trainD := true } with hs0
  obtain ⟨-, -, -, h4, -, h6, -⟩ := criticLoop_keeps G b data epoch nCritic s0 none
  split at h
  · cases h
  · cases h
    exact ⟨h4, h6, rfl⟩

theorem ganEpoch_keeps (G : Gan θg θd γg γd σg σd κ ρn ρt R Z A E) (nCritic b : Nat) (data : List R) (epoch : Nat)
    (s s' : GanState θg θd γg γd σg σd ρn ρt R E) (h : ganEpoch G nCritic b data epoch s = .ok s') :
    s'.epoch = s.epoch + 1 ∧ (s.optimD.isSome → s'.optimD.isSome) ∧ (s.optimG.isSome → s'.optimG.isSome) := by
  have hb : ∀ (is : List Nat) (s t : GanState θg θd γg γd σg σd ρn ρt R E), batches (ganStep G nCritic b data epoch) s is = .ok t →
      t.epoch = s.epoch ∧ (s.optimD.isSome → t.optimD.isSome) ∧ (s.optimG.isSome → t.optimG.isSome) := by
    intro is
    induction is with
    | nil => intro s t h; cases h; exact ⟨rfl, id, id⟩
    | cons i is ih =>
      intro s t h
      simp only [batches] at h
      split at h
      · cases h
      · rename_i s1 h1
        obtain ⟨a1, a2, a3⟩ := ganStep_keeps G nCritic b data epoch _ _ _ h1
        obtain ⟨b1, b2, b3⟩ := ih _ _ h
        exact ⟨by rw [b1, a1], fun h => b2 (a2 h), fun _ => b3 a3⟩
  unfold ganEpoch at h
  split at h
  · cases h
  · split at h
    · cases h
    · rename_i t ht
      cases h
      obtain ⟨a1, a2, a3⟩ := hb _ _ _ ht
      exact ⟨by show t.epoch + 1 = _; rw [a1], a2, a3⟩

theorem epochs_keeps (G : Gan θg θd γg γd σg σd κ ρn ρt R Z A E) (total nCritic b : Nat) (data : List R) : ∀ (fuel epoch : Nat)
    (s s' : GanState θg θd γg γd σg σd ρn ρt R E), epochs total (ganEpoch G nCritic b data) fuel epoch s = .ok s' →
    (s.optimD.isSome → s'.optimD.isSome) ∧ (s.optimG.isSome → s'.optimG.isSome) := by
  intro fuel
  induction fuel with
  | zero => intro e s s' h; cases h; exact ⟨id, id⟩
  | succ fuel ih =>
    intro e s s' h
    simp only [epochs] at h
    split at h
    · cases h; exact ⟨id, id⟩
    · split at h
      · cases h
      · rename_i s1 h1
        obtain ⟨-, a2, a3⟩ := ganEpoch_keeps G nCritic b data e _ _ h1
        obtain ⟨b2, b3⟩ := ih _ _ _ h
        exact ⟨fun h => b2 (a2 h), fun h => b3 (a3 h)⟩

theorem initOptimizers_some (G : Gan θg θd γg γd σg σd κ ρn ρt R Z A E) (s : GanState θg θd γg γd σg σd ρn ρt R E) :
    (initOptimizers G s).optimG.isSome ∧ (initOptimizers G s).optimD.isSome ∧ (initOptimizers G s).epoch = s.epoch := by
  unfold initOptimizers
  split
  · rename_i a b h1 h2
    exact ⟨by simp [h1], by simp [h2], rfl⟩
  · exact ⟨rfl, rfl, rfl⟩

theorem initOptimizers_id (G : Gan θg θd γg γd σg σd κ ρn ρt R Z A E) (s : GanState θg θd γg γd σg σd ρn ρt R E) (h1 : s.optimG.isSome) (h2 : s.optimD.isSome) :
    initOptimizers G s = s := by
  obtain ⟨a, ha⟩ := Option.isSome_iff_exists.1 h1
  obtain ⟨b, hb⟩ := Option.isSome_iff_exists.1 h2
  unfold initOptimizers
  rw [ha, hb]

/-- **C220, adversarial**: the same for the Wasserstein trainer: both networks, the optimizers' states, the random sources, samples and calls of the callbacks are those of one longer call
(only which parameters are left frozen may differ). -/
theorem C220_gan (G : Gan θg θd γg γd σg σd κ ρn ρt R Z A E) (total nCritic n : Nat) (data : List R) (a b : Nat) (s : GanState θg θd γg γd σg σd ρn ρt R E) :
    (ganTrain G total nCritic n (a + b) data s).map unfrozen =
      match ganTrain G total nCritic n a data s with
      | .error e => .error e
      | .ok s' => (ganTrain G total nCritic n b data s').map unfrozen := by
  unfold ganTrain
  simp only []
  set s0 := initOptimizers G { s with trainD := true, trainG := true } with hs0
  rw [epochs_add total (ganEpoch G nCritic n data) (fun s => s.epoch) (fun e s s' h => (ganEpoch_keeps G nCritic n data e s s' h).1) b a s0]
  cases h : epochs total (ganEpoch G nCritic n data) a s0.epoch s0 with
  | error e => rfl
  | ok s' =>
    simp only []
    obtain ⟨i1, i2, -⟩ := initOptimizers_some G { s with trainD := true, trainG := true }
    obtain ⟨k1, k2⟩ := epochs_keeps G total nCritic n data a s0.epoch s0 s' h
    rw [initOptimizers_id G { s' with trainD := true, trainG := true } (k2 i1) (k1 i2)]
    exact epochs_flags G total nCritic n data b s'.epoch _ _ rfl

/-! ## C221: the triplet trainer's checkpoints -/

variable {S : Type}

/-- Triplet training with an optimizer that counts its steps: the first step of an optimizer moves the network by one, the second by two, and so on. -/
def counting : Tri Nat Unit Nat Unit Unit Unit Unit where
  anchor := id
  gradient := fun _ _ _ _ => ()
  loss := fun _ _ _ _ => ()
  zero := ()
  add := fun _ _ => ()
  opt := fun w _ k => (w + k, k + 1)
  newOpt := fun _ => 1
  deformations := some [fun a _ => a]
  draw := fun _ _ k => (List.replicate k 0, ())
  pick := fun _ _ => (0, ())

/-- **C221, refuted**: the triplet trainer starts every call with a new optimizer, so two epochs in two calls are not two epochs in one call. -/
theorem C221_new_optimizer_refuted :
    ∃ one half two, triTrain counting 5 1 2 [()] ⟨0, (), (), 0, []⟩ = .ok one ∧
      triTrain counting 5 1 1 [()] ⟨0, (), (), 0, []⟩ = .ok half ∧ triTrain counting 5 1 1 [()] half = .ok two ∧
      one.epoch = two.epoch ∧ one.net = 3 ∧ two.net = 2 :=
  ⟨_, _, _, rfl, rfl, rfl, rfl, rfl, rfl⟩

/-- **C221, epochs**: a triplet trainer made for `total` epochs stops after `total + 1` of them; every epoch has one batch for each full `b` rows. -/
theorem C221_epochs (P : Tri θ γ σ ρ R S E) (total b checkpoint : Nat) (data : List R) (s s' : TriState θ γ ρ E) (h : triTrain P total b checkpoint data s = .ok s') :
    s'.epoch = s.epoch + min checkpoint (total + 1 - s.epoch) ∧ s'.log.length = s.log.length + min checkpoint (total + 1 - s.epoch) * (data.length / b) := by
  have hb1 : ∀ (e : Nat) (is : List Nat) (so so' : TriState θ γ ρ E × σ), batches (triStep P b data e) so is = .ok so' →
      so'.1.epoch = so.1.epoch ∧ so'.1.log.length = so.1.log.length + is.length := by
    intro e is
    induction is with
    | nil => intro so so' h; simp only [batches, Except.ok.injEq] at h; subst h; exact ⟨rfl, rfl⟩
    | cons i is ih =>
      intro so so' h
      simp only [batches] at h
      cases h1 : triStep P b data e so i with
      | error x => rw [h1] at h; cases h
      | ok t =>
        rw [h1] at h
        obtain ⟨a1, a2⟩ := ih t so' h
        have : t.1.epoch = so.1.epoch ∧ t.1.log.length = so.1.log.length + 1 := by
          unfold triStep at h1
          simp only [] at h1
          split at h1
          · cases h1
          · cases h1; simp
        rw [a1, a2, this.1, this.2, List.length_cons]
        exact ⟨rfl, by omega⟩
  have hep : ∀ (fuel e : Nat) (so so' : TriState θ γ ρ E × σ), epochs (total + 1) (triEpoch P b data) fuel e so = .ok so' →
      so'.1.epoch = so.1.epoch + min fuel (total + 1 - e) ∧ so'.1.log.length = so.1.log.length + min fuel (total + 1 - e) * (data.length / b) := by
    intro fuel
    induction fuel with
    | zero => intro e so so' h; simp only [epochs, Except.ok.injEq] at h; subst h; simp
    | succ fuel ih =>
      intro e so so' h
      simp only [epochs] at h
      split at h
      · cases h; rw [show total + 1 - e = 0 by omega]; simp
      · rename_i hlt
        cases h1 : triEpoch P b data e so with
        | error x => rw [h1] at h; cases h
        | ok t =>
          rw [h1] at h
          obtain ⟨a1, a2⟩ := ih (e + 1) t so' h
          have : t.1.epoch = so.1.epoch + 1 ∧ t.1.log.length = so.1.log.length + data.length / b := by
            unfold triEpoch at h1
            cases h2 : batches (triStep P b data e) so (List.range (data.length / b)) with
            | error x => rw [h2] at h1; cases h1
            | ok u =>
              rw [h2] at h1
              cases h1
              obtain ⟨b1, b2⟩ := hb1 e _ so u h2
              exact ⟨by simp only [b1], by simpa using b2⟩
          rw [a1, a2, this.1, this.2]
          have e1 : min (fuel + 1) (total + 1 - e) = min fuel (total + 1 - (e + 1)) + 1 := by omega
          rw [e1, Nat.add_mul]
          omega
  unfold triTrain at h
  split at h
  · cases h
  · cases h1 : epochs (total + 1) (triEpoch P b data) checkpoint s.epoch (s, P.newOpt s.net) with
    | error x => rw [h1] at h; cases h
    | ok so => rw [h1] at h; cases h; exact hep _ _ _ _ h1

example : ∃ s', triTrain counting 1 1 5 [()] ⟨0, (), (), 0, []⟩ = .ok s' ∧ s'.epoch = 2 := ⟨_, rfl, rfl⟩

/-! ## C222: random_sample -/

theorem randomSample_mem (s : SupState θ β γ σ ρ R T E) (l : List (R × T)) (hl : s.samples = some l) (j : Nat) (p : R × T) (h : randomSample s j = .ok p) : p ∈ l := by
  unfold randomSample at h
  rw [hl] at h
  simp only [] at h
  by_cases hn : l = []
  · rw [if_pos hn] at h; cases h
  · rw [if_neg hn] at h
    cases hq : l[j]? with
    | none => rw [hq] at h; cases h
    | some q =>
      rw [hq] at h
      cases h
      exact List.mem_of_getElem? hq

/-- **C222, refuted**: what `random_sample` returns with an input is what the network answered, and with held out data the input is a held out row, never one of the minibatch just trained on. -/
theorem C222_samples_refuted (P : Sup θ β γ σ ρ R T L E) (hok : ∀ t u x y, P.raises t u x y = none)
    (b : Nat) (testD : List R) (testL : List L) (k : Nat) (hk : k ≠ 0) (d : List R) (l : List L) (epoch : Nat) (s : SupState θ β γ σ ρ R T E) (i : Nat) :
    ∃ s' u, supStep P b testD testL k d l epoch s i = .ok s' ∧
      s'.samples = some ((P.dataPre ((P.draw s.rng k b).1.filterMap fun (j : Nat) => testD[j]?)).zip
        (P.forward s'.net u (P.dataPre ((P.draw s.rng k b).1.filterMap fun (j : Nat) => testD[j]?))).1) ∧
      ∀ j p, randomSample s' j = .ok p → p ∈ (P.dataPre ((P.draw s.rng k b).1.filterMap fun (j : Nat) => testD[j]?)).zip
        (P.forward s'.net u (P.dataPre ((P.draw s.rng k b).1.filterMap fun (j : Nat) => testD[j]?))).1 := by
  unfold supStep
  rw [runBatch_ok P hok]
  simp only [testBatch, if_neg hk]
  rw [runBatch_ok P hok]
  refine ⟨_, (P.forward s.net s.buf (P.dataPre ((d.drop i).take b))).2, rfl, rfl, ?_⟩
  intro j p h
  exact randomSample_mem _ _ rfl j p h

/-- **C222, before training** there are no samples: RuntimeError. -/
theorem C222_before (s : SupState θ β γ σ ρ R T E) (h : s.samples = none) (i : Nat) : randomSample s i = .error .runtimeError := by
  unfold randomSample
  rw [h]

example := C222_before (⟨0, 0, 0, (), (), none, 0, []⟩ : SupState Int Int Int Unit Unit Int Int Int) rfl 3

/-- **C222, no sample**: a minibatch without rows leaves nothing to choose from: ValueError. -/
theorem C222_empty (s : SupState θ β γ σ ρ R T E) (h : s.samples = some []) (i : Nat) : randomSample s i = .error .valueError := by
  unfold randomSample
  rw [h]
  rfl

example := C222_empty (⟨0, 0, 0, (), (), some [], 0, []⟩ : SupState Int Int Int Unit Unit Int Int Int) rfl 3

/-! ## C223: errors of the network -/

/-- **C223, refuted**: a RuntimeError in a training batch, whatever its message, neither is skipped nor reaches the caller: AttributeError (exceptions have no `message`). -/
theorem C223_message_refuted (P : Sup θ β γ σ ρ R T L E) (total b checkpoint : Nat) (hb : 0 < b) (holdout : Rat) (data : List R) (labels : List L) (s : SupState θ β γ σ ρ R T E)
    (hc : 0 < checkpoint) (he : s.epoch < total) (hd : (holdout * data.length).floor.toNat < data.length)
    (hr : ∀ x y, P.raises s.net s.buf x y = some .runtimeError) :
    supTrain P total b checkpoint holdout data labels s = .error .attributeError := by
  unfold supTrain
  simp only []
  set k := (holdout * data.length).floor.toNat
  obtain ⟨c, rfl⟩ : ∃ c, checkpoint = c + 1 := ⟨checkpoint - 1, by omega⟩
  simp only [epochs]
  rw [if_neg (by omega)]
  have hne : ∃ i is, rangeStep (data.drop k).length b = i :: is := by
    cases h : rangeStep (data.drop k).length b with
    | nil =>
      have := congrArg List.length h
      simp only [rangeStep, List.length_map, List.length_range, List.length_drop, List.length_nil] at this
      have h2 := Nat.div_pos (show b ≤ data.length - k + b - 1 by omega) hb
      omega
    | cons i is => exact ⟨i, is, rfl⟩
  obtain ⟨i, is, hi⟩ := hne
  have hstep : supStep P b (data.take k) (labels.take k) k (data.drop k) (labels.drop k) s.epoch s i = .error .attributeError := by
    unfold supStep runBatch
    simp only [hr]
    rfl
  unfold supEpoch
  rw [if_neg (by omega), hi]
  simp only [batches, hstep]

/-! ## C224: the Wasserstein trainer -/

/-- The trainable part of the adversarial trainer: generator and optimizer, critic and optimizer, the random sources. -/
abbrev GanView (θg θd σg σd ρn ρt : Type) := (θg × σg) × (θd × σd) × ρn × ρt

/-- One update of the critic against a fixed generator: the gradient of its loss for freshly drawn real rows, fakes of fresh noise and fresh mixing weights. -/
def criticUpdate (G : Gan θg θd γg γd σg σd κ ρn ρt R Z A E) (b : Nat) (data : List R) (epoch : Nat) (v : GanView θg θd σg σd ρn ρt) : GanView θg θd σg σd ρn ρt :=
  let rows := G.draw v.2.2.1 data.length b
  let noise := G.normal v.2.2.2
  let alpha := G.alpha noise.2
  (v.1, G.optD v.2.1.1 (G.dGrad (G.args epoch) v.2.1.1 (G.prep epoch (rows.1.filterMap fun (j : Nat) => data[j]?))
    (G.prep epoch (G.gen (G.args epoch) v.1.1 noise.1)) alpha.1) v.2.1.2, rows.2, alpha.2)

/-- One update of the generator against a fixed critic, for fresh noise. -/
def generatorUpdate (G : Gan θg θd γg γd σg σd κ ρn ρt R Z A E) (epoch : Nat) (v : GanView θg θd σg σd ρn ρt) : GanView θg θd σg σd ρn ρt :=
  let noise := G.normal v.2.2.2
  (G.optG v.1.1 (G.gGrad (G.args epoch) epoch v.1.1 v.2.1.1 noise.1) v.1.2, v.2.1, v.2.2.1, noise.2)

/-- What one batch does: `n` updates of the critic, then one of the generator. -/
def ganBatch (G : Gan θg θd γg γd σg σd κ ρn ρt R Z A E) (n b : Nat) (data : List R) (v : GanView θg θd σg σd ρn ρt) (epoch : Nat) : GanView θg θd σg σd ρn ρt :=
  generatorUpdate G epoch ((criticUpdate G b data epoch)^[n] v)

/-- The trainable part of a trainer; a missing optimizer is a new one. -/
def ganView (G : Gan θg θd γg γd σg σd κ ρn ρt R Z A E) (s : GanState θg θd γg γd σg σd ρn ρt R E) : GanView θg θd σg σd ρn ρt :=
  ((s.g, s.optimG.getD (G.newOptG s.g)), (s.d, s.optimD.getD (G.newOptD s.d)), s.rngNp, s.rngTorch)

theorem criticIter_view (G : Gan θg θd γg γd σg σd κ ρn ρt R Z A E) (hD : ∀ g, G.addD G.zeroD g = g) (b : Nat) (data : List R) (epoch : Nat)
    (s : GanState θg θd γg γd σg σd ρn ρt R E) (h : s.trainD = true) :
    ganView G (criticIter G b data epoch s).1 = criticUpdate G b data epoch (ganView G s) := by
  unfold criticIter ganView criticUpdate
  simp [h, hD]

theorem criticLoop_view (G : Gan θg θd γg γd σg σd κ ρn ρt R Z A E) (hD : ∀ g, G.addD G.zeroD g = g) (b : Nat) (data : List R) (epoch : Nat) : ∀ (n : Nat)
    (s : GanState θg θd γg γd σg σd ρn ρt R E) (e : Scores E), s.trainD = true →
    ganView G (criticLoop G b data epoch n s e).1 = (criticUpdate G b data epoch)^[n] (ganView G s) := by
  intro n
  induction n with
  | zero => intro s e _; rfl
  | succ n ih =>
    intro s e h
    simp only [criticLoop]
    rw [ih (criticIter G b data epoch s).1 _ h, criticIter_view G hD b data epoch s h]
    rfl

theorem ganStep_ok (G : Gan θg θd γg γd σg σd κ ρn ρt R Z A E) (hD : ∀ g, G.addD G.zeroD g = g) (hG : ∀ g, G.addG G.zeroG g = g) (n : Nat) (hn : 0 < n) (b : Nat) (data : List R) (epoch : Nat)
    (s : GanState θg θd γg γd σg σd ρn ρt R E) (i : Nat) :
    ∃ s', ganStep G n b data epoch s i = .ok s' ∧ ganView G s' = ganBatch G n b data (ganView G s) epoch ∧ s'.epoch = s.epoch ∧
      s'.trainG = true ∧ s'.trainD = false ∧ s'.gradD = G.zeroD ∧ ∃ e, s'.log = s.log ++ [e] ∧ e.epoch = epoch ∧ e.batch = i := by
  unfold ganStep
  simp only []
  set s0 : GanState θg θd γg γd σg σd ρn ρt R E := { s with gradG := G.zeroG, gradD := G.zeroD, trainG := false, trainD := true } with hs0
  obtain ⟨-, -, -, h4, h5, -, h7⟩ := criticLoop_keeps G b data epoch n s0 none
  have hv := criticLoop_view G hD b data epoch n s0 none rfl
  obtain ⟨sc, hsc⟩ := Option.isSome_iff_exists.1 (h7.2 (Or.inl (by omega)))
  rw [hsc]
  obtain ⟨dl, rl⟩ := sc
  refine ⟨_, rfl, ?_, h4, rfl, rfl, rfl, _, by show (criticLoop G b data epoch n s0 none).1.log ++ _ = _; rw [h5], rfl, rfl⟩
  have h0 : ganView G s0 = ganView G s := rfl
  unfold ganBatch
  rw [← h0, ← hv]
  unfold genStep generatorUpdate ganView
  simp [hG]

/-- **C224**: adversarial training makes, for every batch of every epoch left before the checkpoint, `n_critic_iterations` updates of the critic with the generator unchanged and then one update of the
generator with the critic unchanged; each update uses the gradient of its own loss at fresh random draws and nothing left over, the optimizers' states carry on. -/
theorem C224_gan (G : Gan θg θd γg γd σg σd κ ρn ρt R Z A E) (hD : ∀ g, G.addD G.zeroD g = g) (hG : ∀ g, G.addG G.zeroG g = g) (total n b checkpoint : Nat) (hn : 0 < n) (hb : 0 < b) (data : List R)
    (s : GanState θg θd γg γd σg σd ρn ρt R E) (hs : s.optimG.isSome = s.optimD.isSome) :
    ∃ s', ganTrain G total n b checkpoint data s = .ok s' ∧ s'.epoch = s.epoch + min checkpoint (total - s.epoch) ∧
      ganView G s' = ((List.range' s.epoch (min checkpoint (total - s.epoch))).flatMap fun e => List.replicate ((data.length + b - 1) / b) e).foldl
        (ganBatch G n b data) (ganView G s) := by
  unfold ganTrain
  simp only []
  set s0 := initOptimizers G { s with trainD := true, trainG := true } with hs0
  have hv0 : ganView G s0 = ganView G s := by
    rw [hs0]
    unfold initOptimizers
    split
    · rfl
    · rename_i hno
      simp only [] at hno
      cases h1 : s.optimG with
      | none =>
        cases h2 : s.optimD with
        | none => simp [ganView, h1, h2]
        | some d => rw [h1, h2] at hs; simp at hs
      | some g =>
        cases h2 : s.optimD with
        | none => rw [h1, h2] at hs; simp at hs
        | some d => exact absurd h2 (hno g d h1)
  have he0 : s0.epoch = s.epoch := (initOptimizers_some G _).2.2
  obtain ⟨s', h1, -, h3⟩ := epochs_view total (ganEpoch G n b data) (fun _ => True) (fun t => (ganView G t, t.epoch))
    (fun v e => ((List.replicate ((data.length + b - 1) / b) e).foldl (ganBatch G n b data) v.1, v.2 + 1)) (by
      intro e t _
      obtain ⟨t', h1, -, h3⟩ := batches_view (ganStep G n b data e) (fun _ => True) (fun t => (ganView G t, t.epoch))
        (fun v _ => (ganBatch G n b data v.1 e, v.2)) (by
          intro t i _
          obtain ⟨t', g1, g2, g3, -⟩ := ganStep_ok G hD hG n hn b data e t i
          exact ⟨t', g1, trivial, by simp only []; rw [g2, g3]⟩) (rangeStep data.length b) t trivial
      refine ⟨{ t' with epoch := t'.epoch + 1 }, ?_, trivial, ?_⟩
      · unfold ganEpoch
        rw [if_neg (by omega), h1]
      · have hfold : ∀ (is : List Nat) (v : GanView θg θd σg σd ρn ρt × Nat),
            is.foldl (fun v _ => (ganBatch G n b data v.1 e, v.2)) v = ((List.replicate is.length e).foldl (ganBatch G n b data) v.1, v.2) := by
          intro is
          induction is with
          | nil => intro v; rfl
          | cons i is ih => intro v; simp only [List.foldl_cons, List.length_cons, List.replicate_succ]; rw [ih]
        rw [hfold] at h3
        have e1 : ganView G t' = _ := congrArg Prod.fst h3
        have e2 : t'.epoch = _ := congrArg Prod.snd h3
        have e3 : ganView G { t' with epoch := t'.epoch + 1 } = ganView G t' := rfl
        rw [e3, e1]
        show (_, t'.epoch + 1) = _
        rw [e2]
        simp [rangeStep]) checkpoint s0.epoch s0 trivial
  have hfold : ∀ (es : List Nat) (v : GanView θg θd σg σd ρn ρt × Nat),
      es.foldl (fun v e => ((List.replicate ((data.length + b - 1) / b) e).foldl (ganBatch G n b data) v.1, v.2 + 1)) v =
        ((es.flatMap fun e => List.replicate ((data.length + b - 1) / b) e).foldl (ganBatch G n b data) v.1, v.2 + es.length) := by
    intro es
    induction es with
    | nil => intro v; rfl
    | cons i is ih =>
      intro v
      simp only [List.foldl_cons, List.length_cons, List.flatMap_cons, List.foldl_append]
      rw [ih]
      simp only [Prod.mk.injEq, true_and]
      omega
  rw [hfold] at h3
  refine ⟨s', h1, ?_, ?_⟩
  · have := congrArg Prod.snd h3
    simpa [he0] using this
  · have := congrArg Prod.fst h3
    rw [hv0, he0] at this
    exact this

/-- **C224, fixed opponents**: the updates of the critic leave the generator and its optimizer as they are, the generator's update the critic and its optimizer. -/
theorem C224_opponents (G : Gan θg θd γg γd σg σd κ ρn ρt R Z A E) (n b : Nat) (data : List R) (epoch : Nat) (v : GanView θg θd σg σd ρn ρt) :
    ((criticUpdate G b data epoch)^[n] v).1 = v.1 ∧ (generatorUpdate G epoch v).2.1 = v.2.1 := by
  refine ⟨?_, rfl⟩
  induction n generalizing v with
  | zero => rfl
  | succ n ih => rw [Function.iterate_succ_apply, ih]; rfl

/-- **C224, samples**: after every batch the trainer's samples, and those of the callbacks, are what the generator makes, before its update, of the noise it was updated with. -/
theorem C224_samples (G : Gan θg θd γg γd σg σd κ ρn ρt R Z A E) (n b : Nat) (data : List R) (epoch i : Nat) (s s' : GanState θg θd γg γd σg σd ρn ρt R E)
    (h : ganStep G n b data epoch s i = .ok s') :
    ∃ r, s'.samples = some (G.prep epoch (G.gen (G.args epoch) s.g (G.normal r).1)) ∧ s'.rngTorch = (G.normal r).2 ∧
      ∃ e, s'.log.getLast? = some e ∧ e.samples = G.prep epoch (G.gen (G.args epoch) s.g (G.normal r).1) := by
  have hg : ∀ (n : Nat) (s : GanState θg θd γg γd σg σd ρn ρt R E) (sc : Scores E), (criticLoop G b data epoch n s sc).1.g = s.g := by
    intro n
    induction n with
    | zero => intro s sc; rfl
    | succ n ih => intro s sc; simp only [criticLoop, ih]; rfl
  unfold ganStep at h
  simp only [] at h
  split at h
  · cases h
  · cases h
    refine ⟨_, ?_, rfl, _, List.getLast?_concat, ?_⟩
    · simp only [genStep, hg]
    · simp only [genStep, hg, Option.getD_some]

/-- **C224, batch size**: batches of no rows are refused. -/
theorem C224_no_batch (G : Gan θg θd γg γd σg σd κ ρn ρt R Z A E) (total n checkpoint : Nat) (data : List R) (s : GanState θg θd γg γd σg σd ρn ρt R E) (hc : 0 < checkpoint)
    (he : s.epoch < total) : ganTrain G total n 0 checkpoint data s = .error .valueError := by
  obtain ⟨c, rfl⟩ : ∃ c, checkpoint = c + 1 := ⟨checkpoint - 1, by omega⟩
  have he0 : (initOptimizers G { s with trainD := true, trainG := true }).epoch = s.epoch := (initOptimizers_some G _).2.2
  unfold ganTrain
  simp only [epochs]
  rw [if_neg (by rw [he0]; omega)]
  rfl

example (G : Gan Int Int Int Int Unit Unit Unit Nat Nat Int Int Int Int) := C224_no_batch G 5 2 1 [4, 5, 6] ⟨1, 2, 7, 8, none, none, false, false, 0, 0, none, 3, []⟩ (by decide) (by decide)

/-! ## C225, C226 -/

theorem rangeStep_ne_nil (n b : Nat) (hn : 0 < n) (hb : 0 < b) : ∃ i is, rangeStep n b = i :: is := by
  cases h : rangeStep n b with
  | nil =>
    have := congrArg List.length h
    simp only [rangeStep, List.length_map, List.length_range, List.length_nil] at this
    have h2 := Nat.div_pos (show b ≤ n + b - 1 by omega) hb
    omega
  | cons i is => exact ⟨i, is, rfl⟩

/-- **C225, refuted**: the generator cannot be trained against a fixed critic: without an iteration of the critic the first batch ends in UnboundLocalError. -/
theorem C225_no_critic_refuted (G : Gan θg θd γg γd σg σd κ ρn ρt R Z A E) (total b checkpoint : Nat) (hb : 0 < b) (data : List R) (hd : data ≠ [])
    (s : GanState θg θd γg γd σg σd ρn ρt R E) (hc : 0 < checkpoint) (he : s.epoch < total) :
    ganTrain G total 0 b checkpoint data s = .error .nameError := by
  obtain ⟨c, rfl⟩ : ∃ c, checkpoint = c + 1 := ⟨checkpoint - 1, by omega⟩
  obtain ⟨i, is, hi⟩ := rangeStep_ne_nil data.length b (List.length_pos_iff.2 hd) hb
  have he0 : (initOptimizers G { s with trainD := true, trainG := true }).epoch = s.epoch := (initOptimizers_some G _).2.2
  unfold ganTrain
  simp only [epochs]
  rw [if_neg (by rw [he0]; omega)]
  unfold ganEpoch
  rw [if_neg (by omega), hi]
  rfl

/-- **C226, refuted**: networks frozen before training stay as they are.  Training gives the same result whatever parameters were frozen before. -/
theorem C226_flags_refuted (G : Gan θg θd γg γd σg σd κ ρn ρt R Z A E) (total n b checkpoint : Nat) (data : List R)
    (s : GanState θg θd γg γd σg σd ρn ρt R E) (g d : Bool) :
    ganTrain G total n b checkpoint data { s with trainG := g, trainD := d } = ganTrain G total n b checkpoint data s := rfl

/-- **C226, refuted**: after training the critic's parameters are frozen: they no longer require gradients. -/
theorem C226_frozen_refuted (G : Gan θg θd γg γd σg σd κ ρn ρt R Z A E) (total n b checkpoint : Nat) (hb : 0 < b) (data : List R) (hd : data ≠ [])
    (s s' : GanState θg θd γg γd σg σd ρn ρt R E) (hc : 0 < checkpoint) (he : s.epoch < total) (h : ganTrain G total n b checkpoint data s = .ok s') :
    s'.trainD = false ∧ s'.trainG = true := by
  have hb1 : ∀ (e : Nat) (is : List Nat) (i : Nat) (s t : GanState θg θd γg γd σg σd ρn ρt R E), batches (ganStep G n b data e) s (i :: is) = .ok t →
      t.trainD = false ∧ t.trainG = true := by
    intro e is
    induction is with
    | nil =>
      intro i s t h
      simp only [batches] at h
      split at h
      · cases h
      · rename_i s1 h1
        cases h
        unfold ganStep at h1
        simp only [] at h1
        split at h1
        · cases h1
        · cases h1; exact ⟨rfl, rfl⟩
    | cons j is ih =>
      intro i s t h
      rw [batches] at h
      split at h
      · cases h
      · exact ih _ _ _ h
  have hep : ∀ (e : Nat) (s t : GanState θg θd γg γd σg σd ρn ρt R E), ganEpoch G n b data e s = .ok t → t.trainD = false ∧ t.trainG = true := by
    intro e s t h
    obtain ⟨i, is, hi⟩ := rangeStep_ne_nil data.length b (List.length_pos_iff.2 hd) hb
    unfold ganEpoch at h
    rw [if_neg (by omega), hi] at h
    split at h
    · cases h
    · rename_i t' ht
      cases h
      exact (hb1 e is i s t' ht)
  have hall : ∀ (fuel e : Nat) (s t : GanState θg θd γg γd σg σd ρn ρt R E), (s.trainD = false ∧ s.trainG = true) →
      epochs total (ganEpoch G n b data) fuel e s = .ok t → t.trainD = false ∧ t.trainG = true := by
    intro fuel
    induction fuel with
    | zero => intro e s t hs h; cases h; exact hs
    | succ fuel ih =>
      intro e s t hs h
      simp only [epochs] at h
      split at h
      · cases h; exact hs
      · split at h
        · cases h
        · rename_i s1 h1
          exact ih _ _ _ (hep _ _ _ h1) h
  obtain ⟨c, rfl⟩ : ∃ c, checkpoint = c + 1 := ⟨checkpoint - 1, by omega⟩
  have he0 : (initOptimizers G { s with trainD := true, trainG := true }).epoch = s.epoch := (initOptimizers_some G _).2.2
  unfold ganTrain at h
  simp only [epochs] at h
  rw [if_neg (by rw [he0]; omega)] at h
  split at h
  · cases h
  · rename_i s1 h1
    exact hall _ _ _ _ (hep _ _ _ h1) h

/-! ## C227, C228: the triplet loss -/

open Loss (norm2 unitNorm)

theorem sqrt_minkowski (a b c u v : ℝ) (ha : 0 ≤ a) (hb : 0 ≤ b) (hc : 0 ≤ c) (h : Real.sqrt a ≤ Real.sqrt b + Real.sqrt c) :
    Real.sqrt ((u + v) ^ 2 + a) ≤ Real.sqrt (u ^ 2 + b) + Real.sqrt (v ^ 2 + c) := by
  apply Real.sqrt_le_iff.2
  refine ⟨by positivity, ?_⟩
  have h1 := Real.sq_sqrt (show 0 ≤ u ^ 2 + b by positivity)
  have h2 := Real.sq_sqrt (show 0 ≤ v ^ 2 + c by positivity)
  have hA := Real.sq_sqrt ha
  have hB := Real.sq_sqrt hb
  have hC := Real.sq_sqrt hc
  have n1 := Real.sqrt_nonneg (u ^ 2 + b)
  have n2 := Real.sqrt_nonneg (v ^ 2 + c)
  have m0 := Real.sqrt_nonneg a
  have m1 := Real.sqrt_nonneg b
  have m2 := Real.sqrt_nonneg c
  have hcs : u * v + Real.sqrt b * Real.sqrt c ≤ Real.sqrt (u ^ 2 + b) * Real.sqrt (v ^ 2 + c) := by
    apply le_of_sq_le_sq _ (by positivity)
    rw [mul_pow, h1, h2]
    have e1 : (Real.sqrt b * Real.sqrt c) ^ 2 = b * c := by rw [mul_pow, hB, hC]
    nlinarith [sq_nonneg (u * Real.sqrt c - v * Real.sqrt b)]
  have ha2 : a ≤ (Real.sqrt b + Real.sqrt c) ^ 2 := by
    rw [← hA]
    exact pow_le_pow_left₀ m0 h 2
  nlinarith

theorem sum_sq_nonneg {α : Type} (f : α → ℝ) (l : List α) : 0 ≤ (l.map fun x => (f x) ^ 2).sum := by
  apply List.sum_nonneg
  intro a ha
  obtain ⟨x, -, rfl⟩ := List.mem_map.1 ha
  positivity


theorem pairDistance_le_shift (eps : ℝ) : ∀ x y : List ℝ, pairDistance eps x y ≤ norm2 x + Real.sqrt ((y.map fun b => (eps - b) ^ 2).sum) := by
  intro x
  induction x with
  | nil => intro y; simpa [pairDistance] using add_nonneg (Loss.norm2_nonneg []) (Real.sqrt_nonneg ((y.map fun b => (eps - b) ^ 2).sum))
  | cons a x ih =>
    intro y
    cases y with
    | nil => simpa [pairDistance] using Loss.norm2_nonneg (a :: x)
    | cons b y =>
      have h := sqrt_minkowski _ _ _ a (eps - b) (by
        apply List.sum_nonneg
        intro c hc
        obtain ⟨i, hi, rfl⟩ := List.getElem_of_mem hc
        rw [List.getElem_zipWith]
        positivity) (sum_sq_nonneg (fun b => b) x) (sum_sq_nonneg (fun b => eps - b) y) (ih y)
      simp only [pairDistance, norm2, List.zipWith_cons_cons, List.map_cons, List.sum_cons]
      rw [show a - b + eps = a + (eps - b) by ring]
      exact h

theorem shift_le (eps : ℝ) (he : 0 ≤ eps) : ∀ y : List ℝ, Real.sqrt ((y.map fun b => (eps - b) ^ 2).sum) ≤ norm2 y + eps * Real.sqrt y.length := by
  have key : ∀ y : List ℝ, Real.sqrt ((y.map fun b => (eps - b) ^ 2).sum) ≤ norm2 y + Real.sqrt (y.length * eps ^ 2) := by
    intro y
    induction y with
    | nil => simp [norm2]
    | cons b y ih =>
      have h := sqrt_minkowski _ _ _ (-b) eps (sum_sq_nonneg (fun b => eps - b) y) (sum_sq_nonneg (fun b => b) y) (by positivity) ih
      simp only [norm2, List.map_cons, List.sum_cons, List.length_cons]
      rw [show eps - b = -b + eps by ring, show ((y.length + 1 : ℕ) : ℝ) * eps ^ 2 = eps ^ 2 + y.length * eps ^ 2 by push_cast; ring, show b ^ 2 = (-b) ^ 2 by ring]
      exact h
  intro y
  have := key y
  rwa [Real.sqrt_mul (by positivity), Real.sqrt_sq he, mul_comm] at this

theorem pairDistance_self (eps : ℝ) (he : 0 ≤ eps) (x : List ℝ) : pairDistance eps x x = eps * Real.sqrt x.length := by
  have : (List.zipWith (fun a b => (a - b + eps) ^ 2) x x).sum = x.length * eps ^ 2 := by
    induction x with
    | nil => simp
    | cons a x ih => simp only [List.zipWith_cons_cons, List.sum_cons, ih, List.length_cons]; push_cast; ring
  unfold pairDistance
  rw [this, Real.sqrt_mul (by positivity), Real.sqrt_sq he, mul_comm]

theorem mean_le (l : List ℝ) (c : ℝ) (hne : l ≠ []) (h : ∀ a ∈ l, a ≤ c) : l.sum / l.length ≤ c := by
  have hp : 0 < (l.length : ℝ) := by exact_mod_cast List.length_pos_iff.2 hne
  rw [div_le_iff₀ hp]
  have := List.sum_le_card_nsmul l c h
  simpa [nsmul_eq_mul, mul_comm] using this

theorem le_mean (l : List ℝ) (c : ℝ) (hne : l ≠ []) (h : ∀ a ∈ l, c ≤ a) : c ≤ l.sum / l.length := by
  have hp : 0 < (l.length : ℝ) := by exact_mod_cast List.length_pos_iff.2 hne
  rw [le_div_iff₀ hp]
  have := List.card_nsmul_le_sum l c h
  simpa [nsmul_eq_mul, mul_comm] using this

/-- Anchor, positive and negative embedding after normalization. -/
noncomputable def normalized (unitEps : ℝ) (t : List ℝ × List ℝ × List ℝ) : List ℝ × List ℝ × List ℝ := (unitNorm unitEps t.1, unitNorm unitEps t.2.1, unitNorm unitEps t.2.2)

theorem tripletRow_nonneg (eps margin : ℝ) (t : List ℝ × List ℝ × List ℝ) : 0 ≤ tripletRow eps margin t := le_max_right _ _

/-- **C227**: the loss the embedding is trained with is never negative, it is bounded whatever the network computes, it is zero exactly when every negative is farther from its anchor than the
positive by the margin, and a network that maps everything to one point has exactly the margin as its loss. -/
theorem C227_loss (unitEps eps margin : ℝ) (hu : 0 < unitEps) (he : 0 ≤ eps) (hm : 0 ≤ margin) (dim : Nat) (ts : List (List ℝ × List ℝ × List ℝ)) (hne : ts ≠ [])
    (hdim : ∀ t ∈ ts, t.1.length = dim ∧ t.2.1.length = dim ∧ t.2.2.length = dim) :
    0 ≤ tripletLoss unitEps eps margin ts ∧
    tripletLoss unitEps eps margin ts ≤ 2 + eps * Real.sqrt dim + margin ∧
    (tripletLoss unitEps eps margin ts = 0 ↔
      ∀ t ∈ ts, pairDistance eps (normalized unitEps t).1 (normalized unitEps t).2.1 + margin ≤ pairDistance eps (normalized unitEps t).1 (normalized unitEps t).2.2) ∧
    ((∀ t ∈ ts, t.2.1 = t.1 ∧ t.2.2 = t.1) → tripletLoss unitEps eps margin ts = margin) := by
  have hlen : (ts.map fun t => tripletRow eps margin (normalized unitEps t)).length = ts.length := by simp
  have hform : tripletLoss unitEps eps margin ts = (ts.map fun t => tripletRow eps margin (normalized unitEps t)).sum / (ts.map fun t => tripletRow eps margin (normalized unitEps t)).length := by
    rw [hlen]; rfl
  have hne' : (ts.map fun t => tripletRow eps margin (normalized unitEps t)) ≠ [] := by simpa using hne
  have hnn : ∀ a ∈ (ts.map fun t => tripletRow eps margin (normalized unitEps t)), 0 ≤ a := by
    intro a ha
    obtain ⟨t, -, rfl⟩ := List.mem_map.1 ha
    exact tripletRow_nonneg _ _ _
  rw [hform]
  refine ⟨le_mean _ _ hne' hnn, mean_le _ _ hne' ?_, ?_, ?_⟩
  · intro a ha
    obtain ⟨t, ht, rfl⟩ := List.mem_map.1 ha
    have hl : (unitNorm unitEps t.2.1).length = dim := by simp [unitNorm, (hdim t ht).2.1]
    have h1 := pairDistance_le_shift eps (unitNorm unitEps t.1) (unitNorm unitEps t.2.1)
    have h2 := shift_le eps he (unitNorm unitEps t.2.1)
    rw [hl] at h2
    have h3 := (Loss.C145_unit_norm unitEps hu t.1).2.2
    have h4 := (Loss.C145_unit_norm unitEps hu t.2.1).2.2
    have h5 : 0 ≤ pairDistance eps (unitNorm unitEps t.1) (unitNorm unitEps t.2.2) := Real.sqrt_nonneg _
    have h6 := mul_nonneg he (Real.sqrt_nonneg (dim : ℝ))
    apply max_le
    · show pairDistance eps (unitNorm unitEps t.1) (unitNorm unitEps t.2.1) - pairDistance eps (unitNorm unitEps t.1) (unitNorm unitEps t.2.2) + margin ≤ _
      linarith
    · linarith
  · have hp : ((ts.map fun t => tripletRow eps margin (normalized unitEps t)).length : ℝ) ≠ 0 := by
      rw [hlen]; exact_mod_cast (List.length_pos_iff.2 hne).ne'
    rw [div_eq_zero_iff, or_iff_left hp]
    constructor
    · intro h t ht
      have h0 : tripletRow eps margin (normalized unitEps t) = 0 := by
        have hle := List.single_le_sum hnn _ (List.mem_map_of_mem ht)
        exact le_antisymm (by rw [h] at hle; exact hle) (tripletRow_nonneg _ _ _)
      unfold tripletRow at h0
      have := max_eq_right_iff.1 h0
      linarith
    · intro h
      apply List.sum_eq_zero
      intro a ha
      obtain ⟨t, ht, rfl⟩ := List.mem_map.1 ha
      unfold tripletRow
      apply max_eq_right
      linarith [h t ht]
  · intro h
    have hrow : ∀ a ∈ (ts.map fun t => tripletRow eps margin (normalized unitEps t)), a = margin := by
      intro a ha
      obtain ⟨t, ht, rfl⟩ := List.mem_map.1 ha
      obtain ⟨h1, h2⟩ := h t ht
      unfold tripletRow normalized
      simp only []
      rw [h1, h2, sub_self, zero_add, max_eq_left hm]
    exact le_antisymm (mean_le _ _ hne' fun a ha => (hrow a ha).le) (le_mean _ _ hne' fun a ha => (hrow a ha).ge)

example := C227_loss (1 / 10) 0 1 (by norm_num) (by norm_num) (by norm_num) 2 [([1, 0], [0, 1], [1, 1])] (by simp) (by simp)

/-- **C228, refuted**: negatives may be the anchors themselves; the loss of such triplets stays near the margin or above whatever the network has learned. -/
theorem C228_negative_refuted (unitEps eps margin : ℝ) (he : 0 ≤ eps) (dim : Nat) (ts : List (List ℝ × List ℝ × List ℝ)) (hne : ts ≠ [])
    (hdim : ∀ t ∈ ts, t.1.length = dim) (hsame : ∀ t ∈ ts, t.2.2 = t.1) : margin - eps * Real.sqrt dim ≤ tripletLoss unitEps eps margin ts := by
  have hlen : (ts.map fun t => tripletRow eps margin (normalized unitEps t)).length = ts.length := by simp
  have hform : tripletLoss unitEps eps margin ts = (ts.map fun t => tripletRow eps margin (normalized unitEps t)).sum / (ts.map fun t => tripletRow eps margin (normalized unitEps t)).length := by
    rw [hlen]; rfl
  rw [hform]
  apply le_mean _ _ (by simpa using hne)
  intro a ha
  obtain ⟨t, ht, rfl⟩ := List.mem_map.1 ha
  have hl : (unitNorm unitEps t.1).length = dim := by simp [unitNorm, hdim t ht]
  apply le_trans _ (le_max_left _ _)
  have h1 : 0 ≤ pairDistance eps (unitNorm unitEps t.1) (unitNorm unitEps t.2.1) := Real.sqrt_nonneg _
  unfold normalized
  simp only []
  rw [hsame t ht, pairDistance_self eps he, hl]
  linarith

/-- **C228, one example**: with a single training example the negatives always are the anchors. -/
theorem C228_single_refuted (P : Tri θ γ σ ρ R S E) (hdraw : ∀ r n k, 0 < n → (P.draw r n k).1.length = k ∧ ∀ i ∈ (P.draw r n k).1, i < n) (b : Nat) (x : R) (r r' : ρ) :
    (selectBatch P b [x] r).2.1 = (selectBatch P b [x] r').2.1 ∧ (selectBatch P b [x] r).2.1 = List.replicate b (P.anchor x) := by
  have key : ∀ r, (selectBatch P b [x] r).2.1 = List.replicate b (P.anchor x) := by
    intro r
    obtain ⟨h1, h2⟩ := hdraw r 1 b (by decide)
    have hz : (P.draw r 1 b).1 = List.replicate b 0 := by
      rw [List.eq_replicate_iff]
      exact ⟨h1, fun i hi => by have := h2 i hi; omega⟩
    show ((P.draw r 1 b).1.filterMap fun (j : Nat) => ([x] : List R)[j]?.map P.anchor) = _
    rw [hz]
    clear h1 h2 hz
    induction b with
    | zero => rfl
    | succ b ih => simp [List.replicate_succ]
  exact ⟨by rw [key r, key r'], key r⟩

/-- **C229, refuted**: without deformations (the default) the first round is a TypeError. -/
theorem C229_default_refuted (P : Tri θ γ σ ρ R S E) (hdef : P.deformations = none) (total b checkpoint : Nat) (hb : 0 < b) (data : List R) (hd : b ≤ data.length) (hc : 0 < checkpoint)
    (s : TriState θ γ ρ E) (he : s.epoch ≤ total) : triTrain P total b checkpoint data s = .error .typeError := by
  obtain ⟨c, rfl⟩ : ∃ c, checkpoint = c + 1 := ⟨checkpoint - 1, by omega⟩
  have hk : 0 < data.length / b := Nat.div_pos hd hb
  obtain ⟨k, hk'⟩ : ∃ k, data.length / b = k + 1 := ⟨data.length / b - 1, by omega⟩
  have hstep : ∀ so i, triStep P b data s.epoch so i = .error .typeError := by
    intro so i
    unfold triStep
    simp only [choose, hdef]
  unfold triTrain
  rw [if_neg (by omega)]
  simp only [epochs]
  rw [if_neg (by omega)]
  unfold triEpoch
  rw [hk', List.range_succ_eq_map]
  simp only [batches, hstep]

/-! ## Concrete cases -/

/-- Two epochs over two rows with one row held out: the weight after four steps, one per minibatch and epoch. -/
example : ∃ s', supTrain tally 2 1 2 0 [1, 2] [3, 4] ⟨0, 0, 0, (), (), none, 0, []⟩ = .ok s' ∧ s'.epoch = 2 ∧ s'.log.length = 4 := by
  have hk : ((0 : Rat) * ((2 : Nat) : Rat)).floor.toNat = 0 := by
    rw [zero_mul]; rfl
  unfold supTrain
  simp only [List.length_cons, List.length_nil, Nat.zero_add, Nat.reduceAdd]
  rw [hk]
  exact ⟨_, rfl, rfl, rfl⟩

/-- `C218_supervised` applies to a network without statistics. -/
example : ∃ s', supTrain { tally with forward := fun w u x => (x.map (w * ·), u) } 2 1 2 (1 / 3) [7, 1, 2] [9, 3, 4] ⟨0, 0, 5, (), (), none, 0, []⟩ = .ok s' ∧ s'.epoch = 2 := by
  obtain ⟨s', h1, -, h3, -⟩ := C218_supervised { tally with forward := fun w u x => (x.map (w * ·), u) } (by intro g; exact Int.zero_add g) (by intros; rfl) (by intros; rfl)
    2 1 2 (by decide) (1 / 3) [7, 1, 2] [9, 3, 4] ⟨0, 0, 5, (), (), none, 0, []⟩
  exact ⟨s', h1, h3⟩

/-- A generator and a critic with one integer parameter each. -/
def toyGan : Gan Int Int Int Int Unit Unit Unit Nat Nat Int Int Int Int where
  gen := fun _ g z => [g + z]
  dGrad := fun _ d real fake a => d + real.sum - fake.sum + a
  dLoss := fun _ d real fake _ => d * (fake.sum - real.sum)
  realMean := fun _ d real => d * real.sum
  gGrad := fun _ _ g d z => d * (g + z)
  gLoss := fun _ d fake => -(d * fake.sum)
  leak := fun _ _ fake => fake.sum
  zeroG := 0
  addG := (· + ·)
  zeroD := 0
  addD := (· + ·)
  optG := fun g x _ => (g - x, ())
  optD := fun d x _ => (d - x, ())
  newOptG := fun _ => ()
  newOptD := fun _ => ()
  prep := fun _ x => x
  args := fun _ => ()
  draw := fun r n k => (List.replicate k (r % n), r + 1)
  normal := fun r => (r, r + 1)
  alpha := fun r => (r, r + 1)

example : ∃ s', ganTrain toyGan 5 2 2 1 [4, 5, 6] ⟨1, 2, 7, 8, none, none, false, false, 0, 0, none, 3, []⟩ = .ok s' ∧ s'.epoch = 4 ∧ s'.trainD = false ∧ s'.log.length = 2 := by
  refine ⟨_, rfl, rfl, rfl, rfl⟩

example : ∃ s', ganTrain toyGan 5 2 2 1 [4, 5, 6] ⟨1, 2, 7, 8, none, none, false, false, 0, 0, none, 3, []⟩ = .ok s' ∧
    ganView toyGan s' = ganBatch toyGan 2 2 [4, 5, 6] (ganBatch toyGan 2 2 [4, 5, 6] ((1, ()), (2, ()), 0, 0) 3) 3 := by
  obtain ⟨s', h1, -, h3⟩ := C224_gan toyGan (fun g => Int.zero_add g) (fun g => Int.zero_add g) 5 2 2 1 (by decide) (by decide) [4, 5, 6]
    ⟨1, 2, 7, 8, none, none, false, false, 0, 0, none, 3, []⟩ rfl
  exact ⟨s', h1, h3⟩

/-- C223, C225, C229: such trainers exist. -/
example : supTrain { tally with raises := fun _ _ _ _ => some .runtimeError } 1 1 1 0 [1] [1] ⟨0, 0, 0, (), (), none, 0, []⟩ = .error .attributeError :=
  C223_message_refuted _ 1 1 1 (by decide) 0 [1] [1] _ (by decide) (by decide) (by rw [zero_mul]; decide) (by intros; rfl)

example : triTrain { counting with deformations := none } 1 1 1 [()] ⟨0, (), (), 0, []⟩ = .error .typeError :=
  C229_default_refuted _ rfl 1 1 1 (by decide) [()] (by decide) (by decide) _ (by decide)

example := C218_holdout { tally with forward := fun w u x => (x.map (w * ·), u) } (fun g => Int.zero_add g) (by intros; rfl) (by intros; rfl)
  2 1 2 (by decide) (1 / 2) [7, 1] [8, 1] [9, 3] [10, 3] rfl (by
    have : ((1 / 2 : ℚ) * (([7, 1] : List Int).length : Nat)).floor.toNat = 1 := by norm_num; rfl
    rw [this]; rfl) (by
    have : ((1 / 2 : ℚ) * (([7, 1] : List Int).length : Nat)).floor.toNat = 1 := by norm_num; rfl
    rw [this]; rfl) ⟨0, 0, 5, (), (), none, 0, []⟩
example : ∃ s', triTrain counting 4 1 2 [()] ⟨0, (), (), 1, []⟩ = .ok s' ∧ s'.epoch = 3 := by
  obtain ⟨s', h⟩ : ∃ s', triTrain counting 4 1 2 [()] ⟨0, (), (), 1, []⟩ = .ok s' := ⟨_, rfl⟩
  exact ⟨s', h, (C221_epochs counting 4 1 2 [()] _ s' h).1⟩
example : ∃ s' r, ganStep toyGan 2 2 [4, 5, 6] 0 ⟨1, 2, 7, 8, none, none, false, false, 0, 0, none, 3, []⟩ 0 = .ok s' ∧
    s'.samples = some (toyGan.prep 0 (toyGan.gen (toyGan.args 0) 1 (toyGan.normal r).1)) := by
  obtain ⟨s', h⟩ : ∃ s', ganStep toyGan 2 2 [4, 5, 6] 0 ⟨1, 2, 7, 8, none, none, false, false, 0, 0, none, 3, []⟩ 0 = .ok s' := ⟨_, rfl⟩
  obtain ⟨r, h1, -⟩ := C224_samples toyGan 2 2 [4, 5, 6] 0 0 _ s' h
  exact ⟨s', r, h, h1⟩

end Zounds.Training
