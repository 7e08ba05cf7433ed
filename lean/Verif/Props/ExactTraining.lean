import Verif.Props.Training

/-!
# What held out rows, checkpoints and negative examples do to training, in every case (C219, C221, C228)
-/

namespace Zounds.Training
open Zounds.Learn (rangeStep Report supervisedReport)
open Zounds.Loss (unitNorm)

variable {θ β γ σ ρ R T L E S : Type}

/-- Parameters, optimizer, running statistics and random source. -/
abbrev NetView (θ β σ ρ : Type) := θ × σ × β × ρ

/-- One round of training as a user may picture it: an optimizer step with the gradient of the minibatch `m`, the minibatch enters the running statistics, and then, if `k` rows are held out,
`b` of them drawn at random enter the running statistics as well. -/
def statStep (P : Sup θ β γ σ ρ R T L E) (b : Nat) (testD : List R) (k : Nat) (v : NetView θ β σ ρ) (m : List R × List L) : NetView θ β σ ρ :=
  let new := P.opt v.1 (P.gradient v.1 v.2.2.1 (P.dataPre m.1) (P.labelPre m.2)) v.2.1
  let u := (P.forward v.1 v.2.2.1 (P.dataPre m.1)).2
  if k = 0 then (new.1, new.2, u, v.2.2.2)
  else
    let r := P.draw v.2.2.2 k b
    (new.1, new.2, (P.forward new.1 u (P.dataPre (r.1.filterMap fun (i : Nat) => testD[i]?))).2, r.2)

theorem supStep_stat (P : Sup θ β γ σ ρ R T L E) (hadd : ∀ g, P.add P.zero g = g) (hok : ∀ t u x y, P.raises t u x y = none)
    (b : Nat) (testD : List R) (testL : List L) (k : Nat) (d : List R) (l : List L) (epoch : Nat) (s : SupState θ β γ σ ρ R T E) (i : Nat) :
    ∃ s', supStep P b testD testL k d l epoch s i = .ok s' ∧ s'.epoch = s.epoch ∧
      (s'.net, s'.optim, s'.buf, s'.rng) = statStep P b testD k (s.net, s.optim, s.buf, s.rng) ((d.drop i).take b, (l.drop i).take b) := by
  unfold supStep
  rw [runBatch_ok P hok]
  simp only [testBatch, statStep]
  by_cases hk : k = 0
  · rw [if_pos hk, if_pos hk]
    exact ⟨_, rfl, rfl, by simp [hadd]⟩
  · rw [if_neg hk, if_neg hk]
    rw [runBatch_ok P hok]
    exact ⟨_, rfl, rfl, by simp [hadd]⟩

/-- **C219**, what training does to a network with running statistics: every minibatch of the training rows, in order and once an epoch, makes one optimizer step with its own gradient and enters
the statistics; after each, the held out rows drawn for the test enter the statistics too.  (The network and the loss do not raise.) -/
theorem C219_exact (P : Sup θ β γ σ ρ R T L E) (hadd : ∀ g, P.add P.zero g = g) (hok : ∀ t u x y, P.raises t u x y = none)
    (total b checkpoint : Nat) (hb : 0 < b) (holdout : Rat) (data : List R) (labels : List L) (s : SupState θ β γ σ ρ R T E) :
    ∃ s', supTrain P total b checkpoint holdout data labels s = .ok s' ∧ s'.epoch = s.epoch + min checkpoint (total - s.epoch) ∧
      (s'.net, s'.optim, s'.buf, s'.rng) =
        (List.replicate (min checkpoint (total - s.epoch)) (miniBatches b (data.drop (holdout * data.length).floor.toNat) (labels.drop (holdout * data.length).floor.toNat))).flatten.foldl
          (statStep P b (data.take (holdout * data.length).floor.toNat) (holdout * data.length).floor.toNat) (s.net, s.optim, s.buf, s.rng) := by
  unfold supTrain
  simp only []
  set k := (holdout * data.length).floor.toNat
  set d := data.drop k
  set l := labels.drop k
  set f := statStep P b (data.take k) k
  obtain ⟨s', h1, -, h3⟩ := epochs_view total (supEpoch P b (data.take k) (labels.take k) k d l) (fun _ => True)
    (fun t => ((t.net, t.optim, t.buf, t.rng), t.epoch)) (fun v _ => ((miniBatches b d l).foldl f v.1, v.2 + 1)) (by
      intro e t ht
      obtain ⟨t', h1, h2, h3⟩ := batches_view (supStep P b (data.take k) (labels.take k) k d l e) (fun _ => True) (fun t => ((t.net, t.optim, t.buf, t.rng), t.epoch))
        (fun v i => (f v.1 ((d.drop i).take b, (l.drop i).take b), v.2)) (by
          intro t i ht
          obtain ⟨t', g1, g3, g4⟩ := supStep_stat P hadd hok b (data.take k) (labels.take k) k d l e t i
          exact ⟨t', g1, trivial, by simp only []; rw [g3, g4]⟩) (rangeStep d.length b) t ht
      refine ⟨{ t' with epoch := t'.epoch + 1 }, ?_, h2, ?_⟩
      · unfold supEpoch
        rw [if_neg (by omega), h1]
      · have hfold : ∀ (is : List Nat) (v : NetView θ β σ ρ × Nat),
            is.foldl (fun v i => (f v.1 ((d.drop i).take b, (l.drop i).take b), v.2)) v =
              ((is.map fun i => ((d.drop i).take b, (l.drop i).take b)).foldl f v.1, v.2) := by
          intro is
          induction is with
          | nil => intro v; rfl
          | cons i is ih => intro v; simp only [List.foldl_cons, List.map_cons]; rw [ih]
        rw [hfold] at h3
        have e1 : (t'.net, t'.optim, t'.buf, t'.rng) = _ := congrArg Prod.fst h3
        have e2 : t'.epoch = _ := congrArg Prod.snd h3
        simp only []
        rw [e1, e2]
        rfl) checkpoint s.epoch s trivial
  have hfold : ∀ (es : List Nat) (v : NetView θ β σ ρ × Nat),
      es.foldl (fun v _ => ((miniBatches b d l).foldl f v.1, v.2 + 1)) v =
        ((List.replicate es.length (miniBatches b d l)).flatten.foldl f v.1, v.2 + es.length) := by
    intro es
    induction es with
    | nil => intro v; rfl
    | cons i is ih =>
      intro v
      simp only [List.foldl_cons, List.length_cons, List.replicate_succ, List.flatten_cons, List.foldl_append]
      rw [ih]
      simp only [Prod.mk.injEq, true_and]
      omega
  rw [hfold] at h3
  refine ⟨s', h1, ?_, ?_⟩
  · have := congrArg Prod.snd h3
    simpa using this
  · have := congrArg Prod.fst h3
    simpa using this

/-- **C219**, one minibatch: with the same training rows and other held out rows the parameters and the optimizer are the same, and the statistics are the same exactly if the network, as it
is after the training step, takes the two draws of held out rows into its statistics with the same result. -/
theorem C219_one (P : Sup θ β γ σ ρ R T L E) (hadd : ∀ g, P.add P.zero g = g) (hok : ∀ t u x y, P.raises t u x y = none)
    (total b : Nat) (hb : 0 < b) (holdout : Rat) (data data' : List R) (labels labels' : List L) (s : SupState θ β γ σ ρ R T E) (hs : s.epoch < total)
    (hlen : data'.length = data.length) (k : Nat) (hk : k = (holdout * data.length).floor.toNat) (hk0 : k ≠ 0)
    (hd : data'.drop k = data.drop k) (hl : labels'.drop k = labels.drop k) (hone : data.drop k ≠ [] ∧ (data.drop k).length ≤ b) :
    ∃ s₁ s₂, supTrain P total b 1 holdout data labels s = .ok s₁ ∧ supTrain P total b 1 holdout data' labels' s = .ok s₂ ∧ s₁.net = s₂.net ∧ s₁.optim = s₂.optim ∧
      (s₁.buf = s₂.buf ↔
        (P.forward s₁.net (P.forward s.net s.buf (P.dataPre (data.drop k))).2 (P.dataPre ((P.draw s.rng k b).1.filterMap fun (i : Nat) => (data.take k)[i]?))).2 =
        (P.forward s₁.net (P.forward s.net s.buf (P.dataPre (data.drop k))).2 (P.dataPre ((P.draw s.rng k b).1.filterMap fun (i : Nat) => (data'.take k)[i]?))).2) := by
  obtain ⟨s₁, h1, -, h3⟩ := C219_exact P hadd hok total b 1 hb holdout data labels s
  obtain ⟨s₂, g1, -, g3⟩ := C219_exact P hadd hok total b 1 hb holdout data' labels' s
  rw [hlen] at g3
  rw [← hk] at h3 g3
  rw [hd, hl] at g3
  have hm : min 1 (total - s.epoch) = 1 := by omega
  have hrange : rangeStep (data.drop k).length b = [0] := by
    have hp : 0 < (data.drop k).length := List.length_pos_iff.2 hone.1
    have : ((data.drop k).length + b - 1) / b = 1 := by
      have h2 := hone.2
      exact Nat.div_eq_of_lt_le (by omega) (by omega)
    unfold rangeStep
    rw [this]
    simp
  have hbatch : miniBatches b (data.drop k) (labels.drop k) = [((data.drop k).take b, (labels.drop k).take b)] := by
    unfold miniBatches
    rw [hrange]
    simp
  have htake : (data.drop k).take b = data.drop k := List.take_of_length_le hone.2
  rw [hm, hbatch, htake] at h3 g3
  simp only [List.replicate_one, List.flatten_cons, List.flatten_nil, List.append_nil, List.foldl_cons, List.foldl_nil, statStep, if_neg hk0, Prod.mk.injEq] at h3 g3
  refine ⟨s₁, s₂, h1, g1, h3.1.trans g3.1.symm, h3.2.1.trans g3.2.1.symm, ?_⟩
  rw [h3.2.2.1, g3.2.2.1, h3.1]

/-! ## C221 -/

/-- A call of the triplet trainer that goes on with the state `o` of an optimizer instead of a new one. -/
def triResume (P : Tri θ γ σ ρ R S E) (total b checkpoint : Nat) (data : List R) (so : TriState θ γ ρ E × σ) : Except PyErr (TriState θ γ ρ E × σ) :=
  epochs (total + 1) (triEpoch P b data) checkpoint so.1.epoch so

/-- **C221**, checkpoints: one call for `i + j` epochs is a call for `i` that is resumed for `j` with the optimizer as it is then; a second call instead goes on with a new optimizer. -/
theorem C221_exact (P : Tri θ γ σ ρ R S E) (total b i j : Nat) (hb : b ≠ 0) (data : List R) (s : TriState θ γ ρ E) :
    triTrain P total b (i + j) data s = ((triResume P total b i data (s, P.newOpt s.net)).bind fun so => triResume P total b j data so).map Prod.fst ∧
    (triTrain P total b i data s).bind (triTrain P total b j data) =
      ((triResume P total b i data (s, P.newOpt s.net)).bind fun so => triResume P total b j data (so.1, P.newOpt so.1.net)).map Prod.fst := by
  have hepoch : ∀ e (so so' : TriState θ γ ρ E × σ), triEpoch P b data e so = .ok so' → so'.1.epoch = so.1.epoch + 1 := by
    have hb1 : ∀ (e : Nat) (is : List Nat) (so so' : TriState θ γ ρ E × σ), batches (triStep P b data e) so is = .ok so' → so'.1.epoch = so.1.epoch := by
      intro e is
      induction is with
      | nil => intro so so' h; simp only [batches, Except.ok.injEq] at h; subst h; rfl
      | cons i is ih =>
        intro so so' h
        simp only [batches] at h
        cases h1 : triStep P b data e so i with
        | error x => rw [h1] at h; cases h
        | ok t =>
          rw [h1] at h
          rw [ih t so' h]
          unfold triStep at h1
          simp only [] at h1
          split at h1
          · cases h1
          · cases h1; rfl
    intro e so so' h
    unfold triEpoch at h
    cases h2 : batches (triStep P b data e) so (List.range (data.length / b)) with
    | error x => rw [h2] at h; cases h
    | ok u =>
      rw [h2] at h
      cases h
      show u.1.epoch + 1 = _
      rw [hb1 e _ so u h2]
  constructor
  · unfold triTrain
    rw [if_neg hb]
    rw [epochs_add (total + 1) (triEpoch P b data) (fun so : TriState θ γ ρ E × σ => so.1.epoch) hepoch j i (s, P.newOpt s.net)]
    unfold triResume
    simp only []
    cases epochs (total + 1) (triEpoch P b data) i s.epoch (s, P.newOpt s.net) with
    | error e => rfl
    | ok so =>
      simp only [Except.bind]
      cases epochs (total + 1) (triEpoch P b data) j so.1.epoch so <;> rfl
  · unfold triTrain triResume
    simp only [if_neg hb]
    cases epochs (total + 1) (triEpoch P b data) i s.epoch (s, P.newOpt s.net) with
    | error e => rfl
    | ok so =>
      simp only [Except.bind]
      cases epochs (total + 1) (triEpoch P b data) j so.1.epoch (so.1, P.newOpt so.1.net) <;> rfl

/-- What a run from one optimizer state leaves in the trainer, when the optimizer's steps do not depend on its state: the same from any other. -/
theorem epochs_stateless (P : Tri θ γ σ ρ R S E) (hP : ∀ w g o o', (P.opt w g o).1 = (P.opt w g o').1) (total b : Nat) (data : List R) : ∀ (fuel e : Nat) (s : TriState θ γ ρ E) (o o' : σ),
    (epochs total (triEpoch P b data) fuel e (s, o)).map Prod.fst = (epochs total (triEpoch P b data) fuel e (s, o')).map Prod.fst := by
  have hstep : ∀ (e : Nat) (s : TriState θ γ ρ E) (o o' : σ) i, (triStep P b data e (s, o) i).map Prod.fst = (triStep P b data e (s, o') i).map Prod.fst := by
    intro e s o o' i
    unfold triStep
    simp only []
    cases choose P.pick (selectBatch P b data (selectBatch P b data s.rng).2.2).2.2 P.deformations with
    | error x => rfl
    | ok fr =>
      obtain ⟨f, r⟩ := fr
      simp only [Except.map]
      rw [hP _ _ o o']
  have hbatch : ∀ (e : Nat) (is : List Nat) (s : TriState θ γ ρ E) (o o' : σ), (batches (triStep P b data e) (s, o) is).map Prod.fst = (batches (triStep P b data e) (s, o') is).map Prod.fst := by
    intro e is
    induction is with
    | nil => intro s o o'; rfl
    | cons i is ih =>
      intro s o o'
      have := hstep e s o o' i
      simp only [batches]
      cases h1 : triStep P b data e (s, o) i with
      | error x =>
        rw [h1] at this
        cases h2 : triStep P b data e (s, o') i with
        | error y => rw [h2] at this; simpa [Except.map] using this
        | ok y => rw [h2] at this; cases this
      | ok x =>
        rw [h1] at this
        cases h2 : triStep P b data e (s, o') i with
        | error y => rw [h2] at this; cases this
        | ok y =>
          rw [h2] at this
          obtain ⟨x1, x2⟩ := x
          obtain ⟨y1, y2⟩ := y
          replace this : x1 = y1 := by simpa [Except.map] using this
          subst this
          exact ih x1 x2 y2
  have hep : ∀ (e : Nat) (s : TriState θ γ ρ E) (o o' : σ), (triEpoch P b data e (s, o)).map Prod.fst = (triEpoch P b data e (s, o')).map Prod.fst := by
    intro e s o o'
    have := hbatch e (List.range (data.length / b)) s o o'
    unfold triEpoch
    cases h1 : batches (triStep P b data e) (s, o) (List.range (data.length / b)) with
    | error x =>
      rw [h1] at this
      cases h2 : batches (triStep P b data e) (s, o') (List.range (data.length / b)) with
      | error y => rw [h2] at this; simpa [Except.map] using this
      | ok y => rw [h2] at this; cases this
    | ok x =>
      rw [h1] at this
      cases h2 : batches (triStep P b data e) (s, o') (List.range (data.length / b)) with
      | error y => rw [h2] at this; cases this
      | ok y =>
        rw [h2] at this
        replace this : x.1 = y.1 := by simpa [Except.map] using this
        simp only [Except.map]
        rw [this]
  intro fuel
  induction fuel with
  | zero => intro e s o o'; rfl
  | succ fuel ih =>
    intro e s o o'
    simp only [epochs]
    split
    · rfl
    · have := hep e s o o'
      cases h1 : triEpoch P b data e (s, o) with
      | error x =>
        rw [h1] at this
        cases h2 : triEpoch P b data e (s, o') with
        | error y => rw [h2] at this; simpa [Except.map] using this
        | ok y => rw [h2] at this; cases this
      | ok x =>
        rw [h1] at this
        cases h2 : triEpoch P b data e (s, o') with
        | error y => rw [h2] at this; cases this
        | ok y =>
          rw [h2] at this
          obtain ⟨x1, x2⟩ := x
          obtain ⟨y1, y2⟩ := y
          replace this : x1 = y1 := by simpa [Except.map] using this
          subst this
          exact ih (e + 1) x1 x2 y2

/-- **C221**: so with an optimizer whose steps do not depend on what it remembers (plain gradient descent), several calls are one call. -/
theorem C221_stateless (P : Tri θ γ σ ρ R S E) (hP : ∀ w g o o', (P.opt w g o).1 = (P.opt w g o').1) (total b i j : Nat) (hb : b ≠ 0) (data : List R) (s : TriState θ γ ρ E) :
    triTrain P total b (i + j) data s = (triTrain P total b i data s).bind (triTrain P total b j data) := by
  obtain ⟨h1, h2⟩ := C221_exact P total b i j hb data s
  rw [h1, h2]
  cases triResume P total b i data (s, P.newOpt s.net) with
  | error e => rfl
  | ok so =>
    show (triResume P total b j data so).map Prod.fst = (triResume P total b j data (so.1, P.newOpt so.1.net)).map Prod.fst
    exact epochs_stateless P hP (total + 1) b data j so.1.epoch so.1 so.2 (P.newOpt so.1.net)

/-- What a round of triplet training works with: network, optimizer, random source and the errors reported so far. -/
abbrev TriView (θ σ ρ E : Type) := θ × σ × ρ × List E

/-- One round of triplet training as it is meant: `b` anchors drawn from the rows, `b` negatives drawn after them, positives that are the anchors and their rows under a deformation chosen from `ds`, and one
optimizer step with the gradient of the loss of these alone. -/
def triRound (P : Tri θ γ σ ρ R S E) (ds : List (List S → List R → List S)) (b : Nat) (data : List R) (v : TriView θ σ ρ E) : TriView θ σ ρ E :=
  let d1 := P.draw v.2.2.1 data.length b
  let d2 := P.draw d1.2 data.length b
  let choice := P.pick d2.2 ds.length
  let rows := d1.1.filterMap fun (j : Nat) => data[j]?
  let anchors := rows.map P.anchor
  let negatives := (d2.1.filterMap fun (j : Nat) => data[j]?).map P.anchor
  let positives := (ds.getD choice.1 fun a _ => a) anchors rows
  let new := P.opt v.1 (P.gradient v.1 anchors positives negatives) v.2.1
  (new.1, new.2, choice.2, v.2.2.2 ++ [P.loss v.1 anchors positives negatives])

/-- The view of a trainer with an optimizer. -/
def triView (so : TriState θ γ ρ E × σ) : TriView θ σ ρ E := (so.1.net, so.2, so.1.rng, so.1.log.map fun x => x.2.2)

theorem triStep_round (P : Tri θ γ σ ρ R S E) (hadd : ∀ g, P.add P.zero g = g) (ds : List (List S → List R → List S)) (hds : P.deformations = some ds)
    (hpick : ∀ r, (P.pick r ds.length).1 < ds.length) (b : Nat) (data : List R) (epoch : Nat) (so : TriState θ γ ρ E × σ) (i : Nat) :
    ∃ so', triStep P b data epoch so i = .ok so' ∧ so'.1.epoch = so.1.epoch ∧ triView so' = triRound P ds b data (triView so) := by
  have hmap : ∀ l : List Nat, (l.filterMap fun (j : Nat) => data[j]?.map P.anchor) = (l.filterMap fun (j : Nat) => data[j]?).map P.anchor := by
    intro l; rw [List.map_filterMap]
  unfold triStep selectBatch
  simp only [hmap, hds, choose]
  have hp := hpick (P.draw (P.draw so.1.rng data.length b).2 data.length b).2
  rw [List.getElem?_eq_getElem hp]
  refine ⟨_, rfl, rfl, ?_⟩
  simp only [triView, triRound, hadd, List.getD_eq_getElem?_getD, List.getElem?_eq_getElem hp, Option.getD_some, List.map_append, List.map_cons, List.map_nil]

/-- **C221**, what training does: a call of `train` is `len(data) // batch_size` rounds for each of its epochs, each with a gradient of its own triplets only (nothing of an earlier batch, nor what was left in
the network's gradients before the call, enters it), starting with a new optimizer; the reported errors are those of the rounds. -/
theorem C221_rounds (P : Tri θ γ σ ρ R S E) (hadd : ∀ g, P.add P.zero g = g) (ds : List (List S → List R → List S)) (hds : P.deformations = some ds)
    (hpick : ∀ r, (P.pick r ds.length).1 < ds.length) (total b checkpoint : Nat) (hb : b ≠ 0) (data : List R) (s : TriState θ γ ρ E) :
    ∃ s' o, triTrain P total b checkpoint data s = .ok s' ∧
      triView (s', o) = (triRound P ds b data)^[min checkpoint (total + 1 - s.epoch) * (data.length / b)] (triView (s, P.newOpt s.net)) := by
  have hbat : ∀ (e : Nat) (is : List Nat) (so : TriState θ γ ρ E × σ), ∃ so', batches (triStep P b data e) so is = .ok so' ∧
      triView so' = (triRound P ds b data)^[is.length] (triView so) := by
    intro e is
    induction is with
    | nil => intro so; exact ⟨so, rfl, rfl⟩
    | cons i is ih =>
      intro so
      obtain ⟨t, h1, -, h2⟩ := triStep_round P hadd ds hds hpick b data e so i
      obtain ⟨u, h3, h4⟩ := ih t
      refine ⟨u, ?_, ?_⟩
      · simp only [batches, h1]; exact h3
      · rw [h4, h2, List.length_cons, Function.iterate_succ_apply]
  have hep : ∀ (fuel e : Nat) (so : TriState θ γ ρ E × σ), ∃ so', epochs (total + 1) (triEpoch P b data) fuel e so = .ok so' ∧
      triView so' = (triRound P ds b data)^[min fuel (total + 1 - e) * (data.length / b)] (triView so) := by
    intro fuel
    induction fuel with
    | zero => intro e so; exact ⟨so, rfl, by simp⟩
    | succ fuel ih =>
      intro e so
      by_cases he : total + 1 ≤ e
      · refine ⟨so, by simp only [epochs, if_pos he], ?_⟩
        rw [show total + 1 - e = 0 by omega]; simp
      · obtain ⟨t, h1, h2⟩ := hbat e (List.range (data.length / b)) so
        obtain ⟨u, h3, h4⟩ := ih (e + 1) ({ t.1 with epoch := t.1.epoch + 1 }, t.2)
        refine ⟨u, ?_, ?_⟩
        · simp only [epochs, if_neg he, triEpoch, h1]; exact h3
        · rw [h4]
          have : triView (({ t.1 with epoch := t.1.epoch + 1 }, t.2) : TriState θ γ ρ E × σ) = triView t := rfl
          rw [this, h2, ← Function.iterate_add_apply, List.length_range]
          congr 1
          have e1 : min (fuel + 1) (total + 1 - e) = min fuel (total + 1 - (e + 1)) + 1 := by omega
          rw [e1, Nat.add_mul, Nat.one_mul]
  obtain ⟨so, h1, h2⟩ := hep checkpoint s.epoch (s, P.newOpt s.net)
  refine ⟨so.1, so.2, ?_, h2⟩
  unfold triTrain
  rw [if_neg hb, h1]

/-- Plain gradient descent. -/
def plain : Tri Int Int Unit Unit Int Int Int where
  anchor := id
  gradient := fun w a _ n => w + a.sum - n.sum
  loss := fun w _ _ _ => w
  zero := 0
  add := (· + ·)
  opt := fun w g _ => (w - g, ())
  newOpt := fun _ => ()
  deformations := some [fun a _ => a]
  draw := fun _ _ k => (List.replicate k 0, ())
  pick := fun _ _ => (0, ())

example : ∀ w g o o', (plain.opt w g o).1 = (plain.opt w g o').1 := fun _ _ _ _ => rfl

example : (∀ g, plain.add plain.zero g = g) ∧ ∃ ds, plain.deformations = some ds ∧ ∀ r, (plain.pick r ds.length).1 < ds.length :=
  ⟨fun g => Int.zero_add g, _, rfl, fun _ => by simp [plain]⟩

/-! ## C228 -/

/-- **C228**, the share of the loss that cannot be learned: if `m` of the `n` negatives of a batch are their own anchors, the loss is at least `m/n` of the margin (less the constant the
distance adds), whatever the network computes. -/
theorem C228_share (unitEps eps margin : ℝ) (he : 0 ≤ eps) (dim : Nat) (ts : List (List ℝ × List ℝ × List ℝ)) (hne : ts ≠ []) (hdim : ∀ t ∈ ts, t.1.length = dim)
    (m : Nat) (hm : m = (ts.filter fun t => t.2.2 = t.1).length) :
    (m : ℝ) / ts.length * (margin - eps * Real.sqrt dim) ≤ tripletLoss unitEps eps margin ts := by
  have hp : 0 < (ts.length : ℝ) := by exact_mod_cast List.length_pos_iff.2 hne
  unfold tripletLoss
  rw [le_div_iff₀ hp, div_mul_eq_mul_div, div_mul_cancel₀ _ hp.ne', hm]
  clear hm hne hp
  induction ts with
  | nil => simp
  | cons t ts ih =>
    have ih' := ih fun t' h' => hdim t' (List.mem_cons_of_mem _ h')
    rw [List.map_cons, List.sum_cons]
    by_cases h : t.2.2 = t.1
    · rw [List.filter_cons_of_pos (by simpa using h), List.length_cons]
      have hl : (unitNorm unitEps t.1).length = dim := by simp [unitNorm, hdim t List.mem_cons_self]
      have h1 : margin - eps * Real.sqrt dim ≤ tripletRow eps margin (unitNorm unitEps t.1, unitNorm unitEps t.2.1, unitNorm unitEps t.2.2) := by
        apply le_trans _ (le_max_left _ _)
        have h1 : 0 ≤ pairDistance eps (unitNorm unitEps t.1) (unitNorm unitEps t.2.1) := Real.sqrt_nonneg _
        simp only []
        rw [h, pairDistance_self eps he, hl]
        linarith
      push_cast
      linarith
    · rw [List.filter_cons_of_neg (by simpa using h)]
      have := tripletRow_nonneg eps margin (unitNorm unitEps t.1, unitNorm unitEps t.2.1, unitNorm unitEps t.2.2)
      linarith

/-- **C228**: so the loss can reach zero only when no negative is its own anchor (the margin is not negligible). -/
theorem C228_zero (unitEps eps margin : ℝ) (he : 0 ≤ eps) (dim : Nat) (hmargin : eps * Real.sqrt dim < margin) (ts : List (List ℝ × List ℝ × List ℝ)) (hne : ts ≠ [])
    (hdim : ∀ t ∈ ts, t.1.length = dim) (h0 : tripletLoss unitEps eps margin ts = 0) : ∀ t ∈ ts, t.2.2 ≠ t.1 := by
  intro t ht h
  have hs := C228_share unitEps eps margin he dim ts hne hdim _ rfl
  rw [h0] at hs
  have hp : 0 < (ts.length : ℝ) := by exact_mod_cast List.length_pos_iff.2 hne
  have hm : 0 < ((ts.filter fun t => t.2.2 = t.1).length : ℝ) := by
    have : t ∈ ts.filter fun t => t.2.2 = t.1 := List.mem_filter.2 ⟨ht, by simpa using h⟩
    exact_mod_cast List.length_pos_of_mem this
  have : 0 < ((ts.filter fun t => t.2.2 = t.1).length : ℝ) / ts.length * (margin - eps * Real.sqrt dim) := by
    apply mul_pos (div_pos hm hp)
    linarith
  linarith

/-- **C228**, how often: the negatives of a batch are rows drawn from all training rows, the anchors' rows included: every pair of draws the random source can make is a pair of anchors and negatives,
also one in which a row is drawn for both. -/
theorem C228_draws (P : Tri θ γ σ ρ R S E) (b : Nat) (data : List R) (r : ρ) (i : Nat) (x : R) (hx : data[i]? = some x)
    (h1 : i ∈ (P.draw r data.length b).1) (h2 : i ∈ (P.draw (P.draw r data.length b).2 data.length b).1) :
    P.anchor x ∈ (selectBatch P b data r).2.1 ∧ P.anchor x ∈ (selectBatch P b data (selectBatch P b data r).2.2).2.1 := by
  constructor
  · exact List.mem_filterMap.2 ⟨i, h1, by simp [hx]⟩
  · exact List.mem_filterMap.2 ⟨i, h2, by simp [hx]⟩

example (s : SupState Int Int Int Unit Unit Int Int Int) := C219_exact tally (fun g => Int.zero_add g) (by intros; rfl) 2 1 2 (by decide) (1 / 3) [7, 1, 2] [9, 3, 4] s
example := C219_one tally (fun g => Int.zero_add g) (by intros; rfl) 2 1 (by decide) (1 / 2) [7, 1] [8, 1] [9, 3] [10, 3] ⟨0, 0, 5, (), (), none, 0, []⟩ (by decide) rfl 1
  (by norm_num; rfl) (by decide) rfl rfl ⟨by decide, by decide⟩
example (s) := C221_exact counting 4 1 1 2 (by decide) [()] s
example (s) := C221_stateless plain (fun _ _ _ _ => rfl) 4 1 1 2 (by decide) [1, 2] s
example (s) := C221_rounds plain (fun g => Int.zero_add g) _ rfl (fun _ => by simp [plain]) 4 1 2 (by decide) [1, 2] s
example := C228_share (1 / 10) 0 1 le_rfl 2 [([1, 0], [0, 1], [1, 0]), ([1, 0], [0, 1], [1, 1])] (by simp) (by simp) _ rfl

end Zounds.Training
