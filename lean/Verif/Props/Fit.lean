import Verif.Model.Fit
import Verif.Props.Pipeline
import Verif.Props.Arith
import Mathlib.Algebra.BigOperators.Ring.List
/-!
# C257–C262: trained preprocessing steps, streams, units
-/

namespace Zounds.Fit
open Zounds Zounds.Pipeline

/-! ## Every step treats examples one by one -/

/-- Numbers that numpy's `divide(…, where=…)` does not write: nothing of the sort happens in this step. -/
def Clean : Step → Batch → Prop
  | .unitNorm, d => ∀ r ∈ d.rows, ∃ v ∈ r, v ≠ 0
  | .instanceScaling _, d => ∀ r ∈ d.rows, ∃ v ∈ r, v ≠ 0
  | .meanStd _ std, _ => ∀ s ∈ std, s ≠ 0
  | _, _ => True

/-- … nor in any step of the pipeline. -/
def CleanAlong (junk : Nat → Nat → ℝ) : List Step → Batch → Prop
  | [], _ => True
  | s :: ss, d => Clean s d ∧ ∀ out inv, (s.proc junk).step d = .ok (out, inv) → CleanAlong junk ss out

theorem norm_ne {r : List ℝ} (h : ∃ v ∈ r, v ≠ 0) : norm r ≠ 0 := by
  obtain ⟨v, hv, h0⟩ := h
  exact fun hc => h0 (norm_zero r hc v hv)

theorem maxAbs_ne {r : List ℝ} (h : ∃ v ∈ r, v ≠ 0) : maxAbs r ≠ 0 := by
  obtain ⟨v, hv, h0⟩ := h
  exact fun hc => h0 (maxAbs_zero r hc v hv)

theorem meanStdRow_junk (j j' : Nat → ℝ) : ∀ (xs ms ss : List ℝ) (k : Nat), (∀ s ∈ ss, s ≠ 0) → meanStdRow j k xs ms ss = meanStdRow j' k xs ms ss := by
  intro xs
  induction xs with
  | nil => intros; rfl
  | cons x xs ih =>
    intro ms ss k h
    cases ms with
    | nil => rfl
    | cons m ms =>
      cases ss with
      | nil => rfl
      | cons s ss =>
        simp only [meanStdRow]
        rw [if_pos (h s (by simp)), if_pos (h s (by simp)), ih ms ss (k + 1) (fun t ht => h t (by simp [ht]))]

theorem mapIdx_const {α β : Type} (f : α → β) (g : Nat → α → β) (l : List α) (h : ∀ i, ∀ x ∈ l, g i x = f x) : l.mapIdx g = l.map f := by
  apply List.ext_getElem
  · simp
  · intro i h1 h2
    simp only [List.getElem_mapIdx, List.getElem_map]
    exact h i _ (List.getElem_mem _)

/-- A step that does not leave numbers uninitialised is a function of one example, whatever the batch. -/
theorem step_rowwise (junk : Nat → Nat → ℝ) (s : Step) (d out : Batch) (inv : Inv) (hc : Clean s d) (h : (s.proc junk).step d = .ok (out, inv)) :
    ∃ f : List ℝ → List ℝ, out = ⟨out.fshape, d.rows.map f⟩ ∧
      ∀ (junk' : Nat → Nat → ℝ) (rows : List (List ℝ)), (∀ r ∈ rows, r ∈ d.rows) →
        ∃ inv', (s.proc junk').step ⟨d.fshape, rows⟩ = .ok (⟨out.fshape, rows.map f⟩, inv') := by
  cases s with
  | unitNorm =>
    simp only [Proc.step, Step.proc, Except.ok.injEq, Prod.mk.injEq] at h
    refine ⟨fun r => r.map (· / norm r), ?_, ?_⟩
    · rw [← h.1]
      simp only [unitNorm, Batch.mk.injEq, true_and]
      exact mapIdx_const _ _ _ fun i r hr => by simp [divWhere, norm_ne (hc r hr)]
    · intro junk' rows hr
      rw [← h.1]
      refine ⟨.norms (rows.map norm), ?_⟩
      simp only [Proc.step, Step.proc, unitNorm, Except.ok.injEq, Prod.mk.injEq, Batch.mk.injEq, true_and, and_true]
      exact mapIdx_const _ _ _ fun i r h' => by simp [divWhere, norm_ne (hc r (hr r h'))]
  | meanStd mean std =>
    unfold Proc.step Step.proc at h
    by_cases hl : mean.length = size d.fshape ∧ std.length = size d.fshape
    · simp only [hl, and_self, if_true, Except.ok.injEq, Prod.mk.injEq] at h
      refine ⟨fun r => meanStdRow (fun _ => 0) 0 r mean std, ?_, ?_⟩
      · rw [← h.1]
        simp only [Batch.mk.injEq, true_and]
        exact mapIdx_const _ _ _ fun i r _ => meanStdRow_junk _ _ _ _ _ _ hc
      · intro junk' rows hr
        rw [← h.1]
        refine ⟨.meanStd mean std, ?_⟩
        simp only [Proc.step, Step.proc, hl, and_self, if_true, Except.ok.injEq, Prod.mk.injEq, Batch.mk.injEq, true_and, and_true]
        exact mapIdx_const _ _ _ fun i r _ => meanStdRow_junk _ _ _ _ _ _ hc
    · simp [hl] at h
  | instanceScaling mv =>
    unfold Proc.step Step.proc at h
    by_cases hz : d.rows ≠ [] ∧ size d.fshape = 0
    · simp [hz] at h
    · simp only [hz, if_false, Except.ok.injEq, Prod.mk.injEq] at h
      refine ⟨fun r => (r.map (· / maxAbs r)).map (mv * ·), ?_, ?_⟩
      · rw [← h.1]
        simp only [instanceScaling, Batch.mk.injEq, true_and]
        exact mapIdx_const _ _ _ fun i r hr => by simp [divWhere, maxAbs_ne (hc r hr)]
      · intro junk' rows hr
        rw [← h.1]
        refine ⟨.scaling (rows.map maxAbs) mv, ?_⟩
        have hz' : ¬ (rows ≠ [] ∧ size d.fshape = 0) := by
          rintro ⟨h1, h2⟩
          apply hz
          refine ⟨fun he => ?_, h2⟩
          cases rows with
          | nil => exact h1 rfl
          | cons r rs => have := hr r (by simp); rw [he] at this; cases this
        simp only [Proc.step, Step.proc, hz', if_false, instanceScaling, Except.ok.injEq, Prod.mk.injEq, Batch.mk.injEq, true_and, and_true]
        exact mapIdx_const _ _ _ fun i r h' => by simp [divWhere, maxAbs_ne (hc r (hr r h'))]
  | multiply f =>
    simp only [Proc.step, Step.proc, Except.ok.injEq, Prod.mk.injEq] at h
    rw [← h.1]
    exact ⟨List.map (· * f), rfl, fun _ rows _ => ⟨_, rfl⟩⟩
  | weighted w =>
    unfold Proc.step Step.proc at h
    by_cases hl : w.length = size d.fshape
    · simp only [hl, if_true, Except.ok.injEq, Prod.mk.injEq] at h
      rw [← h.1]
      refine ⟨fun r => List.zipWith (· * ·) r w, rfl, fun _ rows _ => ⟨.weights w, ?_⟩⟩
      simp only [Proc.step, Step.proc, hl, if_true]
    · simp [hl] at h
  | muLaw =>
    simp only [Proc.step, Step.proc, Except.ok.injEq, Prod.mk.injEq] at h
    rw [← h.1]
    exact ⟨List.map (Loudness.muLaw mu), rfl, fun _ rows _ => ⟨_, rfl⟩⟩
  | log =>
    simp only [Proc.step, Step.proc, Except.ok.injEq, Prod.mk.injEq] at h
    rw [← h.1]
    exact ⟨List.map Loudness.logModulus, rfl, fun _ rows _ => ⟨_, rfl⟩⟩
  | slicer a b =>
    unfold Proc.step Step.proc at h
    cases hl : d.fshape.getLast? with
    | none => simp [slicer, hl, Except.map] at h
    | some w =>
      simp only [slicer, hl, Except.map, Except.ok.injEq, Prod.mk.injEq] at h
      rw [← h.1]
      refine ⟨fun r => ((linesOf w (size d.fshape.dropLast) r).map (sliceLine a b)).flatten, rfl, fun _ rows _ => ⟨.slice a b d.fshape, ?_⟩⟩
      simp only [Proc.step, Step.proc, slicer, hl, Except.map]
  | reshape sh =>
    unfold Proc.step Step.proc at h
    by_cases hr : d.rows = [] ∨ size sh = size d.fshape
    · simp only [hr, if_true, Except.ok.injEq, Prod.mk.injEq] at h
      rw [← h.1]
      refine ⟨id, by simp, fun _ rows hsub => ⟨.shape rows.length d.fshape, ?_⟩⟩
      have hr' : rows = [] ∨ size sh = size d.fshape := by
        rcases hr with h1 | h1
        · left
          cases rows with
          | nil => rfl
          | cons r rs => have := hsub r (by simp); rw [h1] at this; cases this
        · exact Or.inr h1
      simp only [Proc.step, Step.proc, hr', if_true, List.map_id]
    · simp [hr] at h
  | absoluteValue =>
    simp only [Proc.step, Step.proc, Except.ok.injEq, Prod.mk.injEq] at h
    rw [← h.1]
    exact ⟨List.map (fun v => |v|), rfl, fun _ rows _ => ⟨_, rfl⟩⟩
  | binarize t =>
    simp only [Proc.step, Step.proc, Except.ok.injEq, Prod.mk.injEq] at h
    rw [← h.1]
    exact ⟨List.map (fun v => if v > t then 1 else 0), rfl, fun _ rows _ => ⟨_, rfl⟩⟩
  | sharpen kernel =>
    unfold Proc.step Step.proc at h
    cases kernel with
    | none => simp at h
    | some k =>
      by_cases hl : d.fshape.length = 1
      · simp only [hl, if_true, Except.ok.injEq, Prod.mk.injEq] at h
        rw [← h.1]
        refine ⟨sharpenRow k, rfl, fun _ rows _ => ⟨.none, ?_⟩⟩
        simp only [Proc.step, Step.proc, hl, if_true]
      · simp [hl] at h

/-- Being clean only depends on the examples that are there. -/
theorem Clean.sub {s : Step} {d : Batch} (h : Clean s d) {rows : List (List ℝ)} (hr : ∀ r ∈ rows, r ∈ d.rows) : Clean s ⟨d.fshape, rows⟩ := by
  cases s <;> first | exact trivial | exact fun r h' => h r (hr r h') | exact h

/-- A pipeline without uninitialised numbers is a function of one example. -/
theorem pipeline_rowwise (junk : Nat → Nat → ℝ) (ss : List Step) : ∀ (d out : Batch) (invs : List Inv), CleanAlong junk ss d →
    forwardAll (ss.map (Step.proc junk)) d = .ok (out, invs) →
    ∃ f : List ℝ → List ℝ, out = ⟨out.fshape, d.rows.map f⟩ ∧ ∀ (junk' : Nat → Nat → ℝ) (rows : List (List ℝ)), (∀ r ∈ rows, r ∈ d.rows) →
      ∃ invs', forwardAll (ss.map (Step.proc junk')) ⟨d.fshape, rows⟩ = .ok (⟨out.fshape, rows.map f⟩, invs') := by
  induction ss with
  | nil =>
    intro d out invs _ h
    simp only [List.map_nil, forwardAll, Except.ok.injEq, Prod.mk.injEq] at h
    rw [← h.1]
    exact ⟨id, by simp, fun _ rows _ => ⟨[], by simp [forwardAll]⟩⟩
  | cons s ss ih =>
    intro d out invs hc h
    simp only [List.map_cons, forwardAll] at h
    cases h1 : (s.proc junk).step d with
    | error e => simp [h1] at h
    | ok p =>
      obtain ⟨d1, inv⟩ := p
      simp only [h1] at h
      cases h2 : forwardAll (ss.map (Step.proc junk)) d1 with
      | error e => simp [h2] at h
      | ok q =>
        obtain ⟨o, is⟩ := q
        simp only [h2, Except.ok.injEq, Prod.mk.injEq] at h
        obtain ⟨rfl, -⟩ := h
        obtain ⟨f, e1, e2⟩ := step_rowwise junk s d d1 inv hc.1 h1
        obtain ⟨g, g1, g2⟩ := ih d1 o is (hc.2 d1 inv h1) h2
        have hrows : d1.rows = d.rows.map f := by rw [e1]
        refine ⟨fun r => g (f r), ?_, ?_⟩
        · rw [hrows, List.map_map] at g1
          exact g1
        · intro junk' rows hr
          obtain ⟨inv', s1⟩ := e2 junk' rows hr
          obtain ⟨invs', s2⟩ := g2 junk' (rows.map f) (by
            intro r h'
            obtain ⟨x, hx, rfl⟩ := List.mem_map.1 h'
            rw [hrows]
            exact List.mem_map_of_mem (hr x hx))
          refine ⟨inv' :: invs', ?_⟩
          simp only [List.map_cons, forwardAll, s1, s2, List.map_map]
          rfl

/-! ## C257: what is stored is what was trained -/

theorem fit_some {junk : Nat → Nat → ℝ} {n : Node} {d : Option Batch} {s : Step} {o : Batch} (h : fit junk n d = .ok (s, some o)) :
    ∃ b inv, d = some b ∧ s = n.learn b ∧ (s.proc junk).step b = .ok (o, inv) := by
  cases d with
  | none =>
    simp only [fit] at h
    split at h <;> simp at h
  | some b =>
    simp only [fit] at h
    cases ho : ((n.learn b).proc junk).op b with
    | error e =>
      rw [ho] at h
      simp only [] at h
      split at h <;> simp at h
    | ok x =>
      simp only [ho, Except.ok.injEq, Prod.mk.injEq, Option.some.injEq] at h
      obtain ⟨rfl, rfl⟩ := h
      cases x with
      | forward d' i => exact ⟨b, i, rfl, rfl, by simp [Proc.step, ho, outcomeData]⟩
      | plain d' =>
        obtain ⟨i, hi⟩ : ∃ i, ((n.learn b).proc junk).inversionData b = .ok i := by
          cases n <;> exact ⟨_, rfl⟩
        exact ⟨b, i, rfl, rfl, by simp [Proc.step, ho, hi, outcomeData]⟩

/-- The data that reaches each node while the graph is trained, and that none of it is uninitialised memory: no value of an example that is the same in all of them goes into a
standardisation, no example of zeros into a scaling or a unit norm. -/
def TrainedClean (junk : Nat → Nat → Nat → ℝ) : Nat → List Node → Option Batch → Prop
  | _, [], _ => True
  | k, n :: ns, d => (∀ b, d = some b → Clean (n.learn b) b) ∧ ∀ s o, fit (junk k) n d = .ok (s, o) → TrainedClean junk (k + 1) ns o

/-- **C257**: nodes trained one after the other store a pipeline that transforms the training data into the data the last node handed on. -/
theorem C257_stored (junk : Nat → Nat → Nat → ℝ) (junk' : Nat → Nat → ℝ) (ns : List Node) (d out : Batch) (ss : List Step)
    (h : fitAll junk 0 ns (some d) = .ok (ss, some out)) (hc : TrainedClean junk 0 ns (some d)) :
    ∃ r, transform (ss.map (Step.proc junk')) d = .ok r ∧ r.data = out := by
  have key : ∀ (ns : List Node) (k : Nat) (d : Option Batch) (ss : List Step) (out : Batch), fitAll junk k ns d = .ok (ss, some out) → TrainedClean junk k ns d →
      ∃ b invs, d = some b ∧ forwardAll (ss.map (Step.proc junk')) b = .ok (out, invs) := by
    intro ns
    induction ns with
    | nil =>
      intro k d ss out h _
      simp only [fitAll, Except.ok.injEq, Prod.mk.injEq] at h
      obtain ⟨rfl, rfl⟩ := h
      exact ⟨out, [], rfl, rfl⟩
    | cons n ns ih =>
      intro k d ss out h hc
      simp only [fitAll] at h
      cases h1 : fit (junk k) n d with
      | error e => simp [h1] at h
      | ok p =>
        obtain ⟨s, o⟩ := p
        simp only [h1] at h
        cases h2 : fitAll junk (k + 1) ns o with
        | error e => simp [h2] at h
        | ok q =>
          obtain ⟨ss', out'⟩ := q
          simp only [h2, Except.ok.injEq, Prod.mk.injEq] at h
          obtain ⟨rfl, rfl⟩ := h
          obtain ⟨b, invs, rfl, hf⟩ := ih (k + 1) o ss' out h2 (hc.2 s o h1)
          obtain ⟨b0, inv, rfl, rfl, hs⟩ := fit_some h1
          obtain ⟨f, e1, e2⟩ := step_rowwise (junk k) _ b0 b inv (hc.1 b0 rfl) hs
          obtain ⟨inv', s1⟩ := e2 junk' b0.rows (fun r hr => hr)
          refine ⟨b0, inv' :: invs, rfl, ?_⟩
          simp only [List.map_cons, forwardAll]
          have hb : (⟨b.fshape, b0.rows.map f⟩ : Batch) = b := e1.symm
          have hb0 : (⟨b0.fshape, b0.rows⟩ : Batch) = b0 := rfl
          rw [hb, hb0] at s1
          simp only [s1, hf]
  obtain ⟨b, invs, hb, hf⟩ := key ns 0 (some d) ss out h hc
  cases hb
  refine ⟨⟨out, (ss.map (Step.proc junk')).reverse, invs.reverse⟩, ?_, rfl⟩
  simp only [transform, hf]

/-! ## C258: standardisation -/

/-- One value of every example. -/
def column (d : Batch) (j : Nat) : List ℝ := d.rows.map fun r => r.getD j 0

/-- The mean of some numbers. -/
noncomputable def mean (l : List ℝ) : ℝ := l.sum / l.length

theorem colMean_getD (d : Batch) (j : Nat) (hj : j < size d.fshape) : (colMean d).getD j 0 = mean (column d j) := by
  unfold colMean
  rw [List.getD_eq_getElem _ _ (by simpa using hj)]
  simp [mean, column]

theorem colStd_getD (d : Batch) (j : Nat) (hj : j < size d.fshape) :
    (colStd d).getD j 0 = Real.sqrt (mean ((column d j).map fun x => (x - mean (column d j)) ^ 2)) := by
  unfold colStd
  rw [List.getD_eq_getElem _ _ (by simpa using hj)]
  simp only [List.getElem_map, List.getElem_range, colMean_getD d j hj]
  generalize mean (column d j) = m
  simp [mean, column, Function.comp_def]

theorem meanStdRow_getD (junk : Nat → ℝ) : ∀ (xs ms ss : List ℝ) (k j : Nat), xs.length = ms.length → xs.length = ss.length → j < xs.length →
    (meanStdRow junk k xs ms ss).getD j 0 = if ss.getD j 0 ≠ 0 then (xs.getD j 0 - ms.getD j 0) / ss.getD j 0 else junk (k + j) := by
  intro xs
  induction xs with
  | nil => intro ms ss k j _ _ h; simp at h
  | cons x xs ih =>
    intro ms ss k j h1 h2 h3
    cases ms with
    | nil => simp at h1
    | cons m ms =>
      cases ss with
      | nil => simp at h2
      | cons s ss =>
        cases j with
        | zero => simp [meanStdRow]
        | succ j =>
          simp only [meanStdRow, List.getD_cons_succ]
          rw [ih ms ss (k + 1) j (by simpa using h1) (by simpa using h2) (by simpa using h3), show k + 1 + j = k + (j + 1) by omega]

theorem sum_sub_const (l : List ℝ) (m s : ℝ) : (l.map fun x => (x - m) / s).sum = (l.sum - l.length * m) / s := by
  induction l with
  | nil => simp
  | cons x l ih => simp only [List.map_cons, List.sum_cons, ih, List.length_cons, Nat.cast_add, Nat.cast_one]; ring

theorem sum_sq_const (l : List ℝ) (m s : ℝ) : (l.map fun x => ((x - m) / s) ^ 2).sum = (l.map fun x => (x - m) ^ 2).sum / s ^ 2 := by
  induction l with
  | nil => simp
  | cons x l ih => simp only [List.map_cons, List.sum_cons, ih]; ring

/-- **C258**: a trained standardisation gives the examples it was trained on mean zero and mean square one in every value that is not the same in all of them. -/
theorem C258_standard (junk : Nat → Nat → ℝ) (d out : Batch) (hw : WF d) (s : Step) (h : fit junk .meanStd (some d) = .ok (s, some out)) (j : Nat) (hj : j < size d.fshape)
    (hv : ∃ x ∈ column d j, ∃ y ∈ column d j, x ≠ y) :
    mean (column out j) = 0 ∧ mean ((column out j).map (· ^ 2)) = 1 := by
  have hne : (column d j).length ≠ 0 := by
    obtain ⟨x, hx, -⟩ := hv
    intro hc
    rw [List.length_eq_zero_iff.1 hc] at hx
    cases hx
  -- the spread is positive
  have hpos : 0 < mean ((column d j).map fun x => (x - mean (column d j)) ^ 2) := by
    have hnn : ∀ y ∈ (column d j).map fun x => (x - mean (column d j)) ^ 2, 0 ≤ y := by
      intro y hy
      obtain ⟨x, -, rfl⟩ := List.mem_map.1 hy
      positivity
    have h0 : 0 ≤ ((column d j).map fun x => (x - mean (column d j)) ^ 2).sum := List.sum_nonneg hnn
    have hn : ((column d j).map fun x => (x - mean (column d j)) ^ 2).sum ≠ 0 := by
      intro hz
      obtain ⟨x, hx, y, hy, hxy⟩ := hv
      have hall : ∀ z ∈ column d j, z = mean (column d j) := by
        intro z hz'
        have hzz := sum_sq_zero ((column d j).map fun x => x - mean (column d j)) (by rw [List.map_map]; exact hz) (z - mean (column d j)) (List.mem_map_of_mem hz')
        linarith
      exact hxy ((hall x hx).trans (hall y hy).symm)
    unfold mean
    apply div_pos (lt_of_le_of_ne h0 (Ne.symm hn))
    simp only [List.length_map]
    exact_mod_cast Nat.pos_of_ne_zero hne
  have hs : (colStd d).getD j 0 ≠ 0 := by
    rw [colStd_getD d j hj]
    exact (Real.sqrt_pos.2 hpos).ne'
  have hcol : column out j = (column d j).map fun x => (x - mean (column d j)) / (colStd d).getD j 0 := by
    simp only [fit, Node.learn, Step.proc] at h
    rw [if_pos (by simp [colMean, colStd])] at h
    simp only [outcomeData, Except.ok.injEq, Prod.mk.injEq, Option.some.injEq] at h
    rw [← h.2]
    unfold column
    rw [List.map_map]
    apply List.ext_getElem
    · simp
    · intro i h1 h2
      simp only [List.getElem_map, List.getElem_mapIdx, Function.comp]
      have hl := hw _ (List.getElem_mem (by simpa using h2 : i < d.rows.length))
      rw [meanStdRow_getD _ _ _ _ _ _ (by simpa [colMean] using hl) (by simpa [colStd] using hl) (by rw [hl]; exact hj), if_pos hs, colMean_getD d j hj]
      rfl
  have hn : ((column d j).length : ℝ) ≠ 0 := by exact_mod_cast hne
  constructor
  · rw [hcol]
    unfold mean
    rw [sum_sub_const]
    rw [show (column d j).sum - (column d j).length * ((column d j).sum / (column d j).length) = 0 by field_simp; ring]
    simp
  · rw [hcol, List.map_map]
    have : ((column d j).map ((· ^ 2) ∘ fun x => (x - mean (column d j)) / (colStd d).getD j 0)) = (column d j).map fun x => ((x - mean (column d j)) / (colStd d).getD j 0) ^ 2 := rfl
    rw [this]
    have e : mean ((column d j).map fun x => ((x - mean (column d j)) / (colStd d).getD j 0) ^ 2) =
        mean ((column d j).map fun x => (x - mean (column d j)) ^ 2) / (colStd d).getD j 0 ^ 2 := by
      show _ / _ = _ / _ / _
      rw [sum_sq_const]
      simp only [List.length_map]
      ring
    rw [e, colStd_getD d j hj, Real.sq_sqrt hpos.le]
    exact div_self hpos.ne'

/-- **C258**: the training examples that have a value in common get uninitialised memory there. -/
theorem C258_constant_refuted (junk : Nat → Nat → ℝ) (d : Batch) (hw : WF d) (c : ℝ) (j : Nat) (hj : j < size d.fshape) (hc : ∀ x ∈ column d j, x = c) :
    ∃ out, fit junk .meanStd (some d) = .ok (.meanStd (colMean d) (colStd d), some out) ∧ ∀ i < d.rows.length, (column out j).getD i 0 = junk i j := by
  have hs : (colStd d).getD j 0 = 0 := by
    rw [colStd_getD d j hj]
    have hm : ∀ x ∈ column d j, x - mean (column d j) = 0 := by
      intro x hx
      have hne : ((column d j).length : ℝ) ≠ 0 := by
        intro h0
        have : (column d j).length = 0 := by exact_mod_cast h0
        rw [List.length_eq_zero_iff.1 this] at hx
        cases hx
      have hsum : (column d j).sum = (column d j).length * c := by
        rw [show column d j = List.replicate (column d j).length c from List.eq_replicate_iff.2 ⟨rfl, hc⟩]
        simp
      unfold mean
      rw [hsum, mul_div_cancel_left₀ _ hne, hc x hx, sub_self]
    rw [show ((column d j).map fun x => (x - mean (column d j)) ^ 2) = (column d j).map fun _ => 0 from List.map_congr_left fun x hx => by rw [hm x hx]; ring]
    simp [mean]
  refine ⟨⟨d.fshape, d.rows.mapIdx (fun i r => meanStdRow (junk i) 0 r (colMean d) (colStd d))⟩, ?_, ?_⟩
  · simp only [fit, Node.learn, Step.proc]
    rw [if_pos (by simp [colMean, colStd])]
    rfl
  · intro i hi
    unfold column
    rw [List.getD_eq_getElem _ _ (by simpa using hi)]
    simp only [List.getElem_map, List.getElem_mapIdx]
    have hl := hw _ (List.getElem_mem hi)
    rw [meanStdRow_getD _ _ _ _ _ _ (by simpa [colMean] using hl) (by simpa [colStd] using hl) (by rw [hl]; exact hj), if_neg (by simpa using hs), Nat.zero_add]

/-! ## C259: training that fails silently -/

/-- **C259, refuted**: a pipeline that could be trained can transform its training data.  `AbsoluteValue`, `Sharpen` and `Binarize` never fail while they are trained, on any data;
`Sharpen()`, which has no kernel, is trained and stored without complaint, and then cannot transform anything. -/
theorem C259_silent_refuted (junk junk' : Nat → Nat → ℝ) (d : Batch) :
    (∀ (n : Node) (x : Option Batch), n = .absoluteValue ∨ (∃ k, n = .sharpen k) ∨ (∃ t, n = .binarize t) → ∃ s o, fit junk n x = .ok (s, o)) ∧
    fit junk (.sharpen none) (some d) = .ok (.sharpen none, none) ∧
    transform [(Step.sharpen none).proc junk'] d = .error .typeError := by
  refine ⟨?_, rfl, rfl⟩
  intro n x hn
  have hi : ∀ e, n.ignores e = true := by
    intro e
    rcases hn with rfl | ⟨k, rfl⟩ | ⟨t, rfl⟩ <;> rfl
  cases x with
  | none => exact ⟨n.learn ⟨[], []⟩, none, by simp only [fit, hi, if_true]⟩
  | some b =>
    cases ho : ((n.learn b).proc junk).op b with
    | error e => exact ⟨n.learn b, none, by simp only [fit, ho, hi, if_true]⟩
    | ok o => exact ⟨n.learn b, some (outcomeData o), by simp only [fit, ho]⟩

/-- **C259**, where it shows: what follows a `Sharpen()` without a kernel is given None, and raises (unless it ignores that, too): AttributeError where a method of the data is
called, TypeError where it is calculated with. -/
theorem C259_next (junk : Nat → Nat → Nat → ℝ) (d : Batch) (ns : List Node) :
    (∀ n, n = .meanStd ∨ (∃ v, n = .instanceScaling v) ∨ (∃ s, n = .reshape s) →
      fitAll junk 0 (.sharpen none :: n :: ns) (some d) = .error .attributeError) ∧
    (∀ n, (∃ v, n = .multiply v) ∨ (∃ w, n = .weighted w) ∨ n = .muLaw ∨ n = .log ∨ (∃ a b, n = .slicer a b) →
      fitAll junk 0 (.sharpen none :: n :: ns) (some d) = .error .typeError) := by
  constructor
  · rintro n (rfl | ⟨v, rfl⟩ | ⟨s, rfl⟩) <;> rfl
  · rintro n (⟨v, rfl⟩ | ⟨v, rfl⟩ | rfl | rfl | ⟨a, b, rfl⟩) <;> rfl

/-- **C259**, what does hold: if none of these steps (and no unit norm) is in the graph, training succeeds only if every operation does, and hands on data. -/
theorem C259_others (junk : Nat → Nat → Nat → ℝ) (ns : List Node) (h0 : ∀ n ∈ ns, ∀ e, n.ignores e = false) : ∀ (k : Nat) (d : Batch) (ss : List Step) (o : Option Batch),
    fitAll junk k ns (some d) = .ok (ss, o) → ∃ out, o = some out := by
  induction ns with
  | nil =>
    intro k d ss o h
    simp only [fitAll, Except.ok.injEq, Prod.mk.injEq] at h
    exact ⟨d, h.2.symm⟩
  | cons n ns ih =>
    intro k d ss o h
    simp only [fitAll] at h
    cases h1 : fit (junk k) n (some d) with
    | error e => simp [h1] at h
    | ok p =>
      obtain ⟨s, x⟩ := p
      simp only [h1] at h
      cases h2 : fitAll junk (k + 1) ns x with
      | error e => simp [h2] at h
      | ok q =>
        obtain ⟨ss', o'⟩ := q
        simp only [h2, Except.ok.injEq, Prod.mk.injEq] at h
        obtain ⟨-, rfl⟩ := h
        have hx : ∃ b, x = some b := by
          simp only [fit] at h1
          split at h1
          · simp only [Except.ok.injEq, Prod.mk.injEq] at h1
            exact ⟨_, h1.2.symm⟩
          · simp [h0 n (by simp)] at h1
        obtain ⟨b, rfl⟩ := hx
        exact ih (fun m hm => h0 m (by simp [hm])) (k + 1) b ss' o' h2

example (junk : Nat → Nat → Nat → ℝ) := C259_others junk [.meanStd, .instanceScaling 3] (by
  intro n hn e
  simp only [List.mem_cons, List.not_mem_nil, or_false] at hn
  rcases hn with rfl | rfl <;> rfl)

/-! ## C260: examples are independent, and a stream is transformed like the whole -/

/-- **C260**: transforming any selection of the examples, in any order, with repetitions or none, gives that selection of the transformed examples. -/
theorem C260_selection (junk junk' : Nat → Nat → ℝ) (ss : List Step) (d : Batch) (r : Result Batch Inv) (h : transform (ss.map (Step.proc junk)) d = .ok r)
    (hc : CleanAlong junk ss d) (idx : List Nat) (hi : ∀ i ∈ idx, i < d.rows.length) :
    ∃ r', transform (ss.map (Step.proc junk')) ⟨d.fshape, idx.map fun i => d.rows.getD i []⟩ = .ok r' ∧
      r'.data.fshape = r.data.fshape ∧ r'.data.rows = idx.map fun i => r.data.rows.getD i [] := by
  unfold transform at h ⊢
  cases hf : forwardAll (ss.map (Step.proc junk)) d with
  | error e => simp [hf] at h
  | ok p =>
    obtain ⟨out, invs⟩ := p
    simp only [hf, Except.ok.injEq] at h
    rw [← h]
    obtain ⟨f, e1, e2⟩ := pipeline_rowwise junk ss d out invs hc hf
    obtain ⟨invs', e3⟩ := e2 junk' (idx.map fun i => d.rows.getD i []) (by
      intro x hx
      obtain ⟨i, hi', rfl⟩ := List.mem_map.1 hx
      rw [List.getD_eq_getElem _ _ (hi i hi')]
      exact List.getElem_mem _)
    refine ⟨⟨⟨out.fshape, (idx.map fun i => d.rows.getD i []).map f⟩, (ss.map (Step.proc junk')).reverse, invs'.reverse⟩, by simp only [e3], rfl, ?_⟩
    have hr : out.rows = d.rows.map f := by rw [e1]
    simp only [hr, List.map_map]
    apply List.map_congr_left
    intro i hi'
    have := hi i hi'
    simp only [Function.comp]
    rw [List.getD_eq_getElem _ _ this, List.getD_eq_getElem _ _ (by simpa using this), List.getElem_map]

/-- **C261**: a learned feature computed chunk by chunk is the transformed whole, however the examples are cut into chunks. -/
theorem C261_stream (junk junk' : Nat → Nat → ℝ) (ss : List Step) (d : Batch) (r : Result Batch Inv) (h : transform (ss.map (Step.proc junk)) d = .ok r)
    (hc : CleanAlong junk ss d) (chunks : List (List (List ℝ))) (hch : chunks.flatten = d.rows) :
    ∃ outs, learnedAll (ss.map (Step.proc junk')) id id (chunks.map fun rows => ⟨d.fshape, rows⟩) = .ok outs ∧
      (∀ o ∈ outs, o.fshape = r.data.fshape) ∧ (outs.map Batch.rows).flatten = r.data.rows ∧ outs.map (fun o => o.rows.length) = chunks.map List.length := by
  unfold transform at h
  cases hf : forwardAll (ss.map (Step.proc junk)) d with
  | error e => simp [hf] at h
  | ok p =>
    obtain ⟨out, invs⟩ := p
    simp only [hf, Except.ok.injEq] at h
    rw [← h]
    obtain ⟨f, e1, e2⟩ := pipeline_rowwise junk ss d out invs hc hf
    have hr : out.rows = d.rows.map f := by rw [e1]
    have key : ∀ cs : List (List (List ℝ)), (∀ c ∈ cs, ∀ x ∈ c, x ∈ d.rows) →
        learnedAll (ss.map (Step.proc junk')) id id (cs.map fun rows => ⟨d.fshape, rows⟩) = .ok (cs.map fun rows => ⟨out.fshape, rows.map f⟩) := by
      intro cs
      induction cs with
      | nil => intro _; rfl
      | cons c cs ih =>
        intro hcs
        obtain ⟨invs', e3⟩ := e2 junk' c (hcs c (by simp))
        have h1 : learned (ss.map (Step.proc junk')) id id ⟨d.fshape, c⟩ = .ok ⟨out.fshape, c.map f⟩ := by
          simp only [learned, transform, id, e3]
        simp only [List.map_cons, learnedAll, h1, ih (fun x hx => hcs x (by simp [hx]))]
    refine ⟨_, key chunks ?_, ?_, ?_, ?_⟩
    · intro c hcm x hx
      rw [← hch]
      exact List.mem_flatten_of_mem hcm hx
    · intro o ho
      obtain ⟨c, -, rfl⟩ := List.mem_map.1 ho
      rfl
    · simp only [hr, ← hch, List.map_map, List.map_flatten]
      rfl
    · simp [Function.comp_def]

/-- **C261** (`dtype` and `wrapper`): each chunk is cast, transformed by the pipeline, and the data of the result is given to the wrapper; if the pipeline refuses a cast chunk, that
error is raised. -/
theorem C261_cast {D I : Type} (ps : List (Proc D I)) (cast wrapper : D → D) (chunks : List D) :
    (∀ outs, learnedAll ps cast wrapper chunks = .ok outs ↔
      List.Forall₂ (fun c o => ∃ r, transform ps (cast c) = .ok r ∧ o = wrapper r.data) chunks outs) ∧
    (∀ e, learnedAll ps cast wrapper chunks = .error e ↔
      ∃ before c after, chunks = before ++ c :: after ∧ transform ps (cast c) = .error e ∧ ∀ b ∈ before, ∃ r, transform ps (cast b) = .ok r) := by
  induction chunks with
  | nil =>
    refine ⟨fun outs => ?_, fun e => ?_⟩
    · simp only [learnedAll, Except.ok.injEq, List.forall₂_nil_left_iff]
      exact eq_comm
    · simp [learnedAll]
  | cons c cs ih =>
    have hl : learned ps cast wrapper c = match transform ps (cast c) with | .error e => .error e | .ok r => .ok (wrapper r.data) := rfl
    cases ht : transform ps (cast c) with
    | error e' =>
      have h1 : learned ps cast wrapper c = .error e' := by rw [hl, ht]
      simp only [learnedAll, h1]
      refine ⟨fun outs => ?_, fun e => ?_⟩
      · simp only [reduceCtorEq, false_iff]
        intro h
        obtain ⟨o, os, ⟨r, hr, -⟩, -⟩ := List.forall₂_cons_left_iff.1 h
        rw [ht] at hr; cases hr
      · simp only [Except.error.injEq]
        constructor
        · rintro rfl; exact ⟨[], c, cs, rfl, ht, by simp⟩
        · rintro ⟨b, x, a, h1, h2, h3⟩
          cases b with
          | nil =>
            simp only [List.nil_append, List.cons.injEq] at h1
            rw [← h1.1, ht] at h2
            exact Except.error.inj h2
          | cons y ys =>
            simp only [List.cons_append, List.cons.injEq] at h1
            obtain ⟨r, hr⟩ := h3 y (by simp)
            rw [← h1.1, ht] at hr; cases hr
    | ok r =>
      have h1 : learned ps cast wrapper c = .ok (wrapper r.data) := by rw [hl, ht]
      simp only [learnedAll, h1]
      refine ⟨fun outs => ?_, fun e => ?_⟩
      · rw [List.forall₂_cons_left_iff]
        cases hr : learnedAll ps cast wrapper cs with
        | error e' =>
          simp only [reduceCtorEq, false_iff]
          rintro ⟨o, os, -, h, -⟩
          have := (ih.1 os).2 h
          rw [hr] at this; cases this
        | ok ds =>
          simp only [Except.ok.injEq]
          constructor
          · rintro rfl
            exact ⟨_, ds, ⟨r, ht, rfl⟩, (ih.1 ds).1 hr, rfl⟩
          · rintro ⟨o, os, ⟨r', h2, rfl⟩, h3, rfl⟩
            have := (ih.1 os).2 h3
            rw [hr] at this; cases this
            rw [ht] at h2; cases h2
            rfl
      · have key : (match learnedAll ps cast wrapper cs with | .error e => (.error e : Except PyErr (List D)) | .ok ds => .ok (wrapper r.data :: ds)) = .error e ↔
            learnedAll ps cast wrapper cs = .error e := by
          cases learnedAll ps cast wrapper cs <;> simp
        refine key.trans ((ih.2 e).trans ?_)
        constructor
        · rintro ⟨b, x, a, rfl, h2, h3⟩
          refine ⟨c :: b, x, a, rfl, h2, ?_⟩
          intro y hy
          rcases List.mem_cons.1 hy with rfl | hy
          · exact ⟨r, ht⟩
          · exact h3 y hy
        · rintro ⟨b, x, a, h1, h2, h3⟩
          cases b with
          | nil =>
            simp only [List.nil_append, List.cons.injEq] at h1
            rw [← h1.1, ht] at h2; cases h2
          | cons y ys =>
            simp only [List.cons_append, List.cons.injEq] at h1
            exact ⟨ys, x, a, h1.2, h2, fun z hz => h3 z (by simp [hz])⟩

/-- Two chunks, cast and wrapped. -/
example : learnedAll ([] : List (Proc (List Int) Unit)) (List.map (2 * ·)) (List.map (· + 1)) [[1], [2, 3]] = .ok [[3], [5, 7]] := rfl

/-! ## C307: what steps compute -/

/-- A row continued by zeros to both sides. -/
def beyond (row : List ℝ) (i : Int) : ℝ := if i < 0 then 0 else row.getD i.toNat 0

/-- **C307** (`Sharpen`): number `j` of every example becomes the kernel, turned round and laid centrally over the example at `j` (zeros outside), summed up, or zero if that is
negative.  The centre of a kernel of even length is the left one of its two middle elements. -/
theorem C307_sharpen (junk : Nat → Nat → ℝ) (kernel : List ℝ) (d : Batch) (h1 : d.fshape.length = 1) :
    ∃ out, (Step.proc junk (.sharpen (some kernel))).op d = .ok (.plain out) ∧ out.fshape = d.fshape ∧ out.rows.length = d.rows.length ∧
      ∀ (i : Nat) (h : i < d.rows.length) (h' : i < out.rows.length), out.rows[i].length = d.rows[i].length ∧
        ∀ (j : Nat), j < d.rows[i].length → (out.rows[i]).getD j 0 =
          max 0 ((List.range kernel.length).map fun (k : Nat) =>
            kernel.getD k 0 * beyond d.rows[i] ((j : Int) + (((kernel.length - 1) / 2 : Nat) : Int) - (k : Int))).sum := by
  refine ⟨⟨d.fshape, d.rows.map (sharpenRow kernel)⟩, by simp only [Step.proc, h1, if_true], rfl, by simp, ?_⟩
  intro i h h'
  simp only [List.getElem_map]
  refine ⟨by simp [sharpenRow], ?_⟩
  intro j hj
  unfold sharpenRow
  rw [List.getD_eq_getElem?_getD]
  simp only [List.getElem?_map, List.getElem?_range hj, Option.map_some, Option.getD_some]
  congr 2
  apply List.map_congr_left
  intro k _
  unfold beyond
  by_cases hk : k ≤ j + (kernel.length - 1) / 2
  · rw [if_pos hk, if_neg (by omega)]
    congr 2
    omega
  · rw [if_neg hk, if_pos (by omega), mul_zero]

example (junk : Nat → Nat → ℝ) := C307_sharpen junk [1, 2] ⟨[2], [[1, -2], [3, 4]]⟩ rfl

/-- **C307** (`Sharpen`, a kernel of one number): examples are multiplied with it, and negative numbers become zero. -/
theorem C307_sharpen_one (junk : Nat → Nat → ℝ) (g : ℝ) (d : Batch) (h1 : d.fshape.length = 1) :
    (Step.proc junk (.sharpen (some [g]))).op d = .ok (.plain ⟨d.fshape, d.rows.map (List.map fun x => max 0 (g * x))⟩) := by
  simp only [Step.proc, h1, if_true]
  congr 3
  apply List.map_congr_left
  intro r _
  apply List.ext_getElem
  · simp [sharpenRow]
  · intro j a b
    have hj : j < r.length := by simpa using b
    simp [sharpenRow, hj]

example (junk : Nat → Nat → ℝ) := C307_sharpen_one junk 3 ⟨[2], [[1, -2], [3, 4]]⟩ rfl

/-- **C307** (`MuLawCompressed`): every number keeps its sign and its size becomes log(1 + 255 size) / log 256; numbers up to 1 stay up to 1, 0 and ±1 stay what they are. -/
theorem C307_mu_law (junk : Nat → Nat → ℝ) (d : Batch) :
    ∃ f : ℝ → ℝ, (Step.proc junk .muLaw).op d = .ok (.plain ⟨d.fshape, d.rows.map (List.map f)⟩) ∧
      (∀ x, f x = if x < 0 then -(Real.log (1 + 255 * -x) / Real.log 256) else Real.log (1 + 255 * x) / Real.log 256) ∧
      f 0 = 0 ∧ f 1 = 1 ∧ f (-1) = -1 := by
  have e : ∀ x, Loudness.muLaw mu x = if x < 0 then -(Real.log (1 + 255 * -x) / Real.log 256) else Real.log (1 + 255 * x) / Real.log 256 := by
    intro x
    unfold Loudness.muLaw mu Loudness.npSign
    simp only []
    have e256 : (1 : ℝ) + 255 = 256 := by norm_num
    rw [e256]
    by_cases hx : x < 0
    · rw [if_pos hx, abs_of_neg hx]
      simp [hx]
    · rw [if_neg hx, abs_of_nonneg (by linarith)]
      by_cases h0 : 0 < x
      · simp [hx, h0]
      · have : x = 0 := by linarith
        subst this; simp
  have hl : Real.log 256 ≠ 0 := Real.log_ne_zero_of_pos_of_ne_one (by norm_num) (by norm_num)
  refine ⟨Loudness.muLaw mu, rfl, e, ?_, ?_, ?_⟩
  · rw [e, if_neg (by norm_num)]; norm_num
  · rw [e, if_neg (by norm_num)]
    rw [show (1 : ℝ) + 255 * 1 = 256 by norm_num, div_self hl]
  · rw [e, if_pos (by norm_num)]
    rw [show (1 : ℝ) + 255 * -(-1) = 256 by norm_num, div_self hl]

/-- Two examples of one axis. -/
example : (⟨[2], [[1, -2], [3, 4]]⟩ : Batch).fshape.length = 1 := rfl

/-! ## C262: units -/

open Zounds.Arr (Val Awu DimOps)

theorem backAllU_append {K δ κ α I : Type} (ops : DimOps δ κ) (a b : List ((I × Option (K × List δ)) × Proc (Val K δ α) I)) (d : Val K δ α) :
    backAllU ops (a ++ b) d = match backAllU ops a d with | .error e => .error e | .ok x => backAllU ops b x := by
  induction a generalizing d with
  | nil => rfl
  | cons x a ih =>
    obtain ⟨⟨i, w⟩, p⟩ := x
    simp only [List.cons_append, backAllU]
    cases p.inverse d i with
    | error e => rfl
    | ok y =>
      simp only []
      cases unwrap ops y w with
      | error e => rfl
      | ok z => exact ih z

theorem forwardAllU_length {K δ α I : Type} (ps : List (Proc (Val K δ α) I)) : ∀ d out is, forwardAllU ps d = .ok (out, is) → is.length = ps.length := by
  induction ps with
  | nil => intro d out is h; simp only [forwardAllU, Except.ok.injEq, Prod.mk.injEq] at h; rw [← h.2]; rfl
  | cons p ps ih =>
    intro d out is h
    simp only [forwardAllU] at h
    cases h1 : p.step d with
    | error e => simp [h1] at h
    | ok q =>
      obtain ⟨o, i⟩ := q
      simp only [h1] at h
      cases h2 : forwardAllU ps o with
      | error e => simp [h2] at h
      | ok q' =>
        obtain ⟨res, is'⟩ := q'
        simp only [h2, Except.ok.injEq, Prod.mk.injEq] at h
        rw [← h.2]
        simp [ih _ _ _ h2]

theorem new_parts {δ κ α : Type} {ops : DimOps δ κ} {sh : List Nat} {g : List Nat → α} {dims : List δ} {b : Awu δ α} (h : Awu.new ops sh g dims = .ok b) :
    b.shape = sh ∧ b.get = g := by
  unfold Awu.new at h
  split at h
  · cases h
  · split at h
    · cases h
    · cases h; exact ⟨rfl, rfl⟩

theorem settled_new {δ κ α β : Type} {ops : DimOps δ κ} {a : Awu δ α} (hs : Arr.Settled ops a) (sh : List Nat) (g : List Nat → β) (h : sh = a.shape) :
    Awu.new ops sh g a.dims = .ok ⟨sh, a.dims, g⟩ := by
  subst h
  unfold Awu.new
  rw [if_neg (by simpa using hs.len.symm)]
  rw [(Arr.installAll_iff ops a.dims a.shape hs.len a.dims).mpr ⟨rfl, fun k h1 _ _ => hs.own k h1⟩]

theorem unwrap_units {K δ κ α : Type} (ops : DimOps δ κ) (v : Val K δ α) (c : K) (a : Awu δ α) (y : Val K δ α) (h : unwrap ops v (some (c, a.dims)) = .ok y) :
    ∃ b, y = .units c b ∧ Awu.new ops b.shape b.get a.dims = .ok b ∧ (Arr.Settled ops a → b.shape = a.shape → b.dims = a.dims) := by
  have hfin : ∀ (sh : List Nat) (g : List Nat → α) (b : Awu δ α), Awu.new ops sh g a.dims = .ok b → y = .units c b →
      ∃ b, y = .units c b ∧ Awu.new ops b.shape b.get a.dims = .ok b ∧ (Arr.Settled ops a → b.shape = a.shape → b.dims = a.dims) := by
    intro sh g b hn hy
    obtain ⟨e1, e2⟩ := new_parts hn
    refine ⟨b, hy, by rw [e1, e2]; exact hn, ?_⟩
    intro hs hsh
    have := settled_new hs sh g (by rw [← e1, hsh])
    rw [hn] at this
    cases this
    rfl
  cases v with
  | num x => simp [unwrap] at h
  | plain sh g =>
    simp only [unwrap] at h
    cases hn : Awu.new ops (Val.plain (K := K) (δ := δ) sh g).shape (Val.plain (K := K) (δ := δ) sh g).at a.dims with
    | error e => simp [hn] at h
    | ok b => simp only [hn, Except.ok.injEq] at h; exact hfin _ _ b hn h.symm
  | units c' b' =>
    simp only [unwrap] at h
    cases hn : Awu.new ops (Val.units c' b').shape (Val.units c' b').at a.dims with
    | error e => simp [hn] at h
    | ok b => simp only [hn, Except.ok.injEq] at h; exact hfin _ _ b hn h.symm

/-- **C262**: whatever the steps of a pipeline (at least one) are, what they do to units, and however the result was edited in between: if `inverse_transform` succeeds, it gives an array of the class
of the transformed array with its dimensions, told the sizes they have now; if the shape is the old one, exactly its dimensions. -/
theorem C262_units {K δ κ α I : Type} (ops : DimOps δ κ) (ps : List (Proc (Val K δ α) I)) (hp : ps ≠ []) (c : K) (a : Awu δ α) (edit : Val K δ α → Val K δ α) (y : Val K δ α)
    (h : roundTrip ops ps (.units c a) edit = .ok y) :
    ∃ b, y = .units c b ∧ Awu.new ops b.shape b.get a.dims = .ok b ∧ (Arr.Settled ops a → b.shape = a.shape → b.dims = a.dims) := by
  cases ps with
  | nil => exact absurd rfl hp
  | cons p ps =>
    unfold roundTrip at h
    simp only [forwardAllU] at h
    cases h1 : p.step (.units c a) with
    | error e => simp [h1] at h
    | ok q =>
      obtain ⟨o, i⟩ := q
      simp only [h1] at h
      cases h2 : forwardAllU ps o with
      | error e => simp [h2] at h
      | ok q' =>
        obtain ⟨res, is⟩ := q'
        simp only [h2] at h
        have hl := forwardAllU_length ps o res is h2
        rw [List.reverse_cons, List.reverse_cons, List.zip_append (by simp [hl]), backAllU_append] at h
        cases h3 : backAllU ops (is.reverse.zip ps.reverse) (edit res) with
        | error e => simp [h3] at h
        | ok z =>
          simp only [h3, List.zip_cons_cons, List.zip_nil_right, backAllU, wrapData, Val.owner] at h
          cases h4 : p.inverse z i with
          | error e => simp [h4] at h
          | ok v =>
            simp only [h4] at h
            cases hu : unwrap ops v (some (c, a.dims)) with
            | error e => simp [hu] at h
            | ok y' =>
              simp only [hu, Except.ok.injEq] at h
              subst h
              exact unwrap_units ops v c a y' hu

/-! ## The hypotheses are met -/

/-- Two examples of two values. -/
def twoExamples : Batch := ⟨[2], [[0, 5], [2, 9]]⟩

theorem two_mean : colMean twoExamples = [1, 7] := by
  norm_num [colMean, twoExamples, size, List.range_succ]

theorem two_std : colStd twoExamples = [1, 2] := by
  unfold colStd
  rw [two_mean]
  norm_num [twoExamples, size, List.range_succ]
  rw [← Real.sqrt_div (by norm_num), show (8 / 2 : ℝ) = 2 ^ 2 by norm_num, Real.sqrt_sq (by norm_num)]

/-- Standardising the two examples. -/
theorem two_fit (junk : Nat → Nat → ℝ) : fit junk .meanStd (some twoExamples) = .ok (.meanStd [1, 7] [1, 2], some ⟨[2], [[-1, -1], [1, 1]]⟩) := by
  simp only [fit, Node.learn, Step.proc, two_mean, two_std]
  rw [if_pos (by simp [twoExamples, size])]
  norm_num [outcomeData, twoExamples, meanStdRow]

theorem two_clean (junk : Nat → Nat → Nat → ℝ) : TrainedClean junk 0 [.meanStd, .instanceScaling 3, .sharpen (some [1, 2])] (some twoExamples) := by
  refine ⟨?_, ?_⟩
  · rintro b hb
    cases hb
    simp only [Node.learn, two_mean, two_std, Clean]
    intro s hs
    simp at hs
    rcases hs with rfl | rfl <;> norm_num
  · intro s o h
    rw [two_fit] at h
    cases h
    refine ⟨?_, fun _ _ _ => ⟨fun _ _ => trivial, fun _ _ _ => trivial⟩⟩
    rintro b hb
    cases hb
    intro r hr
    simp at hr
    rcases hr with rfl | rfl <;> exact ⟨_, List.mem_cons_self, by norm_num⟩

/-- The graph of three nodes is trained, and its pipeline stored. -/
example (junk : Nat → Nat → Nat → ℝ) : ∃ out, fitAll junk 0 [.meanStd, .instanceScaling 3, .sharpen (some [1, 2])] (some twoExamples) =
    .ok ([.meanStd [1, 7] [1, 2], .instanceScaling 3, .sharpen (some [1, 2])], some out) := by
  simp only [fitAll, two_fit]
  simp only [fit, Node.learn, Step.proc]
  rw [if_neg (by simp [size])]
  simp only [outcomeData, instanceScaling]
  exact ⟨_, rfl⟩

/-- The second value of the two examples varies. -/
example : ∃ x ∈ column twoExamples 1, ∃ y ∈ column twoExamples 1, x ≠ y := ⟨5, by simp [column, twoExamples], 9, by simp [column, twoExamples], by norm_num⟩

/-- A pipeline that leaves nothing uninitialised on the two examples. -/
example (junk : Nat → Nat → ℝ) : CleanAlong junk [.unitNorm, .binarize 0.5] twoExamples := by
  refine ⟨?_, fun _ _ _ => ⟨trivial, fun _ _ _ => trivial⟩⟩
  intro r hr
  simp [twoExamples] at hr
  rcases hr with rfl | rfl
  · exact ⟨5, by simp, by norm_num⟩
  · exact ⟨2, by simp, by norm_num⟩

/-- A step that forgets the units of what it is given: taking every sample twice over. -/
def doubled : Proc (Val Nat (Arr.LibDim ℚ) Nat) Unit :=
  { op := fun v => .ok (.forward (.plain v.shape fun p => 2 * v.at p) ()), inversionData := fun _ => .ok (), inverse := fun v _ => .ok (.plain v.shape fun p => v.at p / 2) }

/-- Nine samples of three channels, doubled and halved again, are samples of three channels. -/
example : ∃ y, roundTrip Arr.L [doubled, doubled] (.units 7 ⟨Arr.stereo.shape, Arr.stereo.dims, fun p => p.sum⟩) id = .ok y ∧ y.at [4, 2] = 6 :=
  ⟨_, rfl, rfl⟩

/-- The two examples, with unit norm. -/
theorem unit_clean (junk : Nat → Nat → ℝ) : CleanAlong junk [.unitNorm] twoExamples := by
  refine ⟨?_, fun _ _ _ => trivial⟩
  intro r hr
  simp [twoExamples] at hr
  rcases hr with rfl | rfl
  · exact ⟨5, by simp, by norm_num⟩
  · exact ⟨2, by simp, by norm_num⟩
example (junk junk' : Nat → Nat → ℝ) : ∃ r outs, transform ([Step.unitNorm].map (Step.proc junk)) twoExamples = .ok r ∧
    learnedAll ([Step.unitNorm].map (Step.proc junk')) id id ([[twoExamples.rows.headD []], twoExamples.rows.drop 1].map fun rows => ⟨twoExamples.fshape, rows⟩) = .ok outs := by
  obtain ⟨r, h⟩ : ∃ r, transform ([Step.unitNorm].map (Step.proc junk)) twoExamples = .ok r := ⟨_, rfl⟩
  have := C260_selection junk junk' [.unitNorm] twoExamples r h (unit_clean junk) [1] (by simp [twoExamples])
  obtain ⟨outs, ho, -⟩ := C261_stream junk junk' [.unitNorm] twoExamples r h (unit_clean junk) [[twoExamples.rows.headD []], twoExamples.rows.drop 1] (by simp [twoExamples])
  exact ⟨r, outs, h, ho⟩

example := C262_units Arr.L [doubled, doubled] (by simp) 7 ⟨Arr.stereo.shape, Arr.stereo.dims, fun p => p.sum⟩ id _ rfl

end Zounds.Fit
