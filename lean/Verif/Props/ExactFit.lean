import Verif.Props.Fit
/-!
# Exactly when a trained pipeline transforms its training data (C259)
-/

namespace Zounds.Fit
open Zounds Zounds.Pipeline

/-- Whether an operation raises, and what, does not depend on memory that numpy does not initialise. -/
theorem op_error (junk junk' : Nat → Nat → ℝ) (s : Step) (d : Batch) (e : PyErr) (h : (s.proc junk).op d = .error e) : (s.proc junk').op d = .error e := by
  cases s with
  | meanStd m st =>
    simp only [Step.proc] at h ⊢
    split at h
    · cases h
    · rename_i hc
      rw [if_neg hc]
      exact h
  | instanceScaling v =>
    simp only [Step.proc] at h ⊢
    split at h
    · rename_i hc
      rw [if_pos hc]
      exact h
    · cases h
  | unitNorm => simp [Step.proc] at h
  | _ => exact h

theorem fitAll_none (junk : Nat → Nat → Nat → ℝ) : ∀ (ns : List Node) (k : Nat) (ss : List Step) (o : Option Batch), fitAll junk k ns none = .ok (ss, o) → o = none := by
  intro ns
  induction ns with
  | nil =>
    intro k ss o h
    simp only [fitAll, Except.ok.injEq, Prod.mk.injEq] at h
    exact h.2.symm
  | cons n ns ih =>
    intro k ss o h
    simp only [fitAll, fit] at h
    split at h
    · cases h
    · rename_i s d' hf
      have hd : d' = none := by
        split at hf
        · simp only [Except.ok.injEq, Prod.mk.injEq] at hf; exact hf.2.symm
        · cases hf
      subst hd
      split at h
      · cases h
      · rename_i ss' out h2
        simp only [Except.ok.injEq, Prod.mk.injEq] at h
        rw [← h.2]
        exact ih _ _ _ h2

/-- **C259**, exactly when a trained pipeline transforms its training data: if and only if training handed on data to the end (no node ignored an exception of its operation). Then the result is the
data that was handed on; otherwise `transform` raises what the node ignored. -/
theorem C259_exact (junk : Nat → Nat → Nat → ℝ) (junk' : Nat → Nat → ℝ) (ns : List Node) (d : Batch) (ss : List Step) (o : Option Batch)
    (h : fitAll junk 0 ns (some d) = .ok (ss, o)) (hc : TrainedClean junk 0 ns (some d)) :
    (∃ r, transform (ss.map (Step.proc junk')) d = .ok r) ↔ o ≠ none := by
  constructor
  · have key : ∀ (ns : List Node) (k : Nat) (d : Batch) (ss : List Step), fitAll junk k ns (some d) = .ok (ss, none) → TrainedClean junk k ns (some d) →
        ∃ e, forwardAll (ss.map (Step.proc junk')) d = .error e := by
      intro ns
      induction ns with
      | nil => intro k d ss h _; simp [fitAll] at h
      | cons n ns ih =>
        intro k d ss h hc
        simp only [fitAll] at h
        cases h1 : fit (junk k) n (some d) with
        | error e => simp [h1] at h
        | ok p =>
          obtain ⟨s, o⟩ := p
          simp only [h1] at h
          cases h2 : fitAll junk (k + 1) ns o with
          | error e => simp [h2] at h
          | ok q =>
            obtain ⟨ss', out'⟩ := q
            simp only [h2, Except.ok.injEq, Prod.mk.injEq] at h
            obtain ⟨rfl, rfl⟩ := h
            cases o with
            | none =>
              have hop : ∃ e, ((n.learn d).proc (junk k)).op d = .error e ∧ s = n.learn d := by
                simp only [fit] at h1
                cases he : ((n.learn d).proc (junk k)).op d with
                | ok o => simp [he] at h1
                | error e =>
                  simp only [he] at h1
                  split at h1
                  · simp only [Except.ok.injEq, Prod.mk.injEq] at h1
                    exact ⟨e, rfl, h1.1.symm⟩
                  · cases h1
              obtain ⟨e, he, rfl⟩ := hop
              refine ⟨e, ?_⟩
              simp only [List.map_cons, forwardAll, Proc.step, op_error (junk k) junk' _ _ _ he]
            | some b =>
              obtain ⟨b0, inv, hb0, hs', hs⟩ := fit_some h1
              cases hb0
              subst hs'
              obtain ⟨f, e1, e2⟩ := step_rowwise (junk k) _ d b inv (hc.1 d rfl) hs
              obtain ⟨inv', s1⟩ := e2 junk' d.rows (fun r hr => hr)
              have hb : (⟨b.fshape, d.rows.map f⟩ : Batch) = b := e1.symm
              have hb0 : (⟨d.fshape, d.rows⟩ : Batch) = d := rfl
              rw [hb, hb0] at s1
              obtain ⟨e, he⟩ := ih (k + 1) b ss' h2 (hc.2 _ _ h1)
              exact ⟨e, by simp only [List.map_cons, forwardAll, s1, he]⟩
    rintro ⟨r, hr⟩ rfl
    obtain ⟨e, he⟩ := key ns 0 d ss h hc
    simp [transform, he] at hr
  · intro ho
    obtain ⟨out, rfl⟩ := Option.ne_none_iff_exists'.1 ho
    obtain ⟨r, hr, _⟩ := C257_stored junk junk' ns d out ss h hc
    exact ⟨r, hr⟩

/-- **C259**: of the library's operations, `Sharpen` alone can raise while its node ignores it: without a kernel, or for examples that are not one row of numbers. -/
theorem C259_which (junk : Nat → Nat → ℝ) (n : Node) (d : Batch) : (∃ s, fit junk n (some d) = .ok (s, none)) ↔ ∃ k, n = .sharpen k ∧ (k = none ∨ d.fshape.length ≠ 1) := by
  have key : (∃ s, fit junk n (some d) = .ok (s, none)) ↔ ∃ e, ((n.learn d).proc junk).op d = .error e ∧ n.ignores e = true := by
    simp only [fit]
    cases h : ((n.learn d).proc junk).op d with
    | ok o => simp
    | error e => cases hi : n.ignores e <;> simp [hi]
  rw [key]
  cases n with
  | sharpen k =>
    cases k with
    | none => simp [Node.learn, Step.proc, Node.ignores]
    | some k => by_cases hd : d.fshape.length = 1 <;> simp [Node.learn, Step.proc, Node.ignores, hd]
  | _ => simp [Node.learn, Step.proc, Node.ignores]

/-- The hypotheses are met: a unit norm and a `Sharpen` with a kernel on one example hand on data; `Sharpen` without one does not. -/
example (junk : Nat → Nat → Nat → ℝ) (junk' : Nat → Nat → ℝ) :
    (∃ r, transform [(Step.sharpen (some [1])).proc junk'] ⟨[2], [[3, 4]]⟩ = .ok r) ∧ ¬ ∃ r, transform [(Step.sharpen none).proc junk'] ⟨[2], [[3, 4]]⟩ = .ok r := by
  have hc : ∀ k, TrainedClean junk 0 [.sharpen k] (some ⟨[2], [[3, 4]]⟩) := fun k => ⟨fun _ _ => trivial, fun _ _ _ => trivial⟩
  refine ⟨(C259_exact junk junk' [.sharpen (some [1])] _ [.sharpen (some [1])] _ ?_ (hc _)).2 (Option.some_ne_none ⟨[2], [[3, 4]].map (sharpenRow [1])⟩), fun h => ?_⟩
  · simp [fitAll, fit, Node.learn, Step.proc, outcomeData]
  · exact (C259_exact junk junk' [.sharpen none] _ [.sharpen none] none rfl (hc _)).1 h rfl

end Zounds.Fit
