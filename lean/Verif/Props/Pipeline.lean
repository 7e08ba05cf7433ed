import Verif.Model.Pipeline
import Verif.Props.Loudness
import Mathlib.Tactic.Common
import Mathlib.Tactic.FieldSimp
import Mathlib.Tactic.Ring
import Mathlib.Tactic.Linarith

/-!
# Properties C29 (pipelines) and C40 (similarity hashing)
-/

namespace Zounds.Pipeline
open Zounds

/-! ## C29: pipelines of any steps -/

/-- The step's inverse undoes it on `d`. -/
def UndoneOn {D I : Type} (p : Proc D I) (d : D) : Prop :=
  ∀ out inv, p.step d = .ok (out, inv) → p.inverse out inv = .ok d

/-- Every step of the pipeline is undone by its inverse on the data it gets. -/
def AllUndone {D I : Type} : List (Proc D I) → D → Prop
  | [], _ => True
  | p :: ps, d => UndoneOn p d ∧ ∀ out inv, p.step d = .ok (out, inv) → AllUndone ps out

theorem backAll_append {D I : Type} (a b : List (I × Proc D I)) (d : D) :
    backAll (a ++ b) d = match backAll a d with | .error e => .error e | .ok d' => backAll b d' := by
  induction a generalizing d with
  | nil => simp [backAll]
  | cons x a ih =>
    obtain ⟨inv, p⟩ := x
    simp only [List.cons_append, backAll]
    cases p.inverse d inv with
    | error e => rfl
    | ok d' => exact ih d'

theorem forwardAll_length {D I : Type} (ps : List (Proc D I)) : ∀ d out invs,
    forwardAll ps d = .ok (out, invs) → invs.length = ps.length := by
  induction ps with
  | nil => intro d out invs h; simp [forwardAll] at h; simp [← h.2]
  | cons p ps ih =>
    intro d out invs h
    unfold forwardAll at h
    cases hs : p.step d with
    | error e => simp [hs] at h
    | ok r =>
      obtain ⟨o, i⟩ := r
      simp only [hs] at h
      cases hf : forwardAll ps o with
      | error e => simp [hf] at h
      | ok r =>
        obtain ⟨o2, is⟩ := r
        simp only [hf, Except.ok.injEq, Prod.mk.injEq] at h
        rw [← h.2]
        simp [ih o o2 is hf]

/-- **C29**: if every step's inverse undoes that step on the data it is given, then `inverse_transform` of the result of `transform` is the
original data, for pipelines of any length. -/
theorem C29_pipeline {D I : Type} (ps : List (Proc D I)) : ∀ (d : D) (r : Result D I),
    transform ps d = .ok r → AllUndone ps d → r.inverseTransform = .ok d := by
  induction ps with
  | nil =>
    intro d r h _
    simp only [transform, forwardAll, Except.ok.injEq] at h
    subst h
    rfl
  | cons p ps ih =>
    intro d r h hu
    unfold transform forwardAll at h
    cases hs : p.step d with
    | error e => simp [hs] at h
    | ok res =>
      obtain ⟨o, i⟩ := res
      simp only [hs] at h
      cases hf : forwardAll ps o with
      | error e => simp [hf] at h
      | ok res2 =>
        obtain ⟨o2, is⟩ := res2
        simp only [hf, Except.ok.injEq] at h
        subst h
        have hrec := ih o ⟨o2, ps.reverse, is.reverse⟩ (by unfold transform; simp [hf]) (hu.2 o i hs)
        have hl := forwardAll_length ps o o2 is hf
        unfold Result.inverseTransform at hrec ⊢
        simp only [List.reverse_cons] at hrec ⊢
        rw [List.zip_append (by simp [hl]), backAll_append, hrec]
        simp [backAll, hu.1 o i hs]

/-- **C29**: a pipeline is applied step by step in order: splitting it anywhere gives the same data. -/
theorem C29_split {D I : Type} (ps qs : List (Proc D I)) (d : D) :
    (forwardAll (ps ++ qs) d).map (·.1)
      = match forwardAll ps d with | .error e => .error e | .ok (m, _) => (forwardAll qs m).map (·.1) := by
  induction ps generalizing d with
  | nil => simp [forwardAll]
  | cons p ps ih =>
    simp only [List.cons_append, forwardAll]
    cases hs : p.step d with
    | error e => rfl
    | ok res =>
      obtain ⟨o, i⟩ := res
      have := ih o
      simp only
      cases h1 : forwardAll (ps ++ qs) o with
      | error e =>
        rw [h1] at this
        cases h2 : forwardAll ps o with
        | error e2 => rw [h2] at this; simpa [Except.map] using this
        | ok m => rw [h2] at this; simpa [Except.map] using this
      | ok m1 =>
        rw [h1] at this
        cases h2 : forwardAll ps o with
        | error e2 => rw [h2] at this; simp [Except.map] at this
        | ok m => rw [h2] at this; simpa [Except.map] using this

/-! ## C29: the node that assembles pipelines -/

theorem assemble_first {P : Type} (n : Nat) (arr : List (Nat × P)) : ∀ (entries : List (Option P)),
    entries.length = n → (∀ a ∈ arr, a.1 < n) →
    (∀ k < n, (∃ p, entries[k]? = some (some p)) ∨ ∃ a ∈ arr, a.1 = k) →
    (∃ k < n, entries[k]? = some none) →
    ∃ out rest pre post, assemble n entries arr = out :: rest ∧ arr = pre ++ post ∧ out.length = n ∧
      ∀ k (_ : k < n), ∃ p, out[k]? = some p ∧ (entries[k]? = some (some p) ∧ (∀ a ∈ pre, a.1 ≠ k) ∨
        ((k, p) ∈ pre)) := by
  induction arr with
  | nil =>
    intro entries hl _ hall hmiss
    obtain ⟨k, hk, e⟩ := hmiss
    rcases hall k hk with ⟨p, hp⟩ | ⟨a, ha, _⟩
    · rw [e] at hp; cases hp
    · simp at ha
  | cons a arr ih =>
    intro entries hl hs hall hmiss
    obtain ⟨src, p⟩ := a
    have hsrc : src < n := hs (src, p) (by simp)
    have hget : ∀ k, k ≠ src → (entries.set src (some p))[k]? = entries[k]? :=
      fun k hk => List.getElem?_set_ne (Ne.symm hk)
    have hgets : (entries.set src (some p))[src]? = some (some p) := by
      rw [List.getElem?_set_self (by omega)]
    by_cases hc : (entries.set src (some p)).all Option.isSome = true
    · refine ⟨(entries.set src (some p)).filterMap id, assemble n (List.replicate n none) arr, [(src, p)], arr, by
        show (if _ then _ else _) = _
        rw [if_pos hc], rfl, ?_, ?_⟩
      · have : ∀ (l : List (Option P)), l.all Option.isSome = true → (l.filterMap id).length = l.length := by
          intro l
          induction l with
          | nil => simp
          | cons x l ihl =>
            intro h
            simp only [List.all_cons, Bool.and_eq_true] at h
            obtain ⟨y, rfl⟩ := Option.isSome_iff_exists.1 h.1
            simpa using ihl h.2
        rw [this _ hc]; simpa using hl
      · intro k hk
        have key : ∀ (l : List (Option P)), l.all Option.isSome = true → ∀ (k : Nat) (q : P), l[k]? = some (some q) →
            (l.filterMap id)[k]? = some q := by
          intro l
          induction l with
          | nil => intro _ k q h; simp at h
          | cons x l ihl =>
            intro h k q hq
            simp only [List.all_cons, Bool.and_eq_true] at h
            obtain ⟨y, rfl⟩ := Option.isSome_iff_exists.1 h.1
            cases k with
            | zero => simpa using hq
            | succ k => simpa using ihl h.2 k q (by simpa using hq)
        have hkl : k < (entries.set src (some p)).length := by simp; omega
        have hsome : ((entries.set src (some p))[k]'hkl).isSome = true := by
          rw [List.all_eq_true] at hc
          exact hc _ (List.getElem_mem hkl)
        obtain ⟨q, hq⟩ := Option.isSome_iff_exists.1 hsome
        have hq' : (entries.set src (some p))[k]? = some (some q) := by rw [List.getElem?_eq_getElem hkl, hq]
        refine ⟨q, key _ hc k q hq', ?_⟩
        by_cases hks : k = src
        · subst hks
          rw [hgets] at hq'
          cases hq'
          right; simp
        · left
          rw [hget k hks] at hq'
          refine ⟨hq', ?_⟩
          intro a ha
          simp only [List.mem_singleton] at ha
          subst ha
          exact fun h => hks h.symm
    · have hmiss' : ∃ k < n, (entries.set src (some p))[k]? = some none := by
        rw [List.all_eq_true] at hc
        push Not at hc
        obtain ⟨x, hx, hnx⟩ := hc
        obtain ⟨k, hk, e⟩ := List.mem_iff_getElem.1 hx
        have : x = none := by simpa using hnx
        exact ⟨k, by simpa [hl] using hk, by rw [List.getElem?_eq_getElem hk, e, this]⟩
      obtain ⟨out, rest, pre, post, h1, h2, h3, h4⟩ := ih (entries.set src (some p)) (by simpa using hl)
        (fun a ha => hs a (by simp [ha])) (by
          intro k hk
          by_cases hks : k = src
          · subst hks; exact Or.inl ⟨p, hgets⟩
          · rw [hget k hks]
            rcases hall k hk with h | ⟨a, ha, e⟩
            · exact Or.inl h
            · rcases List.mem_cons.1 ha with rfl | ha
              · exact absurd e.symm hks
              · exact Or.inr ⟨a, ha, e⟩) hmiss'
      refine ⟨out, rest, (src, p) :: pre, post, by
        unfold assemble; simp only [hc]; exact h1, by simp [h2], h3, ?_⟩
      intro k hk
      obtain ⟨q, hq, hor⟩ := h4 k hk
      refine ⟨q, hq, ?_⟩
      rcases hor with ⟨he, hno⟩ | hmem
      · by_cases hks : k = src
        · subst hks
          rw [hgets] at he
          cases he
          right; simp
        · rw [hget k hks] at he
          left
          refine ⟨he, ?_⟩
          intro a ha
          rcases List.mem_cons.1 ha with rfl | ha
          · exact fun h => hks h.symm
          · exact hno a ha
      · right; exact List.mem_cons_of_mem _ hmem

/-- **C29**: once every dependency has delivered its result, in whatever order, one pipeline is emitted, and its steps are in the order of the
dependencies: step `k` is a result delivered by dependency `k`. -/
theorem C29_assembled_in_order {P : Type} (n : Nat) (hn : 0 < n) (arr : List (Nat × P)) (hs : ∀ a ∈ arr, a.1 < n)
    (hall : ∀ k < n, ∃ a ∈ arr, a.1 = k) :
    ∃ out rest, assemble n (List.replicate n none) arr = out :: rest ∧ out.length = n ∧
      ∀ k (_ : k < n), ∃ p, out[k]? = some p ∧ (k, p) ∈ arr := by
  obtain ⟨out, rest, pre, post, h1, h2, h3, h4⟩ := assemble_first n arr (List.replicate n none) (by simp) hs
    (fun k hk => Or.inr (hall k hk)) ⟨0, hn, by simp [List.getElem?_replicate, hn]⟩
  refine ⟨out, rest, h1, h3, ?_⟩
  intro k hk
  obtain ⟨p, hp, hor⟩ := h4 k hk
  refine ⟨p, hp, ?_⟩
  rcases hor with ⟨h, _⟩ | h
  · simp [List.getElem?_replicate, hk] at h
  · rw [h2]; exact List.mem_append_left _ h

example := C29_assembled_in_order 2 (by decide) [(1, "b"), (0, "a"), (1, "c")] (by decide) (by decide)

/-- Arrival out of order. -/
example : assemble 2 [none, none] [(1, "b"), (0, "a")] = [["a", "b"]] := by decide

/-! ## C29: the library's steps -/

/-- Every example has as many values as the shape says. -/
def WF (d : Batch) : Prop := ∀ r ∈ d.rows, r.length = size d.fshape

/-- Where the steps can be undone. -/
def Dom : Step → Batch → Prop
  | .unitNorm, d => d.fshape ≠ []
  | .meanStd mean std, d => mean.length = size d.fshape ∧ std.length = size d.fshape ∧
      ∀ r ∈ d.rows, ∀ j, std.getD j 0 = 0 → r.getD j 0 = mean.getD j 0
  | .instanceScaling mv, d => mv ≠ 0 ∧ size d.fshape ≠ 0
  | .multiply f, _ => f ≠ 0
  | .weighted w, d => w.length = size d.fshape ∧ ∀ v ∈ w, v ≠ 0
  | .muLaw, _ => True
  | .log, _ => True
  | .slicer a b, d => ∃ w, d.fshape.getLast? = some w ∧
      ∀ r ∈ d.rows, ∀ i j, j < w → (j < a ∨ b ≤ j) → r.getD (i * w + j) 0 = 0
  | .reshape sh, d => size sh = size d.fshape
  | .absoluteValue, _ => False
  | .binarize _, _ => False
  | .sharpen _, _ => False

theorem mapAll_inv (f g : ℝ → ℝ) (h : ∀ x, g (f x) = x) (d : Batch) : mapAll g (mapAll f d) = d := by
  simp only [mapAll, List.map_map]
  congr 1
  conv_rhs => rw [← List.map_id d.rows]
  apply List.map_congr_left
  intro r _
  simp [h, Function.comp_def]

theorem mapAll_wf (f : ℝ → ℝ) (d : Batch) (h : WF d) : WF (mapAll f d) := by
  intro r hr
  obtain ⟨r', hr', rfl⟩ := List.mem_map.1 hr
  simpa [mapAll] using h r' hr'

theorem sum_sq_zero (row : List ℝ) (h : (row.map (fun v => v ^ 2)).sum = 0) : ∀ v ∈ row, v = 0 := by
  have hnn : ∀ (l : List ℝ), 0 ≤ (l.map (fun v => v ^ 2)).sum := by
    intro l
    induction l with
    | nil => simp
    | cons x l ih => simp only [List.map_cons, List.sum_cons]; positivity
  induction row with
  | nil => intro v hv; simp at hv
  | cons x l ih =>
    intro v hv
    simp only [List.map_cons, List.sum_cons] at h
    have h1 := hnn l
    have h2 := sq_nonneg x
    rcases List.mem_cons.1 hv with rfl | hv
    · exact pow_eq_zero_iff (two_ne_zero) |>.1 (by linarith)
    · exact ih (by linarith) v hv

theorem norm_zero (row : List ℝ) (h : norm row = 0) : ∀ v ∈ row, v = 0 := by
  have hnn : ∀ (l : List ℝ), 0 ≤ (l.map (fun v => v ^ 2)).sum := by
    intro l
    induction l with
    | nil => simp
    | cons x l ih => simp only [List.map_cons, List.sum_cons]; positivity
  exact sum_sq_zero row ((Real.sqrt_eq_zero (hnn row)).1 h)

theorem le_foldl_max (l : List ℝ) : ∀ a, a ≤ l.foldl max a ∧ ∀ x ∈ l, x ≤ l.foldl max a := by
  induction l with
  | nil => intro a; simp
  | cons y l ih =>
    intro a
    obtain ⟨h1, h2⟩ := ih (max a y)
    refine ⟨le_trans (le_max_left _ _) h1, ?_⟩
    intro x hx
    rcases List.mem_cons.1 hx with rfl | hx
    · exact le_trans (le_max_right _ _) h1
    · exact h2 x hx

theorem maxAbs_zero (row : List ℝ) (h : maxAbs row = 0) : ∀ v ∈ row, v = 0 := by
  intro v hv
  have := (le_foldl_max (row.map (fun v => |v|)) 0).2 |v| (List.mem_map.2 ⟨v, hv, rfl⟩)
  unfold maxAbs at h
  rw [h] at this
  exact abs_eq_zero.1 (le_antisymm this (abs_nonneg v))

theorem divWhere_length (junk : Nat → ℝ) (row : List ℝ) (m : ℝ) : (divWhere junk row m).length = row.length := by
  unfold divWhere; split <;> simp

theorem divWhere_mul (junk : Nat → ℝ) (row : List ℝ) (m : ℝ) (hz : m = 0 → ∀ v ∈ row, v = 0) :
    (divWhere junk row m).map (· * m) = row := by
  unfold divWhere
  split
  · rename_i h
    rw [List.map_map]
    conv_rhs => rw [← List.map_id row]
    apply List.map_congr_left
    intro v _
    show v / m * m = v
    field_simp
  · rename_i h
    have hm : m = 0 := by simpa using h
    apply List.ext_getElem
    · simp
    · intro i h1 h2
      simp only [List.getElem_map, hm, mul_zero]
      exact (hz hm _ (List.getElem_mem h2)).symm

theorem zipWith_mapIdx_map (f : Nat → List ℝ → List ℝ) (g : List ℝ → ℝ) (h : List ℝ → ℝ → List ℝ) (rows : List (List ℝ))
    (hyp : ∀ i, ∀ r ∈ rows, h (f i r) (g r) = r) : List.zipWith h (rows.mapIdx f) (rows.map g) = rows := by
  apply List.ext_getElem
  · simp
  · intro i h1 h2
    simp only [List.getElem_zipWith, List.getElem_mapIdx, List.getElem_map]
    exact hyp i _ (List.getElem_mem h2)

/-- **C29**, unit norm: the inverse restores every example (also the silent ones), when examples have at least one axis. -/
theorem C29_unit_norm (junk : Nat → Nat → ℝ) (d : Batch) (h : Dom .unitNorm d) :
    ∃ out inv, (Step.unitNorm.proc junk).step d = .ok (out, inv) ∧ (Step.unitNorm.proc junk).inverse out inv = .ok d := by
  refine ⟨_, _, rfl, ?_⟩
  have hf : d.fshape ≠ [] := h
  simp only [Step.proc, unitNormInv, unitNorm, hf, if_false]
  congr 1
  have := zipWith_mapIdx_map (fun i r => divWhere (junk i) r (norm r)) norm (fun r n => r.map (· * n)) d.rows
    (fun i r _ => divWhere_mul (junk i) r (norm r) (norm_zero r))
  rw [this]

example (junk : Nat → Nat → ℝ) := C29_unit_norm junk ⟨[2], [[3, 4], [0, 0]]⟩ (by simp [Dom])

/-- **C29**, instance scaling. -/
theorem C29_instance_scaling (junk : Nat → Nat → ℝ) (mv : ℝ) (d : Batch) (h : Dom (.instanceScaling mv) d) :
    ∃ out inv, ((Step.instanceScaling mv).proc junk).step d = .ok (out, inv) ∧
      ((Step.instanceScaling mv).proc junk).inverse out inv = .ok d := by
  obtain ⟨hm, hs⟩ := h
  refine ⟨_, _, by
    unfold Proc.step Step.proc
    simp only [hs, and_false, if_false]
    rfl, ?_⟩
  simp only [Step.proc, instanceScalingInv, instanceScaling]
  congr 1
  have := zipWith_mapIdx_map (fun i r => (divWhere (junk i) r (maxAbs r)).map (mv * ·)) maxAbs
    (fun r m => r.map (fun v => v * m / mv)) d.rows (by
      intro i r _
      rw [List.map_map]
      have h1 := divWhere_mul (junk i) r (maxAbs r) (maxAbs_zero r)
      conv_rhs => rw [← h1]
      apply List.map_congr_left
      intro v _
      show mv * v * maxAbs r / mv = v * maxAbs r
      field_simp)
  rw [this]

example (junk : Nat → Nat → ℝ) := C29_instance_scaling junk 1 ⟨[2], [[3, 4], [0, 0]]⟩ (by simp [Dom, size])

theorem meanStd_row (junk : Nat → ℝ) : ∀ (xs ms ss : List ℝ) (k : Nat), xs.length = ms.length → xs.length = ss.length →
    (∀ j, ss.getD j 0 = 0 → xs.getD j 0 = ms.getD j 0) →
    meanStdInvRow (meanStdRow junk k xs ms ss) ms ss = xs := by
  intro xs
  induction xs with
  | nil => intro ms ss k _ _ _; cases ms <;> cases ss <;> simp [meanStdRow, meanStdInvRow]
  | cons x xs ih =>
    intro ms ss k h1 h2 hz
    cases ms with
    | nil => simp at h1
    | cons m ms =>
      cases ss with
      | nil => simp at h2
      | cons s ss =>
        simp only [meanStdRow, meanStdInvRow]
        rw [ih ms ss (k + 1) (by simpa using h1) (by simpa using h2) (fun j hj => by simpa using hz (j + 1) (by simpa using hj))]
        congr 1
        split
        · rename_i hs
          field_simp
          ring
        · rename_i hs
          have hs0 : s = 0 := by simpa using hs
          have := hz 0 (by simpa using hs0)
          simp only [List.getD_cons_zero] at this
          rw [hs0, this]; ring

theorem meanStdRow_length (junk : Nat → ℝ) : ∀ (xs ms ss : List ℝ) (k : Nat), xs.length = ms.length → xs.length = ss.length →
    (meanStdRow junk k xs ms ss).length = xs.length := by
  intro xs
  induction xs with
  | nil => intro ms ss k _ _; cases ms <;> cases ss <;> simp [meanStdRow]
  | cons x xs ih =>
    intro ms ss k h1 h2
    cases ms with
    | nil => simp at h1
    | cons m ms =>
      cases ss with
      | nil => simp at h2
      | cons s ss => simp [meanStdRow, ih ms ss (k + 1) (by simpa using h1) (by simpa using h2)]

/-- **C29**, mean/standard deviation normalisation: undone wherever the deviation is not zero, and where it is zero if the value is the
mean (as it is for all training data). -/
theorem C29_mean_std (junk : Nat → Nat → ℝ) (mean std : List ℝ) (d : Batch) (hw : WF d) (h : Dom (.meanStd mean std) d) :
    ∃ out inv, ((Step.meanStd mean std).proc junk).step d = .ok (out, inv) ∧
      ((Step.meanStd mean std).proc junk).inverse out inv = .ok d := by
  obtain ⟨h1, h2, h3⟩ := h
  refine ⟨_, _, by
    unfold Proc.step Step.proc
    simp only [h1, h2, and_self, if_true]
    rfl, ?_⟩
  simp only [Step.proc]
  congr 1
  have : (d.rows.mapIdx (fun i r => meanStdRow (junk i) 0 r mean std)).map (fun r => meanStdInvRow r mean std) = d.rows := by
    apply List.ext_getElem
    · simp
    · intro i a b
      simp only [List.getElem_map, List.getElem_mapIdx]
      have hr := hw _ (List.getElem_mem b)
      exact meanStd_row (junk i) _ _ _ 0 (by omega) (by omega) (h3 _ (List.getElem_mem b))
  rw [this]

example (junk : Nat → Nat → ℝ) := C29_mean_std junk [1, 2] [3, 0] ⟨[2], [[3, 2], [0, 2]]⟩ (by simp [WF, size])
  ⟨rfl, rfl, by
    intro r hr j hj
    match j with
    | 0 => simp at hj
    | 1 => rcases List.mem_cons.1 hr with rfl | hr
           · rfl
           · simp at hr; subst hr; rfl
    | k + 2 => rcases List.mem_cons.1 hr with rfl | hr
               · simp
               · simp at hr; subst hr; simp⟩

/-- **C29**, multiplication. -/
theorem C29_multiply (junk : Nat → Nat → ℝ) (f : ℝ) (d : Batch) (h : Dom (.multiply f) d) :
    ∃ out inv, ((Step.multiply f).proc junk).step d = .ok (out, inv) ∧ ((Step.multiply f).proc junk).inverse out inv = .ok d := by
  have hf : f ≠ 0 := h
  refine ⟨_, _, rfl, ?_⟩
  simp only [Step.proc, hf, if_false]
  congr 1
  apply mapAll_inv
  intro x
  field_simp

example (junk : Nat → Nat → ℝ) := C29_multiply junk 2 ⟨[2], [[3, 4], [0, 0]]⟩ (by simp [Dom])

/-- **C29**, weighting. -/
theorem C29_weighted (junk : Nat → Nat → ℝ) (w : List ℝ) (d : Batch) (hw : WF d) (h : Dom (.weighted w) d) :
    ∃ out inv, ((Step.weighted w).proc junk).step d = .ok (out, inv) ∧ ((Step.weighted w).proc junk).inverse out inv = .ok d := by
  obtain ⟨h1, h2⟩ := h
  refine ⟨_, _, by
    unfold Proc.step Step.proc
    simp only [h1, if_true]
    rfl, ?_⟩
  simp only [Step.proc]
  congr 1
  have : (d.rows.map (fun r => List.zipWith (· * ·) r w)).map (fun r => List.zipWith (· / ·) r w) = d.rows := by
    rw [List.map_map]
    conv_rhs => rw [← List.map_id d.rows]
    apply List.map_congr_left
    intro r hr
    have hl := hw r hr
    apply List.ext_getElem
    · simp; omega
    · intro i a b
      have : i < w.length := by simp at a; omega
      have := h2 _ (List.getElem_mem this)
      simp only [Function.comp_apply, List.getElem_zipWith, id]
      field_simp
  rw [this]

example (junk : Nat → Nat → ℝ) := C29_weighted junk [2, 3] ⟨[2], [[3, 4], [0, 0]]⟩ (by simp [WF, size]) (by simp [Dom, size])

/-- **C29**, mu law compression. -/
theorem C29_mu_law (junk : Nat → Nat → ℝ) (d : Batch) :
    ∃ out inv, (Step.muLaw.proc junk).step d = .ok (out, inv) ∧ (Step.muLaw.proc junk).inverse out inv = .ok d := by
  refine ⟨_, _, rfl, ?_⟩
  simp only [Step.proc]
  congr 1
  apply mapAll_inv
  intro x
  exact Props.Loudness.C46_mu_law_left_inverse mu x (by unfold mu; norm_num)

/-- **C29**, logarithm. -/
theorem C29_log (junk : Nat → Nat → ℝ) (d : Batch) :
    ∃ out inv, (Step.log.proc junk).step d = .ok (out, inv) ∧ (Step.log.proc junk).inverse out inv = .ok d := by
  refine ⟨_, _, rfl, ?_⟩
  simp only [Step.proc]
  congr 1
  apply mapAll_inv
  intro x
  exact Props.Loudness.C46_log_modulus_left_inverse x

/-- **C29**, reshaping. -/
theorem C29_reshape (junk : Nat → Nat → ℝ) (sh : List Nat) (d : Batch) (h : Dom (.reshape sh) d) :
    ∃ out inv, ((Step.reshape sh).proc junk).step d = .ok (out, inv) ∧ ((Step.reshape sh).proc junk).inverse out inv = .ok d := by
  have hs : size sh = size d.fshape := h
  refine ⟨_, _, by
    unfold Proc.step Step.proc
    simp only [hs, or_true, if_true]
    rfl, ?_⟩
  simp [Step.proc, hs]

example (junk : Nat → Nat → ℝ) := C29_reshape junk [2, 1] ⟨[2], [[3, 4], [0, 0]]⟩ (by simp [Dom, size])

/-! ### Slicing -/

theorem linesOf_length (w : Nat) (k : Nat) : ∀ row, (linesOf w k row).length = k := by
  induction k with
  | zero => intro row; rfl
  | succ k ih => intro row; simp [linesOf, ih]

theorem linesOf_flatten (w k : Nat) : ∀ row : List ℝ, row.length = k * w → (linesOf w k row).flatten = row := by
  induction k with
  | zero => intro row h; simp at h; simp [linesOf, h]
  | succ k ih =>
    intro row h
    simp only [linesOf, List.flatten_cons]
    rw [ih (row.drop w) (by simp [h, Nat.add_mul]), List.take_append_drop]

theorem linesOf_mem (w k : Nat) : ∀ (row : List ℝ), row.length = k * w → ∀ l ∈ linesOf w k row, l.length = w := by
  induction k with
  | zero => intro row _ l hl; simp [linesOf] at hl
  | succ k ih =>
    intro row h l hl
    simp only [linesOf, List.mem_cons] at hl
    rcases hl with rfl | hl
    · simp [h, Nat.add_mul]
    · exact ih _ (by simp [h, Nat.add_mul]) l hl

theorem linesOf_of_lines (w : Nat) (ls : List (List ℝ)) (h : ∀ l ∈ ls, l.length = w) : linesOf w ls.length ls.flatten = ls := by
  induction ls with
  | nil => rfl
  | cons l ls ih =>
    have hl := h l (by simp)
    simp only [List.length_cons, linesOf, List.flatten_cons]
    rw [List.take_left' hl, List.drop_left' hl, ih (fun x hx => h x (by simp [hx]))]

theorem linesOf_get (w k : Nat) : ∀ (row : List ℝ) (i : Nat) (h : i < (linesOf w k row).length),
    (linesOf w k row)[i] = (row.drop (i * w)).take w := by
  induction k with
  | zero => intro row i h; simp [linesOf] at h
  | succ k ih =>
    intro row i h
    cases i with
    | zero => simp [linesOf]
    | succ i =>
      simp only [linesOf, List.getElem_cons_succ]
      rw [ih (row.drop w) i (by simpa [linesOf] using h), List.drop_drop]
      congr 2
      rw [Nat.add_mul]; omega

theorem sliceLine_length (w a b : Nat) (l : List ℝ) (h : l.length = w) : (sliceLine a b l).length = min b w - min a w := by
  simp [sliceLine, h]; omega

theorem unslice_slice (w a b : Nat) (l : List ℝ) (h : l.length = w)
    (hz : ∀ j, j < w → (j < a ∨ b ≤ j) → l.getD j 0 = 0) : unsliceLine w a b (sliceLine a b l) = l := by
  unfold unsliceLine
  apply List.ext_getElem
  · simp [sliceLine, h]; omega
  · intro i h1 h2
    have hi : i < w := by omega
    have hzi := hz i hi
    rw [List.getD_eq_getElem?_getD, List.getElem?_eq_getElem h2, Option.getD_some] at hzi
    by_cases c1 : i < min a w
    · rw [List.getElem_append_left (by simp; omega), List.getElem_append_left (by simpa using c1), List.getElem_replicate]
      exact (hzi (Or.inl (by omega))).symm
    · by_cases c2 : i < b
      · rw [List.getElem_append_left (by simp [sliceLine_length w a b l h]; omega),
          List.getElem_append_right (by simp; omega)]
        simp only [List.length_replicate, sliceLine, List.getElem_drop, List.getElem_take]
        congr 1
        omega
      · rw [List.getElem_append_right (by simp [sliceLine_length w a b l h]; omega), List.getElem_replicate]
        exact (hzi (Or.inr (by omega))).symm

theorem size_split (sh : List Nat) (w : Nat) (h : sh.getLast? = some w) : size sh = size sh.dropLast * w := by
  have hne : sh ≠ [] := by rintro rfl; simp at h
  have hl : sh.getLast hne = w := by
    rw [List.getLast?_eq_some_getLast hne] at h
    exact Option.some.inj h
  conv_lhs => rw [← List.dropLast_append_getLast hne, hl]
  simp [size, List.prod_append]

/-- **C29**, slicing: undone when everything outside the slice is zero. -/
theorem C29_slicer (junk : Nat → Nat → ℝ) (a b : Nat) (d : Batch) (hw : WF d) (h : Dom (.slicer a b) d) :
    ∃ out inv, ((Step.slicer a b).proc junk).step d = .ok (out, inv) ∧ ((Step.slicer a b).proc junk).inverse out inv = .ok d := by
  obtain ⟨w, h1, h2⟩ := h
  refine ⟨_, _, by
    unfold Proc.step Step.proc
    simp only [slicer, h1, Except.map]
    rfl, ?_⟩
  simp only [Step.proc, slicerInv, h1, if_true]
  have hs := size_split _ _ h1
  have key : (d.rows.map (fun r => ((linesOf w (size d.fshape.dropLast) r).map (sliceLine a b)).flatten)).map
      (fun r => ((linesOf (min b w - min a w) (size d.fshape.dropLast) r).map (unsliceLine w a b)).flatten) = d.rows := by
    rw [List.map_map]
    conv_rhs => rw [← List.map_id d.rows]
    apply List.map_congr_left
    intro r hr
    have hl : r.length = size d.fshape.dropLast * w := by rw [hw r hr, hs]
    have e1 : linesOf (min b w - min a w) (size d.fshape.dropLast) ((linesOf w (size d.fshape.dropLast) r).map (sliceLine a b)).flatten
        = (linesOf w (size d.fshape.dropLast) r).map (sliceLine a b) := by
      have := linesOf_of_lines (min b w - min a w) ((linesOf w (size d.fshape.dropLast) r).map (sliceLine a b)) (by
        intro l hl'
        obtain ⟨l', hl'', rfl⟩ := List.mem_map.1 hl'
        exact sliceLine_length w a b l' (linesOf_mem w _ r hl l' hl''))
      rwa [List.length_map, linesOf_length] at this
    show ((linesOf (min b w - min a w) (size d.fshape.dropLast)
      ((linesOf w (size d.fshape.dropLast) r).map (sliceLine a b)).flatten).map (unsliceLine w a b)).flatten = r
    rw [e1, List.map_map]
    have e2 : (linesOf w (size d.fshape.dropLast) r).map (unsliceLine w a b ∘ sliceLine a b) = linesOf w (size d.fshape.dropLast) r := by
      apply List.ext_getElem
      · simp
      · intro i g1 g2
        simp only [List.getElem_map, Function.comp_apply]
        apply unslice_slice w a b _ (linesOf_mem w _ r hl _ (List.getElem_mem g2))
        intro j hj hout
        rw [linesOf_get, List.getD_eq_getElem?_getD, List.getElem?_take, if_pos hj, List.getElem?_drop,
          ← List.getD_eq_getElem?_getD]
        exact h2 r hr i j hj hout
    rw [e2, linesOf_flatten w _ r hl]
  rw [key]

example (junk : Nat → Nat → ℝ) := C29_slicer junk 0 1 ⟨[2], [[3, 0], [5, 0]]⟩ (by simp [WF, size]) ⟨2, rfl, by
    intro r hr i j hj hjj
    have hj1 : j = 1 := by omega
    subst hj1
    rcases List.mem_cons.1 hr with rfl | hr
    · match i with
      | 0 => rfl
      | k + 1 => rw [List.getD_eq_getElem?_getD, List.getElem?_eq_none (by simp; omega)]; rfl
    · simp at hr; subst hr
      match i with
      | 0 => rfl
      | k + 1 => rw [List.getD_eq_getElem?_getD, List.getElem?_eq_none (by simp; omega)]; rfl⟩

/-! ### Well-formedness is kept -/

/-- **C29**: every step's output has the shape it announces. -/
theorem C29_shapes (junk : Nat → Nat → ℝ) (s : Step) (d out : Batch) (inv : Inv) (hw : WF d)
    (h : (s.proc junk).step d = .ok (out, inv)) : WF out ∧ out.rows.length = d.rows.length := by
  have mapIdx_wf : ∀ (f : Nat → List ℝ → List ℝ), (∀ i, ∀ r ∈ d.rows, (f i r).length = r.length) →
      WF ⟨d.fshape, d.rows.mapIdx f⟩ := by
    intro f hf r hr
    obtain ⟨i, hi, rfl⟩ := List.mem_mapIdx.1 hr
    show (f i d.rows[i]).length = size d.fshape
    rw [hf i _ (List.getElem_mem hi)]
    exact hw _ (List.getElem_mem hi)
  cases s with
  | unitNorm =>
    simp only [Proc.step, Step.proc, Except.ok.injEq, Prod.mk.injEq] at h
    rw [← h.1]
    exact ⟨mapIdx_wf _ (fun i r _ => divWhere_length _ _ _), by simp [unitNorm]⟩
  | meanStd mean std =>
    unfold Proc.step Step.proc at h
    by_cases hc : mean.length = size d.fshape ∧ std.length = size d.fshape
    · simp only [hc, and_self, if_true, Except.ok.injEq, Prod.mk.injEq] at h
      rw [← h.1]
      refine ⟨mapIdx_wf _ ?_, by simp⟩
      intro i r hr
      have := hw r hr
      exact meanStdRow_length _ _ _ _ _ (by omega) (by omega)
    · simp [hc] at h
  | instanceScaling mv =>
    unfold Proc.step Step.proc at h
    by_cases hc : d.rows ≠ [] ∧ size d.fshape = 0
    · simp [hc] at h
    · simp only [hc, if_false, Except.ok.injEq, Prod.mk.injEq] at h
      rw [← h.1]
      refine ⟨mapIdx_wf _ ?_, by simp [instanceScaling]⟩
      intro i r _
      simp [divWhere_length]
  | multiply f =>
    simp only [Proc.step, Step.proc, Except.ok.injEq, Prod.mk.injEq] at h
    rw [← h.1]
    exact ⟨mapAll_wf _ d hw, by simp [mapAll]⟩
  | weighted w =>
    unfold Proc.step Step.proc at h
    by_cases hc : w.length = size d.fshape
    · simp only [hc, if_true, Except.ok.injEq, Prod.mk.injEq] at h
      rw [← h.1]
      refine ⟨?_, by simp⟩
      intro r hr
      obtain ⟨r', hr', rfl⟩ := List.mem_map.1 hr
      have := hw r' hr'
      simp; omega
    · simp [hc] at h
  | muLaw =>
    simp only [Proc.step, Step.proc, Except.ok.injEq, Prod.mk.injEq] at h
    rw [← h.1]
    exact ⟨mapAll_wf _ d hw, by simp [mapAll]⟩
  | log =>
    simp only [Proc.step, Step.proc, Except.ok.injEq, Prod.mk.injEq] at h
    rw [← h.1]
    exact ⟨mapAll_wf _ d hw, by simp [mapAll]⟩
  | slicer a b =>
    unfold Proc.step Step.proc at h
    cases hl : d.fshape.getLast? with
    | none => simp [slicer, hl, Except.map] at h
    | some w =>
      simp only [slicer, hl, Except.map, Except.ok.injEq, Prod.mk.injEq] at h
      rw [← h.1]
      refine ⟨?_, by simp⟩
      intro r hr
      obtain ⟨r', hr', rfl⟩ := List.mem_map.1 hr
      have hlen : r'.length = size d.fshape.dropLast * w := by rw [hw r' hr', size_split _ _ hl]
      have hsum : ∀ (ls : List (List ℝ)), (∀ l ∈ ls, l.length = w) →
          ((ls.map (sliceLine a b)).flatten).length = ls.length * (min b w - min a w) := by
        intro ls
        induction ls with
        | nil => intro _; simp
        | cons l ls ih =>
          intro hls
          simp only [List.map_cons, List.flatten_cons, List.length_append, List.length_cons]
          rw [sliceLine_length w a b l (hls l (by simp)), ih (fun x hx => hls x (by simp [hx]))]
          ring
      show ((linesOf w (size d.fshape.dropLast) r').map (sliceLine a b)).flatten.length = _
      rw [hsum _ (linesOf_mem w _ r' hlen), linesOf_length]
      simp [size, List.prod_append]
  | reshape sh =>
    unfold Proc.step Step.proc at h
    by_cases hc : d.rows = [] ∨ size sh = size d.fshape
    · simp only [hc, if_true, Except.ok.injEq, Prod.mk.injEq] at h
      rw [← h.1]
      refine ⟨?_, rfl⟩
      intro r hr
      rcases hc with hc | hc
      · simp [hc] at hr
      · show r.length = size sh
        rw [hc]; exact hw r hr
    · simp [hc] at h
  | absoluteValue =>
    simp only [Proc.step, Step.proc, Except.ok.injEq, Prod.mk.injEq] at h
    rw [← h.1]
    exact ⟨mapAll_wf _ d hw, by simp [mapAll]⟩
  | binarize t =>
    simp only [Proc.step, Step.proc, Except.ok.injEq, Prod.mk.injEq] at h
    rw [← h.1]
    exact ⟨mapAll_wf _ d hw, by simp [mapAll]⟩
  | sharpen kernel =>
    unfold Proc.step Step.proc at h
    cases kernel with
    | none => simp at h
    | some k =>
      by_cases hc : d.fshape.length = 1
      · simp only [hc, if_true, Except.ok.injEq, Prod.mk.injEq] at h
        rw [← h.1]
        refine ⟨?_, by simp⟩
        intro r hr
        obtain ⟨r', hr', rfl⟩ := List.mem_map.1 hr
        show (sharpenRow k r').length = size d.fshape
        rw [← hw r' hr']
        simp [sharpenRow]
      · simp [hc] at h

example (junk : Nat → Nat → ℝ) : ∃ out : Batch, WF out ∧ out.rows.length = 2 := by
  obtain ⟨out, inv, h⟩ := C29_multiply junk 2 ⟨[2], [[3, 4], [0, 0]]⟩ (by simp [Dom])
  exact ⟨out, C29_shapes junk (.multiply 2) _ out inv (by simp [WF, size]) h.1⟩

/-- Every library step can be undone on its domain. -/
theorem C29_step (junk : Nat → Nat → ℝ) (s : Step) (d : Batch) (hw : WF d) (h : Dom s d) :
    ∃ out inv, (s.proc junk).step d = .ok (out, inv) ∧ (s.proc junk).inverse out inv = .ok d := by
  cases s with
  | unitNorm => exact C29_unit_norm junk d h
  | meanStd m s => exact C29_mean_std junk m s d hw h
  | instanceScaling mv => exact C29_instance_scaling junk mv d h
  | multiply f => exact C29_multiply junk f d h
  | weighted w => exact C29_weighted junk w d hw h
  | muLaw => exact C29_mu_law junk d
  | log => exact C29_log junk d
  | slicer a b => exact C29_slicer junk a b d hw h
  | reshape sh => exact C29_reshape junk sh d h
  | absoluteValue => exact absurd h id
  | binarize t => exact absurd h id
  | sharpen k => exact absurd h id

example (junk : Nat → Nat → ℝ) := C29_step junk (.multiply 2) ⟨[2], [[3, 4], [0, 0]]⟩ (by simp [WF, size]) (by simp [Dom])

/-- Each step of a pipeline of library steps gets data from its domain. -/
def DomAlong (junk : Nat → Nat → ℝ) : List Step → Batch → Prop
  | [], _ => True
  | s :: ss, d => Dom s d ∧ ∀ out inv, (s.proc junk).step d = .ok (out, inv) → DomAlong junk ss out

/-- **C29**: a pipeline of any number of library steps, each used on its domain, transforms successfully, and `inverse_transform` gives the
original data back. -/
theorem C29_library_pipeline (junk : Nat → Nat → ℝ) (ss : List Step) : ∀ (d : Batch), WF d → DomAlong junk ss d →
    ∃ r, transform (ss.map (Step.proc junk)) d = .ok r ∧ r.inverseTransform = .ok d := by
  have fwd : ∀ (ss : List Step) (d : Batch), WF d → DomAlong junk ss d →
      (∃ r, transform (ss.map (Step.proc junk)) d = .ok r) ∧ AllUndone (ss.map (Step.proc junk)) d := by
    intro ss
    induction ss with
    | nil => intro d _ _; exact ⟨⟨_, rfl⟩, trivial⟩
    | cons s ss ih =>
      intro d hw hd
      obtain ⟨out, inv, h1, h2⟩ := C29_step junk s d hw hd.1
      obtain ⟨hwo, _⟩ := C29_shapes junk s d out inv hw h1
      obtain ⟨⟨r, hr⟩, hu⟩ := ih out hwo (hd.2 out inv h1)
      constructor
      · unfold transform at hr ⊢
        simp only [List.map_cons, forwardAll, h1]
        cases hf : forwardAll (ss.map (Step.proc junk)) out with
        | error e => simp [hf] at hr
        | ok x => exact ⟨_, rfl⟩
      · refine ⟨?_, ?_⟩
        · intro o i ho
          rw [h1] at ho
          cases ho
          exact h2
        · intro o i ho
          rw [h1] at ho
          cases ho
          exact hu
  intro d hw hd
  obtain ⟨⟨r, hr⟩, hu⟩ := fwd ss d hw hd
  exact ⟨r, hr, C29_pipeline _ d r hr hu⟩

example (junk : Nat → Nat → ℝ) : ∃ r, transform ([Step.log, .multiply 2].map (Step.proc junk)) ⟨[2], [[3, -1], [0, 0]]⟩ = .ok r ∧
    r.inverseTransform = .ok ⟨[2], [[3, -1], [0, 0]]⟩ :=
  C29_library_pipeline junk [.log, .multiply 2] _ (by simp [WF, size]) ⟨trivial, fun _ _ _ => ⟨by simp [Dom], fun _ _ _ => trivial⟩⟩

/-- A three-step pipeline on a batch with a silent example meets the hypotheses. -/
example (junk : Nat → Nat → ℝ) : DomAlong junk [.log, .multiply 2, .reshape [2, 1]] ⟨[2], [[3, -1], [0, 0]]⟩ ∧
    WF ⟨[2], [[3, -1], [0, 0]]⟩ := by
  refine ⟨⟨trivial, ?_⟩, by intro r hr; simp at hr; rcases hr with rfl | rfl <;> rfl⟩
  intro out inv h
  refine ⟨by show (2 : ℝ) ≠ 0; norm_num, ?_⟩
  intro out2 inv2 h2
  refine ⟨?_, fun _ _ _ => trivial⟩
  simp only [Proc.step, Step.proc, Except.ok.injEq, Prod.mk.injEq] at h h2
  rw [← h2.1, ← h.1]
  simp [Dom, size, mapAll]

/-! ### What does not hold -/

/-- **C29**, what does not hold: for a feature that was constant in the training data, a new value is not restored; the inverse gives the mean. -/
theorem C29_constant_feature_lost (junk : Nat → Nat → ℝ) (m x : ℝ) :
    let p := (Step.meanStd [m] [0]).proc junk
    ∃ out inv, p.step ⟨[1], [[x]]⟩ = .ok (out, inv) ∧ p.inverse out inv = .ok ⟨[1], [[m]]⟩ := by
  refine ⟨⟨[1], [[junk 0 0]]⟩, .meanStd [m] [0], ?_, ?_⟩
  · simp [Proc.step, Step.proc, size, meanStdRow]
  · simp [Step.proc, meanStdInvRow]

/-- **C29**, what does not hold: the normalised value of a constant feature, or of a silent example, is whatever was in memory. -/
theorem C29_silence_is_uninitialised (junk : Nat → Nat → ℝ) :
    (Pipeline.unitNorm junk ⟨[1], [[0]]⟩).1.rows = [[junk 0 0]] ∧
    (Pipeline.instanceScaling junk 1 ⟨[1], [[0]]⟩).1.rows = [[junk 0 0]] := by
  simp [Pipeline.unitNorm, Pipeline.instanceScaling, divWhere, norm, maxAbs]

/-- **C29**, what does not hold: unit norm of examples that are single numbers (a one-dimensional array) is not undone; the inverse is a
square array. -/
theorem C29_unit_norm_one_dimensional (junk : Nat → Nat → ℝ) (d : Batch) (h : d.fshape = []) :
    ∃ out inv b, (Step.unitNorm.proc junk).step d = .ok (out, inv) ∧ (Step.unitNorm.proc junk).inverse out inv = .ok b ∧
      b.fshape = [d.rows.length] := by
  refine ⟨_, _, _, rfl, rfl, ?_⟩
  simp [unitNormInv, unitNorm, h]

example (junk : Nat → Nat → ℝ) := C29_unit_norm_one_dimensional junk ⟨[], [[3], [4]]⟩ rfl

/-- **C29**: `inverse_transform` raises for a pipeline whose last step has no inverse. -/
theorem C29_not_invertible (junk : Nat → Nat → ℝ) (t : ℝ) (d : Batch) :
    (∃ r, transform [Step.absoluteValue.proc junk] d = .ok r ∧ r.inverseTransform = .error .notImplemented) ∧
    (∃ r, transform [(Step.binarize t).proc junk] d = .ok r ∧ r.inverseTransform = .error .notImplemented) :=
  ⟨⟨_, rfl, rfl⟩, ⟨_, rfl, rfl⟩⟩

/-! ### What the steps do -/

/-- **C29**: unit norm gives every example that is not silent norm one. -/
theorem C29_unit_norm_norm (junk : Nat → Nat → ℝ) (d : Batch) (i : Nat) (h : i < d.rows.length) (hn : norm d.rows[i] ≠ 0) :
    ∃ r, (Pipeline.unitNorm junk d).1.rows[i]? = some r ∧ norm r = 1 := by
  refine ⟨divWhere (junk i) d.rows[i] (norm d.rows[i]), by simp [Pipeline.unitNorm, h], ?_⟩
  have hnn : ∀ (l : List ℝ), 0 ≤ (l.map (fun v => v ^ 2)).sum := by
    intro l
    induction l with
    | nil => simp
    | cons x l ih => simp only [List.map_cons, List.sum_cons]; positivity
  unfold divWhere
  rw [if_pos hn]
  generalize d.rows[i] = row at hn
  have hpos : 0 < norm row := lt_of_le_of_ne (Real.sqrt_nonneg _) (Ne.symm hn)
  have hs : ∀ (l : List ℝ) (m : ℝ), ((l.map (· / m)).map (fun v => v ^ 2)).sum = (l.map (fun v => v ^ 2)).sum / m ^ 2 := by
    intro l m
    induction l with
    | nil => simp
    | cons x l ih =>
      simp only [List.map_cons, List.sum_cons, ih, div_pow, add_div]
  have hsq : norm row ^ 2 = (row.map (fun v => v ^ 2)).sum := Real.sq_sqrt (hnn row)
  show Real.sqrt _ = 1
  rw [hs, hsq, div_self]
  · exact Real.sqrt_one
  · rw [← hsq]; positivity

example (junk : Nat → Nat → ℝ) := C29_unit_norm_norm junk ⟨[2], [[3, 4], [0, 0]]⟩ 0 (by simp)
  (by intro h; exact absurd (norm_zero _ h 3 (by simp)) (by norm_num))

/-- **C29**: instance scaling keeps every example within `[-max_value, max_value]`, unless it is silent. -/
theorem C29_instance_scaling_range (junk : Nat → Nat → ℝ) (mv : ℝ) (hmv : 0 ≤ mv) (d : Batch) (i : Nat) (h : i < d.rows.length)
    (hn : maxAbs d.rows[i] ≠ 0) :
    ∃ r, (Pipeline.instanceScaling junk mv d).1.rows[i]? = some r ∧ ∀ v ∈ r, |v| ≤ mv := by
  refine ⟨(divWhere (junk i) d.rows[i] (maxAbs d.rows[i])).map (mv * ·), by simp [Pipeline.instanceScaling, h], ?_⟩
  intro v hv
  obtain ⟨u, hu, rfl⟩ := List.mem_map.1 hv
  unfold divWhere at hu
  rw [if_pos hn] at hu
  obtain ⟨x, hx, rfl⟩ := List.mem_map.1 hu
  have h1 := (le_foldl_max (d.rows[i].map (fun v => |v|)) 0).2 |x| (List.mem_map.2 ⟨x, hx, rfl⟩)
  have h0 := (le_foldl_max (d.rows[i].map (fun v => |v|)) 0).1
  have hpos : 0 < maxAbs d.rows[i] := lt_of_le_of_ne h0 (Ne.symm hn)
  rw [abs_mul, abs_div, abs_of_nonneg hmv, abs_of_pos hpos]
  have : |x| / maxAbs d.rows[i] ≤ 1 := (div_le_one hpos).2 h1
  calc mv * (|x| / maxAbs d.rows[i]) ≤ mv * 1 := mul_le_mul_of_nonneg_left this hmv
    _ = mv := mul_one mv

example (junk : Nat → Nat → ℝ) := C29_instance_scaling_range junk 1 (by norm_num) ⟨[2], [[3, 4], [0, 0]]⟩ 0 (by simp)
  (by intro h; exact absurd (maxAbs_zero _ h 3 (by simp)) (by norm_num))

/-! ## C40: similarity hashing -/

theorem dot_smul (c : ℝ) (p : List ℝ) : ∀ x, dot p (x.map (c * ·)) = c * dot p x := by
  induction p with
  | nil => intro x; simp [dot]
  | cons a p ih =>
    intro x
    cases x with
    | nil => simp [dot]
    | cons b x => simp only [List.map_cons, dot, ih]; ring

/-- **C40**: one bit per plane, saying on which side of the plane the example lies. -/
theorem C40_bits (planes : List (List ℝ)) (x : List ℝ) (h : ∀ p ∈ planes, p.length = x.length) :
    ∃ bits, simhash planes x = .ok bits ∧ bits.length = planes.length ∧
      ∀ k (h1 : k < planes.length) (h2 : k < bits.length), bits[k] = true ↔ 0 < dot planes[k] x := by
  refine ⟨_, by
    unfold simhash
    rw [if_pos (by simpa using h)], by simp, ?_⟩
  intro k h1 h2
  simp

example := C40_bits [[1, 0], [0, 1]] [(3 : ℝ), -1] (by simp)

/-- **C40**: the hash depends only on the direction. -/
theorem C40_scale_invariant (planes : List (List ℝ)) (x : List ℝ) (c : ℝ) (hc : 0 < c) :
    simhash planes (x.map (c * ·)) = simhash planes x := by
  unfold simhash
  simp only [List.length_map, dot_smul]
  have : ∀ p, (0 < c * dot p x) = (0 < dot p x) := fun p => propext (mul_pos_iff_of_pos_left hc)
  simp only [this]

example := C40_scale_invariant [[1, 0], [0, 1]] [(3 : ℝ), -1] 2 (by norm_num)

/-- **C40**: the opposite vector gets the complement, except where it lies on the plane (where both bits are zero). -/
theorem C40_negation (planes : List (List ℝ)) (x : List ℝ) (h : ∀ p ∈ planes, p.length = x.length) :
    ∃ a b, simhash planes x = .ok a ∧ simhash planes (x.map (-1 * ·)) = .ok b ∧
      ∀ k (h1 : k < planes.length), (dot planes[k] x ≠ 0 → b[k]? = a[k]?.map (!·)) ∧
        (dot planes[k] x = 0 → a[k]? = some false ∧ b[k]? = some false) := by
  refine ⟨_, _, by unfold simhash; rw [if_pos (by simpa using h)], by
    unfold simhash; rw [if_pos (by simpa using h)], ?_⟩
  intro k h1
  simp only [List.getElem?_map, List.getElem?_eq_getElem h1, Option.map_some, dot_smul]
  constructor
  · intro hne
    congr 1
    rcases lt_or_gt_of_ne hne with hl | hg
    · have e1 : ¬ (0 < dot planes[k] x) := by linarith
      have e2 : 0 < -1 * dot planes[k] x := by linarith
      simp [e1]
      linarith
    · have e2 : ¬ (0 < -1 * dot planes[k] x) := by linarith
      simp [hg]
      linarith
  · intro he
    simp [he]

example := C40_negation [[1, 0], [0, 1]] [(3 : ℝ), -1] (by simp)

/-- **C40**: examples on the same side of every plane get the same hash, and only those. -/
theorem C40_equal_iff (planes : List (List ℝ)) (x y : List ℝ) (hx : ∀ p ∈ planes, p.length = x.length)
    (hy : ∀ p ∈ planes, p.length = y.length) :
    simhash planes x = simhash planes y ↔ ∀ p ∈ planes, (0 < dot p x ↔ 0 < dot p y) := by
  unfold simhash
  rw [if_pos (by simpa using hx), if_pos (by simpa using hy)]
  simp only [Except.ok.injEq]
  constructor
  · intro h p hp
    have := List.map_inj_left.1 h p hp
    simpa using this
  · intro h
    apply List.map_congr_left
    intro p hp
    simpa using h p hp

example := C40_equal_iff [[1, 0], [0, 1]] [(3 : ℝ), -1] [2, 5] (by simp) (by simp)

/-- A concrete pair of planes. -/
example : ∀ p ∈ [[1, 0], [0, 1]], p.length = [(3 : ℝ), -1].length := by simp

/-- **C40**, a constant training set (all deviations zero): both draws are the means, every plane is the zero vector, and every hash is zero. -/
theorem C40_degenerate (means : List ℝ) (n : Nat) (x : List ℝ) (hx : x.length = means.length) :
    ∃ planes, hyperplanes means (List.replicate means.length 0) (List.replicate n means) (List.replicate n means) = .ok planes ∧
      simhash planes x = .ok (List.replicate n false) := by
  have hz : ∀ (l : List ℝ), List.zipWith (· - ·) l l = List.replicate l.length (0 : ℝ) := by
    intro l
    induction l with
    | nil => rfl
    | cons a l ih => simp [ih, List.replicate_succ]
  have hd : ∀ (k : Nat) (x : List ℝ), dot (List.replicate k 0) x = 0 := by
    intro k
    induction k with
    | zero => intro x; simp [dot]
    | succ k ih =>
      intro x
      cases x with
      | nil => simp [dot, List.replicate_succ]
      | cons a x => simp [dot, List.replicate_succ, ih]
  refine ⟨List.replicate n (List.replicate means.length 0), ?_, ?_⟩
  · unfold hyperplanes
    simp [hz]
  · unfold simhash
    rw [if_pos]
    · simp [hd]
    · simp [hx]

example := C40_degenerate [1, 2] 3 [(3 : ℝ), -1] rfl

/-- **C40**: planes are only built from as many deviations as means. -/
theorem C40_mismatch (means stds : List ℝ) (a b : List (List ℝ)) (h : means.length ≠ stds.length) :
    hyperplanes means stds a b = .error .valueError := by simp [hyperplanes, h]

example := C40_mismatch [1, 2] [(3 : ℝ)] [[1]] [[2]] (by simp)

/-- The product used by `simhash` is the sum of the products. -/
theorem C40_dot (p x : List ℝ) : dot p x = (List.zipWith (· * ·) p x).sum := by
  induction p generalizing x with
  | nil => simp [dot]
  | cons a p ih => cases x with
    | nil => simp [dot]
    | cons b x => simp [dot, ih]

/-- **C29** (unit norm of plain numbers): the inverse of unit norm for examples that are single numbers is the square table of all products of
a norm and a scaled number, not the numbers. -/
theorem C29_unit_norm_square (junk : Nat → Nat → ℝ) (d : Batch) (h : d.fshape = []) :
    ∃ out norms b, (Step.unitNorm.proc junk).step d = .ok (out, norms) ∧ (Step.unitNorm.proc junk).inverse out norms = .ok b ∧
      b = unitNormInv (Pipeline.unitNorm junk d).1 (Pipeline.unitNorm junk d).2 ∧
      b.rows.length = d.rows.length ∧
      ∀ i j, i < d.rows.length → (b.rows.getD i []).getD j 0 =
        ((Pipeline.unitNorm junk d).1.rows.flatten).getD j 0 * norm (d.rows.getD i []) := by
  refine ⟨_, _, _, rfl, rfl, rfl, by simp [unitNormInv, unitNorm, h], ?_⟩
  intro i j hi
  have hf : (unitNorm junk d).1.fshape = [] := by simp [unitNorm, h]
  unfold unitNormInv
  rw [if_pos hf]
  simp only [unitNorm, List.getD_eq_getElem?_getD, List.getElem?_map, List.getElem?_eq_getElem hi, Option.map_some, Option.getD_some]
  generalize (List.mapIdx (fun i r => divWhere (junk i) r (norm r)) d.rows).flatten = l
  cases l[j]? <;> simp

example (junk : Nat → Nat → ℝ) := C29_unit_norm_square junk ⟨[], [[3], [4]]⟩ rfl

end Zounds.Pipeline
