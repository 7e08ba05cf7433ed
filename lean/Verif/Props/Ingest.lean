import Verif.Model.Ingest
import Mathlib.Tactic.Common

/-!
# C41: ingesting a data set
-/

namespace Zounds.Ingest

/-- The urls of the data set, in order. -/
def urls (data : List Item) : List Nat := data.filterMap id

/-- How often `u` is still to be looked at. -/
def pending (s : St) (u : Nat) : Nat := s.queue.count (some u) + s.inflight.count (some u, false)

/-- The invariant of every execution, whatever the number of workers. -/
structure Inv (skipIfExists : Bool) (data : List Item) (db0 : List Nat) (s : St) : Prop where
  conserve : ∀ u, s.started.count u + s.skipped.count u + pending s u = data.count (some u)
  outcome : ∀ u, s.inflight.count (some u, true) + s.failed.count u ≤ s.started.count u
  dbGrows : ∀ u ∈ db0, u ∈ s.db
  dbFrom : ∀ u ∈ s.db, u ∈ db0 ∨ u ∈ s.started
  notAgain : skipIfExists = true → ∀ u ∈ db0, u ∉ s.started
  noSkip : skipIfExists = false → s.skipped = []
  skipFrom : ∀ u ∈ s.skipped, u ∈ db0 ∨ u ∈ s.started
  allOk : ∀ u ∈ s.started, u ∈ s.db ∨ u ∈ s.failed ∨ (some u, true) ∈ s.inflight
  shape : ∀ t ∈ s.inflight, t.2 = true → t.1 ≠ none
  lostCount : s.lost + s.queue.count none + s.inflight.count (none, false) = data.count none

theorem inv_init (k : Bool) (data : List Item) (db0 : List Nat) : Inv k data db0 (St.init data db0) := by
  constructor <;> simp [St.init, pending] <;> tauto

theorem inv_step {k : Bool} {data : List Item} {db0 : List Nat} {cores : Nat} {s t : St} (h : Inv k data db0 s)
    (st : Step cores k s t) : Inv k data db0 t := by
  obtain ⟨h1, h2, h3, h4, h5, h6, h7, h8, h9, h10⟩ := h
  cases st with
  | @take x q hq hc =>
    refine ⟨?_, ?_, h3, h4, h5, h6, h7, ?_, ?_, ?_⟩
    · intro u; have := h1 u
      simp only [pending, hq, List.count_append, List.count_cons, List.count_nil] at this ⊢
      by_cases hx : x = some u
      · simp [hx] at this ⊢; omega
      · have h' : ¬ ((x, false) = ((some u, false) : Task)) := by simpa using hx
        simp [hx] at this ⊢; omega
    · intro u; have := h2 u
      simp only [List.count_append, List.count_cons, List.count_nil] at this ⊢
      simp; omega
    · intro u hu
      rcases h8 u hu with h | h | h
      · exact .inl h
      · exact .inr (.inl h)
      · exact .inr (.inr (by simp [h]))
    · intro t ht htt
      rcases List.mem_append.1 ht with ht | ht
      · exact h9 t ht htt
      · simp at ht; subst ht; simp at htt
    · simp only [hq, List.count_append, List.count_cons, List.count_nil] at h10 ⊢
      by_cases hx : x = none
      · simp [hx] at h10 ⊢; omega
      · have h' : ¬ ((x, false) = ((none, false) : Task)) := by simpa using hx
        simp [hx] at h10 ⊢; omega
  | @noRequest a b hi =>
    refine ⟨?_, ?_, h3, h4, h5, h6, h7, ?_, ?_, ?_⟩
    · intro u; have := h1 u
      simp only [pending, hi, List.count_append, List.count_cons] at this ⊢
      simp at this ⊢; omega
    · intro u; have := h2 u
      simp only [hi, List.count_append, List.count_cons] at this ⊢
      simp at this ⊢; omega
    · intro u hu
      rcases h8 u hu with h | h | h
      · exact .inl h
      · exact .inr (.inl h)
      · rw [hi] at h; simp at h
        exact .inr (.inr (by simp; tauto))
    · intro t ht htt
      apply h9 t _ htt
      rw [hi]; simp at ht ⊢; tauto
    · simp only [hi, List.count_append, List.count_cons] at h10 ⊢
      simp at h10 ⊢; omega
  | @skip a b v hi hs he =>
    refine ⟨?_, ?_, h3, h4, h5, ?_, ?_, ?_, ?_, ?_⟩
    · intro u; have := h1 u
      simp only [pending, hi, List.count_append, List.count_cons, List.count_nil] at this ⊢
      by_cases hx : v = u
      · simp [hx] at this ⊢; omega
      · simp [hx] at this ⊢; omega
    · intro u; have := h2 u
      simp only [hi, List.count_append, List.count_cons] at this ⊢
      simp at this ⊢; omega
    · intro hk; rw [hs] at hk; cases hk
    · intro u hu
      rcases List.mem_append.1 hu with hu | hu
      · exact h7 u hu
      · simp at hu; subst hu; exact h4 u he
    · intro u hu
      rcases h8 u hu with h | h | h
      · exact .inl h
      · exact .inr (.inl h)
      · rw [hi] at h; simp at h
        exact .inr (.inr (by simp; tauto))
    · intro t ht htt
      apply h9 t _ htt
      rw [hi]; simp at ht ⊢; tauto
    · simp only [hi, List.count_append, List.count_cons] at h10 ⊢
      simp at h10 ⊢; omega
  | @start a b v hi hs =>
    refine ⟨?_, ?_, h3, ?_, ?_, h6, ?_, ?_, ?_, ?_⟩
    · intro u; have := h1 u
      simp only [pending, hi, List.count_append, List.count_cons, List.count_nil] at this ⊢
      by_cases hx : v = u
      · simp [hx] at this ⊢; omega
      · simp [hx] at this ⊢; omega
    · intro u; have := h2 u
      simp only [hi, List.count_append, List.count_cons, List.count_nil] at this ⊢
      by_cases hx : v = u
      · simp [hx] at this ⊢; omega
      · simp [hx] at this ⊢; omega
    · intro u hu
      rcases h4 u hu with h | h
      · exact .inl h
      · exact .inr (by simp [h])
    · intro hk u hu hm
      rcases List.mem_append.1 hm with hm | hm
      · exact h5 hk u hu hm
      · simp at hm; subst hm; exact hs ⟨hk, h3 u hu⟩
    · intro u hu
      rcases h7 u hu with h | h
      · exact .inl h
      · exact .inr (by simp [h])
    · intro u hu
      rcases List.mem_append.1 hu with hu | hu
      · rcases h8 u hu with h | h | h
        · exact .inl h
        · exact .inr (.inl h)
        · rw [hi] at h; simp at h
          exact .inr (.inr (by simp; tauto))
      · simp at hu; subst hu
        exact .inr (.inr (by simp))
    · intro t ht htt
      simp only [List.mem_append, List.mem_cons] at ht
      rcases ht with ht | rfl | ht
      · exact h9 t (by rw [hi]; simp [ht]) htt
      · simp
      · exact h9 t (by rw [hi]; simp [ht]) htt
    · simp only [hi, List.count_append, List.count_cons] at h10 ⊢
      simp at h10 ⊢; omega
  | @finish a b v hi =>
    have hst : v ∈ s.started := by
      have := h2 v
      simp only [hi, List.count_append, List.count_cons] at this
      simp at this
      exact List.count_pos_iff.1 (by omega)
    refine ⟨?_, ?_, ?_, ?_, h5, h6, h7, ?_, ?_, ?_⟩
    · intro u; have := h1 u
      simp only [pending, hi, List.count_append, List.count_cons] at this ⊢
      simp at this ⊢; omega
    · intro u; have := h2 u
      simp only [hi, List.count_append, List.count_cons] at this ⊢
      by_cases hx : v = u
      · simp [hx] at this ⊢; omega
      · simp [hx] at this ⊢; omega
    · intro u hu; exact List.mem_cons_of_mem _ (h3 u hu)
    · intro u hu
      rcases List.mem_cons.1 hu with rfl | hu
      · exact .inr hst
      · exact h4 u hu
    · intro u hu
      rcases h8 u hu with h | h | h
      · exact .inl (List.mem_cons_of_mem _ h)
      · exact .inr (.inl h)
      · rw [hi] at h; simp at h
        rcases h with h | rfl | h
        · exact .inr (.inr (by simp [h]))
        · exact .inl (by simp)
        · exact .inr (.inr (by simp [h]))
    · intro t ht htt
      apply h9 t _ htt
      rw [hi]; simp at ht ⊢; tauto
    · simp only [hi, List.count_append, List.count_cons] at h10 ⊢
      simp at h10 ⊢; omega
  | @fail a b v hi =>
    refine ⟨?_, ?_, h3, h4, h5, h6, h7, ?_, ?_, ?_⟩
    · intro u; have := h1 u
      simp only [pending, hi, List.count_append, List.count_cons] at this ⊢
      simp at this ⊢; omega
    · intro u; have := h2 u
      simp only [hi, List.count_append, List.count_cons, List.count_nil] at this ⊢
      by_cases hx : v = u
      · simp [hx] at this ⊢; omega
      · simp [hx] at this ⊢; omega
    · intro u hu
      rcases h8 u hu with h | h | h
      · exact .inl h
      · exact .inr (.inl (by simp [h]))
      · rw [hi] at h; simp at h
        rcases h with h | rfl | h
        · exact .inr (.inr (by simp [h]))
        · exact .inr (.inl (by simp))
        · exact .inr (.inr (by simp [h]))
    · intro t ht htt
      apply h9 t _ htt
      rw [hi]; simp at ht ⊢; tauto
    · simp only [hi, List.count_append, List.count_cons] at h10 ⊢
      simp at h10 ⊢; omega

theorem inv_reaches {k : Bool} {data : List Item} {db0 : List Nat} {cores : Nat} {s : St}
    (h : Reaches cores k (St.init data db0) s) : Inv k data db0 s := by
  induction h with
  | refl => exact inv_init k data db0
  | step _ st ih => exact inv_step ih st

/-- A data set without duplicate urls. -/
def Distinct (data : List Item) : Prop := ∀ u, data.count (some u) ≤ 1

/-- **C41, exactly once**: in every execution with a pool, of a data set without duplicate urls, `cls.process` is called exactly once for
every url that is not already in the database (for every url when `skip_if_exists` is off), and for no other. -/
theorem C41_exactly_once (f : Flags) (cpu : Nat) (data : List Item) (db0 : List Nat) (s : St)
    (hpool : f.multiProcess = true ∨ f.multiThreaded = true) (hd : Distinct data)
    (h : Ingests f cpu data db0 (.ok s)) (u : Nat) :
    s.started.count u = if some u ∈ data ∧ ¬ (f.skipIfExists = true ∧ u ∈ db0) then 1 else 0 := by
  have hp : (f.multiProcess || f.multiThreaded) = true := by simpa using hpool
  unfold Ingests at h
  rw [if_pos hp] at h
  split at h
  · cases h
  obtain ⟨s', hr, hdone, heq⟩ := h
  cases heq
  have I := inv_reaches hr
  have hc := I.conserve u
  have hpend : pending s u = 0 := by simp [pending, hdone.1, hdone.2]
  have hdu := hd u
  by_cases hmem : some u ∈ data
  · have h1 : data.count (some u) = 1 := by
      have := List.count_pos_iff.2 hmem; omega
    by_cases hsk : f.skipIfExists = true ∧ u ∈ db0
    · have := List.count_eq_zero.2 (I.notAgain hsk.1 u hsk.2)
      simp [hsk, this]
    · simp only [hmem, hsk, not_false_eq_true, and_self, if_true]
      by_cases hs : u ∈ s.skipped
      · rcases I.skipFrom u hs with h' | h'
        · have : f.skipIfExists = true := by
            by_contra hk
            have := I.noSkip (by simpa using hk)
            rw [this] at hs; cases hs
          exact absurd ⟨this, h'⟩ hsk
        · have h2 := List.count_pos_iff.2 h'
          have h3 := List.count_pos_iff.2 hs
          omega
      · have := List.count_eq_zero.2 hs
        omega
  · have : data.count (some u) = 0 := List.count_eq_zero.2 hmem
    simp only [hmem, false_and, if_false]; omega

/-- **C41, at least once, duplicates allowed**: every url of the data set that is not in the database at the start is processed at least
once, never more often than it occurs; one that is in the database is never processed when `skip_if_exists` is on. -/
theorem C41_duplicates (f : Flags) (cpu : Nat) (data : List Item) (db0 : List Nat) (s : St)
    (hpool : f.multiProcess = true ∨ f.multiThreaded = true) (h : Ingests f cpu data db0 (.ok s)) (u : Nat) :
    s.started.count u ≤ data.count (some u) ∧
    (some u ∈ data → ¬ (f.skipIfExists = true ∧ u ∈ db0) → 1 ≤ s.started.count u) ∧
    (f.skipIfExists = true → u ∈ db0 → s.started.count u = 0) ∧
    (f.skipIfExists = false → s.started.count u = data.count (some u)) := by
  have hp : (f.multiProcess || f.multiThreaded) = true := by simpa using hpool
  unfold Ingests at h
  rw [if_pos hp] at h
  split at h
  · cases h
  obtain ⟨s', hr, hdone, heq⟩ := h
  cases heq
  have I := inv_reaches hr
  have hc := I.conserve u
  have hpend : pending s u = 0 := by simp [pending, hdone.1, hdone.2]
  refine ⟨by omega, ?_, fun hk hu => List.count_eq_zero.2 (I.notAgain hk u hu), ?_⟩
  · intro hmem hsk
    have h1 := List.count_pos_iff.2 hmem
    by_contra hlt
    have h0 : s.started.count u = 0 := by omega
    have hs : u ∈ s.skipped := List.count_pos_iff.1 (by omega)
    rcases I.skipFrom u hs with h' | h'
    · have : f.skipIfExists = true := by
        by_contra hk
        have := I.noSkip (by simpa using hk)
        rw [this] at hs; cases hs
      exact hsk ⟨this, h'⟩
    · exact List.count_eq_zero.1 h0 h'
  · intro hk
    have := I.noSkip hk
    rw [this] at hc
    simp at hc; omega

/-- **C41, what is in the database afterwards**: everything that was there, and every url of the data set except those whose processing
raised; nothing else. -/
theorem C41_database (f : Flags) (cpu : Nat) (data : List Item) (db0 : List Nat) (s : St)
    (hpool : f.multiProcess = true ∨ f.multiThreaded = true) (h : Ingests f cpu data db0 (.ok s)) :
    (∀ u ∈ db0, u ∈ s.db) ∧ (∀ u ∈ s.db, u ∈ db0 ∨ some u ∈ data) ∧
    (∀ u, some u ∈ data → u ∈ s.db ∨ u ∈ s.failed) := by
  have hp : (f.multiProcess || f.multiThreaded) = true := by simpa using hpool
  have hdup := C41_duplicates f cpu data db0 s hpool h
  unfold Ingests at h
  rw [if_pos hp] at h
  split at h
  · cases h
  obtain ⟨s', hr, hdone, heq⟩ := h
  cases heq
  have I := inv_reaches hr
  refine ⟨I.dbGrows, ?_, ?_⟩
  · intro u hu
    rcases I.dbFrom u hu with h' | h'
    · exact .inl h'
    · right
      have h2 := List.count_pos_iff.2 h'
      have h3 := (hdup u).1
      exact List.count_pos_iff.1 (by omega)
  · intro u hu
    by_cases hsk : f.skipIfExists = true ∧ u ∈ db0
    · exact .inl (I.dbGrows u hsk.2)
    · have h1 := (hdup u).2.1 hu hsk
      rcases I.allOk u (List.count_pos_iff.1 (by omega)) with h' | h' | h'
      · exact .inl h'
      · exact .inr h'
      · rw [hdone.2] at h'; cases h'

/-- **C41, refuted without a pool**: a call with neither flag processes nothing, reads nothing and returns without an error. -/
theorem C41_serial_refuted (f : Flags) (cpu : Nat) (data : List Item) (db0 : List Nat) (r : Except PyErr St)
    (h1 : f.multiProcess = false) (h2 : f.multiThreaded = false) :
    Ingests f cpu data db0 r ↔ r = .ok ⟨data, [], db0, [], [], [], 0⟩ := by
  simp [Ingests, h1, h2, St.init]

/-- **C41, refuted for elements without a request**: they are dropped silently: the call succeeds and each of them is an exception nobody
sees. -/
theorem C41_no_request_refuted (f : Flags) (cpu : Nat) (data : List Item) (db0 : List Nat) (s : St)
    (hpool : f.multiProcess = true ∨ f.multiThreaded = true) (h : Ingests f cpu data db0 (.ok s)) :
    s.lost = data.count none := by
  have hp : (f.multiProcess || f.multiThreaded) = true := by simpa using hpool
  unfold Ingests at h
  rw [if_pos hp] at h
  split at h
  · cases h
  obtain ⟨s', hr, hdone, heq⟩ := h
  cases heq
  have := (inv_reaches hr).lostCount
  simp [hdone.1, hdone.2] at this
  exact this

/-! ### duplicates -/

/-- **C41, refuted for duplicate urls and two or more workers**: both workers may look before either has finished, and the sound is
processed twice although `skip_if_exists` is on. -/
theorem C41_duplicates_refuted (cores : Nat) (hc : 2 ≤ cores) (u : Nat) :
    ∃ s, Reaches cores true (St.init [some u, some u] []) s ∧ s.done ∧ s.started = [u, u] := by
  refine ⟨⟨[], [], [u, u], [u, u], [], [], 0⟩, ?_, ⟨rfl, rfl⟩, rfl⟩
  have h1 : Step cores true (St.init [some u, some u] []) ⟨[some u], [(some u, false)], [], [], [], [], 0⟩ :=
    Step.take (s := St.init [some u, some u] []) rfl (by simp [St.init]; omega)
  have h2 : Step cores true ⟨[some u], [(some u, false)], [], [], [], [], 0⟩
      ⟨[], [(some u, false), (some u, false)], [], [], [], [], 0⟩ := Step.take rfl (by simp; omega)
  have h3 : Step cores true ⟨[], [(some u, false), (some u, false)], [], [], [], [], 0⟩
      ⟨[], [(some u, true), (some u, false)], [], [u], [], [], 0⟩ :=
    Step.start (s := ⟨[], [(some u, false), (some u, false)], [], [], [], [], 0⟩) (a := []) rfl (by simp)
  have h4 : Step cores true ⟨[], [(some u, true), (some u, false)], [], [u], [], [], 0⟩
      ⟨[], [(some u, true), (some u, true)], [], [u, u], [], [], 0⟩ :=
    Step.start (s := ⟨[], [(some u, true), (some u, false)], [], [u], [], [], 0⟩) (a := [(some u, true)]) (b := []) rfl (by simp)
  have h5 : Step cores true ⟨[], [(some u, true), (some u, true)], [], [u, u], [], [], 0⟩
      ⟨[], [(some u, true)], [u], [u, u], [], [], 0⟩ :=
    Step.finish (s := ⟨[], [(some u, true), (some u, true)], [], [u, u], [], [], 0⟩) (a := []) rfl
  have h6 : Step cores true ⟨[], [(some u, true)], [u], [u, u], [], [], 0⟩ ⟨[], [], [u, u], [u, u], [], [], 0⟩ :=
    Step.finish (s := ⟨[], [(some u, true)], [u], [u, u], [], [], 0⟩) (a := []) (b := []) rfl
  exact .step (.step (.step (.step (.step (.step .refl h1) h2) h3) h4) h5) h6

/-- The invariant of a single worker. -/
structure Inv1 (s : St) : Prop where
  one : s.inflight.length ≤ 1
  idle : ∀ u, u ∉ s.db → (some u, true) ∉ s.inflight → s.started.count u = s.failed.count u
  run : ∀ u, (some u, true) ∈ s.inflight → s.started.count u = s.failed.count u + 1
  busy : ∀ u, s.started.count u ≤ s.failed.count u + 1

theorem inv1_step {s t : St} (h : Inv1 s) (st : Step 1 true s t) : Inv1 t := by
  obtain ⟨h1, h2, hr, h3⟩ := h
  cases st with
  | @take x q hq hc =>
    refine ⟨by simp; simpa using hc, ?_, ?_, h3⟩
    · intro u hu hi
      exact h2 u hu (fun hm => hi (by simp [hm]))
    · intro u hm
      simp at hm
      exact hr u hm
  | @noRequest a b hi =>
    rw [hi] at h1 h2 hr
    refine ⟨by simp at h1 ⊢; omega, ?_, ?_, h3⟩
    · intro u hu hm
      refine h2 u hu ?_
      simp at hm ⊢; tauto
    · intro u hm
      apply hr u
      simp at hm ⊢; tauto
  | @skip a b v hi hs he =>
    rw [hi] at h1 h2 hr
    refine ⟨by simp at h1 ⊢; omega, ?_, ?_, h3⟩
    · intro u hu hm
      refine h2 u hu ?_
      simp at hm ⊢; tauto
    · intro u hm
      apply hr u
      simp at hm ⊢; tauto
  | @start a b v hi hs =>
    rw [hi] at h1 h2 hr
    have hv : v ∉ s.db := fun hv => hs ⟨rfl, hv⟩
    have ha : a = [] ∧ b = [] := by
      simp at h1
      constructor <;> apply List.eq_nil_of_length_eq_zero <;> omega
    obtain ⟨rfl, rfl⟩ := ha
    have hv2 := h2 v hv (by simp)
    refine ⟨by simp, ?_, ?_, ?_⟩
    · intro u hu hm
      simp at hm
      have h := h2 u hu (by simp)
      simp only [List.count_append, List.count_cons, List.count_nil]
      have : ¬ (v = u) := fun e => hm e.symm
      simp [this]; exact h
    · intro u hm
      simp at hm; subst hm
      simp only [List.count_append, List.count_cons, List.count_nil]
      simp; omega
    · intro u
      by_cases e : v = u
      · subst e
        simp only [List.count_append, List.count_cons, List.count_nil]
        simp; omega
      · have := h3 u
        simp only [List.count_append, List.count_cons, List.count_nil]
        simp [e]; omega
  | @finish a b v hi =>
    rw [hi] at h1 h2 hr
    refine ⟨by simp at h1 ⊢; omega, ?_, ?_, h3⟩
    · intro u hu hm
      simp at hu hm
      refine h2 u hu.2 ?_
      simp
      exact ⟨hm.1, fun e => hu.1 e, hm.2⟩
    · intro u hm
      apply hr u
      simp at hm ⊢; tauto
  | @fail a b v hi =>
    rw [hi] at h1 h2 hr
    have ha : a = [] ∧ b = [] := by
      simp at h1
      constructor <;> apply List.eq_nil_of_length_eq_zero <;> omega
    obtain ⟨rfl, rfl⟩ := ha
    have hv := hr v (by simp)
    refine ⟨by simp, ?_, by simp, ?_⟩
    · intro u hu _
      by_cases e : v = u
      · subst e
        simp only [List.count_append, List.count_cons, List.count_nil]
        simp; omega
      · have := h2 u hu (by simpa using fun h => e h.symm)
        simp only [List.count_append, List.count_cons, List.count_nil]
        simp [e]; omega
    · intro u
      have := h3 u
      simp only [List.count_append]; omega

/-- **C41, duplicates and a single worker**: a sound is processed again only after its processing failed: with one worker and
`skip_if_exists` the number of attempts exceeds the number of failures by at most one. -/
theorem C41_single_worker (data : List Item) (db0 : List Nat) (s : St) (h : Reaches 1 true (St.init data db0) s) (u : Nat) :
    s.started.count u ≤ s.failed.count u + 1 := by
  have : Inv1 s := by
    induction h with
    | refl => constructor <;> simp [St.init]
    | step _ st ih => exact inv1_step ih st
  exact this.busy u

/-! ### termination -/

/-- What is left to do. -/
def work (s : St) : Nat := 3 * s.queue.length + 2 * s.inflight.countP (fun t => !t.2) + s.inflight.countP (fun t => t.2)

theorem step_work {cores : Nat} {k : Bool} {s t : St} (h : Step cores k s t) : work t < work s := by
  cases h with
  | take hq _ => simp [work, hq]; omega
  | noRequest hi => simp [work, hi]
  | skip hi _ _ => simp [work, hi]
  | start hi _ => simp [work, hi]; omega
  | finish hi => simp [work, hi]
  | fail hi => simp [work, hi]

/-- **C41, it ends**: whatever the workers do, in whatever order, no execution on a data set of `n` elements has more than
`3 n` steps. -/
theorem C41_steps_bounded (cores : Nat) (k : Bool) (data : List Item) (db0 : List Nat) (run : Nat → St) (n : Nat)
    (h0 : run 0 = St.init data db0) (hs : ∀ i < n, Step cores k (run i) (run (i + 1))) : n ≤ 3 * data.length := by
  have key : ∀ m ≤ n, work (run m) + m ≤ 3 * data.length := by
    intro m
    induction m with
    | zero => intro _; rw [h0]; simp [work, St.init]
    | succ m ih =>
      intro hm
      have := step_work (hs m (by omega))
      have := ih (by omega)
      omega
  have := key n (Nat.le_refl n)
  omega

/-- **C41, it ends**: no execution makes more than three steps per element of the data set, and as long as work is left and there is at
least one worker something can be done: `ingest` returns (when `cls.process` does). -/
theorem C41_terminates (cores : Nat) (hc : 1 ≤ cores) (k : Bool) (data : List Item) (db0 : List Nat) (s : St)
    (h : Reaches cores k (St.init data db0) s) :
    work s ≤ 3 * data.length ∧ (¬ s.done → ∃ t, Step cores k s t) := by
  refine ⟨?_, ?_⟩
  · induction h with
    | refl => simp [work, St.init]
    | step _ st ih => have := step_work st; omega
  · intro hnd
    have hsh := (inv_reaches h).shape
    rcases hi : s.inflight with _ | ⟨⟨x, ph⟩, b⟩
    · rcases hq : s.queue with _ | ⟨x, q⟩
      · exact absurd ⟨hq, hi⟩ hnd
      · exact ⟨_, Step.take hq (by rw [hi]; simp; omega)⟩
    · cases ph with
      | true =>
        rcases x with _ | u
        · exact absurd rfl (hsh (none, true) (by rw [hi]; simp) rfl)
        · exact ⟨_, Step.finish (a := []) hi⟩
      | false =>
        rcases x with _ | u
        · exact ⟨_, Step.noRequest (a := []) hi⟩
        · by_cases hs : k = true ∧ u ∈ s.db
          · exact ⟨_, Step.skip (a := []) hi hs.1 hs.2⟩
          · exact ⟨_, Step.start (a := []) hi hs⟩

/-- At most `cores` sounds are processed at the same time. -/
theorem C41_in_flight (cores : Nat) (k : Bool) (data : List Item) (db0 : List Nat) (s : St)
    (h : Reaches cores k (St.init data db0) s) : s.inflight.length ≤ cores := by
  induction h with
  | refl => simp [St.init]
  | step _ st ih =>
    cases st with
    | take hq hc => simp; omega
    | noRequest hi => rw [hi] at ih; simp at ih ⊢; omega
    | skip hi _ _ => rw [hi] at ih; simp at ih ⊢; omega
    | start hi _ => rw [hi] at ih; simp at ih ⊢; omega
    | finish hi => rw [hi] at ih; simp at ih ⊢; omega
    | fail hi => rw [hi] at ih; simp at ih ⊢; omega

/-- **C41, the call returns**: with a pool flag set and a positive number of workers, some result is reached, and every result is a
finished run. -/
theorem C41_returns (f : Flags) (cpu : Nat) (data : List Item) (db0 : List Nat) (hcpu : 1 ≤ cpu)
    (hcores : ∀ c, f.cores = some c → 0 ≤ c) : ∃ s, Ingests f cpu data db0 (.ok s) := by
  unfold Ingests
  split
  · have hw : ∃ n, workers f cpu = .ok n ∧ 1 ≤ n := by
      unfold workers
      rcases hf : f.cores with _ | c
      · refine ⟨cpu, ?_, hcpu⟩
        rw [if_neg (by simp; omega)]; simp
      · have := hcores c hf
        by_cases h0 : c = 0
        · refine ⟨cpu, ?_, hcpu⟩
          simp only [h0, if_true]
          rw [if_neg (by omega)]; simp
        · refine ⟨c.toNat, ?_, by omega⟩
          simp only [h0, if_false]
          rw [if_neg (by omega)]
    obtain ⟨n, hn, h1⟩ := hw
    rw [hn]
    suffices H : ∀ w, ∀ s, work s ≤ w → Reaches n f.skipIfExists (St.init data db0) s →
        ∃ t, Reaches n f.skipIfExists (St.init data db0) t ∧ t.done by
      obtain ⟨t, h, hd⟩ := H _ _ (Nat.le_refl _) .refl
      exact ⟨t, t, h, hd, rfl⟩
    intro w
    induction w with
    | zero =>
      intro s hw hr
      refine ⟨s, hr, ?_⟩
      by_contra hnd
      obtain ⟨t, ht⟩ := (C41_terminates n h1 _ data db0 s hr).2 hnd
      have := step_work ht; omega
    | succ w ih =>
      intro s hw hr
      by_cases hd : s.done
      · exact ⟨s, hr, hd⟩
      · obtain ⟨t, ht⟩ := (C41_terminates n h1 _ data db0 s hr).2 hd
        have := step_work ht
        exact ih t (by omega) (.step hr ht)
  · exact ⟨_, rfl⟩

example := C41_returns ⟨true, false, true, some 2⟩ 8 [some 1, some 2, none, some 3] [2] (by decide) (by simp)

/-- A negative number of workers is refused before anything is read. -/
theorem C41_bad_cores (f : Flags) (cpu : Nat) (data : List Item) (db0 : List Nat) (r : Except PyErr St)
    (hpool : f.multiProcess = true ∨ f.multiThreaded = true) (c : Int) (hc : f.cores = some c) (hneg : c < 0) :
    Ingests f cpu data db0 r ↔ r = .error .valueError := by
  have hp : (f.multiProcess || f.multiThreaded) = true := by simpa using hpool
  have hw : workers f cpu = .error .valueError := by
    unfold workers
    rw [hc]
    have : ¬ (c = 0) := by omega
    simp only [this, if_false]
    rw [if_pos (by omega)]
  unfold Ingests
  rw [if_pos hp, hw]

example := C41_bad_cores ⟨true, false, true, some (-2)⟩ 8 [some 1, some 2] [] (.error .valueError) (Or.inr rfl) (-2) rfl (by decide)

/-- Three sounds, one of them known, one without a request: two workers process the two others. -/
example : Ingests ⟨true, false, true, some 2⟩ 8 [some 1, some 2, none, some 3] [2]
    (.ok ⟨[], [], [3, 1, 2], [1, 3], [2], [], 1⟩) := by
  refine ⟨⟨[], [], [3, 1, 2], [1, 3], [2], [], 1⟩, ?_, ⟨rfl, rfl⟩, rfl⟩
  refine .step (.step (.step (.step (.step (.step (.step (.step (.step (.step .refl
    (Step.take (x := some 1) (q := [some 2, none, some 3]) rfl (by decide)))
    (Step.start (a := []) (b := []) (u := 1) rfl (by decide)))
    (Step.take (x := some 2) (q := [none, some 3]) rfl (by decide)))
    (Step.skip (a := [(some 1, true)]) (b := []) (u := 2) rfl rfl (by decide)))
    (Step.take (x := none) (q := [some 3]) rfl (by decide)))
    (Step.noRequest (a := [(some 1, true)]) (b := []) rfl))
    (Step.finish (a := []) (b := []) (u := 1) rfl))
    (Step.take (x := some 3) (q := []) rfl (by decide)))
    (Step.start (a := []) (b := []) (u := 3) rfl (by decide)))
    (Step.finish (a := []) (b := []) (u := 3) rfl)

theorem four_distinct : Distinct [some 1, some 2, none, some 3] := by
  intro u
  simp only [List.count_cons, List.count_nil]
  by_cases h1 : u = 1
  · subst h1; decide
  · by_cases h2 : u = 2
    · subst h2; decide
    · by_cases h3 : u = 3
      · subst h3; decide
      · simp [Ne.symm h1, Ne.symm h2, Ne.symm h3]

example : ∃ s, Ingests ⟨true, false, true, some 2⟩ 8 [some 1, some 2, none, some 1] [2] (.ok s) ∧ s.started.count 1 ≤ 2 ∧ (∀ u ∈ [2], u ∈ s.db) := by
  obtain ⟨s, h⟩ := C41_returns ⟨true, false, true, some 2⟩ 8 [some 1, some 2, none, some 1] [2] (by decide) (by simp)
  exact ⟨s, h, (C41_duplicates _ 8 _ [2] s (Or.inr rfl) h 1).1, (C41_database _ 8 _ [2] s (Or.inr rfl) h).1⟩
example : ∃ s, Reaches 1 true (St.init [some 1, some 1] []) s ∧ s.inflight.length ≤ 1 ∧ s.started.count 1 ≤ s.failed.count 1 + 1 ∧ work s ≤ 6 := by
  have h : Reaches 1 true (St.init [some 1, some 1] []) _ := .step (.step .refl (Step.take (x := some 1) (q := [some 1]) rfl (by decide))) (Step.start (a := []) (b := []) (u := 1) rfl (by decide))
  exact ⟨_, h, C41_in_flight 1 true _ [] _ h, C41_single_worker _ [] _ h 1, (C41_terminates 1 (by decide) true _ [] _ h).1⟩

example : ∃ s, Ingests ⟨true, false, true, some 2⟩ 8 [some 1, some 2, none, some 3] [2] (.ok s) ∧
    s.started.count 1 = 1 ∧ s.started.count 2 = 0 := by
  obtain ⟨s, h⟩ := C41_returns ⟨true, false, true, some 2⟩ 8 [some 1, some 2, none, some 3] [2] (by decide) (by simp)
  exact ⟨s, h, C41_exactly_once _ 8 _ [2] s (Or.inr rfl) four_distinct h 1, C41_exactly_once _ 8 _ [2] s (Or.inr rfl) four_distinct h 2⟩
example : (1 : Nat) ≤ 3 * [some 1, some 1].length :=
  C41_steps_bounded 1 true [some 1, some 1] []
    (fun i => if i = 0 then St.init [some 1, some 1] [] else { St.init [some 1, some 1] [] with queue := [some 1], inflight := [(some 1, false)] })
    1 rfl (fun i hi => by
      obtain rfl : i = 0 := by omega
      exact Step.take (x := some 1) (q := [some 1]) rfl (by decide))

end Zounds.Ingest
