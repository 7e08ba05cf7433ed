import Verif.Model.Threads
import Mathlib.Data.List.Basic
import Mathlib.Data.List.Perm.Basic

/-!
# One HammingDb object, several threads (C292 - C294)
-/

namespace Zounds.Threads
open Zounds.HammingDb (Bytes)

/-- A database with `rows`, threads that are going to append `todos`, and threads that are going to search for `queries`. -/
def start (A : Type) (rows : List (Nat × Bytes)) (todos : List (List (Nat × Bytes))) (queries : List Bytes) : State A :=
  { store := rows, mem := rows, appenders := todos.map fun t => { todo := t }, searchers := queries.map fun q => { query := q } }

/-- Everything that still has to be appended. -/
def pending {A : Type} (s : State A) : List (Nat × Bytes) := (s.appenders.map Appender.todo).flatten

/-- All appending threads are done. -/
def Finished {A : Type} (s : State A) : Prop := ∀ a ∈ s.appenders, a.todo = []

/-- No searching thread has its turn while a write transaction is open. -/
def Polite {A : Type} (answer : Bytes → List (Nat × Bytes) → A) : State A → List Turn → Prop
  | _, [] => True
  | s, t :: ts => (∀ k, t = .searcher k → s.writer = none) ∧ Polite answer (turn answer s t) ts

/-! ## Invariants -/

structure InvG {A : Type} (all : List (Nat × Bytes)) (s : State A) : Prop where
  busy : ∀ (k : Nat) a, s.appenders[k]? = some a → a.pc ≤ 5 ∧ (a.pc ≠ 0 → s.writer = some k ∧ a.todo ≠ [])
  held : ∀ k, s.writer = some k → ∃ a, s.appenders[k]? = some a ∧ a.pc ≠ 0
  perm : (s.store ++ pending s).Perm all
  free : s.writer = none → s.mem.map Prod.fst = s.store.map Prod.fst
  ids : ∀ (k : Nat) a id code rest, s.appenders[k]? = some a → a.todo = (id, code) :: rest → a.pc ≠ 0 →
    (2 ≤ a.pc → s.row.1 = id) ∧ (a.pc ≤ 4 → s.mem.map Prod.fst = s.store.map Prod.fst) ∧ (a.pc = 5 → s.mem.map Prod.fst = s.store.map Prod.fst ++ [id])

structure InvC {A : Type} (s : State A) : Prop where
  free : s.writer = none → s.mem = s.store
  codes : ∀ (k : Nat) a id code rest, s.appenders[k]? = some a → a.todo = (id, code) :: rest → a.pc ≠ 0 →
    (a.pc = 3 → s.buf = code) ∧ (4 ≤ a.pc → s.row = (id, code)) ∧ (a.pc ≤ 4 → s.mem = s.store) ∧ (a.pc = 5 → s.mem = s.store ++ [(id, code)])

theorem pending_set {A : Type} (s : State A) (k : Nat) (a a' : Appender) (h : s.appenders[k]? = some a) (ht : a'.todo = a.todo) :
    ((s.appenders.set k a').map Appender.todo).flatten = pending s := by
  unfold pending
  have hlt : k < s.appenders.length := (List.getElem?_eq_some_iff.1 h).1
  rw [List.map_set, ht]
  have : (s.appenders.map Appender.todo)[k]'(by simpa using hlt) = a.todo := by simp [(List.getElem?_eq_some_iff.1 h).2]
  rw [← this, List.set_getElem_self]

theorem pending_pop (l : List Appender) (k : Nat) (a : Appender) (x : Nat × Bytes) (rest : List (Nat × Bytes)) (h : l[k]? = some a) (ht : a.todo = x :: rest) :
    (x :: ((l.set k { todo := rest, pc := 0 }).map Appender.todo).flatten).Perm ((l.map Appender.todo).flatten) := by
  induction l generalizing k with
  | nil => simp at h
  | cons b l ih =>
    cases k with
    | zero =>
      simp only [List.getElem?_cons_zero, Option.some.injEq] at h
      subst h
      simp [ht]
    | succ k =>
      simp only [List.getElem?_cons_succ] at h
      have := ih k h
      simp only [List.set_cons_succ, List.map_cons, List.flatten_cons]
      exact List.perm_middle.symm.trans (List.Perm.append_left _ this)

theorem get_set {l : List Appender} {k j : Nat} {a' b : Appender} (h : (l.set k a')[j]? = some b) : (j = k ∧ b = a') ∨ (j ≠ k ∧ l[j]? = some b) := by
  rw [List.getElem?_set] at h
  by_cases e : k = j
  · subst e
    rw [if_pos rfl] at h
    split at h
    · exact Or.inl ⟨rfl, (Option.some.inj h).symm⟩
    · cases h
  · rw [if_neg e] at h
    exact Or.inr ⟨fun h' => e h'.symm, h⟩

theorem get_set_self {l : List Appender} {k : Nat} {a a' : Appender} (h : l[k]? = some a) : (l.set k a')[k]? = some a' := by
  have hlt : k < l.length := (List.getElem?_eq_some_iff.1 h).1
  simp [hlt]

/-- While thread `k` writes, the others are idle. -/
theorem InvG.others {A : Type} {all : List (Nat × Bytes)} {s : State A} (h : InvG all s) {k j : Nat} {b : Appender} (hk : s.writer = some k) (hj : s.appenders[j]? = some b)
    (hne : j ≠ k) : b.pc = 0 := by
  by_contra hb
  have := ((h.busy j b hj).2 hb).1
  rw [hk] at this
  exact hne (Option.some.inj this).symm

/-- A step that leaves store, writer and todo lists alone and advances thread `k` which holds the lock. -/
theorem invG_advance {A : Type} {all : List (Nat × Bytes)} {s : State A} (h : InvG all s) (k : Nat) (a : Appender) (hk : s.appenders[k]? = some a) (id : Nat) (code : Bytes)
    (rest : List (Nat × Bytes)) (ht : a.todo = (id, code) :: rest) (hpc : a.pc ≠ 0) (pc' : Nat) (h5 : pc' ≤ 5) (h0 : pc' ≠ 0) (mem' : List (Nat × Bytes)) (buf' : Bytes) (row' : Nat × Bytes)
    (hrow : 2 ≤ pc' → row'.1 = id) (hmem : pc' ≤ 4 → mem'.map Prod.fst = s.store.map Prod.fst) (hmem5 : pc' = 5 → mem'.map Prod.fst = s.store.map Prod.fst ++ [id]) :
    InvG all { s with mem := mem', buf := buf', row := row', appenders := s.appenders.set k { a with pc := pc' } } := by
  have hw := ((h.busy k a hk).2 hpc).1
  refine ⟨?_, ?_, ?_, ?_, ?_⟩
  · intro j b hb
    rcases get_set hb with ⟨rfl, rfl⟩ | ⟨hne, hb⟩
    · exact ⟨h5, fun _ => ⟨hw, by simp [ht]⟩⟩
    · exact h.busy j b hb
  · intro j hj
    rw [show s.writer = some j from hj] at hw
    cases hw
    exact ⟨{ a with pc := pc' }, get_set_self hk, h0⟩
  · show (s.store ++ ((s.appenders.set k { a with pc := pc' }).map Appender.todo).flatten).Perm all
    rw [pending_set s k a { a with pc := pc' } hk rfl]
    exact h.perm
  · intro hn
    rw [show s.writer = none from hn] at hw
    cases hw
  · intro j b id' code' rest' hb hbt hb0
    rcases get_set hb with ⟨rfl, rfl⟩ | ⟨hne, hb⟩
    · rw [show ({ a with pc := pc' } : Appender).todo = (id, code) :: rest from ht] at hbt
      cases hbt
      exact ⟨hrow, hmem, hmem5⟩
    · exact absurd (h.others hw hb hne) hb0

theorem invG_appender {A : Type} {all : List (Nat × Bytes)} {s : State A} (h : InvG all s) (k : Nat) (a : Appender) (hk : s.appenders[k]? = some a) :
    InvG all (stepAppender s k a) := by
  obtain ⟨hle, hbusy⟩ := h.busy k a hk
  unfold stepAppender
  cases ht : a.todo with
  | nil => exact h
  | cons x rest =>
    obtain ⟨id, code⟩ := x
    simp only []
    by_cases p0 : a.pc = 0
    · rw [if_pos p0]
      by_cases hw : s.writer = none
      · rw [if_pos hw]
        refine ⟨?_, ?_, ?_, ?_, ?_⟩
        · intro j b hb
          rcases get_set hb with ⟨rfl, rfl⟩ | ⟨hne, hb⟩
          · exact ⟨by simp, fun _ => ⟨rfl, by simp [ht]⟩⟩
          · refine ⟨(h.busy j b hb).1, fun hb0 => ?_⟩
            have := ((h.busy j b hb).2 hb0).1
            rw [hw] at this; cases this
        · intro j hj
          cases (show some k = some j from hj)
          exact ⟨_, get_set_self hk, by simp⟩
        · show (s.store ++ ((s.appenders.set k _).map Appender.todo).flatten).Perm all
          rw [pending_set s k a _ hk (by simp [ht])]
          exact h.perm
        · intro hn; cases hn
        · intro j b id' code' rest' hb hbt hb0
          rcases get_set hb with ⟨rfl, rfl⟩ | ⟨hne, hb⟩
          · exact ⟨fun h2 => by simp at h2, fun _ => h.free hw, fun h5 => by simp at h5⟩
          · have := ((h.busy j b hb).2 hb0).1
            rw [hw] at this; cases this
      · rw [if_neg hw]; exact h
    · rw [if_neg p0]
      obtain ⟨i1, i2, i3⟩ := h.ids k a id code rest hk ht p0
      by_cases p1 : a.pc = 1
      · rw [if_pos p1]
        have := invG_advance h k a hk id code rest ht p0 2 (by omega) (by omega) s.mem s.buf (id, s.row.2) (fun _ => rfl) (fun _ => i2 (by omega)) (fun h' => by omega)
        rw [ht] at this
        exact this
      · rw [if_neg p1]
        by_cases p2 : a.pc = 2
        · rw [if_pos p2]
          have := invG_advance h k a hk id code rest ht p0 3 (by omega) (by omega) s.mem code s.row (fun _ => i1 (by omega)) (fun _ => i2 (by omega)) (fun h' => by omega)
          rw [ht] at this
          exact this
        · rw [if_neg p2]
          by_cases p3 : a.pc = 3
          · rw [if_pos p3]
            have := invG_advance h k a hk id code rest ht p0 4 (by omega) (by omega) s.mem s.buf (s.row.1, s.buf) (fun _ => i1 (by omega)) (fun _ => i2 (by omega)) (fun h' => by omega)
            rw [ht] at this
            exact this
          · rw [if_neg p3]
            by_cases p4 : a.pc = 4
            · rw [if_pos p4]
              have := invG_advance h k a hk id code rest ht p0 5 (by omega) (by omega) (s.mem ++ [s.row]) s.buf s.row (fun _ => i1 (by omega)) (fun h' => by omega)
                (fun _ => by rw [List.map_append, i2 (by omega)]; simp [i1 (by omega)])
              rw [ht] at this
              exact this
            · rw [if_neg p4]
              have p5 : a.pc = 5 := by omega
              have hw := (hbusy p0).1
              refine ⟨?_, ?_, ?_, ?_, ?_⟩
              · intro j b hb
                rcases get_set hb with ⟨rfl, rfl⟩ | ⟨hne, hb⟩
                · exact ⟨by simp, fun h' => absurd rfl h'⟩
                · exact ⟨(h.busy j b hb).1, fun hb0 => absurd (h.others hw hb hne) hb0⟩
              · intro j hj; cases hj
              · show (s.store ++ [(id, code)] ++ ((s.appenders.set k { todo := rest, pc := 0 }).map Appender.todo).flatten).Perm all
                rw [List.append_assoc]
                exact (List.Perm.append_left _ (pending_pop s.appenders k a (id, code) rest hk ht)).trans h.perm
              · intro _
                rw [show ({ s with store := s.store ++ [(id, code)], writer := none, appenders := s.appenders.set k { todo := rest, pc := 0 } } : State A).mem = s.mem from rfl]
                rw [i3 p5]
                simp
              · intro j b id' code' rest' hb hbt hb0
                rcases get_set hb with ⟨rfl, rfl⟩ | ⟨hne, hb⟩
                · exact absurd rfl hb0
                · exact absurd (h.others hw hb hne) hb0

theorem invG_turn {A : Type} (answer : Bytes → List (Nat × Bytes) → A) {all : List (Nat × Bytes)} {s : State A} (h : InvG all s) (t : Turn) : InvG all (turn answer s t) := by
  cases t with
  | appender k =>
    simp only [turn]
    cases hk : s.appenders[k]? with
    | none => exact h
    | some a => exact invG_appender h k a hk
  | searcher k =>
    simp only [turn]
    cases hk : s.searchers[k]? with
    | none => exact h
    | some t =>
      simp only [stepSearcher]
      split
      · exact ⟨h.busy, h.held, h.perm, h.free, h.ids⟩
      · split
        · exact ⟨h.busy, h.held, h.perm, h.free, h.ids⟩
        · exact h

theorem invG_sched {A : Type} (answer : Bytes → List (Nat × Bytes) → A) {all : List (Nat × Bytes)} : ∀ (ts : List Turn) (s : State A), InvG all s → InvG all (sched answer s ts) := by
  intro ts
  induction ts with
  | nil => intro s h; exact h
  | cons t ts ih => intro s h; exact ih _ (invG_turn answer h t)

theorem invG_start (A : Type) (rows : List (Nat × Bytes)) (todos : List (List (Nat × Bytes))) (queries : List Bytes) :
    InvG (rows ++ todos.flatten) (start A rows todos queries) := by
  have hpc : ∀ (k : Nat) a, (start A rows todos queries).appenders[k]? = some a → a.pc = 0 := by
    intro k a h
    simp only [start, List.getElem?_map, Option.map_eq_some_iff] at h
    obtain ⟨t, -, rfl⟩ := h
    rfl
  refine ⟨?_, ?_, ?_, ?_, ?_⟩
  · intro k a h; rw [hpc k a h]; exact ⟨by omega, fun h' => absurd rfl h'⟩
  · intro k h; cases h
  · unfold pending
    have : ((start A rows todos queries).appenders.map Appender.todo) = todos := by
      simp [start, List.map_map, Function.comp_def]
    rw [this]
    exact List.Perm.refl _
  · intro _; rfl
  · intro k a id code rest h _ h0; exact absurd (hpc k a h) h0

theorem invC_advance {A : Type} {all : List (Nat × Bytes)} {s : State A} (hg : InvG all s) (k : Nat) (a : Appender) (hk : s.appenders[k]? = some a) (id : Nat)
    (code : Bytes) (rest : List (Nat × Bytes)) (ht : a.todo = (id, code) :: rest) (hpc : a.pc ≠ 0) (pc' : Nat) (mem' : List (Nat × Bytes)) (buf' : Bytes) (row' : Nat × Bytes)
    (hbuf : pc' = 3 → buf' = code) (hrow : 4 ≤ pc' → row' = (id, code)) (hmem : pc' ≤ 4 → mem' = s.store) (hmem5 : pc' = 5 → mem' = s.store ++ [(id, code)]) :
    InvC { s with mem := mem', buf := buf', row := row', appenders := s.appenders.set k { a with pc := pc' } } := by
  have hw := ((hg.busy k a hk).2 hpc).1
  refine ⟨?_, ?_⟩
  · intro hn
    rw [show s.writer = none from hn] at hw
    cases hw
  · intro j b id' code' rest' hb hbt hb0
    rcases get_set hb with ⟨rfl, rfl⟩ | ⟨hne, hb⟩
    · rw [show ({ a with pc := pc' } : Appender).todo = (id, code) :: rest from ht] at hbt
      cases hbt
      exact ⟨hbuf, hrow, hmem, hmem5⟩
    · exact absurd (hg.others hw hb hne) hb0

theorem invC_appender {A : Type} {all : List (Nat × Bytes)} {s : State A} (hg : InvG all s) (h : InvC s) (k : Nat) (a : Appender) (hk : s.appenders[k]? = some a) :
    InvC (stepAppender s k a) := by
  obtain ⟨hle, hbusy⟩ := hg.busy k a hk
  unfold stepAppender
  cases ht : a.todo with
  | nil => exact h
  | cons x rest =>
    obtain ⟨id, code⟩ := x
    simp only []
    by_cases p0 : a.pc = 0
    · rw [if_pos p0]
      by_cases hw : s.writer = none
      · rw [if_pos hw]
        refine ⟨(fun hn => by cases hn), ?_⟩
        intro j b id' code' rest' hb hbt hb0
        rcases get_set hb with ⟨rfl, rfl⟩ | ⟨hne, hb⟩
        · exact ⟨fun h' => by simp at h', fun h' => by simp at h', fun _ => h.free hw, fun h' => by simp at h'⟩
        · have := ((hg.busy j b hb).2 hb0).1
          rw [hw] at this; cases this
      · rw [if_neg hw]; exact h
    · rw [if_neg p0]
      obtain ⟨i1, i2, i3, i4⟩ := h.codes k a id code rest hk ht p0
      obtain ⟨g1, _, _⟩ := hg.ids k a id code rest hk ht p0
      by_cases p1 : a.pc = 1
      · rw [if_pos p1]
        have := invC_advance hg k a hk id code rest ht p0 2 s.mem s.buf (id, s.row.2) (fun h' => by omega) (fun h' => by omega) (fun _ => i3 (by omega)) (fun h' => by omega)
        rw [ht] at this
        exact this
      · rw [if_neg p1]
        by_cases p2 : a.pc = 2
        · rw [if_pos p2]
          have := invC_advance hg k a hk id code rest ht p0 3 s.mem code s.row (fun _ => rfl) (fun h' => by omega) (fun _ => i3 (by omega)) (fun h' => by omega)
          rw [ht] at this
          exact this
        · rw [if_neg p2]
          by_cases p3 : a.pc = 3
          · rw [if_pos p3]
            have := invC_advance hg k a hk id code rest ht p0 4 s.mem s.buf (s.row.1, s.buf) (fun h' => by omega) (fun _ => by rw [g1 (by omega), i1 p3]) (fun _ => i3 (by omega)) (fun h' => by omega)
            rw [ht] at this
            exact this
          · rw [if_neg p3]
            by_cases p4 : a.pc = 4
            · rw [if_pos p4]
              have := invC_advance hg k a hk id code rest ht p0 5 (s.mem ++ [s.row]) s.buf s.row (fun h' => by omega) (fun _ => i2 (by omega)) (fun h' => by omega)
                (fun _ => by rw [i3 (by omega), i2 (by omega)])
              rw [ht] at this
              exact this
            · rw [if_neg p4]
              have p5 : a.pc = 5 := by omega
              have hw := (hbusy p0).1
              refine ⟨fun _ => i4 p5, ?_⟩
              intro j b id' code' rest' hb hbt hb0
              rcases get_set hb with ⟨rfl, rfl⟩ | ⟨hne, hb⟩
              · exact absurd rfl hb0
              · exact absurd (hg.others hw hb hne) hb0

theorem invC_sched {A : Type} (answer : Bytes → List (Nat × Bytes) → A) {all : List (Nat × Bytes)} : ∀ (ts : List Turn) (s : State A), InvG all s → InvC s → Polite answer s ts →
    InvC (sched answer s ts) := by
  intro ts
  induction ts with
  | nil => intro s _ h _; exact h
  | cons t ts ih =>
    intro s hg h hp
    refine ih _ (invG_turn answer hg t) ?_ hp.2
    cases t with
    | appender k =>
      simp only [turn]
      cases hk : s.appenders[k]? with
      | none => exact h
      | some a => exact invC_appender hg h k a hk
    | searcher k =>
      have hw := hp.1 k rfl
      simp only [turn]
      cases hk : s.searchers[k]? with
      | none => exact h
      | some t =>
        have hidle : ∀ (k : Nat) a, s.appenders[k]? = some a → a.pc = 0 := by
          intro j b hb
          by_contra hb0
          have := ((hg.busy j b hb).2 hb0).1
          rw [hw] at this; cases this
        simp only [stepSearcher]
        split
        · exact ⟨h.free, fun j b _ _ _ hb _ hb0 => absurd (hidle j b hb) hb0⟩
        · split
          · exact ⟨h.free, h.codes⟩
          · exact h

theorem invC_start (A : Type) (rows : List (Nat × Bytes)) (todos : List (List (Nat × Bytes))) (queries : List Bytes) : InvC (start A rows todos queries) := by
  refine ⟨fun _ => rfl, ?_⟩
  intro k a id code rest h _ h0
  simp only [start, List.getElem?_map, Option.map_eq_some_iff] at h
  obtain ⟨t, -, rfl⟩ := h
  exact absurd rfl h0

theorem no_searchers {A : Type} (answer : Bytes → List (Nat × Bytes) → A) : ∀ (ts : List Turn) (s : State A), s.searchers = [] → (∀ t ∈ ts, ∃ k, t = Turn.appender k) → Polite answer s ts := by
  intro ts
  induction ts with
  | nil => intro s _ _; trivial
  | cons t ts ih =>
    intro s h ht
    obtain ⟨k, rfl⟩ := ht t List.mem_cons_self
    refine ⟨(fun j hj => by cases hj), ih _ ?_ fun t' h' => ht t' (List.mem_cons_of_mem _ h')⟩
    simp only [turn]
    cases s.appenders[k]? with
    | none => exact h
    | some a =>
      simp only [stepAppender]
      cases a.todo with
      | nil => exact h
      | cons x rest =>
        simp only []
        repeat' split
        all_goals exact h

theorem finished_pending {A : Type} {s : State A} (h : Finished s) : pending s = [] := by
  unfold pending
  rw [List.flatten_eq_nil_iff]
  intro l hl
  obtain ⟨a, ha, rfl⟩ := List.mem_map.1 hl
  exact h a ha

theorem finished_free {A : Type} {all : List (Nat × Bytes)} {s : State A} (hg : InvG all s) (h : Finished s) : s.writer = none := by
  cases hw : s.writer with
  | none => rfl
  | some k =>
    obtain ⟨a, ha, h0⟩ := hg.held k hw
    exact absurd (h a (List.mem_of_getElem? ha)) ((hg.busy k a ha).2 h0).2

/-! ## Claims -/

/-- **C292**: whatever the schedule of any number of appending threads, every code is written to the store at most once and none is lost, memory holds what the store holds -
the same ids with the same codes, and at most the one code that is being committed besides - and when the threads are done both hold all codes. -/
theorem C292_appends {A : Type} (answer : Bytes → List (Nat × Bytes) → A) (rows : List (Nat × Bytes)) (todos : List (List (Nat × Bytes))) (ts : List Turn)
    (hts : ∀ t ∈ ts, ∃ k, t = Turn.appender k) :
    let s := sched answer (start A rows todos []) ts
    (s.store ++ pending s).Perm (rows ++ todos.flatten) ∧ (s.mem = s.store ∨ ∃ x ∈ pending s, s.mem = s.store ++ [x]) ∧
    (Finished s → s.mem = s.store ∧ s.store.Perm (rows ++ todos.flatten)) := by
  intro s
  have hg : InvG (rows ++ todos.flatten) s := invG_sched answer ts _ (invG_start A rows todos [])
  have hc : InvC s := invC_sched answer ts _ (invG_start A rows todos []) (invC_start A rows todos []) (no_searchers answer ts _ rfl hts)
  refine ⟨hg.perm, ?_, ?_⟩
  · cases hw : s.writer with
    | none => exact Or.inl (hc.free hw)
    | some k =>
      obtain ⟨a, ha, h0⟩ := hg.held k hw
      obtain ⟨hle, hb⟩ := hg.busy k a ha
      cases ht : a.todo with
      | nil => exact absurd ht (hb h0).2
      | cons x rest =>
        obtain ⟨-, -, i3, i4⟩ := hc.codes k a x.1 x.2 rest ha ht h0
        by_cases h5 : a.pc = 5
        · right
          refine ⟨x, ?_, i4 h5⟩
          unfold pending
          rw [List.mem_flatten]
          exact ⟨a.todo, List.mem_map_of_mem (List.mem_of_getElem? ha), by rw [ht]; exact List.mem_cons_self⟩
        · exact Or.inl (i3 (by omega))
  · intro hf
    have hp := hg.perm
    rw [finished_pending hf, List.append_nil] at hp
    exact ⟨hc.free (finished_free hg hf), hp⟩

/-- **C292**, no deadlock: while something is left to append, some thread's turn brings the work forward, whatever happened before (searches included). -/
theorem C292_progress {A : Type} (answer : Bytes → List (Nat × Bytes) → A) (rows : List (Nat × Bytes)) (todos : List (List (Nat × Bytes))) (queries : List Bytes) (ts : List Turn)
    (hleft : ¬ Finished (sched answer (start A rows todos queries) ts)) :
    ∃ (k : Nat) (a : Appender), (sched answer (start A rows todos queries) ts).appenders[k]? = some a ∧ a.todo ≠ [] ∧
      ∃ a', (turn answer (sched answer (start A rows todos queries) ts) (.appender k)).appenders[k]? = some a' ∧
        ((a'.todo = a.todo ∧ a'.pc = a.pc + 1) ∨ (a'.todo = a.todo.tail ∧ a.pc = 5)) := by
  have hg : InvG (rows ++ todos.flatten) (sched answer (start A rows todos queries) ts) := invG_sched answer ts _ (invG_start A rows todos queries)
  generalize sched answer (start A rows todos queries) ts = s at *
  have hk : ∃ (k : Nat) (a : Appender), s.appenders[k]? = some a ∧ a.todo ≠ [] ∧ (a.pc = 0 → s.writer = none) := by
    cases hw : s.writer with
    | some k =>
      obtain ⟨a, ha, h0⟩ := hg.held k hw
      exact ⟨k, a, ha, ((hg.busy k a ha).2 h0).2, fun h => absurd h h0⟩
    | none =>
      unfold Finished at hleft
      rw [not_forall] at hleft
      obtain ⟨a, ha⟩ := hleft
      rw [Classical.not_imp] at ha
      obtain ⟨k, hk⟩ := List.mem_iff_getElem?.1 ha.1
      exact ⟨k, a, hk, ha.2, fun _ => rfl⟩
  obtain ⟨k, a, ha, hne, hfree⟩ := hk
  refine ⟨k, a, ha, hne, ?_⟩
  have hle := (hg.busy k a ha).1
  simp only [turn, ha, stepAppender]
  cases ht : a.todo with
  | nil => exact absurd ht hne
  | cons x rest =>
    simp only []
    by_cases p0 : a.pc = 0
    · rw [if_pos p0, if_pos (hfree p0)]
      exact ⟨_, get_set_self ha, Or.inl ⟨rfl, by simp [p0]⟩⟩
    · rw [if_neg p0]
      by_cases p1 : a.pc = 1
      · rw [if_pos p1]; exact ⟨_, get_set_self ha, Or.inl ⟨rfl, by simp [p1]⟩⟩
      · rw [if_neg p1]
        by_cases p2 : a.pc = 2
        · rw [if_pos p2]; exact ⟨_, get_set_self ha, Or.inl ⟨rfl, by simp [p2]⟩⟩
        · rw [if_neg p2]
          by_cases p3 : a.pc = 3
          · rw [if_pos p3]; exact ⟨_, get_set_self ha, Or.inl ⟨rfl, by simp [p3]⟩⟩
          · rw [if_neg p3]
            by_cases p4 : a.pc = 4
            · rw [if_pos p4]; exact ⟨_, get_set_self ha, Or.inl ⟨rfl, by simp [p4]⟩⟩
            · rw [if_neg p4]; exact ⟨_, get_set_self ha, Or.inr ⟨rfl, by omega⟩⟩

/-- **C293** (what does hold): a search that is not interrupted between filling the buffer and computing the distances, and that runs while nothing is being written, is answered for
its own query and for what the store holds - in every schedule in which the searches before did not disturb a write either. -/
theorem C293_serial {A : Type} (answer : Bytes → List (Nat × Bytes) → A) (rows : List (Nat × Bytes)) (todos : List (List (Nat × Bytes))) (queries : List Bytes) (ts : List Turn)
    (hts : Polite answer (start A rows todos queries) ts) (k : Nat) (t : Searcher A)
    (hk : (sched answer (start A rows todos queries) ts).searchers[k]? = some t) (h0 : t.pc = 0)
    (hw : (sched answer (start A rows todos queries) ts).writer = none) :
    ∃ t', (sched answer (sched answer (start A rows todos queries) ts) [.searcher k, .searcher k]).searchers[k]? = some t' ∧
      t'.answer = some (answer t.query (sched answer (start A rows todos queries) ts).store) := by
  have hc : InvC (sched answer (start A rows todos queries) ts) := invC_sched answer ts _ (invG_start A rows todos queries) (invC_start A rows todos queries) hts
  generalize sched answer (start A rows todos queries) ts = s at *
  have hlt : k < s.searchers.length := (List.getElem?_eq_some_iff.1 hk).1
  refine ⟨{ t with pc := 2, answer := some (answer t.query s.store) }, ?_, rfl⟩
  have h1 : turn answer s (.searcher k) = { s with buf := t.query, searchers := s.searchers.set k { t with pc := 1 } } := by
    simp only [turn, hk, stepSearcher]
    rw [if_pos h0]
  simp only [sched]
  rw [h1]
  simp only [turn]
  have h2 : (s.searchers.set k { t with pc := 1 })[k]? = some { t with pc := 1 } := List.getElem?_set_self hlt
  rw [h2]
  simp [stepSearcher, hlt, hc.free hw]

/-- **C293, refuted**: if another thread appends a code while a search is between filling the buffer and computing the distances, the search is answered for the appended code
instead of its query. -/
theorem C293_append_refuted {A : Type} (answer : Bytes → List (Nat × Bytes) → A) (rows : List (Nat × Bytes)) (id : Nat) (code query : Bytes) :
    ∃ ts t, (sched answer (start A rows [[(id, code)]] [query]) ts).searchers[0]? = some t ∧ t.query = query ∧ t.answer = some (answer code rows) :=
  ⟨[.searcher 0, .appender 0, .appender 0, .appender 0, .searcher 0], ⟨query, 2, some (answer code rows)⟩, rfl, rfl, rfl⟩

/-- **C293, refuted** (two searches): of two searches at the same time one may be answered for the other's query. -/
theorem C293_search_refuted {A : Type} (answer : Bytes → List (Nat × Bytes) → A) (rows : List (Nat × Bytes)) (q₁ q₂ : Bytes) :
    ∃ ts t, (sched answer (start A rows [] [q₁, q₂]) ts).searchers[0]? = some t ∧ t.query = q₁ ∧ t.answer = some (answer q₂ rows) :=
  ⟨[.searcher 0, .searcher 1, .searcher 0], ⟨q₁, 2, some (answer q₂ rows)⟩, rfl, rfl, rfl⟩

/-- **C294** (what does hold): whatever the schedule of appending and searching threads, the store gets every code that is appended, as it is; memory has the ids of the store, and
besides at most the one that is being committed. -/
theorem C294_store {A : Type} (answer : Bytes → List (Nat × Bytes) → A) (rows : List (Nat × Bytes)) (todos : List (List (Nat × Bytes))) (queries : List Bytes) (ts : List Turn) :
    let s := sched answer (start A rows todos queries) ts
    (s.store ++ pending s).Perm (rows ++ todos.flatten) ∧
    (s.mem.map Prod.fst = s.store.map Prod.fst ∨ ∃ x ∈ pending s, s.mem.map Prod.fst = s.store.map Prod.fst ++ [x.1]) ∧
    (Finished s → s.mem.map Prod.fst = s.store.map Prod.fst ∧ s.store.Perm (rows ++ todos.flatten)) := by
  intro s
  have hg : InvG (rows ++ todos.flatten) s := invG_sched answer ts _ (invG_start A rows todos queries)
  refine ⟨hg.perm, ?_, ?_⟩
  · cases hw : s.writer with
    | none => exact Or.inl (hg.free hw)
    | some k =>
      obtain ⟨a, ha, h0⟩ := hg.held k hw
      obtain ⟨hle, hb⟩ := hg.busy k a ha
      cases ht : a.todo with
      | nil => exact absurd ht (hb h0).2
      | cons x rest =>
        obtain ⟨-, i3, i4⟩ := hg.ids k a x.1 x.2 rest ha ht h0
        by_cases h5 : a.pc = 5
        · right
          refine ⟨x, ?_, i4 h5⟩
          unfold pending
          rw [List.mem_flatten]
          exact ⟨a.todo, List.mem_map_of_mem (List.mem_of_getElem? ha), by rw [ht]; exact List.mem_cons_self⟩
        · exact Or.inl (i3 (by omega))
  · intro hf
    have hp := hg.perm
    rw [finished_pending hf, List.append_nil] at hp
    exact ⟨hg.free (finished_free hg hf), hp⟩

/-- **C294** (what does hold): searches that have no turn while a write transaction is open do not change what memory holds. -/
theorem C294_polite {A : Type} (answer : Bytes → List (Nat × Bytes) → A) (rows : List (Nat × Bytes)) (todos : List (List (Nat × Bytes))) (queries : List Bytes) (ts : List Turn)
    (hts : Polite answer (start A rows todos queries) ts) (hf : Finished (sched answer (start A rows todos queries) ts)) :
    (sched answer (start A rows todos queries) ts).mem = (sched answer (start A rows todos queries) ts).store :=
  (invC_sched answer ts _ (invG_start A rows todos queries) (invC_start A rows todos queries) hts).free
    (finished_free (invG_sched answer ts _ (invG_start A rows todos queries)) hf)

/-- **C294, refuted**: a search at the wrong moment puts its query into memory in place of the code that is being appended, and it stays there: the store has the
code, memory the query, and all threads are done. -/
theorem C294_refuted {A : Type} (answer : Bytes → List (Nat × Bytes) → A) (rows : List (Nat × Bytes)) (id : Nat) (code query : Bytes) :
    ∃ ts, Finished (sched answer (start A rows [[(id, code)]] [query]) ts) ∧ (sched answer (start A rows [[(id, code)]] [query]) ts).writer = none ∧
      (sched answer (start A rows [[(id, code)]] [query]) ts).store = rows ++ [(id, code)] ∧
      (sched answer (start A rows [[(id, code)]] [query]) ts).mem = rows ++ [(id, query)] :=
  ⟨[.appender 0, .appender 0, .appender 0, .searcher 0, .appender 0, .appender 0, .appender 0, .searcher 0], by
    intro a ha
    have : a = { todo := [] } := by simpa [sched, turn, start, stepAppender, stepSearcher] using ha
    rw [this], rfl, rfl, rfl⟩

/-- Two threads append, a third searches between their transactions. -/
example : let s := start Nat [] [[(1, [1])], [(2, [2]), (3, [3])]] [[9]]
    let ts := [.appender 1, .appender 0, .appender 1, .appender 1, .appender 1, .appender 1, .appender 1, .searcher 0, .searcher 0, .appender 0]
    Polite (fun _ m => m.length) s ts ∧ ¬ Finished (sched (fun _ m => m.length) s ts) := by
  refine ⟨by simp [Polite, start, turn, stepAppender, stepSearcher], ?_⟩
  intro h
  have := h ⟨[(1, [1])], 1⟩ (by simp [sched, start, turn, stepAppender, stepSearcher])
  simp at this

example := C292_appends (fun _ m => m.length) [] [[(1, [1])], [(2, [2]), (3, [3])]] [.appender 1, .appender 0, .appender 1] (by
  intro t ht
  simp only [List.mem_cons, List.not_mem_nil, or_false] at ht
  rcases ht with rfl | rfl | rfl <;> exact ⟨_, rfl⟩)
example := C292_progress (fun _ m => m.length) [] [[(1, [1])], [(2, [2]), (3, [3])]] [[9]] [.appender 1, .appender 0] (fun h => absurd (h _ (List.mem_cons_self ..)) (by decide))

/-- One thread appends, then another searches. -/
example := C293_serial (fun _ m => m.length) [] [[(1, [1])]] [[9]] (List.replicate 6 (.appender 0))
  (by simp [List.replicate, Polite, start, turn, stepAppender]) 0 ⟨[9], 0, none⟩ (by rfl) rfl (by rfl)
example := C294_polite (fun _ m => m.length) [] [[(1, [1])]] [[9]] (List.replicate 6 (.appender 0))
  (by simp [List.replicate, Polite, start, turn, stepAppender]) (by
    have h : (sched (fun _ m => m.length) (start Nat [] [[(1, [1])]] [[9]]) (List.replicate 6 (.appender 0))).appenders = [⟨[], 0⟩] := by rfl
    unfold Finished
    rw [h]
    simp)

end Zounds.Threads
