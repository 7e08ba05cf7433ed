import Verif.Props.Threads

/-!
# What a search is answered for, and what an append leaves in memory, in every schedule (C293, C294)
-/

namespace Zounds.Threads
open Zounds.HammingDb (Bytes)

/-- The code that a turn puts into the object's one buffer: the code being appended, or the query of a search that begins. -/
def fill {A : Type} (s : State A) : Turn → Option Bytes
  | .appender k =>
    match s.appenders[k]? with
    | some { todo := (_, code) :: _, pc := 2 } => some code
    | _ => none
  | .searcher k =>
    match s.searchers[k]? with
    | some { query := q, pc := 0, answer := _ } => some q
    | _ => none

/-- The last code put into the buffer during a schedule, if any was. -/
def lastFill {A : Type} (answer : Bytes → List (Nat × Bytes) → A) : State A → List Turn → Option Bytes
  | _, [] => none
  | s, t :: ts => (lastFill answer (turn answer s t) ts).orElse fun _ => fill s t

theorem buf_turn {A : Type} (answer : Bytes → List (Nat × Bytes) → A) (s : State A) (t : Turn) : (turn answer s t).buf = (fill s t).getD s.buf := by
  cases t with
  | appender k =>
    simp only [turn, fill]
    cases s.appenders[k]? with
    | none => rfl
    | some a =>
      obtain ⟨todo, pc⟩ := a
      cases todo with
      | nil => rfl
      | cons x rest =>
        simp only [stepAppender]
        by_cases p0 : pc = 0
        · subst p0; simp only [if_true]; split <;> rfl
        · by_cases p1 : pc = 1
          · subst p1; rfl
          · by_cases p2 : pc = 2
            · subst p2; rfl
            · have h2 : (match (some { todo := x :: rest, pc := pc } : Option Appender) with
                  | some { todo := (_, code) :: _, pc := 2 } => some code
                  | _ => none) = none := by
                split
                · rename_i heq
                  injection heq with heq
                  injection heq with _ h
                  exact absurd h p2
                · rfl
              rw [h2, if_neg p0, if_neg p1, if_neg p2]
              split
              · rfl
              · split <;> rfl
  | searcher k =>
    simp only [turn, fill]
    cases s.searchers[k]? with
    | none => rfl
    | some t =>
      obtain ⟨q, pc, ans⟩ := t
      simp only [stepSearcher]
      match pc with
      | 0 => rfl
      | 1 => rfl
      | n + 2 => rfl

theorem buf_sched {A : Type} (answer : Bytes → List (Nat × Bytes) → A) : ∀ (ts : List Turn) (s : State A), (sched answer s ts).buf = (lastFill answer s ts).getD s.buf := by
  intro ts
  induction ts with
  | nil => intro s; rfl
  | cons t ts ih =>
    intro s
    simp only [sched, lastFill]
    rw [ih, buf_turn]
    cases lastFill answer (turn answer s t) ts <;> rfl

theorem sched_append {A : Type} (answer : Bytes → List (Nat × Bytes) → A) : ∀ (a b : List Turn) (s : State A), sched answer s (a ++ b) = sched answer (sched answer s a) b := by
  intro a
  induction a with
  | nil => intro b s; rfl
  | cons t a ih => intro b s; exact ih b _

theorem searcher_turn {A : Type} (answer : Bytes → List (Nat × Bytes) → A) (s : State A) (t : Turn) (k : Nat) (h : t ≠ .searcher k) :
    (turn answer s t).searchers[k]? = s.searchers[k]? := by
  cases t with
  | appender j =>
    simp only [turn]
    cases s.appenders[j]? with
    | none => rfl
    | some a =>
      simp only [stepAppender]
      cases a.todo with
      | nil => rfl
      | cons x rest =>
        simp only []
        repeat' split
        all_goals rfl
  | searcher j =>
    have hj : j ≠ k := fun e => h (by rw [e])
    simp only [turn]
    cases s.searchers[j]? with
    | none => rfl
    | some a =>
      simp only [stepSearcher]
      split
      · exact List.getElem?_set_ne hj
      · split
        · exact List.getElem?_set_ne hj
        · rfl

theorem searcher_sched {A : Type} (answer : Bytes → List (Nat × Bytes) → A) (k : Nat) : ∀ (ts : List Turn) (s : State A), Turn.searcher k ∉ ts →
    (sched answer s ts).searchers[k]? = s.searchers[k]? := by
  intro ts
  induction ts with
  | nil => intro s _; rfl
  | cons t ts ih =>
    intro s h
    rw [List.mem_cons, not_or] at h
    simp only [sched]
    rw [ih _ h.2, searcher_turn answer s t k (fun e => h.1 e.symm)]

/-- **C293**, what a search is answered for, in every schedule: the last code any thread put into the buffer between the two steps of the search - its own query if
none did - and the codes that are in memory when the distances are computed. -/
theorem C293_exact {A : Type} (answer : Bytes → List (Nat × Bytes) → A) (s : State A) (k : Nat) (t : Searcher A) (hk : s.searchers[k]? = some t) (h0 : t.pc = 0)
    (mid : List Turn) (hmid : Turn.searcher k ∉ mid) :
    ∃ t', (sched answer s (.searcher k :: mid ++ [.searcher k])).searchers[k]? = some t' ∧
      t'.answer = some (answer ((lastFill answer (turn answer s (.searcher k)) mid).getD t.query) (sched answer s (.searcher k :: mid)).mem) := by
  have hlt : k < s.searchers.length := (List.getElem?_eq_some_iff.1 hk).1
  have h1 : turn answer s (.searcher k) = { s with buf := t.query, searchers := s.searchers.set k { t with pc := 1 } } := by
    simp only [turn, hk, stepSearcher]
    exact if_pos h0
  have hb : (turn answer s (.searcher k)).buf = t.query := by rw [h1]
  have hs : (turn answer s (.searcher k)).searchers[k]? = some { t with pc := 1 } := by rw [h1]; exact List.getElem?_set_self hlt
  rw [sched_append]
  simp only [sched]
  generalize turn answer s (.searcher k) = s1 at *
  have hs2 : (sched answer s1 mid).searchers[k]? = some { t with pc := 1 } := by rw [searcher_sched answer k mid s1 hmid, hs]
  have hb2 := buf_sched answer mid s1
  rw [hb] at hb2
  generalize sched answer s1 mid = s2 at *
  have hlt2 : k < s2.searchers.length := (List.getElem?_eq_some_iff.1 hs2).1
  refine ⟨{ t with pc := 2, answer := some (answer s2.buf s2.mem) }, ?_, by rw [← hb2]⟩
  simp only [turn, hs2, stepSearcher]
  rw [if_neg (by decide), if_pos trivial]
  exact List.getElem?_set_self hlt2

/-- **C293**: so a search is answered for its own query, whatever the distance computation makes of it, exactly if no other code was put into the buffer last. -/
theorem C293_own {A : Type} (answer : Bytes → List (Nat × Bytes) → A) (hinj : ∀ q q' m, answer q m = answer q' m → q = q') (s : State A) (k : Nat) (t : Searcher A)
    (hk : s.searchers[k]? = some t) (h0 : t.pc = 0) (mid : List Turn) (hmid : Turn.searcher k ∉ mid) :
    (∃ t', (sched answer s (.searcher k :: mid ++ [.searcher k])).searchers[k]? = some t' ∧ t'.answer = some (answer t.query (sched answer s (.searcher k :: mid)).mem)) ↔
      ∀ c, lastFill answer (turn answer s (.searcher k)) mid = some c → c = t.query := by
  obtain ⟨t', h1, h2⟩ := C293_exact answer s k t hk h0 mid hmid
  constructor
  · rintro ⟨t'', h3, h4⟩ c hc
    rw [h1] at h3
    cases h3
    rw [h2, hc] at h4
    exact hinj _ _ _ (Option.some.inj h4)
  · intro h
    refine ⟨t', h1, ?_⟩
    rw [h2]
    cases hc : lastFill answer (turn answer s (.searcher k)) mid with
    | none => rfl
    | some c => rw [h c hc]; rfl

/-- While thread `k` holds the write transaction and does not have its turn, it stays where it is, and so do row and memory: nobody else gets into a write. -/
theorem held_turn {A : Type} (answer : Bytes → List (Nat × Bytes) → A) {all : List (Nat × Bytes)} {s : State A} (hg : InvG all s) (k : Nat) (hw : s.writer = some k) (t : Turn)
    (ht : t ≠ .appender k) :
    (turn answer s t).writer = some k ∧ (turn answer s t).appenders = s.appenders ∧ (turn answer s t).row = s.row ∧ (turn answer s t).mem = s.mem ∧ (turn answer s t).store = s.store := by
  cases t with
  | appender j =>
    have hj : j ≠ k := fun e => ht (by rw [e])
    simp only [turn]
    cases ha : s.appenders[j]? with
    | none => exact ⟨hw, rfl, rfl, rfl, rfl⟩
    | some a =>
      have hp := hg.others hw ha hj
      simp only [stepAppender]
      cases a.todo with
      | nil => exact ⟨hw, rfl, rfl, rfl, rfl⟩
      | cons x rest =>
        simp only [hp, if_true, hw]
        rw [if_neg (by simp)]
        exact ⟨hw, rfl, rfl, rfl, rfl⟩
  | searcher j =>
    simp only [turn]
    cases s.searchers[j]? with
    | none => exact ⟨hw, rfl, rfl, rfl, rfl⟩
    | some a =>
      simp only [stepSearcher]
      split
      · exact ⟨hw, rfl, rfl, rfl, rfl⟩
      · split
        · exact ⟨hw, rfl, rfl, rfl, rfl⟩
        · exact ⟨hw, rfl, rfl, rfl, rfl⟩

theorem held_sched {A : Type} (answer : Bytes → List (Nat × Bytes) → A) {all : List (Nat × Bytes)} (k : Nat) : ∀ (ts : List Turn) (s : State A), InvG all s → s.writer = some k →
    Turn.appender k ∉ ts →
    (sched answer s ts).writer = some k ∧ (sched answer s ts).appenders = s.appenders ∧ (sched answer s ts).row = s.row ∧ (sched answer s ts).mem = s.mem ∧
      (sched answer s ts).store = s.store := by
  intro ts
  induction ts with
  | nil => intro s _ hw _; exact ⟨hw, rfl, rfl, rfl, rfl⟩
  | cons t ts ih =>
    intro s hg hw h
    rw [List.mem_cons, not_or] at h
    obtain ⟨a, b, c, d, e⟩ := held_turn answer hg k hw t (fun e => h.1 e.symm)
    obtain ⟨a', b', c', d', e'⟩ := ih _ (invG_turn answer hg t) a h.2
    exact ⟨a', b'.trans b, c'.trans c, d'.trans d, e'.trans e⟩

/-- **C294**, what an append leaves in memory and in the store, in every schedule: from the moment a thread is about to put its code into the buffer, its next three turns (copy the
buffer into the row, append the row, commit) with anything whatsoever in between add to memory its id with the last code put into the buffer before the copy - its own
code, unless a search begins just then - and to the store its id with its own code. -/
theorem C294_exact {A : Type} (answer : Bytes → List (Nat × Bytes) → A) (rows : List (Nat × Bytes)) (todos : List (List (Nat × Bytes))) (queries : List Bytes) (before : List Turn)
    (s : State A) (hs : s = sched answer (start A rows todos queries) before) (k : Nat) (id : Nat) (code : Bytes) (rest : List (Nat × Bytes))
    (hk : s.appenders[k]? = some { todo := (id, code) :: rest, pc := 2 }) (m₁ m₂ m₃ : List Turn)
    (h₁ : Turn.appender k ∉ m₁) (h₂ : Turn.appender k ∉ m₂) (h₃ : Turn.appender k ∉ m₃) :
    let e := sched answer s (.appender k :: m₁ ++ .appender k :: m₂ ++ .appender k :: m₃ ++ [.appender k])
    e.mem = s.mem ++ [(id, (lastFill answer (turn answer s (.appender k)) m₁).getD code)] ∧ e.store = s.store ++ [(id, code)] ∧
      e.appenders[k]? = some { todo := rest, pc := 0 } := by
  have hg : InvG (rows ++ todos.flatten) s := by rw [hs]; exact invG_sched answer before _ (invG_start A rows todos queries)
  have hw : s.writer = some k := ((hg.busy k _ hk).2 (by simp)).1
  have hrow : s.row.1 = id := (hg.ids k _ id code rest hk rfl (by simp)).1 (by simp)
  clear hs
  intro e
  have he : e = turn answer (sched answer (turn answer (sched answer (turn answer (sched answer (turn answer s (.appender k)) m₁) (.appender k)) m₂) (.appender k)) m₃) (.appender k) := by
    show sched answer s _ = _
    simp only [sched_append, sched, List.cons_append, List.append_assoc, List.nil_append]
  rw [he]
  clear he e
  have g1 := invG_turn answer hg (.appender k)
  have e1 : turn answer s (.appender k) = { s with buf := code, appenders := s.appenders.set k { todo := (id, code) :: rest, pc := 3 } } := by
    simp only [turn, hk, stepAppender]; rfl
  have b1 : (turn answer s (.appender k)).buf = code := by rw [e1]
  have w1 : (turn answer s (.appender k)).writer = some k := by rw [e1]; exact hw
  have a1 : (turn answer s (.appender k)).appenders[k]? = some { todo := (id, code) :: rest, pc := 3 } := by rw [e1]; exact get_set_self hk
  have r1 : (turn answer s (.appender k)).row.1 = id := by rw [e1]; exact hrow
  have mm1 : (turn answer s (.appender k)).mem = s.mem := by rw [e1]
  have ss1 : (turn answer s (.appender k)).store = s.store := by rw [e1]
  generalize turn answer s (.appender k) = s1 at *
  obtain ⟨w2, a2, r2, mm2, ss2⟩ := held_sched answer k m₁ s1 g1 w1 h₁
  have g2 := invG_sched answer m₁ s1 g1
  have b2 := buf_sched answer m₁ s1
  rw [b1] at b2
  generalize lastFill answer s1 m₁ = lf at *
  generalize sched answer s1 m₁ = s2 at *
  have a2' : s2.appenders[k]? = some { todo := (id, code) :: rest, pc := 3 } := by rw [a2]; exact a1
  have e3 : turn answer s2 (.appender k) = { s2 with row := (s2.row.1, s2.buf), appenders := s2.appenders.set k { todo := (id, code) :: rest, pc := 4 } } := by
    simp only [turn, a2', stepAppender]; rfl
  have g3 := invG_turn answer g2 (.appender k)
  have w3 : (turn answer s2 (.appender k)).writer = some k := by rw [e3]; exact w2
  have a3 : (turn answer s2 (.appender k)).appenders[k]? = some { todo := (id, code) :: rest, pc := 4 } := by rw [e3]; exact get_set_self a2'
  have r3 : (turn answer s2 (.appender k)).row = (id, lf.getD code) := by rw [e3]; show (s2.row.1, s2.buf) = _; rw [r2, r1, b2]
  have mm3 : (turn answer s2 (.appender k)).mem = s.mem := by rw [e3]; exact mm2.trans mm1
  have ss3 : (turn answer s2 (.appender k)).store = s.store := by rw [e3]; exact ss2.trans ss1
  generalize turn answer s2 (.appender k) = s3 at *
  obtain ⟨w4, a4, r4, mm4, ss4⟩ := held_sched answer k m₂ s3 g3 w3 h₂
  have g4 := invG_sched answer m₂ s3 g3
  generalize sched answer s3 m₂ = s4 at *
  have a4' : s4.appenders[k]? = some { todo := (id, code) :: rest, pc := 4 } := by rw [a4]; exact a3
  have e5 : turn answer s4 (.appender k) = { s4 with mem := s4.mem ++ [s4.row], appenders := s4.appenders.set k { todo := (id, code) :: rest, pc := 5 } } := by
    simp only [turn, a4', stepAppender]; rfl
  have g5 := invG_turn answer g4 (.appender k)
  have w5 : (turn answer s4 (.appender k)).writer = some k := by rw [e5]; exact w4
  have a5 : (turn answer s4 (.appender k)).appenders[k]? = some { todo := (id, code) :: rest, pc := 5 } := by rw [e5]; exact get_set_self a4'
  have mm5 : (turn answer s4 (.appender k)).mem = s.mem ++ [(id, lf.getD code)] := by rw [e5]; show s4.mem ++ [s4.row] = _; rw [mm4, mm3, r4, r3]
  have ss5 : (turn answer s4 (.appender k)).store = s.store := by rw [e5]; exact ss4.trans ss3
  generalize turn answer s4 (.appender k) = s5 at *
  obtain ⟨w6, a6, r6, mm6, ss6⟩ := held_sched answer k m₃ s5 g5 w5 h₃
  generalize sched answer s5 m₃ = s6 at *
  have a6' : s6.appenders[k]? = some { todo := (id, code) :: rest, pc := 5 } := by rw [a6]; exact a5
  have e7 : turn answer s6 (.appender k) = { s6 with store := s6.store ++ [(id, code)], writer := none, appenders := s6.appenders.set k { todo := rest, pc := 0 } } := by
    simp only [turn, a6', stepAppender]; rfl
  rw [e7]
  exact ⟨mm6.trans mm5, by show s6.store ++ _ = _; rw [ss6, ss5], get_set_self a6'⟩

/-- **C294**: so memory has the appended code exactly if no other code was put into the buffer last between the two steps of the append that fill and read it. -/
theorem C294_own {A : Type} (answer : Bytes → List (Nat × Bytes) → A) (rows : List (Nat × Bytes)) (todos : List (List (Nat × Bytes))) (queries : List Bytes) (before : List Turn)
    (s : State A) (hs : s = sched answer (start A rows todos queries) before) (k : Nat) (id : Nat) (code : Bytes) (rest : List (Nat × Bytes))
    (hk : s.appenders[k]? = some { todo := (id, code) :: rest, pc := 2 }) (m₁ m₂ m₃ : List Turn)
    (h₁ : Turn.appender k ∉ m₁) (h₂ : Turn.appender k ∉ m₂) (h₃ : Turn.appender k ∉ m₃) :
    (sched answer s (.appender k :: m₁ ++ .appender k :: m₂ ++ .appender k :: m₃ ++ [.appender k])).mem = s.mem ++ [(id, code)] ↔
      ∀ c, lastFill answer (turn answer s (.appender k)) m₁ = some c → c = code := by
  rw [(C294_exact answer rows todos queries before s hs k id code rest hk m₁ m₂ m₃ h₁ h₂ h₃).1]
  constructor
  · intro h c hc
    have h' := List.append_cancel_left h
    rw [hc] at h'
    simpa using h'
  · intro h
    cases hc : lastFill answer (turn answer s (.appender k)) m₁ with
    | none => rfl
    | some c => rw [h c hc]; rfl

/-- Between the two steps only searches put codes into the buffer. -/
theorem C294_searches {A : Type} (answer : Bytes → List (Nat × Bytes) → A) {all : List (Nat × Bytes)} (k : Nat) : ∀ (m : List Turn) (s : State A), InvG all s → s.writer = some k →
    Turn.appender k ∉ m → ∀ c, lastFill answer s m = some c → ∃ (j : Nat) (t : Searcher A) (pre : List Turn), pre ++ [.searcher j] <+: m ∧ (sched answer s pre).searchers[j]? = some t ∧ t.pc = 0 ∧ t.query = c := by
  intro m
  induction m with
  | nil => intro s _ _ _ c hc; cases hc
  | cons t m ih =>
    intro s hg hw h c hc
    rw [List.mem_cons, not_or] at h
    simp only [lastFill] at hc
    cases hl : lastFill answer (turn answer s t) m with
    | some c' =>
      rw [hl] at hc
      cases hc
      obtain ⟨j, u, pre, hp, hj, h0, hq⟩ := ih _ (invG_turn answer hg t) (held_turn answer hg k hw t (fun e => h.1 e.symm)).1 h.2 c hl
      refine ⟨j, u, t :: pre, ?_, hj, h0, hq⟩
      rw [List.cons_append, List.cons_prefix_cons]
      exact ⟨rfl, hp⟩
    | none =>
      rw [hl] at hc
      replace hc : fill s t = some c := hc
      cases t with
      | appender j =>
        have hj : j ≠ k := fun e => h.1 (by rw [e])
        simp only [fill] at hc
        split at hc
        · rename_i heq
          exact absurd (hg.others hw heq hj) (by simp)
        · cases hc
      | searcher j =>
        simp only [fill] at hc
        split at hc
        · rename_i heq
          refine ⟨j, _, [], ?_, heq, rfl, Option.some.inj hc⟩
          simp
        · cases hc

/-- The schedule of C294_refuted: the search begins between the two steps. -/
example : (sched (fun _ m => m.length) (start Nat [] [[(1, [7])]] [[9]]) [.appender 0, .appender 0]).appenders[0]? = some { todo := [(1, [7])], pc := 2 } ∧
    lastFill (fun _ m => m.length) (turn (fun _ m => m.length) (sched (fun _ m => m.length) (start Nat [] [[(1, [7])]] [[9]]) [.appender 0, .appender 0]) (.appender 0)) [.searcher 0] = some [9] :=
  ⟨rfl, rfl⟩

example := C293_exact (fun _ m => m.length) (start Nat [(1, [7])] [[(2, [8])]] [[9], [5]]) 0 _ rfl rfl [.searcher 1, .appender 0] (by decide)
example := C293_own (fun q _ => q) (fun _ _ _ h => h) (start Bytes [(1, [7])] [[(2, [8])]] [[9], [5]]) 0 _ rfl rfl [.searcher 1, .appender 0] (by decide)
example := C294_exact (fun _ m => m.length) [] [[(1, [7])]] [[9]] [.appender 0, .appender 0] _ rfl 0 1 [7] [] (by rfl) [.searcher 0] [] [.searcher 0] (by decide) (by decide) (by decide)
example := C294_own (fun _ m => m.length) [] [[(1, [7])]] [[9]] [.appender 0, .appender 0] _ rfl 0 1 [7] [] (by rfl) [.searcher 0] [] [.searcher 0] (by decide) (by decide) (by decide)

end Zounds.Threads
