import Verif.Props.Monitor

/-!
# Exactly when pages disturb training, and exactly when leaving an application fails (C238, C240)
-/

namespace Zounds.Monitor
open Zounds

variable {κ V : Type} [DecidableEq κ]

/-- What the server thread does: a page is opened, its connection breaks, it is closed. -/
inductive PageEv where
  | opened (c : Nat)
  | broken (c : Nat)
  | closed (c : Nat)
  deriving DecidableEq, Repr

/-- The same as a step of the two threads. -/
def PageEv.toAct : PageEv → Act κ V
  | .opened c => .opened c
  | .broken c => .broken c
  | .closed c => .closed c

/-- Registered callbacks and broken connections after an event: a page that is opened is registered at the end unless it is there, a page that is closed is removed. -/
def pageStep (p : List Cb × List Nat) : PageEv → List Cb × List Nat
  | .opened c => (if Cb.page c ∈ p.1 then p.1 else p.1 ++ [Cb.page c], p.2)
  | .broken c => (p.1, c :: p.2)
  | .closed c => (p.1.filter (· ≠ Cb.page c), p.2)

/-- The schedule in which the server thread does what `gs` says before each turn of the trainer's loop. -/
def interleave (gs : List (List PageEv)) : List (Act κ V) := gs.flatMap fun g => g.map PageEv.toAct ++ [.next]

theorem acts_pages (cfg : Cfg κ) (rest : List (Act κ V)) : ∀ (g : List PageEv) (s : State κ V) (l : Option (Loop κ V)),
    ∃ s' : State κ V, acts cfg ⟨s, l⟩ (g.map PageEv.toAct ++ rest) = acts cfg ⟨s', l⟩ rest ∧ (s'.cbs, s'.lost) = g.foldl pageStep (s.cbs, s.lost) := by
  intro g
  induction g with
  | nil => intro s l; exact ⟨s, rfl, rfl⟩
  | cons e g ih =>
    intro s l
    cases e with
    | opened c =>
      obtain ⟨s', h1, h2⟩ := ih (openPage c s) l
      exact ⟨s', h1, h2⟩
    | broken c =>
      obtain ⟨s', h1, h2⟩ := ih (losePage c s) l
      exact ⟨s', h1, h2⟩
    | closed c =>
      obtain ⟨s', h1, h2⟩ := ih (closePage c s) l
      exact ⟨s', h1, h2⟩

/-- A callback raises exactly for a batch that is reported to a page whose connection is gone. -/
theorem call_ok_iff (cfg : Cfg κ) (hf : 0 < cfg.frequency) (kw : Kw κ V) (s : State κ V) (cb : Cb) :
    (∃ s', call cfg kw s cb = .ok s') ↔ (cfg.frequency ∣ kw.batch → ∀ c, cb = .page c → c ∉ s.lost) := by
  have hf0 : cfg.frequency ≠ 0 := by omega
  cases cb with
  | other n => simp [call]
  | history => simp [call, hf0]
  | page d =>
    simp only [call, if_neg hf0, Nat.dvd_iff_mod_eq_zero]
    by_cases hd : kw.batch % cfg.frequency = 0
    · rw [if_neg (by simpa using hd)]
      by_cases hl : d ∈ s.lost
      · simp [hl, hd]
      · simp [hl, hd]
    · rw [if_pos hd]
      simp [hd]

/-- **C238**, exactly when pages disturb training: a notification is completed without an exception if and only if, at each of its turns, as many callbacks are registered as when it began and,
for a batch that is reported, the callback whose turn it is does not belong to a page whose connection is gone. -/
theorem C238_exact (cfg : Cfg κ) (hf : 0 < cfg.frequency) (kw : Kw κ V) (n : Nat) : ∀ (gs : List (List PageEv)) (pos : Nat) (s : State κ V), pos + gs.length ≤ n + 1 →
    ((∃ b, acts cfg ⟨s, some ⟨kw, pos, n⟩⟩ (interleave gs) = .ok b) ↔
      ∀ i, i < gs.length → ((gs.take (i + 1)).flatten.foldl pageStep (s.cbs, s.lost)).1.length = n ∧
        (cfg.frequency ∣ kw.batch → ∀ c, ((gs.take (i + 1)).flatten.foldl pageStep (s.cbs, s.lost)).1[pos + i]? = some (.page c) →
          c ∉ ((gs.take (i + 1)).flatten.foldl pageStep (s.cbs, s.lost)).2)) := by
  intro gs
  induction gs with
  | nil => intro pos s _; exact ⟨fun _ i hi => absurd hi (Nat.not_lt_zero i), fun _ => ⟨_, rfl⟩⟩
  | cons g gs ih =>
    intro pos s hn
    rw [List.length_cons] at hn
    obtain ⟨s1, h1, h2⟩ := acts_pages cfg (Act.next :: interleave gs) g s (some ⟨kw, pos, n⟩)
    have hform : (interleave (g :: gs) : List (Act κ V)) = g.map PageEv.toAct ++ (Act.next :: interleave gs) := by
      simp [interleave]
    rw [hform, h1]
    have hsplit : (∀ i, i < (g :: gs).length → (((g :: gs).take (i + 1)).flatten.foldl pageStep (s.cbs, s.lost)).1.length = n ∧
        (cfg.frequency ∣ kw.batch → ∀ c, (((g :: gs).take (i + 1)).flatten.foldl pageStep (s.cbs, s.lost)).1[pos + i]? = some (.page c) →
          c ∉ (((g :: gs).take (i + 1)).flatten.foldl pageStep (s.cbs, s.lost)).2)) ↔
        ((s1.cbs.length = n ∧ (cfg.frequency ∣ kw.batch → ∀ c, s1.cbs[pos]? = some (.page c) → c ∉ s1.lost)) ∧
        ∀ i, i < gs.length → ((gs.take (i + 1)).flatten.foldl pageStep (s1.cbs, s1.lost)).1.length = n ∧
          (cfg.frequency ∣ kw.batch → ∀ c, ((gs.take (i + 1)).flatten.foldl pageStep (s1.cbs, s1.lost)).1[pos + 1 + i]? = some (.page c) →
            c ∉ ((gs.take (i + 1)).flatten.foldl pageStep (s1.cbs, s1.lost)).2)) := by
      have e0 : ((g :: gs).take (0 + 1)).flatten.foldl pageStep (s.cbs, s.lost) = (s1.cbs, s1.lost) := by simp [h2]
      have e1 : ∀ i, ((g :: gs).take (i + 1 + 1)).flatten.foldl pageStep (s.cbs, s.lost) = (gs.take (i + 1)).flatten.foldl pageStep (s1.cbs, s1.lost) := by
        intro i
        rw [List.take_succ_cons, List.flatten_cons, List.foldl_append, h2]
      constructor
      · intro h
        constructor
        · have := h 0 (by simp)
          rw [e0] at this
          exact this
        · intro i hi
          have := h (i + 1) (by simpa using hi)
          rw [e1, show pos + (i + 1) = pos + 1 + i by omega] at this
          exact this
      · rintro ⟨ha, hb⟩ i hi
        cases i with
        | zero => rw [e0]; exact ha
        | succ i =>
          rw [e1, show pos + (i + 1) = pos + 1 + i by omega]
          exact hb i (by simpa using hi)
    rw [hsplit]
    simp only [acts, act]
    by_cases hl : s1.cbs.length = n
    · rw [if_neg (by simpa using hl)]
      cases hc : s1.cbs[pos]? with
      | none =>
        have hp : n ≤ pos := by rw [← hl]; exact List.getElem?_eq_none_iff.1 hc
        have hg : gs = [] := List.length_eq_zero_iff.1 (by omega)
        subst hg
        simp [interleave, acts, hl]
      | some cb =>
        have hok := call_ok_iff cfg hf kw s1 cb
        cases hr : call cfg kw s1 cb with
        | error e =>
          simp only [hr]
          constructor
          · rintro ⟨b, hb⟩; cases hb
          · rintro ⟨⟨-, hq⟩, -⟩
            exfalso
            have := hok.2 fun hd c hcb => hq hd c (by rw [hcb])
            rw [hr] at this
            obtain ⟨x, hx⟩ := this
            cases hx
        | ok s2 =>
          obtain ⟨f1, f2, -⟩ := call_frame cfg kw s1 s2 cb hr
          simp only [hr]
          rw [ih (pos + 1) s2 (by omega), f1, f2]
          constructor
          · intro h
            refine ⟨⟨hl, fun hd c hcb => ?_⟩, h⟩
            exact hok.1 ⟨s2, hr⟩ hd c (Option.some.inj hcb)
          · exact fun h => h.2
    · rw [if_pos (by simpa using hl)]
      constructor
      · rintro ⟨b, hb⟩; cases hb
      · rintro ⟨⟨h, -⟩, -⟩; exact absurd h hl

/-- A page is opened before the second turn: the loop of two callbacks fails; a page that is closed and one that is opened between two turns are not noticed. -/
example : ¬ (∀ i, i < 2 → (([[], [PageEv.opened 7]].take (i + 1)).flatten.foldl pageStep ([Cb.history, Cb.page 1], [])).1.length = 2) ∧
    (∀ i, i < 2 → (([[], [PageEv.closed 1, PageEv.opened 7]].take (i + 1)).flatten.foldl pageStep ([Cb.history, Cb.page 1], [])).1.length = 2) := by
  decide

/-! ## C240 -/

/-- Where the two threads are while the main thread has not begun to leave the block, after `a` steps of the server thread. -/
theorem threads_body (a : Nat) (free : Bool) : (threads free App.start (List.replicate a false)).main = .body ∧ (threads free App.start (List.replicate a false)).stop = false ∧
    ((threads free App.start (List.replicate a false)).server = true ↔ free = true ∧ 2 ≤ a) ∧
    (threads free App.start (List.replicate a false)).thread =
      (if a = 0 then .created else if a = 1 then .made else if free then (if a = 2 then .listening else .looping) else .finished) := by
  induction a with
  | zero => cases free <;> decide
  | succ a ih =>
    obtain ⟨h1, h2, h3, h4⟩ := ih
    rw [List.replicate_succ', threads_append]
    generalize threads free App.start (List.replicate a false) = x at *
    obtain ⟨server, accepting, stop, thread, main⟩ := x
    simp only at h1 h2 h3 h4
    subst h1 h2
    simp only [threads, serverStep]
    rcases a with _ | _ | _ | a
    · simp at h4 h3; subst h4; cases free <;> simp_all
    · simp at h4 h3; subst h4; cases free <;> simp_all
    · simp at h4 h3; cases free
      · simp at h4; subst h4; simp_all
      · simp at h4; subst h4; simp_all
    · simp at h4 h3; cases free
      · simp at h4; subst h4; simp_all
      · simp at h4; subst h4; simp_all

theorem threads_asked (free : Bool) (a : Nat) : ∀ b, (threads free App.start (List.replicate a false ++ true :: List.replicate b false)).main = .asked ∧
    ((threads free App.start (List.replicate a false ++ true :: List.replicate b false)).server = true ↔ free = true ∧ 2 ≤ a + b) ∧
    ((threads free App.start (List.replicate a false ++ true :: List.replicate b false)).thread =
      (if a + b = 0 then .created else if a + b = 1 then .made else if free then
        (if a + b = 2 then .listening else if (threads free App.start (List.replicate a false ++ true :: List.replicate b false)).thread = .looping then .looping else .finished) else .finished)) := by
  intro b
  induction b with
  | zero =>
    obtain ⟨h1, h2, h3, h4⟩ := threads_body a free
    rw [List.replicate_zero, threads_append]
    generalize threads free App.start (List.replicate a false) = x at *
    obtain ⟨server, accepting, stop, thread, main⟩ := x
    simp only at h1 h2 h3 h4
    subst h1 h2
    simp only [threads, mainStep, Nat.add_zero]
    refine ⟨trivial, h3, ?_⟩
    rw [h4]
    rcases a with _ | _ | _ | a <;> cases free <;> simp
  | succ b ih =>
    obtain ⟨h1, h3, h4⟩ := ih
    rw [List.replicate_succ', ← List.cons_append, ← List.append_assoc, threads_append]
    generalize threads free App.start (List.replicate a false ++ true :: List.replicate b false) = x at *
    obtain ⟨server, accepting, stop, thread, main⟩ := x
    simp only at h1 h3 h4
    subst h1
    simp only [threads, serverStep]
    rw [show a + (b + 1) = (a + b) + 1 by omega]
    generalize a + b = k at *
    rcases k with _ | _ | _ | k
    · simp at h4 h3; subst h4; cases free <;> simp_all
    · simp at h4 h3; subst h4; cases free <;> simp_all
    · simp at h4 h3; cases free
      · simp at h4; subst h4; simp_all
      · simp at h4; subst h4; simp_all
    · simp at h4 h3
      cases free
      · simp at h4; subst h4; simp_all
      · cases thread <;> simp_all
        split <;> simp_all

/-- The main thread's last error stays. -/
theorem raised_stays (free : Bool) : ∀ (l : List Bool) (x : App) (e : PyErr), x.main = .raised e → (threads free x l).main = .raised e := by
  intro l
  induction l with
  | nil => intro x e h; exact h
  | cons b l ih =>
    intro x e h
    cases b with
    | true =>
      simp only [threads]
      apply ih
      simp [mainStep, h]
    | false =>
      simp only [threads]
      apply ih
      unfold serverStep
      split
      · exact h
      · split <;> exact h
      · exact h
      · split <;> exact h
      · exact h

/-- Every schedule begins with some steps of the server thread, and is over then or goes on with a step of the main thread. -/
theorem lead : ∀ l : List Bool, ∃ a, l = List.replicate a false ∨ ∃ r, l = List.replicate a false ++ true :: r := by
  intro l
  induction l with
  | nil => exact ⟨0, Or.inl rfl⟩
  | cons b l ih =>
    cases b with
    | true => exact ⟨0, Or.inr ⟨l, rfl⟩⟩
    | false =>
      obtain ⟨a, h | ⟨r, h⟩⟩ := ih
      · exact ⟨a + 1, Or.inl (by rw [h]; rfl)⟩
      · exact ⟨a + 1, Or.inr ⟨r, by rw [h]; rfl⟩⟩

/-- **C240**, exactly when leaving an application fails: in the schedules in which the main thread comes to stop the server (its second step) before the server thread has made its first two
steps - making the application and binding the port -, and in all schedules in which it comes there at all if the port is taken. The error is an AttributeError. -/
theorem C240_exact (free : Bool) (l : List Bool) (e : PyErr) :
    (threads free App.start l).main = .raised e ↔
      e = .attributeError ∧ ∃ (a b : Nat) (r : List Bool), l = List.replicate a false ++ true :: (List.replicate b false ++ true :: r) ∧ (free = false ∨ a + b < 2) := by
  constructor
  · intro h
    obtain ⟨a, rfl | ⟨r, rfl⟩⟩ := lead l
    · rw [(threads_body a free).1] at h; cases h
    · obtain ⟨b, rfl | ⟨r', rfl⟩⟩ := lead r
      · rw [(threads_asked free a b).1] at h; cases h
      · obtain ⟨h1, h3, h4⟩ := threads_asked free a b
        have hsplit : List.replicate a false ++ true :: (List.replicate b false ++ true :: r') = (List.replicate a false ++ true :: List.replicate b false) ++ true :: r' := by simp
        rw [hsplit, threads_append] at h
        have hsound := threads_sound free (List.replicate a false ++ true :: List.replicate b false) _ (start_sound free)
        by_cases hs : free = true ∧ 2 ≤ a + b
        · exfalso
          have hs' := h3.2 hs
          refine (threads_keeps free (true :: r') _ hs' ?_).2 e h
          intro e'
          rw [h1]
          exact fun h => by cases h
        · have hs' : (threads free App.start (List.replicate a false ++ true :: List.replicate b false)).server = false := by
            rw [← Bool.not_eq_true]
            exact fun hh => hs (h3.1 hh)
          have hm : (mainStep (threads free App.start (List.replicate a false ++ true :: List.replicate b false))).main = .raised .attributeError := by
            simp [mainStep, h1, hs']
          simp only [threads] at h
          rw [raised_stays free r' _ _ hm] at h
          injection h with h
          refine ⟨h.symm, a, b, r', rfl, ?_⟩
          cases free
          · exact Or.inl rfl
          · right
            by_contra hc
            exact hs ⟨rfl, by omega⟩
  · rintro ⟨rfl, a, b, r, rfl, hc⟩
    obtain ⟨h1, h3, -⟩ := threads_asked free a b
    have hsplit : List.replicate a false ++ true :: (List.replicate b false ++ true :: r) = (List.replicate a false ++ true :: List.replicate b false) ++ true :: r := by simp
    rw [hsplit, threads_append]
    have hs' : (threads free App.start (List.replicate a false ++ true :: List.replicate b false)).server = false := by
      rw [← Bool.not_eq_true]
      intro hh
      obtain ⟨h5, h6⟩ := h3.1 hh
      rcases hc with hc | hc
      · rw [hc] at h5; cases h5
      · omega
    simp only [threads]
    apply raised_stays
    simp [mainStep, h1, hs']

end Zounds.Monitor
