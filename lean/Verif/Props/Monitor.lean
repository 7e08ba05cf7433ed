import Verif.Model.Monitor
import Verif.Props.Learn
import Mathlib.Data.Nat.GCD.Basic
import Mathlib.Data.List.GetD
/-!
# C235–C239: training monitors and running applications
-/

namespace Zounds.Monitor
open Zounds

variable {κ V : Type} [DecidableEq κ]

/-! ## What a page receives -/

/-- The batches of a history of events that are reported: those whose number is a multiple of the batch frequency. -/
def reported (f : Nat) : List (Ev κ V) → List (Kw κ V)
  | [] => []
  | .batch kw :: es => if f ∣ kw.batch then kw :: reported f es else reported f es
  | _ :: es => reported f es

/-- The event concerns the registration of page `c`. -/
def opens (c : Nat) : Ev κ V → Bool
  | .opened d => c = d
  | _ => false
/-- The event is the closing of page `c`. -/
def closes (c : Nat) : Ev κ V → Bool
  | .closed d => c = d
  | _ => false

theorem call_frame (cfg : Cfg κ) (kw : Kw κ V) (s s' : State κ V) (cb : Cb) (h : call cfg kw s cb = .ok s') :
    s'.cbs = s.cbs ∧ s'.lost = s.lost ∧ ∀ c, s'.inbox c = if cb = .page c ∧ cfg.frequency ∣ kw.batch then s.inbox c ++ [message cfg.keys kw] else s.inbox c := by
  cases cb with
  | other n => simp only [call, Except.ok.injEq] at h; subst h; simp
  | history =>
    simp only [call] at h
    split at h
    · cases h
    · injection h with h; subst h; simp
  | page d =>
    simp only [call] at h
    split at h
    · cases h
    · split at h
      · rename_i hm
        injection h with h; subst h
        refine ⟨rfl, rfl, fun c => ?_⟩
        rw [if_neg]
        rintro ⟨_, hd⟩
        exact hm (Nat.mod_eq_zero_of_dvd hd)
      · rename_i hm
        split at h
        · cases h
        · injection h with h; subst h
          have hd : cfg.frequency ∣ kw.batch := Nat.dvd_of_mod_eq_zero (by simpa using hm)
          refine ⟨rfl, rfl, fun c => ?_⟩
          by_cases e : c = d
          · subst e; simp [hd]
          · have e' : ¬ (Cb.page d = Cb.page c) := by intro x; injection x with x; exact e x.symm
            simp [e, e']

theorem callAll_frame (cfg : Cfg κ) (kw : Kw κ V) : ∀ (cs : List Cb) (s s' : State κ V), cs.Nodup → callAll cfg kw s cs = .ok s' →
    s'.cbs = s.cbs ∧ s'.lost = s.lost ∧ ∀ c, s'.inbox c = if Cb.page c ∈ cs ∧ cfg.frequency ∣ kw.batch then s.inbox c ++ [message cfg.keys kw] else s.inbox c := by
  intro cs
  induction cs with
  | nil => intro s s' _ h; simp only [callAll, Except.ok.injEq] at h; subst h; simp
  | cons cb cs ih =>
    intro s s' hn h
    rw [List.nodup_cons] at hn
    unfold callAll at h
    cases h1 : call cfg kw s cb with
    | error e => rw [h1] at h; cases h
    | ok s1 =>
      rw [h1] at h
      obtain ⟨a1, a2, a3⟩ := call_frame cfg kw s s1 cb h1
      obtain ⟨b1, b2, b3⟩ := ih s1 s' hn.2 h
      refine ⟨b1.trans a1, b2.trans a2, fun c => ?_⟩
      rw [b3, a3]
      by_cases hd : cfg.frequency ∣ kw.batch
      · by_cases hc : cb = .page c
        · subst hc; simp [hd, hn.1]
        · have : ¬ (Cb.page c = cb) := fun x => hc x.symm
          simp [hd, hc, this]
      · simp [hd]

theorem notify_frame (cfg : Cfg κ) (kw : Kw κ V) (s s' : State κ V) (hn : s.cbs.Nodup) (h : notify cfg kw s = .ok s') :
    s'.cbs = s.cbs ∧ ∀ c, s'.inbox c = if Cb.page c ∈ s.cbs ∧ cfg.frequency ∣ kw.batch then s.inbox c ++ [message cfg.keys kw] else s.inbox c := by
  obtain ⟨a, _, b⟩ := callAll_frame cfg kw s.cbs s s' hn h
  exact ⟨a, b⟩

theorem step_nodup (cfg : Cfg κ) (s s' : State κ V) (e : Ev κ V) (hn : s.cbs.Nodup) (h : step cfg s e = .ok s') : s'.cbs.Nodup := by
  cases e with
  | opened c =>
    simp only [step, openPage, Except.ok.injEq] at h
    subst h
    dsimp only
    split
    · exact hn
    · rename_i hc
      rw [List.nodup_append]
      exact ⟨hn, by simp, by rintro a ha b hb rfl; simp at hb; subst hb; exact hc ha⟩
  | broken c => simp only [step, losePage, Except.ok.injEq] at h; subst h; exact hn
  | closed c => simp only [step, closePage, Except.ok.injEq] at h; subst h; exact hn.filter _
  | batch kw => rw [(notify_frame cfg kw s s' hn h).1]; exact hn

theorem run_nodup (cfg : Cfg κ) : ∀ (es : List (Ev κ V)) (s s' : State κ V), s.cbs.Nodup → run cfg s es = .ok s' → s'.cbs.Nodup := by
  intro es
  induction es with
  | nil => intro s s' hn h; simp only [run, Except.ok.injEq] at h; subst h; exact hn
  | cons e es ih =>
    intro s s' hn h
    unfold run at h
    cases h1 : step cfg s e with
    | error x => rw [h1] at h; cases h
    | ok s1 => rw [h1] at h; exact ih s1 s' (step_nodup cfg s s1 e hn h1) h

theorem run_append (cfg : Cfg κ) : ∀ (a b : List (Ev κ V)) (s s' : State κ V), run cfg s (a ++ b) = .ok s' →
    ∃ m, run cfg s a = .ok m ∧ run cfg m b = .ok s' := by
  intro a
  induction a with
  | nil => intro b s s' h; exact ⟨s, rfl, h⟩
  | cons e a ih =>
    intro b s s' h
    rw [List.cons_append] at h
    unfold run at h
    cases h1 : step cfg s e with
    | error x => rw [h1] at h; cases h
    | ok s1 =>
      rw [h1] at h
      obtain ⟨m, h2, h3⟩ := ih b s1 s' h
      exact ⟨m, by unfold run; rw [h1]; exact h2, h3⟩

/-- While a page is not registered it receives nothing. -/
theorem run_absent (cfg : Cfg κ) (c : Nat) : ∀ (es : List (Ev κ V)) (s s' : State κ V), s.cbs.Nodup → Cb.page c ∉ s.cbs →
    (∀ e ∈ es, opens c e = false) → run cfg s es = .ok s' → s'.inbox c = s.inbox c ∧ Cb.page c ∉ s'.cbs := by
  intro es
  induction es with
  | nil => intro s s' _ hc _ h; simp only [run, Except.ok.injEq] at h; subst h; exact ⟨rfl, hc⟩
  | cons e es ih =>
    intro s s' hn hc ho h
    unfold run at h
    cases h1 : step cfg s e with
    | error x => rw [h1] at h; cases h
    | ok s1 =>
      rw [h1] at h
      have hn1 := step_nodup cfg s s1 e hn h1
      have key : s1.inbox c = s.inbox c ∧ Cb.page c ∉ s1.cbs := by
        cases e with
        | opened d =>
          have hd : c ≠ d := by simpa [opens] using ho _ (List.mem_cons_self ..)
          simp only [step, openPage, Except.ok.injEq] at h1
          subst h1
          refine ⟨rfl, ?_⟩
          dsimp only
          split
          · exact hc
          · simp [hc, hd]
        | broken d => simp only [step, losePage, Except.ok.injEq] at h1; subst h1; exact ⟨rfl, hc⟩
        | closed d =>
          simp only [step, closePage, Except.ok.injEq] at h1; subst h1
          exact ⟨rfl, fun hx => hc (List.mem_filter.1 hx).1⟩
        | batch kw =>
          obtain ⟨a, b⟩ := notify_frame cfg kw s s1 hn h1
          rw [b, a]
          simp [hc]
      obtain ⟨r1, r2⟩ := ih s1 s' hn1 key.2 (fun e he => ho e (List.mem_cons_of_mem _ he)) h
      exact ⟨r1.trans key.1, r2⟩

/-- While a page is registered it receives every reported batch. -/
theorem run_present (cfg : Cfg κ) (c : Nat) : ∀ (es : List (Ev κ V)) (s s' : State κ V), s.cbs.Nodup → Cb.page c ∈ s.cbs →
    (∀ e ∈ es, closes c e = false) → run cfg s es = .ok s' →
    s'.inbox c = s.inbox c ++ (reported cfg.frequency es).map (message cfg.keys) ∧ Cb.page c ∈ s'.cbs := by
  intro es
  induction es with
  | nil => intro s s' _ hc _ h; simp only [run, Except.ok.injEq] at h; subst h; simp [reported, hc]
  | cons e es ih =>
    intro s s' hn hc ho h
    unfold run at h
    cases h1 : step cfg s e with
    | error x => rw [h1] at h; cases h
    | ok s1 =>
      rw [h1] at h
      have hn1 := step_nodup cfg s s1 e hn h1
      have key : s1.inbox c = s.inbox c ++ (reported cfg.frequency [e]).map (message cfg.keys) ∧ Cb.page c ∈ s1.cbs := by
        cases e with
        | opened d =>
          simp only [step, openPage, Except.ok.injEq] at h1
          subst h1
          refine ⟨by simp [reported], ?_⟩
          dsimp only
          split
          · exact hc
          · simp [hc]
        | broken d => simp only [step, losePage, Except.ok.injEq] at h1; subst h1; exact ⟨by simp [reported], hc⟩
        | closed d =>
          have hd : c ≠ d := by simpa [closes] using ho _ (List.mem_cons_self ..)
          simp only [step, closePage, Except.ok.injEq] at h1; subst h1
          exact ⟨by simp [reported], List.mem_filter.2 ⟨hc, by simpa using hd⟩⟩
        | batch kw =>
          obtain ⟨a, b⟩ := notify_frame cfg kw s s1 hn h1
          rw [b, a]
          by_cases hd : cfg.frequency ∣ kw.batch <;> simp [hc, hd, reported]
      obtain ⟨r1, r2⟩ := ih s1 s' hn1 key.2 (fun e he => ho e (List.mem_cons_of_mem _ he)) h
      refine ⟨?_, r2⟩
      rw [r1, key.1]
      cases e with
      | batch kw => by_cases hd : cfg.frequency ∣ kw.batch <;> simp [reported, hd]
      | opened _ => simp [reported]
      | broken _ => simp [reported]
      | closed _ => simp [reported]

/-- **C235**: whatever other pages come and go, a page that is opened and later closed has been sent exactly the reported batches in between, each once, in order, each with the
epoch, the batch and the graphed values. -/
theorem C235_messages (cfg : Cfg κ) (c : Nat) (s₀ s : State κ V) (hn : s₀.cbs.Nodup) (h0 : Cb.page c ∉ s₀.cbs) (pre mid post : List (Ev κ V))
    (hpre : ∀ e ∈ pre, opens c e = false) (hmid : ∀ e ∈ mid, closes c e = false) (hpost : ∀ e ∈ post, opens c e = false)
    (h : run cfg s₀ (pre ++ (.opened c :: mid) ++ (.closed c :: post)) = .ok s) :
    s.inbox c = s₀.inbox c ++ (reported cfg.frequency mid).map (message cfg.keys) := by
  obtain ⟨m2, h1, h2⟩ := run_append cfg _ _ s₀ s h
  obtain ⟨m1, h3, h4⟩ := run_append cfg _ _ s₀ m2 h1
  obtain ⟨e1, a1⟩ := run_absent cfg c pre s₀ m1 hn h0 hpre h3
  have hn1 := run_nodup cfg pre s₀ m1 hn h3
  unfold run at h4
  simp only [step] at h4
  have ho : Cb.page c ∈ (openPage c m1).cbs := by simp [openPage, a1]
  have hno : (openPage c m1).cbs.Nodup := step_nodup cfg m1 _ (.opened c) hn1 rfl
  obtain ⟨e2, _⟩ := run_present cfg c mid _ m2 hno ho hmid h4
  have hn2 := run_nodup cfg mid _ m2 hno h4
  unfold run at h2
  simp only [step] at h2
  have hno2 : (closePage c m2).cbs.Nodup := step_nodup cfg m2 _ (.closed c) hn2 rfl
  obtain ⟨e3, _⟩ := run_absent cfg c post _ s hno2 (by simp [closePage]) hpost h2
  rw [e3]
  show m2.inbox c = _
  rw [e2]
  show m1.inbox c ++ _ = _
  rw [e1]

/-- **C235, still open**: the same for a page that has not been closed yet. -/
theorem C235_open (cfg : Cfg κ) (c : Nat) (s₀ s : State κ V) (hn : s₀.cbs.Nodup) (h0 : Cb.page c ∉ s₀.cbs) (pre mid : List (Ev κ V))
    (hpre : ∀ e ∈ pre, opens c e = false) (hmid : ∀ e ∈ mid, closes c e = false)
    (h : run cfg s₀ (pre ++ (.opened c :: mid)) = .ok s) :
    s.inbox c = s₀.inbox c ++ (reported cfg.frequency mid).map (message cfg.keys) := by
  obtain ⟨m1, h3, h4⟩ := run_append cfg _ _ s₀ s h
  obtain ⟨e1, a1⟩ := run_absent cfg c pre s₀ m1 hn h0 hpre h3
  have hn1 := run_nodup cfg pre s₀ m1 hn h3
  unfold run at h4
  simp only [step] at h4
  have ho : Cb.page c ∈ (openPage c m1).cbs := by simp [openPage, a1]
  have hno : (openPage c m1).cbs.Nodup := step_nodup cfg m1 _ (.opened c) hn1 rfl
  obtain ⟨e2, _⟩ := run_present cfg c mid _ s hno ho hmid h4
  rw [e2]
  show m1.inbox c ++ _ = _
  rw [e1]

/-- **C235, the message**: it has the epoch and batch, and exactly the graphed values that were reported. -/
theorem C235_message (keys : List κ) (kw : Kw κ V) : (message keys kw).epoch = kw.epoch ∧ (message keys kw).batch = kw.batch ∧
    ∀ k v, (k, v) ∈ (message keys kw).data ↔ k ∈ keys ∧ kw.vals k = some v := by
  refine ⟨rfl, rfl, fun k v => ?_⟩
  simp only [message, List.mem_filterMap, Option.map_eq_some_iff, Prod.mk.injEq]
  constructor
  · rintro ⟨a, ha, b, hb, rfl, rfl⟩; exact ⟨ha, hb⟩
  · rintro ⟨ha, hb⟩; exact ⟨k, ha, v, hb, rfl, rfl⟩

theorem callAll_ok (cfg : Cfg κ) (hf : 0 < cfg.frequency) (kw : Kw κ V) : ∀ (cs : List Cb) (s : State κ V), cs.Nodup → s.lost = [] →
    ∃ s', callAll cfg kw s cs = .ok s' ∧ s'.lost = [] := by
  intro cs
  induction cs with
  | nil => intro s _ h; exact ⟨s, rfl, h⟩
  | cons cb cs ih =>
    intro s hn hl
    have hc : ∃ s1, call cfg kw s cb = .ok s1 := by
      cases cb with
      | other n => exact ⟨s, rfl⟩
      | history => exact ⟨_, by simp only [call]; rw [if_neg (by omega)]⟩
      | page c =>
        simp only [call]
        rw [if_neg (by omega)]
        split
        · exact ⟨_, rfl⟩
        · rw [if_neg (by simp [hl])]; exact ⟨_, rfl⟩
    obtain ⟨s1, h1⟩ := hc
    have hl1 := (call_frame cfg kw s s1 cb h1).2.1
    obtain ⟨s', h2, h3⟩ := ih s1 (List.nodup_cons.1 hn).2 (hl1.trans hl)
    exact ⟨s', by unfold callAll; rw [h1]; exact h2, h3⟩

/-- **C235, training goes on**: with a positive batch frequency, as long as no connection breaks and pages come and go between batches, no callback raises. -/
theorem C235_succeeds (cfg : Cfg κ) (hf : 0 < cfg.frequency) : ∀ (es : List (Ev κ V)) (s : State κ V), s.cbs.Nodup → s.lost = [] →
    (∀ c, Ev.broken c ∉ es) → ∃ s', run cfg s es = .ok s' ∧ s'.lost = [] := by
  intro es
  induction es with
  | nil => intro s _ hl _; exact ⟨s, rfl, hl⟩
  | cons e es ih =>
    intro s hn hl hb
    have h1 : ∃ s1, step cfg s e = .ok s1 ∧ s1.lost = [] := by
      cases e with
      | opened c => exact ⟨_, rfl, hl⟩
      | broken c => exact absurd (List.mem_cons_self ..) (hb c)
      | closed c => exact ⟨_, rfl, hl⟩
      | batch kw => exact callAll_ok cfg hf kw s.cbs s hn hl
    obtain ⟨s1, h1, hl1⟩ := h1
    obtain ⟨s', h2, h3⟩ := ih s1 (step_nodup cfg s s1 e hn h1) hl1 (fun c hc => hb c (List.mem_cons_of_mem _ hc))
    exact ⟨s', by unfold run; rw [h1]; exact h2, h3⟩

/-- A page opened between two reported batches receives the second. -/
example : let cfg : Cfg Nat := ⟨[7], 10, 100⟩
    let kw : Nat → Kw Nat Nat := fun b => ⟨0, b, fun k => if k = 7 then some (b + 1) else none⟩
    let s₀ : State Nat Nat := ⟨[.other 0, .history], fun _ => [], fun _ => [], []⟩
    ∃ s, run cfg s₀ [.batch (kw 0), .opened 3, .batch (kw 5), .batch (kw 10), .closed 3, .batch (kw 20)] = .ok s ∧
      s.inbox 3 = [⟨0, 10, [(7, 11)]⟩] := ⟨_, rfl, rfl⟩

/-! ## Which batches are reported -/

/-- **C236**: the trainers that number a batch by the row it starts with report the batch number `k` of an epoch exactly when `k` is a multiple of the batch frequency divided by its greatest common
divisor with the batch size. -/
theorem C236_which (n b f : Nat) (hb : 0 < b) (hf : 0 < f) (k i : Nat) (h : (Learn.rangeStep n b)[k]? = some i) :
    f ∣ i ↔ f / Nat.gcd f b ∣ k := by
  have hi : i = k * b := by
    unfold Learn.rangeStep at h
    rw [List.getElem?_map, Option.map_eq_some_iff] at h
    obtain ⟨j, h1, h2⟩ := h
    rw [List.getElem?_eq_some_iff] at h1
    obtain ⟨h3, h4⟩ := h1
    rw [List.getElem_range] at h4
    subst h4
    exact h2.symm
  subst hi
  have hg : 0 < Nat.gcd f b := Nat.gcd_pos_of_pos_left _ hf
  obtain ⟨f', hf'⟩ := Nat.gcd_dvd_left f b
  obtain ⟨b', hb'⟩ := Nat.gcd_dvd_right f b
  have e1 : f / Nat.gcd f b = f' := Nat.div_eq_of_eq_mul_right hg hf'
  have hco : Nat.Coprime f' b' := by
    have := Nat.coprime_div_gcd_div_gcd hg
    have e2 : b / Nat.gcd f b = b' := Nat.div_eq_of_eq_mul_right hg hb'
    rw [e1, e2] at this
    exact this
  rw [e1]
  constructor
  · intro hd
    have : Nat.gcd f b * f' ∣ Nat.gcd f b * (k * b') := by
      rw [← hf']
      have : Nat.gcd f b * (k * b') = k * (Nat.gcd f b * b') := by ring
      rw [this, ← hb']
      exact hd
    exact hco.dvd_of_dvd_mul_right (Nat.dvd_of_mul_dvd_mul_left hg this)
  · intro hd
    obtain ⟨q, rfl⟩ := hd
    have : f' * q * b = f * (q * b') := by
      conv_lhs => rw [hb']
      conv_rhs => rw [hf']
      ring
    exact ⟨_, this⟩

example := C236_which 1000 64 10 (by decide) (by decide) 5 320 (by decide)

/-- **C236**, in particular: if the batch frequency divides the batch size every batch is reported; if they have no common divisor, every `batch_frequency`-th. -/
theorem C236_cases (n b f : Nat) (hb : 0 < b) (hf : 0 < f) (k i : Nat) (h : (Learn.rangeStep n b)[k]? = some i) :
    (f ∣ b → f ∣ i) ∧ (Nat.Coprime f b → (f ∣ i ↔ f ∣ k)) := by
  have := C236_which n b f hb hf k i h
  constructor
  · intro hd
    rw [this, Nat.gcd_eq_left hd, Nat.div_self hf]
    exact one_dvd _
  · intro hc
    rw [this, hc, Nat.div_one]

example := C236_cases 1000 64 10 (by decide) (by decide) 5 320 (by decide)

/-- The hypotheses are met: batch 5 of 64 rows each starts with row 320. -/
example : (Learn.rangeStep 1000 64)[5]? = some 320 := by decide

/-- **C237, refuted**: with the default batch frequency of 10 and the usual batch size of 64, the fifth batch is reported although five is no multiple of ten; with a batch size of 10 every batch is. -/
theorem C237_every_tenth_refuted :
    ((Learn.rangeStep 1000 64)[5]? = some 320 ∧ 10 ∣ 320 ∧ ¬ 10 ∣ 5) ∧ ∀ n k i : Nat, (Learn.rangeStep n 10)[k]? = some i → 10 ∣ i :=
  ⟨⟨by decide, by decide, by decide⟩, fun n k i h => (C236_cases n 10 10 (by decide) (by decide) k i h).1 (dvd_refl _)⟩

/-! ## Pages that come and go during a notification -/

theorem acts_next (cfg : Cfg κ) (kw : Kw κ V) (all : List Cb) (hn : all.Nodup) : ∀ (done rest : List Cb) (s : State κ V), all = done ++ rest → s.cbs = all →
    acts cfg ⟨s, some ⟨kw, done.length, all.length⟩⟩ (List.replicate (rest.length + 1) .next) =
      match callAll cfg kw s rest with
      | .error e => .error e
      | .ok s' => .ok ⟨s', none⟩ := by
  intro done rest
  induction rest generalizing done with
  | nil =>
    intro s ha hs
    have : all = done := by simpa using ha
    subst this
    simp [acts, act, hs, callAll]
  | cons cb rest ih =>
    intro s ha hs
    have hget : s.cbs[done.length]? = some cb := by rw [hs, ha]; simp
    rw [List.length_cons, List.replicate_succ]
    cases hc : call cfg kw s cb with
    | error e =>
      have hl : s.cbs.length = all.length := by rw [hs]
      simp only [acts, act, hl, ne_eq, not_true_eq_false, if_false, hget, hc, callAll]
    | ok s1 =>
      have h1 := (call_frame cfg kw s s1 cb hc).1
      have := ih (done ++ [cb]) s1 (by simp [ha]) (h1.trans hs)
      simp only [List.length_append, List.length_cons, List.length_nil] at this
      simp only [acts, act, hs, ne_eq, not_true_eq_false, if_false]
      rw [← hs, hget]
      simp only [hc]
      rw [hs]
      rw [show (0 + 1) = 1 from rfl] at this
      rw [this]
      simp [callAll, hc]

/-- **C235, interleaving**: a notification during which no page is opened or closed is one atomic notification. -/
theorem C235_atomic (cfg : Cfg κ) (kw : Kw κ V) (s : State κ V) (hn : s.cbs.Nodup) :
    acts cfg ⟨s, none⟩ (.begin kw :: List.replicate (s.cbs.length + 1) .next) =
      match notify cfg kw s with
      | .error e => .error e
      | .ok s' => .ok ⟨s', none⟩ := by
  have := acts_next cfg kw s.cbs hn [] s.cbs s rfl rfl
  simp only [List.length_nil] at this
  unfold acts
  simp only [act]
  exact this

/-- **C238, refuted**: a page that is opened, or one that is closed, while the trainer is calling its callbacks makes the training loop raise RuntimeError, whichever callback is
running; a page whose connection breaks before its `on_close` makes it raise when a batch is reported. -/
theorem C238_disturbed_refuted (cfg : Cfg κ) (s : State κ V) (kw : Kw κ V) (pos c : Nat) :
    (Cb.page c ∉ s.cbs → acts cfg ⟨s, some ⟨kw, pos, s.cbs.length⟩⟩ [.opened c, .next] = .error .runtimeError) ∧
    (Cb.page c ∈ s.cbs → acts cfg ⟨s, some ⟨kw, pos, s.cbs.length⟩⟩ [.closed c, .next] = .error .runtimeError) ∧
    (0 < cfg.frequency → cfg.frequency ∣ kw.batch → s.cbs[pos]? = some (.page c) →
      acts cfg ⟨s, some ⟨kw, pos, s.cbs.length⟩⟩ [.broken c, .next] = .error .connectionError) := by
  refine ⟨fun h => ?_, fun h => ?_, fun hf hd hp => ?_⟩
  · simp [acts, act, openPage, h]
  · have : (s.cbs.filter (· ≠ Cb.page c)).length < s.cbs.length := by
      rw [← List.countP_eq_length_filter]
      apply lt_of_le_of_ne (List.countP_le_length)
      intro e
      rw [List.countP_eq_length] at e
      simpa using e _ h
    have hne : (s.cbs.filter (· ≠ Cb.page c)).length ≠ s.cbs.length := by omega
    simp only [acts, act, closePage, hne, ne_eq, not_false_eq_true, if_true]
  · have hm : kw.batch % cfg.frequency = 0 := Nat.mod_eq_zero_of_dvd hd
    have hf' : cfg.frequency ≠ 0 := by omega
    simp [acts, act, losePage, hp, call, hf', hm]

/-! ## Leaving an application -/

/-- What every schedule keeps: the server is set once the thread listens, and stays set. -/
def Sound (free : Bool) (a : App) : Prop :=
  (a.server = true ↔ free = true ∧ a.thread ≠ .created ∧ a.thread ≠ .made) ∧
  (a.main = .body → a.stop = false) ∧ (a.main ≠ .body → a.stop = true) ∧
  (a.main = .stopped ∨ a.main = .left → a.server = true ∧ a.accepting = false) ∧
  (a.main = .left → a.thread = .finished) ∧
  (∀ e, a.main = .raised e → e = .attributeError) ∧
  (a.thread = .finished → free = true → a.stop = true)

theorem start_sound (free : Bool) : Sound free App.start := by
  simp [Sound, App.start]

theorem server_sound (free : Bool) (a : App) (h : Sound free a) : Sound free (serverStep free a) := by
  obtain ⟨sv, ac, st, th, mn⟩ := a
  cases th <;> cases free <;> cases st <;> cases mn <;> cases sv <;> simp_all [Sound, serverStep]

theorem main_sound (free : Bool) (a : App) (h : Sound free a) : Sound free (mainStep a) := by
  obtain ⟨sv, ac, st, th, mn⟩ := a
  cases th <;> cases free <;> cases st <;> cases mn <;> cases sv <;> simp_all [Sound, mainStep]

theorem threads_sound (free : Bool) : ∀ (l : List Bool) (a : App), Sound free a → Sound free (threads free a l) := by
  intro l
  induction l with
  | nil => intro a h; exact h
  | cons b l ih =>
    intro a h
    cases b with
    | true => exact ih _ (main_sound free a h)
    | false => exact ih _ (server_sound free a h)

theorem threads_append (free : Bool) : ∀ (x y : List Bool) (a : App), threads free a (x ++ y) = threads free (threads free a x) y := by
  intro x
  induction x with
  | nil => intro y a; rfl
  | cons b x ih => intro y a; cases b <;> exact ih y _

theorem main_keeps (a : App) (h1 : a.server = true) (h2 : ∀ e, a.main ≠ .raised e) :
    (mainStep a).server = true ∧ ∀ e, (mainStep a).main ≠ .raised e := by
  obtain ⟨sv, ac, st, th, mn⟩ := a
  simp only at h1
  subst h1
  cases mn with
  | raised e => exact absurd rfl (h2 e)
  | body => exact ⟨rfl, fun e h => by cases h⟩
  | asked => exact ⟨rfl, fun e h => by cases h⟩
  | stopped =>
    by_cases ht : th = .finished
    · subst ht; exact ⟨rfl, fun e h => by cases h⟩
    · simp only [mainStep, ht, if_false]; exact ⟨trivial, fun e h => by cases h⟩
  | left => exact ⟨rfl, fun e h => by cases h⟩

theorem server_keeps (free : Bool) (a : App) (h1 : a.server = true) :
    (serverStep free a).server = true ∧ (serverStep free a).main = a.main := by
  obtain ⟨sv, ac, st, th, mn⟩ := a
  simp only at h1
  subst h1
  cases th <;> cases free <;> cases st <;> exact ⟨rfl, rfl⟩

theorem threads_keeps (free : Bool) : ∀ (m : List Bool) (a : App), a.server = true → (∀ e, a.main ≠ .raised e) →
    (threads free a m).server = true ∧ ∀ e, (threads free a m).main ≠ .raised e := by
  intro m
  induction m with
  | nil => intro a h1 h2; exact ⟨h1, h2⟩
  | cons b m ih =>
    intro a h1 h2
    cases b with
    | true => exact ih _ (main_keeps a h1 h2).1 (main_keeps a h1 h2).2
    | false => exact ih _ (server_keeps free a h1).1 (by rw [(server_keeps free a h1).2]; exact h2)

theorem finishes (a : App) (hs : Sound true a) (h1 : a.server = true) (h2 : ∀ e, a.main ≠ .raised e) :
    (threads true a [true, true, false, false, true]).main = .left := by
  obtain ⟨sv, ac, st, th, mn⟩ := a
  simp only at h1
  subst h1
  obtain ⟨i1, i2, i3, i4, i5, i6, i7⟩ := hs
  simp only [true_iff, true_and] at i1
  cases mn with
  | raised e => exact absurd rfl (h2 e)
  | body => cases th <;> first | rfl | exact absurd rfl i1.1 | exact absurd rfl i1.2
  | asked =>
    have : st = true := i3 (by simp)
    subst this
    cases th <;> first | rfl | exact absurd rfl i1.1 | exact absurd rfl i1.2
  | stopped =>
    have : st = true := i3 (by simp)
    subst this
    cases th <;> first | rfl | exact absurd rfl i1.1 | exact absurd rfl i1.2
  | left =>
    have : th = .finished := i5 rfl
    subst this
    rfl

/-- **C239**: whenever the `with` block is left normally, the server has stopped accepting connections and its thread has ended; and in every schedule in which the server listens before the block
ends, leaving it never fails and is never stuck: a few more steps of the two threads complete it. -/
theorem C239_leaves (free : Bool) (l : List Bool) :
    ((threads free App.start l).main = .left → (threads free App.start l).accepting = false ∧ (threads free App.start l).thread = .finished) ∧
    ((threads free App.start l).server = true → (threads free App.start l).main = .body → ∀ m,
      (∀ e, (threads free App.start (l ++ m)).main ≠ .raised e) ∧
      (threads free App.start (l ++ m ++ [true, true, false, false, true])).main = .left) := by
  have hs := threads_sound free l App.start (start_sound free)
  refine ⟨fun h => ⟨(hs.2.2.2.1 (Or.inr h)).2, hs.2.2.2.2.1 h⟩, ?_⟩
  intro hsv hb m
  have hfree : free = true := (hs.1.1 hsv).1
  subst hfree
  have h1 := threads_keeps true m _ hsv (by rw [hb]; intro e h; cases h)
  rw [← threads_append] at h1
  refine ⟨h1.2, ?_⟩
  rw [threads_append]
  exact finishes _ (threads_sound true (l ++ m) App.start (start_sound true)) h1.1 h1.2

theorem accepting_inv (free : Bool) : ∀ (l : List Bool) (a : App), Sound free a → (a.accepting = true ↔ a.server = true ∧ a.main ≠ .stopped ∧ a.main ≠ .left) →
    ((threads free a l).accepting = true ↔ (threads free a l).server = true ∧ (threads free a l).main ≠ .stopped ∧ (threads free a l).main ≠ .left) := by
  intro l
  induction l with
  | nil => intro a _ h; exact h
  | cons t l ih =>
    intro a hs h
    cases t with
    | true =>
      refine ih _ (threads_sound free [true] a hs) ?_
      obtain ⟨sv, ac, st, th, mn⟩ := a
      by_cases hf : th = .finished <;> cases mn <;> cases sv <;> simp_all [mainStep]
    | false =>
      refine ih _ (server_sound free a hs) ?_
      obtain ⟨i1, -, -, i4, -, -, -⟩ := hs
      obtain ⟨sv, ac, st, th, mn⟩ := a
      cases th <;> simp only [serverStep] at * <;> try exact h
      · cases free
        · exact h
        · have : sv = false := by simpa using i1
          subst this
          cases mn <;> simp_all
      · split <;> exact h

/-- **C239, connections**: the application accepts connections exactly from the moment its server is there until the main thread has stopped it. -/
theorem C239_accepting (free : Bool) (l : List Bool) :
    (threads free App.start l).accepting = true ↔
      (threads free App.start l).server = true ∧ (threads free App.start l).main ≠ .stopped ∧ (threads free App.start l).main ≠ .left :=
  accepting_inv free l App.start (start_sound free) (by simp [App.start])

/-- The hypotheses are met: after three steps of the server thread it listens. -/
example : (threads true App.start [false, false, false]).server = true ∧ (threads true App.start [false, false, false]).main = .body := by decide

/-- **C240, refuted**: a block that ends before the server thread has bound its port, or whose port is taken, is left with an AttributeError, and in the first case the server starts
listening all the same. -/
theorem C240_early_refuted :
    (∀ free, (threads free App.start [true, true]).main = .raised .attributeError) ∧
    ((threads true App.start [true, true, false, false]).accepting = true) ∧
    (∀ k, (threads false App.start (List.replicate k false ++ [true, true])).main = .raised .attributeError) := by
  refine ⟨by decide, by decide, ?_⟩
  intro k
  have hk : ∀ (k : Nat) (a : App), a.server = false → a.main = .body → (threads false a (List.replicate k false)).server = false ∧ (threads false a (List.replicate k false)).main = .body := by
    intro k
    induction k with
    | zero => intro a h1 h2; exact ⟨h1, h2⟩
    | succ k ih =>
      intro a h1 h2
      rw [List.replicate_succ]
      apply ih
      · obtain ⟨sv, ac, st, th, mn⟩ := a
        cases th <;> simp_all [serverStep]
        split <;> simp_all
      · obtain ⟨sv, ac, st, th, mn⟩ := a
        cases th <;> simp_all [serverStep]
        split <;> simp_all
  rw [threads_append]
  obtain ⟨h1, h2⟩ := hk k App.start rfl rfl
  generalize threads false App.start (List.replicate k false) = a at *
  obtain ⟨sv, ac, st, th, mn⟩ := a
  simp_all [threads, mainStep]

example : ∃ s, run (⟨[7], 10, 100⟩ : Cfg Nat) (⟨[.other 0, .history], fun _ => [], fun _ => [], []⟩ : State Nat Nat) ([] ++ (.opened 3 :: [.batch ⟨0, 10, fun _ => some 1⟩])) = .ok s ∧
    s.inbox 3 = [] ++ (reported 10 [.batch ⟨0, 10, fun _ => some 1⟩]).map (message [7]) := by
  obtain ⟨s, h⟩ : ∃ s, run (⟨[7], 10, 100⟩ : Cfg Nat) (⟨[.other 0, .history], fun _ => [], fun _ => [], []⟩ : State Nat Nat) ([] ++ (.opened 3 :: [.batch ⟨0, 10, fun _ => some 1⟩])) = .ok s := ⟨_, rfl⟩
  exact ⟨s, h, C235_open ⟨[7], 10, 100⟩ 3 _ s (by decide) (by decide) [] _ (by simp) (by simp [closes]) h⟩
example := C235_atomic (⟨[7], 10, 100⟩ : Cfg Nat) ⟨0, 10, fun _ => some 1⟩ (⟨[.other 0, .history], fun _ => [], fun _ => [], []⟩ : State Nat Nat) (by decide)

end Zounds.Monitor
