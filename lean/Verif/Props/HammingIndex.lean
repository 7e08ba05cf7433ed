import Verif.Model.HammingIndex
import Mathlib.Tactic.Common
/-!
# Property C16: catching up after a restart
-/

namespace Zounds.Props.HammingIndex
open Zounds Zounds.HammingIndex

/-! ## Specification -/

/-- What the index should hold after the events have been consumed: every segment of every
document the feature was computed for, once, in stream order. -/
def wanted (f : Feature) (log : List Event) : List Row :=
  (log.filter f.concerns).flatMap fun e => docRows f e.docId

/-- The event log: positions are positive and increasing. -/
structure Log (log : List Event) : Prop where
  positive : ∀ e ∈ log, 0 < e.timestamp
  increasing : log.Pairwise fun a b => a.timestamp < b.timestamp

/-! ## Proofs -/

theorem run_append (d : Durable) (a b : List Txn) : d.run (a ++ b) = (d.run a).run b := by
  simp [Durable.run]

theorem wanted_cons (f : Feature) (e : Event) (es : List Event) :
    wanted f (e :: es) = (if f.concerns e then docRows f e.docId else []) ++ wanted f es := by
  unfold wanted
  rw [List.filter_cons]
  split <;> simp

theorem wanted_append (f : Feature) (a b : List Event) : wanted f (a ++ b) = wanted f a ++ wanted f b := by
  unfold wanted
  rw [List.filter_append, List.flatMap_append]

/-- Effect of the transactions for some rows of a document, all of them committed. -/
theorem run_rows (t : Nat) (rs : List Row) (d : Durable) :
    d.run (rs.flatMap fun r => [Txn.append r, Txn.stamp t]) =
      { d with rows := d.rows ++ rs, timestamp := if rs = [] then d.timestamp else some t } := by
  induction rs generalizing d with
  | nil => simp [Durable.run]
  | cons r rs ih =>
    rw [List.flatMap_cons, run_append, ih]
    simp [Durable.run, Durable.apply]

/-- Effect of the first `k` transactions. -/
theorem run_rows_take (t : Nat) (rs : List Row) : ∀ (k : Nat) (d : Durable),
    d.run ((rs.flatMap fun r => [Txn.append r, Txn.stamp t]).take k) =
      { d with
        rows := d.rows ++ rs.take ((k + 1) / 2)
        timestamp := if rs = [] ∨ k ≤ 1 then d.timestamp else some t } := by
  induction rs with
  | nil => intro k d; simp [Durable.run]
  | cons r rs ih =>
    intro k d
    match k with
    | 0 => simp [Durable.run]
    | 1 => simp [Durable.run, Durable.apply]
    | k + 2 =>
      have h2 : (k + 2 + 1) / 2 = (k + 1) / 2 + 1 := by omega
      rw [List.flatMap_cons, List.cons_append, List.cons_append, List.nil_append, List.take_succ_cons,
        List.take_succ_cons]
      have e : d.run (Txn.append r :: Txn.stamp t :: List.take k (rs.flatMap fun r => [Txn.append r, Txn.stamp t])) =
          ({ d with rows := d.rows ++ [r], timestamp := some t } : Durable).run
            (List.take k (rs.flatMap fun r => [Txn.append r, Txn.stamp t])) := rfl
      rw [e, ih, h2]
      simp

theorem run_loop (f : Feature) (evs : List Event) (d : Durable) :
    (d.run (loopTxns f evs)).rows = d.rows ++ wanted f evs ∧
    (d.run (loopTxns f evs)).initialised = d.initialised := by
  induction evs generalizing d with
  | nil => simp [loopTxns, wanted, Durable.run]
  | cons e es ih =>
    have hl : loopTxns f (e :: es) = (if f.concerns e then addTxns f e.docId e.timestamp else []) ++ loopTxns f es := by
      simp [loopTxns]
    rw [hl, run_append, wanted_cons]
    have := ih (d.run (if f.concerns e then addTxns f e.docId e.timestamp else []))
    rw [this.1, this.2]
    split
    · unfold addTxns
      rw [run_rows]
      simp
    · simp [Durable.run]

theorem run_withInit (d : Durable) (ts : List Txn) :
    (d.run (withInit d ts)).rows = (d.run ts).rows := by
  unfold withInit
  split
  · rfl
  · have : ∀ (ts : List Txn) (d : Durable), (({ d with initialised := true } : Durable).run ts).rows = (d.run ts).rows := by
      intro ts
      induction ts with
      | nil => intro d; rfl
      | cons t ts ih =>
        intro d
        cases t with
        | init =>
          show (({ d with initialised := true } : Durable).run ts).rows = (({ d with initialised := true } : Durable).run ts).rows
          rfl
        | append r => exact ih { d with rows := d.rows ++ [r] }
        | stamp t => exact ih { d with timestamp := some t }
    exact this ts d

/-- **C16, the first run.** An index that has never been created consumes the whole event
stream and then holds exactly the wanted segments, each once. -/
theorem C16_first_run (strKeys : Bool) (f : Feature) (log : List Event) :
    ∃ ts, listen strKeys f {} log = .ok ts ∧ (Durable.run {} ts).rows = wanted f log := by
  refine ⟨withInit {} (loopTxns f log), by simp [listen], ?_⟩
  rw [run_withInit, (run_loop f log {}).1]
  rfl

/-- **C16, refuted outright.** With an LMDB binding that wants byte keys (py-lmdb on Python 3)
an index whose database exists can never listen again: the restart raises `TypeError`
and commits nothing, however many documents are waiting. -/
theorem C16_restart_fails (f : Feature) (d : Durable) (log : List Event) (h : d.initialised = true) :
    listen false f d log = .error .typeError := by
  simp [listen, h]

/-- **C16, refuted outright (2).** The database exists as soon as the first transaction of the
first run has been committed, so this hits every restart of an index that has processed
anything. -/
theorem C16_initialised_after_first (strKeys : Bool) (f : Feature) (log : List Event) (ts : List Txn)
    (h : listen strKeys f {} log = .ok ts) (k : Nat) (hk : 0 < k) (hne : wanted f log ≠ []) :
    (Durable.run {} (ts.take k)).initialised = true := by
  have hts : ts = withInit {} (loopTxns f log) := by
    simp [listen] at h; exact h.symm
  have hne' : loopTxns f log ≠ [] := by
    intro h0
    have := (run_loop f log {}).1
    rw [h0] at this
    exact hne (by simpa [Durable.run] using this.symm)
  have : withInit {} (loopTxns f log) = Txn.init :: loopTxns f log := by
    unfold withInit
    simp [hne']
  rw [hts, this]
  obtain ⟨k, rfl⟩ : ∃ j, k = j + 1 := ⟨k - 1, by omega⟩
  rw [List.take_succ_cons]
  have mono : ∀ (ts : List Txn) (d : Durable), d.initialised = true → (d.run ts).initialised = true := by
    intro ts
    induction ts with
    | nil => intro d h; exact h
    | cons t ts ih =>
      intro d h
      refine ih (d.apply t) ?_
      cases t <;> simp [Durable.apply, h]
  exact mono (List.take k (loopTxns f log)) { initialised := true } rfl

/-- **C16.** Whatever the moment of a crash, the rows present are a prefix of the wanted
rows: nothing wrong or out of order is ever visible. -/
theorem C16_crash_prefix (strKeys : Bool) (f : Feature) (log : List Event) (ts : List Txn)
    (h : listen strKeys f {} log = .ok ts) (k : Nat) :
    (Durable.run {} (ts.take k)).rows <+: wanted f log := by
  have hall : (Durable.run {} ts).rows = wanted f log := by
    obtain ⟨ts', h1, h2⟩ := C16_first_run strKeys f log
    rw [h] at h1; cases h1; exact h2
  have mono : ∀ (ts : List Txn) (d : Durable), d.rows <+: (d.run ts).rows := by
    intro ts
    induction ts with
    | nil => intro d; exact List.prefix_refl _
    | cons t ts ih =>
      intro d
      refine List.IsPrefix.trans ?_ (ih (d.apply t))
      cases t <;> simp [Durable.apply]
  rw [← hall]
  conv_rhs => rw [← List.take_append_drop k ts, run_append]
  exact mono _ _

/-- A run resumed from the stored position (what the code intends). -/
def resumed (f : Feature) (d : Durable) (log : List Event) : Durable :=
  d.run (loopTxns f (log.filter fun e => decide (d.timestamp.getD 0 < e.timestamp)))

theorem resumed_rows (f : Feature) (d : Durable) (log : List Event) :
    (resumed f d log).rows = d.rows ++ wanted f (log.filter fun e => decide (d.timestamp.getD 0 < e.timestamp)) :=
  (run_loop f _ d).1

theorem wanted_filter_ge (_f : Feature) (log : List Event) (t : Nat) (h : ∀ e ∈ log, t < e.timestamp) :
    log.filter (fun e => decide (t < e.timestamp)) = log :=
  List.filter_eq_self.2 fun e he => by simpa using h e he

theorem wanted_eq_nil (f : Feature) (e : Event) (h : ¬ (f.concerns e = true ∧ docRows f e.docId ≠ [])) :
    (if f.concerns e then docRows f e.docId else []) = [] := by
  split
  · rename_i hc
    by_contra hne
    exact h ⟨hc, hne⟩
  · rfl

/-- What an event contributes. -/
def eventRows (f : Feature) (e : Event) : List Row := if f.concerns e then docRows f e.docId else []

theorem crash_split (f : Feature) : ∀ (log : List Event), Log log → ∀ (k : Nat) (d : Durable),
    (∀ e ∈ log, d.timestamp.getD 0 < e.timestamp) →
    let d' := d.run ((loopTxns f log).take k)
    (d.timestamp.getD 0 ≤ d'.timestamp.getD 0) ∧
    ((resumed f d' log).rows = d.rows ++ wanted f log ∨
     ∃ before e after X, log = before ++ e :: after ∧
      (resumed f d' log).rows = d.rows ++ wanted f before ++ X ++ wanted f after ∧
      ((∃ j, 1 ≤ j ∧ X = (eventRows f e).take j) ∨ X = (eventRows f e).take 1 ++ eventRows f e)) := by
  intro log
  induction log with
  | nil => intro _ k d _; simp [loopTxns, resumed, wanted, Durable.run]
  | cons e es ih =>
    intro hlog k d hd
    have hlog' : Log es := ⟨fun x hx => hlog.positive x (by simp [hx]), (List.pairwise_cons.1 hlog.increasing).2⟩
    have hlt : ∀ x ∈ es, e.timestamp < x.timestamp := (List.pairwise_cons.1 hlog.increasing).1
    have hde := hd e (by simp)
    have hl : loopTxns f (e :: es) = ((eventRows f e).flatMap fun r => [Txn.append r, Txn.stamp e.timestamp]) ++ loopTxns f es := by
      unfold loopTxns eventRows addTxns
      rw [List.flatMap_cons]
      split <;> simp
    have hw : wanted f (e :: es) = eventRows f e ++ wanted f es := wanted_cons f e es
    have hlen : ((eventRows f e).flatMap fun r => [Txn.append r, Txn.stamp e.timestamp]).length = 2 * (eventRows f e).length := by
      induction eventRows f e with
      | nil => rfl
      | cons r rs ih => rw [List.flatMap_cons, List.length_append, ih]; simp; omega
    intro d'
    by_cases hk : 2 * (eventRows f e).length ≤ k
    · -- the event was processed completely
      have hd' : d' = (d.run ((eventRows f e).flatMap fun r => [Txn.append r, Txn.stamp e.timestamp])).run
          ((loopTxns f es).take (k - 2 * (eventRows f e).length)) := by
        show d.run ((loopTxns f (e :: es)).take k) = _
        rw [hl, List.take_append, List.take_of_length_le (by omega), run_append, hlen]
      rw [run_rows] at hd'
      have hT : ∀ x ∈ es, (({ d with rows := d.rows ++ eventRows f e, timestamp := if eventRows f e = [] then d.timestamp else some e.timestamp } : Durable).timestamp).getD 0 < x.timestamp := by
        intro x hx
        have h1 := hlt x hx
        have h2 := hd x (by simp [hx])
        dsimp only
        split
        · exact h2
        · simpa using h1
      have ih := ih hlog' (k - 2 * (eventRows f e).length) _ hT
      rw [← hd'] at ih
      dsimp only at ih
      obtain ⟨ih1, ih2⟩ := ih
      have hmono : d.timestamp.getD 0 ≤ d'.timestamp.getD 0 := by
        refine Nat.le_trans ?_ ih1
        split
        · exact Nat.le_refl _
        · simp; omega
      refine ⟨hmono, ?_⟩
      have hres : (resumed f d' (e :: es)).rows = (resumed f d' es).rows := by
        rw [resumed_rows, resumed_rows, List.filter_cons]
        split
        · rename_i hlt'
          rw [wanted_cons]
          have hlt' : d'.timestamp.getD 0 < e.timestamp := by simpa using hlt'
          have : eventRows f e = [] := by
            by_contra hne
            rw [if_neg hne] at ih1
            simp at ih1
            omega
          rw [show (if f.concerns e then docRows f e.docId else []) = eventRows f e from rfl, this]
          simp
        · rfl
      rw [hres]
      rcases ih2 with h | ⟨before, e', after, X, h1, h2, h3⟩
      · left
        rw [h, hw]
        simp
      · right
        refine ⟨e :: before, e', after, X, by rw [h1]; rfl, ?_, h3⟩
        rw [h2, wanted_cons]
        show _ = d.rows ++ (eventRows f e ++ wanted f before) ++ X ++ wanted f after
        simp
    · have hd' : d' = d.run (((eventRows f e).flatMap fun r => [Txn.append r, Txn.stamp e.timestamp]).take k) := by
        show d.run ((loopTxns f (e :: es)).take k) = _
        rw [hl, List.take_append_of_le_length (by omega)]
      rw [run_rows_take] at hd'
      have hne : eventRows f e ≠ [] := by
        intro h0; rw [h0] at hk; simp at hk
      by_cases hk1 : k ≤ 1
      · have hts : d'.timestamp = d.timestamp := by rw [hd']; simp [hk1]
        have hrows : d'.rows = d.rows ++ (eventRows f e).take ((k + 1) / 2) := by rw [hd']
        refine ⟨by rw [hts]; exact Nat.le_refl _, ?_⟩
        rw [resumed_rows, hts, wanted_filter_ge f _ _ hd, hrows, hw]
        rcases Nat.eq_zero_or_pos k with h0 | h0
        · left; subst h0; simp
        · right
          have : k = 1 := by omega
          subst this
          refine ⟨[], e, es, (eventRows f e).take 1 ++ eventRows f e, rfl, ?_, Or.inr rfl⟩
          simp [wanted]
      · have hts : d'.timestamp = some e.timestamp := by rw [hd']; simp [hne, hk1]
        have hrows : d'.rows = d.rows ++ (eventRows f e).take ((k + 1) / 2) := by rw [hd']
        refine ⟨by rw [hts]; simp; omega, ?_⟩
        right
        refine ⟨[], e, es, (eventRows f e).take ((k + 1) / 2), rfl, ?_, Or.inl ⟨_, by omega, rfl⟩⟩
        rw [resumed_rows, hts, hrows]
        simp only [Option.getD_some, List.filter_cons]
        rw [if_neg (by simp), wanted_filter_ge f es _ hlt]
        simp [wanted]

/-- **C16 (partial), with a binding that accepts the key.** Let the first run crash after any
number of transactions and let a second run finish.  Then every document is indexed
completely and exactly once, in order — except possibly the one being indexed at the crash,
of which either a non-empty initial part remains, or the first segment is present twice. -/
theorem C16_crash_partial (f : Feature) (log : List Event) (hlog : Log log) (ts ts' : List Txn) (k : Nat)
    (h : listen true f {} log = .ok ts)
    (h' : listen true f (Durable.run {} (ts.take k)) log = .ok ts') :
    let final := (Durable.run {} (ts.take k)).run ts'
    final.rows = wanted f log ∨
    ∃ before e after X, log = before ++ e :: after ∧ final.rows = wanted f before ++ X ++ wanted f after ∧
      ((∃ j, 1 ≤ j ∧ X = (wanted f [e]).take j) ∨ X = (wanted f [e]).take 1 ++ wanted f [e]) := by
  have hts : ts = withInit {} (loopTxns f log) := by
    simp [listen] at h; exact h.symm
  have hwe : ∀ e, wanted f [e] = eventRows f e := by
    intro e; rw [wanted_cons]; simp [wanted, eventRows]
  intro final
  by_cases hemp : loopTxns f log = []
  · left
    have hw : wanted f log = [] := by
      have := (run_loop f log {}).1
      rw [hemp] at this
      simpa [Durable.run] using this.symm
    have e1 : ts = [] := by rw [hts, hemp]; simp [withInit]
    have : ts' = [] := by
      rw [e1] at h'
      simp [listen, Durable.run, withInit, hemp] at h'
      exact h'
    show ((Durable.run {} (ts.take k)).run ts').rows = _
    rw [this, e1, hw]
    simp [Durable.run]
  · have hts2 : ts = Txn.init :: loopTxns f log := by
      rw [hts]; unfold withInit; simp [hemp]
    rcases Nat.eq_zero_or_pos k with hk | hk
    · left
      subst hk
      have : ts' = ts := by
        simp only [List.take_zero] at h'
        have : Durable.run {} [] = {} := rfl
        rw [this, h] at h'
        cases h'; rfl
      show ((Durable.run {} (ts.take 0)).run ts').rows = _
      rw [this]
      obtain ⟨ts'', h1, h2⟩ := C16_first_run true f log
      rw [h] at h1; cases h1
      exact h2
    · obtain ⟨k, rfl⟩ : ∃ j, k = j + 1 := ⟨k - 1, by omega⟩
      have hd : Durable.run {} (ts.take (k + 1)) =
          ({ initialised := true } : Durable).run ((loopTxns f log).take k) := by
        rw [hts2, List.take_succ_cons]; rfl
      rw [hd] at h'
      have hinit : (({ initialised := true } : Durable).run ((loopTxns f log).take k)).initialised = true := by
        have mono : ∀ (ts : List Txn) (d : Durable), d.initialised = true → (d.run ts).initialised = true := by
          intro ts
          induction ts with
          | nil => intro d h; exact h
          | cons t ts ih =>
            intro d h
            refine ih (d.apply t) ?_
            cases t <;> simp [Durable.apply, h]
        exact mono _ _ rfl
      have hts' : ts' = loopTxns f (log.filter fun e => decide
          ((({ initialised := true } : Durable).run ((loopTxns f log).take k)).timestamp.getD 0 < e.timestamp)) := by
        simp only [listen, hinit, if_true] at h'
        cases h'
        simp [withInit, hinit]
      have hfin : final = resumed f (({ initialised := true } : Durable).run ((loopTxns f log).take k)) log := by
        show (Durable.run {} (ts.take (k + 1))).run ts' = _
        rw [hd, hts']; rfl
      have := (crash_split f log hlog k { initialised := true } (fun e he => hlog.positive e he)).2
      rw [hfin]
      simp only [hwe]
      simpa using this

/-- **C16, refuted even then (loss).** A crash after the first segment of a two-segment
document leaves the second segment out for good. -/
theorem C16_crash_loses :
    let f : Feature := ⟨"k", "1", fun _ => 2⟩
    let log : List Event := [⟨1, 7, "k", "1"⟩, ⟨2, 8, "k", "1"⟩]
    ∃ k ts ts', listen true f {} log = .ok ts ∧ listen true f (Durable.run {} (ts.take k)) log = .ok ts' ∧
      ((Durable.run {} (ts.take k)).run ts').rows = [⟨7, 0⟩, ⟨8, 0⟩, ⟨8, 1⟩] :=
  ⟨3, _, _, rfl, rfl, by decide⟩

/-- **C16, refuted even then (duplicate).** A crash between the two transactions of the first
segment makes that segment appear twice. -/
theorem C16_crash_duplicates :
    let f : Feature := ⟨"k", "1", fun _ => 2⟩
    let log : List Event := [⟨1, 7, "k", "1"⟩]
    ∃ k ts ts', listen true f {} log = .ok ts ∧ listen true f (Durable.run {} (ts.take k)) log = .ok ts' ∧
      ((Durable.run {} (ts.take k)).run ts').rows = [⟨7, 0⟩, ⟨7, 0⟩, ⟨7, 1⟩] :=
  ⟨2, _, _, rfl, rfl, by decide⟩

/-- **C16.** `add_all` on a new index adds every segment of every document once. -/
theorem C16_add_all (f : Feature) (docs : List Nat) :
    (Durable.run {} (addAll f {} docs)).rows = docs.flatMap (docRows f) := by
  unfold addAll
  rw [run_withInit]
  have : ∀ (docs : List Nat) (d : Durable),
      (d.run (docs.flatMap fun doc => addTxns f doc 0)).rows = d.rows ++ docs.flatMap (docRows f) := by
    intro docs
    induction docs with
    | nil => intro d; simp [Durable.run]
    | cons x xs ih =>
      intro d
      rw [List.flatMap_cons, run_append, ih]
      unfold addTxns
      rw [run_rows]
      simp
  rw [this]
  rfl

/-- **C16, refuted for `add_all` followed by listening.** `add_all` stores the empty position,
so listening afterwards indexes every document of the log a second time. -/
theorem C16_add_all_then_listen_duplicates :
    let f : Feature := ⟨"k", "1", fun _ => 1⟩
    let log : List Event := [⟨1, 7, "k", "1"⟩]
    let d := Durable.run {} (addAll f {} [7])
    ∃ ts, listen true f d log = .ok ts ∧ (d.run ts).rows = [⟨7, 0⟩, ⟨7, 0⟩] :=
  ⟨_, rfl, by decide⟩

example : Log [⟨1, 7, "k", "1"⟩, ⟨2, 8, "k", "1"⟩] := ⟨by decide, by decide⟩
example : wanted ⟨"k", "1", fun _ => 2⟩ [⟨1, 7, "k", "1"⟩, ⟨2, 8, "other", "1"⟩] = [⟨7, 0⟩, ⟨7, 1⟩] := by decide

example := C16_restart_fails ⟨"k", "1", fun _ => 2⟩ { initialised := true } [⟨1, 7, "k", "1"⟩] rfl
example := C16_crash_prefix true ⟨"k", "1", fun _ => 2⟩ [⟨1, 7, "k", "1"⟩, ⟨2, 8, "k", "1"⟩] _ rfl 1
example := C16_initialised_after_first true ⟨"k", "1", fun _ => 2⟩ [⟨1, 7, "k", "1"⟩, ⟨2, 8, "k", "1"⟩] _ rfl 1 (by decide) (by decide)
example := C16_crash_partial ⟨"k", "1", fun _ => 2⟩ [⟨1, 7, "k", "1"⟩, ⟨2, 8, "k", "1"⟩] ⟨by decide, by decide⟩ _ _ 1 rfl rfl

end Zounds.Props.HammingIndex
