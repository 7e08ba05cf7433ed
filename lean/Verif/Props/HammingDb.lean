import Verif.Lemmas.HammingDbInv
import Mathlib.Data.List.Sort
/-!
# Properties C11, C12, C15: HammingDb

The specification is in `Verif/Spec/HammingDb.lean`.
-/

namespace Zounds.Props.HammingDb
open Zounds Zounds.HammingDb

/-- **C11.** After every history of opens, appends and searches by any number of
instances, the shared store holds exactly the accepted records. -/
theorem C11_store_is_log (np : Numpy) (ops : List Op) (h1 : FreshIds ops) (h2 : CommitsSucceed ops) :
    (run np {} ops).store.Perm
      ((accepted np {} ops).map fun r => (r.id, r.code ++ r.data)) :=
  (history_inv np ops h1 h2).perm

/-- **C11.** After every history, once an instance has checked for external
modifications — every search with a code of the right size does — its in-memory
index contains exactly the ids and codes of the accepted records, each once,
whoever appended them. -/
theorem C11_instances_agree (np : Numpy) (ops : List Op) (h1 : FreshIds ops)
    (h2 : CommitsSucceed ops) (h3 : PlainCodes ops) (k : Nat) (i : Inst)
    (hk : (run np {} ops).insts[k]? = some i) (hw : i.writeonly = false)
    (code : PyText) (hlen : code.len = i.codeSize) (n : Nat) (mt sort : Bool) :
    ∃ i', (run np {} (ops ++ [.search k code n mt sort])).insts[k]? = some i' ∧
      i'.mem.Perm ((accepted np {} ops).map fun r => (r.id, r.code)) ∧
      (i'.mem.map Prod.fst).Nodup := by
  have hrun : ∀ (ops : List Op) (w : World) (op : Op),
      run np w (ops ++ [op]) = (step np (run np w ops) op).1 := by
    intro ops
    induction ops with
    | nil => intro w op; rfl
    | cons o ops ih => intro w op; simp only [List.cons_append, run]; exact ih _ _
  have h := history_inv np ops h1 h2
  have hex := history_exact np ops h1 h2 h3
  rw [hrun]
  generalize hw' : run np {} ops = w at *
  generalize accepted np {} ops = log at *
  obtain ⟨hcs, hiok⟩ := h.insts i (List.mem_of_getElem? hk)
  obtain ⟨i', e1, e2, _, e4, e5⟩ := checkExternal_ok w.store i h.store_nodup (h.store_len hcs) hw hiok
  have hs : (search np w.store i code n mt sort).1 = i' := by
    unfold search
    rw [if_neg (by simp [hw])]
    simp only [validate, hlen, ne_eq, not_true, if_false, e1]
    split
    · rfl
    · split
      · rfl
      · split <;> rfl
  refine ⟨i', ?_, ?_, ?_⟩
  · simp only [step, hk]
    have hlt : k < w.insts.length := by
      rw [List.getElem?_eq_some_iff] at hk
      exact hk.1
    rw [← hs]
    simp [hlt]
  · refine e5.trans ((h.perm.map _).trans ?_)
    rw [List.map_map]
    apply List.Perm.of_eq
    apply List.map_congr_left
    intro r hr
    have := hex r hr
    rw [hcs] at this
    have hl : r.code.length = i.codeSize := (Option.some.inj this).symm
    simp [← hl]
  · rw [← e4.ids_eq]; exact e4.nodup

/-- **C12.** After every history, a search for fewer codes than there are records
returns exactly `n` of the records' data, no record left out is closer than one
returned, and with `sort` they come in order of distance — for every legal
`argpartition`/`argsort`, every thread count, multithreaded or not. -/
theorem C12_nearest (np : Numpy) (hl : Legal np) (ops : List Op) (h1 : FreshIds ops)
    (h2 : CommitsSucceed ops) (h3 : PlainCodes ops) (k : Nat) (i : Inst)
    (hk : (run np {} ops).insts[k]? = some i) (hw : i.writeonly = false)
    (q : Bytes) (hq : q.length = i.codeSize) (n : Nat)
    (hn : n < (accepted np {} ops).length) (mt sort : Bool) :
    ∃ chosen rest : List Rec, (chosen ++ rest).Perm (accepted np {} ops) ∧ chosen.length = n ∧
      (step np (run np {} ops) (.search k (.bytes q) n mt sort)).2 = .ok (chosen.map Rec.data) ∧
      (∀ c ∈ chosen, ∀ r ∈ rest, bitDistance q c.code ≤ bitDistance q r.code) ∧
      (sort = true → chosen.Pairwise fun a b => bitDistance q a.code ≤ bitDistance q b.code) := by
  have h := history_inv np ops h1 h2
  have hex := history_exact np ops h1 h2 h3
  have hi := List.mem_of_getElem? hk
  have := search_correct np hl _ _ h i hi hw (by
    intro r hr
    have h1 := hex r hr
    rw [(h.insts i hi).1] at h1
    exact (Option.some.inj h1).symm) q hq n hn mt sort
  obtain ⟨c, r, a1, a2, a3, a4, a5⟩ := this
  refine ⟨c, r, a1, a2, ?_, a4, a5⟩
  simp only [step, hk]
  exact a3

/-- **C12, the missing part.** Asking for as many results as there are records (or
more) does not return all of them: `argpartition` raises `ValueError`. -/
theorem C12_all_results_fails (np : Numpy) (ops : List Op) (h1 : FreshIds ops)
    (h2 : CommitsSucceed ops) (k : Nat) (i : Inst)
    (hk : (run np {} ops).insts[k]? = some i) (hw : i.writeonly = false)
    (q : Bytes) (hq : q.length = i.codeSize) (n : Nat)
    (hn : (accepted np {} ops).length ≤ n) (mt sort : Bool) :
    (step np (run np {} ops) (.search k (.bytes q) n mt sort)).2 = .error .valueError := by
  have h := history_inv np ops h1 h2
  generalize hw' : run np {} ops = w at *
  generalize accepted np {} ops = log at *
  obtain ⟨hcs, hiok⟩ := h.insts i (List.mem_of_getElem? hk)
  obtain ⟨i', e1, e2, _, e4, e5⟩ := checkExternal_ok w.store i h.store_nodup (h.store_len hcs) hw hiok
  have hlen : i'.mem.length ≤ n := by
    rw [e5.length_eq]
    simp only [rowsOf, List.length_map, h.perm.length_eq]
    exact hn
  simp only [step, hk]
  unfold search
  rw [if_neg (by simp [hw])]
  simp only [validate, PyText.len, hq, ne_eq, not_true, if_false, e1]
  cases hs : scores np mt (toWords q) (i'.mem.map fun r => toWords r.2) with
  | error e =>
    simp only [scores] at hs
    cases mt with
    | false => simp at hs
    | true =>
      simp only [not_true, if_false] at hs
      split at hs <;> cases hs
      rfl
  | ok sc =>
    have := scores_length np mt _ _ _ hs
    simp only [select]
    rw [if_pos (by simp at this; omega)]

/-- **C12.** The thread count and the multithreaded flag never change what a search
returns or raises. -/
theorem C12_multithreaded_same (np np' : Numpy) (hp : np'.argpartition = np.argpartition)
    (hs : np'.argsort = np.argsort) (st : Store) (i : Inst) (code : PyText) (n : Nat) (mt mt' sort : Bool) :
    search np st i code n mt sort = search np' st i code n mt' sort := by
  have hsel : ∀ sc, select np sc n sort = select np' sc n sort := by
    intro sc; simp [select, hp, hs]
  unfold search
  split
  · rfl
  · split
    · rfl
    · split
      · rfl
      · rename_i i' _
        split
        · rfl
        · rename_i q _
          by_cases hc : (i'.mem.map fun r => toWords r.2) = []
          · rw [hc]
            cases mt <;> cases mt' <;> simp [scores, chunks, Zounds.PopCount.packedDistance, select]
          · rw [scores_eq _ _ _ _ hc, scores_eq _ _ _ _ hc]
            dsimp only
            rw [hsel]

/-- **C15.** The code size of a database is fixed for ever by the first open that
names a multiple of eight; every instance has that size. -/
theorem C15_size_fixed (np : Numpy) (ops : List Op) (h1 : FreshIds ops) (h2 : CommitsSucceed ops) :
    (run np {} ops).codesize = firstSize ops ∧
    ∀ i ∈ (run np {} ops).insts, firstSize ops = some i.codeSize := by
  have := run_codesize np ops {}
  refine ⟨this, fun i hi => ?_⟩
  have h := ((history_inv np ops h1 h2).insts i hi).1
  rw [← h, this]

/-- **C15.** What opening does, after any history: the complete decision table. -/
theorem C15_open_outcome (np : Numpy) (ops : List Op) (h1 : FreshIds ops) (h2 : CommitsSucceed ops)
    (arg : Option Nat) (wo : Bool) :
    (step np (run np {} ops) (.open arg wo)).2 =
      match firstSize ops, arg with
      | none, none => .error .valueError
      | none, some a => if a % 8 = 0 then .ok [] else .error .valueError
      | some _, none => .ok []
      | some cs, some a => if a = cs ∨ a = 0 then .ok [] else .error .valueError := by
  have hc := (C15_size_fixed np ops h1 h2).1
  have h := history_inv np ops h1 h2
  generalize run np {} ops = w at *
  rw [← hc]
  -- the initial catch-up never fails
  have hcatch : ∀ cs, (∀ p ∈ w.store, cs ≤ p.2.length) →
      ∃ i, catchUp w.store { codeSize := cs, writeonly := wo } = .ok i := by
    intro cs hlen
    unfold catchUp
    cases wo with
    | true => exact ⟨_, catchUpLoop_writeonly _ rfl _⟩
    | false =>
      obtain ⟨i', e1, _⟩ := catchUpLoop_ok w.store cs hlen w.store (fun _ h => h)
        { codeSize := cs, writeonly := false } rfl rfl ⟨rfl, by simp, by simp, by simp⟩
      exact ⟨i', e1⟩
  simp only [step, openDb]
  cases hs : w.codesize with
  | none =>
    have hemp : w.store = [] := by
      have hl : accepted np {} ops = [] := by
        cases hl : accepted np {} ops with
        | nil => rfl
        | cons r _ =>
          obtain ⟨cs, e, _⟩ := h.sizes r (by rw [hl]; simp)
          rw [hs] at e; cases e
      have := h.perm
      rw [hl] at this
      simpa using this
    cases arg with
    | none => simp [openSize]
    | some a =>
      by_cases ha : a % 8 = 0
      · obtain ⟨i, hi⟩ := hcatch a (by simp [hemp])
        simp [openSize, ha, hi]
      · simp [openSize, ha]
  | some cs =>
    obtain ⟨i, hi⟩ := hcatch cs (h.store_len hs)
    cases arg with
    | none => simp [openSize, hi]
    | some a =>
      by_cases h0 : a = 0
      · simp [openSize, h0, hi]
      · by_cases ha : a = cs
        · simp [openSize, ha, hi]
        · simp [openSize, h0, ha]

/-- **C15.** A code of the wrong size is refused by `append`, and nothing changes. -/
theorem C15_append_wrong_size (np : Numpy) (w : World) (k : Nat) (i : Inst)
    (hk : w.insts[k]? = some i) (code data : PyText) (hlen : code.len ≠ i.codeSize) (id : Nat) (b : Bool) :
    step np w (.append k code data id b) = (w, .error .valueError) := by
  simp only [step, hk, append, validate, hlen, ne_eq, not_false_iff, if_true]
  have : w.insts.set k i = w.insts := by
    rw [List.getElem?_eq_some_iff] at hk
    obtain ⟨h, e⟩ := hk
    rw [← e]; exact List.set_getElem_self h
  rw [this]

/-- **C15.** A query of the wrong size is refused by `search`. -/
theorem C15_search_wrong_size (np : Numpy) (w : World) (k : Nat) (i : Inst)
    (hk : w.insts[k]? = some i) (hw : i.writeonly = false) (code : PyText)
    (hlen : code.len ≠ i.codeSize) (n : Nat) (mt sort : Bool) :
    step np w (.search k code n mt sort) = (w, .error .valueError) := by
  simp only [step, hk, search, hw, validate, hlen, ne_eq, not_false_iff, if_true, Bool.false_eq_true,
    if_false]
  have : w.insts.set k i = w.insts := by
    rw [List.getElem?_eq_some_iff] at hk
    obtain ⟨h, e⟩ := hk
    rw [← e]; exact List.set_getElem_self h
  rw [this]

/-- **C15.** A writeonly instance refuses every search. -/
theorem C15_search_writeonly (np : Numpy) (w : World) (k : Nat) (i : Inst)
    (hk : w.insts[k]? = some i) (hw : i.writeonly = true) (code : PyText) (n : Nat) (mt sort : Bool) :
    step np w (.search k code n mt sort) = (w, .error .runtimeError) := by
  simp only [step, hk, search, hw, if_true]
  have : w.insts.set k i = w.insts := by
    rw [List.getElem?_eq_some_iff] at hk
    obtain ⟨h, e⟩ := hk
    rw [← e]; exact List.set_getElem_self h
  rw [this]

/-- **C15.** If every code appended is a byte string or ASCII text, every stored code
has the database's size. -/
theorem C15_stored_codes (np : Numpy) (ops : List Op) (h1 : FreshIds ops)
    (h2 : CommitsSucceed ops) (h3 : PlainCodes ops) :
    ∀ r ∈ accepted np {} ops, firstSize ops = some r.code.length := by
  intro r hr
  rw [← (C15_size_fixed np ops h1 h2).1]
  exact history_exact np ops h1 h2 h3 r hr

/-- **C15.** A non-ASCII text that passes the length check is still refused by an
instance that keeps its codes in memory. -/
theorem C15_long_text_refused (np : Numpy) (w : World) (k : Nat) (i : Inst)
    (hk : w.insts[k]? = some i) (hw : i.writeonly = false) (code data : PyText)
    (h1 : code.len = i.codeSize) (h2 : code.encode.length ≠ i.codeSize) (id : Nat) (b : Bool) :
    step np w (.append k code data id b) = (w, .error .bufferError) := by
  simp only [step, hk, append, validate, h1, addCode, hw, h2, ne_eq, not_true, not_false_iff, if_true,
    if_false, Bool.false_eq_true]
  have : w.insts.set k i = w.insts := by
    rw [List.getElem?_eq_some_iff] at hk
    obtain ⟨h, e⟩ := hk
    rw [← e]; exact List.set_getElem_self h
  rw [this]

/-! ## A concrete numpy, witnesses and counterexamples -/

/-- A numpy whose `argsort` is an insertion sort, and whose `argpartition` sorts. -/
def sorter (s : List Nat) : List Nat :=
  (List.range s.length).insertionSort fun a b => s.getD a 0 ≤ s.getD b 0

def np0 : Numpy := { argpartition := fun s _ => sorter s, argsort := sorter, threads := 2 }

theorem sorter_perm (s : List Nat) : (sorter s).Perm (List.range s.length) :=
  List.perm_insertionSort _ _

theorem sorter_sorted (s : List Nat) : (sorter s).Pairwise fun a b => s.getD a 0 ≤ s.getD b 0 := by
  have : Std.Total (fun a b : Nat => s.getD a 0 ≤ s.getD b 0) := ⟨fun _ _ => Nat.le_total _ _⟩
  have : IsTrans Nat (fun a b => s.getD a 0 ≤ s.getD b 0) := ⟨fun _ _ _ => Nat.le_trans⟩
  exact List.pairwise_insertionSort _ _

/-- Legal numpys exist. -/
theorem np0_legal : Legal np0 where
  part_perm s _ _ := sorter_perm s
  part_le s k _ a ha b hb := by
    have := sorter_sorted s
    rw [← List.take_append_drop k (sorter s), List.pairwise_append] at this
    exact this.2.2 a ha b hb
  sort_perm := sorter_perm
  sort_le := sorter_sorted

def code8 (x : UInt8) : PyText := .bytes [x, 0, 0, 0, 0, 0, 0, 0]

/-- Two instances append in turn; both see everything. -/
def demo : List Op :=
  [.open (some 8) false, .open none false,
   .append 0 (code8 1) (.str ['a']) 50 true,
   .append 1 (code8 255) (.str ['b']) 20 true,
   .append 0 (code8 3) (.str ['c']) 30 true]

example : FreshIds demo ∧ CommitsSucceed demo ∧ PlainCodes demo := by
  refine ⟨by unfold FreshIds; decide, ?_, ?_⟩
  · intro k c d id h; simp [demo] at h
  · intro k c d id b h
    simp [demo, code8] at h
    rcases h with ⟨_, rfl, _⟩ | ⟨_, rfl, _⟩ | ⟨_, rfl, _⟩ <;> trivial

example : (accepted np0 {} demo).length = 3 := by decide
-- instance 1 finds the records that instance 0 appended
example : (step np0 (run np0 {} demo) (.search 1 (code8 1) 2 true true)).2 = .ok [[97], [99]] := by
  decide +kernel
example : (step np0 (run np0 {} demo) (.search 1 (code8 1) 3 false true)).2 = .error .valueError := by
  decide +kernel

/-- **C11 does not survive a failing commit.** The in-memory row of the aborted
transaction stays; once another instance appends, the sizes agree again and the
first instance never notices the new record (and fails on its ghost). -/
theorem C11_commit_failure_fails :
    ∃ ops : List Op, FreshIds ops ∧ PlainCodes ops ∧
      ∃ i, (run np0 {} (ops ++ [.search 0 (code8 1) 0 false false])).insts[0]? = some i ∧
        ¬ i.mem.Perm ((accepted np0 {} ops).map fun r => (r.id, r.code)) := by
  refine ⟨[.open (some 8) false, .open none false, .append 0 (code8 1) (.str ['a']) 50 false,
    .append 1 (code8 2) (.str ['b']) 20 true], by unfold FreshIds; decide, ?_,
    { codeSize := 8, writeonly := false, mem := [(50, [1, 0, 0, 0, 0, 0, 0, 0])], ids := [50] }, ?_, ?_⟩
  · intro k c d id b h
    simp [code8] at h
    rcases h with ⟨_, rfl, _⟩ | ⟨_, rfl, _⟩ <;> trivial
  · decide +kernel
  · intro h
    have := h.mem_iff (a := ((20 : Nat), ([2, 0, 0, 0, 0, 0, 0, 0] : Bytes)))
    revert this
    decide +kernel

/-- **C15 fails for text codes and writeonly instances.** The size check counts
characters, the stored value is UTF-8. -/
theorem C15_stored_codes_fails :
    ∃ ops : List Op, FreshIds ops ∧ CommitsSucceed ops ∧
      ∃ r ∈ accepted np0 {} ops, firstSize ops ≠ some r.code.length := by
  refine ⟨[.open (some 8) true, .append 0 (.str ['é', 'a', 'a', 'a', 'a', 'a', 'a', 'a']) (.str ['x']) 5 true],
    by unfold FreshIds; decide, ?_, ⟨5, [195, 169, 97, 97, 97, 97, 97, 97, 97], [120]⟩, ?_, ?_⟩
  · intro k c d id h; simp at h
  · decide +kernel
  · decide

/-- **C15 fails for a requested code size of zero**: it is falsy, so an initialised
database accepts it although its size is different. -/
theorem C15_zero_size_fails :
    (step np0 (run np0 {} demo) (.open (some 0) false)).2 = .ok [] ∧
    (run np0 {} demo).codesize = some 8 := by decide +kernel

/-- **C11**, the key/value index as LMDB specifies it (this is what the model above rests on): writing a key keeps the keys
strictly increasing, reading it back gives the value written, and no other key changes. -/
theorem C11_store_put_overwrites (k : Nat) (v : Bytes) (st : Store) (h : (st.map Prod.fst).Pairwise (· < ·)) :
    ((Store.put k v st).map Prod.fst).Pairwise (· < ·) ∧
    (∀ k', Store.get? k' (Store.put k v st) = if k' = k then some v else Store.get? k' st) := by
  have hmem : ∀ (st : Store) (x : Nat), x ∈ (Store.put k v st).map Prod.fst → x = k ∨ x ∈ st.map Prod.fst := by
    intro st
    induction st with
    | nil => intro x hx; simpa [Store.put] using hx
    | cons p r ih =>
      obtain ⟨a, b⟩ := p
      intro x hx
      unfold Store.put at hx
      split at hx
      · simpa using hx
      · split at hx
        · simp only [List.map_cons, List.mem_cons] at hx ⊢; tauto
        · simp only [List.map_cons, List.mem_cons] at hx ⊢
          rcases hx with hx | hx
          · exact Or.inr (Or.inl hx)
          · rcases ih x hx with h | h
            · exact Or.inl h
            · exact Or.inr (Or.inr h)
  constructor
  · induction st with
    | nil => simp [Store.put]
    | cons p r ih =>
      obtain ⟨a, b⟩ := p
      obtain ⟨h1, h2⟩ := List.pairwise_cons.1 h
      unfold Store.put
      split
      · rename_i hlt
        simp only [List.map_cons, List.pairwise_cons]
        refine ⟨?_, h1, h2⟩
        intro x hx
        rcases List.mem_cons.1 hx with rfl | hx
        · exact hlt
        · exact Nat.lt_trans hlt (h1 x hx)
      · split
        · rename_i e
          subst e
          simp only [List.map_cons, List.pairwise_cons]
          exact ⟨h1, h2⟩
        · simp only [List.map_cons, List.pairwise_cons]
          refine ⟨?_, ih h2⟩
          intro x hx
          rcases hmem r x hx with rfl | hx
          · omega
          · exact h1 x hx
  · induction st with
    | nil => intro k'; simp [Store.put, Store.get?]
    | cons p r ih =>
      obtain ⟨a, b⟩ := p
      obtain ⟨h1, h2⟩ := List.pairwise_cons.1 h
      intro k'
      unfold Store.put
      split
      · simp [Store.get?]
      · split
        · rename_i e
          subst e
          by_cases hk : k' = k <;> simp [Store.get?, hk]
        · rename_i hne
          have := ih h2 k'
          simp only [Store.get?, this]
          by_cases hk : k' = a
          · have : k' ≠ k := by omega
            simp [hk, this]
            intro e; omega
          · simp [hk]

example : Store.put 2 [9] [(1, [5]), (2, [6]), (3, [7])] = [(1, [5]), (2, [9]), (3, [7])] := by decide

/-- **C15.** A text query of the right length is a TypeError: only byte strings can be searched for. -/
theorem C15_search_text (np : Numpy) (w : World) (k : Nat) (i i' : Inst)
    (hk : w.insts[k]? = some i) (hw : i.writeonly = false) (s : List Char) (hlen : (PyText.str s).len = i.codeSize)
    (hc : checkExternal w.store i = .ok i') (n : Nat) (mt sort : Bool) :
    step np w (.search k (.str s) n mt sort) = ({ w with insts := w.insts.set k i' }, .error .typeError) := by
  simp only [step, hk, search, hw, validate, hlen, ne_eq, not_true, if_false, Bool.false_eq_true, hc]

theorem demo_ok : FreshIds demo ∧ CommitsSucceed demo ∧ PlainCodes demo := by
  refine ⟨by unfold FreshIds; decide, ?_, ?_⟩
  · intro k c d id h; simp [demo] at h
  · intro k c d id b h
    simp [demo, code8] at h
    rcases h with ⟨_, rfl, _⟩ | ⟨_, rfl, _⟩ | ⟨_, rfl, _⟩ <;> trivial
theorem demo_inst : ∃ i, (run np0 {} demo).insts[1]? = some i ∧ i.writeonly = false ∧ i.codeSize = 8 :=
  ⟨_, rfl, rfl, rfl⟩
example := C11_store_is_log np0 demo demo_ok.1 demo_ok.2.1
example : ∃ i, (run np0 {} (demo ++ [.search 1 (code8 1) 2 true true])).insts[1]? = some i ∧
    i.mem.Perm ((accepted np0 {} demo).map fun r => (r.id, r.code)) := by
  obtain ⟨i, h1, h2, h3⟩ := demo_inst
  obtain ⟨i', a, b, _⟩ := C11_instances_agree np0 demo demo_ok.1 demo_ok.2.1 demo_ok.2.2 1 i h1 h2 (code8 1) (by rw [h3]; rfl) 2 true true
  exact ⟨i', a, b⟩
example := C15_size_fixed np0 demo demo_ok.1 demo_ok.2.1
example := C15_open_outcome np0 demo demo_ok.1 demo_ok.2.1 (some 7) false
example := C15_stored_codes np0 demo demo_ok.1 demo_ok.2.1 demo_ok.2.2
example : (step np0 (run np0 {} demo) (.search 1 (.bytes (List.replicate 8 1)) 3 true true)).2 = .error .valueError := by
  obtain ⟨i, h1, h2, h3⟩ := demo_inst
  exact C12_all_results_fails np0 demo demo_ok.1 demo_ok.2.1 1 i h1 h2 (List.replicate 8 1) (by rw [h3]; rfl) 3 (by decide) true true
example : step np0 (run np0 {} demo) (.append 1 (.bytes [1, 2]) (.bytes [3]) 99 true) = (run np0 {} demo, .error .valueError) := by
  obtain ⟨i, h1, h2, h3⟩ := demo_inst
  exact C15_append_wrong_size np0 _ 1 i h1 (.bytes [1, 2]) (.bytes [3]) (by rw [h3]; decide) 99 true
example : step np0 (run np0 {} demo) (.search 1 (.bytes [1, 2]) 1 true true) = (run np0 {} demo, .error .valueError) := by
  obtain ⟨i, h1, h2, h3⟩ := demo_inst
  exact C15_search_wrong_size np0 _ 1 i h1 h2 (.bytes [1, 2]) (by rw [h3]; decide) 1 true true
example : step np0 (run np0 {} [.open (some 8) true]) (.search 0 (code8 1) 1 true true)
    = (run np0 {} [.open (some 8) true], .error .runtimeError) := by
  obtain ⟨i, h1, h2⟩ : ∃ i, (run np0 {} [.open (some 8) true]).insts[0]? = some i ∧ i.writeonly = true := ⟨_, rfl, rfl⟩
  exact C15_search_writeonly np0 _ 0 i h1 h2 (code8 1) 1 true true
example : step np0 (run np0 {} demo) (.append 1 (.str (List.replicate 8 'é')) (.bytes [3]) 99 true)
    = (run np0 {} demo, .error .bufferError) := by
  obtain ⟨i, h1, h2, h3⟩ := demo_inst
  exact C15_long_text_refused np0 _ 1 i h1 h2 (.str (List.replicate 8 'é')) (.bytes [3]) (by rw [h3]; decide) (by rw [h3]; decide +kernel) 99 true
example := C11_store_put_overwrites 2 [9] [(1, [5]), (2, [6]), (3, [7])] (by decide)
example := C12_multithreaded_same np0 np0 rfl rfl (run np0 {} demo).store
example : ∃ w, step np0 (run np0 {} demo) (.search 1 (.str (List.replicate 8 'a')) 1 true true) = (w, .error .typeError) := by
  obtain ⟨i, h1, h2, h3, i', h4⟩ : ∃ i, (run np0 {} demo).insts[1]? = some i ∧ i.writeonly = false ∧ i.codeSize = 8 ∧
    ∃ i', checkExternal (run np0 {} demo).store i = .ok i' := ⟨_, rfl, rfl, rfl, _, rfl⟩
  exact ⟨_, C15_search_text np0 _ 1 i i' h1 h2 (List.replicate 8 'a') (by rw [h3]; rfl) h4 1 true true⟩
example : ∃ chosen rest : List Rec, (chosen ++ rest).Perm (accepted np0 {} demo) ∧ chosen.length = 2 := by
  obtain ⟨i, h1, h2, h3⟩ := demo_inst
  obtain ⟨c, r, a, b, _⟩ := C12_nearest np0 np0_legal demo demo_ok.1 demo_ok.2.1 demo_ok.2.2 1 i h1 h2 (List.replicate 8 1) (by rw [h3]; rfl)
    2 (by decide) true true
  exact ⟨c, r, a, b⟩

end Zounds.Props.HammingDb
