import Verif.Props.HammingDb

/-!
# Exactly when (C70 - C72): databases of Hamming codes
-/

namespace Zounds.Props.HammingDb
open Zounds Zounds.HammingDb

/-! ## C70: commits that fail -/

/-- The id of an append by instance `k` that ended with the exception of a failed commit. -/
def failedId (k : Nat) : Op → Out → List Nat
  | .append j _ _ id _, .error .runtimeError => if j = k then [id] else []
  | _, _ => []

/-- The ids of the appends by instance `k` that ended with the exception of a failed commit. -/
def failures (np : Numpy) (w : World) (k : Nat) : List Op → List Nat
  | [] => []
  | op :: ops =>
    failedId k op (step np w op).2 ++ failures np (step np w op).1 k ops

/-- The operations other than appends that cannot be committed. -/
def committed : Op → Bool
  | .append _ _ _ _ false => false
  | _ => true

/-- The two worlds differ in the memories of instances other than `k` at most. -/
structure Same (k : Nat) (w w' : World) : Prop where
  store : w.store = w'.store
  size : w.codesize = w'.codesize
  len : w.insts.length = w'.insts.length
  insts : ∀ (j : Nat) i i', w.insts[j]? = some i → w'.insts[j]? = some i' →
    i.codeSize = i'.codeSize ∧ i.writeonly = i'.writeonly ∧ (j = k → i = i')

theorem catchUpLoop_keeps (st : Store) : ∀ (i i' : Inst), catchUpLoop i st = .ok i' →
    i'.codeSize = i.codeSize ∧ i'.writeonly = i.writeonly ∧ ∀ p ∈ i.mem, p ∈ i'.mem := by
  induction st with
  | nil => intro i i' h; cases h; exact ⟨rfl, rfl, fun _ h => h⟩
  | cons p r ih =>
    intro i i' h
    unfold catchUpLoop at h
    split at h
    · exact ih i i' h
    · split at h
      · cases h
      · rename_i j hj
        obtain ⟨h1, h2, h3⟩ := ih j i' h
        unfold addCode at hj
        split at hj
        · cases hj; exact ⟨h1, h2, h3⟩
        · split at hj
          · cases hj
          · cases hj
            exact ⟨h1, h2, fun p hp => h3 p (List.mem_append_left _ hp)⟩

theorem checkExternal_keeps (st : Store) (i i' : Inst) (h : checkExternal st i = .ok i') :
    i'.codeSize = i.codeSize ∧ i'.writeonly = i.writeonly ∧ ∀ p ∈ i.mem, p ∈ i'.mem := by
  unfold checkExternal at h
  split at h
  · exact catchUpLoop_keeps st i i' h
  · cases h; exact ⟨rfl, rfl, fun _ h => h⟩

theorem search_keeps (np : Numpy) (st : Store) (i : Inst) (code : PyText) (n : Nat) (mt sort : Bool) :
    (search np st i code n mt sort).1.codeSize = i.codeSize ∧ (search np st i code n mt sort).1.writeonly = i.writeonly ∧
    ∀ p ∈ i.mem, p ∈ (search np st i code n mt sort).1.mem := by
  rcases search_inst np st i code n mt sort with h | ⟨_, h⟩
  · rw [h]; exact ⟨rfl, rfl, fun _ h => h⟩
  · exact checkExternal_keeps st i _ h

/-- All that can become of an append. -/
theorem append_all (st : Store) (i : Inst) (code data : PyText) (id : Nat) (b : Bool) :
    append st i code data id b =
      if code.len ≠ i.codeSize then (st, i, .error .valueError)
      else if i.writeonly = false ∧ code.encode.length ≠ i.codeSize then (st, i, .error .bufferError)
      else (if b then Store.put id (code.encode ++ data.encode) st else st,
        if i.writeonly then i else { i with mem := i.mem ++ [(id, code.encode)], ids := i.ids ++ [id] },
        if b then .ok () else .error .runtimeError) := by
  unfold append validate addCode
  by_cases h1 : code.len = i.codeSize
  · simp only [h1, ne_eq, not_true, if_false]
    cases hw : i.writeonly with
    | true => cases b <;> simp
    | false =>
      by_cases h2 : code.encode.length = i.codeSize
      · cases b <;> simp [h2]
      · simp [h2]
  · simp [h1]

theorem append_keeps (st : Store) (i : Inst) (code data : PyText) (id : Nat) (b : Bool) :
    (append st i code data id b).2.1.codeSize = i.codeSize ∧ (append st i code data id b).2.1.writeonly = i.writeonly ∧
    ∀ p ∈ i.mem, p ∈ (append st i code data id b).2.1.mem := by
  rw [append_all]
  split
  · exact ⟨rfl, rfl, fun _ h => h⟩
  · split
    · exact ⟨rfl, rfl, fun _ h => h⟩
    · cases hw : i.writeonly with
      | true => exact ⟨rfl, hw, fun _ h => h⟩
      | false => exact ⟨rfl, rfl, fun _ h => List.mem_append_left _ h⟩

theorem Same.set {k : Nat} {w w' : World} (h : Same k w w') (st : Store) (j : Nat) (x x' : Inst)
    (h1 : x.codeSize = x'.codeSize) (h2 : x.writeonly = x'.writeonly) (h3 : j = k → x = x') :
    Same k { w with store := st, insts := w.insts.set j x } { w' with store := st, insts := w'.insts.set j x' } := by
  refine ⟨rfl, h.size, by simp [h.len], ?_⟩
  intro l a a' ha ha'
  simp only [List.getElem?_set] at ha ha'
  by_cases hl : j = l
  · subst hl
    simp only [if_true] at ha ha'
    split at ha
    · split at ha'
      · cases ha; cases ha'; exact ⟨h1, h2, h3⟩
      · cases ha'
    · cases ha
  · rw [if_neg hl] at ha ha'
    exact h.insts l a a' ha ha'

theorem Same.get {k : Nat} {w w' : World} (h : Same k w w') (j : Nat) (i : Inst) (hj : w.insts[j]? = some i) : ∃ i', w'.insts[j]? = some i' := by
  have hlt : j < w.insts.length := by
    rw [List.getElem?_eq_some_iff] at hj
    exact hj.1
  exact ⟨_, List.getElem?_eq_getElem (h.len ▸ hlt)⟩

theorem Same.get_none {k : Nat} {w w' : World} (h : Same k w w') (j : Nat) (hj : w.insts[j]? = none) : w'.insts[j]? = none := by
  rw [List.getElem?_eq_none_iff] at hj ⊢
  rw [← h.len]; exact hj

theorem openDb_same {k : Nat} {w w' : World} (h : Same k w w') (arg : Option Nat) (wo : Bool) :
    Same k (openDb w arg wo).1 (openDb w' arg wo).1 ∧ (openDb w arg wo).2 = (openDb w' arg wo).2 := by
  unfold openDb
  rw [h.size, h.store]
  cases openSize w'.codesize arg with
  | error e => exact ⟨h, rfl⟩
  | ok r =>
    obtain ⟨cs, m⟩ := r
    dsimp only
    cases catchUp w'.store { codeSize := cs, writeonly := wo } with
    | error e => exact ⟨⟨rfl, rfl, h.len, h.insts⟩, rfl⟩
    | ok i =>
      refine ⟨⟨rfl, rfl, by simp [h.len], ?_⟩, rfl⟩
      intro j a a' ha ha'
      simp only [List.getElem?_append] at ha ha'
      rw [h.len] at ha
      split at ha
      · rename_i hlt
        rw [if_pos hlt] at ha'
        exact h.insts j a a' ha ha'
      · rename_i hlt
        rw [if_neg hlt] at ha'
        rw [ha] at ha'
        cases ha'
        exact ⟨rfl, rfl, fun _ => rfl⟩

/-- Appends that are not committed leave no trace but in the instance that made them. -/
theorem same_run (np : Numpy) (k : Nat) (ops : List Op) : ∀ w w' : World, Same k w w' → failures np w k ops = [] →
    Same k (run np w ops) (run np w' (ops.filter committed)) ∧ accepted np w ops = accepted np w' (ops.filter committed) := by
  induction ops with
  | nil => intro w w' h _; exact ⟨h, rfl⟩
  | cons op ops ih =>
    intro w w' h hf
    rw [failures, List.append_eq_nil_iff] at hf
    obtain ⟨hf1, hf2⟩ := hf
    have key : ∀ w1, (∀ _ : committed op = true, Same k (step np w op).1 (step np w' op).1 ∧ newRec op (step np w op).2 = newRec op (step np w' op).2) →
        (∀ _ : committed op = false, Same k (step np w op).1 w' ∧ newRec op (step np w op).2 = []) → w1 = w' →
        Same k (run np w (op :: ops)) (run np w' ((op :: ops).filter committed)) ∧ accepted np w (op :: ops) = accepted np w' ((op :: ops).filter committed) := by
      intro w1 g1 g2 _
      cases hc : committed op with
      | true =>
        obtain ⟨a, b⟩ := g1 hc
        obtain ⟨c, d⟩ := ih _ _ a hf2
        rw [List.filter_cons_of_pos hc]
        exact ⟨c, by rw [accepted, accepted, b, d]⟩
      | false =>
        obtain ⟨a, b⟩ := g2 hc
        obtain ⟨c, d⟩ := ih _ _ a hf2
        rw [List.filter_cons_of_neg (by simp [hc])]
        exact ⟨c, by rw [accepted, b, d]; rfl⟩
    refine key w' ?_ ?_ rfl
    · intro hc
      cases op with
      | «open» arg wo =>
        obtain ⟨a, b⟩ := openDb_same h arg wo
        simp only [step]
        generalize openDb w arg wo = r at a b
        generalize openDb w' arg wo = r' at a b
        obtain ⟨v, x⟩ := r
        obtain ⟨v', x'⟩ := r'
        simp only at b
        subst b
        cases x <;> exact ⟨a, rfl⟩
      | append j code data id b =>
        have hb : b = true := by cases b <;> simp_all [committed]
        subst hb
        simp only [step]
        cases hj : w.insts[j]? with
        | none => rw [h.get_none j hj]; exact ⟨h, rfl⟩
        | some i =>
          obtain ⟨i', hj'⟩ := h.get j i hj
          obtain ⟨c1, c2, c3⟩ := h.insts j i i' hj hj'
          rw [hj']
          dsimp only
          rw [append_all, append_all, ← c1, ← c2, ← h.store]
          by_cases e1 : code.len = i.codeSize
          · by_cases e2 : i.writeonly = false ∧ code.encode.length ≠ i.codeSize
            · simp only [e1, ne_eq, not_true, if_false]
              simp only [ne_eq] at e2
              simp only [e2, if_true, not_false_eq_true, and_self]
              exact ⟨h.set _ j i i' c1 c2 c3, trivial⟩
            · simp only [e1, ne_eq, not_true, if_false]
              simp only [ne_eq] at e2
              simp only [e2, if_false, if_true]
              refine ⟨h.set _ j _ _ ?_ ?_ ?_, trivial⟩
              · split <;> simp [c1]
              · split <;> simp [c2]
              · intro hk; rw [c3 hk]
          · simp only [ne_eq, e1, not_false_eq_true, if_true]
            exact ⟨h.set _ j i i' c1 c2 c3, trivial⟩
      | search j code n mt sort =>
        simp only [step]
        cases hj : w.insts[j]? with
        | none => rw [h.get_none j hj]; exact ⟨h, rfl⟩
        | some i =>
          obtain ⟨i', hj'⟩ := h.get j i hj
          obtain ⟨c1, c2, c3⟩ := h.insts j i i' hj hj'
          rw [hj']
          dsimp only [newRec]
          obtain ⟨a1, a2, _⟩ := search_keeps np w.store i code n mt sort
          obtain ⟨b1, b2, _⟩ := search_keeps np w'.store i' code n mt sort
          refine ⟨?_, rfl⟩
          have := h.set w.store j (search np w.store i code n mt sort).1 (search np w'.store i' code n mt sort).1
            (by rw [a1, b1, c1]) (by rw [a2, b2, c2]) (fun e => by rw [c3 e, h.store])
          refine ⟨h.store, this.size, this.len, this.insts⟩
    · intro hc
      cases op with
      | append j code data id b =>
        have hb : b = false := by cases b <;> simp_all [committed]
        subst hb
        simp only [step] at hf1 ⊢
        cases hj : w.insts[j]? with
        | none => exact ⟨h, rfl⟩
        | some i =>
          obtain ⟨i', hj'⟩ := h.get j i hj
          obtain ⟨c1, c2, c3⟩ := h.insts j i i' hj hj'
          simp only [hj] at hf1
          dsimp only
          rw [append_all] at hf1 ⊢
          have back : ∀ x : Inst, x.codeSize = i'.codeSize → x.writeonly = i'.writeonly → (j = k → x = i') →
              Same k { w with insts := w.insts.set j x } w' := by
            intro x g1 g2 g3
            have := h.set w.store j x i' g1 g2 g3
            refine ⟨h.store, h.size, by simp [h.len], ?_⟩
            intro l a a' ha ha'
            refine this.insts l a a' ha ?_
            simp only [List.getElem?_set]
            split
            · rename_i hl
              subst hl
              rw [hj'] at ha'
              cases ha'
              have hlt : j < w'.insts.length := by
                rw [List.getElem?_eq_some_iff] at hj'
                exact hj'.1
              rw [if_pos hlt]
            · exact ha'
          by_cases e1 : code.len = i.codeSize
          · by_cases e2 : i.writeonly = false ∧ code.encode.length ≠ i.codeSize
            · simp only [e1, ne_eq, not_true, if_false]
              simp only [ne_eq] at e2
              simp only [e2, if_true, not_false_eq_true, and_self]
              exact ⟨back i c1 c2 c3, rfl⟩
            · simp only [e1, ne_eq, not_true, if_false] at hf1 ⊢
              simp only [ne_eq] at e2
              simp only [e2, if_false] at hf1 ⊢
              have hne : j ≠ k := by
                intro e
                simp [e, failedId] at hf1
              refine ⟨back _ ?_ ?_ (fun e => absurd e hne), rfl⟩
              · split <;> simp [c1]
              · split <;> simp [c2]
          · simp only [ne_eq, e1, not_false_eq_true, if_true]
            exact ⟨back i c1 c2 c3, rfl⟩
      | «open» => simp [committed] at hc
      | search => simp [committed] at hc

/-- What is in the memory of an instance stays there. -/
theorem step_mem (np : Numpy) (w : World) (op : Op) (k : Nat) (i : Inst) (hk : w.insts[k]? = some i) :
    ∃ i', (step np w op).1.insts[k]? = some i' ∧ i'.writeonly = i.writeonly ∧ ∀ p ∈ i.mem, p ∈ i'.mem := by
  have hlt : k < w.insts.length := by
    rw [List.getElem?_eq_some_iff] at hk
    exact hk.1
  have hset : ∀ (j : Nat) (x : Inst), (∀ i0, w.insts[j]? = some i0 → x.writeonly = i0.writeonly ∧ ∀ p ∈ i0.mem, p ∈ x.mem) →
      ∃ i', (w.insts.set j x)[k]? = some i' ∧ i'.writeonly = i.writeonly ∧ ∀ p ∈ i.mem, p ∈ i'.mem := by
    intro j x hx
    rw [List.getElem?_set]
    by_cases hj : j = k
    · subst hj
      obtain ⟨a, b⟩ := hx i hk
      exact ⟨x, by simp [hlt], a, b⟩
    · exact ⟨i, by rw [if_neg hj]; exact hk, rfl, fun _ h => h⟩
  cases op with
  | «open» arg wo =>
    simp only [step, openDb]
    cases openSize w.codesize arg with
    | error e => exact ⟨i, hk, rfl, fun _ h => h⟩
    | ok r =>
      dsimp only
      cases catchUp w.store { codeSize := r.1, writeonly := wo } with
      | error e => exact ⟨i, hk, rfl, fun _ h => h⟩
      | ok x =>
        refine ⟨i, ?_, rfl, fun _ h => h⟩
        simp only
        rw [List.getElem?_append_left hlt]
        exact hk
  | append j code data id b =>
    simp only [step]
    cases hj : w.insts[j]? with
    | none => exact ⟨i, hk, rfl, fun _ h => h⟩
    | some i0 =>
      apply hset
      intro i1 h1
      rw [hj] at h1
      cases h1
      exact (append_keeps w.store i0 code data id b).2
  | search j code n mt sort =>
    simp only [step]
    cases hj : w.insts[j]? with
    | none => exact ⟨i, hk, rfl, fun _ h => h⟩
    | some i0 =>
      apply hset
      intro i1 h1
      rw [hj] at h1
      cases h1
      exact (search_keeps np w.store i0 code n mt sort).2

theorem run_mem (np : Numpy) (ops : List Op) (k : Nat) : ∀ (w : World) (i : Inst), w.insts[k]? = some i →
    ∃ i', (run np w ops).insts[k]? = some i' ∧ i'.writeonly = i.writeonly ∧ ∀ p ∈ i.mem, p ∈ i'.mem := by
  induction ops with
  | nil => intro w i h; exact ⟨i, h, rfl, fun _ h => h⟩
  | cons op ops ih =>
    intro w i h
    obtain ⟨a, h1, h2, h3⟩ := step_mem np w op k i h
    obtain ⟨b, g1, g2, g3⟩ := ih _ a h1
    exact ⟨b, g1, g2.trans h2, fun p hp => g3 p (h3 p hp)⟩

theorem failures_of_append (np : Numpy) (w : World) (k id : Nat) (op : Op)
    (h : id ∈ failedId k op (step np w op).2) :
    ∃ code data, op = .append k code data id false ∧ newRec op (step np w op).2 = [] ∧
      ∃ i i', w.insts[k]? = some i ∧ (step np w op).1.insts[k]? = some i' ∧ i'.writeonly = i.writeonly ∧
        (i.writeonly = false → (id, code.encode) ∈ i'.mem) := by
  cases op with
  | «open» => simp [failedId] at h
  | search => simp [failedId] at h
  | append j code data id' b =>
    simp only [step] at h ⊢
    cases hj : w.insts[j]? with
    | none => simp [hj, failedId] at h
    | some i =>
      simp only [hj] at h
      dsimp only at h ⊢
      rw [append_all] at h ⊢
      have hlt : j < w.insts.length := by
        rw [List.getElem?_eq_some_iff] at hj
        exact hj.1
      by_cases e1 : code.len = i.codeSize
      · by_cases e2 : i.writeonly = false ∧ ¬ code.encode.length = i.codeSize
        · simp only [e1, ne_eq, not_true, if_false, e2, if_true, not_false_eq_true, and_self] at h
          simp [failedId] at h
        · simp only [e1, ne_eq, not_true, if_false, e2] at h ⊢
          cases b with
          | true => simp [failedId] at h
          | false =>
            simp only [Bool.false_eq_true, if_false, failedId] at h ⊢
            by_cases hk : j = k
            · subst hk
              simp only [if_true, List.mem_singleton] at h
              subst h
              refine ⟨code, data, rfl, rfl, i, _, hj, by simp only [List.getElem?_set, hlt, if_true]; rfl, ?_, ?_⟩
              · split <;> simp_all
              · intro hw
                simp [hw]
            · simp [hk] at h
      · simp only [ne_eq, e1, not_false_eq_true, if_true] at h
        simp [failedId] at h

theorem failures_ids (np : Numpy) (k : Nat) (ops : List Op) : ∀ w, ∀ id ∈ failures np w k ops, id ∈ ops.filterMap newId? := by
  induction ops with
  | nil => intro w id h; simp [failures] at h
  | cons op ops ih =>
    intro w id h
    rw [failures, List.mem_append] at h
    rcases h with h | h
    · obtain ⟨c, d, rfl, _⟩ := failures_of_append np w k id op h
      simp [newId?]
    · have := ih _ id h
      rw [List.filterMap_cons]
      split
      · exact this
      · exact List.mem_cons_of_mem _ this

/-- An id whose commit failed is no record's, and stays in the memory of a readable instance. -/
theorem failures_stay (np : Numpy) (k : Nat) (ops : List Op) : ∀ w, (ops.filterMap newId?).Nodup → ∀ id ∈ failures np w k ops,
    (∀ r ∈ accepted np w ops, r.id ≠ id) ∧ ∀ i, (run np w ops).insts[k]? = some i → i.writeonly = false → id ∈ i.mem.map Prod.fst := by
  induction ops with
  | nil => intro w _ id h; simp [failures] at h
  | cons op ops ih =>
    intro w hn id h
    have hn' : (ops.filterMap newId?).Nodup := by
      rw [List.filterMap_cons] at hn
      split at hn
      · exact hn
      · exact hn.of_cons
    rw [failures, List.mem_append] at h
    rcases h with h | h
    · obtain ⟨c, d, rfl, hnone, i, i', g1, g2, g3, g4⟩ := failures_of_append np w k id op h
      refine ⟨?_, ?_⟩
      · intro r hr
        rw [accepted, hnone, List.nil_append] at hr
        rintro rfl
        have := accepted_ids np ops _ r hr
        simp only [List.filterMap_cons, newId?, List.nodup_cons] at hn
        exact hn.1 this
      · intro j hj hw
        obtain ⟨j', e1, e2, e3⟩ := run_mem np ops k _ i' g2
        have : j' = j := by
          rw [run] at hj
          rw [e1] at hj
          exact Option.some.inj hj
        subst this
        exact List.mem_map.2 ⟨_, e3 _ (g4 (by rw [← g3, ← e2, hw])), rfl⟩
    · obtain ⟨a, b⟩ := ih _ hn' id h
      refine ⟨?_, b⟩
      intro r hr
      rw [accepted, List.mem_append] at hr
      rcases hr with hr | hr
      · rintro rfl
        have hmem := failures_ids np k ops _ r.id h
        cases op with
        | append j c d id' bb =>
          have : r.id = id' := by
            revert hr
            cases (step np w (.append j c d id' bb)).2 <;> simp [newRec]
            rintro rfl
            rfl
          simp only [List.filterMap_cons, newId?, List.nodup_cons] at hn
          exact hn.1 (this ▸ hmem)
        | «open» => simp [newRec] at hr
        | search => simp [newRec] at hr
      · exact a r hr

theorem run_append_one (np : Numpy) : ∀ (ops : List Op) (w : World) (op : Op), run np w (ops ++ [op]) = (step np (run np w ops) op).1 := by
  intro ops
  induction ops with
  | nil => intro w op; rfl
  | cons o ops ih => intro w op; simp only [List.cons_append, run]; exact ih _ _

theorem committed_fresh {ops : List Op} (h : FreshIds ops) : FreshIds (ops.filter committed) :=
  List.Nodup.sublist (List.Sublist.filterMap _ List.filter_sublist) h

theorem committed_commits (ops : List Op) : CommitsSucceed (ops.filter committed) := by
  intro k c d id h
  simp [committed] at h

theorem failures_append_search (np : Numpy) (k : Nat) (ops : List Op) (j : Nat) (code : PyText) (n : Nat) (mt sort : Bool) : ∀ w,
    failures np w k (ops ++ [.search j code n mt sort]) = failures np w k ops := by
  induction ops with
  | nil => intro w; simp [failures, failedId]
  | cons op ops ih => intro w; rw [List.cons_append, failures, failures, ih]

/-- **C70** (exactly when): commits may fail at any time, in any instance.  After its next search the memory of an instance has exactly the ids and
codes of the records in the store if and only if none of its own appends failed when it was committed; failures of other instances do not matter. -/
theorem C70_exact (np : Numpy) (ops : List Op) (h1 : FreshIds ops) (h3 : PlainCodes ops) (k : Nat) (i : Inst)
    (hk : (run np {} ops).insts[k]? = some i) (hw : i.writeonly = false) (code : PyText) (hlen : code.len = i.codeSize) (n : Nat) (mt sort : Bool) :
    (∃ i', (run np {} (ops ++ [.search k code n mt sort])).insts[k]? = some i' ∧
      i'.mem.Perm ((accepted np {} ops).map fun r => (r.id, r.code))) ↔ failures np {} k ops = [] := by
  constructor
  · rintro ⟨i', hi', hp⟩
    rw [List.eq_nil_iff_forall_not_mem]
    intro id hid
    obtain ⟨a, b⟩ := failures_stay np k ops {} h1 id hid
    have hm := b i hk hw
    obtain ⟨i'', e1, _, e3⟩ := step_mem np (run np {} ops) (.search k code n mt sort) k i hk
    rw [← run_append_one, hi'] at e1
    cases e1
    obtain ⟨p, hp1, rfl⟩ := List.mem_map.1 hm
    obtain ⟨r, hr, e⟩ := List.mem_map.1 (hp.mem_iff.1 (e3 p hp1))
    exact a r hr (by rw [← e])
  · intro hf
    obtain ⟨hs, ha⟩ := same_run np k ops {} {} ⟨rfl, rfl, rfl, by simp⟩ hf
    obtain ⟨i0, hk0⟩ := hs.get k i hk
    have e := (hs.insts k i i0 hk hk0).2.2 rfl
    subst e
    obtain ⟨i', g1, g2, _⟩ := C11_instances_agree np (ops.filter committed) (committed_fresh h1) (committed_commits ops)
      (fun k c d id b h => h3 k c d id b (List.mem_of_mem_filter h)) k i hk0 hw code hlen n mt sort
    obtain ⟨hs', _⟩ := same_run np k (ops ++ [.search k code n mt sort]) {} {} ⟨rfl, rfl, rfl, by simp⟩ (by rw [failures_append_search]; exact hf)
    rw [List.filter_append, show ([Op.search k code n mt sort].filter committed) = [Op.search k code n mt sort] from rfl] at hs'
    have hrun := run_append_one np ops {} (.search k code n mt sort)
    obtain ⟨i1, e1, _⟩ := step_mem np (run np {} ops) (.search k code n mt sort) k i hk
    rw [← hrun] at e1
    have e2 := (hs'.insts k i1 i' e1 g1).2.2 rfl
    exact ⟨i1, e1, by rw [e2, ha]; exact g2⟩

/-- **C70** (the store): whatever commits fail, the store holds exactly the records whose append returned. -/
theorem C70_store (np : Numpy) (ops : List Op) (h1 : FreshIds ops) :
    (run np {} ops).store.Perm ((accepted np {} ops).map fun r => (r.id, r.code ++ r.data)) := by
  have hbound : ∀ (ops : List Op) (w : World) (k : Nat), w.insts.length + ops.length ≤ k → failures np w k ops = [] := by
    intro ops
    induction ops with
    | nil => intro w k _; rfl
    | cons op ops ih =>
      intro w k hk
      rw [List.length_cons] at hk
      have hl : (step np w op).1.insts.length ≤ w.insts.length + 1 := by
        cases op with
        | «open» arg wo =>
          simp only [step, openDb]
          cases openSize w.codesize arg with
          | error e => simp
          | ok r =>
            dsimp only
            cases catchUp w.store { codeSize := r.1, writeonly := wo } <;> simp
        | append j c d id b =>
          simp only [step]
          cases w.insts[j]? <;> simp
        | search j c n mt sort =>
          simp only [step]
          cases w.insts[j]? <;> simp
      rw [failures, List.append_eq_nil_iff]
      refine ⟨?_, ih _ k (by omega)⟩
      rw [List.eq_nil_iff_forall_not_mem]
      intro id hid
      obtain ⟨_, _, _, _, i, _, hi, _⟩ := failures_of_append np w k id op hid
      rw [List.getElem?_eq_some_iff] at hi
      have := hi.1
      omega
  obtain ⟨hs, ha⟩ := same_run np ops.length ops {} {} ⟨rfl, rfl, rfl, by simp⟩ (hbound ops {} _ (by simp))
  rw [hs.store, ha]
  exact C11_store_is_log np _ (committed_fresh h1) (committed_commits ops)

/-! ## C71 -/

/-- **C71** (exactly when): a search succeeds if and only if fewer results are asked for than there are records; otherwise it is a ValueError. -/
theorem C71_exact (np : Numpy) (hl : Legal np) (ops : List Op) (h1 : FreshIds ops) (h2 : CommitsSucceed ops) (h3 : PlainCodes ops) (k : Nat) (i : Inst)
    (hk : (run np {} ops).insts[k]? = some i) (hw : i.writeonly = false) (q : Bytes) (hq : q.length = i.codeSize) (n : Nat) (mt sort : Bool) :
    ((∃ found, (step np (run np {} ops) (.search k (.bytes q) n mt sort)).2 = .ok found) ↔ n < (accepted np {} ops).length) ∧
    ((step np (run np {} ops) (.search k (.bytes q) n mt sort)).2 = .error .valueError ↔ (accepted np {} ops).length ≤ n) := by
  by_cases hn : n < (accepted np {} ops).length
  · obtain ⟨c, r, _, _, h, _⟩ := C12_nearest np hl ops h1 h2 h3 k i hk hw q hq n hn mt sort
    exact ⟨⟨fun _ => hn, fun _ => ⟨_, h⟩⟩, ⟨fun e => (by rw [h] at e; cases e), fun e => (by omega)⟩⟩
  · have h := C12_all_results_fails np ops h1 h2 k i hk hw q hq n (by omega) mt sort
    exact ⟨⟨fun ⟨_, e⟩ => (by rw [h] at e; cases e), fun e => absurd e hn⟩, ⟨fun _ => (by omega), fun _ => h⟩⟩

/-! ## C72 -/

/-- **C72** (exactly when): a code is accepted if and only if it has as many characters as the database's codes have bytes and, unless the instance is
writeonly, it has as many bytes; then it is stored under its id. -/
theorem C72_exact (np : Numpy) (w : World) (k : Nat) (i : Inst) (hk : w.insts[k]? = some i) (code data : PyText) (id : Nat) :
    ((step np w (.append k code data id true)).2 = .ok [] ↔ code.len = i.codeSize ∧ (i.writeonly = true ∨ code.encode.length = i.codeSize)) ∧
    ((step np w (.append k code data id true)).2 = .ok [] → (step np w (.append k code data id true)).1.store = Store.put id (code.encode ++ data.encode) w.store) ∧
    ((step np w (.append k code data id true)).2 ≠ .ok [] → (step np w (.append k code data id true)).1.store = w.store) := by
  simp only [step, hk]
  rw [append_all]
  by_cases e1 : code.len = i.codeSize
  · cases hw : i.writeonly with
    | true => simp [e1]
    | false =>
      by_cases e2 : code.encode.length = i.codeSize
      · simp [e1, e2]
      · simp [e1, e2]
  · simp [e1]

/-! ## Cases that meet the hypotheses -/

/-- Two instances; a commit of the second fails, and one of the first in the second history. -/
def failing (first : Bool) : List Op :=
  [.open (some 8) false, .open none false, .append 0 (code8 1) (.bytes [1]) 1 true, .append (if first then 0 else 1) (code8 2) (.bytes [2]) 2 false,
    .append 1 (code8 3) (.bytes [3]) 3 true]

example : FreshIds (failing true) ∧ FreshIds (failing false) ∧ failures np0 {} 0 (failing false) = [] ∧ failures np0 {} 0 (failing true) = [2] ∧
    (accepted np0 {} (failing true)).map Rec.id = [1, 3] := by
  unfold FreshIds
  decide +kernel

example : PlainCodes (failing true) := by
  intro k c d id b h
  simp only [failing, List.mem_cons, List.not_mem_nil, or_false] at h
  rcases h with h | h | h | h | h <;> cases h <;> trivial

theorem failing_ok : FreshIds (failing true) ∧ PlainCodes (failing true) := by
  refine ⟨by unfold FreshIds; decide +kernel, ?_⟩
  intro k c d id b h
  simp only [failing, List.mem_cons, List.not_mem_nil, or_false] at h
  rcases h with h | h | h | h | h <;> cases h <;> trivial
theorem failing_inst : ∃ i, (run np0 {} (failing true)).insts[1]? = some i ∧ i.writeonly = false ∧ i.codeSize = 8 := ⟨_, by rfl, rfl, rfl⟩
example := C70_store np0 (failing true) failing_ok.1
example : True := by
  obtain ⟨i, h1, h2, h3⟩ := failing_inst
  have := C70_exact np0 (failing true) failing_ok.1 failing_ok.2 1 i h1 h2 (code8 1) (by rw [h3]; rfl) 2 true true
  trivial
example : True := by
  obtain ⟨i, h1, h2, h3⟩ := demo_inst
  have := C71_exact np0 np0_legal demo demo_ok.1 demo_ok.2.1 demo_ok.2.2 1 i h1 h2 [1, 0, 0, 0, 0, 0, 0, 0] (by rw [h3]; rfl) 2 true true
  have := C72_exact np0 _ 1 i h1 (code8 1) (.bytes [1]) 77
  trivial

end Zounds.Props.HammingDb
