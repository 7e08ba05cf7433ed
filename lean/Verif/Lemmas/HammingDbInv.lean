import Verif.Lemmas.HammingDb
import Verif.Spec.HammingDb
/-! Invariant of every HammingDb history, and correctness of the search pipeline. -/

namespace Zounds.Props.HammingDb
open Zounds Zounds.HammingDb

/-! ## The invariant of every history -/

structure Inv (w : World) (log : List Rec) : Prop where
  perm : w.store.Perm (log.map fun r => (r.id, r.code ++ r.data))
  nodup : (log.map Rec.id).Nodup
  sizes : ∀ r ∈ log, ∃ cs, w.codesize = some cs ∧ cs ≤ r.code.length
  insts : ∀ i ∈ w.insts, w.codesize = some i.codeSize ∧ InstOk w.store i
  mod8 : ∀ cs, w.codesize = some cs → cs % 8 = 0

theorem Inv.store_nodup {w : World} {log : List Rec} (h : Inv w log) :
    (w.store.map Prod.fst).Nodup := by
  have := (h.perm.map Prod.fst).nodup_iff.2 (by rw [List.map_map]; exact h.nodup)
  exact this

theorem Inv.store_len {w : World} {log : List Rec} (h : Inv w log) {cs : Nat}
    (hc : w.codesize = some cs) : ∀ p ∈ w.store, cs ≤ p.2.length := by
  intro p hp
  have := h.perm.mem_iff.1 hp
  obtain ⟨r, hr, rfl⟩ := List.mem_map.1 this
  obtain ⟨cs', e, hle⟩ := h.sizes r hr
  rw [hc] at e
  cases e
  simp; omega

theorem Inv.open {w : World} {log : List Rec} (h : Inv w log) (arg : Option Nat) (wo : Bool) :
    Inv (openDb w arg wo).1 log := by
  unfold openDb
  cases hs : openSize w.codesize arg with
  | error e => exact h
  | ok r =>
    obtain ⟨cs, m⟩ := r
    have hm : m = some cs ∧ (w.codesize = some cs ∨ (w.codesize = none ∧ cs % 8 = 0)) := by
      revert hs
      unfold openSize
      cases w.codesize <;> cases arg <;> simp only <;> intro hs
      · cases hs
      · split at hs
        · cases hs
        · cases hs
          rename_i h8
          exact ⟨rfl, Or.inr ⟨trivial, by omega⟩⟩
      · cases hs; simp
      · split at hs <;> cases hs; simp
    obtain ⟨rfl, hold⟩ := hm
    have hsz : ∀ r ∈ log, ∃ cs', some cs = some cs' ∧ cs' ≤ r.code.length := by
      intro r hr
      obtain ⟨c, e, hle⟩ := h.sizes r hr
      rcases hold with e' | ⟨e', _⟩ <;> rw [e'] at e <;> cases e
      exact ⟨_, rfl, hle⟩
    have hin : ∀ i ∈ w.insts, some cs = some i.codeSize ∧ InstOk w.store i := by
      intro i hi
      obtain ⟨e, hle⟩ := h.insts i hi
      rcases hold with e' | ⟨e', _⟩ <;> rw [e'] at e <;> cases e
      exact ⟨rfl, hle⟩
    have h8 : ∀ c, some cs = some c → c % 8 = 0 := by
      intro c e
      cases e
      rcases hold with e' | ⟨_, e'⟩
      · exact h.mod8 _ e'
      · exact e'
    have hbase : Inv { w with codesize := some cs } log := ⟨h.perm, h.nodup, hsz, hin, h8⟩
    have hempty : InstOk w.store ({ codeSize := cs, writeonly := wo } : Inst) :=
      ⟨rfl, by simp, by simp, by simp⟩
    dsimp only
    cases hc : catchUp w.store { codeSize := cs, writeonly := wo } with
    | error e => exact hbase
    | ok i =>
      have hi : i.codeSize = cs ∧ InstOk w.store i := by
        unfold catchUp at hc
        cases wo with
        | true =>
          rw [catchUpLoop_writeonly _ rfl] at hc
          cases hc
          exact ⟨rfl, hempty⟩
        | false =>
          obtain ⟨i', e1, e2, _, e4, _⟩ := catchUpLoop_ok w.store cs (hbase.store_len rfl) w.store
            (fun _ h => h) _ rfl rfl hempty
          rw [e1] at hc
          cases hc
          exact ⟨e2, e4⟩
      refine ⟨h.perm, h.nodup, hsz, ?_, h8⟩
      intro j hj
      rcases List.mem_append.1 hj with hj | hj
      · exact hin j hj
      · rw [List.mem_singleton] at hj
        subst hj
        exact ⟨by rw [hi.1], hi.2⟩

/-- What an append by instance `i` does. -/
theorem append_cases (st : Store) (i : Inst) (code data : PyText) (id : Nat) :
    (∃ e, append st i code data id true = (st, i, .error e)) ∨
    (code.len = i.codeSize ∧
      ∃ i', append st i code data id true =
        (Store.put id (code.encode ++ data.encode) st, i', .ok ()) ∧ i'.codeSize = i.codeSize ∧
        ((i.writeonly = true ∧ i' = i) ∨ (i.writeonly = false ∧ code.encode.length = i.codeSize ∧
          i' = { i with mem := i.mem ++ [(id, code.encode)], ids := i.ids ++ [id] }))) := by
  unfold append validate
  split
  · rename_i e he
    exact Or.inl ⟨e, rfl⟩
  · rename_i h
    have hv : code.len = i.codeSize := by
      by_cases hc : code.len = i.codeSize
      · exact hc
      · simp [hc] at h
    unfold addCode
    by_cases hw : i.writeonly = true
    · rw [if_pos hw]
      exact Or.inr ⟨hv, i, rfl, rfl, Or.inl ⟨hw, rfl⟩⟩
    · rw [if_neg hw]
      by_cases hl : code.encode.length = i.codeSize
      · rw [if_neg (by simp [hl])]
        exact Or.inr ⟨hv, _, rfl, rfl, Or.inr ⟨by simpa using hw, hl, rfl⟩⟩
      · rw [if_pos hl]
        exact Or.inl ⟨_, rfl⟩

theorem mem_set {α : Type} {l : List α} {k : Nat} {x y : α} (h : y ∈ l.set k x) : y ∈ l ∨ y = x := by
  rcases List.mem_or_eq_of_mem_set h with h | h
  · exact Or.inl h
  · exact Or.inr h

theorem search_inst (np : Numpy) (st : Store) (i : Inst) (code : PyText) (n : Nat) (mt sort : Bool) :
    (search np st i code n mt sort).1 = i ∨
      (i.writeonly = false ∧ checkExternal st i = .ok (search np st i code n mt sort).1) := by
  unfold search
  split
  · exact Or.inl rfl
  · rename_i hw
    have hw : i.writeonly = false := by simpa using hw
    split
    · exact Or.inl rfl
    · split
      · exact Or.inl rfl
      · rename_i i' he
        refine Or.inr ⟨hw, ?_⟩
        split
        · exact he
        · split
          · exact he
          · split <;> exact he

/-- One step preserves the invariant, extending the log by what was accepted. -/
theorem step_inv (np : Numpy) (w : World) (log : List Rec) (op : Op) (h : Inv w log)
    (hfresh : ∀ k, newId? op = some k → k ∉ log.map Rec.id)
    (hok : ∀ k c d id, op ≠ .append k c d id false) :
    Inv (step np w op).1 (log ++ newRec op (step np w op).2) := by
  cases op with
  | «open» arg wo =>
    have := h.open arg wo
    simp only [step]
    cases ho : openDb w arg wo with
    | mk w' r =>
      rw [ho] at this
      cases r <;> simpa [newRec] using this
  | append k code data id b =>
    have hb : b = true := by
      cases b with
      | true => rfl
      | false => exact absurd rfl (hok k code data id)
    subst hb
    simp only [step]
    cases hk : w.insts[k]? with
    | none => simpa [newRec] using h
    | some i =>
      have hi : i ∈ w.insts := List.mem_of_getElem? hk
      obtain ⟨hcs, hiok⟩ := h.insts i hi
      dsimp only
      rcases append_cases w.store i code data id with ⟨e, he⟩ | ⟨hv, i', he, hcs', hcase⟩
      · rw [he]
        simp only [newRec, List.append_nil]
        refine ⟨h.perm, h.nodup, h.sizes, ?_, h.mod8⟩
        intro j hj
        rcases mem_set hj with hj | rfl
        · exact h.insts j hj
        · exact ⟨hcs, hiok⟩
      · rw [he]
        simp only [newRec]
        have hnew : id ∉ log.map Rec.id := hfresh id rfl
        have hnst : id ∉ w.store.map Prod.fst := by
          intro hm
          have := (h.perm.map Prod.fst).mem_iff.1 hm
          rw [List.map_map] at this
          exact hnew this
        have hp := put_perm id (code.encode ++ data.encode) w.store hnst
        have hmono : ∀ p ∈ w.store, p ∈ Store.put id (code.encode ++ data.encode) w.store :=
          fun p hp' => hp.mem_iff.2 (List.mem_cons_of_mem _ hp')
        refine ⟨?_, ?_, ?_, ?_, h.mod8⟩
        · rw [List.map_append]
          refine hp.trans (List.Perm.trans (h.perm.cons _) ?_)
          exact (List.perm_append_comm (l₁ := [_]))
        · rw [List.map_append, List.nodup_append]
          refine ⟨h.nodup, by simp, ?_⟩
          intro a ha b hb
          rintro rfl
          simp at hb
          exact hnew (hb ▸ ha)
        · intro r hr
          rcases List.mem_append.1 hr with hr | hr
          · exact h.sizes r hr
          · rw [List.mem_singleton] at hr
            subst hr
            refine ⟨_, hcs, ?_⟩
            have := encode_len_ge code
            simp only; omega
        · intro j hj
          rcases mem_set hj with hj | rfl
          · exact ⟨(h.insts j hj).1, (h.insts j hj).2.mono hmono⟩
          · refine ⟨by rw [hcs', hcs], ?_⟩
            rcases hcase with ⟨hw, rfl⟩ | ⟨hw, hl, rfl⟩
            · exact hiok.mono hmono
            · have hm := hiok.mono hmono
              have hnotin : id ∉ i.ids := by
                intro hin
                rw [hiok.ids_eq] at hin
                obtain ⟨p, hp', rfl⟩ := List.mem_map.1 hin
                obtain ⟨v, hv', _⟩ := hiok.sub p hp'
                exact hnst (List.mem_map.2 ⟨_, hv', rfl⟩)
              refine ⟨by simp [hm.ids_eq], ?_, ?_, by simp [hw]⟩
              · rw [List.nodup_append]
                refine ⟨hm.nodup, by simp, ?_⟩
                intro a ha b hb
                rintro rfl
                simp at hb
                exact hnotin (hb ▸ ha)
              · intro p hp'
                rcases List.mem_append.1 hp' with hp' | hp'
                · exact hm.sub p hp'
                · rw [List.mem_singleton] at hp'
                  subst hp'
                  refine ⟨_, hp.mem_iff.2 (List.mem_cons_self ..), ?_⟩
                  simp [← hl]
  | search k code n mt sort =>
    simp only [step]
    cases hk : w.insts[k]? with
    | none => simpa [newRec] using h
    | some i =>
      have hi : i ∈ w.insts := List.mem_of_getElem? hk
      obtain ⟨hcs, hiok⟩ := h.insts i hi
      simp only [newRec, List.append_nil]
      have hs := search_inst np w.store i code n mt sort
      generalize search np w.store i code n mt sort = res at hs
      obtain ⟨i', r⟩ := res
      refine ⟨h.perm, h.nodup, h.sizes, ?_, h.mod8⟩
      intro j hj
      rcases mem_set hj with hj | rfl
      · exact h.insts j hj
      · rcases hs with rfl | ⟨hw, hs⟩
        · exact ⟨hcs, hiok⟩
        · obtain ⟨i'', e1, e2, _, e4, _⟩ :=
            checkExternal_ok w.store i h.store_nodup (h.store_len hcs) hw hiok
          rw [e1] at hs
          cases hs
          exact ⟨by rw [e2, hcs], e4⟩

theorem accepted_ids (np : Numpy) (ops : List Op) : ∀ w, ∀ r ∈ accepted np w ops,
    r.id ∈ ops.filterMap newId? := by
  induction ops with
  | nil => intro w r hr; simp [accepted] at hr
  | cons op ops ih =>
    intro w r hr
    unfold accepted at hr
    rcases List.mem_append.1 hr with hr | hr
    · unfold newRec at hr
      split at hr
      · simp at hr; subst hr; simp [newId?]
      · simp at hr
    · have := ih _ r hr
      rw [List.filterMap_cons]
      split
      · exact this
      · exact List.mem_cons_of_mem _ this

theorem run_inv (np : Numpy) (ops : List Op) : ∀ (w : World) (log : List Rec), Inv w log →
    (log.map Rec.id ++ ops.filterMap newId?).Nodup → CommitsSucceed ops →
    Inv (run np w ops) (log ++ accepted np w ops) := by
  induction ops with
  | nil => intro w log h _ _; simpa [run, accepted] using h
  | cons op ops ih =>
    intro w log h hn hc
    unfold run accepted
    rw [← List.append_assoc]
    apply ih
    · apply step_inv np w log op h
      · intro k hk hm
        rw [List.filterMap_cons, hk] at hn
        rw [List.nodup_append] at hn
        exact hn.2.2 k hm k (by simp) rfl
      · intro k c d id e
        exact hc k c d id (by simp [e])
    · rw [List.map_append, List.append_assoc]
      refine List.Nodup.sublist ?_ hn
      apply List.Sublist.append_left
      cases op with
      | append k c d id b =>
        simp only [List.filterMap_cons, newId?]
        cases (step np w (.append k c d id b)).2 <;> simp [newRec]
      | «open» a b =>
        simp [newRec, List.filterMap_cons, newId?]
      | search => simp [newRec, List.filterMap_cons, newId?]
    · intro k c d id hm
      exact hc k c d id (List.mem_cons_of_mem _ hm)

theorem init_inv : Inv {} [] := ⟨List.Perm.refl _, by simp, by simp, by simp, by simp⟩

theorem history_inv (np : Numpy) (ops : List Op) (h1 : FreshIds ops) (h2 : CommitsSucceed ops) :
    Inv (run np {} ops) (accepted np {} ops) := by
  have := run_inv np ops {} [] init_inv (by simpa [FreshIds] using h1) h2
  simpa using this

/-! ## Code sizes -/

theorem openDb_codesize (w : World) (arg : Option Nat) (wo : Bool) :
    (openDb w arg wo).1.codesize =
      match w.codesize, arg with
      | some cs, _ => some cs
      | none, some a => if a % 8 = 0 then some a else none
      | none, none => none := by
  unfold openDb openSize
  cases hc : w.codesize with
  | some cs =>
    cases arg with
    | none => dsimp only; split <;> rfl
    | some a =>
      dsimp only
      by_cases h : a ≠ 0 ∧ a ≠ cs
      · rw [if_pos h]; exact hc
      · rw [if_neg h]; dsimp only; split <;> rfl
  | none =>
    cases arg with
    | none => exact hc
    | some a =>
      dsimp only
      by_cases h : a % 8 = 0
      · rw [if_neg (by simp [h]), if_pos h]; dsimp only; split <;> rfl
      · rw [if_pos h, if_neg h]; exact hc

theorem step_codesize (np : Numpy) (w : World) (op : Op) :
    (step np w op).1.codesize =
      match w.codesize, op with
      | some cs, _ => some cs
      | none, .open (some a) _ => if a % 8 = 0 then some a else none
      | none, _ => none := by
  cases op with
  | «open» arg wo =>
    have h := openDb_codesize w arg wo
    have : (step np w (.open arg wo)).1 = (openDb w arg wo).1 := by
      simp only [step]
      split <;> simp_all
    rw [this, h]
    cases w.codesize <;> cases arg <;> rfl
  | append k c d id b =>
    simp only [step]
    split <;> (cases hc : w.codesize <;> simp [hc])
  | search k c n mt s =>
    simp only [step]
    split <;> (cases hc : w.codesize <;> simp [hc])

theorem run_codesize (np : Numpy) (ops : List Op) : ∀ w : World,
    (run np w ops).codesize = match w.codesize with | some cs => some cs | none => firstSize ops := by
  induction ops with
  | nil => intro w; simp only [run, firstSize]; cases w.codesize <;> rfl
  | cons op ops ih =>
    intro w
    simp only [run]
    rw [ih, step_codesize]
    cases hc : w.codesize with
    | some cs => rfl
    | none =>
      cases op with
      | «open» arg wo =>
        cases arg with
        | none => rfl
        | some a =>
          simp only [firstSize]
          by_cases h : a % 8 = 0 <;> simp [h]
      | append => rfl
      | search => rfl

theorem plain_len (t : PyText) (h : Plain t) : t.encode.length = t.len := by
  cases t with
  | bytes b => rfl
  | str cs =>
    simp only [PyText.len, PyText.encode]
    induction cs with
    | nil => rfl
    | cons c cs ih =>
      simp only [List.flatMap_cons, List.length_cons, List.length_append]
      have h1 : (String.utf8EncodeChar c).length = 1 := by
        have := h c (by simp)
        unfold String.utf8EncodeChar
        dsimp only
        rw [if_pos (by unfold Char.toNat at this; omega)]
        rfl
      have h2 := ih (fun x hx => h x (by simp [hx]))
      omega

/-- Every accepted plain code has the size of the database. -/
theorem exact_sizes (np : Numpy) (ops : List Op) : ∀ (w : World) (log : List Rec), Inv w log →
    (log.map Rec.id ++ ops.filterMap newId?).Nodup → CommitsSucceed ops → PlainCodes ops →
    (∀ r ∈ log, w.codesize = some r.code.length) →
    ∀ r ∈ log ++ accepted np w ops, (run np w ops).codesize = some r.code.length := by
  induction ops with
  | nil => intro w log _ _ _ _ h r hr; exact h r (by simpa [accepted] using hr)
  | cons op ops ih =>
    intro w log h hn hc hpl hex
    have hi : Inv (step np w op).1 (log ++ newRec op (step np w op).2) := by
      apply step_inv np w log op h
      · intro k hk hm
        rw [List.filterMap_cons, hk] at hn
        rw [List.nodup_append] at hn
        exact hn.2.2 k hm k (by simp) rfl
      · intro k c d id e
        exact hc k c d id (by simp [e])
    unfold run accepted
    rw [← List.append_assoc]
    apply ih _ _ hi
    · rw [List.map_append, List.append_assoc]
      refine List.Nodup.sublist ?_ hn
      apply List.Sublist.append_left
      cases op with
      | append k c d id b =>
        simp only [List.filterMap_cons, newId?]
        cases (step np w (.append k c d id b)).2 <;> simp [newRec]
      | «open» a b =>
        simp [newRec, List.filterMap_cons, newId?]
      | search => simp [newRec, List.filterMap_cons, newId?]
    · intro k c d id hm
      exact hc k c d id (List.mem_cons_of_mem _ hm)
    · intro k c d id b hm
      exact hpl k c d id b (List.mem_cons_of_mem _ hm)
    · intro r hr
      rcases List.mem_append.1 hr with hr | hr
      · rw [step_codesize, hex r hr]
      · cases op with
        | «open» a b => simp [newRec] at hr
        | search => simp [newRec] at hr
        | append k c d id b =>
          have hb : b = true := by
            cases b with
            | true => rfl
            | false => exact absurd (List.mem_cons_self ..) (hc k c d id)
          subst hb
          rw [step_codesize]
          have hplain := hpl k c d id true (List.mem_cons_self ..)
          revert hr
          simp only [step]
          cases hk : w.insts[k]? with
          | none => simp [newRec]
          | some i =>
            obtain ⟨hcs, _⟩ := h.insts i (List.mem_of_getElem? hk)
            rcases append_cases w.store i c d id with ⟨e, he⟩ | ⟨hv, i', he, _⟩
            · dsimp only; rw [he]; simp [newRec]
            · dsimp only; rw [he]
              simp only [newRec, List.mem_singleton]
              rintro rfl
              rw [hcs]
              simp only [plain_len c hplain, hv]

theorem history_exact (np : Numpy) (ops : List Op) (h1 : FreshIds ops) (h2 : CommitsSucceed ops)
    (h3 : PlainCodes ops) :
    ∀ r ∈ accepted np {} ops, (run np {} ops).codesize = some r.code.length := by
  have := exact_sizes np ops {} [] init_inv (by simpa [FreshIds] using h1) h2 h3 (by simp)
  simpa using this

/-! ## The search pipeline -/

theorem take_chunks {α : Type} (c : Nat) (l : List α) (k : Nat) :
    ((List.range k).map fun j => (l.drop (j * c)).take c).flatten = l.take (k * c) := by
  induction k with
  | zero => simp
  | succ k ih =>
    rw [List.range_succ, List.map_append, List.flatten_append, ih, Nat.succ_mul, List.take_add]
    simp

theorem flatten_chunks {α : Type} (c : Nat) (hc : 1 ≤ c) (l : List α) : (chunks c l).flatten = l := by
  unfold chunks
  rw [take_chunks]
  apply List.take_of_length_le
  have h1 := Nat.div_add_mod (l.length + c - 1) c
  have h2 := Nat.mod_lt (l.length + c - 1) (show c > 0 by omega)
  rw [Nat.mul_comm] at h1
  omega

theorem scores_eq (np : Numpy) (mt : Bool) (q : List (BitVec 64)) (codes : List (List (BitVec 64)))
    (h : codes ≠ []) : scores np mt q codes = .ok (Zounds.PopCount.packedDistance q codes) := by
  unfold scores
  cases mt with
  | false => simp
  | true =>
    have hc : 1 ≤ max 1 (codes.length / np.threads) := by omega
    have hf := flatten_chunks _ hc codes
    have hne : chunks (max 1 (codes.length / np.threads)) codes ≠ [] := by
      intro e
      rw [e] at hf
      exact h (by simpa using hf.symm)
    rw [if_neg (by simp), if_neg (by simpa using hne)]
    unfold Zounds.PopCount.packedDistance
    rw [← List.map_flatten, hf]

theorem scores_length (np : Numpy) (mt : Bool) (q : List (BitVec 64)) (codes : List (List (BitVec 64)))
    (sc : List Nat) (h : scores np mt q codes = .ok sc) : sc.length = codes.length := by
  by_cases hc : codes = []
  · subst hc
    unfold scores at h
    cases mt with
    | false => simp [Zounds.PopCount.packedDistance] at h; simp [← h]
    | true => simp [chunks] at h
  · rw [scores_eq np mt q codes hc] at h
    cases h
    simp [Zounds.PopCount.packedDistance]

theorem perm_map_exists {α β : Type} (f : α → β) {a b : List β} (h : a.Perm b) :
    ∀ l : List α, b = l.map f → ∃ l' : List α, l'.Perm l ∧ a = l'.map f := by
  induction h with
  | nil => intro l hl; exact ⟨l, List.Perm.refl _, hl⟩
  | cons x _ ih =>
    intro l hl
    cases l with
    | nil => simp at hl
    | cons y l =>
      simp only [List.map_cons, List.cons.injEq] at hl
      obtain ⟨l', h1, h2⟩ := ih l hl.2
      exact ⟨y :: l', h1.cons _, by simp [hl.1, h2]⟩
  | swap x y l0 =>
    intro l hl
    match l with
    | [] => simp at hl
    | [_] => simp at hl
    | a :: b :: l =>
      simp only [List.map_cons, List.cons.injEq] at hl
      exact ⟨b :: a :: l, List.Perm.swap _ _ _, by simp [hl.1, hl.2.1, hl.2.2]⟩
  | trans _ _ ih1 ih2 =>
    intro l hl
    obtain ⟨l1, h1, h2⟩ := ih2 l hl
    obtain ⟨l2, h3, h4⟩ := ih1 l1 h2
    exact ⟨l2, h3.trans h1, h4⟩

theorem map_getD_range {α : Type} (l : List α) (d : α) :
    (List.range l.length).map (fun k => l.getD k d) = l := by
  apply List.ext_getElem
  · simp
  · intro i h1 h2
    simp [h2]

/-- Bit distance of byte strings through the packed representation. -/
theorem xor_cons (b m x y : Nat) (hb : b < 256) (hm : m < 256) :
    (b + 256 * x) ^^^ (m + 256 * y) = (b ^^^ m) + 256 * (x ^^^ y) := by
  have hbm : b ^^^ m < 256 := Nat.xor_lt_two_pow (n := 8) hb hm
  apply Nat.eq_of_testBit_eq
  intro i
  rw [Nat.testBit_xor, Zounds.PopCount.testBit_cons _ _ _ hb, Zounds.PopCount.testBit_cons _ _ _ hm,
    Zounds.PopCount.testBit_cons _ _ _ hbm]
  split <;> simp

theorem leValue_eq (bs : List UInt8) : leValue bs = Zounds.PopCount.ofBytes (bs.map UInt8.toNat) := by
  induction bs with
  | nil => rfl
  | cons b bs ih => simp [leValue, Zounds.PopCount.ofBytes, ih]

theorem leValue_xor (a : List UInt8) : ∀ b : List UInt8, a.length = b.length →
    leValue a ^^^ leValue b = Zounds.PopCount.ofBytes (List.zipWith (fun x y : UInt8 => x.toNat ^^^ y.toNat) a b) := by
  induction a with
  | nil => intro b h; cases b <;> simp_all [leValue, Zounds.PopCount.ofBytes]
  | cons x xs ih =>
    intro b h
    cases b with
    | nil => simp at h
    | cons y ys =>
      simp only [leValue, List.zipWith_cons_cons, Zounds.PopCount.ofBytes]
      rw [xor_cons _ _ _ _ (UInt8.toNat_lt x) (UInt8.toNat_lt y), ih ys (by simpa using h)]

theorem leValue_lt (a : List UInt8) : leValue a < 256 ^ a.length := by
  rw [leValue_eq]
  have := Zounds.PopCount.ofBytes_lt (a.map UInt8.toNat) (by
    intro b hb
    obtain ⟨x, _, rfl⟩ := List.mem_map.1 hb
    exact UInt8.toNat_lt x)
  simpa using this

theorem bitDistance_eq (a : List UInt8) : ∀ b : List UInt8, a.length = b.length →
    bitDistance a b =
      ((List.zipWith (fun x y : UInt8 => x.toNat ^^^ y.toNat) a b).map (Zounds.PopCount.popN 8)).sum := by
  induction a with
  | nil => intro b h; cases b <;> simp_all [bitDistance]
  | cons x xs ih =>
    intro b h
    cases b with
    | nil => simp at h
    | cons y ys =>
      simp only [bitDistance, List.zipWith_cons_cons, List.map_cons, List.sum_cons]
      rw [ih ys (by simpa using h)]
      refine congrArg (· + _) ?_
      unfold Zounds.PopCount.popN
      refine congrArg List.length (List.filter_congr ?_)
      intro i _
      simp

theorem word_distance (a b : List UInt8) (ha : a.length = 8) (hb : b.length = 8) :
    ((List.range 64).filter fun i =>
      (BitVec.ofNat 64 (leValue a)).getLsbD i != (BitVec.ofNat 64 (leValue b)).getLsbD i).length =
      bitDistance a b := by
  rw [bitDistance_eq a b (by omega)]
  have hz := Zounds.PopCount.popN_ofBytes (List.zipWith (fun x y : UInt8 => x.toNat ^^^ y.toNat) a b) (by
    intro z hz
    rw [List.mem_iff_getElem] at hz
    obtain ⟨k, hk, rfl⟩ := hz
    rw [List.getElem_zipWith]
    exact Nat.xor_lt_two_pow (n := 8) (UInt8.toNat_lt _) (UInt8.toNat_lt _))
  rw [← hz]
  have hlen : (List.zipWith (fun x y : UInt8 => x.toNat ^^^ y.toNat) a b).length = 8 := by
    simp [ha, hb]
  rw [hlen, ← leValue_xor a b (by omega)]
  unfold Zounds.PopCount.popN
  refine congrArg List.length (List.filter_congr ?_)
  intro i hi
  rw [List.mem_range] at hi
  rw [BitVec.getLsbD_ofNat, BitVec.getLsbD_ofNat]
  simp [hi, Nat.testBit_xor]

theorem bitDistance_append (a b : List UInt8) : ∀ c d : List UInt8, a.length = c.length →
    bitDistance (a ++ b) (c ++ d) = bitDistance a c + bitDistance b d := by
  induction a with
  | nil => intro c d h; cases c <;> simp_all [bitDistance]
  | cons x xs ih =>
    intro c d h
    cases c with
    | nil => simp at h
    | cons y ys =>
      simp only [List.cons_append, bitDistance]
      rw [ih ys d (by simpa using h)]
      omega

theorem toWords_distance : ∀ (n : Nat) (a b : List UInt8), a.length = 8 * n → b.length = 8 * n →
    Props.PopCount.differingBits (toWords a) (toWords b) = bitDistance a b := by
  intro n
  induction n with
  | zero =>
    intro a b ha hb
    have : a = [] := List.length_eq_zero_iff.1 (by omega)
    have : b = [] := List.length_eq_zero_iff.1 (by omega)
    subst a; subst b; rfl
  | succ n ih =>
    intro a b ha hb
    match a, b, ha, hb with
    | a0 :: a1 :: a2 :: a3 :: a4 :: a5 :: a6 :: a7 :: ra, b0 :: b1 :: b2 :: b3 :: b4 :: b5 :: b6 :: b7 :: rb, ha, hb =>
      simp only [toWords, Props.PopCount.differingBits]
      rw [word_distance _ _ rfl rfl, ih ra rb (by simp at ha; omega) (by simp at hb; omega)]
      exact (bitDistance_append [a0,a1,a2,a3,a4,a5,a6,a7] ra [b0,b1,b2,b3,b4,b5,b6,b7] rb rfl).symm

/-- Fetching the data of existing records. -/
theorem fetch_ok (st : Store) (cs : Nat) (hn : (st.map Prod.fst).Nodup) (rs : List Rec)
    (hm : ∀ r ∈ rs, (r.id, r.code ++ r.data) ∈ st ∧ r.code.length = cs) :
    fetch st cs (rs.map Rec.id) = .ok (rs.map Rec.data) := by
  induction rs with
  | nil => rfl
  | cons r rs ih =>
    have ih := ih (fun x hx => hm x (List.mem_cons_of_mem _ hx))
    obtain ⟨h1, h2⟩ := hm r (List.mem_cons_self ..)
    simp only [List.map_cons, fetch, get?_of_mem _ _ _ hn h1, ih]
    simp [← h2]

/-- Selection picks a permutation prefix, sorted when asked. -/
theorem select_ok (np : Numpy) (hl : Legal np) (sc : List Nat) (n : Nat) (sort : Bool)
    (hn : n < sc.length) :
    ∃ idx rest, select np sc n sort = .ok idx ∧ (idx ++ rest).Perm (List.range sc.length) ∧
      idx.length = n ∧ (∀ a ∈ idx, ∀ b ∈ rest, sc.getD a 0 ≤ sc.getD b 0) ∧
      (sort = true → idx.Pairwise fun a b => sc.getD a 0 ≤ sc.getD b 0) := by
  have hp := hl.part_perm sc n hn
  have hle := hl.part_le sc n hn
  have hlen : (np.argpartition sc n).length = sc.length := by rw [hp.length_eq]; simp
  unfold select
  rw [if_neg (by omega)]
  cases sort with
  | false =>
    refine ⟨_, (np.argpartition sc n).drop n, rfl, ?_, ?_, hle, by simp⟩
    · rw [List.take_append_drop]; exact hp
    · rw [List.length_take]; omega
  | true =>
    generalize hpart : (np.argpartition sc n).take n = part at *
    have hplen : part.length = n := by rw [← hpart, List.length_take]; omega
    simp only [if_true]
    have hs := hl.sort_perm (part.map fun k => sc.getD k 0)
    have hsl := hl.sort_le (part.map fun k => sc.getD k 0)
    generalize np.argsort (part.map fun k => sc.getD k 0) = order at *
    have hperm : (order.map fun k => part.getD k 0).Perm part := by
      have := hs.map (fun k => part.getD k 0)
      rw [List.length_map, map_getD_range] at this
      exact this
    refine ⟨_, (np.argpartition sc n).drop n, rfl, ?_, ?_, ?_, ?_⟩
    · refine (List.Perm.append_right _ hperm).trans ?_
      rw [← hpart, List.take_append_drop]; exact hp
    · rw [hperm.length_eq, hplen]
    · intro a ha b hb
      exact hle a (hperm.mem_iff.1 ha) b hb
    · intro _
      rw [List.pairwise_map]
      refine hsl.imp_of_mem ?_
      intro a b ha hb hab
      have ha' : a < part.length := by
        have := hs.mem_iff.1 ha; simpa using this
      have hb' : b < part.length := by
        have := hs.mem_iff.1 hb; simpa using this
      simpa [ha', hb'] using hab

/-- The whole pipeline, from the invariant. -/
theorem search_correct (np : Numpy) (hl : Legal np) (w : World) (log : List Rec) (h : Inv w log)
    (i : Inst) (hi : i ∈ w.insts) (hw : i.writeonly = false)
    (hexact : ∀ r ∈ log, r.code.length = i.codeSize)
    (q : Bytes) (hq : q.length = i.codeSize) (n : Nat) (hn : n < log.length) (mt sort : Bool) :
    ∃ chosen rest : List Rec, (chosen ++ rest).Perm log ∧ chosen.length = n ∧
      (search np w.store i (.bytes q) n mt sort).2 = .ok (chosen.map Rec.data) ∧
      (∀ c ∈ chosen, ∀ r ∈ rest, bitDistance q c.code ≤ bitDistance q r.code) ∧
      (sort = true → chosen.Pairwise fun a b => bitDistance q a.code ≤ bitDistance q b.code) := by
  obtain ⟨hcs, hiok⟩ := h.insts i hi
  have h8 := h.mod8 _ hcs
  obtain ⟨i', e1, e2, _, _, e5⟩ := checkExternal_ok w.store i h.store_nodup (h.store_len hcs) hw hiok
  have hmem : i'.mem.Perm (log.map fun r => (r.id, r.code)) := by
    refine e5.trans ((h.perm.map _).trans ?_)
    rw [List.map_map]
    apply List.Perm.of_eq
    apply List.map_congr_left
    intro r hr
    simp [← hexact r hr]
  obtain ⟨log', hp', hmem'⟩ := perm_map_exists _ hmem log rfl
  have hlen' : log'.length = log.length := hp'.length_eq
  have hin' : ∀ r ∈ log', r ∈ log := fun r hr => hp'.mem_iff.1 hr
  have hsc : Zounds.PopCount.packedDistance (toWords q) (i'.mem.map fun r => toWords r.2) =
      log'.map fun r => bitDistance q r.code := by
    rw [Props.PopCount.C13_packed_distance, List.map_map, hmem', List.map_map]
    apply List.map_congr_left
    intro r hr
    have hr' := hexact r (hin' r hr)
    have := toWords_distance (i.codeSize / 8) q r.code (by omega) (by omega)
    exact this
  have hne : (i'.mem.map fun r => toWords r.2) ≠ [] := by
    intro e
    have : (i'.mem.map fun r => toWords r.2).length = 0 := by rw [e]; rfl
    rw [List.length_map, hmem', List.length_map] at this
    omega
  generalize hd : (fun r : Rec => bitDistance q r.code) = dist at *
  have hscl : (log'.map dist).length = log.length := by simp [hlen']
  obtain ⟨idx, rest, s1, s2, s3, s4, s5⟩ := select_ok np hl (log'.map dist) n sort (by omega)
  have hget : ∀ k, k < log'.length → (log'.map dist).getD k 0 = dist (log'.getD k default) := by
    intro k hk
    simp [hk]
  have hlt : ∀ k ∈ idx ++ rest, k < log'.length := by
    intro k hk
    have := s2.mem_iff.1 hk
    simpa using this
  refine ⟨idx.map fun k => log'.getD k default, rest.map fun k => log'.getD k default, ?_, ?_, ?_, ?_, ?_⟩
  · rw [← List.map_append]
    refine (s2.map _).trans ?_
    rw [List.length_map, map_getD_range]
    exact hp'
  · simp [s3]
  · unfold search
    rw [if_neg (by simp [hw])]
    have hv : validate i (.bytes q) = .ok () := by simp [validate, PyText.len, hq]
    rw [hv]
    dsimp only
    rw [e1]
    dsimp only
    rw [scores_eq np mt _ _ hne, hsc]
    dsimp only
    rw [s1]
    dsimp only
    rw [e2]
    have hids : (idx.map fun k => (i'.mem.getD k (0, [])).1) =
        (idx.map fun k => log'.getD k default).map Rec.id := by
      rw [List.map_map]
      apply List.map_congr_left
      intro k hk
      have hk' := hlt k (List.mem_append_left _ hk)
      rw [hmem']
      simp [hk']
    rw [hids]
    apply fetch_ok _ _ h.store_nodup
    intro r hr
    obtain ⟨k, hk, rfl⟩ := List.mem_map.1 hr
    have hk' := hlt k (List.mem_append_left _ hk)
    have hrin : log'.getD k default ∈ log := by
      apply hin'
      rw [List.getD_eq_getElem?_getD, List.getElem?_eq_getElem hk']
      exact List.getElem_mem _
    exact ⟨h.perm.mem_iff.2 (List.mem_map.2 ⟨_, hrin, rfl⟩), hexact _ hrin⟩
  · intro c hc r hr
    obtain ⟨a, ha, rfl⟩ := List.mem_map.1 hc
    obtain ⟨b, hb, rfl⟩ := List.mem_map.1 hr
    have := s4 a ha b hb
    rw [hget a (hlt a (List.mem_append_left _ ha)), hget b (hlt b (List.mem_append_right _ hb))] at this
    rw [← hd] at this
    exact this
  · intro hs
    rw [List.pairwise_map]
    refine (s5 hs).imp_of_mem ?_
    intro a b ha hb hab
    rw [hget a (hlt a (List.mem_append_left _ ha)), hget b (hlt b (List.mem_append_left _ hb))] at hab
    rw [← hd] at hab
    exact hab

end Zounds.Props.HammingDb
