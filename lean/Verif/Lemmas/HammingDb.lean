import Verif.Model.HammingDb
import Verif.Props.PopCount
import Mathlib.Data.List.Perm.Subperm
import Mathlib.Data.List.Nodup
/-! Helper lemmas for the HammingDb model. -/

namespace Zounds.HammingDb
open Zounds

theorem put_perm (k : Nat) (v : Bytes) (st : Store) (h : k ∉ st.map Prod.fst) :
    (Store.put k v st).Perm ((k, v) :: st) := by
  induction st with
  | nil => exact List.Perm.refl _
  | cons p r ih =>
    obtain ⟨k', v'⟩ := p
    simp only [List.map_cons, List.mem_cons, not_or] at h
    unfold Store.put
    split
    · exact List.Perm.refl _
    · split
      · exact absurd (by assumption) h.1
      · exact ((ih h.2).cons _).trans (List.Perm.swap _ _ _)

theorem get?_of_mem (k : Nat) (v : Bytes) (st : Store) (hn : (st.map Prod.fst).Nodup)
    (h : (k, v) ∈ st) : Store.get? k st = some v := by
  induction st with
  | nil => simp at h
  | cons p r ih =>
    obtain ⟨k', v'⟩ := p
    simp only [List.map_cons, List.nodup_cons] at hn
    unfold Store.get?
    rcases List.mem_cons.1 h with h1 | h1
    · cases h1; simp
    · have : k ≠ k' := by
        intro e
        exact hn.1 (List.mem_map.2 ⟨(k, v), h1, e⟩)
      simp [this, ih hn.2 h1]

/-- A well-formed instance relative to a store. -/
structure InstOk (st : Store) (i : Inst) : Prop where
  ids_eq : i.ids = i.mem.map Prod.fst
  nodup : i.ids.Nodup
  sub : ∀ p ∈ i.mem, ∃ v, (p.1, v) ∈ st ∧ p.2 = v.take i.codeSize
  wo : i.writeonly = true → i.mem = []

theorem catchUpLoop_writeonly (i : Inst) (h : i.writeonly = true) (l : Store) :
    catchUpLoop i l = .ok i := by
  induction l with
  | nil => rfl
  | cons p r ih =>
    unfold catchUpLoop
    split
    · exact ih
    · simp [addCode, h, ih]

theorem catchUpLoop_ok (st : Store) (cs : Nat)
    (hlen : ∀ p ∈ st, cs ≤ p.2.length) (l : Store) (hl : ∀ p ∈ l, p ∈ st) :
    ∀ i : Inst, i.codeSize = cs → i.writeonly = false → InstOk st i →
    ∃ i', catchUpLoop i l = .ok i' ∧ i'.codeSize = cs ∧ i'.writeonly = false ∧ InstOk st i' ∧
      (∀ x ∈ i.ids, x ∈ i'.ids) ∧ (∀ p ∈ l, p.1 ∈ i'.ids) := by
  induction l with
  | nil => intro i h1 h2 h3; exact ⟨i, rfl, h1, h2, h3, fun _ h => h, by simp⟩
  | cons p r ih =>
    intro i h1 h2 h3
    have ih := ih (fun q hq => hl q (List.mem_cons_of_mem _ hq))
    unfold catchUpLoop
    by_cases hm : p.1 ∈ i.ids
    · obtain ⟨i', e1, e2, e3, e4, e5, e6⟩ := ih i h1 h2 h3
      refine ⟨i', by simp [hm, e1], e2, e3, e4, e5, ?_⟩
      intro q hq
      rcases List.mem_cons.1 hq with rfl | hq
      · exact e5 _ hm
      · exact e6 q hq
    · have hp := hl p (List.mem_cons_self ..)
      have hl1 : (p.2.take i.codeSize).length = i.codeSize := by
        have := hlen p hp
        rw [List.length_take, h1]; omega
      let j : Inst := { i with mem := i.mem ++ [(p.1, p.2.take i.codeSize)], ids := i.ids ++ [p.1] }
      have hj : InstOk st j := by
        refine ⟨by simp [j, h3.ids_eq], ?_, ?_, by simp [j, h2]⟩
        · simp only [j]
          rw [List.nodup_append]
          refine ⟨h3.nodup, by simp, ?_⟩
          intro a ha b hb
          rintro rfl
          simp at hb
          exact hm (hb ▸ ha)
        · intro q hq
          rcases List.mem_append.1 hq with hq | hq
          · exact h3.sub q hq
          · rw [List.mem_singleton] at hq
            subst hq
            exact ⟨p.2, hp, rfl⟩
      obtain ⟨i', e1, e2, e3, e4, e5, e6⟩ := ih j h1 h2 hj
      refine ⟨i', ?_, e2, e3, e4, fun x hx => e5 x (List.mem_append_left _ hx), ?_⟩
      · have ha : addCode i p.1 (p.2.take i.codeSize) = .ok j := by
          unfold addCode
          rw [if_neg (by simp [h2]), if_neg (by simp only [hl1]; simp)]
        simp only [hm, if_false, ha]
        exact e1
      · intro q hq
        rcases List.mem_cons.1 hq with rfl | hq
        · exact e5 _ (by simp [j])
        · exact e6 q hq

/-- The rows an up to date instance holds. -/
def rowsOf (cs : Nat) (st : Store) : List (Nat × Bytes) := st.map fun p => (p.1, p.2.take cs)

theorem map_fst_nodup_subset_perm {α β : Type} [DecidableEq α] [DecidableEq β] (a b : List (α × β))
    (ha : (a.map Prod.fst).Nodup) (hab : ∀ p ∈ a, p ∈ b) (hlen : b.length ≤ a.length) : a.Perm b :=
  (List.subperm_of_subset (List.Nodup.of_map _ ha) (fun p hp => hab p hp)).perm_of_length_le hlen

theorem InstOk.sub_rows {st : Store} {i : Inst} (h : InstOk st i) :
    ∀ p ∈ i.mem, p ∈ rowsOf i.codeSize st := by
  intro p hp
  obtain ⟨v, hv, e⟩ := h.sub p hp
  exact List.mem_map.2 ⟨(p.1, v), hv, by rw [← e]⟩

theorem checkExternal_ok (st : Store) (i : Inst) (hst : (st.map Prod.fst).Nodup)
    (hlen : ∀ p ∈ st, i.codeSize ≤ p.2.length) (hw : i.writeonly = false) (hi : InstOk st i) :
    ∃ i', checkExternal st i = .ok i' ∧ i'.codeSize = i.codeSize ∧ i'.writeonly = false ∧
      InstOk st i' ∧ i'.mem.Perm (rowsOf i.codeSize st) := by
  unfold checkExternal
  split
  · obtain ⟨i', e1, e2, e3, e4, _, e6⟩ :=
      catchUpLoop_ok st i.codeSize hlen st (fun _ h => h) i rfl hw hi
    refine ⟨i', e1, e2, e3, e4, ?_⟩
    rw [← e2]
    apply map_fst_nodup_subset_perm
    · rw [← e4.ids_eq]; exact e4.nodup
    · exact e4.sub_rows
    · have hsub : (st.map Prod.fst) ⊆ i'.mem.map Prod.fst := by
        intro x hx
        obtain ⟨p, hp, rfl⟩ := List.mem_map.1 hx
        rw [← e4.ids_eq]; exact e6 p hp
      have := (List.subperm_of_subset hst hsub).length_le
      simpa [rowsOf] using this
  · rename_i h
    refine ⟨i, rfl, rfl, hw, hi, ?_⟩
    apply map_fst_nodup_subset_perm
    · rw [← hi.ids_eq]; exact hi.nodup
    · exact hi.sub_rows
    · simp only [ne_eq, Decidable.not_not] at h
      simp [rowsOf, h]

theorem InstOk.mono {st st' : Store} {i : Inst} (h : InstOk st i) (hs : ∀ p ∈ st, p ∈ st') :
    InstOk st' i :=
  ⟨h.ids_eq, h.nodup, fun p hp => by
    obtain ⟨v, hv, e⟩ := h.sub p hp
    exact ⟨v, hs _ hv, e⟩, h.wo⟩

theorem utf8_len_pos (c : Char) : 1 ≤ (String.utf8EncodeChar c).length := by
  unfold String.utf8EncodeChar
  dsimp only
  split
  · simp
  · split
    · simp
    · split <;> simp

theorem encode_len_ge (t : PyText) : t.len ≤ t.encode.length := by
  cases t with
  | bytes b => exact Nat.le_refl _
  | str cs =>
    simp only [PyText.len, PyText.encode]
    induction cs with
    | nil => simp
    | cons c cs ih =>
      simp only [List.flatMap_cons, List.length_cons, List.length_append]
      have := utf8_len_pos c
      omega

end Zounds.HammingDb
