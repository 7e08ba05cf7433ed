import Verif.Model.MergeUnits
import Verif.Props.ArrayOps
import Verif.Props.Merge

/-!
# Properties C299-C300: `Merge` of features with units
-/

namespace Zounds.MergeUnits
open Zounds Zounds.Arr

section
variable {φ : Type} [Field φ] [LinearOrder φ] (X : Freq.NumExt φ) {β : Type}

/-- The array is a table of these rows, each of `w` numbers; its first axis is time, the second has the dimension `col`. -/
structure Table (f u : Int) (col : LibDim φ) (w : Nat) (R : List (List β)) (a : Awu (LibDim φ) β) : Prop where
  shape : a.shape = [R.length, w]
  dims : a.dims = [.time f u (some R.length), col]
  width : ∀ r ∈ R, r.length = w
  cells : ∀ i j, i < R.length → j < w → (R.getD i [])[j]? = some (a.get [i, j])

theorem cut_head {f u : Int} {col : LibDim φ} {w : Nat} {R : List (List β)} {a : Awu (LibDim φ) β} (h : Table f u col w R a)
    (hcol : (libOps X).install col w = .ok col) (k : Nat) (hk : 1 ≤ k) (hkR : k ≤ R.length) :
    ∃ x, a.getitem (libOps X) [.slice none (some (k : Int)) none] = .ok x ∧ Table f u col w (R.take k) x := by
  have hv : npIndex [R.length, w] [.slice none (some (k : Int)) none] = .ok ⟨[k, w], fun idx => walk [.run 0 1 k, .run 0 1 w] 0 idx⟩ := by
    have e : pyBound R.length (k : Int) = k := by unfold pyBound; split <;> omega
    simp [npIndex, expand, NpItem.consumes, pieces, sliceRange, upFrom, upTo, view, Piece.isPick, Piece.axis, e]
  have hg : a.getitem (libOps X) [.slice none (some (k : Int)) none] =
      .ok ⟨[k, w], [.time f u (some k), col], fun idx => a.get (walk [.run 0 1 k, .run 0 1 w] 0 idx)⟩ := by
    have hb : isIntSlice none (some (k : Int)) = true := by simp [isIntSlice]; omega
    unfold Awu.getitem
    simp only [computeIndices, Item.raw, hb, if_true, h.shape, hv, h.dims]
    have hm : newDims (libOps X) [.time f u (some R.length), col] (List.countP Item.counts [(Item.slice none (some (k : Int)) none : Item (LibIdx φ))]) [k, w] 0 0
        [Item.slice none (some (k : Int)) none] = .ok [.time f u (some k), col] := by
      simp [newDims, metasliceOr, libOps]
    simp only [hm, Awu.new]
    simp only [List.length_cons, List.length_nil, ne_eq, not_true_eq_false, if_false, installAll, hcol]
    rfl
  refine ⟨_, hg, ?_, ?_, ?_, ?_⟩
  · simp [hkR]
  · simp [hkR]
  · intro r hr; exact h.width r (List.mem_of_mem_take hr)
  · intro i j hi hj
    simp only [List.length_take] at hi
    have := h.cells i j (by omega) hj
    simp only [walk]
    simp only [List.headD_cons, List.tail_cons, Int.zero_add, Int.mul_one, Int.toNat_natCast]
    rw [← this]
    congr 1
    simp only [List.getD_eq_getElem?_getD]
    rw [List.getElem?_take_of_lt (by omega)]

theorem cut_tail {f u : Int} {col : LibDim φ} {w : Nat} {R : List (List β)} {a : Awu (LibDim φ) β} (h : Table f u col w R a)
    (hcol : (libOps X).install col w = .ok col) (k : Nat) (hk : 1 ≤ k) (hkR : k ≤ R.length) :
    ∃ x, a.getitem (libOps X) [.slice (some (k : Int)) none none] = .ok x ∧ Table f u col w (R.drop k) x := by
  have hv : npIndex [R.length, w] [.slice (some (k : Int)) none none] =
      .ok ⟨[R.length - k, w], fun idx => walk [.run k 1 (R.length - k), .run 0 1 w] 0 idx⟩ := by
    have e : pyBound R.length (k : Int) = k := by unfold pyBound; split <;> omega
    simp [npIndex, expand, NpItem.consumes, pieces, sliceRange, upFrom, upTo, view, Piece.isPick, Piece.axis, e]
  have hg : a.getitem (libOps X) [.slice (some (k : Int)) none none] =
      .ok ⟨[R.length - k, w], [.time f u (some (R.length - k)), col], fun idx => a.get (walk [.run k 1 (R.length - k), .run 0 1 w] 0 idx)⟩ := by
    have hb : isIntSlice (some (k : Int)) none = true := by simp [isIntSlice]; omega
    unfold Awu.getitem
    simp only [computeIndices, Item.raw, hb, if_true, h.shape, hv, h.dims]
    have hm : newDims (libOps X) [.time f u (some R.length), col] (List.countP Item.counts [(Item.slice (some (k : Int)) none none : Item (LibIdx φ))]) [R.length - k, w] 0 0
        [Item.slice (some (k : Int)) none none] = .ok [.time f u (some (R.length - k)), col] := by
      simp [newDims, metasliceOr, libOps]
    simp only [hm, Awu.new]
    simp only [List.length_cons, List.length_nil, ne_eq, not_true_eq_false, if_false, installAll, hcol]
    rfl
  refine ⟨_, hg, ?_, ?_, ?_, ?_⟩
  · simp
  · simp
  · intro r hr; exact h.width r (List.mem_of_mem_drop hr)
  · intro i j hi hj
    simp only [List.length_drop] at hi
    have := h.cells (k + i) j (by omega) hj
    simp only [walk]
    have e : ((k : Int) + (i : Int)).toNat = k + i := by omega
    simp only [List.headD_cons, List.tail_cons, Int.zero_add, Int.mul_one, Int.toNat_natCast, e]
    rw [← this]
    congr 1
    simp only [List.getD_eq_getElem?_getD, List.getElem?_drop]

/-! ## Lists of tables -/

/-- The arrays are tables of these rows, of these widths and column dimensions. -/
inductive Tables (f u : Int) : List (Nat × LibDim φ) → List (List (List β)) → List (Awu (LibDim φ) β) → Prop
  | nil : Tables f u [] [] []
  | cons {w col ws R Rs a as} : Table f u col w R a → (libOps X).install col w = .ok col → Tables f u ws Rs as →
      Tables f u ((w, col) :: ws) (R :: Rs) (a :: as)

/-- Cache entries: nothing arrived, or tables. -/
inductive Caches (f u : Int) : List (Nat × LibDim φ) → Merge.Cache β → Cache (LibDim φ) β → Prop
  | nil : Caches f u [] [] []
  | empty {w col ws c d} : (libOps X).install col w = .ok col → Caches f u ws c d → Caches f u ((w, col) :: ws) (none :: c) (none :: d)
  | held {w col ws R c a d} : Table f u col w R a → (libOps X).install col w = .ok col → Caches f u ws c d →
      Caches f u ((w, col) :: ws) (some R :: c) (some a :: d)

variable {X}

theorem Caches.start (f u : Int) (ws : List (Nat × LibDim φ)) (hw : ∀ p ∈ ws, (libOps X).install p.2 p.1 = .ok p.2) :
    Caches (β := β) X f u ws (List.replicate ws.length none) (List.replicate ws.length none) := by
  induction ws with
  | nil => exact .nil
  | cons p ws ih => exact .empty (hw p (by simp)) (ih (fun q hq => hw q (by simp [hq])))

theorem Tables.caches {f u : Int} {ws : List (Nat × LibDim φ)} {Rs : List (List (List β))} {vs : List (Awu (LibDim φ) β)}
    (h : Tables X f u ws Rs vs) : Caches X f u ws (Rs.map some) (vs.map some) := by
  induction h with
  | nil => exact .nil
  | cons h1 h2 _ ih => exact .held h1 h2 ih

theorem size_table {f u : Int} {col : LibDim φ} {w : Nat} {R : List (List β)} {a : Awu (LibDim φ) β} (h : Table f u col w R a) :
    Nd.size a.shape = Merge.size R := by
  have : Merge.size R = R.length * w := by
    unfold Merge.size
    have : R.map List.length = R.map fun _ => w := List.map_congr_left h.width
    rw [this, List.map_const', List.sum_replicate_nat]
  rw [this, h.shape]
  simp [Nd.size]

theorem push_table {f u : Int} {col : LibDim φ} {w : Nat} (hcol : (libOps X).install col w = .ok col) (heq : (libOps X).eq col col = .ok true)
    {R R' : List (List β)} {a b : Awu (LibDim φ) β}
    (h : Table f u col w R a) (h' : Table f u col w R' b) :
    ∃ x, push (libOps X) (some a) b = .ok x ∧ Table f u col w (Merge.push (some R) R') x := by
  unfold push Merge.push
  simp only [size_table h]
  by_cases hz : Merge.size R = 0
  · simp only [hz, if_true]
    exact ⟨b, rfl, h'⟩
  · simp only [hz, if_false]
    obtain ⟨h1, h2, _⟩ := C36_concatenate (libOps X) a b R.length R'.length [w] [w] h.shape h'.shape (by simp [h.dims])
    have hd : List.Forall₂ (fun x y => (libOps X).eq x y = .ok true) a.dims b.dims := by
      rw [h.dims, h'.dims]
      refine .cons (by simp [libOps]) (.cons heq .nil)
    have hok : ∃ r, a.concatenate (libOps X) b = .ok r := by
      refine h2.2 ⟨hd, rfl, ?_⟩
      intro k hk
      simp only [h.dims, List.length_cons, List.length_nil] at hk
      have : k = 0 ∨ k = 1 := by omega
      rcases this with rfl | rfl
      · exact ⟨.time f u (some (R.length + R'.length)), by simp only [h.dims]; rfl⟩
      · exact ⟨col, by simp only [h.dims]; exact hcol⟩
    obtain ⟨r, hr⟩ := hok
    obtain ⟨_, _, e1, e2, e3, e4, e5⟩ := h1 r hr
    refine ⟨r, hr, ?_, ?_, ?_, ?_⟩
    · rw [e1]; simp
    · have hl : r.dims.length = 2 := by rw [e2, h.dims]; rfl
      have d0 := e3 0 (by simp [h.dims]) (by simp [e1]) (by omega)
      have d1 := e3 1 (by simp [h.dims]) (by simp [e1]) (by omega)
      simp only [h.dims, e1, List.getElem_cons_zero, List.getElem_cons_succ] at d0 d1
      rw [hcol] at d1
      have d0' : (Except.ok (LibDim.time f u (some (R.length + R'.length))) : Except PyErr (LibDim φ)) = .ok (r.dims[0]'(by omega)) := d0
      match hrd : r.dims, hl with
      | [p, q], _ =>
        simp only [hrd, List.getElem_cons_zero, List.getElem_cons_succ, Except.ok.injEq] at d0' d1
        rw [← d0', ← d1]
        simp
    · intro x hx
      rcases List.mem_append.1 hx with hx | hx
      · exact h.width x hx
      · exact h'.width x hx
    · intro i j hi hj
      simp only [List.length_append] at hi
      by_cases hlt : i < R.length
      · rw [e4 i [j] hlt, ← h.cells i j hlt hj]
        congr 1
        simp only [List.getD_eq_getElem?_getD, List.getElem?_append_left hlt]
      · have : i = R.length + (i - R.length) := by omega
        rw [this, e5 (i - R.length) [j] (by omega), ← h'.cells (i - R.length) j (by omega) hj]
        congr 1
        simp only [List.getD_eq_getElem?_getD]
        rw [List.getElem?_append_right (by omega)]
        congr 2
        omega

theorem enqueue_caches {f u : Int} {ws : List (Nat × LibDim φ)} {c : Merge.Cache β} {d : Cache (LibDim φ) β} (h : Caches X f u ws c d)
    (heq : ∀ p ∈ ws, (libOps X).eq p.2 p.2 = .ok true) : ∀ (src : Nat) (p : Nat × LibDim φ), ws[src]? = some p →
    ∀ (R : List (List β)) (a : Awu (LibDim φ) β), Table f u p.2 p.1 R a →
    ∃ c' d', Merge.enqueue c src R = .ok c' ∧ enqueue (libOps X) d src a = .ok d' ∧ Caches X f u ws c' d' := by
  induction h with
  | nil => intro src p hp; simp at hp
  | @empty w col ws c d hcol hrest ih =>
    intro src p hp R a ht
    cases src with
    | zero =>
      simp only [List.getElem?_cons_zero, Option.some.injEq] at hp
      subst hp
      exact ⟨_, _, rfl, rfl, .held ht hcol hrest⟩
    | succ src =>
      obtain ⟨c', d', h1, h2, h3⟩ := ih (fun q hq => heq q (by simp [hq])) src p (by simpa using hp) R a ht
      refine ⟨none :: c', none :: d', ?_, ?_, .empty hcol h3⟩
      · unfold Merge.enqueue at h1 ⊢
        simp only [List.getElem?_cons_succ, List.set_cons_succ]
        split at h1
        · cases h1
        · cases h1; simp_all
      · unfold enqueue at h2 ⊢
        simp only [List.getElem?_cons_succ, List.set_cons_succ]
        split at h2
        · cases h2
        · split at h2
          · cases h2
          · cases h2; simp_all
  | @held w col ws Q c b d hb hcol hrest ih =>
    intro src p hp R a ht
    cases src with
    | zero =>
      simp only [List.getElem?_cons_zero, Option.some.injEq] at hp
      subst hp
      obtain ⟨x, hx, hT⟩ := push_table hcol (heq (w, col) (by simp)) hb ht
      refine ⟨some (Merge.push (some Q) R) :: c, some x :: d, rfl, ?_, .held hT hcol hrest⟩
      simp only [enqueue, List.getElem?_cons_zero, hx, List.set_cons_zero]
    | succ src =>
      obtain ⟨c', d', h1, h2, h3⟩ := ih (fun q hq => heq q (by simp [hq])) src p (by simpa using hp) R a ht
      refine ⟨some Q :: c', some b :: d', ?_, ?_, .held hb hcol h3⟩
      · unfold Merge.enqueue at h1 ⊢
        simp only [List.getElem?_cons_succ, List.set_cons_succ]
        split at h1
        · cases h1
        · cases h1; simp_all
      · unfold enqueue at h2 ⊢
        simp only [List.getElem?_cons_succ, List.set_cons_succ]
        split at h2
        · cases h2
        · split at h2
          · cases h2
          · cases h2; simp_all

theorem present_caches {f u : Int} {ws : List (Nat × LibDim φ)} {c : Merge.Cache β} {d : Cache (LibDim φ) β} (h : Caches X f u ws c d) :
    (Merge.starved c = true ∧ present d = none) ∨
    (Merge.starved c = false ∧ ∃ Rs vs, c = Rs.map some ∧ present d = some vs ∧ Tables X f u ws Rs vs ∧ ∀ R ∈ Rs, R ≠ []) := by
  induction h with
  | nil => exact Or.inr ⟨rfl, [], [], rfl, rfl, .nil, by simp⟩
  | empty hcol hrest ih => exact Or.inl ⟨rfl, rfl⟩
  | @held w col ws R c a d ht hcol hrest ih =>
    have hrow : rows a = R.length := by simp [rows, ht.shape]
    by_cases hR : R.length = 0
    · refine Or.inl ⟨?_, ?_⟩
      · simp only [Merge.starved, List.any_cons, hR, decide_true, Bool.true_or]
      · simp [present, hrow, hR]
    · rcases ih with ⟨h1, h2⟩ | ⟨h1, Rs, vs, h2, h3, h4, h5⟩
      · refine Or.inl ⟨?_, ?_⟩
        · simp only [Merge.starved] at h1 ⊢
          simp only [List.any_cons, h1, Bool.or_true]
        · simp [present, hrow, hR, h2]
      · refine Or.inr ⟨?_, R :: Rs, a :: vs, by rw [h2]; rfl, ?_, .cons ht hcol h4, ?_⟩
        · simp only [Merge.starved] at h1 ⊢
          simp only [List.any_cons, h1, hR, decide_false, Bool.or_false]
        · simp [present, hrow, hR, h3]
        · intro Q hQ
          rcases List.mem_cons.1 hQ with rfl | hQ
          · intro e; simp [e] at hR
          · exact h5 Q hQ

theorem shortest_tables {f u : Int} {ws : List (Nat × LibDim φ)} {Rs : List (List (List β))} {vs : List (Awu (LibDim φ) β)}
    (h : Tables X f u ws Rs vs) : shortest vs = Merge.shortest (Rs.map some) := by
  induction h with
  | nil => rfl
  | @cons w col ws R Rs a as ht hcol hrest ih =>
    have hrow : rows a = R.length := by simp [rows, ht.shape]
    cases hrest with
    | nil => simp [shortest, Merge.shortest, hrow]
    | cons _ _ _ =>
      simp only [shortest, List.map_cons, Merge.shortest, Option.getD_some, hrow]
      rw [ih]
      rfl

theorem cut_tables {f u : Int} {ws : List (Nat × LibDim φ)} {Rs : List (List (List β))} {vs : List (Awu (LibDim φ) β)}
    (h : Tables X f u ws Rs vs) (k : Nat) (hk : 1 ≤ k) (hle : ∀ R ∈ Rs, k ≤ R.length) :
    (∃ out, cutAll (libOps X) [.slice none (some (k : Int)) none] vs = .ok out ∧ Tables X f u ws (Rs.map (·.take k)) out) ∧
    (∃ out, cutAll (libOps X) [.slice (some (k : Int)) none none] vs = .ok out ∧ Tables X f u ws (Rs.map (·.drop k)) out) := by
  induction h with
  | nil => exact ⟨⟨[], rfl, .nil⟩, ⟨[], rfl, .nil⟩⟩
  | cons ht hcol hrest ih =>
    obtain ⟨⟨o1, h1, t1⟩, ⟨o2, h2, t2⟩⟩ := ih (fun R hR => hle R (by simp [hR]))
    obtain ⟨x1, g1, s1⟩ := cut_head X ht hcol k hk (hle _ (by simp))
    obtain ⟨x2, g2, s2⟩ := cut_tail X ht hcol k hk (hle _ (by simp))
    exact ⟨⟨x1 :: o1, by simp [cutAll, g1, h1], .cons s1 hcol t1⟩, ⟨x2 :: o2, by simp [cutAll, g2, h2], .cons s2 hcol t2⟩⟩

/-! ## Side by side -/

theorem along_tables {f u : Int} {ws : List (Nat × LibDim φ)} {Rs : List (List (List β))} {vs : List (Awu (LibDim φ) β)}
    (h : Tables X f u ws Rs vs) (k : Nat) (hl : ∀ R ∈ Rs, R.length = k) (i : Nat) (hi : i < k) : ∀ j,
    (alongAxis 1 (vs.map fun x => (x.shape, x.get))).2 [i, j] = ((Rs.map fun R => R.getD i []).flatten)[j]? := by
  induction h with
  | nil => intro j; simp [alongAxis]
  | @cons w col ws R Rs a as ht hcol hrest ih =>
    intro j
    have hR := hl R (by simp)
    have hw : (R.getD i []).length = w := by
      have : R.getD i [] = R[i]'(by omega) := by simp [List.getD_eq_getElem?_getD, List.getElem?_eq_getElem (by omega : i < R.length)]
      rw [this]
      exact ht.width _ (List.getElem_mem _)
    simp only [List.map_cons, alongAxis, ht.shape, List.flatten_cons]
    by_cases hj : j < w
    · have := ht.cells i j (by omega) hj
      rw [List.getElem?_append_left (by omega), this]
      simp [hj]
    · rw [List.getElem?_append_right (by omega), hw]
      have := ih (fun Q hQ => hl Q (by simp [hQ])) (j - w)
      rw [← this]
      simp [hj]

theorem widths_tables {f u : Int} {ws : List (Nat × LibDim φ)} {Rs : List (List (List β))} {vs : List (Awu (LibDim φ) β)}
    (h : Tables X f u ws Rs vs) : (vs.map fun x => x.shape.getD 1 0) = ws.map (·.1) := by
  induction h with
  | nil => rfl
  | cons ht hcol hrest ih => rw [List.map_cons, List.map_cons, ih, ht.shape]; rfl

theorem mem_tables {f u : Int} {ws : List (Nat × LibDim φ)} {Rs : List (List (List β))} {vs : List (Awu (LibDim φ) β)}
    (h : Tables X f u ws Rs vs) : ∀ b ∈ vs, ∃ p ∈ ws, ∃ R ∈ Rs, Table f u p.2 p.1 R b := by
  induction h with
  | nil => simp
  | @cons w col ws R Rs a as ht hcol hrest ih =>
    intro b hb
    rcases List.mem_cons.1 hb with rfl | hb
    · exact ⟨(w, col), by simp, R, by simp, ht⟩
    · obtain ⟨p, hp, R', hR', hT⟩ := ih b hb
      exact ⟨p, by simp [hp], R', by simp [hR'], hT⟩

theorem row_tables {f u : Int} {ws : List (Nat × LibDim φ)} {Rs : List (List (List β))} {vs : List (Awu (LibDim φ) β)}
    (h : Tables X f u ws Rs vs) (k : Nat) (hl : ∀ R ∈ Rs, R.length = k) (i : Nat) (hi : i < k) :
    ((Rs.map fun R => R.getD i []).flatten).length = (ws.map (·.1)).sum := by
  induction h with
  | nil => rfl
  | @cons w col ws R Rs a as ht hcol hrest ih =>
    have hR := hl R (by simp)
    have hw : (R.getD i []).length = w := by
      have : R.getD i [] = R[i]'(by omega) := by simp [List.getD_eq_getElem?_getD, List.getElem?_eq_getElem (by omega : i < R.length)]
      rw [this]
      exact ht.width _ (List.getElem_mem _)
    simp only [List.map_cons, List.flatten_cons, List.length_append, hw, List.sum_cons]
    rw [ih (fun Q hQ => hl Q (by simp [hQ]))]

/-- Tables without a meaning of their columns, with the same number of rows, are put side by side. -/
theorem concat_tables {f u : Int} {ws : List (Nat × LibDim φ)} (hne : ws ≠ []) (hid : ∀ p ∈ ws, p.2 = .identity)
    {Rs : List (List (List β))} {vs : List (Awu (LibDim φ) β)}
    (h : Tables X f u ws Rs vs) (k : Nat) (hl : ∀ R ∈ Rs, R.length = k) :
    ∃ r, concat (libOps X) vs 1 = .ok r ∧ Table f u .identity (ws.map (·.1)).sum (Merge.hconcat Rs) r := by
  have hw := widths_tables h
  have hm := mem_tables h
  have hal := along_tables h k hl
  have hrw := row_tables h k hl
  have hrows : Merge.hconcat Rs = (List.range k).map (fun i => (Rs.map (fun p => p.getD i [])).flatten) := by
    refine Merge.hconcat_rows Rs k ?_ hl
    intro e; subst e; cases h; exact hne rfl
  cases h with
  | nil => exact absurd rfl hne
  | @cons w col ws R Rs a as ht hcol hrest =>
    have hc : col = .identity := hid (w, col) (by simp)
    subst hc
    have hR := hl R (by simp)
    have hd : ∀ b ∈ as, List.Forall₂ (fun y x => (libOps X).eq y x = .ok true) b.dims a.dims := by
      intro b hb
      obtain ⟨p, hp, Q, hQ, hT⟩ := hm b (by simp [hb])
      rw [ht.dims, hT.dims, hid p hp]
      exact .cons (by simp [libOps]) (.cons rfl .nil)
    have hs : SameElsewhere a as 1 := by
      refine ⟨by simp [ht.shape], ?_⟩
      intro b hb
      obtain ⟨p, hp, Q, hQ, hT⟩ := hm b (by simp [hb])
      rw [ht.shape, hT.shape, hl Q hQ, hR]
      refine ⟨rfl, ?_⟩
      intro n hn
      match n, hn with
      | 0, _ => rfl
      | 1, hn => exact absurd rfl hn
      | n + 2, _ => rfl
    obtain ⟨r, hr⟩ := (C36_concat_ok (libOps X) a as 1 (by simp [ht.dims, ht.shape])).2 ⟨hd, hs, by
      intro n hn
      simp only [ht.dims, List.length_cons, List.length_nil] at hn
      have : n = 0 ∨ n = 1 := by omega
      rcases this with rfl | rfl
      · exact ⟨_, by simp only [ht.dims, List.getElem_cons_zero]; exact (C36_lib_install X _).1 _ _ _⟩
      · exact ⟨.identity, by simp only [ht.dims]; rfl⟩⟩
    refine ⟨r, hr, ?_⟩
    simp only [concat] at hr
    rw [(allMatch_iff (libOps X) a as).2 hd] at hr
    simp only at hr
    obtain ⟨_, hn⟩ := (joined_iff (libOps X) a.dims a as 1 r).1 hr
    obtain ⟨e1, e2, e3, e4, e5⟩ := (C36_new (libOps X) _ _ _ r).mp hn
    rw [hw, ht.shape] at e2
    have hlen : (Merge.hconcat (R :: Rs)).length = k := by rw [hrows]; simp
    refine ⟨?_, ?_, ?_, ?_⟩
    · rw [e2, hlen, ← hR]; rfl
    · have hl2 : r.dims.length = 2 := by rw [e4, ht.dims]; rfl
      have d0 := e5 0 (by simp [ht.dims]) (by simp [ht.shape]) (by omega)
      have d1 := e5 1 (by simp [ht.dims]) (by simp [ht.shape]) (by omega)
      simp only [ht.dims, ht.shape, List.set_cons_succ, List.set_cons_zero, List.getElem_cons_zero, List.getElem_cons_succ] at d0 d1
      rw [(C36_lib_install X _).1] at d0
      rw [(C36_lib_install X _).2.2] at d1
      match hrd : r.dims, hl2 with
      | [p, q], _ =>
        simp only [hrd, List.getElem_cons_zero, List.getElem_cons_succ, Except.ok.injEq] at d0 d1
        rw [← d0, ← d1, hlen, hR]
    · intro x hx
      rw [hrows] at hx
      obtain ⟨i, hi, rfl⟩ := List.mem_map.1 hx
      exact hrw i (List.mem_range.1 hi)
    · intro i j hi hj
      rw [hlen] at hi
      rw [hrows, e3]
      have hx := hal i hi j
      have hlt : j < ((List.map (fun R => R.getD i []) (R :: Rs)).flatten).length := by rw [hrw i hi]; exact hj
      rw [List.getElem?_eq_getElem hlt] at hx
      simp only [hx, Option.getD_some]
      rw [← List.getElem?_eq_getElem hlt]
      congr 1
      simp [List.getD_eq_getElem?_getD, hi]

theorem shortest_pos (Rs : List (List (List β))) (hne : Rs ≠ []) (h : ∀ R ∈ Rs, R ≠ []) : 1 ≤ Merge.shortest (Rs.map some) := by
  obtain ⟨v, hv, e⟩ := Merge.shortest_mem (Rs.map some) (by simpa using hne)
  obtain ⟨R, hR, rfl⟩ := List.mem_map.1 hv
  have := List.length_pos_iff.2 (h R hR)
  simp only [Option.getD_some] at e
  omega

/-- A schedule of rows and one of arrays: the same sources, the arrays tables of the rows. -/
def Arrivals (f u : Int) (ws : List (Nat × LibDim φ)) (sched : List (Nat × List (List β))) (arrs : List (Nat × Awu (LibDim φ) β)) : Prop :=
  List.Forall₂ (fun s a => s.1 = a.1 ∧ ∃ p, ws[s.1]? = some p ∧ Table f u p.2 p.1 s.2 a.2) sched arrs

theorem run_tables {f u : Int} {ws : List (Nat × LibDim φ)} (hne : ws ≠ []) (hid : ∀ p ∈ ws, p.2 = .identity) :
    ∀ (sched : List (Nat × List (List β))) (arrs : List (Nat × Awu (LibDim φ) β)) (c : Merge.Cache β) (d : Cache (LibDim φ) β),
      Caches X f u ws c d → Arrivals f u ws sched arrs →
      ∃ outs uouts, Merge.run c sched = .ok outs ∧ run (libOps X) d arrs = .ok uouts ∧
        List.Forall₂ (Table f u .identity (ws.map (·.1)).sum) outs uouts := by
  intro sched arrs c d hcd ha
  induction ha generalizing c d with
  | nil => exact ⟨[], [], rfl, rfl, .nil⟩
  | @cons s a sched arrs hsa hrest ih =>
    obtain ⟨src, R⟩ := s
    obtain ⟨src', v⟩ := a
    obtain ⟨rfl, p, hp, hT⟩ := hsa
    obtain ⟨c', d', h1, h2, h3⟩ := enqueue_caches hcd (fun q hq => by rw [hid q hq]; rfl) src p hp R v hT
    simp only [Merge.run, run, h1, h2]
    rcases present_caches h3 with ⟨g1, g2⟩ | ⟨g1, Rs, vs, g2, g3, g4, g5⟩
    · simp only [Merge.dequeue, g1, if_true, emit, g2]
      obtain ⟨outs, uouts, r1, r2, r3⟩ := ih c' d' h3
      exact ⟨outs, uouts, r1, by simp only [r2]; rfl, r3⟩
    · subst g2
      have hRs : Rs ≠ [] := by
        intro e; subst e; cases g4; exact hne rfl
      have hk := shortest_pos Rs hRs g5
      have hle : ∀ R ∈ Rs, Merge.shortest (Rs.map some) ≤ R.length := by
        intro R hR
        have := Merge.shortest_le (Rs.map some) (some R) (List.mem_map.2 ⟨R, hR, rfl⟩)
        simpa using this
      obtain ⟨⟨o1, u1, t1⟩, ⟨o2, u2, t2⟩⟩ := cut_tables g4 _ hk hle
      obtain ⟨r, hr, hrt⟩ := concat_tables hne hid t1 (Merge.shortest (Rs.map some)) (by
        intro R hR
        obtain ⟨Q, hQ, rfl⟩ := List.mem_map.1 hR
        simp [hle Q hQ])
      have hcut : List.map (fun v => v.getD []) (List.map some Rs) = Rs := by simp
      have e1 : ((Rs.map some).map fun v => (v.getD []).take (Merge.shortest (Rs.map some))) = Rs.map (·.take (Merge.shortest (Rs.map some))) := by
        simp
      have e2 : ((Rs.map some).map fun v => some ((v.getD []).drop (Merge.shortest (Rs.map some)))) =
          (Rs.map (·.drop (Merge.shortest (Rs.map some)))).map some := by simp
      obtain ⟨outs, uouts, r1, r2, r3⟩ := ih _ _ t2.caches
      refine ⟨_ :: outs, r :: uouts, ?_, ?_, .cons hrt r3⟩
      · simp only [Merge.dequeue, g1, Bool.false_eq_true, if_false]
        simp only [e1, e2, r1]
      · simp only [emit, g3, shortest_tables g4, u1, u2, hr, r2]
        rfl

/-- **C299**: features of the same time dimension whose second axis has no meaning are merged: for every number of sources, every schedule of
arrivals and all chunk sizes, everything emitted is arrays of that time dimension, as wide as all sources together; their rows, in order, are row
`i` of all sources side by side, for every row `i` that all sources have sent. -/
theorem C299_merge (f u : Int) (widths : List Nat) (hn : 2 ≤ widths.length) (hpos : ∀ w ∈ widths, 0 < w)
    (sched : List (Nat × List (List β))) (arrs : List (Nat × Awu (LibDim φ) β))
    (ha : List.Forall₂ (fun s a => s.1 = a.1 ∧ ∃ w, widths[s.1]? = some w ∧ Table f u .identity w s.2 a.2) sched arrs) :
    ∃ emitted outs, run (libOps X) (List.replicate widths.length none) arrs = .ok emitted ∧
      List.Forall₂ (Table f u .identity widths.sum) outs emitted ∧
      outs.flatten = (List.range (Merge.available widths.length sched)).map (Merge.mergedRow widths.length sched) := by
  have hA : Arrivals f u (widths.map fun w => (w, .identity)) sched arrs := by
    refine ha.imp ?_
    rintro s a ⟨h1, w, h2, h3⟩
    exact ⟨h1, (w, .identity), by simp [h2], h3⟩
  have hlen : (widths.map fun w => ((w, .identity) : Nat × LibDim φ)).length = widths.length := by simp
  have hstart := Caches.start (X := X) (β := β) f u (widths.map fun w => (w, .identity)) (by
    intro p hp
    obtain ⟨w, _, rfl⟩ := List.mem_map.1 hp
    rfl)
  rw [hlen] at hstart
  obtain ⟨outs, uouts, h1, h2, h3⟩ := run_tables (by
      intro e
      have := congrArg List.length e
      simp only [List.length_map, List.length_nil] at this
      omega) (by
      intro p hp
      obtain ⟨w, _, rfl⟩ := List.mem_map.1 hp
      rfl) sched arrs _ _ hstart hA
  have hs : ∀ a ∈ sched, a.1 < widths.length ∧ Merge.Wide a.2 := by
    intro a hm
    have : ∀ {l : List (Nat × List (List β))} {m : List (Nat × Awu (LibDim φ) β)},
        List.Forall₂ (fun s a => s.1 = a.1 ∧ ∃ w, widths[s.1]? = some w ∧ Table f u .identity w s.2 a.2) l m → a ∈ l →
        ∃ (w : Nat) (b : Awu (LibDim φ) β), widths[a.1]? = some w ∧ Table f u .identity w a.2 b := by
      intro l m hlm
      induction hlm with
      | nil => simp
      | cons hx _ ih =>
        intro hin
        rcases List.mem_cons.1 hin with rfl | hin
        · obtain ⟨_, w, g1, g2⟩ := hx; exact ⟨w, _, g1, g2⟩
        · exact ih hin
    obtain ⟨w, b, g1, g2⟩ := this ha hm
    obtain ⟨g3, g4⟩ := List.getElem?_eq_some_iff.1 g1
    refine ⟨g3, ?_⟩
    intro row hrow e
    have := g2.width row hrow
    have hw := hpos w (by rw [← g4]; exact List.getElem_mem _)
    rw [e] at this
    simp at this
    omega
  obtain ⟨outs', k1, k2⟩ := Merge.C28_merge widths.length sched (List.replicate widths.length none) (by
    unfold Merge.new
    rw [if_neg (by omega)]) hs
  rw [k1] at h1
  cases h1
  refine ⟨uouts, outs, h2, ?_, k2⟩
  have : ((widths.map fun w => ((w, .identity) : Nat × LibDim φ)).map (·.1)).sum = widths.sum := by simp [Function.comp_def]
  rw [this] at h3
  exact h3

/-! ## Spectra cannot be merged -/

/-- **C299, an unknown source**: a piece from something the node does not need is a KeyError. -/
theorem C299_unknown {δ κ α : Type} (ops : DimOps δ κ) (c : Cache δ α) (src : Nat) (h : c.length ≤ src) (data : Awu δ α) : enqueue ops c src data = .error .keyError := by
  unfold enqueue
  rw [List.getElem?_eq_none h]

theorem le_sum_of_mem {l : List Nat} {x : Nat} (h : x ∈ l) : x ≤ l.sum := by
  induction l with
  | nil => simp at h
  | cons y l ih =>
    rw [List.sum_cons]
    rcases List.mem_cons.1 h with rfl | h
    · omega
    · have := ih h; omega

/-- Spectra, at least two of which have bands, cannot be put side by side. -/
theorem concat_spectra {f u : Int} {w : Nat} {s : Freq.Scale φ} {ws : List (Nat × LibDim φ)}
    {Rs : List (List (List β))} {vs : List (Awu (LibDim φ) β)} (h : Tables X f u ((w, .freq s) :: ws) Rs vs)
    (hpos : ∃ p ∈ ws, 0 < p.1) : ∃ e, concat (libOps X) vs 1 = .error e := by
  have hw := widths_tables h
  cases h with
  | @cons _ _ _ R Rs a as ht hcol hrest =>
    cases hr : concat (libOps X) (a :: as) 1 with
    | error e => exact ⟨e, rfl⟩
    | ok r =>
      exfalso
      obtain ⟨_, _, h3, h4, h5, _⟩ := C36_concat (libOps X) a as 1 r hr
      have hlen : w = s.len := by
        rw [(C36_lib_install X w).2.1] at hcol
        by_contra hc
        rw [if_neg hc] at hcol
        cases hcol
      rw [hw, ht.shape] at h3
      have := h5 1 (by simp [ht.dims]) (by simp [h3]) (by simp [h4, ht.dims])
      simp only [ht.dims, h3, List.getElem_cons_succ, List.getElem_cons_zero, List.set_cons_succ, List.set_cons_zero, List.map_cons,
        List.sum_cons] at this
      rw [(C36_lib_install X _).2.1] at this
      obtain ⟨p, hp, hp0⟩ := hpos
      have hge : p.1 ≤ (ws.map (·.1)).sum := le_sum_of_mem (List.mem_map.2 ⟨p, hp, rfl⟩)
      rw [if_neg (by omega)] at this
      cases this

/-- **C300**: features whose second axis is a frequency scale cannot be merged: when all goes well nothing has been emitted, and some source has not
sent a row yet. -/
theorem C300_spectra (f u : Int) (scales : List (Freq.Scale φ)) (hn : 2 ≤ scales.length) (hpos : ∀ s ∈ scales, 0 < s.len)
    (hself : ∀ s ∈ scales, s.eq X s = .ok true)
    (sched : List (Nat × List (List β))) (arrs : List (Nat × Awu (LibDim φ) β))
    (ha : List.Forall₂ (fun s a => s.1 = a.1 ∧ ∃ sc, scales[s.1]? = some sc ∧ Table f u (.freq sc) sc.len s.2 a.2) sched arrs)
    (emitted : List (Awu (LibDim φ) β)) (h : run (libOps X) (List.replicate scales.length none) arrs = .ok emitted) :
    emitted = [] ∧ ∃ k < scales.length, Merge.stream k sched = [] := by
  obtain ⟨ws, hws⟩ : ∃ ws : List (Nat × LibDim φ), ws = scales.map fun s => (s.len, .freq s) := ⟨_, rfl⟩
  have hA : Arrivals f u ws sched arrs := by
    refine ha.imp ?_
    rintro s a ⟨h1, sc, h2, h3⟩
    exact ⟨h1, (sc.len, .freq sc), by simp [hws, h2], h3⟩
  have hinst : ∀ p ∈ ws, (libOps X).install p.2 p.1 = .ok p.2 := by
    intro p hp
    rw [hws] at hp
    obtain ⟨s, _, rfl⟩ := List.mem_map.1 hp
    simp only [(C36_lib_install X _).2.1, if_true]
  have heq : ∀ p ∈ ws, (libOps X).eq p.2 p.2 = .ok true := by
    intro p hp
    rw [hws] at hp
    obtain ⟨s, hs, rfl⟩ := List.mem_map.1 hp
    exact hself s hs
  have hstart := Caches.start (X := X) (β := β) f u ws hinst
  have hlen : ws.length = scales.length := by simp [hws]
  rw [hlen] at hstart
  obtain ⟨s0, s1, rest, hsc⟩ : ∃ s0 s1 rest, scales = s0 :: s1 :: rest := by
    match scales, hn with
    | s0 :: s1 :: rest, _ => exact ⟨s0, s1, rest, rfl⟩
  have hw2 : ws = (s0.len, .freq s0) :: (s1.len, .freq s1) :: rest.map fun s => (s.len, .freq s) := by simp [hws, hsc]
  have key : ∀ (sched : List (Nat × List (List β))) (arrs : List (Nat × Awu (LibDim φ) β)) (c : Merge.Cache β) (d : Cache (LibDim φ) β),
      Caches X f u ws c d → Arrivals f u ws sched arrs → ∀ out, run (libOps X) d arrs = .ok out → out = [] ∧ Merge.run c sched = .ok [] := by
    intro sched arrs c d hcd ha
    induction ha generalizing c d with
    | nil => intro out ho; cases ho; exact ⟨rfl, rfl⟩
    | @cons s a sched arrs hsa hrest ih =>
      intro out ho
      obtain ⟨src, R⟩ := s
      obtain ⟨src', v⟩ := a
      obtain ⟨rfl, p, hp, hT⟩ := hsa
      obtain ⟨c', d', h1, h2, h3⟩ := enqueue_caches hcd heq src p hp R v hT
      simp only [run, h2] at ho
      simp only [Merge.run, h1]
      rcases present_caches h3 with ⟨g1, g2⟩ | ⟨g1, Rs, vs, g2, g3, g4, g5⟩
      · simp only [emit, g2] at ho
        simp only [Merge.dequeue, g1, if_true]
        split at ho
        · cases ho
        · rename_i outs hr
          cases ho
          obtain ⟨i1, i2⟩ := ih c' d' h3 outs hr
          exact ⟨by simp [i1], i2⟩
      · exfalso
        have hRs : Rs ≠ [] := by
          intro e; subst e; rw [hw2] at g4; cases g4
        have hk := shortest_pos Rs hRs g5
        have hle : ∀ R ∈ Rs, Merge.shortest (Rs.map some) ≤ R.length := by
          intro R hR
          have := Merge.shortest_le (Rs.map some) (some R) (List.mem_map.2 ⟨R, hR, rfl⟩)
          simpa using this
        obtain ⟨⟨o1, u1, t1⟩, ⟨o2, u2, t2⟩⟩ := cut_tables g4 _ hk hle
        rw [hw2] at t1
        obtain ⟨e, he⟩ := concat_spectra t1 ⟨(s1.len, .freq s1), by simp, hpos s1 (by simp [hsc])⟩
        simp only [emit, g3, shortest_tables g4, u1, u2, he] at ho
        cases ho
  obtain ⟨k1, k2⟩ := key sched arrs _ _ hstart hA emitted h
  refine ⟨k1, ?_⟩
  have hs : ∀ a ∈ sched, a.1 < scales.length ∧ Merge.Wide a.2 := by
    intro a hm
    have : ∀ {l : List (Nat × List (List β))} {m : List (Nat × Awu (LibDim φ) β)},
        List.Forall₂ (fun s a => s.1 = a.1 ∧ ∃ sc, scales[s.1]? = some sc ∧ Table f u (.freq sc) sc.len s.2 a.2) l m → a ∈ l →
        ∃ (sc : Freq.Scale φ) (b : Awu (LibDim φ) β), scales[a.1]? = some sc ∧ Table f u (.freq sc) sc.len a.2 b := by
      intro l m hlm
      induction hlm with
      | nil => simp
      | cons hx _ ih =>
        intro hin
        rcases List.mem_cons.1 hin with rfl | hin
        · obtain ⟨_, w, g1, g2⟩ := hx; exact ⟨w, _, g1, g2⟩
        · exact ih hin
    obtain ⟨sc, b, g1, g2⟩ := this ha hm
    obtain ⟨g3, g4⟩ := List.getElem?_eq_some_iff.1 g1
    refine ⟨g3, ?_⟩
    intro row hrow e
    have := g2.width row hrow
    have hw := hpos sc (by rw [← g4]; exact List.getElem_mem _)
    rw [e] at this
    simp at this
    omega
  obtain ⟨outs', m1, m2⟩ := Merge.C28_merge scales.length sched (List.replicate scales.length none) (by
    unfold Merge.new
    rw [if_neg (by omega)]) hs
  rw [k2] at m1
  cases m1
  have hav : Merge.available scales.length sched = 0 := by
    have := congrArg List.length m2
    simpa using this.symm
  unfold Merge.available at hav
  obtain ⟨m, hm⟩ : ∃ m, ((List.range scales.length).map (fun k => (Merge.stream k sched).length)).min? = some m := by
    cases e : ((List.range scales.length).map (fun k => (Merge.stream k sched).length)).min? with
    | none =>
      rw [List.min?_eq_none_iff] at e
      simp at e
      rw [e] at hn
      simp at hn
    | some m => exact ⟨m, rfl⟩
  rw [hm] at hav
  have hmem := List.min?_mem hm
  obtain ⟨k, hk, e⟩ := List.mem_map.1 hmem
  refine ⟨k, List.mem_range.1 hk, ?_⟩
  simp only [Option.getD_some] at hav
  rw [hav] at e
  exact List.length_eq_zero_iff.1 e
end

/-! ## Examples -/

/-- The array holding these rows. -/
def tableOf (f u : Int) (col : LibDim ℚ) (w : Nat) (R : List (List Nat)) : Awu (LibDim ℚ) Nat :=
  ⟨[R.length, w], [.time f u (some R.length), col], fun idx => (R.getD (idx.getD 0 0) []).getD (idx.getD 1 0) 0⟩

theorem table_of (f u : Int) (col : LibDim ℚ) (w : Nat) (R : List (List Nat)) (h : ∀ r ∈ R, r.length = w) :
    Table f u col w R (tableOf f u col w R) := by
  refine ⟨rfl, rfl, h, ?_⟩
  intro i j hi hj
  have hl : (R.getD i []).length = w := by
    rw [List.getD_eq_getElem?_getD, List.getElem?_eq_getElem hi]
    exact h _ (List.getElem_mem hi)
  have h1 : (tableOf f u col w R).get [i, j] = (R.getD i []).getD j 0 := rfl
  rw [h1, List.getD_eq_getElem?_getD (l := R.getD i []), List.getElem?_eq_getElem (by omega)]
  rfl

/-- Two features, of widths 2 and 1, arriving out of step: `C299_merge` applies to all these arrivals. -/
example : ∃ emitted outs, run L (List.replicate 2 none)
      [(0, tableOf 5 5 .identity 2 [[1, 2], [3, 4]]), (1, tableOf 5 5 .identity 1 [[9]]), (1, tableOf 5 5 .identity 1 [[8], [7]])] = .ok emitted ∧
      List.Forall₂ (Table 5 5 .identity 3) outs emitted ∧ outs.flatten = [[1, 2, 9], [3, 4, 8]] := by
  have h := C299_merge (X := Zounds.Props.Frequency.noExt) 5 5 [2, 1] (by simp) (by simp)
    [(0, [[1, 2], [3, 4]]), (1, [[9]]), (1, [[8], [7]])]
    [(0, tableOf 5 5 .identity 2 [[1, 2], [3, 4]]), (1, tableOf 5 5 .identity 1 [[9]]), (1, tableOf 5 5 .identity 1 [[8], [7]])]
    (.cons ⟨rfl, 2, rfl, table_of _ _ _ _ _ (by simp)⟩ (.cons ⟨rfl, 1, rfl, table_of _ _ _ _ _ (by simp)⟩
      (.cons ⟨rfl, 1, rfl, table_of _ _ _ _ _ (by simp)⟩ .nil)))
  obtain ⟨e, o, h1, h2, h3⟩ := h
  exact ⟨e, o, h1, h2, h3⟩

/-- A scale of two bands, given explicitly. -/
def twoBands : Freq.Scale ℚ := .explicit [⟨0, 10⟩, ⟨10, 20⟩]

/-- Two spectra of two bands each: `C300_spectra` applies, and once both have sent a row the merge is refused. -/
example : ¬ ∃ emitted, run L (List.replicate 2 none)
      [(0, tableOf 5 5 (.freq twoBands) 2 [[1, 2], [3, 4]]), (1, tableOf 5 5 (.freq twoBands) 2 [[9, 8]])] = .ok emitted := by
  rintro ⟨emitted, h⟩
  have hs : twoBands.eq Zounds.Props.Frequency.noExt twoBands = .ok true := by
    simp [twoBands, Freq.Scale.eq, Freq.Scale.bands, Freq.zipAllEq, Freq.Band.eq]
  have := C300_spectra (X := Zounds.Props.Frequency.noExt) 5 5 [twoBands, twoBands] (by simp) (by intro s hs; simp at hs; subst hs; simp [twoBands, Freq.Scale.len])
    (by intro s hm; simp at hm; subst hm; exact hs)
    [(0, [[1, 2], [3, 4]]), (1, [[9, 8]])] _
    (.cons ⟨rfl, twoBands, rfl, table_of _ _ _ 2 _ (by simp)⟩ (.cons ⟨rfl, twoBands, rfl, table_of _ _ _ 2 _ (by simp)⟩ .nil)) emitted h
  obtain ⟨_, k, hk, h0⟩ := this
  have : k = 0 ∨ k = 1 := by simp at hk; omega
  rcases this with rfl | rfl <;> simp [Merge.stream] at h0

/-- While one spectrum has sent nothing, nothing is emitted. -/
example : run L (List.replicate 2 none) [(0, tableOf 5 5 (.freq twoBands) 2 [[1, 2], [3, 4]])] = .ok [] := rfl

example := C299_unknown L [none, none] 2 (by decide) (tableOf 5 5 (.freq twoBands) 2 [[1, 2], [3, 4]])

end Zounds.MergeUnits
