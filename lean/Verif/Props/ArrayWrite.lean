import Verif.Model.ArrayWrite
import Verif.Props.ArrayOps
import Mathlib.Data.List.GetD
/-!
# Properties C241, C242: assignment through an index, and the memory shared by arrays and their slices
-/

namespace Zounds.Arr
open Zounds

/-! ## Specification -/

/-- The array of its own positions: indexing it shows which positions an index selects. -/
def positions {δ : Type} (shape : List Nat) (dims : List δ) : Awu δ (List Nat) := ⟨shape, dims, fun p => p⟩

/-- An array in memory: every position has a cell of its own, already handed out. -/
def Held {δ α : Type} (m : Mem α) (a : Awu δ Nat) : Prop :=
  (∀ p, Nd.InB p a.shape → a.get p < m.next) ∧
  ∀ p q, Nd.InB p a.shape → Nd.InB q a.shape → a.get p = a.get q → p = q

/-- numpy's rule, axes counted from the last one: an axis of the value is one, or as long as the selection's axis. -/
def Spreads (vs ts : List Nat) : Prop := ∀ (k n : Nat), vs.reverse[k]? = some n → n = 1 ∨ ts.reverse[k]? = some n

/-- `i` is the index of the value for index `j` of the selection. -/
def SpreadIdx (vs : List Nat) (j i : List Nat) : Prop :=
  i.length = vs.length ∧ ∀ (k n : Nat), vs.reverse[k]? = some n → i.reverse[k]? = some (if n = 1 then 0 else j.reverse.getD k 0)

/-- Semantic slices are translated to slices or integers, never to lists. -/
def NoLists {δ κ : Type} (ops : DimOps δ κ) : Prop := ∀ d it r, ops.intSlice d it = .ok r → ∀ l, r ≠ .list l

/-- No list in the index repeats a position (also not once as `k` and once as `k - n`). -/
def NoRepeats {κ : Type} (index : List (Item κ)) : Prop :=
  ∀ l, Item.list l ∈ index → ∀ n ks, normList n l = .ok ks → ks.Nodup

/-! ## numpy's indexing stays inside the array -/

/-- Pieces that fit a shape. -/
inductive Fits : List Piece → List Nat → Prop
  | nil : Fits [] []
  | fresh {ps sh} : Fits ps sh → Fits (.fresh :: ps) sh
  | run {ps sh} {n : Nat} {s t c} : (t ≠ 0) → (∀ k : Nat, k < c → 0 ≤ s + (k : Int) * t ∧ s + (k : Int) * t < (n : Int)) → Fits ps sh → Fits (.run s t c :: ps) (n :: sh)
  | fixed {ps sh n k} : k < n → Fits ps sh → Fits (.fixed k :: ps) (n :: sh)
  | pick {ps sh n l} : (∀ x ∈ l, x < n) → Fits ps sh → Fits (.pick l :: ps) (n :: sh)

theorem slice_step_ne {n : Nat} {a b st : Option Int} {s t : Int} {c : Nat} (h : sliceRange n a b st = .ok (s, t, c)) : t ≠ 0 := by
  unfold sliceRange at h
  simp only at h
  split at h
  · cases h
  · rename_i h0
    split at h <;> · cases h; exact h0

theorem normList_lt {n : Nat} {l : List Int} : ∀ {ks : List Nat}, normList n l = .ok ks → ∀ x ∈ ks, x < n := by
  induction l with
  | nil => intro ks h; simp [normList] at h; subst h; simp
  | cons i l ih =>
    intro ks h
    simp only [normList] at h
    split at h
    · cases h
    · rename_i k hk
      split at h
      · cases h
      · rename_i ks' hks
        cases h
        intro x hx
        rcases List.mem_cons.1 hx with rfl | hx
        · exact normIndex_lt hk
        · exact ih hks x hx

theorem fits_of_pieces (items : List NpItem) : ∀ (shape : List Nat) (ps : List Piece), pieces items shape = .ok ps →
    items.countP NpItem.consumes = shape.length → Fits ps shape := by
  induction items with
  | nil =>
    intro shape ps h hc
    simp [pieces] at h
    subst h
    cases shape with
    | nil => exact .nil
    | cons _ _ => simp at hc
  | cons it items ih =>
    intro shape ps h hc
    cases it with
    | newaxis =>
      simp only [pieces] at h
      split at h
      · cases h
      · rename_i ps' hp
        cases h
        exact .fresh (ih shape ps' hp (by simpa [List.countP_cons, NpItem.consumes] using hc))
    | ellipsis => simp [pieces] at h
    | int i =>
      cases shape with
      | nil => simp [pieces] at h
      | cons n shape =>
        simp only [pieces] at h
        split at h
        · cases h
        · rename_i k hk
          split at h
          · cases h
          · rename_i ps' hp
            cases h
            exact .fixed (normIndex_lt hk) (ih shape ps' hp (by simpa [List.countP_cons, NpItem.consumes] using hc))
    | slice a b st =>
      cases shape with
      | nil => simp [pieces] at h
      | cons n shape =>
        simp only [pieces] at h
        split at h
        · cases h
        · rename_i s t c hk
          split at h
          · cases h
          · rename_i ps' hp
            cases h
            exact .run (slice_step_ne hk) (C36_slice_in_bounds n a b st s t c hk)
              (ih shape ps' hp (by simpa [List.countP_cons, NpItem.consumes] using hc))
    | list l =>
      cases shape with
      | nil => simp [pieces] at h
      | cons n shape =>
        simp only [pieces] at h
        split at h
        · cases h
        · rename_i ks hk
          split at h
          · cases h
          · rename_i ps' hp
            cases h
            exact .pick (normList_lt hk) (ih shape ps' hp (by simpa [List.countP_cons, NpItem.consumes] using hc))

theorem countP_fill (n : Nat) : (List.replicate n (NpItem.slice none none none)).countP NpItem.consumes = n := by
  simp [List.countP_replicate, NpItem.consumes]

theorem countP_flat (fill l : List NpItem) :
    (l.flatMap fun it => if it = .ellipsis then fill else [it]).countP NpItem.consumes =
      l.countP NpItem.consumes + l.count .ellipsis * fill.countP NpItem.consumes := by
  induction l with
  | nil => simp
  | cons it l ih =>
    rw [List.flatMap_cons, List.countP_append, ih, List.countP_cons, List.count_cons]
    by_cases h : it = .ellipsis
    · subst h
      simp [NpItem.consumes]; ring
    · have : (it == NpItem.ellipsis) = false := by simpa using h
      simp [h, List.countP_cons]; ring

theorem expand_counts {nd : Nat} {items full : List NpItem} (h : expand nd items = .ok full) : full.countP NpItem.consumes = nd := by
  unfold expand at h
  simp only at h
  split at h
  · cases h
  · split at h
    · cases h
    · rename_i h1 h2
      split at h
      · cases h
        rw [List.countP_append, countP_fill]; omega
      · cases h
        rename_i h3
        rw [countP_flat, countP_fill]
        have : items.count .ellipsis = 1 := by omega
        rw [this]; omega

theorem inB_insert {p : Nat} : ∀ {own idx : List Nat} {len : Nat}, p ≤ own.length → Nd.InB idx (own.insertIdx p len) →
    Nd.InB (idx.eraseIdx p) own ∧ idx.getD p 0 < len ∧ p < idx.length := by
  induction p with
  | zero =>
    intro own idx len _ h
    simp only [List.insertIdx_zero] at h
    cases h with
    | cons hi hr => exact ⟨by simpa using hr, by simpa using hi, by simp⟩
  | succ p ih =>
    intro own idx len hp h
    cases own with
    | nil => simp at hp
    | cons n own =>
      simp only [List.insertIdx_succ_cons] at h
      cases h with
      | cons hi hr =>
        obtain ⟨h1, h2, h3⟩ := ih (by simpa using hp) hr
        exact ⟨by simpa using Nd.InB.cons hi h1, by simpa using h2, by simpa using h3⟩

theorem erase_inj {p : Nat} : ∀ {i j : List Nat}, p < i.length → p < j.length → i.getD p 0 = j.getD p 0 → i.eraseIdx p = j.eraseIdx p →
    i = j := by
  induction p with
  | zero =>
    intro i j hi hj h1 h2
    cases i <;> cases j <;> simp_all
  | succ p ih =>
    intro i j hi hj h1 h2
    cases i with
    | nil => simp at hi
    | cons x i =>
      cases j with
      | nil => simp at hj
      | cons y j =>
        simp only [List.eraseIdx_cons_succ, List.cons.injEq] at h2
        rw [h2.1, ih (by simpa using hi) (by simpa using hj) (by simpa using h1) h2.2]

theorem takeWhile_le (ps : List Piece) : (ps.takeWhile (fun x => ! x.adv)).length ≤ (ps.filterMap Piece.axis).length := by
  induction ps with
  | nil => simp
  | cons p ps ih =>
    cases p with
    | fresh => simpa [List.takeWhile_cons, Piece.adv, Piece.axis] using ih
    | run s t n => simpa [List.takeWhile_cons, Piece.adv, Piece.axis] using ih
    | fixed i => simp [Piece.adv]
    | pick l => simp [Piece.adv]

theorem broadcast_spec {ls : List Nat} {len : Nat} (h : broadcastLen ls = .ok len) :
    (∀ x ∈ ls, x = 1 ∨ x = len) ∧ (len = 1 ∨ len ∈ ls) := by
  unfold broadcastLen at h
  split at h
  · rename_i hf
    cases h
    refine ⟨fun x hx => ?_, Or.inl rfl⟩
    by_contra hc
    have : x ∈ ls.filter (· ≠ 1) := by
      rw [List.mem_filter]
      exact ⟨hx, by simpa using fun h => hc (Or.inl h)⟩
    rw [hf] at this
    simp at this
  · rename_i n rest hf
    split at h
    · rename_i hall
      cases h
      constructor
      · intro x hx
        by_cases h1 : x = 1
        · exact Or.inl h1
        · right
          have : x ∈ ls.filter (· ≠ 1) := by
            rw [List.mem_filter]
            exact ⟨hx, by simpa using h1⟩
          rw [hf] at this
          rcases List.mem_cons.1 this with h | h
          · exact h
          · simpa using List.all_eq_true.1 hall x h
      · right
        have : len ∈ ls.filter (· ≠ 1) := by rw [hf]; simp
        exact (List.mem_filter.1 this).1
    · cases h

theorem mem_pickLengths {ps : List Piece} {l : List Nat} (h : Piece.pick l ∈ ps) : l.length ∈ pickLengths ps := by
  unfold pickLengths
  rw [List.mem_filterMap]
  exact ⟨_, h, rfl⟩

theorem pickLengths_mem {ps : List Piece} {n : Nat} (h : n ∈ pickLengths ps) : ∃ l, Piece.pick l ∈ ps ∧ l.length = n := by
  unfold pickLengths at h
  rw [List.mem_filterMap] at h
  obtain ⟨p, hp, he⟩ := h
  cases p with
  | pick l => exact ⟨l, hp, by simpa using he⟩
  | fresh => simp at he
  | run _ _ _ => simp at he
  | fixed _ => simp at he

theorem walk_inB {ps : List Piece} {shape : List Nat} (h : Fits ps shape) (k : Nat)
    (hk : ∀ l, Piece.pick l ∈ ps → l.length = 1 ∨ k < l.length) :
    ∀ rest, Nd.InB rest (ps.filterMap Piece.axis) → Nd.InB (walk ps k rest) shape := by
  induction h with
  | nil => intro rest _; exact .nil
  | fresh _ ih =>
    intro rest hr
    simp only [List.filterMap_cons, Piece.axis] at hr
    cases hr with
    | cons hi hr => exact ih (fun l hl => hk l (by simp [hl])) _ hr
  | @run ps sh n s t c ht hc _ ih =>
    intro rest hr
    simp only [List.filterMap_cons, Piece.axis] at hr
    cases hr with
    | @cons i _ idx _ hi hr =>
      refine .cons ?_ (ih (fun l hl => hk l (by simp [hl])) _ hr)
      have := hc i hi
      simp only [List.headD_cons]
      omega
  | fixed hi _ ih =>
    intro rest hr
    exact .cons hi (ih (fun l hl => hk l (by simp [hl])) _ (by simpa [List.filterMap_cons, Piece.axis] using hr))
  | @pick ps sh n l hl _ ih =>
    intro rest hr
    refine .cons ?_ (ih (fun l hl => hk l (by simp [hl])) _ (by simpa [List.filterMap_cons, Piece.axis] using hr))
    split
    · rename_i h1
      have h0 : 0 < l.length := by omega
      rw [List.getD_eq_getElem _ _ h0]
      exact hl _ (List.getElem_mem h0)
    · rename_i h1
      have h0 : k < l.length := by
        rcases hk l (by simp) with h | h
        · exact absurd h h1
        · exact h
      rw [List.getD_eq_getElem _ _ h0]
      exact hl _ (List.getElem_mem h0)

theorem walk_inj {ps : List Piece} {shape : List Nat} (h : Fits ps shape) (k k' : Nat) :
    ∀ rest rest', Nd.InB rest (ps.filterMap Piece.axis) → Nd.InB rest' (ps.filterMap Piece.axis) → walk ps k rest = walk ps k' rest' →
      rest = rest' ∧ ∀ l, Piece.pick l ∈ ps → l.length ≠ 1 → l.getD k 0 = l.getD k' 0 := by
  induction h with
  | nil =>
    intro rest rest' h1 h2 _
    cases h1; cases h2
    exact ⟨rfl, by simp⟩
  | fresh _ ih =>
    intro rest rest' h1 h2 he
    simp only [List.filterMap_cons, Piece.axis] at h1 h2
    cases h1 with
    | @cons i _ r _ hi h1 =>
      cases h2 with
      | @cons i' _ r' _ hi' h2 =>
        obtain ⟨e1, e2⟩ := ih _ _ h1 h2 (by simpa [walk] using he)
        refine ⟨by rw [e1]; congr 1; omega, ?_⟩
        intro l hl
        exact e2 l (by simpa using hl)
  | @run ps sh n s t c ht hc _ ih =>
    intro rest rest' h1 h2 he
    simp only [List.filterMap_cons, Piece.axis] at h1 h2
    cases h1 with
    | @cons i _ r _ hi h1 =>
      cases h2 with
      | @cons i' _ r' _ hi' h2 =>
        simp only [walk, List.headD_cons, List.tail_cons, List.cons.injEq] at he
        obtain ⟨e1, e2⟩ := ih _ _ h1 h2 he.2
        have a1 := hc i hi
        have a2 := hc i' hi'
        have a3 : (i : Int) * t = (i' : Int) * t := by
          have := he.1
          omega
        have a4 := mul_right_cancel₀ ht a3
        refine ⟨by rw [e1]; congr 1; omega, ?_⟩
        intro l hl
        exact e2 l (by simpa using hl)
  | fixed hi _ ih =>
    intro rest rest' h1 h2 he
    simp only [walk, List.cons.injEq] at he
    obtain ⟨e1, e2⟩ := ih rest rest' (by simpa [List.filterMap_cons, Piece.axis] using h1)
      (by simpa [List.filterMap_cons, Piece.axis] using h2) he.2
    exact ⟨e1, fun l hl => e2 l (by simpa using hl)⟩
  | @pick ps sh n l hl _ ih =>
    intro rest rest' h1 h2 he
    simp only [walk, List.cons.injEq] at he
    obtain ⟨e1, e2⟩ := ih rest rest' (by simpa [List.filterMap_cons, Piece.axis] using h1)
      (by simpa [List.filterMap_cons, Piece.axis] using h2) he.2
    refine ⟨e1, fun l' hl' hne => ?_⟩
    rcases List.mem_cons.1 hl' with h | h
    · cases h
      have := he.1
      simpa [hne] using this
    · exact e2 l' h hne

theorem view_inB {ps : List Piece} {shape : List Nat} {v : View} (hf : Fits ps shape) (hv : view ps = .ok v) :
    ∀ j, Nd.InB j v.shape → Nd.InB (v.src j) shape := by
  unfold view at hv
  simp only at hv
  split at hv
  · split at hv
    · cases hv
    · rename_i len hb
      cases hv
      intro j hj
      have hb := broadcast_spec hb
      have hp : (if contiguous ps then (ps.takeWhile (fun x => ! x.adv)).length else 0) ≤ (ps.filterMap Piece.axis).length := by
        split
        · exact takeWhile_le ps
        · omega
      obtain ⟨h1, h2, _⟩ := inB_insert hp hj
      refine walk_inB hf _ ?_ _ h1
      intro l hl
      rcases hb.1 _ (mem_pickLengths hl) with h | h
      · exact Or.inl h
      · exact Or.inr (by rw [h]; exact h2)
  · rename_i hany
    cases hv
    intro j hj
    refine walk_inB hf _ ?_ _ hj
    intro l hl
    exact absurd (List.any_eq_true.2 ⟨_, hl, rfl⟩) hany

theorem view_inj {ps : List Piece} {shape : List Nat} {v : View} (hf : Fits ps shape) (hv : view ps = .ok v)
    (hn : ∀ l, Piece.pick l ∈ ps → l.Nodup) :
    ∀ j j', Nd.InB j v.shape → Nd.InB j' v.shape → v.src j = v.src j' → j = j' := by
  unfold view at hv
  simp only at hv
  split at hv
  · split at hv
    · cases hv
    · rename_i len hb
      cases hv
      intro j j' hj hj' he
      have hb := broadcast_spec hb
      have hp : (if contiguous ps then (ps.takeWhile (fun x => ! x.adv)).length else 0) ≤ (ps.filterMap Piece.axis).length := by
        split
        · exact takeWhile_le ps
        · omega
      obtain ⟨h1, h2, h3⟩ := inB_insert hp hj
      obtain ⟨g1, g2, g3⟩ := inB_insert hp hj'
      obtain ⟨e1, e2⟩ := walk_inj hf _ _ _ _ h1 g1 he
      refine erase_inj h3 g3 ?_ e1
      rcases hb.2 with h | h
      · omega
      · obtain ⟨l, hl, hlen⟩ := pickLengths_mem h
        by_cases h11 : l.length = 1
        · omega
        · have := e2 l hl h11
          generalize j.getD _ 0 = x at this h2 ⊢
          generalize j'.getD _ 0 = y at this g2 ⊢
          have hx : x < l.length := by omega
          have hy : y < l.length := by omega
          rw [List.getD_eq_getElem _ _ hx, List.getD_eq_getElem _ _ hy] at this
          exact (List.Nodup.getElem_inj_iff (hn l hl)).1 this
  · rename_i hany
    cases hv
    intro j j' hj hj' he
    exact (walk_inj hf _ _ _ _ hj hj' he).1

/-! ## What an index selects does not depend on the values -/

/-- The selection of an index: translated items, numpy's view. -/
def Selects {δ κ : Type} (ops : DimOps δ κ) (shape : List Nat) (dims : List δ) (index : List (Item κ)) (v : View) : Prop :=
  ∃ items, computeIndices ops dims index.length 0 index = .ok items ∧ npIndex shape items = .ok v

theorem new_get {δ κ α : Type} {ops : DimOps δ κ} {shape : List Nat} {get : List Nat → α} {dims : List δ} {r : Awu δ α}
    (h : Awu.new ops shape get dims = .ok r) : r.shape = shape ∧ r.get = get ∧ installAll ops dims shape = .ok r.dims ∧
      shape.length = dims.length := by
  unfold Awu.new at h
  split at h
  · cases h
  · rename_i hl
    split at h
    · cases h
    · rename_i ds hd
      cases h
      exact ⟨rfl, rfl, hd, by simpa using hl⟩

theorem getitem_selects {δ κ α : Type} {ops : DimOps δ κ} {a : Awu δ α} {index : List (Item κ)} {r : Awu δ α}
    (h : a.getitem ops index = .ok r) :
    ∃ v, Selects ops a.shape a.dims index v ∧ r.shape = v.shape ∧ ∀ j, r.get j = a.get (v.src j) := by
  unfold Awu.getitem at h
  split at h
  · cases h
  · rename_i items hc
    split at h
    · cases h
    · rename_i v hv
      split at h
      · cases h
      · obtain ⟨h1, h2, _⟩ := new_get h
        exact ⟨v, ⟨items, hc, hv⟩, h1, fun j => by rw [h2]⟩

theorem Selects.unique {δ κ : Type} {ops : DimOps δ κ} {shape : List Nat} {dims : List δ} {index : List (Item κ)} {v v' : View}
    (h : Selects ops shape dims index v) (h' : Selects ops shape dims index v') : v = v' := by
  obtain ⟨i, h1, h2⟩ := h
  obtain ⟨i', h1', h2'⟩ := h'
  rw [h1] at h1'
  cases h1'
  rw [h2] at h2'
  cases h2'
  rfl

/-- Indexing looks at shape and dimensions only: two arrays that agree in those give results that agree in them, with values from the
same positions. -/
theorem getitem_map {δ κ α β : Type} {ops : DimOps δ κ} {a : Awu δ α} {index : List (Item κ)} {r : Awu δ α}
    (h : a.getitem ops index = .ok r) (f : List Nat → β) :
    ∃ v, Selects ops a.shape a.dims index v ∧ r.shape = v.shape ∧ (∀ j, r.get j = a.get (v.src j)) ∧
      Awu.getitem ops ⟨a.shape, a.dims, f⟩ index = .ok ⟨r.shape, r.dims, fun j => f (v.src j)⟩ := by
  unfold Awu.getitem at h
  split at h
  · cases h
  · rename_i items hc
    split at h
    · cases h
    · rename_i v hv
      split at h
      · cases h
      · rename_i ds hds
        obtain ⟨h1, h2, h3, h4⟩ := new_get h
        refine ⟨v, ⟨items, hc, hv⟩, h1, fun j => by rw [h2], ?_⟩
        unfold Awu.getitem
        simp only [hc, hv, hds]
        unfold Awu.new
        rw [if_neg (by simpa using h4), h3, h1]

theorem selects_inB {δ κ : Type} {ops : DimOps δ κ} {shape : List Nat} {dims : List δ} {index : List (Item κ)} {v : View}
    (h : Selects ops shape dims index v) : ∀ j, Nd.InB j v.shape → Nd.InB (v.src j) shape := by
  obtain ⟨items, _, hv⟩ := h
  unfold npIndex at hv
  split at hv
  · cases hv
  · rename_i full he
    split at hv
    · cases hv
    · rename_i ps hp
      exact view_inB (fits_of_pieces full shape ps hp (expand_counts he)) hv

theorem compute_lists {δ κ : Type} {ops : DimOps δ κ} (hn : NoLists ops) (dims : List δ) (n : Nat) (index : List (Item κ)) :
    ∀ pos items, computeIndices ops dims n pos index = .ok items → ∀ l, NpItem.list l ∈ items → Item.list l ∈ index := by
  induction index with
  | nil => intro pos items h; simp [computeIndices] at h; subst h; simp
  | cons it rest ih =>
    intro pos items h l hl
    cases it with
    | ellipsis =>
      simp only [computeIndices] at h
      split at h
      · cases h
      · rename_i out ho
        cases h
        have := ih _ _ ho l (by simpa using hl)
        simp [this]
    | custom c =>
      simp only [computeIndices, Item.raw] at h
      split at h
      · cases h
      · split at h
        · cases h
        · rename_i r hr
          split at h
          · cases h
          · rename_i out ho
            cases h
            rcases List.mem_cons.1 hl with h | h
            · exact absurd h.symm (hn _ _ _ hr l)
            · simp [ih _ _ ho l h]
    | npInt i =>
      simp only [computeIndices, Item.raw] at h
      split at h
      · cases h
      · split at h
        · cases h
        · rename_i r hr
          split at h
          · cases h
          · rename_i out ho
            cases h
            rcases List.mem_cons.1 hl with h | h
            · exact absurd h.symm (hn _ _ _ hr l)
            · simp [ih _ _ ho l h]
    | newaxis =>
      simp only [computeIndices, Item.raw] at h
      split at h
      · cases h
      · rename_i out ho
        cases h
        have := ih _ _ ho l (by simpa using hl)
        simp [this]
    | int i =>
      simp only [computeIndices, Item.raw] at h
      split at h
      · cases h
      · rename_i out ho
        cases h
        have := ih _ _ ho l (by simpa using hl)
        simp [this]
    | list l' =>
      simp only [computeIndices, Item.raw] at h
      split at h
      · cases h
      · rename_i out ho
        cases h
        rcases List.mem_cons.1 hl with h | h
        · cases h; simp
        · simp [ih _ _ ho l h]
    | slice a b st =>
      simp only [computeIndices] at h
      split at h
      · rename_i r hr
        split at h
        · cases h
        · rename_i out ho
          cases h
          rcases List.mem_cons.1 hl with h | h
          · subst h
            simp only [Item.raw] at hr
            split at hr <;> cases hr
          · simp [ih _ _ ho l h]
      · split at h
        · cases h
        · split at h
          · cases h
          · rename_i r hr
            split at h
            · cases h
            · rename_i out ho
              cases h
              rcases List.mem_cons.1 hl with h | h
              · exact absurd h.symm (hn _ _ _ hr l)
              · simp [ih _ _ ho l h]

theorem expand_lists {nd : Nat} {items full : List NpItem} (h : expand nd items = .ok full) (l : List Int) (hl : NpItem.list l ∈ full) :
    NpItem.list l ∈ items := by
  unfold expand at h
  simp only at h
  split at h
  · cases h
  · split at h
    · cases h
    · split at h
      · cases h
        rcases List.mem_append.1 hl with h | h
        · exact h
        · have := List.eq_of_mem_replicate h
          cases this
      · cases h
        obtain ⟨it, hi, hm⟩ := List.mem_flatMap.1 hl
        split at hm
        · have := List.eq_of_mem_replicate hm
          cases this
        · rw [List.mem_singleton.1 hm]; exact hi

theorem pieces_lists (items : List NpItem) : ∀ (shape : List Nat) (ps : List Piece), pieces items shape = .ok ps →
    ∀ ks, Piece.pick ks ∈ ps → ∃ l n, NpItem.list l ∈ items ∧ normList n l = .ok ks := by
  induction items with
  | nil => intro shape ps h; simp [pieces] at h; subst h; simp
  | cons it items ih =>
    intro shape ps h ks hk
    cases it with
    | newaxis =>
      simp only [pieces] at h
      split at h
      · cases h
      · rename_i ps' hp
        cases h
        obtain ⟨l, n, h1, h2⟩ := ih shape ps' hp ks (by simpa using hk)
        exact ⟨l, n, by simp [h1], h2⟩
    | ellipsis => simp [pieces] at h
    | int i =>
      cases shape with
      | nil => simp [pieces] at h
      | cons n shape =>
        simp only [pieces] at h
        split at h
        · cases h
        · split at h
          · cases h
          · rename_i ps' hp
            cases h
            obtain ⟨l, n, h1, h2⟩ := ih shape ps' hp ks (by simpa using hk)
            exact ⟨l, n, by simp [h1], h2⟩
    | slice a b st =>
      cases shape with
      | nil => simp [pieces] at h
      | cons n shape =>
        simp only [pieces] at h
        split at h
        · cases h
        · split at h
          · cases h
          · rename_i ps' hp
            cases h
            obtain ⟨l, n, h1, h2⟩ := ih shape ps' hp ks (by simpa using hk)
            exact ⟨l, n, by simp [h1], h2⟩
    | list l =>
      cases shape with
      | nil => simp [pieces] at h
      | cons n shape =>
        simp only [pieces] at h
        split at h
        · cases h
        · rename_i ks' hks
          split at h
          · cases h
          · rename_i ps' hp
            cases h
            rcases List.mem_cons.1 hk with h | h
            · cases h
              exact ⟨l, n, by simp, hks⟩
            · obtain ⟨l, n, h1, h2⟩ := ih shape ps' hp ks h
              exact ⟨l, n, by simp [h1], h2⟩

theorem selects_inj {δ κ : Type} {ops : DimOps δ κ} (hn : NoLists ops) {shape : List Nat} {dims : List δ} {index : List (Item κ)}
    {v : View} (hr : NoRepeats index) (h : Selects ops shape dims index v) :
    ∀ j j', Nd.InB j v.shape → Nd.InB j' v.shape → v.src j = v.src j' → j = j' := by
  obtain ⟨items, hc, hv⟩ := h
  unfold npIndex at hv
  split at hv
  · cases hv
  · rename_i full he
    split at hv
    · cases hv
    · rename_i ps hp
      refine view_inj (fits_of_pieces full shape ps hp (expand_counts he)) hv ?_
      intro ks hks
      obtain ⟨l, n, h1, h2⟩ := pieces_lists full shape ps hp ks hks
      exact hr l (compute_lists hn dims _ index _ _ hc l (expand_lists he l h1)) n ks h2

/-! ## Broadcasting -/

theorem fitsRev_iff (vs : List Nat) : ∀ ts, fitsRev vs ts = true ↔ ∀ (k n : Nat), vs[k]? = some n → n = 1 ∨ ts[k]? = some n := by
  induction vs with
  | nil => intro ts; simp [fitsRev]
  | cons n vs ih =>
    intro ts
    cases ts with
    | nil =>
      rw [fitsRev, Bool.and_eq_true, decide_eq_true_eq, ih]
      constructor
      · rintro ⟨h1, h2⟩ k m hk
        cases k with
        | zero =>
          simp only [List.getElem?_cons_zero, Option.some.injEq] at hk
          omega
        | succ k => simpa using h2 k m (by simpa using hk)
      · intro h
        refine ⟨by simpa using h 0 n (by simp), fun k m hk => ?_⟩
        simpa using h (k + 1) m (by simpa using hk)
    | cons t ts =>
      rw [fitsRev, Bool.and_eq_true, decide_eq_true_eq, ih]
      constructor
      · rintro ⟨h1, h2⟩ k m hk
        cases k with
        | zero =>
          simp only [List.getElem?_cons_zero, Option.some.injEq] at hk ⊢
          omega
        | succ k => simpa using h2 k m (by simpa using hk)
      · intro h
        refine ⟨?_, fun k m hk => ?_⟩
        · have := h 0 n (by simp)
          simp only [List.getElem?_cons_zero, Option.some.injEq] at this
          omega
        · simpa using h (k + 1) m (by simpa using hk)

theorem bcastIdxRev_spec (vs : List Nat) : ∀ j, (bcastIdxRev vs j).length = vs.length ∧
    ∀ (k n : Nat), vs[k]? = some n → (bcastIdxRev vs j)[k]? = some (if n = 1 then 0 else j.getD k 0) := by
  induction vs with
  | nil => intro j; simp [bcastIdxRev]
  | cons n vs ih =>
    intro j
    cases j with
    | nil =>
      refine ⟨by simp [bcastIdxRev, (ih []).1], fun k m hk => ?_⟩
      cases k with
      | zero => simp [bcastIdxRev]
      | succ k => simpa [bcastIdxRev] using (ih []).2 k m (by simpa using hk)
    | cons i j =>
      refine ⟨by simp [bcastIdxRev, (ih j).1], fun k m hk => ?_⟩
      cases k with
      | zero =>
        simp only [List.getElem?_cons_zero, Option.some.injEq] at hk
        subst hk
        simp [bcastIdxRev]
      | succ k => simpa [bcastIdxRev] using (ih j).2 k m (by simpa using hk)

theorem bcast_some {vs ts : List Nat} {f : List Nat → List Nat} (h : bcast vs ts = some f) : Spreads vs ts ∧ ∀ j, SpreadIdx vs j (f j) := by
  unfold bcast at h
  split at h
  · rename_i hf
    cases h
    refine ⟨(fitsRev_iff _ _).1 hf, fun j => ?_⟩
    have := bcastIdxRev_spec vs.reverse j.reverse
    exact ⟨by simpa using this.1, by simpa using this.2⟩
  · cases h

theorem bcast_iff (vs ts : List Nat) : (∃ f, bcast vs ts = some f) ↔ Spreads vs ts := by
  constructor
  · rintro ⟨f, h⟩
    exact (bcast_some h).1
  · intro h
    refine ⟨_, by unfold bcast; rw [if_pos ((fitsRev_iff _ _).2 h)]⟩

theorem SpreadIdx.unique {vs j i i' : List Nat} (h : SpreadIdx vs j i) (h' : SpreadIdx vs j i') : i = i' := by
  rw [← List.reverse_inj]
  apply List.ext_getElem?
  intro k
  by_cases hk : k < vs.length
  · have : ∃ n, vs.reverse[k]? = some n := ⟨_, List.getElem?_eq_getElem (by simpa using hk)⟩
    obtain ⟨n, hn⟩ := this
    rw [h.2 k n hn, h'.2 k n hn]
  · rw [List.getElem?_eq_none (by rw [List.length_reverse, h.1]; omega), List.getElem?_eq_none (by rw [List.length_reverse, h'.1]; omega)]

/-! ## Stores -/

theorem storeAll_next {α : Type} (l : List (Nat × α)) : ∀ m : Mem α, (m.storeAll l).next = m.next := by
  induction l with
  | nil => intro m; rfl
  | cons p l ih => intro m; exact ih (m.store p.1 p.2)

theorem storeAll_frame {α : Type} (l : List (Nat × α)) : ∀ (m : Mem α) (i : Nat), (∀ p ∈ l, p.1 ≠ i) → (m.storeAll l).cells i = m.cells i := by
  induction l with
  | nil => intro m i _; rfl
  | cons p l ih =>
    intro m i h
    have : (m.storeAll (p :: l)) = (m.store p.1 p.2).storeAll l := rfl
    rw [this, ih _ i (fun q hq => h q (by simp [hq]))]
    simp [Mem.store, (h p (by simp)).symm]

theorem storeAll_last {α : Type} (l : List (Nat × α)) (k : Nat) : ∀ (m : Mem α) (hk : k < l.length),
    (∀ k' (hk' : k' < l.length), k < k' → l[k'].1 ≠ l[k].1) → (m.storeAll l).cells l[k].1 = l[k].2 := by
  induction l generalizing k with
  | nil => intro m hk; simp at hk
  | cons p l ih =>
    intro m hk h
    have e : (m.storeAll (p :: l)) = (m.store p.1 p.2).storeAll l := rfl
    rw [e]
    cases k with
    | zero =>
      simp only [List.getElem_cons_zero]
      rw [storeAll_frame]
      · simp [Mem.store]
      · intro q hq
        obtain ⟨k', hk', rfl⟩ := List.getElem_of_mem hq
        have := h (k' + 1) (by simpa using hk') (by omega)
        rwa [List.getElem_cons_succ, List.getElem_cons_zero] at this
    | succ k =>
      simp only [List.getElem_cons_succ]
      refine ih k _ (by simpa using hk) ?_
      intro k' hk' hlt
      have := h (k' + 1) (by simpa using hk') (by omega)
      rwa [List.getElem_cons_succ, List.getElem_cons_succ] at this

/-! ## C241 -/

theorem setitem_ok {δ κ α : Type} {ops : DimOps δ κ} {m m' : Mem α} {a : Awu δ Nat} {index : List (Item κ)} {vshape : List Nat}
    {val : List Nat → α} (h : setitem ops m a index vshape val = .ok m') :
    ∃ v f, Selects ops a.shape a.dims index v ∧ bcast vshape v.shape = some f ∧
      m' = m.storeAll ((allIdx v.shape).map fun j => (a.get (v.src j), val (f j))) := by
  unfold setitem at h
  split at h
  · cases h
  · rename_i items hc
    split at h
    · cases h
    · rename_i v hv
      split at h
      · cases h
      · rename_i f hf
        cases h
        exact ⟨v, f, ⟨items, hc, hv⟩, hf, rfl⟩

/-- **C241**: whatever can be read through an index can be written through it, if the value spreads over the selection by numpy's rule;
otherwise a ValueError. -/
theorem C241_writable {δ κ α : Type} (ops : DimOps δ κ) (m : Mem α) (a : Awu δ Nat) (index : List (Item κ)) (vshape : List Nat)
    (val : List Nat → α) (b : Awu δ (List Nat)) (hb : (positions a.shape a.dims).getitem ops index = .ok b) :
    (Spreads vshape b.shape → ∃ m', setitem ops m a index vshape val = .ok m') ∧
    (¬ Spreads vshape b.shape → setitem ops m a index vshape val = .error .valueError) := by
  obtain ⟨v, ⟨items, h1, h2⟩, h3, h4⟩ := getitem_selects hb
  simp only [positions] at h1 h2
  constructor
  · intro hs
    obtain ⟨f, hf⟩ := (bcast_iff vshape v.shape).2 (h3 ▸ hs)
    unfold setitem
    simp only [h1, h2, hf]
    exact ⟨_, rfl⟩
  · intro hs
    have : bcast vshape v.shape = none := by
      cases hf : bcast vshape v.shape with
      | none => rfl
      | some f => exact absurd (h3 ▸ (bcast_iff vshape v.shape).1 ⟨f, hf⟩) hs
    unfold setitem
    simp only [h1, h2, this]

/-- **C241**: assigning through an index writes the positions the index selects, and nothing else: the selection's index `j` gets the
value's number for `j`, unless a later index of the selection is the same position; other positions of the array, and memory that
does not belong to the array, stay as they are. -/
theorem C241_writes {δ κ α : Type} (ops : DimOps δ κ) (m m' : Mem α) (a : Awu δ Nat) (ha : Held m a) (index : List (Item κ))
    (vshape : List Nat) (val : List Nat → α) (b : Awu δ (List Nat)) (hb : (positions a.shape a.dims).getitem ops index = .ok b)
    (h : setitem ops m a index vshape val = .ok m') :
    (∀ j, Nd.InB j b.shape → Nd.InB (b.get j) a.shape) ∧
    (∀ j i, Nd.InB j b.shape → (∀ j', Nd.InB j' b.shape → Nd.Before j j' → b.get j' ≠ b.get j) → SpreadIdx vshape j i →
      (m'.read a).get (b.get j) = val i) ∧
    (∀ p, Nd.InB p a.shape → (∀ j, Nd.InB j b.shape → b.get j ≠ p) → (m'.read a).get p = (m.read a).get p) ∧
    (∀ i, (∀ p, Nd.InB p a.shape → a.get p ≠ i) → m'.cells i = m.cells i) := by
  obtain ⟨v, hv, h3, h4⟩ := getitem_selects hb
  simp only [positions] at hv h4
  obtain ⟨v', f, hv', hf, rfl⟩ := setitem_ok h
  obtain rfl := hv.unique hv'
  have hin := selects_inB hv
  rw [h3]
  have hpos : ∀ j, Nd.InB j v.shape → Nd.InB (b.get j) a.shape := fun j hj => by rw [h4]; exact hin j hj
  refine ⟨hpos, ?_, ?_, ?_⟩
  · intro j i hj hlast hi
    obtain ⟨k, hk, hjk⟩ := List.getElem_of_mem ((mem_allIdx v.shape j).2 hj)
    have hfi : f j = i := ((bcast_some hf).2 j).unique hi
    have := storeAll_last ((allIdx v.shape).map fun j => (a.get (v.src j), val (f j))) k m (by simpa using hk) ?_
    · simp only [List.getElem_map, hjk, hfi] at this
      simpa [Mem.read, h4] using this
    · intro k' hk' hlt
      simp only [List.getElem_map, hjk]
      simp only [List.length_map] at hk'
      have hj' : Nd.InB ((allIdx v.shape)[k']) v.shape := (mem_allIdx _ _).1 (List.getElem_mem hk')
      intro he
      have hb : Nd.Before j ((allIdx v.shape)[k']) := by
        have := List.pairwise_iff_getElem.1 (allIdx_sorted v.shape) k k' hk hk' hlt
        rwa [hjk] at this
      refine hlast _ hj' hb ?_
      rw [h4, h4]
      exact ha.2 _ _ (hin _ hj') (hin _ hj) he
  · intro p hp hne
    simp only [Mem.read]
    apply storeAll_frame
    intro q hq
    obtain ⟨j, hj, rfl⟩ := List.mem_map.1 hq
    have hj := (mem_allIdx _ _).1 hj
    intro he
    exact hne j hj (by rw [h4]; exact ha.2 _ _ (hin j hj) hp he)
  · intro i hne
    apply storeAll_frame
    intro q hq
    obtain ⟨j, hj, rfl⟩ := List.mem_map.1 hq
    exact hne _ (hin j ((mem_allIdx _ _).1 hj))

/-- **C241** (read back): without repeated positions in lists, reading through the index that was written gives the value, spread over
the selection. -/
theorem C241_read_back {δ κ α : Type} (ops : DimOps δ κ) (hn : NoLists ops) (m m' : Mem α) (a : Awu δ Nat) (ha : Held m a)
    (index : List (Item κ)) (hr : NoRepeats index) (vshape : List Nat) (val : List Nat → α)
    (h : setitem ops m a index vshape val = .ok m') (b : Awu δ α) (hb : (m'.read a).getitem ops index = .ok b)
    (j i : List Nat) (hj : Nd.InB j b.shape) (hi : SpreadIdx vshape j i) : b.get j = val i := by
  obtain ⟨v, hv, h3, h4, h5⟩ := getitem_map hb (fun p => p)
  simp only [Mem.read] at hv h4
  have hw := (C241_writes ops m m' a ha index vshape val _ h5 h).2.1 j i hj ?_ hi
  · simpa [Mem.read, h4] using hw
  · intro j' hj' hbef he
    simp only at hj' he
    have := selects_inj hn hr hv j' j (h3 ▸ hj') (h3 ▸ hj) he
    subst this
    exact before_irrefl _ hbef

/-- **C241** (repeated positions): a list that names a position twice keeps the value of the later place in the list. -/
theorem C241_repeated {δ κ α : Type} (ops : DimOps δ κ) (m : Mem α) (a : Awu δ Nat) (n : Nat) (d : δ) (hs : a.shape = [n]) (hd : a.dims = [d])
    (ha : Held m a) (k : Nat) (hk : k < n) (x y : α) :
    ∃ m', setitem ops m a [.list [(k : Int), (k : Int)]] [2] (fun i => if i = [0] then x else y) = .ok m' ∧
      (m'.read a).get [k] = y ∧ ∀ i < n, i ≠ k → (m'.read a).get [i] = (m.read a).get [i] := by
  have hnorm : normIndex n (k : Int) = .ok k := by
    unfold normIndex
    rw [if_neg (by omega), if_neg (by omega)]
    simp
  have hv : npIndex [n] [.list [(k : Int), (k : Int)]] = .ok ⟨[2], fun idx => walk [.pick [k, k]] (idx.getD 0 0) (idx.eraseIdx 0)⟩ := by
    simp [npIndex, expand, pieces, normList, hnorm, view, Piece.isPick, pickLengths, broadcastLen, contiguous, Piece.adv,
      NpItem.consumes, Piece.axis]
  refine ⟨(m.store (a.get [k]) x).store (a.get [k]) y, ?_, ?_, ?_⟩
  · unfold setitem
    simp only [computeIndices, Item.raw, hs, hv]
    simp [bcast, fitsRev, allIdx, bcastIdxRev, walk, Mem.storeAll, List.range_succ]
  · simp [Mem.read, Mem.store]
  · intro i hi hne
    have : a.get [i] ≠ a.get [k] := by
      intro he
      have := ha.2 [i] [k] (by rw [hs]; exact .cons hi .nil) (by rw [hs]; exact .cons hk .nil) he
      exact hne (by simpa using this)
    simp [Mem.read, Mem.store, this]

/-! ## C242 -/

/-- **C242** (slices are windows): an index without lists, unless it picks a single number, allocates nothing and stores nothing; from
then on, whatever is written to memory, the result reads the same as indexing the array again. -/
theorem C242_window {δ κ α : Type} (ops : DimOps δ κ) (m m1 : Mem α) (a b : Awu δ Nat) (index : List (Item κ))
    (hl : ∀ l, Item.list l ∉ index) (hb : b.shape ≠ [] ∨ Item.ellipsis ∈ index) (h : getitemIn ops m a index = .ok (m1, b)) :
    m1 = m ∧ ∀ m' : Mem α, (m'.read a).getitem ops index = .ok (m'.read b) := by
  unfold getitemIn at h
  split at h
  · cases h
  · rename_i r hr
    split at h
    · cases h
      refine ⟨rfl, fun m' => ?_⟩
      obtain ⟨v, hv, h3, h4, h5⟩ := getitem_map hr (fun p => m'.cells (a.get p))
      unfold Mem.read
      rw [h5]
      congr 2
      funext j
      rw [h4]
    · rename_i hs
      exfalso
      apply hs
      simp only [Except.ok.injEq, Mem.alloc, Prod.mk.injEq] at h
      have hsh : b.shape = r.shape := by rw [← h.2]; rfl
      unfold sharesMemory
      rw [Bool.and_eq_true]
      constructor
      · rw [List.all_eq_true]
        intro it hit
        cases it with
        | list l => exact absurd hit (hl l)
        | _ => rfl
      · rw [Bool.or_eq_true]
        rcases hb with hb | hb
        · left
          rw [hsh] at hb
          cases hc : r.shape with
          | nil => exact absurd hc hb
          | cons _ _ => rfl
        · right
          rw [List.any_eq_true]
          exact ⟨_, hb, rfl⟩

/-- **C242** (writing to a slice): assigning to (an index of) a slice changes the array it was taken from at the positions selected by
both, and nowhere else. -/
theorem C242_write_through {δ κ α : Type} (ops : DimOps δ κ) (hn : NoLists ops) (m m1 m' : Mem α) (a b : Awu δ Nat) (ha : Held m a)
    (index index2 : List (Item κ)) (hl : ∀ l, Item.list l ∉ index) (hb : b.shape ≠ [] ∨ Item.ellipsis ∈ index)
    (h : getitemIn ops m a index = .ok (m1, b)) (vshape : List Nat) (val : List Nat → α)
    (hw : setitem ops m1 b index2 vshape val = .ok m') (q : Awu δ (List Nat)) (hq : (positions b.shape b.dims).getitem ops index2 = .ok q)
    (p : Awu δ (List Nat)) (hp : (positions a.shape a.dims).getitem ops index = .ok p) :
    Held m1 b ∧ p.shape = b.shape ∧
    (∀ j i, Nd.InB j q.shape → (∀ j', Nd.InB j' q.shape → Nd.Before j j' → q.get j' ≠ q.get j) → SpreadIdx vshape j i →
      (m'.read a).get (p.get (q.get j)) = val i) ∧
    (∀ x, Nd.InB x a.shape → (∀ j, Nd.InB j q.shape → p.get (q.get j) ≠ x) → (m'.read a).get x = (m.read a).get x) := by
  have hnr : NoRepeats index := fun l hl' => absurd hl' (hl l)
  have hwin := (C242_window ops m m1 a b index hl hb h).1
  subst hwin
  -- the view
  have hview : ∃ v, Selects ops a.shape a.dims index v ∧ b.shape = v.shape ∧ ∀ j, b.get j = a.get (v.src j) := by
    unfold getitemIn at h
    split at h
    · cases h
    · rename_i r hr
      have := getitem_selects hr
      split at h
      · cases h; exact this
      · exfalso
        rename_i hs
        apply hs
        simp only [Except.ok.injEq, Mem.alloc, Prod.mk.injEq] at h
        have hsh : b.shape = r.shape := by rw [← h.2]; rfl
        unfold sharesMemory
        rw [Bool.and_eq_true]
        constructor
        · rw [List.all_eq_true]
          intro it hit
          cases it with
          | list l => exact absurd hit (hl l)
          | _ => rfl
        · rw [Bool.or_eq_true]
          rcases hb with hb | hb
          · left
            rw [hsh] at hb
            cases hc : r.shape with
            | nil => exact absurd hc hb
            | cons _ _ => rfl
          · right
            rw [List.any_eq_true]
            exact ⟨_, hb, rfl⟩
  obtain ⟨v, hv, hsh, hget⟩ := hview
  obtain ⟨v', hv', hsh', hget'⟩ := getitem_selects hp
  simp only [positions] at hv' hget'
  obtain rfl := hv.unique hv'
  have hin := selects_inB hv
  have hheld : Held m1 b := by
    refine ⟨fun j hj => ?_, fun j j' hj hj' he => ?_⟩
    · rw [hget]; exact ha.1 _ (hin j (hsh ▸ hj))
    · rw [hget, hget] at he
      exact selects_inj hn hnr hv j j' (hsh ▸ hj) (hsh ▸ hj') (ha.2 _ _ (hin j (hsh ▸ hj)) (hin j' (hsh ▸ hj')) he)
  obtain ⟨w1, w2, w3, w4⟩ := C241_writes ops m1 m' b hheld index2 vshape val q hq hw
  refine ⟨hheld, by rw [hsh', hsh], ?_, ?_⟩
  · intro j i hj hlast hi
    have := w2 j i hj hlast hi
    simp only [Mem.read, hget] at this
    simpa [Mem.read, hget'] using this
  · intro x hx hne
    simp only [Mem.read]
    by_cases hc : ∃ y, Nd.InB y b.shape ∧ b.get y = a.get x
    · obtain ⟨y, hy, hye⟩ := hc
      have := w3 y hy ?_
      · simpa [Mem.read, hye] using this
      · intro j hj he
        apply hne j hj
        rw [hget', he]
        rw [hget] at hye
        exact ha.2 _ _ (hin y (hsh ▸ hy)) hx hye
    · apply w4
      intro y hy he
      exact hc ⟨y, hy, he⟩

theorem setitem_frame {δ κ α : Type} {ops : DimOps δ κ} {m m' : Mem α} {a : Awu δ Nat} {index : List (Item κ)} {vshape : List Nat}
    {val : List Nat → α} (h : setitem ops m a index vshape val = .ok m') (i : Nat) (hi : ∀ p, Nd.InB p a.shape → a.get p ≠ i) :
    m'.cells i = m.cells i := by
  obtain ⟨v, f, hv, hf, rfl⟩ := setitem_ok h
  apply storeAll_frame
  intro q hq
  obtain ⟨j, hj, rfl⟩ := List.mem_map.1 hq
  exact hi _ (selects_inB hv j ((mem_allIdx _ _).1 hj))

/-- **C242** (lists copy): the result of an index with a list, or of one that picks a single number without an ellipsis, reads as the selection and has
cells of its own: writing to it never changes the array, and writing to the array never changes it. -/
theorem C242_copy {δ κ α : Type} (ops : DimOps δ κ) (m m1 : Mem α) (a b : Awu δ Nat) (ha : Held m a)
    (index : List (Item κ)) (hl : (∃ l, Item.list l ∈ index) ∨ (b.shape = [] ∧ Item.ellipsis ∉ index))
    (h : getitemIn ops m a index = .ok (m1, b)) :
    Held m1 b ∧
    (∃ r, (m.read a).getitem ops index = .ok r ∧ r.shape = b.shape ∧ r.dims = b.dims ∧
      ∀ j, Nd.InB j b.shape → (m1.read b).get j = r.get j) ∧
    (∀ p, Nd.InB p a.shape → (m1.read a).get p = (m.read a).get p) ∧
    (∀ index2 vshape val m', setitem ops m1 b index2 vshape val = .ok m' →
      ∀ p, Nd.InB p a.shape → (m'.read a).get p = (m.read a).get p) ∧
    (∀ index2 vshape val m', setitem ops m1 a index2 vshape val = .ok m' →
      ∀ j, Nd.InB j b.shape → (m'.read b).get j = (m1.read b).get j) := by
  unfold getitemIn at h
  split at h
  · cases h
  · rename_i r hr
    split at h
    · exfalso
      rename_i hs
      unfold sharesMemory at hs
      rw [Bool.and_eq_true, List.all_eq_true] at hs
      rcases hl with ⟨l, hl⟩ | ⟨hl, he⟩
      · exact absurd (hs.1 _ hl) (by simp)
      · cases h
        have h2 := hs.2
        rw [hl] at h2
        simp only [List.isEmpty_nil, Bool.not_true, Bool.false_or, List.any_eq_true] at h2
        obtain ⟨it, hit, hx⟩ := h2
        cases it with
        | ellipsis => exact he hit
        | _ => exact absurd hx (by simp)
    · simp only [Mem.alloc, Mem.read, Except.ok.injEq, Prod.mk.injEq] at h
      obtain ⟨rfl, rfl⟩ := h
      have hfresh : ∀ p, Nd.InB p a.shape → ∀ j, Nd.InB j r.shape → a.get p ≠ m.next + Nd.ravel r.shape j := by
        intro p hp j hj he
        have := ha.1 p hp
        omega
      have hold : ∀ p, Nd.InB p a.shape → ¬ (m.next ≤ a.get p ∧ a.get p < m.next + Nd.size r.shape) := by
        intro p hp hc
        have := ha.1 p hp
        omega
      obtain ⟨v, hv, h3, h4, h5⟩ := getitem_map hr (fun p => m.cells (a.get p))
      refine ⟨⟨?_, ?_⟩, ⟨_, h5, rfl, rfl, ?_⟩, ?_, ?_, ?_⟩
      · intro j hj
        have := Nd.ravel_lt hj
        simp only at this ⊢
        omega
      · intro j j' hj hj' he
        simp only at he
        have e : Nd.ravel r.shape j = Nd.ravel r.shape j' := by omega
        rw [← Nd.unravel_ravel hj, ← Nd.unravel_ravel hj']
        simp only
        rw [e]
      · intro j hj
        have hlt := Nd.ravel_lt hj
        simp only at hlt
        simp only [Mem.read]
        refine (if_pos ⟨by omega, by omega⟩).trans ?_
        rw [Nat.add_sub_cancel_left, Nd.unravel_ravel hj, h4]
      · intro p hp
        exact if_neg (hold p hp)
      · intro index2 vshape val m' hw p hp
        simp only [Mem.read]
        rw [setitem_frame hw (a.get p) (fun j hj => (hfresh p hp j hj).symm)]
        exact if_neg (hold p hp)
      · intro index2 vshape val m' hw j hj
        simp only [Mem.read]
        rw [setitem_frame hw _ (fun p hp => hfresh p hp j hj)]

/-! ## `zeros`, the library's dimensions, and concrete cases -/

/-- **C241** (`zeros_like`): the same shape and dimensions, every number zero. -/
theorem C241_zeros {δ κ α : Type} (ops : DimOps δ κ) (zero : α) (a : Awu δ α) (ha : Settled ops a) :
    ∃ z, zerosLike ops zero a = .ok z ∧ z.shape = a.shape ∧ z.dims = a.dims ∧ ∀ p, z.get p = zero := by
  have : installAll ops a.dims a.shape = .ok a.dims :=
    (installAll_iff ops a.dims a.shape ha.len a.dims).2 ⟨rfl, fun k h1 h2 h3 => ha.own k h1⟩
  refine ⟨⟨a.shape, a.dims, fun _ => zero⟩, ?_, rfl, rfl, fun _ => rfl⟩
  unfold zerosLike zerosOf Awu.new
  rw [if_neg (by simpa using ha.len.symm), this]

section
variable {φ : Type} [Field φ] [LinearOrder φ] (X : Freq.NumExt φ)

/-- **C241** (library dimensions): semantic slices are never translated to lists. -/
theorem C241_lib_noLists : NoLists (libOps X) := by
  intro d it r h l hr
  subst hr
  cases d with
  | identity =>
    cases it with
    | custom c => cases c <;> simp [libOps] at h
    | _ => simp [libOps] at h
  | time f u sz =>
    cases it with
    | custom c =>
      cases c with
      | band q => simp [libOps] at h
      | freqPy a b => simp [libOps] at h
      | timeSlice s dur => cases sz <;> simp [libOps] at h
      | timePy s dur => cases sz <;> simp [libOps] at h
    | _ => simp [libOps] at h
  | freq s =>
    simp only [libOps] at h
    split at h
    · cases h
    · split at h
      · cases h
      · cases h
      · split at h <;> cases h

/-- **C241**, a false expectation: an empty slice of a frequency axis can be assigned to (nothing happens) but not read: the scale of
no bands is refused, the axis keeps its dimension, and the sizes do not match. -/
theorem C241_empty_band_refuted {α : Type} (s : Freq.Scale φ) (bs : List (Freq.Band φ)) (hbs : s.bands X = .ok bs) (hc : ∀ b, s ≠ .chroma b)
    (hpos : 0 < s.len) (m : Mem α) (a : Awu (LibDim φ) Nat) (hd : a.dims = [.freq s]) (hs : a.shape = [s.len]) (k : Int) (hk : 0 < k)
    (x : α) :
    setitem (libOps X) m a [.slice (some k) (some k) none] [] (fun _ => x) = .ok m ∧
    (m.read a).getitem (libOps X) [.slice (some k) (some k) none] = .error .valueError := by
  have hraw : Item.raw (.slice (some k) (some k) none : Item (LibIdx φ)) = some (.slice (some k) (some k) none) := by
    simp [Item.raw, isIntSlice, hk.ne']
  have hsl : sliceRange s.len (some k) (some k) none = .ok (pyBound s.len k, 1, 0) := by
    simp [sliceRange, upFrom, upTo]
  have hv : npIndex [s.len] [.slice (some k) (some k) none] = .ok ⟨[0], fun idx => walk [.run (pyBound s.len k) 1 0] 0 idx⟩ := by
    simp [npIndex, expand, pieces, hsl, view, Piece.isPick, NpItem.consumes, Piece.axis]
  have hmeta : (libOps X).metaslice (.freq s) (.slice (some k) (some k) none) 0 = .error .indexError := by
    have hsel : Freq.sliceList bs (.int k : Freq.Bnd φ) (.int k) = .ok [] := by
      simp [Freq.sliceList, Freq.Bnd.asInt, pySlice]
    have hget : s.getScale X (.slice (.int k) (.int k)) = .error .indexError := by
      unfold Freq.Scale.getScale
      rw [hbs]
      simp only [hsel]
      cases s with
      | chroma b => exact absurd rfl (hc b)
      | _ => rfl
    simp only [libOps, freqScale, freqIndex, intBound, hget]
  constructor
  · unfold setitem
    simp only [computeIndices, hraw, hs, hv]
    simp [bcast, fitsRev, allIdx, Mem.storeAll]
  · unfold Awu.getitem Mem.read
    simp only [computeIndices, hraw, hs, hd, hv]
    simp only [newDims, List.getElem?_cons_zero, metasliceOr, hmeta, List.drop, Awu.new, installAll]
    have : (libOps X).install (.freq s) 0 = .error .valueError := by
      simp only [libOps, Freq.validateFreq]
      rw [if_pos (by omega)]
    simp [this]
end

/-! ### A concrete array: two channels of four samples, times in picoseconds -/

/-- Eight cells, `10, 11, …`. -/
def mem8 : Mem Nat := ⟨fun i => 10 + i, 8⟩

/-- Four samples of two channels, ten picoseconds apart. -/
def stereo4 : Awu (LibDim ℚ) Nat := ⟨[4, 2], [.time 10 10 (some 4), .identity], fun p => Nd.ravel [4, 2] p⟩

def noNum : Freq.NumExt ℚ := ⟨fun _ _ _ => [], fun _ _ => [], fun _ _ => []⟩

theorem stereo4_held : Held mem8 stereo4 := by
  refine ⟨fun p hp => Nd.ravel_lt (shape := [4, 2]) hp, fun p q hp hq h => ?_⟩
  rw [← Nd.unravel_ravel hp, ← Nd.unravel_ravel hq]
  simp only [stereo4] at h ⊢
  rw [h]

/-- What the memory holds after `stereo4[TimeSlice(duration=20, start=10), 1] = [7, 8]`. -/
example : (match setitem (libOps noNum) mem8 stereo4 [.custom (.timeSlice 10 (some 20)), .int 1] [2] (fun i => 7 + i.headD 0) with
    | .ok m => (List.range 8).map m.cells
    | .error _ => []) = [10, 11, 12, 7, 14, 8, 16, 17] := by rfl

/-- The hypotheses of `C241_writes` and `C241_read_back` are met by it. -/
example : (∃ b, (positions stereo4.shape stereo4.dims).getitem (libOps noNum) [.custom (.timeSlice 10 (some 20)), .int 1] = .ok b ∧
      b.shape = [2] ∧ b.get [0] = [1, 1] ∧ b.get [1] = [2, 1]) ∧
    NoRepeats ([.custom (.timeSlice 10 (some 20)), .int 1] : List (Item (LibIdx ℚ))) ∧ NoLists (libOps noNum) ∧ Spreads [2] [2] ∧
    SpreadIdx [2] [1] [1] := by
  refine ⟨⟨_, rfl, rfl, rfl, rfl⟩, ?_, C241_lib_noLists noNum, ?_, ?_⟩
  · intro l hl; simp at hl
  · intro k n h; right; exact h
  · refine ⟨rfl, fun k n h => ?_⟩
    cases k with
    | zero => simp at h; subst h; rfl
    | succ k => simp at h

/-- `stereo4[1:3]` is a window, `stereo4[[1, 2]]` a copy (`C242`). -/
example : (∃ b, getitemIn (libOps noNum) mem8 stereo4 [.slice (some 1) (some 3) none] = .ok (mem8, b) ∧ b.shape = [2, 2] ∧ b.get [0, 1] = 3) ∧
    (∃ m b, getitemIn (libOps noNum) mem8 stereo4 [.list [1, 2]] = .ok (m, b) ∧ b.shape = [2, 2] ∧ b.get [0, 1] = 9 ∧ m.cells 9 = 13) :=
  ⟨⟨_, rfl, rfl, rfl⟩, ⟨_, _, rfl, rfl, rfl, rfl⟩⟩

example := (C241_writable (libOps noNum) mem8 stereo4 [.custom (.timeSlice 10 (some 20)), .int 1] [2] (fun i => 7 + i.headD 0) _ rfl).1 (fun _ _ h => Or.inr h)
example := (C241_writable (libOps noNum) mem8 stereo4 [.custom (.timeSlice 10 (some 20)), .int 1] [3] (fun i => 7 + i.headD 0) _ rfl).2
  (fun h => by rcases h 0 3 rfl with h | h <;> exact absurd h (by decide))
example := C242_window (libOps noNum) mem8 mem8 stereo4 _ [.slice (some 1) (some 3) none] (by simp) (Or.inl (fun h => nomatch (h : [2, 2] = ([] : List Nat)))) rfl
example := C242_write_through (libOps noNum) (C241_lib_noLists noNum) mem8 mem8 _ stereo4 _ stereo4_held [.slice (some 1) (some 3) none] [.int 0] (by simp) (Or.inl (fun h => nomatch (h : [2, 2] = ([] : List Nat)))) rfl
  [] (fun _ => 99) rfl _ rfl _ rfl
example := C242_copy (libOps noNum) mem8 _ stereo4 _ stereo4_held [.list [1, 2]] (Or.inl ⟨[1, 2], by simp⟩) rfl

example := C241_zeros (libOps noNum) 0 (⟨[9, 3], [.time 1000000000000 1000000000000 (some 9), .identity], fun _ => 1⟩ : Awu (LibDim ℚ) Nat) ⟨rfl, by
  intro k hk
  match k, hk with
  | 0, _ => rfl
  | 1, _ => rfl⟩
example := C241_repeated (libOps noNum) mem8 (⟨[8], [.identity], fun p => p.headD 0⟩ : Awu (LibDim ℚ) Nat) 8 .identity rfl rfl
  (by
    refine ⟨fun p hp => ?_, fun p q hp hq h => ?_⟩
    · obtain ⟨x, rfl, hx⟩ : ∃ x, p = [x] ∧ x < 8 := by
        cases hp with
        | cons h t => cases t; exact ⟨_, rfl, h⟩
      exact hx
    · cases hp with
      | cons h1 t1 => cases t1; cases hq with
        | cons h2 t2 => cases t2; simp only [List.headD_cons] at h; rw [h]) 3 (by decide) 1 2

end Zounds.Arr
