import Verif.Props.ArrayOps
/-!
# Which index forms and operations lose dimensions, for every array (C111)
-/

namespace Zounds.Arr
open Zounds

/-! ## Counting axes and dimensions -/

def NpItem.isNew : NpItem → Bool
  | .newaxis => true
  | _ => false

def NpItem.isSlice : NpItem → Bool
  | .slice _ _ _ => true
  | _ => false

def NpItem.isList : NpItem → Bool
  | .list _ => true
  | _ => false

/-- What becomes of an item: numpy gets one of the same kind. -/
def Kind {κ : Type} : Item κ → NpItem → Prop
  | .newaxis, r => r = .newaxis
  | .int _, r => ∃ i, r = .int i
  | .npInt _, r => ∃ i, r = .int i
  | .slice _ _ _, r => ∃ a b st, r = .slice a b st
  | .custom _, r => ∃ a b st, r = .slice a b st
  | .list _, r => ∃ l, r = .list l
  | .ellipsis, r => r = .ellipsis

/-- Items that get a dimension: all but integers and the ellipsis. -/
def Item.gets {κ : Type} : Item κ → Bool
  | .int _ => false
  | .ellipsis => false
  | _ => true

def Item.isEll {κ : Type} : Item κ → Bool
  | .ellipsis => true
  | _ => false

def Item.isNp {κ : Type} : Item κ → Bool
  | .npInt _ => true
  | _ => false

section
variable {φ : Type} [Field φ] [LinearOrder φ] (X : Freq.NumExt φ)

theorem intSlice_kind (d : LibDim φ) (it : Item (LibIdx φ)) (r : NpItem) (hraw : it.raw = none) (h : (libOps X).intSlice d it = .ok r) : Kind it r := by
  cases it with
  | newaxis => simp [Item.raw] at hraw
  | int i => simp [Item.raw] at hraw
  | list l => simp [Item.raw] at hraw
  | ellipsis => simp [Item.raw] at hraw
  | npInt i =>
    cases d with
    | freq s => simp [libOps, freqIndex] at h
    | identity => simp only [libOps, Except.ok.injEq] at h; exact ⟨i, h.symm⟩
    | time f u sz => simp only [libOps, Except.ok.injEq] at h; exact ⟨i, h.symm⟩
  | slice a b st =>
    cases d with
    | identity => simp only [libOps, Except.ok.injEq] at h; exact ⟨_, _, _, h.symm⟩
    | time f u sz => simp only [libOps, Except.ok.injEq] at h; exact ⟨_, _, _, h.symm⟩
    | freq s =>
      simp only [libOps] at h
      split at h
      · cases h
      · split at h
        · cases h
        · cases h; exact ⟨_, _, _, rfl⟩
        · cases h; exact ⟨_, _, _, rfl⟩
  | custom c =>
    cases d with
    | identity => cases c <;> simp [libOps] at h
    | time f u sz =>
      cases c <;> simp only [libOps] at h
      · split at h
        · cases h
        · cases h; exact ⟨_, _, _, rfl⟩
      · split at h
        · cases h
        · cases h; exact ⟨_, _, _, rfl⟩
      · cases h
      · cases h
    | freq s =>
      simp only [libOps] at h
      split at h
      · cases h
      · split at h
        · cases h
        · cases h; exact ⟨_, _, _, rfl⟩
        · cases h

theorem raw_kind {κ : Type} (it : Item κ) (r : NpItem) (h : it.raw = some r) : Kind it r := by
  cases it <;> simp only [Item.raw] at h
  · cases h; rfl
  · cases h; exact ⟨_, rfl⟩
  · cases h
  · split at h
    · cases h; exact ⟨_, _, _, rfl⟩
    · cases h
  · cases h; exact ⟨_, rfl⟩
  · cases h; rfl
  · cases h

theorem compute_kinds (dims : List (LibDim φ)) (n : Nat) : ∀ (its : List (Item (LibIdx φ))) (pos : Int) (out : List NpItem),
    computeIndices (libOps X) dims n pos its = .ok out → List.Forall₂ Kind its out := by
  intro its
  induction its with
  | nil => intro pos out h; simp only [computeIndices, Except.ok.injEq] at h; rw [← h]; exact List.Forall₂.nil
  | cons it its ih =>
    intro pos out h
    by_cases he : it = .ellipsis
    · subst he
      simp only [computeIndices] at h
      split at h
      · cases h
      · rename_i o ho
        cases h
        exact List.Forall₂.cons rfl (ih _ _ ho)
    · rw [computeIndices.eq_3 _ _ _ _ _ _ (by intro hc; exact he hc)] at h
      split at h
      · rename_i r hr
        split at h
        · cases h
        · rename_i o ho
          cases h
          exact List.Forall₂.cons (raw_kind _ _ hr) (ih _ _ ho)
      · rename_i hr
        split at h
        · cases h
        · split at h
          · cases h
          · rename_i r hi
            split at h
            · cases h
            · rename_i o ho
              cases h
              exact List.Forall₂.cons (intSlice_kind X _ _ _ hr hi) (ih _ _ ho)

end

theorem kinds_count {κ : Type} {its : List (Item κ)} {out : List NpItem} (h : List.Forall₂ Kind its out) :
    its.countP Item.counts = out.countP NpItem.consumes ∧ its.countP Item.isEll = out.count .ellipsis ∧ its.countP isList = out.countP NpItem.isList ∧
    its.countP Item.gets = out.countP NpItem.isNew + out.countP NpItem.isSlice + its.countP Item.isNp + out.countP NpItem.isList := by
  induction h with
  | nil => simp
  | @cons it r its out hk _ ih =>
    obtain ⟨h1, h2, h3, h4⟩ := ih
    cases it with
    | newaxis => cases hk; (simp [List.countP_cons, List.count_cons, h1, h2, h3, Item.counts, NpItem.consumes, Item.isEll, isList, NpItem.isList, Item.gets, NpItem.isNew, NpItem.isSlice, Item.isNp] <;> omega)
    | int i => obtain ⟨j, rfl⟩ := hk; (simp [List.countP_cons, List.count_cons, h1, h2, h3, Item.counts, NpItem.consumes, Item.isEll, isList, NpItem.isList, Item.gets, NpItem.isNew, NpItem.isSlice, Item.isNp] <;> omega)
    | npInt i => obtain ⟨j, rfl⟩ := hk; (simp [List.countP_cons, List.count_cons, h1, h2, h3, Item.counts, NpItem.consumes, Item.isEll, isList, NpItem.isList, Item.gets, NpItem.isNew, NpItem.isSlice, Item.isNp] <;> omega)
    | slice a b st => obtain ⟨_, _, _, rfl⟩ := hk; (simp [List.countP_cons, List.count_cons, h1, h2, h3, Item.counts, NpItem.consumes, Item.isEll, isList, NpItem.isList, Item.gets, NpItem.isNew, NpItem.isSlice, Item.isNp] <;> omega)
    | list l => obtain ⟨j, rfl⟩ := hk; (simp [List.countP_cons, List.count_cons, h1, h2, h3, Item.counts, NpItem.consumes, Item.isEll, isList, NpItem.isList, Item.gets, NpItem.isNew, NpItem.isSlice, Item.isNp] <;> omega)
    | ellipsis => cases hk; (simp [List.countP_cons, List.count_cons, h1, h2, h3, Item.counts, NpItem.consumes, Item.isEll, isList, NpItem.isList, Item.gets, NpItem.isNew, NpItem.isSlice, Item.isNp] <;> omega)
    | custom c => obtain ⟨_, _, _, rfl⟩ := hk; (simp [List.countP_cons, List.count_cons, h1, h2, h3, Item.counts, NpItem.consumes, Item.isEll, isList, NpItem.isList, Item.gets, NpItem.isNew, NpItem.isSlice, Item.isNp] <;> omega)

theorem pieces_count : ∀ (items : List NpItem) (shape : List Nat) (ps : List Piece), pieces items shape = .ok ps →
    (ps.filterMap Piece.axis).length = items.countP NpItem.isNew + items.countP NpItem.isSlice ∧ (ps.any Piece.isPick = true → 1 ≤ items.countP NpItem.isList) := by
  intro items
  induction items with
  | nil => intro shape ps h; simp only [pieces, Except.ok.injEq] at h; rw [← h]; simp
  | cons it items ih =>
    intro shape ps h
    cases it with
    | newaxis =>
      simp only [pieces] at h
      split at h
      · cases h
      · rename_i q hq
        cases h
        obtain ⟨h1, h2⟩ := ih _ _ hq
        constructor
        · simp [List.countP_cons, List.filterMap_cons, Piece.axis, h1, NpItem.isNew, NpItem.isSlice]; omega
        · intro ha
          simp only [List.any_cons, Piece.isPick, Bool.false_or] at ha
          simpa [List.countP_cons, NpItem.isList] using h2 ha
    | ellipsis => cases shape <;> simp [pieces] at h
    | int i =>
      cases shape with
      | nil => simp [pieces] at h
      | cons n shape =>
        simp only [pieces] at h
        split at h
        · cases h
        · split at h
          · cases h
          · rename_i q hq
            cases h
            obtain ⟨h1, h2⟩ := ih _ _ hq
            constructor
            · simp [List.countP_cons, List.filterMap_cons, Piece.axis, h1, NpItem.isNew, NpItem.isSlice]
            · intro ha
              simp only [List.any_cons, Piece.isPick, Bool.false_or] at ha
              simpa [List.countP_cons, NpItem.isList] using h2 ha
    | slice a b st =>
      cases shape with
      | nil => simp [pieces] at h
      | cons n shape =>
        simp only [pieces] at h
        split at h
        · cases h
        · split at h
          · cases h
          · rename_i q hq
            cases h
            obtain ⟨h1, h2⟩ := ih _ _ hq
            constructor
            · simp [List.countP_cons, List.filterMap_cons, Piece.axis, h1, NpItem.isNew, NpItem.isSlice]; omega
            · intro ha
              simp only [List.any_cons, Piece.isPick, Bool.false_or] at ha
              simpa [List.countP_cons, NpItem.isList] using h2 ha
    | list l =>
      cases shape with
      | nil => simp [pieces] at h
      | cons n shape =>
        simp only [pieces] at h
        split at h
        · cases h
        · split at h
          · cases h
          · rename_i q hq
            cases h
            obtain ⟨h1, h2⟩ := ih _ _ hq
            constructor
            · simp [List.countP_cons, List.filterMap_cons, Piece.axis, h1, NpItem.isNew, NpItem.isSlice]
            · intro _
              simp [List.countP_cons, NpItem.isList]

theorem expand_count (nd : Nat) (items full : List NpItem) (h : expand nd items = .ok full) :
    items.count .ellipsis ≤ 1 ∧ items.countP NpItem.consumes ≤ nd ∧ full.countP NpItem.isNew = items.countP NpItem.isNew ∧
    full.countP NpItem.isSlice = items.countP NpItem.isSlice + (nd - items.countP NpItem.consumes) ∧ full.countP NpItem.isList = items.countP NpItem.isList := by
  unfold expand at h
  simp only at h
  generalize hk : nd - items.countP NpItem.consumes = k at h ⊢
  split at h
  · cases h
  · rename_i h1
    split at h
    · cases h
    · rename_i h2
      have f1 : (List.replicate k (NpItem.slice none none none)).countP NpItem.isNew = 0 := by simp [List.countP_replicate, NpItem.isNew]
      have f2 : (List.replicate k (NpItem.slice none none none)).countP NpItem.isSlice = k := by simp [List.countP_replicate, NpItem.isSlice]
      have f3 : (List.replicate k (NpItem.slice none none none)).countP NpItem.isList = 0 := by simp [List.countP_replicate, NpItem.isList]
      split at h
      · cases h
        refine ⟨by omega, by omega, ?_⟩
        simp only [List.countP_append, f1, f2, f3, Nat.add_zero, and_self]
      · rename_i h3
        cases h
        refine ⟨by omega, by omega, ?_⟩
        have key : ∀ l : List NpItem,
            (l.flatMap fun it => if it = .ellipsis then List.replicate k (NpItem.slice none none none) else [it]).countP NpItem.isNew = l.countP NpItem.isNew ∧
            (l.flatMap fun it => if it = .ellipsis then List.replicate k (NpItem.slice none none none) else [it]).countP NpItem.isSlice = l.countP NpItem.isSlice + l.count .ellipsis * k ∧
            (l.flatMap fun it => if it = .ellipsis then List.replicate k (NpItem.slice none none none) else [it]).countP NpItem.isList = l.countP NpItem.isList := by
          intro l
          induction l with
          | nil => simp
          | cons it l ih =>
            obtain ⟨i1, i2, i3⟩ := ih
            simp only [List.flatMap_cons, List.countP_append, i1, i2, i3]
            by_cases he : it = .ellipsis
            · subst he
              simp only [if_true, f1, f2, f3, List.count_cons_self, List.countP_cons]
              simp [NpItem.isNew, NpItem.isSlice, NpItem.isList, Nat.add_mul]
              omega
            · simp only [if_neg he, List.countP_cons, List.count_cons_of_ne he, List.countP_nil]
              omega
        obtain ⟨k1, k2, k3⟩ := key items
        refine ⟨k1, ?_, k3⟩
        rw [k2, show items.count NpItem.ellipsis = 1 by omega, Nat.one_mul]

theorem npIndex_axes (shape : List Nat) (items : List NpItem) (v : View) (h : npIndex shape items = .ok v) :
    items.count .ellipsis ≤ 1 ∧ items.countP NpItem.consumes ≤ shape.length ∧
    v.shape.length ≤ items.countP NpItem.isNew + items.countP NpItem.isSlice + (shape.length - items.countP NpItem.consumes) + min 1 (items.countP NpItem.isList) := by
  unfold npIndex at h
  split at h
  · cases h
  · rename_i full hf
    obtain ⟨e1, e2, e3, e4, e5⟩ := expand_count _ _ _ hf
    refine ⟨e1, e2, ?_⟩
    split at h
    · cases h
    · rename_i ps hps
      obtain ⟨p1, p2⟩ := pieces_count _ _ _ hps
      rw [e3, e4] at p1
      rw [e5] at p2
      unfold view at h
      simp only at h
      split at h
      · rename_i hany
        have := p2 hany
        split at h
        · cases h
        · rename_i len hl
          cases h
          simp only [List.length_insertIdx]
          split <;> split <;> omega
      · cases h
        simp only
        omega

theorem newDims_count {δ κ : Type} (ops : DimOps δ κ) (dims : List δ) (m : Nat) (newShape : List Nat) : ∀ (its : List (Item κ)) (pos spos : Nat) (out : List δ),
    newDims ops dims m newShape pos spos its = .ok out →
    its.countP Item.gets + (if its.countP Item.isEll = 0 then dims.length - (pos + its.countP Item.counts) else dims.length - m) ≤ out.length := by
  intro its
  induction its with
  | nil => intro pos spos out h; simp only [newDims, Except.ok.injEq] at h; rw [← h]; simp
  | cons it its ih =>
    intro pos spos out h
    have hgen : ∀ p s o, newDims ops dims m newShape p s its = .ok o → it.isEll = false → it.gets = true → pos + (if it.counts then 1 else 0) = p → o.length + 1 ≤ out.length →
        (it :: its).countP Item.gets + (if (it :: its).countP Item.isEll = 0 then dims.length - (pos + (it :: its).countP Item.counts) else dims.length - m) ≤ out.length := by
      intro p s o ho h1 h2 h3 h4
      have := ih p s o ho
      simp only [List.countP_cons, h1, h2, Bool.false_eq_true, if_false, if_true, Nat.add_zero]
      rw [← h3] at this
      split at this
      · rename_i hz
        rw [if_pos hz]
        split at this <;> split <;> omega
      · rename_i hz
        rw [if_neg hz]
        omega
    have hother : (∀ d : δ, dims[pos]? = some d → ∀ d', metasliceOr ops d it newShape[spos]? = .ok d' → ∀ o, newDims ops dims m newShape (pos + 1) (spos + 1) its = .ok o → out = d' :: o →
        it.isEll = false → it.gets = true → it.counts = true →
        (it :: its).countP Item.gets + (if (it :: its).countP Item.isEll = 0 then dims.length - (pos + (it :: its).countP Item.counts) else dims.length - m) ≤ out.length) := by
      intro d _ d' _ o ho he h1 h2 h3
      exact hgen (pos + 1) (spos + 1) o ho h1 h2 (by rw [h3]; rfl) (by rw [he]; simp)
    cases it with
    | newaxis =>
      simp only [newDims] at h
      split at h
      · cases h
      · rename_i o ho
        cases h
        exact hgen pos spos o ho rfl rfl rfl (by simp)
    | int i =>
      simp only [newDims] at h
      have := ih _ _ _ h
      simp only [List.countP_cons, Item.gets, Item.isEll, Item.counts, Bool.false_eq_true, if_false, if_true, Nat.add_zero]
      split at this
      · rename_i hz; rw [if_pos hz]; omega
      · rename_i hz; rw [if_neg hz]; omega
    | list l =>
      simp only [newDims] at h
      split at h
      · cases h
      · rename_i o ho
        cases h
        exact hgen (pos + 1) _ o ho rfl rfl rfl (by simp)
    | ellipsis =>
      simp only [newDims] at h
      split at h
      · cases h
      · rename_i hk
        split at h
        · cases h
        · rename_i o ho
          cases h
          have := ih _ _ _ ho
          have hle : its.countP Item.gets ≤ o.length := Nat.le_trans (Nat.le_add_right _ _) this
          simp only [List.countP_cons, Item.gets, Item.isEll, Bool.false_eq_true, if_false, if_true, Nat.add_zero, List.length_append, List.length_take, List.length_drop]
          rw [if_neg (by omega)]
          omega
    | npInt i =>
      simp only [newDims] at h
      split at h
      · cases h
      · rename_i d hd
        split at h
        · cases h
        · rename_i d' hd'
          split at h
          · cases h
          · rename_i o ho
            cases h
            exact hother d hd d' hd' o ho rfl rfl rfl rfl
    | slice a b st =>
      simp only [newDims] at h
      split at h
      · cases h
      · rename_i d hd
        split at h
        · cases h
        · rename_i d' hd'
          split at h
          · cases h
          · rename_i o ho
            cases h
            exact hother d hd d' hd' o ho rfl rfl rfl rfl
    | custom c =>
      simp only [newDims] at h
      split at h
      · cases h
      · rename_i d hd
        split at h
        · cases h
        · rename_i d' hd'
          split at h
          · cases h
          · rename_i o ho
            cases h
            exact hother d hd d' hd' o ho rfl rfl rfl rfl

section
variable {φ : Type} [Field φ] [LinearOrder φ] (X : Freq.NumExt φ)

/-- **C111** (refused): for every array, an index with a numpy integer anywhere, or with two lists of positions, raises. -/
theorem C111_refused {α : Type} (a : Awu (LibDim φ) α) (hd : a.dims.length = a.shape.length) (index : List (Item (LibIdx φ)))
    (h : (∃ i, Item.npInt i ∈ index) ∨ 2 ≤ index.countP isList) : ∃ e, a.getitem (libOps X) index = .error e := by
  unfold Awu.getitem
  cases hc : computeIndices (libOps X) a.dims index.length 0 index with
  | error e => exact ⟨e, rfl⟩
  | ok items =>
    simp only
    cases hv : npIndex a.shape items with
    | error e => exact ⟨e, rfl⟩
    | ok v =>
      simp only
      cases hn : newDims (libOps X) a.dims (index.countP Item.counts) v.shape 0 0 index with
      | error e => exact ⟨e, rfl⟩
      | ok ds =>
        simp only
        refine ⟨.valueError, C36_new_refused _ _ _ _ ?_⟩
        obtain ⟨k1, k2, k3, k4⟩ := kinds_count (compute_kinds X _ _ _ _ _ hc)
        obtain ⟨v1, v2, v3⟩ := npIndex_axes _ _ _ hv
        have hlen := newDims_count _ _ _ _ _ _ _ _ hn
        have hnp : (∃ i, Item.npInt i ∈ index) → 1 ≤ index.countP Item.isNp := by
          rintro ⟨i, hi⟩
          exact List.countP_pos_iff.2 ⟨_, hi, rfl⟩
        have h' : a.dims.length - index.countP Item.counts + index.countP Item.gets ≤ ds.length := by
          split at hlen <;> omega
        rw [k4, k1, hd] at h'
        rcases h with h | h
        · have := hnp h
          omega
        · rw [k3] at h
          omega

/-- **C111** (`None` before a time slice): on an array with one axis every semantic slice after a `None` is an IndexError; on one with two it is the dimension of the second axis that says which positions
of the first are meant. -/
theorem C111_none {α : Type} (c : LibIdx φ) (a : Awu (LibDim φ) α) :
    (a.dims.length = 1 → a.getitem (libOps X) [.newaxis, .custom c] = .error .indexError) ∧
    (∀ d0 d1 r, a.dims = [d0, d1] → (libOps X).intSlice d1 (.custom c) = .ok r → computeIndices (libOps X) a.dims 2 0 [.newaxis, .custom c] = .ok [.newaxis, r]) := by
  constructor
  · intro h
    obtain ⟨d, hd⟩ := List.length_eq_one_iff.1 h
    have : computeIndices (libOps X) a.dims 2 0 [.newaxis, .custom c] = .error .indexError := by
      simp only [hd, computeIndices, Item.raw]
      rfl
    unfold Awu.getitem
    simp only [List.length_cons, List.length_nil, Nat.zero_add]
    rw [this]
  · intro d0 d1 r hd hr
    simp only [hd, computeIndices, Item.raw]
    have : pyAt [d0, d1] (0 + 1) = .ok d1 := rfl
    simp only [this, hr]

/-- **C111** (products): the product of an array with a matrix of `m` columns exists exactly if the numbers of columns and rows agree and, should the array's columns have a frequency dimension, `m` is
the number of its bands; the columns of the product carry the dimension of the array's columns. -/
theorem C111_dot {α : Type} (mac : List (α × α) → α) (a : Awu (LibDim φ) α) (n k k' m : Nat) (d0 d1 : LibDim φ) (hs : a.shape = [n, k]) (hdims : a.dims = [d0, d1])
    (ha : Settled (libOps X) a) (b : List Nat → α) :
    ((∃ r, a.dot (libOps X) mac [k', m] b = .ok r) ↔ k = k' ∧ ∀ s, d1 = .freq s → m = k) ∧
    ∀ r, a.dot (libOps X) mac [k', m] b = .ok r → r.shape = [n, m] ∧
      r.dims = [d0, match d1 with | .identity => .identity | .time f u _ => .time f u (some m) | .freq s => .freq s] := by
  have h0 : (libOps X).install d0 n = .ok d0 := by
    have := ha.own 0 (by rw [hdims]; simp)
    simpa only [hdims, hs, List.getElem_cons_zero] using this
  have h1 : (libOps X).install d1 k = .ok d1 := by
    have := ha.own 1 (by rw [hdims]; simp)
    simpa only [hdims, hs, List.getElem_cons_succ, List.getElem_cons_zero] using this
  unfold Awu.dot
  simp only [hs, hdims]
  by_cases hk : k = k'
  · simp only [hk, ne_eq, not_true_eq_false, if_false, Awu.new, List.take, List.length_cons, List.length_nil, installAll, h0, true_and]
    subst hk
    obtain ⟨t, f, i⟩ := C36_lib_install X m
    obtain ⟨t', f', i'⟩ := C36_lib_install X k
    cases d1 with
    | identity => simp [i]
    | time fr u sz => simp [t]
    | freq s =>
      rw [f'] at h1
      have hm : k = s.len := by
        by_contra hc
        rw [if_neg hc] at h1
        cases h1
      rw [f]
      by_cases hms : m = s.len
      · simp [hms, hm]
      · simp [hms, hm]
  · simp [hk]

/-- **C111** (reshaping to the shape it has): an array that has an axis of length one forgets all its dimensions. -/
theorem C111_reshape {α : Type} (a : Awu (LibDim φ) α) (h1 : 1 ∈ a.shape) :
    ∃ r, a.reshape (libOps X) a.shape = .ok r ∧ r.shape = a.shape ∧ r.dims = List.replicate a.shape.length .identity := by
  have hne : a.shape ≠ a.shape.filter (· ≠ 1) := by
    intro hc
    rw [hc] at h1
    simp at h1
  obtain ⟨r, e1, e2, e3, _⟩ := (C36_reshape_other (libOps X) (C36_lib_calm X) a a.shape hne hne).1 rfl
  exact ⟨r, e1, e2, e3⟩

theorem computeNewDims_count : ∀ (ds : List (LibDim φ)) (shape ws ss : List Nat) (out : List (LibDim φ)), (∀ d ∈ ds, d ≠ .identity) → ds.length = shape.length → ws.length = ds.length →
    ss.length = ds.length → computeNewDims (libOps X) ds shape (ws.map some) (ss.map some) = .ok out →
    out.length = ds.length + ds.countP (fun d => match d with | .time _ _ _ => true | _ => false) ∧ ∀ s rest, ds = .freq s :: rest → ∃ rest', out = .freq s :: rest' := by
  intro ds
  induction ds with
  | nil =>
    intro shape ws ss out _ h1 h2 h3 h
    cases shape with
    | nil => simp only [computeNewDims, Except.ok.injEq] at h; rw [← h]; simp
    | cons _ _ => simp at h1
  | cons d ds ih =>
    intro shape ws ss out hid h1 h2 h3 h
    cases shape with
    | nil => simp at h1
    | cons n shape =>
      cases ws with
      | nil => simp at h2
      | cons w ws =>
        cases ss with
        | nil => simp at h3
        | cons s ss =>
          simp only [List.map_cons, computeNewDims] at h
          have hid' : ∀ d ∈ ds, d ≠ .identity := fun d hd => hid d (List.mem_cons_of_mem _ hd)
          cases d with
          | identity => exact absurd rfl (hid _ List.mem_cons_self)
          | time f u sz =>
            simp only [modifiedOr, libOps] at h
            split at h
            · cases h
            · rename_i rest hr
              cases h
              obtain ⟨e, _⟩ := ih shape ws ss rest hid' (by simpa using h1) (by simpa using h2) (by simpa using h3) hr
              refine ⟨?_, by intro s' r' hc; cases hc⟩
              simp [e]
              omega
          | freq sc =>
            simp only [modifiedOr, libOps] at h
            split at h
            · cases h
            · rename_i rest hr
              cases h
              obtain ⟨e, _⟩ := ih shape ws ss rest hid' (by simpa using h1) (by simpa using h2) (by simpa using h3) hr
              refine ⟨?_, ?_⟩
              · simp [e]
                omega
              · intro s' r' hc
                cases hc
                exact ⟨rest, rfl⟩

theorem computeNewDims_ok : ∀ (ds : List (LibDim φ)) (shape ws ss : List Nat), (∀ d ∈ ds, d ≠ .identity) →
    ∃ out, computeNewDims (libOps X) ds shape (ws.map some) (ss.map some) = .ok out := by
  intro ds
  induction ds with
  | nil => intro shape ws ss _; exact ⟨[], by simp [computeNewDims]⟩
  | cons d ds ih =>
    intro shape ws ss hid
    cases shape with
    | nil => exact ⟨[], by simp [computeNewDims]⟩
    | cons n shape =>
      cases ws with
      | nil => exact ⟨[], by simp [computeNewDims]⟩
      | cons w ws =>
        cases ss with
        | nil => exact ⟨[], by simp [computeNewDims]⟩
        | cons s ss =>
          obtain ⟨rest, hr⟩ := ih shape ws ss (fun d hd => hid d (List.mem_cons_of_mem _ hd))
          cases d with
          | identity => exact absurd rfl (hid _ List.mem_cons_self)
          | time f u sz => exact ⟨_, by simp only [List.map_cons, computeNewDims, modifiedOr, libOps] at hr ⊢; rw [hr]⟩
          | freq sc => exact ⟨_, by simp only [List.map_cons, computeNewDims, modifiedOr, libOps] at hr ⊢; rw [hr]⟩

/-- **C111** (windows): windows of an array all of whose axes have time or frequency dimensions exist only if exactly one of them is a time dimension - none, or two, is a ValueError. If frequency
comes first, the axis of the windows gets the frequency dimension, so that there have to be as many windows as bands. -/
theorem C111_windows {α : Type} (a : Awu (LibDim φ) α) (hl : a.dims.length = a.shape.length) (hid : ∀ d ∈ a.dims, d ≠ .identity) (ws ss : List Nat) (r : Awu (LibDim φ) α)
    (h : a.slidingWindow (libOps X) ws ss = .ok r) :
    a.dims.countP (fun d => match d with | .time _ _ _ => true | _ => false) = 1 ∧
    ∀ s rest, a.dims = .freq s :: rest → ∃ rest' n sh, r.dims = .freq s :: rest' ∧ r.shape = n :: sh ∧ n = s.len := by
  unfold Awu.slidingWindow at h
  split at h
  · cases h
  · rename_i h1
    split at h
    · cases h
    · split at h
      · cases h
      · obtain ⟨out, ho⟩ := computeNewDims_ok X a.dims a.shape ws ss hid
        simp only [ho] at h
        obtain ⟨c1, c2⟩ := computeNewDims_count X a.dims a.shape ws ss out hid hl (by omega) (by omega) ho
        obtain ⟨n1, n2, n3, n4, n5⟩ := (C36_new _ _ _ _ _).1 h
        rw [List.length_cons] at n1
        refine ⟨by omega, ?_⟩
        intro s rest hs
        obtain ⟨rest', hr'⟩ := c2 s rest hs
        have i0 := n5 0 (by rw [hr']; simp) (by simp) (by rw [n4, hr']; simp)
        simp only [hr', List.getElem_cons_zero] at i0
        rw [(C36_lib_install X _).2.1 s] at i0
        split at i0
        · rename_i hn
          cases hrd : r.dims with
          | nil => rw [hrd, hr'] at n4; simp at n4
          | cons d ds =>
            simp only [hrd, List.getElem_cons_zero, Except.ok.injEq] at i0
            exact ⟨ds, _, _, by rw [← i0], n2, hn⟩
        · cases i0

end

/-- The hypotheses are met. -/
example : (∃ i, Item.npInt (κ := LibIdx ℚ) i ∈ [.ellipsis, .npInt 1]) ∧ stereo.dims.length = stereo.shape.length := ⟨⟨1, by simp⟩, rfl⟩

example := C111_refused (φ := ℚ) Zounds.Props.Frequency.noExt stereo rfl [.ellipsis, .npInt 1] (Or.inl ⟨1, by simp⟩)
example := (C111_none (φ := ℚ) Zounds.Props.Frequency.noExt (.timeSlice 2 (some 3)) (⟨[9], [.time 1 1 (some 9)], id⟩ : Awu (LibDim ℚ) (List Nat))).1 rfl
example := C111_dot (φ := ℚ) Zounds.Props.Frequency.noExt (fun l => (l.map Prod.fst).flatten) stereo 9 3 3 2 _ _ rfl rfl stereo_settled (fun i => i)
example := C111_reshape (φ := ℚ) Zounds.Props.Frequency.noExt column (by decide)
example : ∃ r, (⟨[9], [.time 1000 1000 (some 9)], id⟩ : Awu (LibDim ℚ) (List Nat)).slidingWindow (libOps Zounds.Props.Frequency.noExt) [4] [2] = .ok r ∧
    r.dims = [.time 2000 4000 (some 3), .time 1000 1000 (some 4)] := ⟨_, by rfl, by rfl⟩

end Zounds.Arr
