import Verif.Props.Array
import Verif.Props.Frequency
import Mathlib.Data.List.GetD
import Mathlib.Tactic.Common
/-!
# Property C36, continued: the library's own dimensions, construction, transposition, reductions, reshaping, concatenation, windows
-/

namespace Zounds.Arr
open Zounds

/-! ## Construction -/

/-- Every axis has its own dimension, which knows the size of its axis (installing it again changes nothing). -/
structure Settled {δ κ α : Type} (ops : DimOps δ κ) (a : Awu δ α) : Prop where
  len : a.dims.length = a.shape.length
  own : ∀ k (h : k < a.dims.length), ops.install a.dims[k] (a.shape[k]'(by omega)) = .ok a.dims[k]

/-- Installing is idempotent, and an identity has nothing to remember. -/
structure Calm {δ κ : Type} (ops : DimOps δ κ) : Prop where
  idem : ∀ d n d', ops.install d n = .ok d' → ops.install d' n = .ok d'
  ident : ∀ n, ops.install ops.identity n = .ok ops.identity

theorem installAll_iff {δ κ : Type} (ops : DimOps δ κ) (ds : List δ) (shape : List Nat) (h : ds.length = shape.length) (out : List δ) :
    installAll ops ds shape = .ok out ↔
      out.length = ds.length ∧ ∀ k (h1 : k < ds.length) (h2 : k < shape.length) (h3 : k < out.length),
        ops.install ds[k] shape[k] = .ok out[k] := by
  induction ds generalizing shape out with
  | nil =>
    cases shape with
    | nil => cases out <;> simp [installAll]
    | cons _ _ => simp at h
  | cons d ds ih =>
    cases shape with
    | nil => simp at h
    | cons n shape =>
      have hl : ds.length = shape.length := by simpa using h
      simp only [installAll]
      constructor
      · intro hh
        split at hh
        · cases hh
        · rename_i d' hd
          split at hh
          · cases hh
          · rename_i ds' hds
            cases hh
            obtain ⟨e1, e2⟩ := (ih shape hl ds').mp hds
            refine ⟨by simp [e1], ?_⟩
            intro k h1 h2 h3
            cases k with
            | zero => exact hd
            | succ k => exact e2 k (by simpa using h1) (by simpa using h2) (by simpa using h3)
      · rintro ⟨e1, e2⟩
        cases out with
        | nil => simp at e1
        | cons o out =>
          have h0 : ops.install d n = .ok o := e2 0 (by simp) (by simp) (by simp)
          have hr := (ih shape hl out).mpr ⟨by simpa using e1, fun k h1 h2 h3 =>
            e2 (k + 1) (by simpa using h1) (by simpa using h2) (by simpa using h3)⟩
          simp [h0, hr]

/-- **C36** (construction): an array is made exactly when there is one dimension per axis and every dimension accepts the length of its
axis; the values and the shape are kept, and axis `k` gets dimension `k`. -/
theorem C36_new {δ κ α : Type} (ops : DimOps δ κ) (shape : List Nat) (get : List Nat → α) (dims : List δ) (r : Awu δ α) :
    Awu.new ops shape get dims = .ok r ↔
      (shape.length = dims.length ∧ r.shape = shape ∧ r.get = get ∧ r.dims.length = dims.length ∧
        ∀ k (h1 : k < dims.length) (h2 : k < shape.length) (h3 : k < r.dims.length), ops.install dims[k] shape[k] = .ok r.dims[k]) := by
  unfold Awu.new
  constructor
  · intro h
    split at h
    · cases h
    · rename_i hl
      split at h
      · cases h
      · rename_i ds hds
        cases h
        have hl : shape.length = dims.length := by omega
        obtain ⟨e1, e2⟩ := (installAll_iff ops dims shape hl.symm ds).mp hds
        exact ⟨hl, rfl, rfl, e1, e2⟩
  · rintro ⟨hl, hs, hg, e1, e2⟩
    rw [if_neg (by omega), (installAll_iff ops dims shape hl.symm r.dims).mpr ⟨e1, e2⟩]
    cases r
    simp_all

/-- **C36** (construction, refusals): a wrong number of dimensions is refused with ValueError. -/
theorem C36_new_refused {δ κ α : Type} (ops : DimOps δ κ) (shape : List Nat) (get : List Nat → α) (dims : List δ)
    (h : shape.length ≠ dims.length) : Awu.new ops shape get dims = .error .valueError := by
  unfold Awu.new
  rw [if_pos h]

theorem settled_new {δ κ α : Type} (ops : DimOps δ κ) (calm : Calm ops) (shape : List Nat) (get : List Nat → α) (dims : List δ)
    (r : Awu δ α) (h : Awu.new ops shape get dims = .ok r) : Settled ops r := by
  obtain ⟨h1, h2, _, h4, h5⟩ := (C36_new ops shape get dims r).mp h
  refine ⟨by rw [h4, h2]; exact h1.symm, ?_⟩
  intro k hk
  have := h5 k (by omega) (by omega) hk
  simp only [h2]
  exact calm.idem _ _ _ this

/-- Constructing with dimensions that are already settled succeeds and keeps them. -/
theorem new_settled {δ κ α : Type} (ops : DimOps δ κ) (shape : List Nat) (get : List Nat → α) (dims : List δ)
    (hl : dims.length = shape.length) (h : ∀ k (h1 : k < dims.length), ops.install dims[k] (shape[k]'(by omega)) = .ok dims[k]) :
    Awu.new ops shape get dims = .ok ⟨shape, dims, get⟩ :=
  (C36_new ops shape get dims ⟨shape, dims, get⟩).mpr ⟨hl.symm, rfl, rfl, rfl, fun k h1 _ _ => h k h1⟩

/-! ## The library's dimensions satisfy the laws -/

section
variable {φ : Type} [Field φ] [LinearOrder φ] (X : Freq.NumExt φ)

/-- **C36** (library dimensions): identity, time and frequency dimensions are lawful. -/
theorem C36_lib_lawful : Lawful (libOps X) := by
  constructor
  · intro d it r hp hu hn h
    cases it with
    | newaxis => simp [uses] at hu
    | ellipsis => exact absurd hp id
    | npInt i => exact absurd hp id
    | int i => simp [needsDim, Item.raw] at hn
    | list l => simp [needsDim, Item.raw] at hn
    | slice a b st =>
      cases d with
      | identity => simp only [libOps, Except.ok.injEq] at h; exact ⟨_, _, _, h.symm⟩
      | time f u n => simp only [libOps, Except.ok.injEq] at h; exact ⟨_, _, _, h.symm⟩
      | freq s =>
        simp only [libOps] at h
        split at h
        · cases h
        · split at h
          · cases h
          · simp only [Except.ok.injEq] at h; exact ⟨_, _, _, h.symm⟩
          · simp only [Except.ok.injEq] at h; exact ⟨_, _, _, h.symm⟩
    | custom c =>
      cases d with
      | identity => cases c <;> simp [libOps] at h
      | time f u n =>
        cases c with
        | band q => simp [libOps] at h
        | freqPy a b => simp [libOps] at h
        | timeSlice s dur =>
          cases n with
          | none => simp [libOps] at h
          | some n => simp only [libOps, Except.ok.injEq] at h; exact ⟨_, _, _, h.symm⟩
        | timePy a b =>
          cases n with
          | none => simp [libOps] at h
          | some n => simp only [libOps, Except.ok.injEq] at h; exact ⟨_, _, _, h.symm⟩
      | freq s =>
        simp only [libOps] at h
        split at h
        · cases h
        · split at h
          · cases h
          · simp only [Except.ok.injEq] at h; exact ⟨_, _, _, h.symm⟩
          · cases h
  · intro d it n n' m d1 d2 h1 h2
    cases d with
    | identity =>
      simp only [metasliceOr, libOps, Except.ok.injEq] at h1
      subst h1
      exact ⟨.identity, by simp [metasliceOr, libOps], h2⟩
    | time f u sz =>
      simp only [metasliceOr, libOps, Except.ok.injEq] at h1
      subst h1
      exact ⟨.time f u (some n'), by simp [metasliceOr, libOps], by simpa [libOps] using h2⟩
    | freq s =>
      exact ⟨d1, by simpa only [metasliceOr, libOps] using h1, h2⟩

/-- **C36** (library dimensions): they are settled by construction. -/
theorem C36_lib_calm : Calm (libOps X) := by
  constructor
  · intro d n d' h
    cases d with
    | identity => simp only [libOps, Except.ok.injEq] at h; subst h; rfl
    | time f u sz => simp only [libOps, Except.ok.injEq] at h; subst h; rfl
    | freq s =>
      simp only [libOps] at h
      split at h
      · cases h
      · rename_i hv
        cases h
        simp only [libOps, hv]
  · intro n; rfl

/-- **C36** (library dimensions, in words): a time axis keeps its frequency and duration under every operation and knows the length of its
axis; a frequency axis accepts only arrays as long as its scale; an identity accepts everything. -/
theorem C36_lib_install (n : Nat) :
    (∀ f u sz, (libOps X).install (.time f u sz) n = .ok (.time f u (some n))) ∧
    (∀ s, (libOps X).install (.freq s) n = if n = s.len then .ok (.freq s) else .error .valueError) ∧
    (libOps X).install .identity n = .ok .identity := by
  refine ⟨fun _ _ _ => rfl, ?_, rfl⟩
  intro s
  simp only [libOps, Freq.validateFreq]
  by_cases h : n = s.len <;> simp [h]
end

/-! ## Transposition -/

/-- **C36** (transposition): `x.T` always succeeds; axis `k` from the front of `x.T` is axis `k` from the back of `x`, dimension and size;
values move with their index. -/
theorem C36_transpose {δ κ α : Type} (ops : DimOps δ κ) (a : Awu δ α) (ha : Settled ops a) :
    ∃ t, a.transpose ops = .ok t ∧ t.shape = a.shape.reverse ∧ t.dims = a.dims.reverse ∧ Settled ops t ∧
      (∀ idx, t.get idx.reverse = a.get idx) ∧ t.transpose ops = .ok a := by
  have hl : a.dims.reverse.length = a.shape.reverse.length := by simpa using ha.len
  have hown : ∀ k (h1 : k < a.dims.reverse.length),
      ops.install a.dims.reverse[k] (a.shape.reverse[k]'(by omega)) = .ok a.dims.reverse[k] := by
    intro k hk
    have hk' : k < a.dims.length := by simpa using hk
    rw [List.getElem_reverse, List.getElem_reverse]
    have := ha.own (a.dims.length - 1 - k) (by omega)
    have e : a.shape.length - 1 - k = a.dims.length - 1 - k := by rw [ha.len]
    simp only [e]
    exact this
  have h1 : a.transpose ops = .ok ⟨a.shape.reverse, a.dims.reverse, fun idx => a.get idx.reverse⟩ :=
    new_settled ops _ _ _ hl hown
  refine ⟨_, h1, rfl, rfl, ⟨hl, hown⟩, fun idx => by simp, ?_⟩
  have h2 : Awu.transpose ops (⟨a.shape.reverse, a.dims.reverse, fun idx => a.get idx.reverse⟩ : Awu δ α) =
      .ok ⟨a.shape.reverse.reverse, a.dims.reverse.reverse, fun idx => a.get idx.reverse.reverse⟩ := by
    refine new_settled ops _ _ _ (by simpa using ha.len) ?_
    intro k hk
    have := ha.own k (by simpa using hk)
    simpa using this
  rw [h2]
  simp

/-! ## Reductions -/

/-- One of the axes written by the user, counted from the front or from the back, is axis `k` of `nd`. -/
def Hit (nd : Nat) (axes : List Int) (k : Nat) : Prop := ∃ x ∈ axes, x = k ∨ (x < 0 ∧ x + nd = k)

instance (nd : Nat) (axes : List Int) (k : Nat) : Decidable (Hit nd axes k) := by unfold Hit; infer_instance

/-- What is left of a list with one entry per axis when the reduced axes disappear. -/
def survivors {β : Type} (nd : Nat) (axes : List Int) (l : List β) : List β :=
  (l.zipIdx.filter fun x => ¬ Hit nd axes x.2).map Prod.fst

/-- The same when reduced axes stay as axes of length one. -/
def replaced {β : Type} (nd : Nat) (axes : List Int) (b : β) (l : List β) : List β :=
  l.zipIdx.map fun x => if Hit nd axes x.2 then b else x.1

/-- The axes exist, and none is named twice. -/
def ValidAxes (nd : Nat) (axes : List Int) : Prop :=
  (∀ x ∈ axes, -(nd : Int) ≤ x ∧ x < nd) ∧ axes.Pairwise (fun (x y : Int) => x ≠ y ∧ x + nd ≠ y ∧ x ≠ y + nd)

theorem normList_ok (nd : Nat) (axes : List Int) (h : ∀ x ∈ axes, -(nd : Int) ≤ x ∧ x < nd) :
    normList nd axes = .ok (axes.map fun (x : Int) => (if x < 0 then x + (nd : Int) else x).toNat) := by
  induction axes with
  | nil => rfl
  | cons x axes ih =>
    have hx := h x (by simp)
    simp only [normList, normIndex]
    rw [if_neg (by omega), ih (fun y hy => h y (by simp [hy]))]
    simp

theorem normList_error (nd : Nat) (axes : List Int) (h : ¬ ∀ x ∈ axes, -(nd : Int) ≤ x ∧ x < nd) :
    normList nd axes = .error .indexError := by
  induction axes with
  | nil => simp at h
  | cons x axes ih =>
    simp only [normList, normIndex]
    by_cases hx : x < -(nd : Int) ∨ (nd : Int) ≤ x
    · rw [if_pos hx]
    · rw [if_neg hx]
      have : ¬ ∀ y ∈ axes, -(nd : Int) ≤ y ∧ y < nd := by
        intro hc
        apply h
        intro y hy
        rcases List.mem_cons.mp hy with rfl | hy
        · omega
        · exact hc y hy
      rw [ih this]

theorem reducedShape_eq (f : Nat → Bool) (k : Nat) (l : List Nat) :
    reducedShape f false k l = ((l.zipIdx k).filter fun x => ! f x.2).map Prod.fst ∧
    reducedShape f true k l = (l.zipIdx k).map fun x => if f x.2 then 1 else x.1 := by
  induction l generalizing k with
  | nil => simp [reducedShape]
  | cons n l ih =>
    obtain ⟨i1, i2⟩ := ih (k + 1)
    cases h : f k <;> simp [reducedShape, h, i1, i2, List.zipIdx_cons]

theorem reducedDims_eq {δ κ : Type} (ops : DimOps δ κ) (f : Nat → Bool) (k : Nat) (l : List δ) :
    reducedDims ops f false k l = ((l.zipIdx k).filter fun x => ! f x.2).map Prod.fst ∧
    reducedDims ops f true k l = (l.zipIdx k).map fun x => if f x.2 then ops.identity else x.1 := by
  induction l generalizing k with
  | nil => simp [reducedDims]
  | cons n l ih =>
    obtain ⟨i1, i2⟩ := ih (k + 1)
    cases h : f k <;> simp [reducedDims, h, i1, i2, List.zipIdx_cons]

theorem project_eq (f : Nat → Bool) (k : Nat) (l : List Nat) :
    project f false k l = ((l.zipIdx k).filter fun x => ! f x.2).map Prod.fst ∧
    project f true k l = (l.zipIdx k).map fun x => if f x.2 then 0 else x.1 := by
  induction l generalizing k with
  | nil => simp [project]
  | cons n l ih =>
    obtain ⟨i1, i2⟩ := ih (k + 1)
    cases h : f k <;> simp [project, h, i1, i2, List.zipIdx_cons]

theorem mem_allIdx (shape s : List Nat) : s ∈ allIdx shape ↔ Nd.InB s shape := by
  induction shape generalizing s with
  | nil =>
    simp only [allIdx, List.mem_singleton]
    constructor
    · rintro rfl; exact .nil
    · intro h; cases h; rfl
  | cons n shape ih =>
    simp only [allIdx, List.mem_flatMap, List.mem_range, List.mem_map]
    constructor
    · rintro ⟨i, hi, t, ht, rfl⟩
      exact .cons hi ((ih t).mp ht)
    · intro h
      cases h with
      | cons hi ht => exact ⟨_, hi, _, (ih _).mpr ht, rfl⟩

theorem before_irrefl (s : List Nat) : ¬ Nd.Before s s := by
  intro h
  generalize hs : s = t at h
  have : ∀ {a b : List Nat}, Nd.Before a b → a ≠ b := by
    intro a b hab
    induction hab with
    | here hij => intro hc; simp only [List.cons.injEq] at hc; omega
    | there _ ih => intro hc; simp only [List.cons.injEq] at hc; exact ih hc.2
  exact this h rfl

theorem allIdx_sorted (shape : List Nat) : (allIdx shape).Pairwise Nd.Before := by
  induction shape with
  | nil => simp [allIdx]
  | cons n shape ih =>
    simp only [allIdx]
    rw [List.pairwise_flatMap]
    refine ⟨?_, ?_⟩
    · intro i _
      rw [List.pairwise_map]
      exact ih.imp fun h => .there h
    · refine (List.pairwise_lt_range (n := n)).imp ?_
      intro i j hij x hx y hy
      obtain ⟨a, _, rfl⟩ := List.mem_map.mp hx
      obtain ⟨b, _, rfl⟩ := List.mem_map.mp hy
      exact .here hij

theorem installs_reduced {δ κ : Type} (ops : DimOps δ κ) (calm : Calm ops) (f : Nat → Bool) (keep : Bool) :
    ∀ (k : Nat) (shape : List Nat) (dims : List δ), dims.length = shape.length →
      (∀ i (h1 : i < dims.length) (h2 : i < shape.length), ops.install dims[i] shape[i] = .ok dims[i]) →
      (reducedDims ops f keep k dims).length = (reducedShape f keep k shape).length ∧
      ∀ i (h1 : i < (reducedDims ops f keep k dims).length) (h2 : i < (reducedShape f keep k shape).length),
        ops.install (reducedDims ops f keep k dims)[i] (reducedShape f keep k shape)[i] = .ok (reducedDims ops f keep k dims)[i] := by
  intro k shape dims
  induction dims generalizing k shape with
  | nil =>
    intro hl _
    cases shape with
    | nil => simp [reducedDims, reducedShape]
    | cons _ _ => simp at hl
  | cons d dims ih =>
    intro hl hin
    cases shape with
    | nil => simp at hl
    | cons n shape =>
      have hl' : dims.length = shape.length := by simpa using hl
      obtain ⟨e1, e2⟩ := ih (k + 1) shape hl' (fun i h1 h2 => hin (i + 1) (by simpa using h1) (by simpa using h2))
      have h0 := hin 0 (by simp) (by simp)
      cases hf : f k
      · simp only [reducedDims, reducedShape, hf, Bool.false_eq_true, if_false, List.length_cons]
        refine ⟨by omega, ?_⟩
        intro i h1 h2
        cases i with
        | zero => exact h0
        | succ i => exact e2 i (by simpa using h1) (by simpa using h2)
      · cases keep
        · simp only [reducedDims, reducedShape, hf, if_true, Bool.false_eq_true, if_false]
          exact ⟨e1, e2⟩
        · simp only [reducedDims, reducedShape, hf, if_true, List.length_cons]
          refine ⟨by omega, ?_⟩
          intro i h1 h2
          cases i with
          | zero => exact calm.ident 1
          | succ i => exact e2 i (by simpa using h1) (by simpa using h2)

/-- **C36** (reductions): summing, or taking the maximum, along some axes, not all of them (or with `keepdims`), succeeds; the remaining axes keep their sizes and dimensions, in order;
with `keepdims` a reduced axis stays as an identity of length one.  The value at an index of the result is the reduction, in order, of exactly
the values of the array whose index agrees with it on the remaining axes. -/
theorem C36_reduce {δ κ α : Type} (ops : DimOps δ κ) (calm : Calm ops) (red : List α → α) (a : Awu δ α) (ha : Settled ops a)
    (axes : List Int) (keep : Bool) (hax : ValidAxes a.shape.length axes)
    (hsome : keep = true ∨ a.shape = [] ∨ ∃ k < a.shape.length, ¬ Hit a.shape.length axes k) :
    ∃ r, a.reduce ops red axes keep = .ok r ∧
      (keep = false → r.shape = survivors a.shape.length axes a.shape ∧ r.dims = survivors a.shape.length axes a.dims) ∧
      (keep = true → r.shape = replaced a.shape.length axes 1 a.shape ∧ r.dims = replaced a.shape.length axes ops.identity a.dims) ∧
      ∀ idx, ∃ ss : List (List Nat), r.get idx = red (ss.map a.get) ∧ ss.Pairwise Nd.Before ∧
        ∀ s, s ∈ ss ↔ Nd.InB s a.shape ∧
          (if keep then replaced a.shape.length axes 0 s else survivors a.shape.length axes s) = idx := by
  obtain ⟨hrange, hdist⟩ := hax
  have hno := normList_ok a.shape.length axes hrange
  have hnd : (axes.map fun (x : Int) => (if x < 0 then x + (a.shape.length : Int) else x).toNat).Nodup := by
    unfold List.Nodup
    rw [List.pairwise_map]
    refine hdist.imp_of_mem ?_
    intro x y hx hy hxy
    have := hrange x hx
    have := hrange y hy
    split <;> split <;> omega
  have hf : ∀ k, decide (k ∈ axes.map fun (x : Int) => (if x < 0 then x + (a.shape.length : Int) else x).toNat) =
      decide (Hit a.shape.length axes k) := by
    intro k
    apply decide_eq_decide.mpr
    simp only [List.mem_map, Hit]
    constructor
    · rintro ⟨x, hx, he⟩
      have := hrange x hx
      exact ⟨x, hx, by split at he <;> omega⟩
    · rintro ⟨x, hx, he⟩
      have := hrange x hx
      exact ⟨x, hx, by split <;> omega⟩
  have hg : ∀ k : Nat, decide ((k : Int) ∈ axes.map fun (x : Int) => if x < 0 then (a.dims.length : Int) + x else x) =
      decide (Hit a.shape.length axes k) := by
    intro k
    apply decide_eq_decide.mpr
    simp only [List.mem_map, Hit, ha.len]
    constructor
    · rintro ⟨x, hx, he⟩
      have := hrange x hx
      exact ⟨x, hx, by split at he <;> omega⟩
    · rintro ⟨x, hx, he⟩
      have := hrange x hx
      exact ⟨x, hx, by split <;> omega⟩
  obtain ⟨i1, i2⟩ := installs_reduced ops calm (fun k => decide (Hit a.shape.length axes k)) keep 0 a.shape a.dims ha.len
    (fun i h1 _ => ha.own i h1)
  have hmain : a.reduce ops red axes keep = .ok
      ⟨reducedShape (fun k => decide (Hit a.shape.length axes k)) keep 0 a.shape,
       reducedDims ops (fun k => decide (Hit a.shape.length axes k)) keep 0 a.dims,
       fun idx => red (((allIdx a.shape).filter fun s =>
         project (fun k => decide (Hit a.shape.length axes k)) keep 0 s = idx).map a.get)⟩ := by
    unfold Awu.reduce
    simp only [hno]
    rw [if_neg (by simpa using hnd)]
    simp only [hf, hg]
    refine (if_neg ?_).trans ?_
    · rintro ⟨hemp, hdim⟩
      have hne : a.shape ≠ [] := by
        intro h0
        exact hdim (List.length_eq_zero_iff.1 (by rw [ha.len, h0]; rfl))
      rcases hsome with hk | h0 | ⟨k, hk, hh⟩
      · subst hk
        rw [(reducedShape_eq _ 0 _).2, List.map_eq_nil_iff, List.zipIdx_eq_nil_iff] at hemp
        exact hne hemp
      · exact hne h0
      · cases keep
        · rw [(reducedShape_eq _ 0 _).1, List.map_eq_nil_iff, List.filter_eq_nil_iff] at hemp
          have hm : (a.shape[k], k) ∈ a.shape.zipIdx := by
            rw [List.mem_zipIdx_iff_getElem?]
            simp [hk]
          have := hemp _ hm
          simp [hh] at this
        · rw [(reducedShape_eq _ 0 _).2, List.map_eq_nil_iff, List.zipIdx_eq_nil_iff] at hemp
          exact hne hemp
    exact new_settled ops _ _ _ i1 (fun k h1 => i2 k h1 (by omega))
  refine ⟨_, hmain, ?_, ?_, ?_⟩
  · rintro rfl
    simp only [(reducedShape_eq _ 0 _).1, (reducedDims_eq ops _ 0 _).1, survivors]
    simp
  · rintro rfl
    simp only [(reducedShape_eq _ 0 _).2, (reducedDims_eq ops _ 0 _).2, replaced]
    simp
  · intro idx
    refine ⟨_, rfl, (allIdx_sorted a.shape).filter _, ?_⟩
    intro s
    rw [List.mem_filter, mem_allIdx]
    cases keep
    · simp [(project_eq _ 0 _).1, survivors]
    · simp [(project_eq _ 0 _).2, replaced]

/-- **C36** (reductions of everything): the sum, or the maximum, along all axes of an array that has axes is an AttributeError unless `keepdims` is
given (`x.sum(axis=0)` of a one-dimensional `x`). -/
theorem C36_reduce_everything {δ κ α : Type} (ops : DimOps δ κ) (red : List α → α) (a : Awu δ α) (ha : Settled ops a)
    (axes : List Int) (hax : ValidAxes a.shape.length axes) (hne : a.shape ≠ []) (hall : ∀ k < a.shape.length, Hit a.shape.length axes k) :
    a.reduce ops red axes false = .error .attributeError := by
  obtain ⟨hrange, hdist⟩ := hax
  have hno := normList_ok a.shape.length axes hrange
  have hnd : (axes.map fun (x : Int) => (if x < 0 then x + (a.shape.length : Int) else x).toNat).Nodup := by
    unfold List.Nodup
    rw [List.pairwise_map]
    refine hdist.imp_of_mem ?_
    intro x y hx hy hxy
    have := hrange x hx
    have := hrange y hy
    split <;> split <;> omega
  unfold Awu.reduce
  simp only [hno]
  rw [if_neg (by simpa using hnd)]
  refine if_pos ⟨?_, ?_⟩
  · rw [(reducedShape_eq _ 0 _).1, List.map_eq_nil_iff, List.filter_eq_nil_iff]
    rintro ⟨n, k⟩ hm
    rw [List.mem_zipIdx_iff_getElem?] at hm
    have hk : k < a.shape.length := by
      by_contra hc
      rw [List.getElem?_eq_none (by omega)] at hm
      simp at hm
    obtain ⟨x, hx, he⟩ := hall k hk
    have := hrange x hx
    have hin : k ∈ axes.map fun (x : Int) => (if x < 0 then x + (a.shape.length : Int) else x).toNat :=
      List.mem_map.2 ⟨x, hx, by split <;> omega⟩
    simp only [hin, decide_true, Bool.not_true, Nat.zero_add]
    simp [hin]
  · intro h0
    exact hne (List.length_eq_zero_iff.1 (by rw [← ha.len, h0]; rfl))

/-- **C36** (reductions, refusals): an axis that does not exist, or one named twice, is refused. -/
theorem C36_reduce_refused {δ κ α : Type} (ops : DimOps δ κ) (red : List α → α) (a : Awu δ α) (axes : List Int) (keep : Bool)
    (h : ¬ ValidAxes a.shape.length axes) : ∃ e, a.reduce ops red axes keep = .error e := by
  unfold Awu.reduce
  by_cases hr : ∀ x ∈ axes, -(a.shape.length : Int) ≤ x ∧ x < a.shape.length
  · rw [normList_ok _ _ hr]
    simp only
    rw [if_pos]
    · exact ⟨_, rfl⟩
    · intro hn
      apply h
      refine ⟨hr, ?_⟩
      unfold List.Nodup at hn
      rw [List.pairwise_map] at hn
      refine hn.imp_of_mem ?_
      intro x y hx hy hxy
      have := hr x hx
      have := hr y hy
      split at hxy <;> split at hxy <;> omega
  · rw [normList_error _ _ hr]
    exact ⟨_, rfl⟩

/-! ## Unit axes -/

/-- The entries of the axes that are not of length one. -/
def squash {β : Type} (shape : List Nat) (l : List β) : List β := ((shape.zip l).filter fun x => x.1 ≠ 1).map Prod.snd

theorem squash_cons {β : Type} (n : Nat) (shape : List Nat) (b : β) (l : List β) :
    squash (n :: shape) (b :: l) = if n = 1 then squash shape l else b :: squash shape l := by
  by_cases h : n = 1 <;> simp [squash, h]

theorem size_pos (shape : List Nat) (h : ∀ n ∈ shape, 1 ≤ n) : 0 < Nd.size shape := by
  induction shape with
  | nil => simp [Nd.size]
  | cons n shape ih =>
    simp only [Nd.size]
    exact Nat.mul_pos (h n (by simp)) (ih fun m hm => h m (by simp [hm]))

theorem size_zero (shape : List Nat) (h : 0 ∈ shape) : Nd.size shape = 0 := by
  induction shape with
  | nil => simp at h
  | cons n shape ih =>
    simp only [Nd.size]
    rcases List.mem_cons.mp h with rfl | h
    · simp
    · simp [ih h]

theorem size_squash (shape : List Nat) : Nd.size (squash shape shape) = Nd.size shape := by
  induction shape with
  | nil => rfl
  | cons n shape ih =>
    rw [squash_cons]
    by_cases h : n = 1
    · simp [h, Nd.size, ih]
    · simp [h, Nd.size, ih]

theorem ravel_squash {shape s : List Nat} (h : Nd.InB s shape) :
    Nd.ravel (squash shape shape) (squash shape s) = Nd.ravel shape s := by
  induction h with
  | nil => rfl
  | @cons i n s shape hi _ ih =>
    rw [squash_cons, squash_cons]
    by_cases h : n = 1
    · subst h
      have : i = 0 := by omega
      subst this
      simp [Nd.ravel, ih]
    · simp [h, Nd.ravel, ih, size_squash]

theorem zipped_eq {δ : Type} (shape : List Nat) (dims : List δ) (hl : dims.length = shape.length) (h : ∀ n ∈ shape, 1 ≤ n) :
    ((shape.zip dims).filter (fun x => decide (1 < x.1))).map Prod.fst = squash shape shape ∧
    ((shape.zip dims).filter (fun x => decide (1 < x.1))).map Prod.snd = squash shape dims := by
  induction shape generalizing dims with
  | nil => simp [squash]
  | cons n shape ih =>
    cases dims with
    | nil => simp at hl
    | cons d dims =>
      obtain ⟨e1, e2⟩ := ih dims (by simpa using hl) (fun m hm => h m (by simp [hm]))
      have hn := h n (by simp)
      rw [squash_cons, squash_cons]
      by_cases hone : n = 1
      · subst hone
        simp [e1, e2]
      · have : 1 < n := by omega
        simp [hone, this, e1, e2]

theorem install_squash {δ κ : Type} (ops : DimOps δ κ) (shape : List Nat) (dims : List δ) (hl : dims.length = shape.length)
    (hin : ∀ i (h1 : i < dims.length) (h2 : i < shape.length), ops.install dims[i] shape[i] = .ok dims[i]) :
    (squash shape dims).length = (squash shape shape).length ∧
    ∀ i (h1 : i < (squash shape dims).length) (h2 : i < (squash shape shape).length),
      ops.install (squash shape dims)[i] (squash shape shape)[i] = .ok (squash shape dims)[i] := by
  induction shape generalizing dims with
  | nil => simp [squash]
  | cons n shape ih =>
    cases dims with
    | nil => simp at hl
    | cons d dims =>
      obtain ⟨e1, e2⟩ := ih dims (by simpa using hl) (fun i h1 h2 => hin (i + 1) (by simpa using h1) (by simpa using h2))
      have h0 := hin 0 (by simp) (by simp)
      by_cases h : n = 1
      · simp only [squash_cons, h, if_true]
        exact ⟨e1, e2⟩
      · simp only [squash_cons, h, if_false]
        refine ⟨by simp [e1], ?_⟩
        intro i h1 h2
        cases i with
        | zero => exact h0
        | succ i => exact e2 i (by simpa using h1) (by simpa using h2)

/-- **C36** (squeeze): for an array without empty axes, `squeeze` drops the axes of length one and keeps the others with their dimensions;
values keep their index on the remaining axes. -/
theorem C36_squeeze {δ κ α : Type} (ops : DimOps δ κ) (a : Awu δ α) (ha : Settled ops a) (hpos : ∀ n ∈ a.shape, 1 ≤ n) :
    ∃ r, a.squeeze ops = .ok r ∧ r.shape = a.shape.filter (· ≠ 1) ∧ r.dims = squash a.shape a.dims ∧
      ∀ s, Nd.InB s a.shape → r.get (squash a.shape s) = a.get s := by
  obtain ⟨z1, z2⟩ := zipped_eq a.shape a.dims ha.len hpos
  obtain ⟨i1, i2⟩ := install_squash ops a.shape a.dims ha.len (fun i h1 _ => ha.own i h1)
  have hm : a.squeeze ops = .ok ⟨squash a.shape a.shape, squash a.shape a.dims,
      fun idx => a.get (Nd.unravel a.shape (Nd.ravel (squash a.shape a.shape) idx))⟩ := by
    unfold Awu.squeeze
    simp only [z1, z2, size_squash]
    rw [if_neg (by simp)]
    exact new_settled ops _ _ _ i1 (fun k h1 => i2 k h1 (by omega))
  refine ⟨_, hm, ?_, rfl, ?_⟩
  · have : ∀ sh : List Nat, squash sh sh = sh.filter (· ≠ 1) := by
      intro sh
      induction sh with
      | nil => rfl
      | cons n sh ih => rw [squash_cons, ih]; by_cases h : n = 1 <;> simp [h]
    exact this _
  · intro s hs
    simp only
    rw [ravel_squash hs, Nd.unravel_ravel hs]

/-- **C36** (squeeze, refusal): an array with an empty axis cannot be squeezed at all: ValueError. -/
theorem C36_squeeze_empty {δ κ α : Type} (ops : DimOps δ κ) (a : Awu δ α) (hl : a.dims.length = a.shape.length) (h0 : 0 ∈ a.shape) :
    a.squeeze ops = .error .valueError := by
  unfold Awu.squeeze
  simp only
  rw [if_pos]
  rw [size_zero a.shape h0]
  have : 0 < Nd.size (((a.shape.zip a.dims).filter (fun x => decide (1 < x.1))).map Prod.fst) := by
    apply size_pos
    intro n hn
    obtain ⟨x, hx, rfl⟩ := List.mem_map.mp hn
    have := (List.mem_filter.mp hx).2
    simp at this
    omega
  omega

/-- Insert an identity at every axis of length one of `shape`. -/
def withIdentities {β : Type} (b : β) : List Nat → List β → List β
  | [], _ => []
  | n :: shape, l => if n = 1 then b :: withIdentities b shape l else l.head?.toList ++ withIdentities b shape l.tail

theorem withUnitAxes_eq {δ κ : Type} (ops : DimOps δ κ) (shape : List Nat) (dims : List δ)
    (h : dims.length = (shape.filter (· ≠ 1)).length) :
    withUnitAxes ops shape dims = .ok (withIdentities ops.identity shape dims) := by
  induction shape generalizing dims with
  | nil => simp [withUnitAxes, withIdentities]
  | cons n shape ih =>
    by_cases hn : n = 1
    · subst hn
      have := ih dims (by simpa using h)
      simp [withUnitAxes, withIdentities, this]
    · cases dims with
      | nil => simp [hn] at h
      | cons d dims =>
        have := ih dims (by simpa [hn] using h)
        unfold withUnitAxes
        split
        · simp_all
        · simp_all
        · simp_all
        · rename_i h1 h2
          simp only [List.cons.injEq] at h1 h2
          obtain ⟨rfl, rfl⟩ := h1
          obtain ⟨rfl, rfl⟩ := h2
          rw [this]
          simp [withIdentities, hn]

theorem squash_withIdentities {β : Type} (b : β) (shape : List Nat) (l : List β) (h : l.length = (shape.filter (· ≠ 1)).length) :
    squash shape (withIdentities b shape l) = l ∧ (withIdentities b shape l).length = shape.length := by
  induction shape generalizing l with
  | nil => cases l <;> simp_all [squash, withIdentities]
  | cons n shape ih =>
    by_cases hn : n = 1
    · subst hn
      obtain ⟨e1, e2⟩ := ih l (by simpa using h)
      simp [withIdentities, squash_cons, e1, e2]
    · cases l with
      | nil => simp [hn] at h
      | cons x l =>
        obtain ⟨e1, e2⟩ := ih l (by simpa [hn] using h)
        simp [withIdentities, squash_cons, hn, e1, e2]

theorem install_withIdentities {δ κ : Type} (ops : DimOps δ κ) (calm : Calm ops) (shape : List Nat) (dims : List δ)
    (h : dims.length = (shape.filter (· ≠ 1)).length)
    (hin : ∀ i (h1 : i < dims.length) (h2 : i < (shape.filter (· ≠ 1)).length), ops.install dims[i] (shape.filter (· ≠ 1))[i] = .ok dims[i]) :
    ∀ i (h1 : i < (withIdentities ops.identity shape dims).length) (h2 : i < shape.length),
      ops.install (withIdentities ops.identity shape dims)[i] shape[i] = .ok (withIdentities ops.identity shape dims)[i] := by
  induction shape generalizing dims with
  | nil => simp
  | cons n shape ih =>
    intro i h1 h2
    by_cases hn : n = 1
    · subst hn
      have hl : dims.length = (shape.filter (· ≠ 1)).length := by simpa using h
      have hf : (1 :: shape).filter (· ≠ 1) = shape.filter (· ≠ 1) := by simp
      simp only [hf] at hin
      have := ih dims hl hin
      simp only [withIdentities, if_true] at h1 ⊢
      cases i with
      | zero => exact calm.ident 1
      | succ i => exact this i (by simpa using h1) (by simpa using h2)
    · cases dims with
      | nil => simp [hn] at h
      | cons d dims =>
        have hl : dims.length = (shape.filter (· ≠ 1)).length := by simpa [hn] using h
        have hf : (n :: shape).filter (· ≠ 1) = n :: shape.filter (· ≠ 1) := by simp [hn]
        simp only [hf] at hin
        have := ih dims hl (fun i h1 h2 => hin (i + 1) (by simpa using h1) (by simpa using h2))
        have h0 := hin 0 (by simp) (by simp)
        simp only [withIdentities, hn, if_false, List.head?_cons, Option.toList_some, List.tail_cons, List.singleton_append] at h1 ⊢
        cases i with
        | zero => exact h0
        | succ i => exact this i (by simpa using h1) (by simpa using h2)

/-- **C36** (adding unit axes): reshaping an array without unit axes to a shape that only adds unit axes keeps every dimension with its axis
and puts identities at the new axes; values keep their index. -/
theorem C36_reshape_adds {δ κ α : Type} (ops : DimOps δ κ) (calm : Calm ops) (a : Awu δ α) (ha : Settled ops a) (shape : List Nat)
    (h : shape.filter (· ≠ 1) = a.shape) (hne : shape ≠ a.shape) :
    ∃ r, a.reshape ops shape = .ok r ∧ r.shape = shape ∧ r.dims.length = shape.length ∧ squash shape r.dims = a.dims ∧
      (∀ k (h1 : k < shape.length) (h2 : k < r.dims.length), shape[k] = 1 → r.dims[k] = ops.identity) ∧
      ∀ s, Nd.InB s shape → r.get s = a.get (squash shape s) := by
  have hself : ∀ sh : List Nat, squash sh sh = sh.filter (· ≠ 1) := by
    intro sh
    induction sh with
    | nil => rfl
    | cons n sh ih => rw [squash_cons, ih]; by_cases h : n = 1 <;> simp [h]
  have hno : a.shape.filter (· ≠ 1) = a.shape := by
    rw [← h, List.filter_filter]; simp
  have hlen : a.dims.length = (shape.filter (· ≠ 1)).length := by rw [h]; exact ha.len
  obtain ⟨w1, w2⟩ := squash_withIdentities ops.identity shape a.dims hlen
  have hin := install_withIdentities ops calm shape a.dims hlen (by
    intro i h1 h2
    have := ha.own i h1
    simp only [h]
    exact this)
  have hm : a.reshape ops shape = .ok ⟨shape, withIdentities ops.identity shape a.dims,
      fun idx => a.get (Nd.unravel a.shape (Nd.ravel shape idx))⟩ := by
    unfold Awu.reshape
    rw [if_neg (by rw [hno]; exact hne), if_pos h.symm]
    simp only [withUnitAxes_eq ops shape a.dims hlen]
    rw [if_neg]
    · exact new_settled ops _ _ _ w2 (fun k h1 => hin k h1 (by omega))
    · rw [← h, ← hself, size_squash]; simp
  refine ⟨_, hm, rfl, w2, w1, ?_, ?_⟩
  · have key : ∀ (sh : List Nat) (l : List δ) k (h1 : k < sh.length) (h2 : k < (withIdentities ops.identity sh l).length),
        l.length = (sh.filter (· ≠ 1)).length → sh[k] = 1 → (withIdentities ops.identity sh l)[k] = ops.identity := by
      intro sh
      induction sh with
      | nil => intro l k h1; simp at h1
      | cons n sh ih =>
        intro l k h1 h2 hll hk
        by_cases hn : n = 1
        · subst hn
          simp only [withIdentities, if_true] at h2 ⊢
          cases k with
          | zero => rfl
          | succ k => exact ih l k (by simpa using h1) (by simpa using h2) (by simpa using hll) (by simpa using hk)
        · cases l with
          | nil => simp [hn] at hll
          | cons x l =>
            simp only [withIdentities, hn, if_false, List.head?_cons, Option.toList_some, List.tail_cons, List.singleton_append] at h2 ⊢
            cases k with
            | zero => exact absurd hk hn
            | succ k => exact ih l k (by simpa using h1) (by simpa using h2) (by simpa [hn] using hll) (by simpa using hk)
    intro k h1 h2 hk
    exact key shape a.dims k h1 h2 hlen hk
  · intro s hs
    have h3 := ravel_squash hs
    have hInB : ∀ {s shape : List Nat}, Nd.InB s shape → Nd.InB (squash shape s) (squash shape shape) := by
      intro s shape hh
      induction hh with
      | nil => exact .nil
      | @cons i n s shape hi _ ih =>
        rw [squash_cons, squash_cons]
        by_cases h : n = 1
        · simpa [h] using ih
        · simpa [h] using Nd.InB.cons hi ih
    have h4 := hInB hs
    rw [hself, h] at h3 h4
    simp only
    rw [← h3, Nd.unravel_ravel h4]

/-- **C36** (reshaping in general): any other accepted shape forgets the dimensions: every axis becomes an identity, and values keep their
position in C order. -/
theorem C36_reshape_other {δ κ α : Type} (ops : DimOps δ κ) (calm : Calm ops) (a : Awu δ α) (shape : List Nat)
    (h1 : shape ≠ a.shape.filter (· ≠ 1)) (h2 : a.shape ≠ shape.filter (· ≠ 1)) :
    (Nd.size shape = Nd.size a.shape → ∃ r, a.reshape ops shape = .ok r ∧ r.shape = shape ∧
      r.dims = List.replicate shape.length ops.identity ∧
      ∀ idx s, Nd.InB idx shape → Nd.InB s a.shape → Nd.ravel shape idx = Nd.ravel a.shape s → r.get idx = a.get s) ∧
    (Nd.size shape ≠ Nd.size a.shape → a.reshape ops shape = .error .valueError) := by
  constructor
  · intro hs
    have hm : a.reshape ops shape = .ok ⟨shape, shape.map fun _ => ops.identity,
        fun idx => a.get (Nd.unravel a.shape (Nd.ravel shape idx))⟩ := by
      unfold Awu.reshape
      rw [if_neg h1, if_neg h2, if_neg (by simpa using hs)]
      exact new_settled ops _ _ _ (by simp) (fun k h1 => by simpa using calm.ident _)
    refine ⟨_, hm, rfl, ?_, ?_⟩
    · simp only
      exact List.map_const' ..
    · intro idx s hi hs he
      simp only
      rw [he, Nd.unravel_ravel hs]
  · intro hs
    unfold Awu.reshape
    rw [if_neg h1, if_neg h2, if_pos hs]

/-- **C36** (removing unit axes): reshaping to the shape without unit axes is `squeeze` (see `C36_squeeze`). -/
theorem C36_reshape_drops {δ κ α : Type} (ops : DimOps δ κ) (a : Awu δ α) :
    a.reshape ops (a.shape.filter (· ≠ 1)) = a.squeeze ops := by
  unfold Awu.reshape
  rw [if_pos rfl]

/-! ## Concatenation -/

theorem dimsEq_iff {δ κ : Type} (ops : DimOps δ κ) (x y : List δ) :
    dimsEq ops x y = .ok true ↔ List.Forall₂ (fun a b => ops.eq a b = .ok true) x y := by
  induction x generalizing y with
  | nil => cases y <;> simp [dimsEq]
  | cons a x ih => cases y with
    | nil => simp [dimsEq]
    | cons b y =>
      rw [List.forall₂_cons, ← ih]
      simp only [dimsEq]
      cases ops.eq a b with
      | error e => simp
      | ok v => cases v <;> simp

theorem allMatch_iff {δ κ α : Type} (ops : DimOps δ κ) (a : Awu δ α) (rest : List (Awu δ α)) :
    allMatch ops a rest = .ok () ↔ ∀ b ∈ rest, List.Forall₂ (fun y x => ops.eq y x = .ok true) b.dims a.dims := by
  induction rest with
  | nil => simp [allMatch]
  | cons b rest ih =>
    rw [List.forall_mem_cons, ← ih, ← dimsEq_iff]
    simp only [allMatch]
    cases dimsEq ops b.dims a.dims with
    | error e => simp
    | ok v => cases v <;> simp

/-- Where array number `k` begins along the axis: after the places of those before it. -/
def offset {α : Type} (axis : Nat) (arrs : List (List Nat × (List Nat → α))) (k : Nat) : Nat :=
  ((arrs.take k).map fun a => a.1.getD axis 0).sum

theorem alongAxis_total {α : Type} (axis : Nat) (arrs : List (List Nat × (List Nat → α))) :
    (alongAxis axis arrs).1 = (arrs.map fun a => a.1.getD axis 0).sum := by
  induction arrs with
  | nil => rfl
  | cons a arrs ih => obtain ⟨s, g⟩ := a; simp [alongAxis, ih]

theorem alongAxis_get {α : Type} (axis : Nat) (arrs : List (List Nat × (List Nat → α))) : ∀ (k : Nat) (h : k < arrs.length) (idx : List Nat),
    axis < idx.length → idx.getD axis 0 < arrs[k].1.getD axis 0 →
    (alongAxis axis arrs).2 (idx.set axis (offset axis arrs k + idx.getD axis 0)) = some (arrs[k].2 idx) := by
  induction arrs with
  | nil => intro k h; simp at h
  | cons a arrs ih =>
    intro k h idx hi hk
    obtain ⟨s, g⟩ := a
    have hget : ∀ v, (idx.set axis v).getD axis 0 = v := by
      intro v
      rw [List.getD_eq_getElem _ 0 (by simpa using hi)]
      simp
    cases k with
    | zero =>
      simp only [List.getElem_cons_zero] at hk
      have e : idx.set axis (idx.getD axis 0) = idx := by
        rw [List.getD_eq_getElem _ 0 hi]; simp
      simp only [alongAxis, offset, List.take_zero, List.map_nil, List.sum_nil, Nat.zero_add, List.getElem_cons_zero]
      rw [e, if_pos hk]
    | succ k =>
      simp only [List.getElem_cons_succ] at hk ⊢
      have ho : offset axis ((s, g) :: arrs) (k + 1) = s.getD axis 0 + offset axis arrs k := by simp [offset]
      simp only [alongAxis, ho, hget, List.set_set]
      rw [if_neg (by omega)]
      have := ih k (by simpa using h) idx hi hk
      rw [← this]
      congr 2
      rw [Nat.add_assoc, Nat.add_sub_cancel_left]

theorem set_zero_eq_iff (axis : Nat) (s t : List Nat) (h : axis < s.length) :
    t.set axis 0 = s.set axis 0 ↔ t.length = s.length ∧ ∀ k, k ≠ axis → t[k]? = s[k]? := by
  constructor
  · intro e
    refine ⟨by have := congrArg List.length e; simpa using this, ?_⟩
    intro k hk
    have := congrArg (fun l : List Nat => l[k]?) e
    simpa [List.getElem?_set_ne (Ne.symm hk)] using this
  · rintro ⟨h1, h2⟩
    apply List.ext_getElem?
    intro k
    by_cases hk : k = axis
    · subst hk
      rw [List.getElem?_set_self (by omega), List.getElem?_set_self h]
    · rw [List.getElem?_set_ne (Ne.symm hk), List.getElem?_set_ne (Ne.symm hk), h2 k hk]

/-- The arrays have the same number of axes, one of them being `axis`, and agree in all others. -/
def SameElsewhere {δ α : Type} (a : Awu δ α) (rest : List (Awu δ α)) (axis : Nat) : Prop :=
  axis < a.shape.length ∧ ∀ b ∈ rest, b.shape.length = a.shape.length ∧ ∀ k, k ≠ axis → b.shape[k]? = a.shape[k]?

theorem joined_iff {δ κ α : Type} (ops : DimOps δ κ) (dims : List δ) (a : Awu δ α) (rest : List (Awu δ α)) (axis : Nat) (r : Awu δ α) :
    joined ops dims (a :: rest) axis = .ok r ↔ SameElsewhere a rest axis ∧
      Awu.new ops (a.shape.set axis ((a :: rest).map fun x => x.shape.getD axis 0).sum)
        (fun idx => ((alongAxis axis ((a :: rest).map fun x => (x.shape, x.get))).2 idx).getD (a.get idx)) dims = .ok r := by
  have hc : (axis < a.shape.length ∧ ((rest.map fun x => (x.shape, x.get)).all fun b => decide (b.1.set axis 0 = a.shape.set axis 0)) = true) ↔
      SameElsewhere a rest axis := by
    unfold SameElsewhere
    refine and_congr_right fun h => ?_
    simp only [List.all_map, List.all_eq_true, Function.comp, decide_eq_true_eq, set_zero_eq_iff axis a.shape _ h]
  have htot := alongAxis_total axis ((a :: rest).map fun x => (x.shape, x.get))
  simp only [List.map_map, Function.comp_def] at htot
  unfold joined npConcat
  simp only [List.map_cons]
  by_cases h : SameElsewhere a rest axis
  · rw [if_pos (hc.2 h)]
    simp only [List.map_cons] at htot
    simp only [htot, h, true_and]
  · rw [if_neg (fun hh => h (hc.1 hh))]
    simp [h]

theorem joined_refused {δ κ α : Type} (ops : DimOps δ κ) (dims : List δ) (a : Awu δ α) (rest : List (Awu δ α)) (axis : Nat)
    (h : ¬ SameElsewhere a rest axis) : joined ops dims (a :: rest) axis = .error .valueError := by
  unfold joined npConcat
  simp only [List.map_cons]
  rw [if_neg]
  rintro ⟨h1, h2⟩
  apply h
  refine ⟨h1, ?_⟩
  intro b hb
  rw [List.all_map, List.all_eq_true] at h2
  exact (set_zero_eq_iff axis a.shape _ h1).1 (by simpa using h2 b hb)

/-- **C36** (concatenation): any number of arrays whose dimensions are equal, one by one, to those of the first, and whose other axes agree, are
joined along an axis: the places of the first array, then those of the second, and so on, each with its values; the dimensions are those of the
first array, told their new sizes. -/
theorem C36_concat {δ κ α : Type} (ops : DimOps δ κ) (a : Awu δ α) (rest : List (Awu δ α)) (axis : Nat) (r : Awu δ α)
    (h : concat ops (a :: rest) axis = .ok r) :
    (∀ b ∈ rest, List.Forall₂ (fun y x => ops.eq y x = .ok true) b.dims a.dims) ∧ SameElsewhere a rest axis ∧
    r.shape = a.shape.set axis ((a :: rest).map fun x => x.shape.getD axis 0).sum ∧
    r.dims.length = a.dims.length ∧
    (∀ k (h1 : k < a.dims.length) (h2 : k < r.shape.length) (h3 : k < r.dims.length), ops.install a.dims[k] r.shape[k] = .ok r.dims[k]) ∧
    (∀ k (hk : k < (a :: rest).length) (idx : List Nat), axis < idx.length → idx.getD axis 0 < (a :: rest)[k].shape.getD axis 0 →
      r.get (idx.set axis ((((a :: rest).take k).map fun x => x.shape.getD axis 0).sum + idx.getD axis 0)) = (a :: rest)[k].get idx) := by
  unfold concat at h
  simp only at h
  split at h
  · cases h
  · rename_i u hm
    have hd := (allMatch_iff ops a rest).1 hm
    obtain ⟨hs, hn⟩ := (joined_iff ops a.dims a rest axis r).1 h
    obtain ⟨e1, e2, e3, e4, e5⟩ := (C36_new ops _ _ _ r).mp hn
    refine ⟨hd, hs, e2, e4, ?_, ?_⟩
    · intro k h1 h2 h3
      simp only [e2]
      exact e5 k h1 (by rw [← e2]; exact h2) h3
    · intro k hk idx hi hlt
      have := alongAxis_get axis ((a :: rest).map fun x => (x.shape, x.get)) k (by simpa using hk) idx hi
        (by rw [List.getElem_map]; exact hlt)
      rw [e3]
      have ho : offset axis ((a :: rest).map fun x => (x.shape, x.get)) k = (((a :: rest).take k).map fun x => x.shape.getD axis 0).sum := by
        simp only [offset, ← List.map_take, List.map_map, Function.comp_def]
      rw [ho] at this
      simp only [this, Option.getD_some, List.getElem_map]

/-- **C36** (concatenation, when): it succeeds exactly if all dimensions are equal to those of the first array, the other axes agree, and the
dimensions accept their new sizes. -/
theorem C36_concat_ok {δ κ α : Type} (ops : DimOps δ κ) (a : Awu δ α) (rest : List (Awu δ α)) (axis : Nat) (hl : a.dims.length = a.shape.length) :
    (∃ r, concat ops (a :: rest) axis = .ok r) ↔
      (∀ b ∈ rest, List.Forall₂ (fun y x => ops.eq y x = .ok true) b.dims a.dims) ∧ SameElsewhere a rest axis ∧
      ∀ k (h1 : k < a.dims.length), ∃ d,
        ops.install a.dims[k] ((a.shape.set axis ((a :: rest).map fun x => x.shape.getD axis 0).sum)[k]'(by simpa [← hl] using h1)) = .ok d := by
  constructor
  · rintro ⟨r, h⟩
    obtain ⟨h1, h2, h3, h4, h5, _⟩ := C36_concat ops a rest axis r h
    refine ⟨h1, h2, ?_⟩
    intro k hk
    have hk2 : k < r.shape.length := by rw [h3]; simpa [← hl] using hk
    have := h5 k hk hk2 (by omega)
    refine ⟨r.dims[k]'(by omega), ?_⟩
    rw [← this]; congr 1; simp only [h3]
  · rintro ⟨h1, h2, h3⟩
    choose f hf using h3
    refine ⟨⟨a.shape.set axis ((a :: rest).map fun x => x.shape.getD axis 0).sum, List.ofFn fun k : Fin a.dims.length => f k.1 k.2,
      fun idx => ((alongAxis axis ((a :: rest).map fun x => (x.shape, x.get))).2 idx).getD (a.get idx)⟩, ?_⟩
    unfold concat
    simp only [(allMatch_iff ops a rest).2 h1]
    refine (joined_iff ops a.dims a rest axis _).2 ⟨h2, (C36_new ops _ _ _ _).mpr ⟨by simp [hl], rfl, rfl, by simp, ?_⟩⟩
    intro k g1 g2 g3
    simpa using hf k g1

/-- **C36** (concatenation refused): if every comparison of dimensions gives an answer, and a dimension differs, or another axis differs, it is a
ValueError; so is concatenating nothing. -/
theorem C36_concat_refused {δ κ α : Type} (ops : DimOps δ κ) (a : Awu δ α) (rest : List (Awu δ α)) (axis : Nat)
    (hans : ∀ b ∈ rest, ∃ v, dimsEq ops b.dims a.dims = .ok v)
    (h : (∃ b ∈ rest, ¬ List.Forall₂ (fun y x => ops.eq y x = .ok true) b.dims a.dims) ∨ ¬ SameElsewhere a rest axis) :
    concat ops (a :: rest) axis = .error .valueError ∧ concat (α := α) ops [] axis = .error .valueError := by
  refine ⟨?_, rfl⟩
  unfold concat
  simp only
  have hm : allMatch ops a rest = .ok () ∨ allMatch ops a rest = .error .valueError := by
    clear h
    induction rest with
    | nil => exact Or.inl rfl
    | cons b rest ih =>
      obtain ⟨v, hv⟩ := hans b (by simp)
      simp only [allMatch, hv]
      cases v with
      | false => exact Or.inr rfl
      | true => exact ih (fun b hb => hans b (by simp [hb]))
  rcases hm with hm | hm
  · simp only [hm]
    rcases h with ⟨b, hb, hn⟩ | h
    · exact absurd ((allMatch_iff ops a rest).1 hm b hb) hn
    · exact joined_refused ops _ a rest axis h
  · simp only [hm]

/-- **C36** (`concatenate`): joining another array at the end of the first axis: the rows of the one, then those of the other.  It succeeds exactly
if the dimensions are equal (the comparison asks those of the first array), the other axes agree and the dimensions accept the new sizes. -/
theorem C36_concatenate {δ κ α : Type} (ops : DimOps δ κ) (a b : Awu δ α) (n m : Nat) (s t : List Nat) (ha : a.shape = n :: s)
    (hb : b.shape = m :: t) (hl : a.dims.length = s.length + 1) :
    (∀ r, a.concatenate ops b = .ok r → List.Forall₂ (fun x y => ops.eq x y = .ok true) a.dims b.dims ∧ s = t ∧ r.shape = (n + m) :: s ∧
      r.dims.length = a.dims.length ∧
      (∀ k (h1 : k < a.dims.length) (h2 : k < r.shape.length) (h3 : k < r.dims.length), ops.install a.dims[k] r.shape[k] = .ok r.dims[k]) ∧
      (∀ i rest, i < n → r.get (i :: rest) = a.get (i :: rest)) ∧
      (∀ i rest, i < m → r.get ((n + i) :: rest) = b.get (i :: rest))) ∧
    ((∃ r, a.concatenate ops b = .ok r) ↔ List.Forall₂ (fun x y => ops.eq x y = .ok true) a.dims b.dims ∧ s = t ∧
      ∀ k (h1 : k < a.dims.length), ∃ d, ops.install a.dims[k] (((n + m) :: s)[k]'(by simp; omega)) = .ok d) ∧
    (dimsEq ops a.dims b.dims = .ok false ∨ (dimsEq ops a.dims b.dims = .ok true ∧ s ≠ t) → a.concatenate ops b = .error .valueError) := by
  have hse : SameElsewhere a [b] 0 ↔ s = t := by
    unfold SameElsewhere
    simp only [ha, hb, List.length_cons, List.mem_singleton, forall_eq]
    constructor
    · rintro ⟨_, h1, h2⟩
      apply List.ext_getElem?
      intro k
      have := h2 (k + 1) (by omega)
      simpa using this.symm
    · rintro rfl
      refine ⟨by omega, rfl, ?_⟩
      intro k hk
      cases k with
      | zero => exact absurd rfl hk
      | succ k => rfl
  have hnew : ∀ r, joined ops a.dims [a, b] 0 = .ok r ↔ s = t ∧ Awu.new ops ((n + m) :: s)
      (fun idx => ((alongAxis 0 [(a.shape, a.get), (b.shape, b.get)]).2 idx).getD (a.get idx)) a.dims = .ok r := by
    intro r
    rw [joined_iff, hse]
    simp [ha, hb]
  have hval : ∀ r, joined ops a.dims [a, b] 0 = .ok r → s = t ∧ r.shape = (n + m) :: s ∧
      r.dims.length = a.dims.length ∧
      (∀ k (h1 : k < a.dims.length) (h2 : k < r.shape.length) (h3 : k < r.dims.length), ops.install a.dims[k] r.shape[k] = .ok r.dims[k]) ∧
      (∀ i rest, i < n → r.get (i :: rest) = a.get (i :: rest)) ∧
      (∀ i rest, i < m → r.get ((n + i) :: rest) = b.get (i :: rest)) := by
    intro r hr
    obtain ⟨h1, h2⟩ := (hnew r).1 hr
    obtain ⟨e1, e2, e3, e4, e5⟩ := (C36_new ops _ _ _ r).mp h2
    refine ⟨h1, e2, e4, ?_, ?_, ?_⟩
    · intro k g1 g2 g3
      simp only [e2]
      exact e5 k g1 (by rw [← e2]; exact g2) g3
    · intro i rest hi
      rw [e3]
      simp [alongAxis, ha, hi]
    · intro i rest hi
      rw [e3]
      simp [alongAxis, ha, hb, hi]
  refine ⟨?_, ?_, ?_⟩
  · intro r hr
    unfold Awu.concatenate at hr
    split at hr
    · cases hr
    · cases hr
    · rename_i hd
      exact ⟨(dimsEq_iff ops _ _).1 hd, hval r hr⟩
  · constructor
    · rintro ⟨r, hr⟩
      unfold Awu.concatenate at hr
      split at hr
      · cases hr
      · cases hr
      · rename_i hd
        obtain ⟨h1, h2, h3, h4, _⟩ := hval r hr
        refine ⟨(dimsEq_iff ops _ _).1 hd, h1, ?_⟩
        intro k hk
        have := h4 k hk (by rw [h2]; simp; omega) (by omega)
        refine ⟨r.dims[k]'(by omega), ?_⟩
        rw [← this]; congr 1; simp only [h2]
    · rintro ⟨h1, h2, h3⟩
      choose f hf using h3
      refine ⟨⟨(n + m) :: s, List.ofFn fun k : Fin a.dims.length => f k.1 k.2,
        fun idx => ((alongAxis 0 [(a.shape, a.get), (b.shape, b.get)]).2 idx).getD (a.get idx)⟩, ?_⟩
      unfold Awu.concatenate
      simp only [(dimsEq_iff ops _ _).2 h1]
      refine (hnew _).2 ⟨h2, (C36_new ops _ _ _ _).mpr ⟨by simp [hl], rfl, rfl, by simp, ?_⟩⟩
      intro k g1 g2 g3
      simpa using hf k g1
  · rintro (h | ⟨h, hst⟩)
    · simp [Awu.concatenate, h]
    · simp only [Awu.concatenate, h]
      exact joined_refused ops _ a [b] 0 (fun hh => hst (hse.1 hh))

/-- **C36** (products): the entry of `x.dot(b)` at row i and column j is the inner product of the i-th row of `x` with the j-th column of `b`,
the products taken in order; factors that do not fit are a ValueError. -/
theorem C36_dot {δ κ α : Type} (ops : DimOps δ κ) (mac : List (α × α) → α) (a : Awu δ α) (n k k' m : Nat) (b : List Nat → α)
    (ha : a.shape = [n, k]) :
    (∀ r, a.dot ops mac [k', m] b = .ok r → k = k' ∧ r.shape = [n, m] ∧
      ∀ i j, r.get [i, j] = mac (List.ofFn fun l : Fin k => (a.get [i, l], b [l, j]))) ∧
    (k ≠ k' → a.dot ops mac [k', m] b = .error .valueError) := by
  unfold Awu.dot
  simp only [ha]
  constructor
  · intro r hr
    split at hr
    · cases hr
    · rename_i h
      obtain ⟨e1, e2, e3, e4, e5⟩ := (C36_new ops _ _ _ r).mp hr
      refine ⟨by simpa using h, e2, ?_⟩
      intro i j
      rw [e3]
      simp only [List.headD_cons, List.tail_cons]
      congr 1
      apply List.ext_getElem <;> simp
  · intro h
    simp [h]

/-! ## Windows over a time axis -/

section
variable {φ : Type} [Field φ] [LinearOrder φ] (X : Freq.NumExt φ)

/-- Not a time dimension, and (if an identity) not of length zero. -/
def Still (d : LibDim φ) (n : Nat) : Prop :=
  match d with
  | .identity => n ≠ 0
  | .time _ _ _ => False
  | .freq _ => True

theorem newDims_still (dims : List (LibDim φ)) (sh ss : List Nat) (h1 : dims.length = sh.length) (h2 : ss.length = sh.length)
    (h : ∀ k (h1 : k < dims.length) (h2 : k < sh.length), Still dims[k] sh[k]) :
    computeNewDims (libOps X) dims sh (sh.map some) (ss.map some) = .ok dims := by
  induction dims generalizing sh ss with
  | nil => cases sh <;> simp_all [computeNewDims]
  | cons d dims ih =>
    cases sh with
    | nil => simp at h1
    | cons n sh =>
      cases ss with
      | nil => simp at h2
      | cons s ss =>
        have hr := ih sh ss (by simpa using h1) (by simpa using h2) (fun k e1 e2 => h (k + 1) (by simpa using e1) (by simpa using e2))
        have h0 : Still d n := h 0 (by simp) (by simp)
        simp only [List.map_cons, computeNewDims, hr]
        cases d with
        | identity => simp only [Still] at h0; simp [modifiedOr, libOps, h0]
        | time _ _ _ => exact absurd h0 id
        | freq s => simp [modifiedOr, libOps]

theorem counts_full (sh ss : List Nat) (h2 : ss.length = sh.length) : Nd.counts sh sh ss = List.replicate sh.length 1 := by
  induction sh generalizing ss with
  | nil => simp [Nd.counts]
  | cons n sh ih =>
    cases ss with
    | nil => simp at h2
    | cons s ss => simp [Nd.counts, ih ss (by simpa using h2), List.replicate_succ]

theorem size_ones (k : Nat) : Nd.size (List.replicate k 1) = 1 := by
  induction k with
  | zero => rfl
  | succ k ih => simp [List.replicate_succ, Nd.size, ih]

theorem place_full (sh ss rest : List Nat) (h2 : ss.length = sh.length) (h3 : rest.length = sh.length) :
    List.zipWith (fun (is : Nat × Nat) (j : Nat) => is.1 * is.2 + j) ((Nd.unravel (List.replicate sh.length 1) 0).zip ss) rest = rest := by
  induction sh generalizing ss rest with
  | nil => cases ss <;> cases rest <;> simp_all
  | cons n sh ih =>
    cases ss with
    | nil => simp at h2
    | cons s ss =>
      cases rest with
      | nil => simp at h3
      | cons j rest =>
        have := ih ss rest (by simpa using h2) (by simpa using h3)
        simp [List.replicate_succ, Nd.unravel, size_ones, this]

/-- **C36** (windows): windows of `w` samples taken every `s` samples along a leading time axis, with full windows along the other axes: the
windows are a time axis of frequency `s` samples whose items last `w` samples (with the overlap of the samples themselves), the samples inside
a window keep their own time dimension, and the other axes keep theirs.  Sample `j` of window `i` is sample `i * s + j`. -/
theorem C36_windows {α : Type} (a : Awu (LibDim φ) α) (f u : Int) (sz : Option Nat) (dims : List (LibDim φ)) (n : Nat) (sh : List Nat)
    (had : a.dims = .time f u sz :: dims) (has : a.shape = n :: sh) (hset : Settled (libOps X) a)
    (hstill : ∀ k (h1 : k < dims.length) (h2 : k < sh.length), Still dims[k] sh[k])
    (w s : Nat) (ss : List Nat) (hs : 0 < s) (hw : 0 < w) (hwn : w ≤ n) (hss : ss.length = sh.length) (hf : 0 < f) (hu : 0 ≤ u - f) :
    ∃ r, a.slidingWindow (libOps X) (w :: sh) (s :: ss) = .ok r ∧
      r.shape = ((n - w) / s + 1) :: w :: sh ∧
      r.dims = .time (f * s) (f * w + (u - f)) (some ((n - w) / s + 1)) :: .time f u (some w) :: dims ∧
      ∀ i j rest, i < (n - w) / s + 1 → j < w → rest.length = sh.length → r.get (i :: j :: rest) = a.get ((i * s + j) :: rest) := by
  have hdl : dims.length = sh.length := by
    have := hset.len
    rw [had, has] at this
    simpa using this
  have hdown : ∀ k (h1 : k < dims.length) (h2 : k < sh.length), (libOps X).install dims[k] sh[k] = .ok dims[k] := by
    intro k h1 h2
    have := hset.own (k + 1) (by rw [had]; simpa using h1)
    simp only [had, has] at this
    exact this
  have hne : f * (w : Int) + (u - f) ≠ 0 := by
    have : 0 < f * (w : Int) := Int.mul_pos hf (by omega)
    omega
  have hnd : computeNewDims (libOps X) a.dims a.shape ((w :: sh).map some) ((s :: ss).map some) =
      .ok (.time (f * s) (f * w + (u - f)) none :: .time f u sz :: dims) := by
    rw [had, has]
    simp only [List.map_cons, computeNewDims]
    rw [newDims_still X dims sh ss hdl hss hstill]
    simp [modifiedOr, libOps, hne, Nat.pos_iff_ne_zero.mp hs]
  have hcs : Nd.counts a.shape (w :: sh) (s :: ss) = ((n - w) / s + 1) :: List.replicate sh.length 1 := by
    rw [has]; simp [Nd.counts, counts_full sh ss hss]
  have htl : Nd.tooLarge (w :: sh) a.shape = false := by
    rw [has]
    rw [Nd.tooLarge_iff _ _ (by simp)]
    intro k hk
    cases k with
    | zero => simpa using hwn
    | succ k => simp
  have hm : a.slidingWindow (libOps X) (w :: sh) (s :: ss) = .ok
      ⟨((n - w) / s + 1) :: w :: sh, .time (f * s) (f * w + (u - f)) (some ((n - w) / s + 1)) :: .time f u (some w) :: dims,
       fun idx => a.get (List.zipWith (fun (is : Nat × Nat) (j : Nat) => is.1 * is.2 + j)
         ((Nd.unravel (((n - w) / s + 1) :: List.replicate sh.length 1) (idx.headD 0)).zip (s :: ss)) idx.tail)⟩ := by
    unfold Awu.slidingWindow
    rw [if_neg (by rw [has]; simp [hss]), htl, if_neg (by simp), if_neg (by simp)]
    simp only [hnd, hcs]
    refine (C36_new _ _ _ _ _).mpr ⟨by simp [hdl], by simp [Nd.size, size_ones], rfl, by simp, ?_⟩
    intro k h1 h2 h3
    match k with
    | 0 => simp [libOps, Nd.size, size_ones]
    | 1 => rfl
    | k + 2 => exact hdown k (by simpa using h1) (by simpa using h2)
  refine ⟨_, hm, rfl, rfl, ?_⟩
  intro i j rest hi hj hrest
  simp only [List.headD_cons, List.tail_cons, Nd.unravel, size_ones, Nat.div_one, Nat.mod_one, List.zip_cons_cons, List.zipWith_cons_cons,
    place_full sh ss rest hss hrest]

theorem newDims_whole (dims : List (LibDim φ)) (sh : List Nat) (h1 : dims.length = sh.length) :
    computeNewDims (libOps X) dims sh (sh.map fun _ => none) (sh.map fun _ => none) = .ok dims := by
  induction dims generalizing sh with
  | nil => cases sh <;> simp_all [computeNewDims]
  | cons d dims ih =>
    cases sh with
    | nil => simp at h1
    | cons n sh =>
      simp only [List.map_cons, computeNewDims, ih sh (by simpa using h1)]
      cases d <;> simp [modifiedOr, libOps]

/-- **C36** (windows with leftovers): the `nwin` windows that `sliding_window_with_leftovers` cuts from a leading time axis are a time axis of
frequency `s` samples whose items last `w` samples (with the overlap of the samples themselves), the samples inside a window keep their own
time dimension, and all other axes, whatever they are, keep theirs. -/
theorem C36_windows_with_leftovers {α : Type} (a : Awu (LibDim φ) α) (f u : Int) (sz : Option Nat) (dims : List (LibDim φ)) (n : Nat)
    (sh : List Nat) (had : a.dims = .time f u sz :: dims) (has : a.shape = n :: sh) (hset : Settled (libOps X) a)
    (w s nwin : Nat) (hs : 0 < s) (hw : 0 < w) (hf : 0 < f) (hu : 0 ≤ u - f) :
    a.windowedDims (libOps X) w s nwin =
      .ok (.time (f * s) (f * w + (u - f)) (some nwin) :: .time f u (some w) :: dims) := by
  have hdl : dims.length = sh.length := by
    have := hset.len
    rw [had, has] at this
    simpa using this
  have hdown : ∀ k (h1 : k < dims.length) (h2 : k < sh.length), (libOps X).install dims[k] sh[k] = .ok dims[k] := by
    intro k h1 h2
    have := hset.own (k + 1) (by rw [had]; simpa using h1)
    simp only [had, has] at this
    exact this
  have hne : f * (w : Int) + (u - f) ≠ 0 := by
    have : 0 < f * (w : Int) := Int.mul_pos hf (by omega)
    omega
  have hnd : computeNewDims (libOps X) a.dims a.shape (some w :: a.shape.tail.map fun _ => none) (some s :: a.shape.tail.map fun _ => none) =
      .ok (.time (f * s) (f * w + (u - f)) none :: .time f u sz :: dims) := by
    rw [had, has]
    simp only [computeNewDims, List.tail_cons]
    rw [newDims_whole X dims sh hdl]
    simp [modifiedOr, libOps, hne, Nat.pos_iff_ne_zero.mp hs]
  unfold Awu.windowedDims
  simp only [hnd]
  rw [has]
  simp only [List.length_cons, List.tail_cons, hdl, ne_eq, not_true_eq_false, if_false]
  refine (installAll_iff _ _ _ (by simp [hdl]) _).mpr ⟨by simp, ?_⟩
  intro k h1 h2 h3
  match k with
  | 0 => simp [libOps]
  | 1 => rfl
  | k + 2 => exact hdown k (by simpa using h1) (by simpa using h2)

/-- **C36** (windows with leftovers, other arrays): an array whose first axis has no time dimension gets identity dimensions throughout, unless
the window is as long as the array. -/
theorem C36_windows_with_leftovers_identity {α : Type} (a : Awu (LibDim φ) α) (dims : List (LibDim φ)) (n : Nat)
    (sh : List Nat) (had : a.dims = .identity :: dims) (has : a.shape = n :: sh) (w s nwin : Nat) (hw : 0 < w) (hwn : w ≠ n) :
    a.windowedDims (libOps X) w s nwin = .ok (List.replicate (sh.length + 2) .identity) := by
  have hnd : computeNewDims (libOps X) a.dims a.shape (some w :: a.shape.tail.map fun _ => none) (some s :: a.shape.tail.map fun _ => none) =
      .error .valueError := by
    rw [had, has]
    simp [computeNewDims, modifiedOr, libOps, Nat.pos_iff_ne_zero.mp hw, Ne.symm hwn]
  unfold Awu.windowedDims
  simp only [hnd]
  rw [has]
  refine (installAll_iff _ _ _ (by simp) _).mpr ⟨by simp [libOps], ?_⟩
  intro k h1 h2 h3
  simp [libOps]
end

/-! ## Cases where an axis loses its dimension, or an index is refused -/

/-- Nine samples, one per second, of three channels. -/
def stereo : Awu (LibDim ℚ) (List Nat) := ⟨[9, 3], [.time 1000000000000 1000000000000 (some 9), .identity], fun i => i⟩

/-- The library's dimensions. -/
def L : DimOps (LibDim ℚ) (LibIdx ℚ) := libOps Zounds.Props.Frequency.noExt

/-- Shape and dimensions of a result. -/
def look {α : Type} (r : Except PyErr (Awu (LibDim ℚ) α)) : Except PyErr (List Nat × List (LibDim ℚ)) := r.map fun a => (a.shape, a.dims)

/-- Second 2 to second 5. -/
def sec2to5 : Item (LibIdx ℚ) := .custom (.timeSlice 2000000000000 (some 3000000000000))

/-- A non-trivial array that meets the hypotheses of the theorems above. -/
theorem stereo_settled : Settled L stereo := by
  refine ⟨rfl, ?_⟩
  intro k hk
  match k, hk with
  | 0, _ => rfl
  | 1, _ => rfl

/-- `x[TimeSlice, ..., [2, 0]]`: three samples of channels 2 and 0. -/
example : look (stereo.getitem L [sec2to5, .ellipsis, .list [2, 0]]) =
    .ok ([3, 2], [.time 1000000000000 1000000000000 (some 3), .identity]) := by decide +kernel
example : (stereo.getitem L [sec2to5, .ellipsis, .list [2, 0]]).map (fun r => r.get [1, 0]) = .ok [3, 2] := by decide +kernel
example : SafeBefore [sec2to5] ∧ SafeAfter ([.list [2, 0]] : List (Item (LibIdx ℚ))) ∧ Tame ([sec2to5] ++ [.list [2, 0]]) ∧ Lawful L :=
  ⟨trivial, ⟨by decide +kernel, trivial⟩, Or.inr ⟨by decide +kernel, by decide +kernel⟩, C36_lib_lawful _⟩
example : look (stereo.reduce L (fun l => l.flatten) [-1] false) = .ok ([9], [.time 1000000000000 1000000000000 (some 9)]) := by decide +kernel
example : ValidAxes 2 [-1] ∧ ∃ k < 2, ¬ Hit 2 [-1] k := by unfold ValidAxes; decide +kernel
example : look (stereo.reduce L (fun l => l.flatten) [-1, 0] false) = .error .attributeError := by decide +kernel
example : ValidAxes 2 [-1, 0] ∧ ∀ k < 2, Hit 2 [-1, 0] k := by unfold ValidAxes; decide +kernel
example : look (stereo.slidingWindow L [4, 3] [2, 3]) =
    .ok ([3, 4, 3], [.time 2000000000000 4000000000000 (some 3), .time 1000000000000 1000000000000 (some 4), .identity]) := by decide +kernel

/-- **C36** (refuted after `None`): `x[None, TimeSlice]` asks the dimension of the wrong axis for the positions: on an array with one axis the
time slice is an IndexError, and on this one too, because the second axis is an identity. -/
theorem C36_none_then_time :
    look (stereo.getitem L [.newaxis, sec2to5]) = .error .indexError ∧
    look ((⟨[9], [.time 1000000000000 1000000000000 (some 9)], id⟩ : Awu (LibDim ℚ) (List Nat)).getitem L [.newaxis, sec2to5]) =
      .error .indexError := by
  constructor <;> decide +kernel

/-- Nine samples per second along the first axis, four per second along the second. -/
def grid : Awu (LibDim ℚ) (List Nat) :=
  ⟨[9, 8], [.time 1000000000000 1000000000000 (some 9), .time 250000000000 250000000000 (some 8)], fun i => i⟩

/-- **C36** (refuted after `None`): with two time axes `x[None, TimeSlice]` silently reads the wrong samples: one second from the start of the
first axis is one sample, four are returned. -/
theorem C36_none_then_time_wrong :
    look (grid.getitem L [.newaxis, .custom (.timeSlice 0 (some 1000000000000))]) =
      .ok ([1, 4, 8], [.identity, .time 1000000000000 1000000000000 (some 4), .time 250000000000 250000000000 (some 8)]) ∧
    look (grid.getitem L [.custom (.timeSlice 0 (some 1000000000000))]) =
      .ok ([1, 8], [.time 1000000000000 1000000000000 (some 1), .time 250000000000 250000000000 (some 8)]) := by
  constructor <;> decide +kernel

/-- **C36** (refuted before `None`): `x[..., TimeSlice, None]` also counts the `None` as an axis: the last axis (four samples per second) is cut
by the dimension of the first, one sample instead of four. -/
theorem C36_ellipsis_time_none_wrong :
    look (grid.getitem L [.ellipsis, .custom (.timeSlice 0 (some 1000000000000)), .newaxis]) =
      .ok ([9, 1, 1], [.time 1000000000000 1000000000000 (some 9), .time 250000000000 250000000000 (some 1), .identity]) ∧
    look (grid.getitem L [.ellipsis, .custom (.timeSlice 0 (some 1000000000000))]) =
      .ok ([9, 4], [.time 1000000000000 1000000000000 (some 9), .time 250000000000 250000000000 (some 4)]) := by
  constructor <;> decide +kernel

/-- **C36** (refuted for numpy integers): a numpy integer drops its axis, but the array still gets a dimension for it: every such index raises. -/
theorem C36_numpy_integer_refused : look (stereo.getitem L [.npInt 0]) = .error .valueError ∧
    look (stereo.getitem L [.npInt 0, .npInt 1]) = .error .valueError := by
  constructor <;> decide +kernel

/-- **C36** (refuted for integer arrays): `x[np.array([2, 0])]` is taken for `x[2, 0]` with numpy integers, which raises; and `x[[]]` is an
IndexError. -/
theorem C36_integer_array_refused :
    ((tuplify (.intArray [2, 0] : Written (LibIdx ℚ))).bind fun its => look (stereo.getitem L its)) = .error .valueError ∧
    (tuplify (.one (.list []) : Written (LibIdx ℚ))) = .error .indexError := by
  constructor <;> decide +kernel

/-- Four samples of two channels in three bands. -/
def cube : Awu (LibDim ℚ) (List Nat) := ⟨[4, 2, 3], [.time 1000000000000 1000000000000 (some 4), .time 5 5 (some 2), .time 7 7 (some 3)], fun i => i⟩

/-- **C36** (refuted for an integer beside a list): numpy moves the picked axis to the front, the dimensions stay: in `x[0, :, [1, 2, 0]]` the
picked axis (length three) carries the dimension of the second axis and the second axis (length two) has none. -/
theorem C36_integer_and_list_swap :
    look (cube.getitem L [.int 0, .slice none none none, .list [1, 2, 0]]) = .ok ([3, 2], [.time 5 5 (some 3), .identity]) ∧
    (cube.getitem L [.int 0, .slice none none none, .list [1, 2, 0]]).map (fun r => r.get [0, 1]) = .ok [0, 1, 1] := by
  constructor <;> decide +kernel

/-- **C36** (refuted for two lists): two lists of positions are a ValueError. -/
theorem C36_two_lists_refused : look (cube.getitem L [.list [0, 1], .list [1, 0]]) = .error .valueError := by decide +kernel

/-- **C36** (refuted for slices with a step): every second sample still claims the old sampling frequency. -/
theorem C36_step_keeps_frequency :
    look (stereo.getitem L [.slice none none (some 2)]) = .ok ([5, 3], [.time 1000000000000 1000000000000 (some 5), .identity]) := by
  decide +kernel

/-- **C36** (refuted for `dot`): the columns of a product `x.dot(b)` carry the dimension of the columns of `x`, whatever `b` is: here the four
columns of the product claim to be the eight columns of `x`, a time axis of four samples per second. -/
theorem C36_dot_wrong_columns :
    look (grid.dot L (fun _ => []) [8, 4] (fun i => i)) =
      .ok ([9, 4], [.time 1000000000000 1000000000000 (some 9), .time 250000000000 250000000000 (some 4)]) := by decide +kernel

/-- **C36** (refuted for windows of a later time axis): with the channels first, the dimensions of the windows are swapped: the axis of the
windows (length three) is an identity, and the channels (length two) claim to be the windows in time. -/
theorem C36_windows_second_axis_swap :
    look ((⟨[2, 9], [.identity, .time 1000 1000 (some 9)], fun i => i⟩ : Awu (LibDim ℚ) (List Nat)).slidingWindow L [2, 3] [2, 3]) =
      .ok ([3, 2, 3], [.identity, .time 3000 3000 (some 2), .time 1000 1000 (some 3)]) := by decide +kernel

/-- **C36** (refuted for two time axes): windows over two time axes are a ValueError. -/
theorem C36_windows_two_time_axes : look (grid.slidingWindow L [3, 2] [3, 2]) = .error .valueError := by decide +kernel

/-- **C36** (refuted for shapes with unit axes): reshaping to the shape it already has makes an array with a unit axis forget its dimensions,
and an empty array refuse. -/
theorem C36_reshape_same_shape :
    look ((⟨[9, 1], [.time 1000 1000 (some 9), .identity], fun i => i⟩ : Awu (LibDim ℚ) (List Nat)).reshape L [9, 1]) =
      .ok ([9, 1], [.identity, .identity]) ∧
    look ((⟨[0, 3], [.time 1000 1000 (some 0), .identity], fun i => i⟩ : Awu (LibDim ℚ) (List Nat)).reshape L [0, 3]) =
      .error .valueError := by
  constructor <;> decide +kernel

/-- **C36**: on an array with one axis the miscount of `x[..., TimeSlice, None]` happens to find the right dimension, counting from the end;
with two `None`s it is an IndexError. -/
theorem C36_ellipsis_time_none_mono :
    look ((⟨[9], [.time 1000000000000 1000000000000 (some 9)], id⟩ : Awu (LibDim ℚ) (List Nat)).getitem L [.ellipsis, sec2to5, .newaxis]) =
      .ok ([3, 1], [.time 1000000000000 1000000000000 (some 3), .identity]) ∧
    look ((⟨[9], [.time 1000000000000 1000000000000 (some 9)], id⟩ : Awu (LibDim ℚ) (List Nat)).getitem L
      [.ellipsis, sec2to5, .newaxis, .newaxis]) = .error .indexError := by
  constructor <;> decide +kernel

/-- **C36** (too many): more items than axes are an IndexError. -/
theorem C36_too_many : look (stereo.getitem L [.int 0, .int 0, .int 0]) = .error .indexError ∧
    look (stereo.getitem L [.ellipsis, .int 0, .ellipsis]) = .error .indexError := by
  constructor <;> decide +kernel

/-- **C36** (numbers): on an array with one axis an integer gives the value at that position, counted from the end if negative; outside the axis
it is an IndexError. -/
theorem C36_number {δ α : Type} (a : Awu δ α) (n : Nat) (ha : a.shape = [n]) (i : Int) :
    (0 ≤ i → i < n → a.getNumber i = .ok (a.get [i.toNat])) ∧ (-(n : Int) ≤ i → i < 0 → a.getNumber i = .ok (a.get [(n + i).toNat])) ∧
    (i < -(n : Int) ∨ (n : Int) ≤ i → a.getNumber i = .error .indexError) := by
  unfold Awu.getNumber normIndex
  simp only [ha, List.headD_cons]
  refine ⟨?_, ?_, ?_⟩
  · intro h1 h2
    rw [if_neg (by omega), if_neg (by omega)]
  · intro h1 h2
    rw [if_neg (by omega), if_pos (by omega), Int.add_comm]
  · intro h; rw [if_pos h]

example := C36_new_refused L [9, 3] (fun i => i) [.identity] (by decide)
example := C36_transpose L stereo stereo_settled
example := C36_reduce L (C36_lib_calm _) (fun l => l.flatten) stereo stereo_settled [-1] false (by unfold ValidAxes; decide +kernel)
  (.inr (.inr ⟨0, by decide, by decide +kernel⟩))
example := C36_reduce_everything L (fun l => l.flatten) stereo stereo_settled [-1, 0] (by unfold ValidAxes; decide +kernel) (by decide) (by decide +kernel)
example := C36_reduce_refused L (fun l => l.flatten) stereo [1, -1] false (by unfold ValidAxes; decide +kernel)
/-- A column of nine seconds. -/
def column : Awu (LibDim ℚ) (List Nat) := ⟨[9, 1], [.time 1000000000000 1000000000000 (some 9), .identity], fun i => i⟩
theorem column_settled : Settled L column := by
  refine ⟨rfl, ?_⟩
  intro k hk
  match k, hk with
  | 0, _ => rfl
  | 1, _ => rfl
example := C36_squeeze L column column_settled (by decide)
example := C36_squeeze_empty L (⟨[0, 3], [.time 1 1 (some 0), .identity], fun i => i⟩ : Awu (LibDim ℚ) (List Nat)) rfl (by decide)
example := C36_reshape_adds L (C36_lib_calm _) stereo stereo_settled [9, 1, 3] (by decide) (by decide)
example := (C36_reshape_other L (C36_lib_calm _) stereo [3, 9] (by decide) (by decide)).1 rfl
example := (C36_reshape_other L (C36_lib_calm _) stereo [5, 5] (by decide) (by decide)).2 (by decide)
theorem stereo_twice : ∃ r, concat L [stereo, stereo] 1 = .ok r :=
  (C36_concat_ok L stereo [stereo] 1 rfl).2 ⟨by decide +kernel, ⟨by decide, by simp⟩, by
    intro k h1
    match k, h1 with
    | 0, _ => exact ⟨_, rfl⟩
    | 1, _ => exact ⟨_, rfl⟩⟩
example : ∃ r, concat L [stereo, stereo] 1 = .ok r ∧ SameElsewhere stereo [stereo] 1 := by
  obtain ⟨r, h⟩ := stereo_twice
  exact ⟨r, h, (C36_concat L stereo [stereo] 1 r h).2.1⟩
example := C36_concat_refused L stereo [stereo] 2 (by intro b hb; simp at hb; subst hb; exact ⟨true, by decide +kernel⟩)
  (.inr (by intro h; exact absurd h.1 (by decide)))
example := C36_concatenate L stereo stereo 9 9 [3] [3] rfl rfl rfl
example := C36_dot L (fun l => (l.map Prod.fst).flatten) stereo 9 3 3 2 (fun i => i) rfl
example := C36_windows Zounds.Props.Frequency.noExt stereo 1000000000000 1000000000000 (some 9) [.identity] 9 [3] rfl rfl stereo_settled
  (by intro k h1 h2; match k, h1 with | 0, _ => exact (by decide : (3 : Nat) ≠ 0)) 4 2 [3] (by decide) (by decide) (by decide) rfl (by decide) (by decide)
example := C36_windows_with_leftovers Zounds.Props.Frequency.noExt stereo 1000000000000 1000000000000 (some 9) [.identity] 9 [3] rfl rfl stereo_settled
  4 2 5 (by decide) (by decide) (by decide) (by decide)
example := C36_windows_with_leftovers_identity Zounds.Props.Frequency.noExt
  (⟨[9, 3], [.identity, .identity], fun i => i⟩ : Awu (LibDim ℚ) (List Nat)) [.identity] 9 [3] rfl rfl 4 2 5 (by decide) (by decide)
example := C36_number (⟨[9], [.identity], fun i => i⟩ : Awu (LibDim ℚ) (List Nat)) 9 rfl (-2)

example : ∃ r, stereo.getitem L [sec2to5, .ellipsis, .list [2, 0]] = .ok r ∧
    Carries L (writtenOut 2 [sec2to5] [.list [2, 0]]) stereo.dims stereo.shape r.dims r.shape := by
  obtain ⟨r, hr⟩ : ∃ r, stereo.getitem L [sec2to5, .ellipsis, .list [2, 0]] = .ok r := ⟨_, rfl⟩
  refine ⟨r, hr, (C36_getitem L (C36_lib_lawful _) stereo rfl [sec2to5, .ellipsis, .list [2, 0]] [sec2to5] [.list [2, 0]] (Or.inr rfl) ?_ ?_
    (Or.inr ⟨by decide +kernel, by decide +kernel⟩) trivial ⟨by decide +kernel, trivial⟩ r hr).1⟩
  · intro it h; simp only [List.mem_singleton] at h; subst h; exact trivial
  · intro it h; simp only [List.mem_singleton] at h; subst h; exact trivial
example := C36_plain_slice L { L with intSlice := fun _ _ => .error .typeError } rfl stereo (some 1) (some (-1)) none (by decide) (by decide)
example : stereo.getitem { L with intSlice := fun _ _ => .error .typeError } [.slice (some 0) (some 3) none] = .error .typeError :=
  C36_zero_bound _ stereo _ _ rfl (some 0) (some 3) none (Or.inl rfl) .typeError rfl
example : metasliceOr { L with metaslice := fun _ _ _ => .error .indexError } .identity (.int 3) (some 9) = .ok .identity :=
  (C36_refused_metaslice { L with metaslice := fun _ _ _ => .error .indexError } .identity .identity (.int 3) 9 rfl).2 rfl
example := C36_concat_ok L stereo [stereo] 1 rfl

end Zounds.Arr
