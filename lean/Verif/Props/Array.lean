import Verif.Model.Array
import Verif.Props.Nd
import Mathlib.Tactic.Common
import Mathlib.Tactic.Ring
import Mathlib.Tactic.Linarith
/-!
# Property C36: every axis keeps its own dimension
-/

namespace Zounds.Arr
open Zounds

/-! ## Specification: what an index asks for, axis by axis -/

/-- An index with the ellipsis written out.  Every entry except `fresh` belongs to one axis of the array. -/
inductive Entry (κ : Type) where
  /-- a new axis -/
  | fresh
  /-- a Python int -/
  | drop (i : Int)
  /-- a list of positions -/
  | pick (l : List Int)
  /-- a slice, of positions or semantic -/
  | cut (it : Item κ)
  /-- an axis the index does not mention -/
  | whole

/-- The entry of a plain item. -/
def entry {κ : Type} : Item κ → Entry κ
  | .newaxis => .fresh
  | .int i => .drop i
  | .list l => .pick l
  | it => .cut it

/-- Items other than `...` and numpy integers. -/
def Plain {κ : Type} : Item κ → Prop
  | .ellipsis => False
  | .npInt _ => False
  | _ => True

/-- The item uses an axis of the array. -/
def uses {κ : Type} : Item κ → Bool
  | .newaxis => false
  | _ => true

/-- The index `pre, ..., post` (or just `pre`), written out for an array with `nd` axes. -/
def writtenOut {κ : Type} (nd : Nat) (pre post : List (Item κ)) : List (Entry κ) :=
  pre.map entry ++ List.replicate (nd - (pre.countP uses + post.countP uses)) .whole ++ post.map entry

/-- The positions a slice item selects from an axis of length `n` with dimension `d`: `start, start + step, ...`, `c` of them.  A semantic
slice is translated by the axis' own dimension. -/
def Cuts {δ κ : Type} (ops : DimOps δ κ) (d : δ) (it : Item κ) (n : Nat) (start step : Int) (c : Nat) : Prop :=
  ∃ a b st, (match it.raw with | some r => Except.ok r | none => ops.intSlice d it) = .ok (.slice a b st) ∧
    sliceRange n a b st = .ok (start, step, c)

/-- Dimensions and shape of the result: each axis of the result that comes from an axis of the array has that axis' dimension (sliced for
slices), with the right size; new axes and picked axes are identities. -/
inductive Carries {δ κ : Type} (ops : DimOps δ κ) : List (Entry κ) → List δ → List Nat → List δ → List Nat → Prop
  | nil : Carries ops [] [] [] [] []
  | fresh {es ds sh rd rs d'} : ops.install ops.identity 1 = .ok d' → Carries ops es ds sh rd rs →
      Carries ops (.fresh :: es) ds sh (d' :: rd) (1 :: rs)
  | drop {es ds sh rd rs i d n} : Carries ops es ds sh rd rs → Carries ops (.drop i :: es) (d :: ds) (n :: sh) rd rs
  | pick {es ds sh rd rs l d n d'} : ops.install ops.identity l.length = .ok d' → Carries ops es ds sh rd rs →
      Carries ops (.pick l :: es) (d :: ds) (n :: sh) (d' :: rd) (l.length :: rs)
  | cut {es ds sh rd rs it d n s t c d1 d2} : Cuts ops d it n s t c → metasliceOr ops d it (some c) = .ok d1 →
      ops.install d1 c = .ok d2 → Carries ops es ds sh rd rs → Carries ops (.cut it :: es) (d :: ds) (n :: sh) (d2 :: rd) (c :: rs)
  | whole {es ds sh rd rs d n d'} : ops.install d n = .ok d' → Carries ops es ds sh rd rs →
      Carries ops (.whole :: es) (d :: ds) (n :: sh) (d' :: rd) (n :: rs)

/-- The value of the result at index `ri` is the value of the array at index `si`. -/
inductive Source {δ κ : Type} (ops : DimOps δ κ) : List (Entry κ) → List δ → List Nat → List Nat → List Nat → Prop
  | nil : Source ops [] [] [] [] []
  | fresh {es ds sh ri si} : Source ops es ds sh ri si → Source ops (.fresh :: es) ds sh (0 :: ri) si
  | drop {es ds sh ri si i d n k} : normIndex n i = .ok k → Source ops es ds sh ri si →
      Source ops (.drop i :: es) (d :: ds) (n :: sh) ri (k :: si)
  | pick {es ds sh ri si l d n k p} : (h : k < l.length) → normIndex n l[k] = .ok p → Source ops es ds sh ri si →
      Source ops (.pick l :: es) (d :: ds) (n :: sh) (k :: ri) (p :: si)
  | cut {es ds sh ri si it d n s t c k} {p : Nat} : Cuts ops d it n s t c → k < c → (p : Int) = s + k * t → Source ops es ds sh ri si →
      Source ops (.cut it :: es) (d :: ds) (n :: sh) (k :: ri) (p :: si)
  | whole {es ds sh ri si d n k} : k < n → Source ops es ds sh ri si →
      Source ops (.whole :: es) (d :: ds) (n :: sh) (k :: ri) (k :: si)

/-- A list of positions. -/
def isList {κ : Type} : Item κ → Bool
  | .list _ => true
  | _ => false

/-- A Python int. -/
def isInt {κ : Type} : Item κ → Bool
  | .int _ => true
  | _ => false

/-- No list of positions, or exactly one and no integers beside it. -/
def Tame {κ : Type} (its : List (Item κ)) : Prop :=
  its.countP isList = 0 ∨ (its.countP isList = 1 ∧ its.countP isInt = 0)

/-- The item's translation needs the dimension of an axis. -/
def needsDim {κ : Type} (it : Item κ) : Bool := it.raw.isNone

/-- No semantic slice comes after a `None` in `pre`. -/
def SafeBefore {κ : Type} : List (Item κ) → Prop
  | [] => True
  | .newaxis :: rest => ∀ it ∈ rest, needsDim it = false
  | _ :: rest => SafeBefore rest

/-- No semantic slice comes before a `None` in `post`. -/
def SafeAfter {κ : Type} : List (Item κ) → Prop
  | [] => True
  | it :: rest => (needsDim it = true → ∀ it' ∈ rest, uses it' = true) ∧ SafeAfter rest

/-- What the code needs of a dimension: a slice is translated to a slice, and the size given to `metaslice` does not matter, because the
array tells the dimension its size anyway. -/
structure Lawful {δ κ : Type} (ops : DimOps δ κ) : Prop where
  slice : ∀ d it r, Plain it → uses it = true → needsDim it = true → ops.intSlice d it = .ok r → ∃ a b st, r = .slice a b st
  size : ∀ d it n n' m d1 d2, metasliceOr ops d it (some n) = .ok d1 → ops.install d1 m = .ok d2 →
    ∃ d1', metasliceOr ops d it (some n') = .ok d1' ∧ ops.install d1' m = .ok d2

/-! ## numpy slices stay inside the axis -/

/-- **C36** (slices): every position selected by a slice lies inside the axis, whatever the bounds and the step. -/
theorem C36_slice_in_bounds (n : Nat) (a b st : Option Int) (s t : Int) (c : Nat) (h : sliceRange n a b st = .ok (s, t, c))
    (k : Nat) (hk : k < c) : 0 ≤ s + k * t ∧ s + k * t < n := by
  have hpb : ∀ i : Int, (pyBound n i : Int) ≤ n := by
    intro i; unfold pyBound; split <;> omega
  unfold sliceRange at h
  simp only at h
  split at h
  · cases h
  · rename_i hst
    split at h
    · rename_i hpos
      simp only [Except.ok.injEq, Prod.mk.injEq] at h
      obtain ⟨h1, h2, h3⟩ := h
      have hlo0 : 0 ≤ upFrom n a := by cases a <;> simp [upFrom]
      have hhin : upTo n b ≤ n := by cases b <;> simp [upTo, hpb]
      generalize upTo n b = hi at *
      generalize upFrom n a = lo at *
      rw [h2] at h3 hpos
      subst h1
      have hc : (c : Int) ≤ (hi - lo + t - 1) / t ∨ c = 0 := by
        rw [← h3]; omega
      rcases hc with hc | hc
      · have h4 : (c : Int) * t ≤ hi - lo + t - 1 :=
          le_trans (mul_le_mul_of_nonneg_right hc hpos.le) (Int.ediv_mul_le _ (by omega))
        have h5 : ((k : Int) + 1) * t ≤ c * t := mul_le_mul_of_nonneg_right (by omega) hpos.le
        have h6 : 0 ≤ (k : Int) * t := mul_nonneg (by omega) hpos.le
        have h7 : ((k : Int) + 1) * t = k * t + t := by ring
        constructor <;> linarith
      · omega
    · rename_i hneg
      simp only [Except.ok.injEq, Prod.mk.injEq] at h
      obtain ⟨h1, h2, h3⟩ := h
      have hlo1 : downFrom n a ≤ n - 1 := by
        cases a with
        | none => simp [downFrom]
        | some a =>
          simp only [downFrom, downBound]
          split
          · have : (0 : Int) ≤ n := by omega
            omega
          · omega
      have hhi1 : -1 ≤ downTo n b := by
        cases b with
        | none => simp [downTo]
        | some b => simp only [downTo, downBound]; split <;> omega
      generalize downTo n b = hi at *
      generalize downFrom n a = lo at *
      rw [h2] at h3 hneg hst
      subst h1
      have hpos : 0 < -t := by omega
      have hc : (c : Int) ≤ (lo - hi + (-t) - 1) / (-t) ∨ c = 0 := by
        rw [← h3]; omega
      rcases hc with hc | hc
      · have h4 : (c : Int) * (-t) ≤ lo - hi + (-t) - 1 :=
          le_trans (mul_le_mul_of_nonneg_right hc hpos.le) (Int.ediv_mul_le _ (by omega))
        have h5 : ((k : Int) + 1) * (-t) ≤ c * (-t) := mul_le_mul_of_nonneg_right (by omega) hpos.le
        have h6 : 0 ≤ (k : Int) * (-t) := mul_nonneg (by omega) hpos.le
        have h7 : ((k : Int) + 1) * (-t) = k * (-t) + (-t) := by ring
        have h8 : (k : Int) * (-t) = -(k * t) := by ring
        constructor <;> linarith
      · omega

/-! ## Proofs -/

/-- Positions of the code and of the spec agree wherever they matter. -/
def Good {κ : Type} : Int → Nat → List (Item κ) → Prop
  | _, _, [] => True
  | pos, p, it :: rest => (needsDim it = true → pos = p) ∧ Good (pos + 1) (if uses it then p + 1 else p) rest

theorem good_of_none {κ : Type} (its : List (Item κ)) (h : ∀ it ∈ its, needsDim it = false) : ∀ pos p, Good pos p its := by
  induction its with
  | nil => intro _ _; trivial
  | cons it rest ih =>
    intro pos p
    refine ⟨fun hn => ?_, ih (fun x hx => h x (by simp [hx])) _ _⟩
    rw [h it (by simp)] at hn; cases hn

theorem good_before {κ : Type} (its : List (Item κ)) (hp : ∀ it ∈ its, Plain it) (h : SafeBefore its) (p : Nat) : Good (p : Int) p its := by
  induction its generalizing p with
  | nil => trivial
  | cons it rest ih =>
    have hr : ∀ x ∈ rest, Plain x := fun x hx => hp x (by simp [hx])
    cases it with
    | newaxis => exact ⟨fun _ => rfl, good_of_none rest h _ _⟩
    | ellipsis => exact absurd (hp .ellipsis (by simp)) id
    | npInt i => exact absurd (hp (.npInt i) (by simp)) id
    | int i => exact ⟨fun _ => rfl, by have := ih hr h (p + 1); simpa [uses] using this⟩
    | slice a b st => exact ⟨fun _ => rfl, by have := ih hr h (p + 1); simpa [uses] using this⟩
    | list l => exact ⟨fun _ => rfl, by have := ih hr h (p + 1); simpa [uses] using this⟩
    | custom c => exact ⟨fun _ => rfl, by have := ih hr h (p + 1); simpa [uses] using this⟩

theorem good_after {κ : Type} (its : List (Item κ)) (h : SafeAfter its) (pos : Int) (p : Nat)
    (hpos : pos + its.length = p + its.countP uses) : Good pos p its := by
  induction its generalizing pos p with
  | nil => trivial
  | cons it rest ih =>
    refine ⟨fun hn => ?_, ?_⟩
    · have h1 := h.1 hn
      have h2 : rest.countP uses = rest.length := by rw [List.countP_eq_length]; exact h1
      have h3 : uses it = true := by cases it <;> simp_all [needsDim, Item.raw, uses]
      simp only [List.length_cons, List.countP_cons, h3, if_true] at hpos
      omega
    · apply ih h.2
      simp only [List.length_cons, List.countP_cons] at hpos
      cases hu : uses it <;> simp [hu] at hpos ⊢ <;> omega

/-- The items numpy should get: each translated by its own axis' dimension. -/
inductive Own {δ κ : Type} (ops : DimOps δ κ) : List (Entry κ) → List δ → List NpItem → Prop
  | nil : Own ops [] [] []
  | fresh {es ds out} : Own ops es ds out → Own ops (.fresh :: es) ds (.newaxis :: out)
  | drop {es ds out i d} : Own ops es ds out → Own ops (.drop i :: es) (d :: ds) (.int i :: out)
  | pick {es ds out l d} : Own ops es ds out → Own ops (.pick l :: es) (d :: ds) (.list l :: out)
  | cut {es ds out it d a b st} :
      (match it.raw with | some r => Except.ok r | none => ops.intSlice d it) = .ok (.slice a b st) →
      Own ops es ds out → Own ops (.cut it :: es) (d :: ds) (.slice a b st :: out)
  | whole {es ds out d} : Own ops es ds out → Own ops (.whole :: es) (d :: ds) (.slice none none none :: out)

theorem Own.append {δ κ : Type} {ops : DimOps δ κ} {es es' : List (Entry κ)} {ds ds' : List δ} {o o' : List NpItem}
    (h : Own ops es ds o) (h' : Own ops es' ds' o') : Own ops (es ++ es') (ds ++ ds') (o ++ o') := by
  induction h with
  | nil => exact h'
  | fresh _ ih => exact .fresh ih
  | drop _ ih => exact .drop ih
  | pick _ ih => exact .pick ih
  | cut e _ ih => exact .cut e ih
  | whole _ ih => exact .whole ih

theorem Own.replicate {δ κ : Type} (ops : DimOps δ κ) (ds : List δ) :
    Own (κ := κ) ops (List.replicate ds.length .whole) ds (List.replicate ds.length (.slice none none none)) := by
  induction ds with
  | nil => exact .nil
  | cons d ds ih => exact .whole ih

theorem pyAt_nat {δ : Type} (l : List δ) (p : Nat) (d : δ) (h : pyAt l (p : Int) = .ok d) : l[p]? = some d := by
  unfold pyAt at h
  simp only at h
  rw [if_neg (by omega), if_neg (by omega)] at h
  simp only [Int.toNat_natCast] at h
  cases hl : l[p]? with
  | none => simp [hl] at h
  | some x => simp [hl] at h; rw [h]

/-- consumption of numpy items and of index items -/
theorem compute_noell {δ κ : Type} (ops : DimOps δ κ) (law : Lawful ops) (dims : List δ) (n : Nat) (its : List (Item κ))
    (hp : ∀ it ∈ its, Plain it) : ∀ (pos : Int) (p : Nat) (out : List NpItem), Good pos p its →
    computeIndices ops dims n pos its = .ok out → p + its.countP uses ≤ dims.length →
    Own ops (its.map entry) ((dims.drop p).take (its.countP uses)) out := by
  induction its with
  | nil => intro pos p out _ h _; simp [computeIndices] at h; subst h; simp; exact .nil
  | cons it rest ih =>
    intro pos p out hg h hle
    have hr : ∀ x ∈ rest, Plain x := fun x hx => hp x (by simp [hx])
    have hpl := hp it (by simp)
    -- one step
    have step : ∀ (hu : uses it = true), ∃ d, dims[p]? = some d ∧ (dims.drop p).take ((it :: rest).countP uses) =
        d :: (dims.drop (p + 1)).take (rest.countP uses) ∧ p + 1 + rest.countP uses ≤ dims.length := by
      intro hu
      simp only [List.countP_cons, hu, if_true] at hle ⊢
      have hlt : p < dims.length := by omega
      refine ⟨dims[p], by simp [hlt], ?_, by omega⟩
      rw [List.drop_eq_getElem_cons hlt, List.take_succ_cons]
    obtain ⟨hg1, hg2⟩ := hg
    cases it with
    | ellipsis => exact absurd hpl id
    | npInt i => exact absurd hpl id
    | newaxis =>
      simp only [computeIndices, Item.raw] at h
      cases hc : computeIndices ops dims n (pos + 1) rest with
      | error e => simp [hc] at h
      | ok o =>
        simp only [hc, Except.ok.injEq] at h
        subst h
        simp only [uses] at hg2
        have := ih hr (pos + 1) p o (by simpa using hg2) hc (by simpa [uses] using hle)
        simpa [uses, entry] using Own.fresh this
    | int i =>
      obtain ⟨d, hd, ht, hle'⟩ := step rfl
      simp only [computeIndices, Item.raw] at h
      cases hc : computeIndices ops dims n (pos + 1) rest with
      | error e => simp [hc] at h
      | ok o =>
        simp only [hc, Except.ok.injEq] at h
        subst h
        rw [ht]
        exact .drop (ih hr (pos + 1) (p + 1) o (by simpa [uses] using hg2) hc hle')
    | list l =>
      obtain ⟨d, hd, ht, hle'⟩ := step rfl
      simp only [computeIndices, Item.raw] at h
      cases hc : computeIndices ops dims n (pos + 1) rest with
      | error e => simp [hc] at h
      | ok o =>
        simp only [hc, Except.ok.injEq] at h
        subst h
        rw [ht]
        exact .pick (ih hr (pos + 1) (p + 1) o (by simpa [uses] using hg2) hc hle')
    | slice a b st =>
      obtain ⟨d, hd, ht, hle'⟩ := step rfl
      simp only [computeIndices] at h
      cases hraw : (Item.slice a b st : Item κ).raw with
      | some r =>
        simp only [hraw] at h
        cases hc : computeIndices ops dims n (pos + 1) rest with
        | error e => simp [hc] at h
        | ok o =>
          simp only [hc, Except.ok.injEq] at h
          subst h
          rw [ht]
          have hr' : r = .slice a b st := by
            unfold Item.raw at hraw
            split at hraw <;> simp_all
          subst hr'
          exact .cut (by rw [hraw]) (ih hr (pos + 1) (p + 1) o (by simpa [uses] using hg2) hc hle')
      | none =>
        simp only [hraw] at h
        have hpos : pos = p := hg1 (by simp [needsDim, hraw])
        rw [hpos] at h hg2
        cases hat : pyAt dims (p : Int) with
        | error e => simp [hat] at h
        | ok d' =>
          simp only [hat] at h
          have hdd := pyAt_nat dims p d' hat
          rw [hd] at hdd
          cases hdd
          cases hi : ops.intSlice d (.slice a b st) with
          | error e => simp [hi] at h
          | ok r =>
            simp only [hi] at h
            cases hc : computeIndices ops dims n ((p : Int) + 1) rest with
            | error e => simp [hc] at h
            | ok o =>
              simp only [hc, Except.ok.injEq] at h
              subst h
              rw [ht]
              obtain ⟨a', b', st', rfl⟩ := law.slice d (.slice a b st) r trivial rfl (by simp [needsDim, hraw]) hi
              exact .cut (by rw [hraw]; exact hi) (ih hr (p + 1) (p + 1) o (by simpa [uses] using hg2) hc hle')
    | custom c =>
      obtain ⟨d, hd, ht, hle'⟩ := step rfl
      simp only [computeIndices, Item.raw] at h
      have hpos : pos = p := hg1 rfl
      rw [hpos] at h hg2
      cases hat : pyAt dims (p : Int) with
      | error e => simp [hat] at h
      | ok d' =>
        simp only [hat] at h
        have hdd := pyAt_nat dims p d' hat
        rw [hd] at hdd
        cases hdd
        cases hi : ops.intSlice d (.custom c) with
        | error e => simp [hi] at h
        | ok r =>
          simp only [hi] at h
          cases hc : computeIndices ops dims n ((p : Int) + 1) rest with
          | error e => simp [hc] at h
          | ok o =>
            simp only [hc, Except.ok.injEq] at h
            subst h
            rw [ht]
            obtain ⟨a', b', st', rfl⟩ := law.slice d (.custom c) r trivial rfl rfl hi
            exact .cut (by simpa [Item.raw] using hi) (ih hr (p + 1) (p + 1) o (by simpa [uses] using hg2) hc hle')

/-- Translation of one item by the code. -/
def trans {δ κ : Type} (ops : DimOps δ κ) (dims : List δ) (pos : Int) (it : Item κ) : Except PyErr NpItem :=
  match it.raw with
  | some r => .ok r
  | none =>
    match pyAt dims pos with
    | .error e => .error e
    | .ok d => ops.intSlice d it

theorem compute_cons {δ κ : Type} (ops : DimOps δ κ) (dims : List δ) (n : Nat) (pos : Int) (it : Item κ) (rest : List (Item κ))
    (hp : Plain it) (out : List NpItem) (h : computeIndices ops dims n pos (it :: rest) = .ok out) :
    ∃ r o, trans ops dims pos it = .ok r ∧ computeIndices ops dims n (pos + 1) rest = .ok o ∧ out = r :: o := by
  have key : computeIndices ops dims n pos (it :: rest) =
      match it.raw with
      | some r =>
        match computeIndices ops dims n (pos + 1) rest with
        | .error e => .error e
        | .ok out => .ok (r :: out)
      | none =>
        match pyAt dims pos with
        | .error e => .error e
        | .ok d =>
          match ops.intSlice d it with
          | .error e => .error e
          | .ok r =>
            match computeIndices ops dims n (pos + 1) rest with
            | .error e => .error e
            | .ok out => .ok (r :: out) := by
    cases it <;> first | rfl | exact absurd hp id
  rw [key] at h
  unfold trans
  cases hraw : it.raw with
  | some r =>
    simp only [hraw] at h
    cases hc : computeIndices ops dims n (pos + 1) rest with
    | error e => simp [hc] at h
    | ok o =>
      simp only [hc, Except.ok.injEq] at h
      exact ⟨r, o, rfl, rfl, h.symm⟩
  | none =>
    simp only [hraw] at h
    cases hat : pyAt dims pos with
    | error e => simp [hat] at h
    | ok d =>
      simp only [hat] at h
      cases hi : ops.intSlice d it with
      | error e => simp [hi] at h
      | ok r =>
        simp only [hi] at h
        cases hc : computeIndices ops dims n (pos + 1) rest with
        | error e => simp [hc] at h
        | ok o =>
          simp only [hc, Except.ok.injEq] at h
          exact ⟨r, o, hi, rfl, h.symm⟩

theorem trans_consumes {δ κ : Type} (ops : DimOps δ κ) (law : Lawful ops) (dims : List δ) (pos : Int) (it : Item κ) (hp : Plain it)
    (r : NpItem) (h : trans ops dims pos it = .ok r) : r.consumes = uses it ∧ r ≠ .ellipsis := by
  unfold trans at h
  cases it with
  | ellipsis => exact absurd hp id
  | npInt i => exact absurd hp id
  | newaxis => simp [Item.raw] at h; subst h; simp [NpItem.consumes, uses]
  | int i => simp [Item.raw] at h; subst h; simp [NpItem.consumes, uses]
  | list l => simp [Item.raw] at h; subst h; simp [NpItem.consumes, uses]
  | slice a b st =>
    cases hraw : (Item.slice a b st : Item κ).raw with
    | some x =>
      simp only [hraw, Except.ok.injEq] at h
      subst h
      simp only [Item.raw] at hraw
      split at hraw
      · simp at hraw; subst hraw; simp [NpItem.consumes, uses]
      · cases hraw
    | none =>
      simp only [hraw] at h
      cases hat : pyAt dims pos with
      | error e => simp [hat] at h
      | ok d =>
        simp only [hat] at h
        obtain ⟨a', b', st', rfl⟩ := law.slice d (.slice a b st) r trivial rfl (by simp [needsDim, hraw]) h
        simp [NpItem.consumes, uses]
  | custom c =>
    simp only [Item.raw] at h
    cases hat : pyAt dims pos with
    | error e => simp [hat] at h
    | ok d =>
      simp only [hat] at h
      obtain ⟨a', b', st', rfl⟩ := law.slice d (.custom c) r trivial rfl rfl h
      simp [NpItem.consumes, uses]

theorem compute_counts {δ κ : Type} (ops : DimOps δ κ) (law : Lawful ops) (dims : List δ) (n : Nat) (its : List (Item κ))
    (hp : ∀ it ∈ its, Plain it) : ∀ (pos : Int) (out : List NpItem), computeIndices ops dims n pos its = .ok out →
    out.countP NpItem.consumes = its.countP uses ∧ out.count .ellipsis = 0 := by
  induction its with
  | nil => intro pos out h; simp [computeIndices] at h; subst h; simp
  | cons it rest ih =>
    intro pos out h
    obtain ⟨r, o, h1, h2, rfl⟩ := compute_cons ops dims n pos it rest (hp it (by simp)) out h
    obtain ⟨i1, i2⟩ := ih (fun x hx => hp x (by simp [hx])) _ o h2
    obtain ⟨c1, c2⟩ := trans_consumes ops law dims pos it (hp it (by simp)) r h1
    constructor
    · simp only [List.countP_cons, i1, c1]
    · rw [List.count_cons_of_ne c2, i2]

theorem compute_append {δ κ : Type} (ops : DimOps δ κ) (dims : List δ) (n : Nat) (pre rest : List (Item κ))
    (hp : ∀ it ∈ pre, Plain it) : ∀ (pos : Int) (out : List NpItem), computeIndices ops dims n pos (pre ++ rest) = .ok out →
    ∃ o1 o2, out = o1 ++ o2 ∧ computeIndices ops dims n pos pre = .ok o1 ∧
      computeIndices ops dims n (pos + pre.length) rest = .ok o2 := by
  induction pre with
  | nil => intro pos out h; exact ⟨[], out, rfl, rfl, by simpa using h⟩
  | cons it pre ih =>
    intro pos out h
    obtain ⟨r, o, h1, h2, rfl⟩ := compute_cons ops dims n pos it (pre ++ rest) (hp it (by simp)) out h
    obtain ⟨o1, o2, rfl, h3, h4⟩ := ih (fun x hx => hp x (by simp [hx])) _ o h2
    refine ⟨r :: o1, o2, rfl, ?_, by simpa [Int.add_assoc, Int.add_comm 1] using h4⟩
    have hpl := hp it (by simp)
    unfold trans at h1
    cases it with
    | ellipsis => exact absurd hpl id
    | npInt i => exact absurd hpl id
    | newaxis => simp [Item.raw] at h1; subst h1; simp [computeIndices, Item.raw, h3]
    | int i => simp [Item.raw] at h1; subst h1; simp [computeIndices, Item.raw, h3]
    | list l => simp [Item.raw] at h1; subst h1; simp [computeIndices, Item.raw, h3]
    | slice a b st =>
      simp only [computeIndices]
      cases hraw : (Item.slice a b st : Item κ).raw with
      | some x => simp only [hraw, Except.ok.injEq] at h1; subst h1; simp [h3]
      | none =>
        simp only [hraw] at h1
        cases hat : pyAt dims pos with
        | error e => simp [hat] at h1
        | ok d => simp only [hat] at h1; simp [h1, h3]
    | custom c =>
      simp only [computeIndices, Item.raw] at h1 ⊢
      cases hat : pyAt dims pos with
      | error e => simp [hat] at h1
      | ok d => simp only [hat] at h1; simp [h1, h3]

theorem flatMap_noell (fill l : List NpItem) (h : l.count .ellipsis = 0) :
    (l.flatMap fun it => if it = .ellipsis then fill else [it]) = l := by
  induction l with
  | nil => rfl
  | cons a l ih =>
    have ha : a ≠ .ellipsis := by
      rintro rfl
      simp at h
    rw [List.count_cons_of_ne ha] at h
    simp [ha, ih h]

/-- The translated and expanded index is the one the spec asks for. -/
theorem own_of_compute {δ κ : Type} (ops : DimOps δ κ) (law : Lawful ops) (dims : List δ) (index pre post : List (Item κ))
    (hidx : (index = pre ∧ post = []) ∨ index = pre ++ .ellipsis :: post)
    (hpre : ∀ it ∈ pre, Plain it) (hpost : ∀ it ∈ post, Plain it) (hs1 : SafeBefore pre) (hs2 : SafeAfter post)
    (items full : List NpItem) (hc : computeIndices ops dims index.length 0 index = .ok items)
    (he : expand dims.length items = .ok full) :
    pre.countP uses + post.countP uses ≤ dims.length ∧ Own ops (writtenOut dims.length pre post) dims full := by
  rcases hidx with ⟨rfl, rfl⟩ | rfl
  · obtain ⟨c1, c2⟩ := compute_counts ops law dims _ index hpre 0 items hc
    unfold expand at he
    simp only [c1, c2] at he
    rw [if_neg (by omega)] at he
    split at he
    · cases he
    · rename_i hle
      simp only [if_true, Except.ok.injEq] at he
      have hle' : index.countP uses ≤ dims.length := by omega
      refine ⟨by simpa using hle', ?_⟩
      have h1 := compute_noell ops law dims _ index hpre 0 0 items (good_before index hpre hs1 0) hc (by simpa using hle')
      simp only [List.drop_zero] at h1
      have h2 := Own.replicate (κ := κ) ops (dims.drop (index.countP uses))
      have h3 := h1.append h2
      rw [List.take_append_drop] at h3
      rw [← he]
      simpa [writtenOut] using h3
  · obtain ⟨o1, o2, rfl, h1, h2⟩ := compute_append ops dims _ pre (.ellipsis :: post) hpre 0 items hc
    simp only [computeIndices] at h2
    cases h3 : computeIndices ops dims (pre ++ Item.ellipsis :: post).length
      (0 + (pre.length : Int) + ((dims.length : Int) - (((pre ++ Item.ellipsis :: post).length : Int) - 1))) post with
    | error e => simp only [h3] at h2; cases h2
    | ok o3 =>
      simp only [h3, Except.ok.injEq] at h2
      subst h2
      obtain ⟨a1, a2⟩ := compute_counts ops law dims _ pre hpre _ o1 h1
      obtain ⟨b1, b2⟩ := compute_counts ops law dims _ post hpost _ o3 h3
      unfold expand at he
      have e1 : (o1 ++ NpItem.ellipsis :: o3).countP NpItem.consumes = pre.countP uses + post.countP uses := by
        simp [a1, b1, NpItem.consumes]
      have e2 : (o1 ++ NpItem.ellipsis :: o3).count .ellipsis = 1 := by simp [a2, b2]
      simp only [e1, e2] at he
      rw [if_neg (by omega)] at he
      split at he
      · cases he
      · rename_i hle
        rw [if_neg (by omega)] at he
        simp only [Except.ok.injEq] at he
        have hle' : pre.countP uses + post.countP uses ≤ dims.length := by omega
        refine ⟨hle', ?_⟩
        have g1 := compute_noell ops law dims _ pre hpre 0 0 o1 (good_before pre hpre hs1 0) h1 (by omega)
        simp only [List.drop_zero] at g1
        have hpos : (0 + (pre.length : Int) + ((dims.length : Int) - (((pre ++ Item.ellipsis :: post).length : Int) - 1)))
            = (dims.length : Int) - post.length := by
          simp; omega
        rw [hpos] at h3
        have g3 := compute_noell ops law dims _ post hpost _ (dims.length - post.countP uses) o3
          (good_after post hs2 _ _ (by omega)) h3 (by omega)
        have g2 := Own.replicate (κ := κ) ops
          ((dims.drop (pre.countP uses)).take (dims.length - (pre.countP uses + post.countP uses)))
        have g := (g1.append g2).append g3
        have hd : dims.take (pre.countP uses) ++
            (dims.drop (pre.countP uses)).take (dims.length - (pre.countP uses + post.countP uses)) ++
            (dims.drop (dims.length - post.countP uses)).take (post.countP uses) = dims := by
          have h5 : (dims.drop (dims.length - post.countP uses)).take (post.countP uses) =
              (dims.drop (pre.countP uses)).drop (dims.length - (pre.countP uses + post.countP uses)) := by
            rw [List.drop_drop, List.take_of_length_le (by simp; omega)]
            congr 1; omega
          rw [h5, List.append_assoc, List.take_append_drop, List.take_append_drop]
        rw [hd] at g
        have hl : ((dims.drop (pre.countP uses)).take (dims.length - (pre.countP uses + post.countP uses))).length
            = dims.length - (pre.countP uses + post.countP uses) := by simp; omega
        rw [hl] at g
        rw [← he, List.flatMap_append, flatMap_noell _ o1 a2, List.flatMap_cons, flatMap_noell _ o3 b2]
        simpa [writtenOut] using g

/-- What each entry does to its axis. -/
inductive Does {δ κ : Type} (ops : DimOps δ κ) : List (Entry κ) → List δ → List Nat → List Piece → Prop
  | nil : Does ops [] [] [] []
  | fresh {es ds sh ps} : Does ops es ds sh ps → Does ops (.fresh :: es) ds sh (.fresh :: ps)
  | drop {es ds sh ps i d n k} : normIndex n i = .ok k → Does ops es ds sh ps → Does ops (.drop i :: es) (d :: ds) (n :: sh) (.fixed k :: ps)
  | pick {es ds sh ps l d n ks} : normList n l = .ok ks → Does ops es ds sh ps →
      Does ops (.pick l :: es) (d :: ds) (n :: sh) (.pick ks :: ps)
  | cut {es ds sh ps it d n s t c} : Cuts ops d it n s t c → Does ops es ds sh ps →
      Does ops (.cut it :: es) (d :: ds) (n :: sh) (.run s t c :: ps)
  | whole {es ds sh ps d n} : Does ops es ds sh ps → Does ops (.whole :: es) (d :: ds) (n :: sh) (.run 0 1 n :: ps)

theorem does_of_own {δ κ : Type} {ops : DimOps δ κ} {es : List (Entry κ)} {ds : List δ} {full : List NpItem} (h : Own ops es ds full) :
    ∀ (shape : List Nat) (ps : List Piece), shape.length = ds.length → pieces full shape = .ok ps → Does ops es ds shape ps := by
  induction h with
  | nil =>
    intro shape ps hl hp
    simp [pieces] at hp
    subst hp
    cases shape with
    | nil => exact .nil
    | cons _ _ => simp at hl
  | fresh _ ih =>
    intro shape ps hl hp
    simp only [pieces] at hp
    split at hp
    · cases hp
    · rename_i ps' hps
      cases hp
      exact .fresh (ih shape ps' hl hps)
  | drop _ ih =>
    intro shape ps hl hp
    cases shape with
    | nil => simp at hl
    | cons n shape =>
      simp only [pieces] at hp
      split at hp
      · cases hp
      · rename_i k hk
        split at hp
        · cases hp
        · rename_i ps' hps
          cases hp
          exact .drop hk (ih shape ps' (by simpa using hl) hps)
  | pick _ ih =>
    intro shape ps hl hp
    cases shape with
    | nil => simp at hl
    | cons n shape =>
      simp only [pieces] at hp
      split at hp
      · cases hp
      · rename_i k hk
        split at hp
        · cases hp
        · rename_i ps' hps
          cases hp
          exact .pick hk (ih shape ps' (by simpa using hl) hps)
  | @cut es ds out it d a b st e _ ih =>
    intro shape ps hl hp
    cases shape with
    | nil => simp at hl
    | cons n shape =>
      simp only [pieces] at hp
      split at hp
      · cases hp
      · rename_i s t c hk
        split at hp
        · cases hp
        · rename_i ps' hps
          cases hp
          exact .cut ⟨a, b, st, e, hk⟩ (ih shape ps' (by simpa using hl) hps)
  | whole _ ih =>
    intro shape ps hl hp
    cases shape with
    | nil => simp at hl
    | cons n shape =>
      simp only [pieces] at hp
      split at hp
      · cases hp
      · rename_i s t c hk
        split at hp
        · cases hp
        · rename_i ps' hps
          cases hp
          have : (s, t, c) = (0, 1, n) := by
            simp [sliceRange, upFrom, upTo] at hk
            obtain ⟨rfl, rfl, rfl⟩ := hk
            rfl
          cases this
          exact .whole (ih shape ps' (by simpa using hl) hps)

/-! ### numpy's result, axis by axis -/

/-- The axis of the result a piece makes, lists included. -/
def Piece.axis' : Piece → Option Nat
  | .fresh => some 1
  | .run _ _ n => some n
  | .fixed _ => none
  | .pick l => some l.length

/-- Source index, walking along all axes. -/
def walk' : List Piece → List Nat → List Nat
  | [], _ => []
  | .fresh :: ps, idx => walk' ps idx.tail
  | .run s t _ :: ps, idx => (s + (idx.headD 0 : Int) * t).toNat :: walk' ps idx.tail
  | .fixed i :: ps, idx => i :: walk' ps idx
  | .pick l :: ps, idx => l.getD (idx.headD 0) 0 :: walk' ps idx.tail

/-- A piece that is a slice or a new axis. -/
def Piece.basic (p : Piece) : Prop := p.adv = false

theorem walk_nopick (ps : List Piece) (h : ps.any Piece.isPick = false) : ∀ k idx, walk ps k idx = walk' ps idx := by
  induction ps with
  | nil => intro _ _; rfl
  | cons p ps ih =>
    intro k idx
    simp only [List.any_cons, Bool.or_eq_false_iff] at h
    cases p with
    | fresh => simp [walk, walk', ih h.2]
    | run s t n => simp [walk, walk', ih h.2]
    | fixed i => simp [walk, walk', ih h.2]
    | pick l => simp [Piece.isPick] at h

theorem axis_nopick (ps : List Piece) (h : ps.any Piece.isPick = false) : ps.filterMap Piece.axis = ps.filterMap Piece.axis' := by
  induction ps with
  | nil => rfl
  | cons p ps ih =>
    simp only [List.any_cons, Bool.or_eq_false_iff] at h
    cases p with
    | fresh => simp [Piece.axis, Piece.axis', ih h.2]
    | run s t n => simp [Piece.axis, Piece.axis', ih h.2]
    | fixed i => simp only [List.filterMap_cons, Piece.axis, Piece.axis', ih h.2]
    | pick l => simp [Piece.isPick] at h

theorem nopick_of_basic (ps : List Piece) (h : ∀ p ∈ ps, p.adv = false) : ps.any Piece.isPick = false := by
  rw [List.any_eq_false]
  intro p hp
  have := h p hp
  cases p with
  | pick l => simp [Piece.adv] at this
  | _ => simp [Piece.isPick]

theorem axis_basic (ps : List Piece) (h : ∀ p ∈ ps, p.adv = false) : (ps.filterMap Piece.axis).length = ps.length := by
  induction ps with
  | nil => rfl
  | cons p ps ih =>
    have := h p (by simp)
    have ih := ih (fun q hq => h q (by simp [hq]))
    cases p <;> simp_all [Piece.adv, Piece.axis]

theorem dropWhile_all {β : Type} (f : β → Bool) (l r : List β) (h : ∀ x ∈ l, f x = true) : (l ++ r).dropWhile f = r.dropWhile f := by
  induction l with
  | nil => rfl
  | cons a l ih =>
    have := h a (by simp)
    simp [this, ih (fun x hx => h x (by simp [hx]))]

theorem contiguous_one (p1 p2 : List Piece) (l : List Nat) (h1 : ∀ p ∈ p1, p.adv = false) (h2 : ∀ p ∈ p2, p.adv = false) :
    contiguous (p1 ++ .pick l :: p2) = true := by
  unfold contiguous
  rw [List.map_append, List.map_cons, dropWhile_all _ _ _ (by
    intro x hx
    obtain ⟨p, hp, rfl⟩ := List.mem_map.1 hx
    simp [h1 p hp])]
  have e : List.dropWhile (fun x => !x) ((Piece.pick l).adv :: p2.map Piece.adv) = true :: p2.map Piece.adv := by
    simp [Piece.adv]
  rw [e, List.reverse_cons, dropWhile_all _ _ _ (by
    intro x hx
    obtain ⟨p, hp, rfl⟩ := List.mem_map.1 (List.mem_reverse.1 hx)
    simp [h2 p hp])]
  simp

theorem takeWhile_one (p1 p2 : List Piece) (l : List Nat) (h1 : ∀ p ∈ p1, p.adv = false) :
    ((p1 ++ .pick l :: p2).takeWhile (fun x => ! x.adv)) = p1 := by
  induction p1 with
  | nil => simp [Piece.adv]
  | cons p p1 ih =>
    have := h1 p (by simp)
    simp [this, ih (fun q hq => h1 q (by simp [hq]))]

theorem broadcast_one (n : Nat) : broadcastLen [n] = .ok n := by
  unfold broadcastLen
  by_cases h : n = 1 <;> simp [h]

theorem pickLengths_one (p1 p2 : List Piece) (l : List Nat) (h1 : ∀ p ∈ p1, p.adv = false) (h2 : ∀ p ∈ p2, p.adv = false) :
    pickLengths (p1 ++ .pick l :: p2) = [l.length] := by
  have key : ∀ ps : List Piece, (∀ p ∈ ps, p.adv = false) → pickLengths ps = [] := by
    intro ps h
    unfold pickLengths
    rw [List.filterMap_eq_nil_iff]
    intro p hp
    have := h p hp
    cases p <;> simp_all [Piece.adv]
  unfold pickLengths at *
  rw [List.filterMap_append, List.filterMap_cons, key p1 h1, key p2 h2]
  rfl

theorem walk_one (p1 p2 : List Piece) (l : List Nat) (h1 : ∀ p ∈ p1, p.adv = false) (h2 : ∀ p ∈ p2, p.adv = false) :
    ∀ idx : List Nat, idx.length = (p1 ++ .pick l :: p2).length → idx.getD p1.length 0 < l.length →
    walk (p1 ++ .pick l :: p2) (idx.getD p1.length 0) (idx.eraseIdx p1.length) = walk' (p1 ++ .pick l :: p2) idx := by
  induction p1 with
  | nil =>
    intro idx hl hk
    cases idx with
    | nil => simp at hl
    | cons i idx =>
      simp only [List.nil_append, List.length_nil, List.eraseIdx_cons_zero, List.getD_cons_zero] at hk ⊢
      simp only [walk, walk', List.headD_cons, List.tail_cons, walk_nopick p2 (nopick_of_basic p2 h2)]
      congr 1
      split
      · rename_i h
        have : i = 0 := by omega
        rw [this]
      · rfl
  | cons p p1 ih =>
    intro idx hl hk
    cases idx with
    | nil => simp at hl
    | cons i idx =>
      have ih := ih (fun q hq => h1 q (by simp [hq])) idx (by simpa using hl) (by simpa using hk)
      have hp := h1 p (by simp)
      cases p with
      | fresh => simpa [walk, walk'] using ih
      | run s t n => simpa [walk, walk'] using ih
      | fixed i => simp [Piece.adv] at hp
      | pick l => simp [Piece.adv] at hp

theorem insert_one (p1 p2 : List Piece) (l : List Nat) (h1 : ∀ p ∈ p1, p.adv = false) (h2 : ∀ p ∈ p2, p.adv = false) :
    ((p1 ++ .pick l :: p2).filterMap Piece.axis).insertIdx p1.length l.length = (p1 ++ .pick l :: p2).filterMap Piece.axis' := by
  rw [List.filterMap_append, List.filterMap_append, List.filterMap_cons, List.filterMap_cons]
  simp only [Piece.axis, Piece.axis']
  rw [← axis_nopick p1 (nopick_of_basic p1 h1), ← axis_nopick p2 (nopick_of_basic p2 h2), ← axis_basic p1 h1]
  generalize List.filterMap Piece.axis p1 = a
  generalize List.filterMap Piece.axis p2 = b
  induction a with
  | nil => simp
  | cons x a ih => simpa using ih

/-- The pieces for which numpy's result axes are in the order of the index: no list, or one list and no integers. -/
def OneList (ps : List Piece) : Prop :=
  ps.any Piece.isPick = false ∨
    ∃ p1 l p2, ps = p1 ++ .pick l :: p2 ∧ (∀ p ∈ p1, p.adv = false) ∧ (∀ p ∈ p2, p.adv = false)

theorem view_simple (ps : List Piece) (h : OneList ps) :
    ∃ v, view ps = .ok v ∧ v.shape = ps.filterMap Piece.axis' ∧ ∀ idx, Nd.InB idx v.shape → v.src idx = walk' ps idx := by
  rcases h with h | ⟨p1, l, p2, rfl, h1, h2⟩
  · refine ⟨⟨ps.filterMap Piece.axis, fun idx => walk ps 0 idx⟩, by unfold view; simp [h], axis_nopick ps h, ?_⟩
    intro idx _
    exact walk_nopick ps h 0 idx
  · have hany : (p1 ++ Piece.pick l :: p2).any Piece.isPick = true := by simp [Piece.isPick]
    refine ⟨⟨((p1 ++ .pick l :: p2).filterMap Piece.axis).insertIdx p1.length l.length,
      fun idx => walk (p1 ++ .pick l :: p2) (idx.getD p1.length 0) (idx.eraseIdx p1.length)⟩, ?_, insert_one p1 p2 l h1 h2, ?_⟩
    · unfold view
      rw [pickLengths_one p1 p2 l h1 h2, broadcast_one, contiguous_one p1 p2 l h1 h2, takeWhile_one p1 p2 l h1]
      simp [hany]
    · intro idx hidx
      have hsh := insert_one p1 p2 l h1 h2
      rw [show View.shape _ = ((p1 ++ .pick l :: p2).filterMap Piece.axis).insertIdx p1.length l.length from rfl, hsh] at hidx
      have e : (p1 ++ .pick l :: p2).filterMap Piece.axis' =
          p1.filterMap Piece.axis' ++ l.length :: p2.filterMap Piece.axis' := by
        rw [List.filterMap_append, List.filterMap_cons]; rfl
      have l1 : (p1.filterMap Piece.axis').length = p1.length := by
        rw [← axis_nopick p1 (nopick_of_basic p1 h1), axis_basic p1 h1]
      have l2 : (p2.filterMap Piece.axis').length = p2.length := by
        rw [← axis_nopick p2 (nopick_of_basic p2 h2), axis_basic p2 h2]
      rw [e] at hidx
      refine walk_one p1 p2 l h1 h2 idx ?_ ?_
      · rw [hidx.length]; simp [l1, l2]
      · rw [← l1]
        generalize p1.filterMap Piece.axis' = s1 at hidx
        generalize p2.filterMap Piece.axis' = s2 at hidx
        clear e l1 l2 hsh
        induction s1 generalizing idx with
        | nil => cases hidx with
          | cons hi _ => simpa using hi
        | cons x s1 ih => cases hidx with
          | cons hi hr => simpa using ih _ hr

theorem normIndex_lt {n : Nat} {i : Int} {k : Nat} (h : normIndex n i = .ok k) : k < n := by
  unfold normIndex at h
  split at h
  · cases h
  · simp only [Except.ok.injEq] at h
    subst h
    split <;> omega

theorem normList_get {n : Nat} {l : List Int} : ∀ {ks : List Nat}, normList n l = .ok ks →
    ks.length = l.length ∧ ∀ k (h : k < l.length), normIndex n l[k] = .ok (ks.getD k 0) := by
  induction l with
  | nil => intro ks h; simp [normList] at h; subst h; simp
  | cons i l ih =>
    intro ks h
    simp only [normList] at h
    split at h
    · cases h
    · rename_i k hk
      split at h
      · cases h
      · rename_i ks' hks
        cases h
        obtain ⟨h1, h2⟩ := ih hks
        refine ⟨by simp [h1], ?_⟩
        intro j hj
        cases j with
        | zero => simpa using hk
        | succ j => simpa using h2 j (by simpa using hj)

theorem source_of_does {δ κ : Type} {ops : DimOps δ κ} {es : List (Entry κ)} {ds : List δ} {sh : List Nat} {ps : List Piece}
    (h : Does ops es ds sh ps) : ∀ ri, Nd.InB ri (ps.filterMap Piece.axis') →
    Source ops es ds sh ri (walk' ps ri) ∧ Nd.InB (walk' ps ri) sh := by
  induction h with
  | nil =>
    intro ri hri
    simp only [List.filterMap_nil] at hri
    cases hri
    exact ⟨.nil, .nil⟩
  | fresh _ ih =>
    intro ri hri
    simp only [List.filterMap_cons, Piece.axis'] at hri
    cases hri with
    | @cons i _ ri _ hi hr =>
      have : i = 0 := by omega
      subst this
      obtain ⟨h1, h2⟩ := ih ri hr
      exact ⟨.fresh h1, h2⟩
  | drop hk _ ih =>
    intro ri hri
    simp only [List.filterMap_cons, Piece.axis'] at hri
    obtain ⟨h1, h2⟩ := ih ri hri
    exact ⟨.drop hk h1, .cons (normIndex_lt hk) h2⟩
  | pick hk _ ih =>
    intro ri hri
    simp only [List.filterMap_cons, Piece.axis'] at hri
    cases hri with
    | @cons i _ ri _ hi hr =>
      obtain ⟨h1, h2⟩ := ih ri hr
      obtain ⟨g1, g2⟩ := normList_get hk
      have hil := hi
      rw [g1] at hil
      simp only [walk', List.headD_cons, List.tail_cons]
      exact ⟨.pick hil (g2 i hil) h1, .cons (normIndex_lt (g2 i hil)) h2⟩
  | cut hk _ ih =>
    intro ri hri
    simp only [List.filterMap_cons, Piece.axis'] at hri
    cases hri with
    | @cons i _ ri _ hi hr =>
      obtain ⟨h1, h2⟩ := ih ri hr
      obtain ⟨a, b, st, _, hsr⟩ := id hk
      have hb := C36_slice_in_bounds _ a b st _ _ _ hsr i hi
      simp only [walk', List.headD_cons, List.tail_cons]
      exact ⟨.cut hk hi (Int.toNat_of_nonneg hb.1) h1, .cons (by omega) h2⟩
  | whole _ ih =>
    intro ri hri
    simp only [List.filterMap_cons, Piece.axis'] at hri
    cases hri with
    | @cons i _ ri _ hi hr =>
      obtain ⟨h1, h2⟩ := ih ri hr
      have e : ((0 : Int) + (i : Int) * 1).toNat = i := by omega
      simp only [walk', List.headD_cons, List.tail_cons, e]
      exact ⟨.whole hi h1, .cons hi h2⟩

/-! ### Dimensions of the result -/

/-- Dimensions given by the code before they are told their sizes. -/
inductive Gives {δ κ : Type} (ops : DimOps δ κ) : List (Entry κ) → List δ → List δ → Prop
  | nil : Gives ops [] [] []
  | fresh {es ds out} : Gives ops es ds out → Gives ops (.fresh :: es) ds (ops.identity :: out)
  | drop {es ds out i d} : Gives ops es ds out → Gives ops (.drop i :: es) (d :: ds) out
  | pick {es ds out l d} : Gives ops es ds out → Gives ops (.pick l :: es) (d :: ds) (ops.identity :: out)
  | cut {es ds out it d d1 n} : metasliceOr ops d it (some n) = .ok d1 → Gives ops es ds out →
      Gives ops (.cut it :: es) (d :: ds) (d1 :: out)
  | whole {es ds out d} : Gives ops es ds out → Gives ops (.whole :: es) (d :: ds) (d :: out)

theorem Gives.append {δ κ : Type} {ops : DimOps δ κ} {es es' : List (Entry κ)} {ds ds' : List δ} {o o' : List δ}
    (h : Gives ops es ds o) (h' : Gives ops es' ds' o') : Gives ops (es ++ es') (ds ++ ds') (o ++ o') := by
  induction h with
  | nil => exact h'
  | fresh _ ih => exact .fresh ih
  | drop _ ih => exact .drop ih
  | pick _ ih => exact .pick ih
  | cut e _ ih => exact .cut e ih
  | whole _ ih => exact .whole ih

theorem Gives.replicate {δ κ : Type} (ops : DimOps δ κ) (ds : List δ) :
    Gives (κ := κ) ops (List.replicate ds.length .whole) ds ds := by
  induction ds with
  | nil => exact .nil
  | cons d ds ih => exact .whole ih

/-- The item moves the position in the result's shape. -/
def moves {κ : Type} : Item κ → Bool
  | .newaxis => false
  | .int _ => false
  | _ => true

theorem newDims_append {δ κ : Type} (ops : DimOps δ κ) (dims : List δ) (m : Nat) (newShape : List Nat) (its rest : List (Item κ))
    (hp : ∀ it ∈ its, Plain it) : ∀ (pos spos : Nat) (out : List δ), newDims ops dims m newShape pos spos (its ++ rest) = .ok out →
    pos + its.countP uses ≤ dims.length → spos + its.countP moves ≤ newShape.length →
    ∃ o1 o2, out = o1 ++ o2 ∧ Gives ops (its.map entry) ((dims.drop pos).take (its.countP uses)) o1 ∧
      newDims ops dims m newShape (pos + its.countP uses) (spos + its.countP moves) rest = .ok o2 := by
  induction its with
  | nil => intro pos spos out h _ _; exact ⟨[], out, rfl, by simpa using Gives.nil, by simpa using h⟩
  | cons it its ih =>
    intro pos spos out h hle hsl
    have hr : ∀ x ∈ its, Plain x := fun x hx => hp x (by simp [hx])
    have step : ∀ (hu : uses it = true), ∃ d, dims[pos]? = some d ∧ (dims.drop pos).take ((it :: its).countP uses) =
        d :: (dims.drop (pos + 1)).take (its.countP uses) ∧ pos + 1 + its.countP uses ≤ dims.length ∧
        pos + (it :: its).countP uses = pos + 1 + its.countP uses := by
      intro hu
      simp only [List.countP_cons, hu, if_true] at hle ⊢
      have hlt : pos < dims.length := by omega
      refine ⟨dims[pos], by simp [hlt], ?_, by omega, by omega⟩
      rw [List.drop_eq_getElem_cons hlt, List.take_succ_cons]
    cases it with
    | ellipsis => exact absurd (hp .ellipsis (by simp)) id
    | npInt i => exact absurd (hp (.npInt i) (by simp)) id
    | newaxis =>
      simp only [List.cons_append, newDims] at h
      split at h
      · cases h
      · rename_i o ho
        cases h
        obtain ⟨o1, o2, rfl, g1, g2⟩ := ih hr pos spos o ho (by simpa [uses] using hle) (by simpa [moves] using hsl)
        refine ⟨ops.identity :: o1, o2, rfl, ?_, by simpa [uses, moves] using g2⟩
        simpa [uses, entry] using Gives.fresh g1
    | int i =>
      obtain ⟨d, hd, ht, hle', hpe⟩ := step rfl
      simp only [List.cons_append, newDims] at h
      obtain ⟨o1, o2, rfl, g1, g2⟩ := ih hr (pos + 1) spos out h hle' (by simpa [moves] using hsl)
      refine ⟨o1, o2, rfl, ?_, by rw [hpe]; simpa [moves] using g2⟩
      rw [ht]; exact .drop g1
    | list l =>
      obtain ⟨d, hd, ht, hle', hpe⟩ := step rfl
      have hsm : spos + (Item.list l :: its).countP moves = spos + 1 + its.countP moves := by
        rw [List.countP_cons_of_pos rfl]; omega
      simp only [List.cons_append, newDims] at h
      split at h
      · cases h
      · rename_i o ho
        cases h
        obtain ⟨o1, o2, rfl, g1, g2⟩ := ih hr (pos + 1) (spos + 1) o ho hle' (by omega)
        refine ⟨ops.identity :: o1, o2, rfl, ?_, by rw [hpe, hsm]; exact g2⟩
        rw [ht]; exact .pick g1
    | slice a b st =>
      obtain ⟨d, hd, ht, hle', hpe⟩ := step rfl
      have hsm : spos + (Item.slice a b st :: its).countP moves = spos + 1 + its.countP moves := by
        rw [List.countP_cons_of_pos rfl]; omega
      simp only [List.cons_append, newDims, hd] at h
      rw [List.getElem?_eq_getElem (by omega)] at h
      split at h
      · cases h
      · rename_i d1 hd1
        split at h
        · cases h
        · rename_i o ho
          cases h
          obtain ⟨o1, o2, rfl, g1, g2⟩ := ih hr (pos + 1) (spos + 1) o ho hle' (by omega)
          refine ⟨d1 :: o1, o2, rfl, ?_, by rw [hpe, hsm]; exact g2⟩
          rw [ht]; exact .cut hd1 g1
    | custom c =>
      obtain ⟨d, hd, ht, hle', hpe⟩ := step rfl
      have hsm : spos + (Item.custom c :: its).countP moves = spos + 1 + its.countP moves := by
        rw [List.countP_cons_of_pos rfl]; omega
      simp only [List.cons_append, newDims, hd] at h
      rw [List.getElem?_eq_getElem (by omega)] at h
      split at h
      · cases h
      · rename_i d1 hd1
        split at h
        · cases h
        · rename_i o ho
          cases h
          obtain ⟨o1, o2, rfl, g1, g2⟩ := ih hr (pos + 1) (spos + 1) o ho hle' (by omega)
          refine ⟨d1 :: o1, o2, rfl, ?_, by rw [hpe, hsm]; exact g2⟩
          rw [ht]; exact .cut hd1 g1

theorem carries_of {δ κ : Type} {ops : DimOps δ κ} (law : Lawful ops) {es : List (Entry κ)} {ds : List δ} {sh : List Nat}
    {ps : List Piece} (h : Does ops es ds sh ps) : ∀ (out rd : List δ), Gives ops es ds out →
    installAll ops out (ps.filterMap Piece.axis') = .ok rd → out.length = (ps.filterMap Piece.axis').length →
    Carries ops es ds sh rd (ps.filterMap Piece.axis') := by
  induction h with
  | nil =>
    intro out rd hg hi _
    cases hg
    simp [installAll] at hi
    subst hi
    exact .nil
  | fresh _ ih =>
    intro out rd hg hi hl
    cases hg with
    | fresh hg =>
      simp only [List.filterMap_cons, Piece.axis', installAll] at hi hl ⊢
      split at hi
      · cases hi
      · rename_i d' hd'
        split at hi
        · cases hi
        · rename_i rd' hrd
          cases hi
          exact .fresh hd' (ih _ rd' hg hrd (by simpa using hl))
  | drop _ _ ih =>
    intro out rd hg hi hl
    cases hg with
    | drop hg =>
      simp only [List.filterMap_cons, Piece.axis'] at hi hl ⊢
      exact .drop (ih _ rd hg hi hl)
  | @pick es ds sh ps l d n ks hk _ ih =>
    intro out rd hg hi hl
    cases hg with
    | pick hg =>
      have hlen := (normList_get hk).1
      simp only [List.filterMap_cons, Piece.axis', installAll] at hi hl ⊢
      split at hi
      · cases hi
      · rename_i d' hd'
        split at hi
        · cases hi
        · rename_i rd' hrd
          cases hi
          rw [hlen] at hd' ⊢
          exact .pick hd' (ih _ rd' hg hrd (by simpa using hl))
  | @cut es ds sh ps it d n s t c hk _ ih =>
    intro out rd hg hi hl
    cases hg with
    | cut hm hg =>
      simp only [List.filterMap_cons, Piece.axis', installAll] at hi hl ⊢
      split at hi
      · cases hi
      · rename_i d' hd'
        split at hi
        · cases hi
        · rename_i rd' hrd
          cases hi
          obtain ⟨d1', e1, e2⟩ := law.size _ _ _ c c _ _ hm hd'
          exact .cut hk e1 e2 (ih _ rd' hg hrd (by simpa using hl))
  | whole _ ih =>
    intro out rd hg hi hl
    cases hg with
    | whole hg =>
      simp only [List.filterMap_cons, Piece.axis', installAll] at hi hl ⊢
      split at hi
      · cases hi
      · rename_i d' hd'
        split at hi
        · cases hi
        · rename_i rd' hrd
          cases hi
          exact .whole hd' (ih _ rd' hg hrd (by simpa using hl))

/-- is the entry a list -/
def Entry.isPick {κ : Type} : Entry κ → Bool
  | .pick _ => true
  | _ => false

/-- is the entry an int -/
def Entry.isDrop {κ : Type} : Entry κ → Bool
  | .drop _ => true
  | _ => false

theorem does_nopick {δ κ : Type} {ops : DimOps δ κ} {es : List (Entry κ)} {ds : List δ} {sh : List Nat} {ps : List Piece}
    (h : Does ops es ds sh ps) (hn : es.countP Entry.isPick = 0) : ps.any Piece.isPick = false := by
  induction h with
  | nil => rfl
  | fresh _ ih => simpa [Piece.isPick, Entry.isPick] using ih (by simpa [Entry.isPick] using hn)
  | drop _ _ ih => simpa [Piece.isPick, Entry.isPick] using ih (by simpa [Entry.isPick] using hn)
  | pick _ _ _ => simp [Entry.isPick] at hn
  | cut _ _ ih => simpa [Piece.isPick, Entry.isPick] using ih (by simpa [Entry.isPick] using hn)
  | whole _ ih => simpa [Piece.isPick, Entry.isPick] using ih (by simpa [Entry.isPick] using hn)

theorem does_basic {δ κ : Type} {ops : DimOps δ κ} {es : List (Entry κ)} {ds : List δ} {sh : List Nat} {ps : List Piece}
    (h : Does ops es ds sh ps) (hn : es.countP Entry.isPick = 0) (hd : es.countP Entry.isDrop = 0) : ∀ p ∈ ps, p.adv = false := by
  induction h with
  | nil => simp
  | fresh _ ih =>
    have := ih (by simpa [Entry.isPick] using hn) (by simpa [Entry.isDrop] using hd)
    intro p hp
    rcases List.mem_cons.1 hp with rfl | hp
    · rfl
    · exact this p hp
  | drop _ _ _ => simp [Entry.isDrop] at hd
  | pick _ _ _ => simp [Entry.isPick] at hn
  | cut _ _ ih =>
    have := ih (by simpa [Entry.isPick] using hn) (by simpa [Entry.isDrop] using hd)
    intro p hp
    rcases List.mem_cons.1 hp with rfl | hp
    · rfl
    · exact this p hp
  | whole _ ih =>
    have := ih (by simpa [Entry.isPick] using hn) (by simpa [Entry.isDrop] using hd)
    intro p hp
    rcases List.mem_cons.1 hp with rfl | hp
    · rfl
    · exact this p hp

theorem does_onelist {δ κ : Type} {ops : DimOps δ κ} {es : List (Entry κ)} {ds : List δ} {sh : List Nat} {ps : List Piece}
    (h : Does ops es ds sh ps) (hn : es.countP Entry.isPick = 1) (hd : es.countP Entry.isDrop = 0) :
    ∃ p1 l p2, ps = p1 ++ .pick l :: p2 ∧ (∀ p ∈ p1, p.adv = false) ∧ (∀ p ∈ p2, p.adv = false) := by
  induction h with
  | nil => simp at hn
  | fresh _ ih =>
    obtain ⟨p1, l, p2, rfl, h1, h2⟩ := ih (by simpa [Entry.isPick] using hn) (by simpa [Entry.isDrop] using hd)
    exact ⟨.fresh :: p1, l, p2, rfl, by simpa [Piece.adv] using h1, h2⟩
  | drop _ _ _ => simp [Entry.isDrop] at hd
  | @pick es ds sh ps l d n ks hk hr _ =>
    refine ⟨[], ks, ps, rfl, by simp, does_basic hr ?_ (by simpa [Entry.isDrop] using hd)⟩
    rw [List.countP_cons_of_pos rfl] at hn
    omega
  | cut _ _ ih =>
    obtain ⟨p1, l, p2, rfl, h1, h2⟩ := ih (by simpa [Entry.isPick] using hn) (by simpa [Entry.isDrop] using hd)
    exact ⟨.run _ _ _ :: p1, l, p2, rfl, by simpa [Piece.adv] using h1, h2⟩
  | whole _ ih =>
    obtain ⟨p1, l, p2, rfl, h1, h2⟩ := ih (by simpa [Entry.isPick] using hn) (by simpa [Entry.isDrop] using hd)
    exact ⟨.run _ _ _ :: p1, l, p2, rfl, by simpa [Piece.adv] using h1, h2⟩

theorem entry_counts {κ : Type} (its : List (Item κ)) :
    (its.map entry).countP Entry.isPick = its.countP isList ∧ (its.map entry).countP Entry.isDrop = its.countP isInt := by
  constructor
  · rw [List.countP_map]
    congr 1
    funext it
    cases it <;> rfl
  · rw [List.countP_map]
    congr 1
    funext it
    cases it <;> rfl

theorem Does.axes {δ κ : Type} {ops : DimOps δ κ} {es : List (Entry κ)} {ds : List δ} {sh : List Nat} {ps : List Piece}
    (h : Does ops es ds sh ps) : (ps.filterMap Piece.axis').length = es.countP (fun e => ! e.isDrop) := by
  induction h with
  | nil => rfl
  | drop _ _ ih => simpa [List.filterMap_cons, Piece.axis', Entry.isDrop] using ih
  | _ => simp_all [List.filterMap_cons, Piece.axis', Entry.isDrop]

/-- **C36** (indexing): for every array, every dimension type and every index built from new axes, integers, slices of positions, semantic
slices, at most one list of positions and at most one ellipsis: each axis of the result that comes from an axis of the array carries that
axis' dimension, with its own size; semantic slices are translated by the dimension of the axis they are applied to; and every value of
the result is the value of the array at the selected position. -/
theorem C36_getitem {δ κ α : Type} (ops : DimOps δ κ) (law : Lawful ops) (a : Awu δ α) (hd : a.dims.length = a.shape.length)
    (index pre post : List (Item κ)) (hidx : (index = pre ∧ post = []) ∨ index = pre ++ .ellipsis :: post)
    (hpre : ∀ it ∈ pre, Plain it) (hpost : ∀ it ∈ post, Plain it) (htame : Tame (pre ++ post))
    (hs1 : SafeBefore pre) (hs2 : SafeAfter post) (r : Awu δ α) (h : a.getitem ops index = .ok r) :
    Carries ops (writtenOut a.dims.length pre post) a.dims a.shape r.dims r.shape ∧
    ∀ ri, Nd.InB ri r.shape → ∃ si, Source ops (writtenOut a.dims.length pre post) a.dims a.shape ri si ∧ Nd.InB si a.shape ∧
      r.get ri = a.get si := by
  unfold Awu.getitem at h
  split at h
  · cases h
  · rename_i items hc
    split at h
    · cases h
    · rename_i v hv
      split at h
      · cases h
      · rename_i out hnd
        unfold npIndex at hv
        split at hv
        · cases hv
        · rename_i full he
          split at hv
          · cases hv
          · rename_i ps hps
            rw [← hd] at he
            obtain ⟨hle, hown⟩ := own_of_compute ops law a.dims index pre post hidx hpre hpost hs1 hs2 items full hc he
            have hdoes := does_of_own hown a.shape ps hd.symm hps
            have hone : OneList ps := by
              have e1 : (writtenOut a.dims.length pre post).countP Entry.isPick = (pre ++ post).countP isList := by
                simp only [writtenOut, List.countP_append, (entry_counts pre).1, (entry_counts post).1, List.countP_replicate,
                  Entry.isPick]
                simp
              have e2 : (writtenOut a.dims.length pre post).countP Entry.isDrop = (pre ++ post).countP isInt := by
                simp only [writtenOut, List.countP_append, (entry_counts pre).2, (entry_counts post).2, List.countP_replicate,
                  Entry.isDrop]
                simp
              rcases htame with ht | ⟨ht1, ht2⟩
              · exact Or.inl (does_nopick hdoes (by rw [e1, ht]))
              · exact Or.inr (does_onelist hdoes (by rw [e1, ht1]) (by rw [e2, ht2]))
            obtain ⟨v', hv', hsh, hsrc⟩ := view_simple ps hone
            rw [hv'] at hv
            cases hv
            have haxes := hdoes.axes
            have hmoves : ∀ its : List (Item κ), (∀ it ∈ its, Plain it) →
                its.countP moves ≤ (its.map entry).countP (fun e => ! e.isDrop) := by
              intro its hp
              induction its with
              | nil => simp
              | cons it its ih =>
                have ih := ih (fun x hx => hp x (by simp [hx]))
                have := hp it (by simp)
                cases it with
                | ellipsis => exact absurd this id
                | npInt i => exact absurd this id
                | newaxis =>
                  rw [List.map_cons, List.countP_cons_of_neg (by simp [moves]), List.countP_cons_of_pos (by rfl)]; omega
                | int i =>
                  rw [List.map_cons, List.countP_cons_of_neg (by simp [moves]), List.countP_cons_of_neg (by simp [entry, Entry.isDrop])]
                  exact ih
                | list l =>
                  rw [List.map_cons, List.countP_cons_of_pos (by rfl), List.countP_cons_of_pos (by rfl)]; omega
                | slice _ _ _ =>
                  rw [List.map_cons, List.countP_cons_of_pos (by rfl), List.countP_cons_of_pos (by rfl)]; omega
                | custom c =>
                  rw [List.map_cons, List.countP_cons_of_pos (by rfl), List.countP_cons_of_pos (by rfl)]; omega
            have hlen : v.shape.length = (pre.map entry).countP (fun e => ! e.isDrop) +
                (a.dims.length - (pre.countP uses + post.countP uses)) + (post.map entry).countP (fun e => ! e.isDrop) := by
              rw [hsh, haxes, writtenOut, List.countP_append, List.countP_append, List.countP_replicate]
              simp [Entry.isDrop]
            have hgives : Gives ops (writtenOut a.dims.length pre post) a.dims out := by
              have m1 := hmoves pre hpre
              have m2 := hmoves post hpost
              rcases hidx with ⟨rfl, rfl⟩ | rfl
              · have hnd' : newDims ops a.dims (index.countP Item.counts) v.shape 0 0 (index ++ []) = .ok out := by simpa using hnd
                obtain ⟨o1, o2, rfl, g1, g2⟩ := newDims_append ops a.dims _ v.shape index [] hpre 0 0 out hnd'
                  (by simpa using hle) (by omega)
                simp only [newDims, Nat.zero_add, Except.ok.injEq] at g2
                subst g2
                have := g1.append (Gives.replicate (κ := κ) ops (a.dims.drop (index.countP uses)))
                simp only [List.drop_zero, List.take_append_drop, List.length_drop] at this
                simpa [writtenOut] using this
              · obtain ⟨o1, o2, rfl, g1, g2⟩ := newDims_append ops a.dims _ v.shape pre (.ellipsis :: post) hpre 0 0 out hnd
                  (by omega) (by omega)
                have hm : (pre ++ Item.ellipsis :: post).countP Item.counts = pre.countP uses + post.countP uses := by
                  have : ∀ its : List (Item κ), (∀ it ∈ its, Plain it) → its.countP Item.counts = its.countP uses := by
                    intro its hp
                    apply List.countP_congr
                    intro it hit
                    have := hp it hit
                    cases it <;> simp_all [Item.counts, uses, Plain]
                  rw [List.countP_append, List.countP_cons_of_neg (by simp [Item.counts]), this pre hpre, this post hpost]
                rw [hm] at g2
                simp only [newDims, Nat.zero_add] at g2
                rw [if_neg (by omega)] at g2
                split at g2
                · cases g2
                · rename_i o3 ho3
                  cases g2
                  have ho3' : newDims ops a.dims (pre.countP uses + post.countP uses) v.shape
                      (pre.countP uses + (a.dims.length - (pre.countP uses + post.countP uses)))
                      (pre.countP moves + (a.dims.length - (pre.countP uses + post.countP uses))) (post ++ []) = .ok o3 := by
                    simpa using ho3
                  obtain ⟨o4, o5, rfl, g3, g4⟩ := newDims_append ops a.dims _ v.shape post [] hpost _ _ o3 ho3'
                    (by omega) (by omega)
                  simp only [newDims, Except.ok.injEq] at g4
                  have ho5 : o5 = [] := by
                    rw [← g4]
                    apply List.drop_of_length_le
                    omega
                  subst ho5
                  have gm := Gives.replicate (κ := κ) ops
                    ((a.dims.drop (pre.countP uses)).take (a.dims.length - (pre.countP uses + post.countP uses)))
                  have hl : ((a.dims.drop (pre.countP uses)).take (a.dims.length - (pre.countP uses + post.countP uses))).length
                      = a.dims.length - (pre.countP uses + post.countP uses) := by simp; omega
                  rw [hl] at gm
                  have g := (g1.append gm).append g3
                  have hdd : List.take (pre.countP uses) (List.drop 0 a.dims) ++
                      (a.dims.drop (pre.countP uses)).take (a.dims.length - (pre.countP uses + post.countP uses)) ++
                      (a.dims.drop (pre.countP uses + (a.dims.length - (pre.countP uses + post.countP uses)))).take
                        (post.countP uses) = a.dims := by
                    rw [List.drop_zero, List.take_of_length_le (by simp; omega : ((a.dims.drop (pre.countP uses +
                      (a.dims.length - (pre.countP uses + post.countP uses))))).length ≤ _), ← List.drop_drop,
                      List.append_assoc, List.take_append_drop, List.take_append_drop]
                  rw [hdd] at g
                  simpa [writtenOut] using g
            unfold Awu.new at h
            split at h
            · cases h
            · rename_i hlen2
              split at h
              · cases h
              · rename_i rd hrd
                cases h
                simp only
                rw [hsh] at hrd
                refine ⟨?_, ?_⟩
                · rw [hsh]
                  exact carries_of law hdoes out rd hgives hrd (by rw [← hsh]; omega)
                · intro ri hri
                  have hri' := hri
                  rw [hsh] at hri'
                  obtain ⟨s1, s2⟩ := source_of_does hdoes ri hri'
                  refine ⟨walk' ps ri, s1, s2, ?_⟩
                  rw [hsrc ri hri]

/-! ## Specification of slices of positions, and what the code does with them -/

/-- A position counted from the end if negative. -/
def fromEnd (n : Nat) (x : Int) : Int := if x < 0 then x + n else x

/-- The positions of `range(n)[a:b:t]`: steps of `t` from the first bound (or the first position, the last one for a negative step), staying
inside the axis and before the second bound. -/
def PySelects (n : Nat) (a b : Option Int) (t : Int) (i : Nat) (p : Int) : Prop :=
  if 0 < t then
    p = max 0 ((a.map (fromEnd n)).getD 0) + i * t ∧ p < n ∧ ∀ e, b = some e → p < fromEnd n e
  else
    p = min ((n : Int) - 1) ((a.map (fromEnd n)).getD (n - 1)) + i * t ∧ 0 ≤ p ∧ ∀ e, b = some e → fromEnd n e < p

/-- **C36** (slices): the positions selected by `a:b:st` are those of the Python slice, in order; a zero step is a ValueError. -/
theorem C36_slice_positions (n : Nat) (a b st : Option Int) :
    (st = some 0 → sliceRange n a b st = .error .valueError) ∧
    (st ≠ some 0 → ∃ s c, sliceRange n a b st = .ok (s, st.getD 1, c) ∧
      ∀ (i : Nat) (p : Int), PySelects n a b (st.getD 1) i p ↔ (i < c ∧ p = s + i * st.getD 1)) := by
  constructor
  · rintro rfl; simp [sliceRange]
  · intro hst
    have h0 : st.getD 1 ≠ 0 := by
      cases st with
      | none => simp
      | some x => simpa using fun e => hst (by rw [e])
    have hcl : ∀ (q : Int) (i : Nat) (d : Int), 0 < d → ((i : Int) < ((q + d - 1) / d).toNat ↔ i * d < q) := by
      intro q i d hd
      rw [Int.ofNat_lt, Int.lt_toNat, Int.lt_iff_add_one_le, Int.le_ediv_iff_mul_le hd, Int.add_mul]
      omega
    generalize htt : st.getD 1 = t at *
    have ha : ∀ x : Option Int, upFrom n x = min (n : Int) (max 0 ((x.map (fromEnd n)).getD 0)) := by
      intro x; cases x with
      | none => simp [upFrom]
      | some x => simp only [upFrom, pyBound, fromEnd, Option.map_some, Option.getD_some]; split <;> omega
    have hb : ∀ x : Int, upTo n (some x) = min (n : Int) (max 0 (fromEnd n x)) := by
      intro x; simp only [upTo, pyBound, fromEnd]; split <;> omega
    have hda : ∀ x : Option Int, downFrom n x = max (-1) (min ((n : Int) - 1) ((x.map (fromEnd n)).getD (n - 1))) := by
      intro x; cases x with
      | none => simp [downFrom]
      | some x => simp only [downFrom, downBound, fromEnd, Option.map_some, Option.getD_some]; split <;> omega
    have hdb : ∀ x : Int, downTo n (some x) = max (-1) (min ((n : Int) - 1) (fromEnd n x)) := by
      intro x; simp only [downTo, downBound, fromEnd]; split <;> omega
    unfold sliceRange
    simp only [htt, h0, if_false]
    by_cases hpos : 0 < t
    · rw [if_pos hpos]
      refine ⟨_, _, rfl, ?_⟩
      intro i p
      have key := hcl (upTo n b - upFrom n a) i t hpos
      rw [Int.ofNat_lt] at key
      rw [key]
      unfold PySelects
      rw [if_pos hpos]
      have hit : 0 ≤ (i : Int) * t := by positivity
      generalize (i : Int) * t = it at *
      rw [ha a]
      generalize (Option.map (fromEnd n) a).getD 0 = av
      cases b with
      | none =>
        simp only [upTo]
        constructor
        · rintro ⟨h1, h2, -⟩; omega
        · rintro ⟨h1, h2⟩; refine ⟨by omega, by omega, by simp⟩
      | some e =>
        rw [hb e]
        constructor
        · rintro ⟨h1, h2, h3⟩
          have h3 := h3 e rfl
          generalize fromEnd n e = ev at *; omega
        · rintro ⟨h1, h2⟩
          refine ⟨by omega, by omega, ?_⟩
          intro e' he'
          injection he' with he'
          subst he'
          generalize fromEnd n e = ev at *
          omega
    · rw [if_neg hpos]
      refine ⟨_, _, rfl, ?_⟩
      intro i p
      have hneg : 0 < -t := by omega
      have key := hcl (downFrom n a - downTo n b) i (-t) hneg
      rw [Int.ofNat_lt] at key
      rw [key]
      unfold PySelects
      rw [if_neg hpos]
      have hit : 0 ≤ (i : Int) * (-t) := by positivity
      rw [Int.mul_neg] at hit ⊢
      generalize (i : Int) * t = it at *
      rw [hda a]
      generalize (Option.map (fromEnd n) a).getD ((n : Int) - 1) = av
      cases b with
      | none =>
        simp only [downTo]
        constructor
        · rintro ⟨h1, h2, -⟩; omega
        · rintro ⟨h1, h2⟩; refine ⟨by omega, by omega, by simp⟩
      | some e =>
        rw [hdb e]
        constructor
        · rintro ⟨h1, h2, h3⟩
          have h3 := h3 e rfl
          generalize fromEnd n e = ev at *; omega
        · rintro ⟨h1, h2⟩
          refine ⟨by omega, by omega, ?_⟩
          intro e' he'
          injection he' with he'
          subst he'
          generalize fromEnd n e = ev at *
          omega

/-- `range(10)[-3:0:-3]` is 7, 4, 1. -/
example : PySelects 10 (some (-3)) (some 0) (-3) 2 1 := by
  unfold PySelects fromEnd; rw [if_neg (by decide)]; exact ⟨by decide, by decide, by rintro e ⟨⟩; decide⟩

/-- **C36** (who translates a slice): a slice of positions neither of whose bounds is zero is numpy's business: whatever the dimension's own
translation of it is, it does not matter. -/
theorem C36_plain_slice {δ κ α : Type} (ops ops' : DimOps δ κ) (hops : ops' = { ops with intSlice := ops'.intSlice }) (a : Awu δ α)
    (x y st : Option Int) (hx : x ≠ some 0) (hy : y ≠ some 0) :
    a.getitem ops [.slice x y st] = a.getitem ops' [.slice x y st] := by
  rw [hops]
  have hr : Item.raw (.slice x y st : Item κ) = some (.slice x y st) := by simp [Item.raw, isIntSlice, hx, hy]
  have h1 : ∀ o : DimOps δ κ, computeIndices o a.dims 1 0 [.slice x y st] = .ok [.slice x y st] := by
    intro o; simp [computeIndices, hr]
  unfold Awu.getitem
  rw [show [(.slice x y st : Item κ)].length = 1 from rfl, h1, h1]
  have h2 : ∀ ds sh, installAll { ops with intSlice := ops'.intSlice } ds sh = installAll ops ds sh := by
    intro ds
    induction ds with
    | nil => intro sh; cases sh <;> rfl
    | cons d ds ih =>
      intro sh
      cases sh with
      | nil => rfl
      | cons n sh => simp only [installAll, ih]
  simp only [newDims, metasliceOr, Awu.new, h2]

example : 0 ≤ (7 : Int) + 2 * (-3) ∧ (7 : Int) + 2 * (-3) < 10 := C36_slice_in_bounds 10 (some (-3)) (some 0) (some (-3)) 7 (-3) 3 (by decide +kernel) 2 (by decide)
example : sliceRange 10 (some 1) (some 2) (some 0) = .error .valueError := (C36_slice_positions 10 (some 1) (some 2) (some 0)).1 rfl
example := (C36_slice_positions 10 (some (-3)) (some 0) (some (-3))).2 (by decide)

/-- **C36** (zero bounds): a slice with a zero bound is not recognised as a slice of positions, because the bit length of zero is zero: it is the
dimension of the axis that has to translate it, and if the dimension refuses so does the array. -/
theorem C36_zero_bound {δ κ α : Type} (ops : DimOps δ κ) (a : Awu δ α) (d : δ) (ds : List δ) (hd : a.dims = d :: ds)
    (x y st : Option Int) (h0 : x = some 0 ∨ y = some 0) (e : PyErr) (he : ops.intSlice d (.slice x y st) = .error e) :
    a.getitem ops [.slice x y st] = .error e := by
  have hr : Item.raw (.slice x y st : Item κ) = none := by
    rcases h0 with rfl | rfl <;> simp [Item.raw, isIntSlice]
  unfold Awu.getitem
  simp [computeIndices, hr, hd, pyAt, he]

/-- **C36** (refused slices): if the dimension answers a slice with an IndexError the sliced axis keeps the dimension it had. -/
theorem C36_refused_metaslice {δ κ : Type} (ops : DimOps δ κ) (d d1 : δ) (it : Item κ) (n : Nat)
    (h : ops.metaslice d it n = .error .indexError) : metasliceOr ops d it (some n) = .ok d1 ↔ d1 = d := by
  simp [metasliceOr, h, eq_comm]

end Zounds.Arr
