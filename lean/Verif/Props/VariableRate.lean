import Verif.Model.VariableRate
/-!
# Property C45: variable-rate time series
-/

namespace Zounds.Props.VariableRate
open Zounds.VariableRate
variable {α : Type u}

/-- Chronological order. -/
def Chronological (l : List (Ex α)) : Prop := l.Pairwise fun a b => a.start ≤ b.start

theorem ctor_chrono (l : List (Ex α)) : Chronological (ctor l) := by
  have := List.pairwise_mergeSort (le := fun a b : Ex α => decide (a.start ≤ b.start))
    (by intro a b c; simp; omega) (by intro a b; simp; omega) l
  exact this.imp (by intro a b h; simpa using h)

/-- **C45.** The series holds exactly the given examples, in chronological order. -/
theorem C45_sorted (data : List (Ex α)) :
    Chronological (ctor data) ∧ (ctor data).Perm data :=
  ⟨ctor_chrono data, List.mergeSort_perm _ _⟩

theorem ctor_of_chrono (l : List (Ex α)) (h : Chronological l) : ctor l = l :=
  List.mergeSort_of_pairwise (h.imp (by intro a b h; simpa using h))

/-- Examples with equal starts keep the order they were given in (stability). -/
theorem C45_stable (data : List (Ex α)) (a b : Ex α) (hab : a.start ≤ b.start)
    (h : [a, b].Sublist data) : [a, b].Sublist (ctor data) := by
  refine List.sublist_mergeSort ?_ ?_ ?_ h
  · intro a b c; simp; omega
  · intro a b; simp; omega
  · simpa using hab

example := C45_stable [(⟨0, 3, 10⟩ : Ex Nat), ⟨6, 1, 12⟩, ⟨1, 4, 11⟩] ⟨0, 3, 10⟩ ⟨1, 4, 11⟩ (by decide) (by decide)

/-- **C45.** Indexing with a time slice returns exactly the examples that reach
past the start of the slice and begin before its end - in the same
chronological order. -/
theorem C45_getitem (data : List (Ex α)) (h : Chronological data) (s d : Int) :
    getSlice data s (some d) =
      data.filter (fun x => decide (s < x.start + x.duration ∧ x.start < s + d)) := by
  unfold getSlice
  rw [ctor_of_chrono]
  · apply List.filter_congr
    intro x _
    simp [Ex.end_]
  · exact List.Pairwise.filter _ h

/-- The same for an open-ended slice. -/
theorem C45_getitem_open (data : List (Ex α)) (h : Chronological data) (s : Int) :
    getSlice data s none = data.filter (fun x => decide (s < x.start + x.duration)) := by
  unfold getSlice
  rw [ctor_of_chrono]
  · apply List.filter_congr
    intro x _
    simp [Ex.end_]
  · exact List.Pairwise.filter _ h

example := C45_getitem_open [(⟨0, 3, 10⟩ : Ex Nat), ⟨1, 4, 11⟩, ⟨6, 1, 12⟩] (by simp [Chronological]) 3

/-- For examples and slices of positive length the test is interval overlap: some
instant belongs to both. -/
theorem C45_overlap_meaning (x : Ex α) (s d : Int) (hx : 0 < x.duration) (hd : 0 < d) :
    (s < x.start + x.duration ∧ x.start < s + d) ↔
      ∃ t, (x.start ≤ t ∧ t < x.start + x.duration) ∧ (s ≤ t ∧ t < s + d) := by
  constructor
  · intro h; exact ⟨max x.start s, by omega, by omega⟩
  · rintro ⟨t, h1, h2⟩; omega

example := C45_overlap_meaning (⟨1, 4, 11⟩ : Ex Nat) 3 2 (by decide) (by decide)

/-- **C45.** Concatenating two series keeps all examples of both, in order. -/
theorem C45_concat (a b : List (Ex α)) :
    Chronological (concat a b) ∧ (concat a b).Perm (a ++ b) := C45_sorted (a ++ b)

/-- **C45.** A series survives being encoded and decoded. -/
theorem C45_encode_decode (data : List (Ex α)) (h : Chronological data) :
    decode (encode data) = data := by
  unfold decode encode
  rw [List.map_map]
  have : (fun x : Ex α => x) = ((fun (x : Int × Int × α) => (⟨x.1, x.2.1, x.2.2⟩ : Ex α)) ∘
      fun x : Ex α => (x.start, x.duration, x.data)) := by funext x; rfl
  have h2 : List.map ((fun (x : Int × Int × α) => (⟨x.1, x.2.1, x.2.2⟩ : Ex α)) ∘
      fun x : Ex α => (x.start, x.duration, x.data)) data = data := by
    rw [← this]; exact List.map_id' data
  exact (congrArg ctor h2).trans (ctor_of_chrono data h)

example := C45_encode_decode [(⟨0, 3, 10⟩ : Ex Nat), ⟨1, 4, 11⟩, ⟨6, 1, 12⟩] (by simp [Chronological])

/-- "The span covers every example." -/
def Covers (sp : Int × Int) (l : List (Ex α)) : Prop :=
  ∀ x ∈ l, sp.1 ≤ x.start ∧ x.start + x.duration ≤ sp.1 + sp.2

/-- **C45 is false of the code for the span**: a long example followed by a short
one; the span ends with the *last* example, not the latest end. -/
theorem C45_span_covers_fails :
    ∃ l : List (Ex Nat), Chronological l ∧ ¬ Covers (span l) l := by
  refine ⟨[⟨0, 10, 0⟩, ⟨1, 2, 1⟩], by simp [Chronological], ?_⟩
  intro h
  have := h ⟨0, 10, 0⟩ (by simp)
  simp [span, endOf, Ex.end_] at this

/-- **C45, the part that holds for the span**: it starts with the earliest example
and, when ends are in order as well (no example nested in an earlier one), it
covers every example. Missing: nested examples. -/
theorem C45_span_partial (l : List (Ex α)) (h : Chronological l)
    (hend : l.Pairwise fun a b => a.end_ ≤ b.end_) : Covers (span l) l := by
  cases l with
  | nil => intro x hx; simp at hx
  | cons y ys =>
    intro x hx
    have h1 : y.start ≤ x.start := by
      rcases List.mem_cons.1 hx with rfl | hx
      · exact Int.le_refl _
      · exact (List.pairwise_cons.1 h).1 x hx
    have h2 : x.end_ ≤ endOf (y :: ys) := by
      unfold endOf
      rw [List.getLast?_eq_some_getLast (by simp)]
      simp only
      obtain ⟨i, hi, rfl⟩ := List.getElem_of_mem hx
      rw [List.getLast_eq_getElem]
      rcases Nat.lt_or_ge i ((y :: ys).length - 1) with hlt | hge
      · exact (List.pairwise_iff_getElem.1 hend) i _ hi _ hlt
      · have : i = (y :: ys).length - 1 := by omega
        subst this; exact Int.le_refl _
    unfold Ex.end_ at h2
    simp only [span]
    omega

example := C45_span_partial [(⟨0, 3, 10⟩ : Ex Nat), ⟨1, 4, 11⟩, ⟨6, 1, 12⟩] (by simp [Chronological]) (by simp [Ex.end_])

-- Non-vacuity.
example : Chronological [(⟨0, 3, "a"⟩ : Ex String), ⟨1, 4, "b"⟩, ⟨6, 1, "c"⟩] := by
  simp [Chronological]
example : getSlice [(⟨0, 3, 10⟩ : Ex Nat), ⟨1, 4, 11⟩, ⟨6, 1, 12⟩] 3 (some 2) = [⟨1, 4, 11⟩] := by
  rw [C45_getitem _ (by simp [Chronological])]; decide

/-- **C45** (nothing): an empty series ends at zero and spans nothing. -/
theorem C45_empty : endOf ([] : List (Ex α)) = 0 ∧ span ([] : List (Ex α)) = (0, 0) := ⟨rfl, rfl⟩

end Zounds.Props.VariableRate
