import Verif.Model.BruteForce
import Verif.Props.Time
import Verif.Props.PopCount
import Mathlib.Order.Basic
import Mathlib.Data.List.Nodup
import Mathlib.Tactic.Common

/-!
# C44: brute-force search
-/

namespace Zounds.BruteForce
open Zounds.Time Zounds.Props

/-- What numpy promises about `argsort`: some permutation that sorts. -/
structure LegalSort {K : Type} [LE K] (argsort : List K → List Nat) : Prop where
  perm : ∀ s, (argsort s).Perm (List.range s.length)
  sorted : ∀ s, (argsort s).Pairwise fun a b => ∀ x y, s[a]? = some x → s[b]? = some y → x ≤ y

/-- Row `j` of document `d`, together with the id and the time slice it stands for: the half-open interval of sample `j`. -/
def entries {Id Row : Type} (gen : List (Id × Example Row)) : List (Row × Id × Slice) :=
  gen.flatMap fun d => d.2.rows.zipIdx.map fun rj =>
    (rj.1, d.1, (match d.2.time with | some td => ((rj.2 : Int) * td.frequency, td.duration) | none => (0, 0)))

theorem collect_ok {Id Row : Type} : ∀ (gen : List (Id × Example Row)) (ix : Index Id Row), collect gen = .ok ix →
    ix.index = (entries gen).map Prod.fst ∧ ix.ids = (entries gen).map Prod.snd ∧ ∀ d ∈ gen, d.2.time ≠ none := by
  intro gen
  induction gen with
  | nil => intro ix h; cases h; simp [entries]
  | cons d rest ih =>
    intro ix h
    obtain ⟨i, e⟩ := d
    simp only [collect] at h
    split at h
    · cases h
    rename_i td htd
    split at h
    · cases h
    rename_i r hr
    cases h
    obtain ⟨h1, h2, h3⟩ := ih r hr
    refine ⟨?_, ?_, ?_⟩
    · simp [entries, h1, htd, Function.comp_def]
    · simp [entries, h2, htd, iterSlices, Function.comp_def, Int.mul_comm]
    · intro d hd
      rcases List.mem_cons.1 hd with rfl | hd
      · simp [htd]
      · exact h3 d hd

theorem collect_exists {Id Row : Type} : ∀ (gen : List (Id × Example Row)), (∀ d ∈ gen, d.2.time ≠ none) →
    ∃ ix, collect gen = .ok ix := by
  intro gen
  induction gen with
  | nil => intro _; exact ⟨_, rfl⟩
  | cons d rest ih =>
    intro h
    obtain ⟨i, e⟩ := d
    obtain ⟨r, hr⟩ := ih (fun d hd => h d (List.mem_cons_of_mem _ hd))
    obtain ⟨td, htd⟩ := Option.ne_none_iff_exists'.1 (h (i, e) (by simp))
    simp only [] at htd
    exact ⟨_, by simp only [collect, htd, hr]; rfl⟩

/-- **C44, alignment**: building succeeds exactly when there is at least one document and all have a time dimension; then the rows of the
index are the rows of the documents in order, and the id and time slice kept at position `i` are those of the
row at position `i`. -/
theorem C44_alignment {Id Row : Type} (gen : List (Id × Example Row)) :
    (∀ ix, build gen = .ok ix → gen ≠ [] ∧ (∀ d ∈ gen, d.2.time ≠ none) ∧
      ix.index.zip ix.ids = entries gen ∧ ix.index.length = ix.ids.length) ∧
    (gen ≠ [] → (∀ d ∈ gen, d.2.time ≠ none) → ∃ ix, build gen = .ok ix) := by
  constructor
  · intro ix h
    unfold build at h
    split at h
    · cases h
    rename_i r hr
    split at h
    · cases h
    rename_i hne
    cases h
    obtain ⟨h1, h2, h3⟩ := collect_ok gen _ hr
    refine ⟨hne, h3, ?_, by rw [h1, h2]; simp⟩
    rw [h1, h2, List.zip_map']
    simp
  · intro hne h
    obtain ⟨ix, hix⟩ := collect_exists gen h
    exact ⟨ix, by unfold build; rw [hix]; simp [hne]⟩

theorem collect_error {Id Row : Type} : ∀ (gen : List (Id × Example Row)), (∃ d ∈ gen, d.2.time = none) →
    collect gen = .error .valueError
  | [], h => by simp at h
  | (i, e) :: rest, h => by
    simp only [collect]
    cases ht : e.time with
    | none => rfl
    | some td =>
      obtain ⟨d, hd, hdt⟩ := h
      rcases List.mem_cons.mp hd with rfl | hd'
      · rw [ht] at hdt; cases hdt
      · rw [collect_error rest ⟨d, hd', hdt⟩]

/-- **C44, refusals**: without documents, or with one that has no time dimension, a ValueError. -/
theorem C44_refused {Id Row : Type} (gen : List (Id × Example Row)) (h : gen = [] ∨ ∃ d ∈ gen, d.2.time = none) :
    build gen = .error .valueError := by
  unfold build
  rcases h with rfl | h
  · simp [collect]
  · rw [collect_error gen h]

/-- Where entry `(row, id, slice)` comes from: a document with that id whose `j`-th row it is, and the slice is the extent of sample `j`. -/
theorem C44_entry {Id Row : Type} (gen : List (Id × Example Row)) (hd : ∀ d ∈ gen, d.2.time ≠ none) (x : Row × Id × Slice)
    (hx : x ∈ entries gen) :
    ∃ e td, (x.2.1, e) ∈ gen ∧ e.time = some td ∧ ∃ j : Nat, e.rows[j]? = some x.1 ∧
      ∀ t, Within x.2.2.1 (x.2.2.1 + x.2.2.2) t ↔ extent td j t := by
  unfold entries at hx
  rw [List.mem_flatMap] at hx
  obtain ⟨⟨i, e⟩, hm, hx⟩ := hx
  rw [List.mem_map] at hx
  obtain ⟨⟨r, j⟩, hj, rfl⟩ := hx
  obtain ⟨td, htd⟩ := Option.ne_none_iff_exists'.1 (hd (i, e) hm)
  simp only at htd
  rw [List.mem_zipIdx_iff_getElem?] at hj
  refine ⟨e, td, hm, htd, j, by simpa using hj, ?_⟩
  intro t
  simp only [htd, extent]

theorem getElem?_zip_ids {Id Row : Type} (ix : Index Id Row) (h : ix.index.length = ix.ids.length) (i : Nat)
    (hi : i < ix.index.length) :
    ∃ r d, ix.index[i]? = some r ∧ ix.ids[i]? = some d ∧ (ix.index.zip ix.ids)[i]? = some (r, d) := by
  refine ⟨ix.index[i], ix.ids[i]'(by omega), by simp, by simp, ?_⟩
  rw [List.getElem?_eq_getElem (by simp; omega)]
  simp

theorem pySlice_zero_nonneg {α : Type} (l : List α) (n : Nat) : pySlice l 0 n = l.take n := by
  unfold pySlice pyBound
  have : ¬ ((n : Int) < 0) := by omega
  simp only [this, if_false]
  simp

theorem pySlice_zero_neg {α : Type} (l : List α) (n : Nat) (hn : 0 < n) : pySlice l 0 (-(n : Int)) = l.take (l.length - n) := by
  unfold pySlice pyBound
  have : (-(n : Int) < 0) := by omega
  simp only [this, if_true]
  simp
  omega

/-- What a search for the `k` nearest must return: `k` entries at different positions of the index (all if there are fewer), in order of
distance, none of them farther than an entry left out. -/
def Nearest {Id Row K : Type} [LE K] (dist : Row → Row → K) (ix : Index Id Row) (query : Row) (k : Nat)
    (out : List (Id × Slice)) : Prop :=
  ∃ positions : List Nat, positions.Nodup ∧ positions.length = min k ix.index.length ∧
    out.map some = positions.map (fun i => ix.ids[i]?) ∧
    positions.Pairwise (fun a b => ∀ x y, ix.index[a]? = some x → ix.index[b]? = some y → dist query x ≤ dist query y) ∧
    ∀ a ∈ positions, ∀ b, b ∉ positions → ∀ x y, ix.index[a]? = some x → ix.index[b]? = some y → dist query x ≤ dist query y

theorem search_take {Id Row K : Type} [LE K] (argsort : List K → List Nat) (hl : LegalSort argsort) (dist : Row → Row → K)
    (ix : Index Id Row) (hix : ix.index.length = ix.ids.length) (query : Row) (k : Nat) :
    Nearest dist ix query k (((argsort (ix.index.map (dist query))).take k).filterMap fun i => ix.ids[i]?) := by
  set s := ix.index.map (dist query) with hs
  have hperm := hl.perm s
  have hlen : (argsort s).length = ix.index.length := by rw [hperm.length_eq]; simp [hs]
  have hnd : (argsort s).Nodup := hperm.nodup_iff.2 List.nodup_range
  have hmem : ∀ a, a ∈ argsort s ↔ a < ix.index.length := by
    intro a; rw [hperm.mem_iff]; simp [hs]
  have hget : ∀ (a : Nat) (x : Row), ix.index[a]? = some x → s[a]? = some (dist query x) := by
    intro a x h; simp [hs, h]
  refine ⟨(argsort s).take k, hnd.sublist (List.take_sublist _ _), by simp [hlen], ?_, ?_, ?_⟩
  · have : ∀ l : List Nat, (∀ i ∈ l, i < ix.ids.length) →
        (l.filterMap fun i => ix.ids[i]?).map some = l.map fun i => ix.ids[i]? := by
      intro l hl
      induction l with
      | nil => rfl
      | cons a l ih =>
        have ha := hl a (by simp)
        rw [List.filterMap_cons]
        simp only [List.getElem?_eq_getElem ha, List.map_cons]
        rw [ih (fun i hi => hl i (List.mem_cons_of_mem _ hi))]
    apply this
    intro i hi
    have := (hmem i).1 (List.mem_of_mem_take hi)
    omega
  · apply List.Pairwise.imp _ ((hl.sorted s).sublist (List.take_sublist _ _))
    intro a b h x y hx hy
    exact h _ _ (hget a x hx) (hget b y hy)
  · intro a ha b hb x y hx hy
    have hbl : b < ix.index.length := by
      by_contra hc
      rw [List.getElem?_eq_none (by omega)] at hy; cases hy
    have hbd : b ∈ (argsort s).drop k := by
      have := (hmem b).2 hbl
      rw [← List.take_append_drop k (argsort s)] at this
      rcases List.mem_append.1 this with h | h
      · exact absurd h hb
      · exact h
    have hsort := hl.sorted s
    rw [← List.take_append_drop k (argsort s), List.pairwise_append] at hsort
    exact hsort.2.2 a ha b hbd _ _ (hget a x hx) (hget b y hy)

/-- **C44, search**: for every legal sort, every metric, every query and every `n_results ≥ 0`, searching returns the ids and time slices of
the `n_results` nearest rows (all when there are fewer), nearest first. -/
theorem C44_search {Id Row K : Type} [LE K] (argsort : List K → List Nat) (hl : LegalSort argsort) (dist : Row → Row → K)
    (gen : List (Id × Example Row)) (ix : Index Id Row) (hb : build gen = .ok ix) (query : Row) (n : Nat) :
    Nearest dist ix query n (search argsort dist ix query n) := by
  have hix := (((C44_alignment gen).1 ix hb).2.2).2
  unfold search
  rw [pySlice_zero_nonneg]
  exact search_take argsort hl dist ix hix query n

/-- **C44, negative `n_results`**: `-n` asks for all but the `n` farthest. -/
theorem C44_search_negative {Id Row K : Type} [LE K] (argsort : List K → List Nat) (hl : LegalSort argsort) (dist : Row → Row → K)
    (gen : List (Id × Example Row)) (ix : Index Id Row) (hb : build gen = .ok ix) (query : Row) (n : Nat) (hn : 0 < n) :
    Nearest dist ix query (ix.index.length - n) (search argsort dist ix query (-(n : Int))) := by
  have hix := (((C44_alignment gen).1 ix hb).2.2).2
  unfold search
  rw [pySlice_zero_neg _ _ hn]
  have hlen : (argsort (ix.index.map (dist query))).length = ix.index.length := by
    rw [(hl.perm _).length_eq]; simp
  rw [hlen]
  exact search_take argsort hl dist ix hix query (ix.index.length - n)

/-- **C44, Hamming search**: the distance of the Hamming variant is the number of differing bits. -/
theorem C44_hamming_distance (q r : List (BitVec 64)) : hammingDist q r = PopCount.differingBits q r := by
  unfold hammingDist
  rw [PopCount.C13_packed_distance]
  rfl

/-- **C44, searching twice**: the results of a search can be read once: reading them again continues where the first reading stopped, and
after a complete reading there is nothing. -/
theorem C44_results_once_refuted {Row R : Type} (s : SearchResults Row R) (k l : Nat) :
    ((s.consume k).2.consume l).1 = (s.results.drop k).take l ∧
    (s.results.length ≤ k → ((s.consume k).2.consume l).1 = []) := by
  refine ⟨rfl, fun h => ?_⟩
  show (s.results.drop k).take l = []
  rw [List.drop_of_length_le h]; simp

/-- Two documents of two and one rows; the nearest two to 5. -/
example : ∃ ix, build [("a", ⟨some ⟨10, 20, 2⟩, [1, 7]⟩), ("b", ⟨some ⟨4, 4, 1⟩, [4]⟩)] = .ok ix ∧
    ix.ids = [("a", (0, 20)), ("a", (10, 20)), ("b", (0, 4))] ∧ ix.index = [1, 7, 4] :=
  ⟨_, rfl, rfl, rfl⟩

/-- A legal sort exists: insertion sort of the positions. -/
example : LegalSort (fun s : List Nat => (List.range s.length).mergeSort fun a b => decide (s.getD a 0 ≤ s.getD b 0)) := by
  refine ⟨fun s => List.mergeSort_perm _ _, fun s => ?_⟩
  have h := List.pairwise_mergeSort (le := fun a b => decide (s.getD a 0 ≤ s.getD b 0))
    (by intro a b c; simp; omega) (by intro a b; simp; omega) (List.range s.length)
  apply h.imp
  intro a b hab x y hx hy
  simp [hx, hy] at hab
  exact hab

theorem legal_nat : LegalSort (fun s : List Nat => (List.range s.length).mergeSort fun a b => decide (s.getD a 0 ≤ s.getD b 0)) := by
  refine ⟨fun s => List.mergeSort_perm _ _, fun s => ?_⟩
  have h := List.pairwise_mergeSort (le := fun a b => decide (s.getD a 0 ≤ s.getD b 0))
    (by intro a b c; simp; omega) (by intro a b; simp; omega) (List.range s.length)
  apply h.imp
  intro a b hab x y hx hy
  simp [hx, hy] at hab
  exact hab
example := C44_alignment [("a", ⟨some ⟨10, 20, 2⟩, [1, 7]⟩), ("b", ⟨some ⟨4, 4, 1⟩, [4]⟩)]
example : build [("a", ⟨some ⟨10, 20, 2⟩, [1, 7]⟩), ("b", ⟨none, [4]⟩)] = .error .valueError := C44_refused _ (Or.inr ⟨("b", ⟨none, [4]⟩), by simp, rfl⟩)
example := C44_entry [("a", ⟨some ⟨10, 20, 2⟩, [1, 7]⟩), ("b", ⟨some ⟨4, 4, 1⟩, [4]⟩)] (by simp) (7, "a", (10, 20)) (by decide)
example := C44_search _ legal_nat (fun x y : Nat => (x - y) + (y - x)) [("a", ⟨some ⟨10, 20, 2⟩, [1, 7]⟩), ("b", ⟨some ⟨4, 4, 1⟩, [4]⟩)] _ rfl 5 2
example := C44_search_negative _ legal_nat (fun x y : Nat => (x - y) + (y - x)) [("a", ⟨some ⟨10, 20, 2⟩, [1, 7]⟩), ("b", ⟨some ⟨4, 4, 1⟩, [4]⟩)] _ rfl 5 1 (by decide)

end Zounds.BruteForce
