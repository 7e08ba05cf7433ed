import Mathlib.Algebra.BigOperators.Intervals
import Verif.Model.Onset
import Verif.Props.Time
import Mathlib.Tactic.Common
import Mathlib.Tactic.FieldSimp
import Mathlib.Tactic.Ring
import Mathlib.Tactic.Linarith
import Mathlib.Algebra.Order.Ring.Rat

/-!
# Property C25: onset segmentation
-/

namespace Zounds.Onset
open Zounds Zounds.Time

/-! ## Specification -/

/-- The slices (start, duration) between neighbouring times of a list. -/
def between : List Int → List (Int × Int)
  | a :: b :: rest => (a, b - a) :: between (b :: rest)
  | _ => []

/-- All onset rows of a stream, counted from the beginning of the stream, when chunk by chunk decisions are `onsets`. -/
def absOnsets {α : Type} (onsets : List α → List Nat) : Nat → List (List α) → List Nat
  | _, [] => []
  | k, c :: cs => (onsets c).map (k + ·) ++ absOnsets onsets (k + c.length) cs

/-- Slices (start, duration) that tile the time from zero to `stop`: at least one; the first starts at zero; each starts where the
one before it ends; no duration is negative; the last ends at `stop`. -/
def Tiles (s : List (Int × Int)) (stop : Int) : Prop :=
    (∃ d, s[0]? = some (0, d)) ∧
    (∀ i (h : i + 1 < s.length), s[i+1].1 = s[i].1 + s[i].2) ∧
    (∀ x ∈ s, 0 ≤ x.2) ∧
    (∃ a b, s.getLast? = some (a, b) ∧ a + b = stop)

/-! ## Lemmas -/

theorem insertSorted_le (x : Int) (l : List Int) (h : (x :: l).Pairwise (· ≤ ·)) : insertSorted x l = x :: l := by
  cases l with
  | nil => rfl
  | cons y ys =>
    have := (List.pairwise_cons.1 h).1 y (by simp)
    simp [insertSorted, this]

theorem npSort_sorted (l : List Int) (h : l.Pairwise (· ≤ ·)) : npSort l = l := by
  induction l with
  | nil => rfl
  | cons x xs ih =>
    have := ih (List.pairwise_cons.1 h).2
    simp only [npSort, List.foldr_cons] at this ⊢
    rw [this]; exact insertSorted_le x xs h

theorem zip_npDiff (l : List Int) : l.zip (npDiff l) = between l := by
  induction l with
  | nil => rfl
  | cons a t ih =>
    cases t with
    | nil => rfl
    | cons b t =>
      have ih' := ih
      simp only [npDiff, between, List.zip_cons_cons] at ih' ⊢
      rw [ih']

theorem slices_sorted (l : List Int) (h : l.Pairwise (· ≤ ·)) : slices l = between l := by
  simp only [slices, npSort_sorted l h, zip_npDiff]

theorem between_append (a : Int) (l m : List Int) :
    between (a :: l ++ m) = between (a :: l) ++ between ((a :: l).getLast (by simp) :: m) := by
  induction l generalizing a with
  | nil => simp [between]
  | cons b t ih =>
    have := ih b
    simp only [List.cons_append, between] at this ⊢
    rw [this]; simp

theorem getLast_le_of {l : List Int} (h : l ≠ []) (B : Int) (hB : ∀ x ∈ l, x ≤ B) : l.getLast h ≤ B :=
  hB _ (List.getLast_mem h)

/-- `_onset_indices` returns row numbers of the chunk in increasing order (as `np.where(mask)[0]` does). -/
def Increasing {α : Type} (onsets : List α → List Nat) : Prop :=
  ∀ c, (onsets c).Pairwise (· < ·) ∧ ∀ i ∈ onsets c, i < c.length

theorem pick_eq {α : Type} (freq : Int) (hf : 0 ≤ freq) (onsets : List α → List Nat) (ho : Increasing onsets)
    (cs : List (List α)) : ∀ (k : Nat) (L : Int), L ≤ (k : Int) * freq →
      pick freq onsets ⟨(k : Int) * freq, L⟩ cs
        = between (L :: (absOnsets onsets k cs).map (fun (i : Nat) => (i : Int) * freq)
            ++ [((k + cs.flatten.length : Nat) : Int) * freq]) := by
  induction cs with
  | nil => intro k L hL; simp [pick, lastChunk, absOnsets, between]
  | cons c cs ih =>
    intro k L hL
    obtain ⟨hs, hr⟩ := ho c
    set ts : List Int := L :: (onsets c).map (fun (i : Nat) => (k : Int) * freq + (i : Int) * freq) with hts
    have hsorted : ts.Pairwise (· ≤ ·) := by
      rw [hts, List.pairwise_cons]
      refine ⟨?_, ?_⟩
      · intro x hx
        obtain ⟨i, _, rfl⟩ := List.mem_map.1 hx
        have : (0 : Int) ≤ (i : Int) * freq := Int.mul_nonneg (by omega) hf
        omega
      · rw [List.pairwise_map]
        refine hs.imp ?_
        intro a b hab
        have := Int.mul_le_mul_of_nonneg_right (a := (a : Int)) (b := (b : Int)) (by omega) hf
        omega
    have hlast : ts.getLast (by simp [hts]) ≤ ((k + c.length : Nat) : Int) * freq := by
      apply getLast_le_of
      intro x hx
      rw [hts] at hx
      rcases List.mem_cons.1 hx with rfl | hx
      · refine Int.le_trans hL (Int.mul_le_mul_of_nonneg_right (by omega) hf)
      · obtain ⟨i, hi, rfl⟩ := List.mem_map.1 hx
        have := hr i hi
        rw [← Int.add_mul]
        exact Int.mul_le_mul_of_nonneg_right (by omega) hf
    have hstep := ih (k + c.length) (ts.getLast (by simp [hts])) hlast
    have hpos : (k : Int) * freq + (c.length : Int) * freq = ((k + c.length : Nat) : Int) * freq := by
      rw [← Int.add_mul]; rfl
    have hmap : (onsets c).map (fun (i : Nat) => (k : Int) * freq + (i : Int) * freq)
        = ((onsets c).map (k + ·)).map (fun (i : Nat) => (i : Int) * freq) := by
      rw [List.map_map]; apply List.map_congr_left; intro i _
      simp [Int.add_mul]
    show slices ts ++ pick freq onsets ⟨(k : Int) * freq + (c.length : Int) * freq, ts.getLast (by simp [hts])⟩ cs = _
    rw [hpos, hstep, slices_sorted ts hsorted]
    have e : L :: (absOnsets onsets k (c :: cs)).map (fun (i : Nat) => (i : Int) * freq)
            ++ [((k + (c :: cs).flatten.length : Nat) : Int) * freq]
        = ts ++ ((absOnsets onsets (k + c.length) cs).map (fun (i : Nat) => (i : Int) * freq)
            ++ [((k + c.length + cs.flatten.length : Nat) : Int) * freq]) := by
      rw [hts, hmap]
      simp [absOnsets, Nat.add_assoc]
    rw [e]
    exact (between_append L _ _).symm

/-! ## C25 -/

/-- **C25**: the slices of a stream are exactly those between zero, the onsets (as absolute rows times the hop) and the end of the
stream, for any decision procedure that returns increasing row numbers, and any way the stream is cut. -/
theorem C25_slices {α : Type} (freq : Int) (hf : 0 ≤ freq) (onsets : List α → List Nat) (ho : Increasing onsets)
    (cs : List (List α)) :
    pick freq onsets Picker.init cs
      = between (0 :: (absOnsets onsets 0 cs).map (fun (i : Nat) => (i : Int) * freq)
          ++ [(cs.flatten.length : Int) * freq]) := by
  have := pick_eq freq hf onsets ho cs 0 0 (by simp)
  simpa [Picker.init] using this

theorem whereFrom_shift {α : Type} (p : α → Bool) (xs : List α) : ∀ k j,
    (whereFrom p j xs).map (k + ·) = whereFrom p (k + j) xs := by
  induction xs with
  | nil => intro k j; rfl
  | cons x xs ih =>
    intro k j
    unfold whereFrom
    split <;> simp [ih, Nat.add_assoc]

theorem whereFrom_append {α : Type} (p : α → Bool) (xs ys : List α) : ∀ k,
    whereFrom p k (xs ++ ys) = whereFrom p k xs ++ whereFrom p (k + xs.length) ys := by
  induction xs with
  | nil => intro k; rfl
  | cons x xs ih =>
    intro k
    simp only [List.cons_append, whereFrom, ih, List.length_cons]
    have e : k + 1 + xs.length = k + (xs.length + 1) := by omega
    split <;> simp [e]

theorem whereFrom_mem {α : Type} (p : α → Bool) (xs : List α) : ∀ k i,
    i ∈ whereFrom p k xs ↔ ∃ j, ∃ h : j < xs.length, i = k + j ∧ p xs[j] = true := by
  induction xs with
  | nil => intro k i; simp [whereFrom]
  | cons x xs ih =>
    intro k i
    have key : (∃ j, ∃ h : j < (x :: xs).length, i = k + j ∧ p (x :: xs)[j] = true) ↔
        (i = k ∧ p x = true) ∨ ∃ j, ∃ h : j < xs.length, i = k + 1 + j ∧ p xs[j] = true := by
      constructor
      · rintro ⟨j, h, e, hp⟩
        cases j with
        | zero => exact Or.inl ⟨by omega, by simpa using hp⟩
        | succ j => exact Or.inr ⟨j, by simpa using h, by omega, by simpa using hp⟩
      · rintro (⟨e, hp⟩ | ⟨j, h, e, hp⟩)
        · exact ⟨0, by simp, by omega, by simpa using hp⟩
        · exact ⟨j + 1, by simpa using h, by omega, by simpa using hp⟩
    rw [key]
    unfold whereFrom
    split
    · rename_i hx
      simp [ih, hx]
    · rename_i hx
      simp [ih, hx]

theorem whereFrom_sorted {α : Type} (p : α → Bool) (xs : List α) : ∀ k, (whereFrom p k xs).Pairwise (· < ·) := by
  induction xs with
  | nil => intro k; simp [whereFrom]
  | cons x xs ih =>
    intro k
    unfold whereFrom
    split
    · rw [List.pairwise_cons]
      refine ⟨?_, ih _⟩
      intro i hi
      obtain ⟨j, _, e, _⟩ := (whereFrom_mem p xs (k + 1) i).1 hi
      omega
    · exact ih _

theorem whereFrom_increasing {α : Type} (p : α → Bool) : Increasing (whereFrom p 0) := by
  intro c
  refine ⟨whereFrom_sorted p c 0, ?_⟩
  intro i hi
  obtain ⟨j, h, e, _⟩ := (whereFrom_mem p c 0 i).1 hi
  omega

theorem absOnsets_whereFrom {α : Type} (p : α → Bool) (cs : List (List α)) : ∀ k,
    absOnsets (whereFrom p 0) k cs = whereFrom p k cs.flatten := by
  induction cs with
  | nil => intro k; rfl
  | cons c cs ih =>
    intro k
    simp only [absOnsets, List.flatten_cons, whereFrom_append, whereFrom_shift, Nat.add_zero, ih]

/-- **C25**: a picker that decides row by row gives the same slices for every chunking of the same stream. -/
theorem C25_chunk_independent {α : Type} (freq : Int) (hf : 0 ≤ freq) (p : α → Bool) (cs ds : List (List α))
    (h : cs.flatten = ds.flatten) :
    pick freq (whereFrom p 0) Picker.init cs = pick freq (whereFrom p 0) Picker.init ds := by
  rw [C25_slices freq hf _ (whereFrom_increasing p), C25_slices freq hf _ (whereFrom_increasing p),
    absOnsets_whereFrom, absOnsets_whereFrom, h]

example := C25_chunk_independent 10 (by decide) (fun b : Bool => b) [[false, true], [false]] [[false], [true, false]] rfl

/-- **C25** for the concrete picker: the moving average picker is a row by row one, for any aggregate and center. -/
theorem C25_moving_average_chunk_independent (freq : Int) (hf : 0 ≤ freq) (agg : List Rat → Rat) (c : Nat)
    (cs ds : List (List (List Rat))) (h : cs.flatten = ds.flatten) :
    pick freq (movingAverageIndices agg c) Picker.init cs = pick freq (movingAverageIndices agg c) Picker.init ds :=
  C25_chunk_independent freq hf (movingAverageOnset agg c) cs ds h

example := C25_moving_average_chunk_independent 10 (by decide) List.sum 2 [[[0, 1], [2, 3]], [[4, 5]]] [[[0, 1]], [[2, 3], [4, 5]]] rfl

/-- **C25**: exactly the rows that satisfy the decision start a slice (besides the one starting at zero). -/
theorem C25_starts {α : Type} (freq : Int) (hf : 0 < freq) (p : α → Bool) (cs : List (List α)) (t : Int) :
    t ∈ (pick freq (whereFrom p 0) Picker.init cs).map (·.1) ↔
      t = 0 ∨ ∃ j, ∃ h : j < cs.flatten.length, t = (j : Int) * freq ∧ p cs.flatten[j] = true := by
  have starts : ∀ (l : List Int) (z : Int), (between (l ++ [z])).map (·.1) = l := by
    intro l z
    induction l with
    | nil => rfl
    | cons a l ih =>
      cases l with
      | nil => rfl
      | cons b l => simpa [between] using ih
  rw [C25_slices freq (by omega) _ (whereFrom_increasing p), starts, absOnsets_whereFrom]
  simp only [List.mem_cons, List.mem_map, whereFrom_mem]
  constructor
  · rintro (h | ⟨i, ⟨j, hj, e, hp⟩, rfl⟩)
    · exact Or.inl h
    · refine Or.inr ⟨j, hj, ?_, hp⟩
      have : i = j := by omega
      rw [this]
  · rintro (h | ⟨j, hj, e, hp⟩)
    · exact Or.inl h
    · exact Or.inr ⟨j, ⟨j, hj, by omega, hp⟩, e.symm⟩

example := C25_starts 10 (by decide) (fun b : Bool => b) [[false, true], [false]] 10

theorem between_length (l : List Int) : (between l).length = l.length - 1 := by
  induction l with
  | nil => rfl
  | cons a t ih =>
    cases t with
    | nil => rfl
    | cons b t => simp only [between, List.length_cons] at ih ⊢; omega

theorem between_get (l : List Int) : ∀ i (h : i + 1 < l.length),
    (between l)[i]? = some (l[i], l[i+1] - l[i]) := by
  induction l with
  | nil => intro i h; simp at h
  | cons a t ih =>
    intro i h
    cases t with
    | nil => simp at h
    | cons b t =>
      cases i with
      | zero => simp [between]
      | succ i =>
        have := ih i (by simpa using h)
        simpa [between] using this

theorem absOnsets_sorted {α : Type} (onsets : List α → List Nat) (ho : Increasing onsets) (cs : List (List α)) :
    ∀ k, (absOnsets onsets k cs).Pairwise (· < ·) ∧ ∀ i ∈ absOnsets onsets k cs, k ≤ i ∧ i < k + cs.flatten.length := by
  induction cs with
  | nil => intro k; simp [absOnsets]
  | cons c cs ih =>
    intro k
    obtain ⟨hs, hr⟩ := ho c
    obtain ⟨is, ir⟩ := ih (k + c.length)
    simp only [absOnsets]
    refine ⟨List.pairwise_append.2 ⟨?_, is, ?_⟩, ?_⟩
    · rw [List.pairwise_map]; exact hs.imp (by intro a b h; omega)
    · intro a ha b hb
      obtain ⟨i, hi, rfl⟩ := List.mem_map.1 ha
      have := hr i hi
      have := (ir b hb).1
      omega
    · intro i hi
      simp only [List.flatten_cons, List.length_append]
      rcases List.mem_append.1 hi with hi | hi
      · obtain ⟨j, hj, rfl⟩ := List.mem_map.1 hi
        have := hr j hj
        omega
      · have := ir i hi
        omega

/-- **C25**: the slices tile the stream: there is at least one; the first starts at zero; each starts where the one before it
ends; no duration is negative; the last ends at the end of the stream. -/
theorem C25_tiles {α : Type} (freq : Int) (hf : 0 ≤ freq) (onsets : List α → List Nat) (ho : Increasing onsets)
    (cs : List (List α)) : Tiles (pick freq onsets Picker.init cs) ((cs.flatten.length : Int) * freq) := by
  obtain ⟨hsort, hrange⟩ := absOnsets_sorted onsets ho cs 0
  generalize hsdef : pick freq onsets Picker.init cs = s
  rw [C25_slices freq hf onsets ho, eq_comm] at hsdef
  unfold Tiles
  set T : List Int := 0 :: (absOnsets onsets 0 cs).map (fun (i : Nat) => (i : Int) * freq)
          ++ [(cs.flatten.length : Int) * freq] with hT
  have hTl : T.length = (absOnsets onsets 0 cs).length + 2 := by simp [hT]
  have hsl : s.length = T.length - 1 := by rw [hsdef, between_length]
  have hget : ∀ i (h : i < s.length), s[i] = (T[i], T[i+1] - T[i]) := by
    intro i h
    have h' : i + 1 < T.length := by omega
    have := between_get T i h'
    rw [← hsdef] at this
    rw [List.getElem?_eq_getElem h] at this
    exact Option.some.inj this
  have hTsort : T.Pairwise (· ≤ ·) := by
    rw [hT, List.pairwise_append]
    refine ⟨?_, by simp, ?_⟩
    · rw [List.pairwise_cons]
      refine ⟨?_, ?_⟩
      · intro x hx
        obtain ⟨i, _, rfl⟩ := List.mem_map.1 hx
        exact Int.mul_nonneg (by omega) hf
      · rw [List.pairwise_map]
        refine hsort.imp ?_
        intro a b hab
        exact Int.mul_le_mul_of_nonneg_right (by omega) hf
    · intro a ha b hb
      simp only [List.mem_singleton] at hb
      subst hb
      rcases List.mem_cons.1 ha with rfl | ha
      · exact Int.mul_nonneg (by omega) hf
      · obtain ⟨i, hi, rfl⟩ := List.mem_map.1 ha
        have := (hrange i hi).2
        exact Int.mul_le_mul_of_nonneg_right (by omega) hf
  refine ⟨?_, ?_, ?_, ?_⟩
  · have h0 : 0 < s.length := by omega
    refine ⟨T[1] - T[0], ?_⟩
    rw [List.getElem?_eq_getElem h0, hget 0 h0]
    simp [hT]
  · intro i h
    rw [hget i (by omega), hget (i+1) h]
    show T[i+1] = T[i] + (T[i+1] - T[i])
    omega
  · intro x hx
    obtain ⟨i, h, rfl⟩ := List.mem_iff_getElem.1 hx
    rw [hget i h]
    have := List.pairwise_iff_getElem.1 hTsort i (i+1) (by omega) (by omega) (by omega)
    show 0 ≤ T[i+1] - T[i]
    omega
  · have hn : s.length - 1 < s.length := by omega
    refine ⟨s[s.length - 1].1, s[s.length - 1].2, ?_, ?_⟩
    · rw [List.getLast?_eq_getElem?, List.getElem?_eq_getElem hn]
    · rw [hget _ hn]
      show T[s.length - 1] + (T[s.length - 1 + 1] - T[s.length - 1]) = _
      have e : s.length - 1 + 1 = T.length - 1 := by omega
      have : T[s.length - 1 + 1] = (cs.flatten.length : Int) * freq := by
        simp only [e]
        rw [← List.getLast_eq_getElem (by simp [hT])]
        simp [hT]
      omega

example := C25_tiles 10 (by decide) (whereFrom (fun b : Bool => b) 0) (whereFrom_increasing _) [[false, true], [false]]
example := C25_slices 10 (by decide) (whereFrom (fun b : Bool => b) 0) (whereFrom_increasing _) [[false, true], [false]]

/-- The hypotheses of the theorems above are met by a stream in two chunks with onsets at rows 1 and 3. -/
example : pick 10 (whereFrom (fun (b : Bool) => b) 0) Picker.init [[false, true], [false, true, false]]
    = [(0, 10), (10, 20), (30, 20)] := by decide

/-- **C25**, what does not hold: slices need not be non-empty.  An onset at row zero gives a first slice of duration zero. -/
theorem C25_zero_length_slice : pick 10 (whereFrom (fun (b : Bool) => b) 0) Picker.init [[true, false]]
    = [(0, 0), (0, 20)] := by decide

/-- **C25**: slices after the first onset are never empty when the hop is positive. -/
theorem C25_positive_durations {α : Type} (freq : Int) (hf : 0 < freq) (p : α → Bool) (cs : List (List α))
    (hne : cs.flatten ≠ []) (h0 : ∀ x, cs.flatten.head? = some x → p x = false) :
    ∀ x ∈ pick freq (whereFrom p 0) Picker.init cs, 0 < x.2 := by
  have strict : ∀ (l : List Int), l.Pairwise (· < ·) → ∀ x ∈ between l, 0 < x.2 := by
    intro l
    induction l with
    | nil => intro _ x hx; simp [between] at hx
    | cons a t ih =>
      intro h x hx
      cases t with
      | nil => simp [between] at hx
      | cons b t =>
        obtain ⟨h1, h2⟩ := List.pairwise_cons.1 h
        simp only [between, List.mem_cons] at hx
        rcases hx with rfl | hx
        · have := h1 b (by simp); show 0 < b - a; omega
        · exact ih h2 x hx
  rw [C25_slices freq (by omega) _ (whereFrom_increasing p), absOnsets_whereFrom]
  apply strict
  have hlen : 0 < cs.flatten.length := List.length_pos_iff.2 hne
  rw [List.pairwise_append]
  refine ⟨?_, by simp, ?_⟩
  · rw [List.pairwise_cons]
    refine ⟨?_, ?_⟩
    · intro x hx
      obtain ⟨i, hi, rfl⟩ := List.mem_map.1 hx
      obtain ⟨j, hj, e, hp⟩ := (whereFrom_mem p _ 0 i).1 hi
      have : j ≠ 0 := by
        rintro rfl
        have := h0 cs.flatten[0] (by rw [List.head?_eq_getElem?, List.getElem?_eq_getElem hj])
        simp [hp] at this
      exact Int.mul_pos (by omega) hf
    · rw [List.pairwise_map]
      refine (whereFrom_sorted p _ 0).imp ?_
      intro a b hab
      exact Int.mul_lt_mul_of_pos_right (by omega) hf
  · intro a ha b hb
    simp only [List.mem_singleton] at hb
    subst hb
    rcases List.mem_cons.1 ha with rfl | ha
    · exact Int.mul_pos (by omega) hf
    · obtain ⟨i, hi, rfl⟩ := List.mem_map.1 ha
      obtain ⟨j, hj, e, hp⟩ := (whereFrom_mem p _ 0 i).1 hi
      exact Int.mul_lt_mul_of_pos_right (by omega) hf

example := C25_positive_durations 10 (by decide) (fun b : Bool => b) [[false, true], [false]] (by decide) (by simp)

/-- **C25**, what the moving average picker does not do: the threshold is tested one column after the peak, so an isolated peak
(a detection function that is zero except in one place) is never an onset, whatever the window, whatever its height. -/
theorem C25_isolated_peak_missed (n c k : Nat) (v : Rat) (hv : 0 ≤ v) :
    movingAverageOnset mean c ((List.replicate n (0 : Rat)).set k v) = false := by
  have hsum : ∀ (n k : Nat) (v : Rat), 0 ≤ v → 0 ≤ ((List.replicate n (0 : Rat)).set k v).sum := by
    intro n
    induction n with
    | zero => intro k v _; simp
    | succ n ih =>
      intro k v h
      cases k with
      | zero => simpa [List.replicate_succ] using h
      | succ k => simpa [List.replicate_succ] using ih k v h
  have hmean : 0 ≤ mean ((List.replicate n (0 : Rat)).set k v) * (5 / 4) := by
    unfold mean
    have := hsum n k v hv
    exact mul_nonneg (div_nonneg this (by positivity)) (by norm_num)
  have hget : ∀ j, j ≠ k → ((List.replicate n (0 : Rat)).set k v).getD j 0 = 0 := by
    intro j hj
    rw [List.getD_eq_getElem?_getD, List.getElem?_set_ne (Ne.symm hj)]
    by_cases h : j < n
    · simp [List.getElem?_replicate, h]
    · simp [List.getElem?_replicate, h]
  have hnn : ∀ j, 0 ≤ ((List.replicate n (0 : Rat)).set k v).getD j 0 := by
    intro j
    by_cases hj : j = k
    · subst hj
      by_cases h : j < n
      · simp [List.getD_eq_getElem?_getD, h, hv]
      · simp [List.getD_eq_getElem?_getD, h]
    · rw [hget j hj]
  unfold movingAverageOnset
  by_cases hk : c = k
  · -- the spike is in the tested column: it is not preceded by anything higher
    have h1 : ((List.replicate n (0 : Rat)).set k v).getD (c - 1) 0 ≤
        ((List.replicate n (0 : Rat)).set k v).getD c 0 := by
      by_cases h : c - 1 = k
      · have : c - 1 = c := by omega
        rw [this]
      · rw [hget _ h]; exact hnn c
    have : ¬ (((List.replicate n (0 : Rat)).set k v).getD c 0 -
        ((List.replicate n (0 : Rat)).set k v).getD (c - 1) 0 < 0) := by linarith
    simp only [this, decide_false, Bool.and_false, Bool.false_and]
  · have h1 := hget c hk
    have : ¬ (((List.replicate n (0 : Rat)).set k v).getD c 0 >
        mean ((List.replicate n (0 : Rat)).set k v) * (5 / 4)) := by rw [h1]; exact not_lt.2 hmean
    simp only [this, decide_false, Bool.and_false]

example := C25_isolated_peak_missed 20 5 5 (9 / 10) (by norm_num)

/-- A peak with a shoulder is found (so the picker is not constantly false). -/
example : movingAverageOnset mean 2 [0, 9, 8, 0] = true := by
  simp [movingAverageOnset, mean]; norm_num

/-! ## Detection functions -/

/-- **C25**: the spectral flux node computes nothing: whatever rows arrive first, it fails (the one number per row is labelled with the two
dimensions of the rows), with IndexError if no rows arrive. -/
theorem C25_flux_refused {α β : Type} (unit : α → α) (dist : α → α → β) (memory : Option α) (c : List α) (cs : List (List α)) :
    fluxStream unit dist memory (c :: cs) = .error (if c = [] then .indexError else .valueError) := by
  cases c with
  | nil => rfl
  | cons x xs =>
    have hlast : (x :: xs).getLast? = some ((x :: xs).getLast (by simp)) := List.getLast?_eq_some_getLast (by simp)
    simp [fluxStream, fluxEnqueue, hlast, fluxProcess, attach]

example : fluxStream (β := Nat) id (fun a b => a - b) none [[1, 2], [3]] = .error .valueError :=
  C25_flux_refused id (fun a b => a - b) none [1, 2] [[3]]

theorem absR_idem (x : Rat) : absR (absR x) = absR x := by
  unfold absR
  by_cases h : x < 0
  · have : ¬ (-x < 0) := by linarith
    simp [h, this]
  · simp [h]

theorem absRow_idem (r : List Rat) : absRow (absRow r) = absRow r := by
  simp [absRow, Function.comp_def, absR_idem]

theorem mot_stream_rest (cs : List (List (List Rat))) (r : List Rat) (hne : ∀ c ∈ cs, c ≠ []) :
    ∃ out, motStream (some [r]) false cs = .ok out ∧
      out.flatten = List.zipWith mot ((r :: cs.flatten).map absRow) (cs.flatten.map absRow) := by
  induction cs generalizing r with
  | nil => exact ⟨[], rfl, by simp⟩
  | cons c cs ih =>
    have hc : c ≠ [] := hne c (by simp)
    have hlast : (r :: c).getLast? = some ((r :: c).getLast (by simp)) := List.getLast?_eq_some_getLast (by simp)
    obtain ⟨out, e, ho⟩ := ih ((r :: c).getLast (by simp)) (fun c h => hne c (by simp [h]))
    refine ⟨_, by
      unfold motStream
      simp only [List.cons_append, List.nil_append, List.head?_cons, hlast, e]
      rfl, ?_⟩
    have key : ∀ (u : List Rat) (l m : List (List Rat)),
        List.zipWith mot ((u :: (l ++ m)).map absRow) ((l ++ m).map absRow)
          = List.zipWith mot ((u :: l).map absRow) (l.map absRow)
            ++ List.zipWith mot (((u :: l).getLast (by simp) :: m).map absRow) (m.map absRow) := by
      intro u l
      induction l generalizing u with
      | nil => intro m; simp
      | cons a l ihl =>
        intro m
        have := ihl a m
        simp only [List.map_cons, List.cons_append, List.zipWith_cons_cons, List.getLast_cons_cons] at this ⊢
        rw [this]
    simp only [List.flatten_cons, ho, key]
    simp [motProcess]

/-- **C25**: the measure of transience does not depend on the chunking either. -/
theorem C25_mot (cs : List (List (List Rat))) (hne : ∀ c ∈ cs, c ≠ []) (r : List Rat) (hr : cs.flatten.head? = some r) :
    ∃ out, motStream none true cs = .ok out ∧
      out.flatten = List.zipWith mot ((r :: cs.flatten).map absRow) (cs.flatten.map absRow) := by
  cases cs with
  | nil => simp at hr
  | cons c cs =>
    have hc : c ≠ [] := hne c (by simp)
    obtain ⟨x, xs, rfl⟩ := List.exists_cons_of_ne_nil hc
    simp only [List.flatten_cons, List.cons_append, List.head?_cons, Option.some.injEq] at hr
    subst hr
    have hlast : (x :: xs).getLast? = some ((x :: xs).getLast (by simp)) := List.getLast?_eq_some_getLast (by simp)
    obtain ⟨out, e, ho⟩ := mot_stream_rest cs ((x :: xs).getLast (by simp)) (fun c h => hne c (by simp [h]))
    refine ⟨_, by
      unfold motStream
      simp only [List.head?_cons, hlast, e]
      rfl, ?_⟩
    have key : ∀ (u : List Rat) (l m : List (List Rat)),
        List.zipWith mot ((u :: (l ++ m)).map absRow) ((l ++ m).map absRow)
          = List.zipWith mot ((u :: l).map absRow) (l.map absRow)
            ++ List.zipWith mot (((u :: l).getLast (by simp) :: m).map absRow) (m.map absRow) := by
      intro u l
      induction l generalizing u with
      | nil => intro m; simp
      | cons a l ihl =>
        intro m
        have := ihl a m
        simp only [List.map_cons, List.cons_append, List.zipWith_cons_cons, List.getLast_cons_cons] at this ⊢
        rw [this]
    have := key x (x :: xs) cs.flatten
    simp only [List.flatten_cons, ho, this]
    simp [motProcess, absRow_idem, Function.comp_def]

example := C25_mot [[[0, 0, 1, 1], [0, 0, 3, 1]], [[0, 0, 1, 5]]] (by simp) [0, 0, 1, 1] rfl

/-- Scaling a row. -/
def scale (g : Rat) (row : List Rat) : List Rat := row.map (g * ·)

theorem magnitude_scale (g : Rat) (row : List Rat) : magnitude (scale g row) = (magnitude row).map (g ^ 2 * ·) := by
  simp [magnitude, scale, Function.comp_def, mul_pow]

theorem sum_scale (g : Rat) (l : List Rat) : (l.map (g * ·)).sum = g * l.sum := by
  induction l with
  | nil => simp
  | cons x xs ih => simp [ih, mul_add]

theorem weighted_scale (g : Rat) (l : List Rat) : ∀ k, weighted k (l.map (g * ·)) = g * weighted k l := by
  induction l with
  | nil => intro k; simp [weighted]
  | cons x xs ih => intro k; simp only [List.map_cons, weighted, ih]; ring

/-- **C25**: the measure of transience does not depend on the recording level, as long as neither row is silent. -/
theorem C25_mot_gain_invariant (g : Rat) (hg : g ≠ 0) (prev cur : List Rat)
    (h1 : weighted 3 (magnitude prev) ≠ 0) (h2 : weighted 3 (magnitude cur) ≠ 0) (h3 : (magnitude cur).sum ≠ 0) :
    mot (scale g prev) (scale g cur) = mot prev cur := by
  have g2 : g ^ 2 ≠ 0 := pow_ne_zero 2 hg
  have e1 : hfc (scale g prev) = g ^ 2 * hfc prev := by
    simp [hfc, magnitude_scale, weighted_scale, h1, hg]
  have e2 : hfc (scale g cur) = g ^ 2 * hfc cur := by
    simp [hfc, magnitude_scale, weighted_scale, h2, hg]
  have e3 : energy (scale g cur) = g ^ 2 * energy cur := by
    simp [energy, magnitude_scale, sum_scale, h3, hg]
  unfold mot
  rw [e1, e2, e3, mul_div_mul_left _ _ g2, mul_div_mul_left _ _ g2]

/-- The hypotheses are met by ordinary rows. -/
example : mot (scale 2 [0, 0, 1, 1]) (scale 2 [0, 0, 3, 1]) = mot [0, 0, 1, 1] [0, 0, 3, 1] :=
  C25_mot_gain_invariant 2 (by norm_num) _ _ (by norm_num [weighted, magnitude]) (by norm_num [weighted, magnitude])
    (by norm_num [magnitude])


/-! ### the detection functions, spelled out -/

/-- **C25, the moving-average rule**: a row counts as an onset exactly when the detection function rises strictly into column
`c − 1`, falls strictly into column `c`, and at column `c` exceeds one and a quarter times the aggregate of the row. -/
theorem C25_moving_average_rule (agg : List Rat → Rat) (c : Nat) (row : List Rat) (h2 : 2 ≤ c) (hc : c < row.length) :
    movingAverageOnset agg c row = true ↔
      row[c - 2] < row[c - 1] ∧ row[c] < row[c - 1] ∧ agg row * (5 / 4) < row[c] := by
  have e0 : row.getD c 0 = row[c] := by simp [List.getD_eq_getElem?_getD, hc]
  have e1 : row.getD (c - 1) 0 = row[c - 1] := by
    have : c - 1 < row.length := by omega
    simp [List.getD_eq_getElem?_getD, this]
  have e2 : row.getD (c - 2) 0 = row[c - 2] := by
    have : c - 2 < row.length := by omega
    simp [List.getD_eq_getElem?_getD, this]
  simp only [movingAverageOnset, e0, e1, e2, Bool.and_eq_true, decide_eq_true_eq, gt_iff_lt, sub_pos, sub_neg, and_assoc]

example := C25_moving_average_rule List.sum 2 [0, 9, 8, 0] (by decide) (by decide)

/-- Energy of a row of coefficients without its two lowest bins, by definition. -/
def energySpec (row : List Rat) : Rat := ∑ i ∈ Finset.range row.length, if 2 ≤ i then row.getD i 0 ^ 2 else 0

/-- High frequency content: each squared coefficient weighted by its (one-based) bin number. -/
def hfcSpec (row : List Rat) : Rat :=
  ∑ i ∈ Finset.range row.length, if 2 ≤ i then ((i : Rat) + 1) * row.getD i 0 ^ 2 else 0

/-- A zero is replaced by `1e-12`. -/
def nonzero (x : Rat) : Rat := if x = 0 then (1 : Rat) / 10 ^ 12 else x

theorem sum_eq_range (l : List Rat) : l.sum = ∑ i ∈ Finset.range l.length, l.getD i 0 := by
  induction l with
  | nil => simp
  | cons x xs ih => rw [List.length_cons, Finset.sum_range_succ', List.sum_cons, ih]; simp [add_comm]

theorem weighted_eq_range (l : List Rat) : ∀ k, weighted k l = ∑ i ∈ Finset.range l.length, ((i : Rat) + k) * l.getD i 0 := by
  induction l with
  | nil => simp [weighted]
  | cons x xs ih =>
    intro k
    rw [List.length_cons, Finset.sum_range_succ', weighted, ih]
    simp only [List.getD_cons_succ, List.getD_cons_zero]
    push_cast
    have : ∀ i : Nat, ((i : Rat) + (k + 1)) = (i : Rat) + 1 + k := fun i => by ring
    simp only [this]; ring

theorem energy_spec (row : List Rat) : energy row = nonzero (energySpec row) := by
  have : (magnitude row).sum = energySpec row := by
    match row with
    | [] => simp [magnitude, energySpec]
    | [x] => simp [magnitude, energySpec]
    | x :: y :: t =>
      unfold energySpec
      rw [sum_eq_range, List.length_cons, List.length_cons, Finset.sum_range_succ', Finset.sum_range_succ']
      simp [magnitude, List.getD_eq_getElem?_getD]
      apply Finset.sum_congr rfl
      intro i hi
      simp at hi
      simp [hi]
  unfold energy nonzero
  simp only [this]
  norm_num

theorem hfc_spec (row : List Rat) : hfc row = nonzero (hfcSpec row) := by
  have : weighted 3 (magnitude row) = hfcSpec row := by
    match row with
    | [] => simp [magnitude, hfcSpec, weighted]
    | [x] => simp [magnitude, hfcSpec, weighted]
    | x :: y :: t =>
      unfold hfcSpec
      rw [weighted_eq_range, List.length_cons, List.length_cons, Finset.sum_range_succ', Finset.sum_range_succ']
      simp [magnitude, List.getD_eq_getElem?_getD]
      apply Finset.sum_congr rfl
      intro i hi
      simp at hi
      simp [hi]; left; ring
  unfold hfc nonzero
  simp only [this]
  norm_num

/-- **C25, the measure of transience**: each output is `(hfc_t / hfc_{t−1}) · (hfc_t / energy_t)`, with `energy` the sum of the
squared coefficients from the third bin on, `hfc` the same weighted by bin number, and zeros replaced by `1e-12`. -/
theorem C25_mot_value (prev cur : List Rat) :
    mot prev cur = nonzero (hfcSpec cur) / nonzero (hfcSpec prev) * (nonzero (hfcSpec cur) / nonzero (energySpec cur)) := by
  rw [mot, hfc_spec, hfc_spec, energy_spec]

example : hfcSpec [5, 5, 2, 3] = 48 ∧ energySpec [5, 5, 2, 3] = 13 := by
  constructor <;> simp [hfcSpec, energySpec, Finset.sum_range_succ] <;> norm_num

end Zounds.Onset
