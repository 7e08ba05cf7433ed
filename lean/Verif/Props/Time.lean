import Verif.Lemmas.Time
/-!
# Properties C04 - C09: time slices, time dimensions and sample rates

Specification vocabulary: an interval of instants (picoseconds), the extent of
a sample, and what it means for two intervals to overlap.
-/

namespace Zounds.Props
open Zounds Zounds.Time

/-- Instants of the half-open interval `[a, b)`. -/
def Within (a b t : Int) : Prop := a ≤ t ∧ t < b

/-- Two half-open intervals share an instant. -/
def Overlap (a b c d : Int) : Prop := ∃ t, Within a b t ∧ Within c d t

theorem overlap_iff (a b c d : Int) : Overlap a b c d ↔ max a c < min b d := by
  constructor
  · rintro ⟨t, h1, h2⟩; unfold Within at *; omega
  · intro h; exact ⟨max a c, by unfold Within; omega, by unfold Within; omega⟩

/-- The elements of `arr` at the indices satisfying `p`, in order. -/
def pick {α : Type u} (arr : List α) (p : Nat → Prop) [DecidablePred p] : List α :=
  (arr.zipIdx.filter (fun x => decide (p x.2))).map Prod.fst

/-! ## C04 -/

/-- **C04.** Slicing by `TimeSlice(start=s, duration=u)` returns exactly the
samples `k` whose extent `[k f, k f + d)` reaches past `s` and whose start lies
before the end of the slice by more than 1/200 of a period (the rounding to two
decimals of the code), in order. -/
theorem C04_timeslice_exact {α : Type u} (arr : List α) (td : Dim) (s u : Int)
    (hf : 0 < td.frequency) (hs : 0 ≤ s) (hu : 0 ≤ u) :
    getTimeSlice arr td s (some u) =
      pick arr (fun k => s < k * td.frequency + td.duration ∧
        td.frequency < 200 * ((s + u) - k * td.frequency)) := by
  unfold getTimeSlice Dim.intSlice pick
  simp only
  refine pySlice_eq_filter arr _ _ (Int.le_max_left _ _) ?_
    (fun k => s < k * td.frequency + td.duration ∧
        td.frequency < 200 * ((s + u) - k * td.frequency)) ?_
  · have := (stop_iff (s + u) td.frequency (-1) hf).2 (by nlinarith)
    omega
  · intro k _
    rw [stop_iff _ _ _ hf, start_le_iff _ _ _ _ hf (by omega)]

example := C04_timeslice_exact [10, 20, 30, 40] ⟨5, 8, 0⟩ 7 10 (by decide) (by decide) (by decide)

/-- **C04**, soundness: every sample returned for a slice of positive length
really overlaps the slice. -/
theorem C04_only_overlapping (td : Dim) (s u : Int) (k : Nat)
    (hf : 0 < td.frequency) (hd : td.frequency ≤ td.duration) (hu : 0 < u)
    (h : s < k * td.frequency + td.duration ∧
        td.frequency < 200 * ((s + u) - k * td.frequency)) :
    Overlap (k * td.frequency) (k * td.frequency + td.duration) s (s + u) := by
  rw [overlap_iff]; omega

example := C04_only_overlapping ⟨5, 8, 0⟩ 7 10 2 (by decide) (by decide) (by decide) (by decide)

/-- **C04**, completeness: a sample is left out only if it does not overlap the
slice, or the slice ends within the first 1/200 of its period. -/
theorem C04_all_overlapping (td : Dim) (s u : Int) (k : Nat)
    (hov : Overlap (k * td.frequency) (k * td.frequency + td.duration) s (s + u))
    (hend : td.frequency < 200 * ((s + u) - k * td.frequency)) :
    s < k * td.frequency + td.duration ∧
        td.frequency < 200 * ((s + u) - k * td.frequency) := by
  rw [overlap_iff] at hov; exact ⟨by omega, hend⟩

example := C04_all_overlapping ⟨5, 8, 0⟩ 7 10 2 ⟨12, by unfold Within; decide, by unfold Within; decide⟩ (by decide)

/-- **C04**, open-ended slices run to the end of the array. -/
theorem C04_open_ended {α : Type u} (arr : List α) (td : Dim) (s : Int)
    (hf : 0 < td.frequency) (hd : td.frequency ≤ td.duration) :
    getTimeSlice arr td s none =
      pick arr (fun k => s < k * td.frequency + td.duration) := by
  unfold getTimeSlice Dim.intSlice pick
  simp only
  have hend : ∀ k : Int, k < arr.length → td.frequency <
      200 * (Dim.end_ { td with size := arr.length } - k * td.frequency) := by
    intro k hk
    simp only [Dim.end_]
    nlinarith
  refine pySlice_eq_filter arr _ _ (Int.le_max_left _ _) ?_
    (fun k => s < k * td.frequency + td.duration) ?_
  · have := (stop_iff (Dim.end_ { td with size := arr.length }) td.frequency (-1) hf).2
      (hend (-1) (by omega))
    omega
  · intro k hk
    rw [stop_iff _ _ _ hf, start_le_iff _ _ _ _ hf (by omega)]
    have := hend k (by omega)
    simp only [Dim.end_] at this ⊢
    exact ⟨fun h => ⟨h, this⟩, fun h => h.1⟩

example := C04_open_ended [10, 20, 30, 40] ⟨5, 8, 0⟩ 7 (by decide) (by decide)

/-- **C04**, consecutive slices that meet on sample boundaries partition the
(non-overlapping) samples: slicing `[0, k f)` and `[k f, n f)` splits the array. -/
theorem C04_tiles {α : Type u} (arr : List α) (f : Int) (hf : 0 < f) (k : Nat)
    (hk : k ≤ arr.length) :
    getTimeSlice arr ⟨f, f, 0⟩ 0 (some (k * f)) ++
      getTimeSlice arr ⟨f, f, 0⟩ (k * f) (some ((arr.length - k) * f)) = arr := by
  have h1 : getTimeSlice arr ⟨f, f, 0⟩ 0 (some (k * f)) = arr.take k := by
    unfold getTimeSlice Dim.intSlice
    simp only [Int.sub_self, Int.zero_sub, Int.neg_zero, Int.zero_ediv, Int.zero_add,
      Int.max_self]
    have e : 100 * ((k : Int) * f) = (100 * k) * f := by ring
    rw [e, round_mul _ _ hf]
    have : ceilDiv (100 * (k : Int)) 100 = k := by unfold ceilDiv; omega
    rw [this, pySlice_toNat _ _ _ (by omega) (by omega)]
    simp
  have h2 : getTimeSlice arr ⟨f, f, 0⟩ (k * f) (some ((arr.length - k) * f)) = arr.drop k := by
    unfold getTimeSlice Dim.intSlice
    simp only [Int.sub_self, Int.sub_zero]
    rw [Int.mul_ediv_cancel _ (by omega)]
    have e : 100 * ((k : Int) * f + (arr.length - k) * f) = (100 * arr.length) * f := by ring
    rw [e, round_mul _ _ hf]
    have : ceilDiv (100 * (arr.length : Int)) 100 = arr.length := by unfold ceilDiv; omega
    rw [this, pySlice_toNat _ _ _ (by omega) (by omega)]
    simp
  rw [h1, h2, List.take_append_drop]

example := C04_tiles [10, 20, 30, 40] 5 (by decide) 3 (by decide)

-- Non-vacuity: one sample per second, two seconds long each; slice [3s, 5s).
example : getTimeSlice [0,1,2,3,4,5,6,7] ⟨10^12, 2*10^12, 0⟩ (3*10^12) (some (2*10^12)) = [2,3,4] := by
  decide

/-! ## C05 -/

/-- The instant a (possibly missing, possibly negative) bound stands for. -/
def instant (endOfArray : Int) (default : Int) : Option Int → Int
  | none => default
  | some x => if x < 0 then endOfArray + x else x

/-- **C05 is false of the code**: on a ten second array, `ts[-20s : -15s]` denotes
an interval before the array begins, yet five samples come back. -/
theorem C05_negative_bounds_fails :
    getPySlice [0,1,2,3,4,5,6,7,8,9] ⟨10^12, 10^12, 0⟩ (some (-20*10^12)) (some (-15*10^12))
      = [0,1,2,3,4] ∧
    ∀ k : Nat, ¬ Overlap (k * 10^12) (k * 10^12 + 10^12)
      (instant (10*10^12) 0 (some (-20*10^12))) (instant (10*10^12) (10*10^12) (some (-15*10^12))) := by
  refine ⟨by decide, ?_⟩
  intro k h
  rw [overlap_iff] at h
  simp only [instant] at h
  norm_num at h
  omega

/-- **C05, the part that holds**: whenever the resolved stop is not negative
(so in particular whenever `-len ≤ b`), slicing by times returns exactly the
samples that overlap the interval between the two instants (same 1/200 period
tolerance as C04).  Missing: resolved stops before the start of the array. -/
theorem C05_python_slice {α : Type u} (arr : List α) (td : Dim) (a b : Option Int)
    (hf : 0 < td.frequency) (hd : td.frequency ≤ td.duration)
    (hstop : 0 ≤ instant (arr.length * td.frequency + (td.duration - td.frequency))
      (arr.length * td.frequency + (td.duration - td.frequency)) b) :
    let e := arr.length * td.frequency + (td.duration - td.frequency)
    getPySlice arr td a b =
      pick arr (fun k => instant e 0 a < k * td.frequency + td.duration ∧
        td.frequency < 200 * (instant e e b - k * td.frequency)) := by
  intro e
  have hra : (Dim.resolve { td with size := arr.length } a b).1 = instant e 0 a := by
    unfold Dim.resolve instant
    cases a <;> simp [Dim.end_, e]
  have hrb : (Dim.resolve { td with size := arr.length } a b).2 = instant e e b := by
    have he0 : 0 ≤ e := by
      have : 0 ≤ (arr.length : Int) * td.frequency := by positivity
      omega
    cases b with
    | none =>
      show (if e < 0 then e + e else e) = e
      rw [if_neg (by omega)]
    | some x => rfl
  have hstop' : 0 ≤ instant e e b := hstop
  unfold getPySlice Dim.intSliceOfPySlice Dim.intSlice pick
  simp only
  rw [hra, hrb]
  have es : instant e 0 a + (instant e e b - instant e 0 a) = instant e e b := by omega
  rw [es]
  refine pySlice_eq_filter arr _ _ (Int.le_max_left _ _) ?_
    (fun k => instant e 0 a < k * td.frequency + td.duration ∧
        td.frequency < 200 * (instant e e b - k * td.frequency)) ?_
  · have := (stop_iff (instant e e b) td.frequency (-1) hf).2 (by nlinarith)
    omega
  · intro k _
    rw [stop_iff _ _ _ hf, start_le_iff _ _ _ _ hf (by omega)]

example := C05_python_slice [10, 20, 30, 40] ⟨5, 8, 0⟩ (some 5) (some (-3)) (by decide) (by decide) (by decide)

-- Non-vacuity: the last three seconds but one.
example : getPySlice [0,1,2,3,4,5,6,7,8,9] ⟨10^12, 10^12, 0⟩ (some (-3*10^12)) (some (-1*10^12))
      = [7,8] := by decide

/-! ## C06 -/

/-- Instants of a slice with a duration. -/
def sliceStart (t : TimeSlice) : Int := t.start.toPs
def sliceEnd (t : TimeSlice) (d : Dur) : Int := t.start.toPs + d.toPs

/-- **C06**, intersection: the duration of `a & b` is the length of the overlap of
the two intervals - the number of shared picosecond instants. -/
theorem C06_and_duration (a b : TimeSlice) (da db : Dur) (ha : a.duration = some da)
    (hb : b.duration = some db) :
    ∃ r d, a.and b = .ok r ∧ r.duration = some d ∧
      d.toPs = max 0 (min (sliceEnd a da) (sliceEnd b db) - max (sliceStart a) (sliceStart b)) ∧
      (0 < d.toPs ↔ Overlap (sliceStart a) (sliceEnd a da) (sliceStart b) (sliceEnd b db)) := by
  refine ⟨TimeSlice.mk' (some (Dur.max ⟨0, .ps⟩
      ((Dur.min (a.start.add da) (b.start.add db)).sub (Dur.max a.start b.start)))) none, _, ?_, rfl, ?_, ?_⟩
  · simp [TimeSlice.and, TimeSlice.end?, ha, hb]
  · rw [max_toPs, sub_toPs, min_toPs, max_toPs, add_toPs, add_toPs]
    simp [sliceEnd, sliceStart, Dur.toPs]
  · rw [overlap_iff, max_toPs, sub_toPs, min_toPs, max_toPs, add_toPs, add_toPs]
    simp only [sliceEnd, sliceStart, Dur.toPs]
    omega

example := C06_and_duration ⟨⟨1, .s⟩, some ⟨3, .s⟩⟩ ⟨⟨2, .s⟩, some ⟨2500, .ms⟩⟩ _ _ rfl rfl

/-- **C06**, intersection is commutative as far as its duration goes. -/
theorem C06_and_comm (a b : TimeSlice) (da db : Dur) (ha : a.duration = some da)
    (hb : b.duration = some db) :
    ∃ r r', a.and b = .ok r ∧ b.and a = .ok r' ∧ r.eq r' = true := by
  obtain ⟨r, d, h1, h2, h3, _⟩ := C06_and_duration a b da db ha hb
  obtain ⟨r', d', g1, g2, g3, _⟩ := C06_and_duration b a db da hb ha
  refine ⟨r, r', h1, g1, ?_⟩
  have hs : ∀ (x y z : TimeSlice), x.and y = .ok z → z.start = ⟨0, .ps⟩ := by
    intro x y z h
    unfold TimeSlice.and at h
    split at h
    · injection h with h; rw [← h]; rfl
    · cases h
    · cases h
  unfold TimeSlice.eq
  rw [hs _ _ _ h1, hs _ _ _ g1, h2, g2]
  simp only [eq_iff, h3, g3, Bool.and_eq_true, decide_eq_true_eq, true_and]
  omega

example := C06_and_comm ⟨⟨1, .s⟩, some ⟨3, .s⟩⟩ ⟨⟨2, .s⟩, some ⟨2500, .ms⟩⟩ _ _ rfl rfl

/-- **C06 is false of the code for the start**: the intersection of `[2s,5s)` and
`[4s,6s)` should start at 4 s, but the returned slice starts at zero. -/
theorem C06_and_start_fails :
    ∃ a b r, TimeSlice.and a b = .ok r ∧
      r.start.toPs ≠ max a.start.toPs b.start.toPs := by
  refine ⟨⟨⟨2, .s⟩, some ⟨3, .s⟩⟩, ⟨⟨4, .s⟩, some ⟨2, .s⟩⟩, ⟨⟨0, .ps⟩, some ⟨1, .s⟩⟩, by decide, by decide⟩

/-- **C06**, containment: a slice is `in` another iff its interval lies strictly
inside. -/
theorem C06_contains_slice (a b : TimeSlice) (da db : Dur) (ha : a.duration = some da)
    (hb : b.duration = some db) :
    a.containsSlice b =
      .ok (decide (sliceStart a < sliceStart b ∧ sliceEnd b db < sliceEnd a da)) := by
  unfold TimeSlice.containsSlice
  rw [lt_iff]
  by_cases h : a.start.toPs < b.start.toPs
  · simp [h, TimeSlice.end?, ha, hb, lt_iff, add_toPs, sliceStart, sliceEnd]
  · simp [h, sliceStart]

example := C06_contains_slice ⟨⟨1, .s⟩, some ⟨3, .s⟩⟩ ⟨⟨2, .s⟩, some ⟨500, .ms⟩⟩ _ _ rfl rfl

/-- **C06**, an instant is `in` a slice iff strictly between its ends. -/
theorem C06_contains_time (a : TimeSlice) (t da : Dur) (ha : a.duration = some da) :
    a.containsTime t = .ok (decide (sliceStart a < t.toPs ∧ t.toPs < sliceEnd a da)) := by
  unfold TimeSlice.containsTime
  rw [lt_iff]
  by_cases h : a.start.toPs < t.toPs
  · simp [h, TimeSlice.end?, ha, lt_iff, add_toPs, sliceStart, sliceEnd]
  · simp [h, sliceStart]

example := C06_contains_time ⟨⟨1, .s⟩, some ⟨3, .s⟩⟩ ⟨2500, .ms⟩ _ rfl

/-- **C06**, equality is equality of the instants whatever the units. -/
theorem C06_eq_iff (a b : TimeSlice) :
    a.eq b = true ↔ a.start.toPs = b.start.toPs ∧
      a.duration.map Dur.toPs = b.duration.map Dur.toPs := by
  unfold TimeSlice.eq
  rw [eq_iff]
  cases a.duration <;> cases b.duration <;> simp [eq_iff]

/-- **C06**, equal slices have equal hashes (and the hashed key separates unequal
ones). -/
theorem C06_eq_hash (a b : TimeSlice) : a.eq b = true ↔ a.hashKey = b.hashKey := by
  rw [C06_eq_iff]; unfold TimeSlice.hashKey; simp

/-- **C06**, equality is an equivalence relation. -/
theorem C06_eq_equivalence :
    (∀ a : TimeSlice, a.eq a = true) ∧ (∀ a b : TimeSlice, a.eq b = true → b.eq a = true) ∧
    (∀ a b c : TimeSlice, a.eq b = true → b.eq c = true → a.eq c = true) := by
  refine ⟨fun a => ?_, fun a b => ?_, fun a b c => ?_⟩ <;> simp only [C06_eq_iff]
  · exact ⟨trivial, trivial⟩
  · exact fun h => ⟨h.1.symm, h.2.symm⟩
  · exact fun h g => ⟨h.1.trans g.1, h.2.trans g.2⟩

/-- **C06**, adding a time shifts both ends and keeps the duration. -/
theorem C06_add_shifts (a : TimeSlice) (t da : Dur) (ha : a.duration = some da) :
    (a.add t).duration = some da ∧ sliceStart (a.add t) = sliceStart a + t.toPs ∧
    sliceEnd (a.add t) da = sliceEnd a da + t.toPs := by
  unfold TimeSlice.add sliceStart sliceEnd
  rw [mk'_start, add_toPs]
  refine ⟨by simp [TimeSlice.mk', ha], rfl, by omega⟩

example := C06_add_shifts ⟨⟨1, .s⟩, some ⟨3, .s⟩⟩ ⟨2500, .ms⟩ _ rfl

/-- **C06**, slices order by their start. -/
theorem C06_lt_iff (a b : TimeSlice) : a.lt b = true ↔ sliceStart a < sliceStart b := by
  simp [TimeSlice.lt, lt_iff, sliceStart]

theorem npSort_insert_sorted (x : Int) (l : List Int) (h : l.Pairwise (· ≤ ·)) :
    (insertSorted x l).Pairwise (· ≤ ·) ∧ (insertSorted x l).Perm (x :: l) := by
  induction l with
  | nil => simp [insertSorted]
  | cons y ys ih =>
    unfold insertSorted
    split
    · rename_i hxy
      refine ⟨?_, List.Perm.refl _⟩
      rw [List.pairwise_cons]
      refine ⟨?_, h⟩
      intro z hz
      rcases List.mem_cons.1 hz with rfl | hz
      · exact hxy
      · exact Int.le_trans hxy ((List.pairwise_cons.1 h).1 z hz)
    · rename_i hxy
      obtain ⟨h1, h2⟩ := List.pairwise_cons.1 h
      obtain ⟨g1, g2⟩ := ih h2
      refine ⟨?_, (g2.cons y).trans (List.Perm.swap x y ys)⟩
      rw [List.pairwise_cons]
      refine ⟨?_, g1⟩
      intro z hz
      rcases List.mem_cons.1 (g2.mem_iff.1 hz) with rfl | hz
      · omega
      · exact h1 z hz

theorem npSort_spec (l : List Int) : (npSort l).Pairwise (· ≤ ·) ∧ (npSort l).Perm l := by
  induction l with
  | nil => simp [npSort]
  | cons x xs ih =>
    have := npSort_insert_sorted x (npSort xs) ih.1
    exact ⟨this.1, this.2.trans (ih.2.cons x)⟩

theorem npDiff_length (l : List Int) : (npDiff l).length = l.length - 1 := by
  induction l with
  | nil => rfl
  | cons a t ih =>
    cases t with
    | nil => rfl
    | cons b t => simp [npDiff, ih]

theorem npDiff_get (l : List Int) : ∀ i (h : i + 1 < l.length),
    (npDiff l)[i]? = some (l[i+1] - l[i]) := by
  induction l with
  | nil => intro i h; simp at h
  | cons a t ih =>
    intro i h
    cases t with
    | nil => simp at h
    | cons b t =>
      cases i with
      | zero => simp [npDiff]
      | succ i =>
        have := ih i (by simpa using h)
        simp only [npDiff, List.getElem?_cons_succ, List.getElem_cons_succ] at this ⊢
        exact this

/-- **C06**, `TimeSlice.slices(timestamps)`: the slices between consecutive
timestamps in sorted order.  Each slice starts where the previous one ended,
none has negative duration, the first starts at a smallest timestamp and the
last ends at a largest. -/
theorem C06_slices_tile (ts : List Int) :
    (slices ts).length = ts.length - 1 ∧
    (∀ i (h : i < (slices ts).length), 0 ≤ (slices ts)[i].2 ∧
      (slices ts)[i].1 ∈ ts ∧ (slices ts)[i].1 + (slices ts)[i].2 ∈ ts) ∧
    (∀ i (h : i + 1 < (slices ts).length),
      (slices ts)[i].1 + (slices ts)[i].2 = (slices ts)[i+1].1) ∧
    (∀ (h : 0 < (slices ts).length), (∀ t ∈ ts, (slices ts)[0].1 ≤ t) ∧
      ∀ t ∈ ts, t ≤ (slices ts)[(slices ts).length - 1].1 + (slices ts)[(slices ts).length - 1].2) := by
  obtain ⟨hp, hperm⟩ := npSort_spec ts
  have hl : (npSort ts).length = ts.length := hperm.length_eq
  have hlen : (slices ts).length = ts.length - 1 := by
    simp [slices, npDiff_length, hl]
  have hget : ∀ i (h : i < (slices ts).length),
      ∃ (h1 : i < (npSort ts).length) (h2 : i + 1 < (npSort ts).length),
      (slices ts)[i] = ((npSort ts)[i], (npSort ts)[i+1] - (npSort ts)[i]) := by
    intro i h
    have h2 : i + 1 < (npSort ts).length := by omega
    refine ⟨by omega, h2, ?_⟩
    have := npDiff_get (npSort ts) i h2
    simp only [slices, List.getElem_zip]
    rw [(List.getElem_eq_iff _).2 this]
  refine ⟨hlen, ?_, ?_, ?_⟩
  · intro i h
    obtain ⟨h1, h2, e⟩ := hget i h
    rw [e]
    have hle : (npSort ts)[i] ≤ (npSort ts)[i+1] :=
      (List.pairwise_iff_getElem.1 hp) i (i+1) h1 h2 (by omega)
    refine ⟨by simp only; omega, hperm.mem_iff.1 (List.getElem_mem h1), ?_⟩
    have : (npSort ts)[i] + ((npSort ts)[i+1] - (npSort ts)[i]) = (npSort ts)[i+1] := by omega
    simp only [this]
    exact hperm.mem_iff.1 (List.getElem_mem h2)
  · intro i h
    obtain ⟨_, _, e⟩ := hget i (by omega)
    obtain ⟨_, _, e'⟩ := hget (i+1) h
    rw [e, e']; simp only; omega
  · intro h
    constructor
    · intro t ht
      obtain ⟨h1, _, e⟩ := hget 0 h
      rw [e]
      obtain ⟨j, hj, rfl⟩ := List.getElem_of_mem (hperm.mem_iff.2 ht)
      rcases Nat.eq_zero_or_pos j with rfl | hj0
      · exact Int.le_refl _
      · exact (List.pairwise_iff_getElem.1 hp) 0 j h1 hj hj0
    · intro t ht
      obtain ⟨_, h2, e⟩ := hget ((slices ts).length - 1) (by omega)
      rw [e]
      obtain ⟨j, hj, rfl⟩ := List.getElem_of_mem (hperm.mem_iff.2 ht)
      simp only
      rcases Nat.lt_or_ge j ((slices ts).length - 1 + 1) with hlt | hge
      · have := (List.pairwise_iff_getElem.1 hp) j _ hj h2 hlt
        omega
      · have : j = (slices ts).length - 1 + 1 := by omega
        subst this; omega

-- Non-vacuity of the C06 hypotheses.
example : TimeSlice.and ⟨⟨2, .s⟩, some ⟨3, .s⟩⟩ ⟨⟨4000, .ms⟩, some ⟨2, .s⟩⟩ =
    .ok ⟨⟨0, .ps⟩, some ⟨1000, .ms⟩⟩ := by decide
example : TimeSlice.eq ⟨⟨2, .s⟩, some ⟨3, .s⟩⟩ ⟨⟨2000, .ms⟩, some ⟨3000000, .us⟩⟩ = true := by decide
example : slices [5, 1, 3, 9] = [(1,2),(3,2),(5,4)] := by decide

/-! ## C07 -/

/-- **C07.** Every integer sample rate up to a million survives the conversion to
a whole number of picoseconds and back. -/
theorem C07_rate_roundtrip (n : Int) (h1 : 1 ≤ n) (h2 : n ≤ 1000000) :
    ∃ r, audioSampleRate n = .ok r ∧ r.samplesPerSecond = n ∧ r.duration = r.frequency := by
  have hne : ¬ n = 0 := by omega
  have hf1 : 1000000 ≤ (10 ^ 12 : Int) / n := by
    rw [Int.le_ediv_iff_mul_le (by omega)]; nlinarith
  unfold audioSampleRate SampleRate.new
  simp only []
  rw [if_neg (by omega), if_neg (by omega)]
  refine ⟨_, rfl, ?_, rfl⟩
  simp only [SampleRate.samplesPerSecond]
  have a1 := Int.ediv_mul_le (10 ^ 12 : Int) hne
  have a2 := Int.lt_ediv_add_one_mul_self (10 ^ 12 : Int) (show 0 < n by omega)
  generalize (10 ^ 12 : Int) / n = f at *
  apply Int.le_antisymm
  · rw [← Int.lt_add_one_iff, Int.ediv_lt_iff_lt_mul (by omega)]
    nlinarith
  · rw [Int.le_ediv_iff_mul_le (by omega)]; nlinarith

example := C07_rate_roundtrip 44100 (by decide) (by decide)

/-- **C07**, the bound is sharp in kind: just above a million the round trip
fails. -/
theorem C07_rate_roundtrip_bound_sharp :
    ∃ n r, 1000000 < n ∧ audioSampleRate n = .ok r ∧ r.samplesPerSecond ≠ n := by
  exact ⟨1001000, ⟨999000, 999000⟩, by decide, by decide, by decide⟩

/-- **C07**: which numbers of samples per second are refused, always with `ValueError`. -/
theorem C07_rate_refused (n : Int) :
    (audioSampleRate n = .error .valueError ↔ n ≤ 0 ∨ 10 ^ 12 < n) ∧
    ∀ e, audioSampleRate n = .error e → e = .valueError := by
  have key : (10 ^ 12 : Int) / n ≤ 0 ↔ n ≤ 0 ∨ 10 ^ 12 < n := by
    rcases lt_trichotomy n 0 with h | h | h
    · have : (10 ^ 12 : Int) / n ≤ 0 := Int.ediv_nonpos_of_nonneg_of_nonpos (by norm_num) (by omega)
      omega
    · subst h; simp
    · constructor
      · intro hq
        right
        by_contra hc
        have : 1 ≤ (10 ^ 12 : Int) / n := by rw [Int.le_ediv_iff_mul_le h]; omega
        omega
      · rintro (hc | hc)
        · omega
        · rw [Int.ediv_eq_zero_of_lt (by norm_num) hc]
  unfold audioSampleRate SampleRate.new
  simp only []
  by_cases h : (10 ^ 12 : Int) / n ≤ 0
  · rw [if_pos h]
    exact ⟨⟨fun _ => key.1 h, fun _ => rfl⟩, fun e he => by injection he with he; exact he.symm⟩
  · rw [if_neg h, if_neg h]
    refine ⟨⟨fun hc => (nomatch hc), fun hc => absurd (key.2 hc) h⟩, fun e he => (nomatch he)⟩

example : audioSampleRate 0 = .error .valueError := (C07_rate_refused 0).1.2 (Or.inl (by decide))
example : audioSampleRate 44100 = .ok ⟨22675736, 22675736⟩ := by decide

/-- **C07**, lookup: a supported rate is mapped to itself, any other number is
refused. -/
theorem C07_lookup (n : Int) :
    (n ∈ [96000, 48000, 44100, 22050, 16000, 11025] →
      ∃ r, findRate n = .ok r ∧ r.samplesPerSecond = n ∧ r ∈ supportedRates) ∧
    (n ∉ [96000, 48000, 44100, 22050, 16000, 11025] → findRate n = .error .valueError) := by
  constructor
  · intro h
    simp only [List.mem_cons, List.not_mem_nil, or_false] at h
    rcases h with rfl | rfl | rfl | rfl | rfl | rfl
    · exact ⟨⟨10416666, 10416666⟩, by decide, by decide, by decide⟩
    · exact ⟨⟨20833333, 20833333⟩, by decide, by decide, by decide⟩
    · exact ⟨⟨22675736, 22675736⟩, by decide, by decide, by decide⟩
    · exact ⟨⟨45351473, 45351473⟩, by decide, by decide, by decide⟩
    · exact ⟨⟨62500000, 62500000⟩, by decide, by decide, by decide⟩
    · exact ⟨⟨90702947, 90702947⟩, by decide, by decide, by decide⟩
  · intro h
    have hm : supportedRates.map SampleRate.samplesPerSecond =
      [96000, 48000, 44100, 22050, 16000, 11025] := by decide
    unfold findRate
    have : supportedRates.find? (fun r => r.samplesPerSecond = n) = none := by
      rw [List.find?_eq_none]
      intro r hr hn
      apply h
      rw [← hm]
      simp only [decide_eq_true_eq] at hn
      rw [← hn]
      exact List.mem_map_of_mem hr
    rw [this]

example := (C07_lookup 44100).1 (by decide)

theorem argminFirst_spec {β : Type u} (key : β → Int) (l : List β) : ∀ b : β,
    argminFirst key b l ∈ b :: l ∧ ∀ x ∈ b :: l, key (argminFirst key b l) ≤ key x := by
  induction l with
  | nil => intro b; simp [argminFirst]
  | cons y ys ih =>
    intro b
    unfold argminFirst
    split
    · rename_i h
      obtain ⟨h1, h2⟩ := ih y
      refine ⟨List.mem_cons_of_mem _ h1, ?_⟩
      intro x hx
      rcases List.mem_cons.1 hx with rfl | hx
      · have := h2 y (by simp); omega
      · exact h2 x hx
    · rename_i h
      obtain ⟨h1, h2⟩ := ih b
      refine ⟨?_, ?_⟩
      · rcases List.mem_cons.1 h1 with h1 | h1
        · rw [h1]; simp
        · exact List.mem_cons_of_mem _ (List.mem_cons_of_mem _ h1)
      · intro x hx
        rcases List.mem_cons.1 hx with rfl | hx
        · exact h2 x (by simp)
        · rcases List.mem_cons.1 hx with rfl | hx
          · have := h2 b (by simp); omega
          · exact h2 x (by simp [hx])

/-- **C07**, `nearest_audio_sample_rate` returns a supported rate at minimal
distance. -/
theorem C07_nearest (n : Int) :
    nearestRate n ∈ supportedRates ∧
    ∀ r ∈ supportedRates, ((n - (nearestRate n).samplesPerSecond).natAbs : Int)
      ≤ (n - r.samplesPerSecond).natAbs := by
  have := argminFirst_spec (fun r : SampleRate => ((n - r.samplesPerSecond).natAbs : Int))
    supportedRates.tail (supportedRates.head (by decide))
  exact this

/-! ## C08 -/

/-- **C08.** The windowing scheme of an audio sample rate describes exactly `w`
samples every `h` samples, and asking how many samples it spans on audio at that
rate gives back `(h, w)`. -/
theorem C08_scheme_roundtrip (f w h size : Int) (hf : 0 < f) (hw : 0 < w) (hh : 0 < h) :
    ∃ r, SampleRate.windowingScheme ⟨f, f⟩ w (some h) = .ok r ∧
      r.frequency = h * f ∧ r.duration = w * f ∧ r.overlap = (w - h) * f ∧
      r.discreteSamples ⟨f, f, size⟩ = (h, w) := by
  have h1 : 0 < f * h := by positivity
  have h2 : 0 < f * w := by positivity
  refine ⟨⟨f * h, f * w⟩, ?_, by ring, by ring, by simp only [SampleRate.overlap]; ring, ?_⟩
  · unfold SampleRate.windowingScheme SampleRate.new
    simp only [show ¬ h = 0 by omega, if_false]
    rw [if_neg (by omega), if_neg (by omega)]
  · unfold SampleRate.discreteSamples
    simp only [Int.sub_self, Int.sub_zero]
    rw [Int.mul_comm f h, Int.mul_comm f w, round_mul _ _ hf, round_mul _ _ hf]

example := C08_scheme_roundtrip 22675736 2048 1024 9 (by decide) (by decide) (by decide)

/-- **C08**, a missing hop means non-overlapping windows. -/
theorem C08_default_hop (f w : Int) (hf : 0 < f) (hw : 0 < w) :
    SampleRate.windowingScheme ⟨f, f⟩ w none = .ok ⟨f * w, f * w⟩ := by
  have h2 : 0 < f * w := by positivity
  unfold SampleRate.windowingScheme SampleRate.new
  simp only
  rw [if_neg (by omega), if_neg (by omega)]

example := C08_default_hop 22675736 2048 (by decide) (by decide)

/-- **C08**, `rate * (h, w)` seen from a series at `rate` is `h` and `w` samples,
also when the series' own samples overlap. -/
theorem C08_mul_roundtrip (f d w h size : Int) (hf : 0 < f) (hd : f ≤ d) (hw : 0 < w) (hh : 0 < h) :
    ∃ r, SampleRate.mul ⟨f, d⟩ h w = .ok r ∧ r.discreteSamples ⟨f, d, size⟩ = (h, w) := by
  have h1 : 0 < f * h := by positivity
  have h2 : 0 < f * w := by positivity
  refine ⟨⟨f * h, f * w + (d - f)⟩, ?_, ?_⟩
  · unfold SampleRate.mul SampleRate.new SampleRate.overlap
    simp only
    rw [if_neg (by omega), if_neg (by omega)]
  · unfold SampleRate.discreteSamples
    simp only
    have : f * w + (d - f) - (d - f) = w * f := by ring
    rw [this, Int.mul_comm f h, round_mul _ _ hf, round_mul _ _ hf]

example := C08_mul_roundtrip 22675736 45351472 2048 1024 9 (by decide) (by decide) (by decide) (by decide)

/-- **C08**, composition: `(rate * (h₁, w₁)) * (h₂, w₂)` is
`rate * (h₁ h₂, h₁ (w₂ - 1) + w₁)` - a window of windows covers exactly the
samples of its first through its last window. -/
theorem C08_mul_compose (f d h₁ w₁ h₂ w₂ : Int) (hf : 0 < f) (hd : f ≤ d)
    (a1 : 0 < h₁) (a2 : 0 < w₁) (a3 : 0 < h₂) (a4 : 0 < w₂) :
    ∃ r, SampleRate.mul ⟨f, d⟩ h₁ w₁ = .ok r ∧
      r.mul h₂ w₂ = SampleRate.mul ⟨f, d⟩ (h₁ * h₂) (h₁ * (w₂ - 1) + w₁) := by
  have e1 : 0 < f * h₁ := by positivity
  have e2 : 0 < f * w₁ := by positivity
  refine ⟨⟨f * h₁, f * w₁ + (d - f)⟩, ?_, ?_⟩
  · unfold SampleRate.mul SampleRate.new SampleRate.overlap
    simp only
    rw [if_neg (by omega), if_neg (by omega)]
  · unfold SampleRate.mul SampleRate.overlap
    simp only
    congr 1 <;> ring

example := C08_mul_compose 22675736 45351472 2 3 4 5 (by decide) (by decide) (by decide) (by decide) (by decide) (by decide)

/-- **C08**, a non-positive frequency or duration is refused. -/
theorem C08_invalid (f d : Int) : SampleRate.new f d =
    if 0 < f ∧ 0 < d then .ok ⟨f, d⟩ else .error .valueError := by
  unfold SampleRate.new
  by_cases h1 : f ≤ 0
  · rw [if_pos h1, if_neg (by omega)]
  · by_cases h2 : d ≤ 0
    · rw [if_neg h1, if_pos h2, if_neg (by omega)]
    · rw [if_neg h1, if_neg h2, if_pos (by omega)]

/-- **C08**, `half_lapped`: the suggested window every suggested hop; for each of the
library's sample rates the hop is half the window. -/
theorem C08_half_lapped (f w h size : Int) (hf : 0 < f) (hw : 0 < w) (hh : 0 < h) :
    ∃ r, SampleRate.halfLapped ⟨f, f⟩ w h = .ok r ∧
      r.frequency = h * f ∧ r.duration = w * f ∧ r.discreteSamples ⟨f, f, size⟩ = (h, w) := by
  have h1 : 0 < f * h := by positivity
  have h2 : 0 < f * w := by positivity
  refine ⟨⟨f * h, f * w⟩, ?_, by ring, by ring, ?_⟩
  · unfold SampleRate.halfLapped SampleRate.new
    simp only
    rw [if_neg (by omega), if_neg (by omega)]
  · unfold SampleRate.discreteSamples
    simp only [Int.sub_self, Int.sub_zero]
    rw [Int.mul_comm f h, Int.mul_comm f w, round_mul _ _ hf, round_mul _ _ hf]

example := C08_half_lapped 22675736 2048 1024 9 (by decide) (by decide) (by decide)

/-- **C08**, the library's rates all suggest windows of two hops. -/
theorem C08_suggested_half : ∀ x ∈ rateTable, x.2.1 = 2 * x.2.2 ∧ 0 < x.2.2 := by decide

example : SampleRate.discreteSamples ⟨22675736 * 1024, 22675736 * 2048⟩ ⟨22675736, 22675736, 0⟩
    = (1024, 2048) := by decide

/-! ## C09 -/

/-- The extent of entry `i` of a time dimension. -/
def extent (td : Dim) (i t : Int) : Prop :=
  Within (i * td.frequency) (i * td.frequency + td.duration) t

/-- **C09**, constructing a time dimension: it has the frequency, the size and the duration it was given; without a duration, or with one of zero, entries last one
period, so that no entry is ever empty. -/
theorem C09_constructed (f size d : Int) (hf : 0 < f) :
    (∀ i t, extent (Dim.mk' f none size) i t ↔ Within (i * f) ((i + 1) * f) t) ∧
    (∀ i t, extent (Dim.mk' f (some 0) size) i t ↔ Within (i * f) ((i + 1) * f) t) ∧
    (0 < d → ∀ i t, extent (Dim.mk' f (some d) size) i t ↔ Within (i * f) (i * f + d) t) ∧
    (0 ≤ d → ∀ i, ∃ t, extent (Dim.mk' f (some d) size) i t) ∧ ∀ od, (Dim.mk' f od size).size = size := by
  refine ⟨fun i t => ?_, fun i t => ?_, fun hd i t => ?_, fun hd i => ⟨i * f, ?_⟩, fun _ => rfl⟩
  · have : (i + 1) * f = i * f + f := by ring
    rw [this]; rfl
  · have : (i + 1) * f = i * f + f := by ring
    rw [this]; rfl
  · unfold extent Dim.mk'
    simp only [show ¬ d = 0 by omega, if_false]
  · unfold extent Within Dim.mk'
    simp only []
    split <;> omega

example := C09_constructed 5 10 8 (by decide)

/-- **C09.** After windowing (`w` samples every `k`), entry `i` of the new time
dimension covers exactly the instants covered by the samples `i*k … i*k+w-1` of
the original dimension. -/
theorem C09_window_extent (td : Dim) (w k n i t : Int) (hf : 0 < td.frequency)
    (hd : td.frequency ≤ td.duration) (hw : 0 < w) (hk : 0 < k) :
    extent (td.modified w (some k) n) i t ↔
      ∃ j, 0 ≤ j ∧ j < w ∧ extent td (i * k + j) t := by
  have hk0 : ¬ k = 0 := by omega
  have hfw : 0 < td.frequency * w := by positivity
  have hne : ¬ (td.frequency * w + (td.duration - td.frequency) = 0) := by omega
  unfold extent Within Dim.modified Dim.mk'
  simp only [hk0, hne, if_false]
  constructor
  · rintro ⟨h1, h2⟩
    -- the last sample starting at or before t, but no later than sample w-1
    by_cases hlast : (i * k + (w - 1)) * td.frequency ≤ t
    · exact ⟨w - 1, by omega, by omega, hlast, by nlinarith⟩
    · have e1 := Int.ediv_mul_le t (show td.frequency ≠ 0 by omega)
      have e2 := Int.lt_ediv_add_one_mul_self t hf
      generalize t / td.frequency = q at *
      refine ⟨q - i * k, ?_, ?_, ?_, ?_⟩
      · by_contra hc
        have : q + 1 ≤ i * k := by omega
        nlinarith
      · by_contra hc
        have : i * k + (w - 1) ≤ q := by omega
        nlinarith
      · have : i * k + (q - i * k) = q := by omega
        rw [this]; exact e1
      · have : i * k + (q - i * k) = q := by omega
        rw [this]; nlinarith
  · rintro ⟨j, h1, h2, h3, h4⟩
    constructor
    · nlinarith
    · have : j * td.frequency ≤ (w - 1) * td.frequency := by nlinarith
      nlinarith

example := C09_window_extent ⟨5, 8, 10⟩ 3 2 4 1 30 (by decide) (by decide) (by decide) (by decide)

/-- **C09**, the end of the derived dimension is the end of the last sample that
any of its `n` windows covers. -/
theorem C09_window_end (td : Dim) (w k n : Int) (hf : 0 < td.frequency)
    (hd : td.frequency ≤ td.duration) (hw : 0 < w) (hk : 0 < k) :
    (td.modified w (some k) n).end_ =
      ((n - 1) * k + (w - 1)) * td.frequency + td.duration := by
  have hk0 : ¬ k = 0 := by omega
  have hfw : 0 < td.frequency * w := by positivity
  have hne : ¬ (td.frequency * w + (td.duration - td.frequency) = 0) := by omega
  unfold Dim.modified Dim.mk' Dim.end_
  simp only [hk0, hne, if_false]
  ring

example := C09_window_end ⟨5, 8, 10⟩ 3 2 4 (by decide) (by decide) (by decide) (by decide)

/-- **C09**, no step means adjacent windows. -/
theorem C09_default_step (td : Dim) (w n : Int) :
    td.modified w none n = td.modified w (some w) n := by
  unfold Dim.modified; simp

/-- **C09**, windowing twice is windowing once with the composed sizes. -/
theorem C09_compose (td : Dim) (w₁ k₁ w₂ k₂ n m : Int) (hf : 0 < td.frequency)
    (hd : td.frequency ≤ td.duration) (a1 : 0 < w₁) (a2 : 0 < k₁) (a3 : 0 < w₂) (a4 : 0 < k₂) :
    (td.modified w₁ (some k₁) n).modified w₂ (some k₂) m =
      td.modified (k₁ * (w₂ - 1) + w₁) (some (k₁ * k₂)) m := by
  have hk1 : ¬ k₁ = 0 := by omega
  have hk2 : ¬ k₂ = 0 := by omega
  have hk12 : ¬ k₁ * k₂ = 0 := by positivity
  have e1 : 0 < td.frequency * w₁ := by positivity
  have hne : ¬ (td.frequency * w₁ + (td.duration - td.frequency) = 0) := by omega
  have e2 : td.frequency * k₁ * w₂ + (td.frequency * w₁ + (td.duration - td.frequency) - td.frequency * k₁)
      = td.frequency * (k₁ * (w₂ - 1) + w₁) + (td.duration - td.frequency) := by ring
  have e3 : td.frequency * k₁ * k₂ = td.frequency * (k₁ * k₂) := by ring
  unfold Dim.modified Dim.mk'
  simp only [hk1, hk2, hk12, hne, if_false, e2, e3]

example := C09_compose ⟨5, 8, 10⟩ 3 2 4 3 4 1 (by decide) (by decide) (by decide) (by decide) (by decide) (by decide)

-- Non-vacuity: seconds, windows of 3 every 2.
example : (Dim.modified ⟨10^12, 10^12, 10⟩ 3 (some 2) 4) = ⟨2*10^12, 3*10^12, 4⟩ := by decide

/-- **C44 (iteration)**: `iter_slices` pairs row `i` with precisely the extent of
sample `i`, in order and without omission. -/
theorem C44_iter_slices {α : Type u} (arr : List α) (td : Dim) :
    (iterSlices arr td).length = arr.length ∧
    (iterSlices arr td).map Prod.snd = arr ∧
    ∀ i (h : i < (iterSlices arr td).length) t,
      Within (iterSlices arr td)[i].1.1
        ((iterSlices arr td)[i].1.1 + (iterSlices arr td)[i].1.2) t ↔ extent td i t := by
  refine ⟨by simp [iterSlices], ?_, ?_⟩
  · unfold iterSlices
    rw [List.map_map]
    have : (Prod.snd ∘ fun (x : α × Nat) => ((td.frequency * (x.2 : Int), td.duration), x.1)) = Prod.fst := by
      funext x; rfl
    exact (congrArg (fun g => List.map g arr.zipIdx) this).trans (by simp)
  · intro i h t
    unfold extent
    have : (iterSlices arr td)[i] = ((td.frequency * (i : Int), td.duration),
        arr[i]'(by simpa [iterSlices] using h)) := by simp [iterSlices]
    rw [this, Int.mul_comm]

/-- **C06** (units): one of each unit in the next finer one. -/
theorem C06_unit_sizes :
    (⟨1, .h⟩ : Dur).toPs = (⟨60, .m⟩ : Dur).toPs ∧ (⟨1, .m⟩ : Dur).toPs = (⟨60, .s⟩ : Dur).toPs ∧
    (⟨1, .s⟩ : Dur).toPs = (⟨1000, .ms⟩ : Dur).toPs ∧ (⟨1, .ms⟩ : Dur).toPs = (⟨1000, .us⟩ : Dur).toPs ∧
    (⟨1, .us⟩ : Dur).toPs = (⟨1000, .ns⟩ : Dur).toPs ∧ (⟨1, .ns⟩ : Dur).toPs = (⟨1000, .ps⟩ : Dur).toPs ∧
    ∀ n, (⟨n, .ps⟩ : Dur).toPs = n := by
  refine ⟨by decide, by decide, by decide, by decide, by decide, by decide, ?_⟩
  intro n; simp [Dur.toPs, TUnit.ps1]

/-- **C06** (open slices): a slice without a duration has no end; asking for it is a TypeError. -/
theorem C06_open_end (t : TimeSlice) (h : t.duration = none) : t.end? = .error .typeError := by
  unfold TimeSlice.end?; rw [h]

example := C06_open_end ⟨⟨2, .s⟩, none⟩ rfl

/-- **C07** (Nyquist): the Nyquist frequency is half the number of samples per second, rounded down. -/
theorem C07_nyquist (r : SampleRate) :
    2 * r.nyquist ≤ r.samplesPerSecond ∧ r.samplesPerSecond < 2 * r.nyquist + 2 := by
  unfold SampleRate.nyquist; omega

/-- The Nyquist frequencies of the supported rates. -/
example : supportedRates.map SampleRate.nyquist = supportedRates.map (fun r => r.samplesPerSecond / 2) ∧
    supportedRates.map SampleRate.samplesPerSecond = [96000, 48000, 44100, 22050, 16000, 11025] := by decide +kernel

/-- **C07** (ties): 72000 is as far from 96000 as from 48000; the higher rate, listed first, is chosen. -/
theorem C07_nearest_tie : (nearestRate 72000).samplesPerSecond = 96000 := by decide +kernel

end Zounds.Props
