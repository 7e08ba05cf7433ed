import Verif.Model.Synth
import Mathlib.Tactic.Common
import Mathlib.Tactic.Linarith
import Mathlib.Tactic.Ring
import Mathlib.Tactic.NormNum
import Mathlib.Algebra.Field.Rat
import Mathlib.Algebra.BigOperators.Intervals
import Mathlib.Algebra.BigOperators.Ring.Finset

/-!
# C35: overlap-add
-/

namespace Zounds.Synth
open Zounds.Time (Dim roundHalfEven supportedRates SampleRate)

variable {α : Type} [Field α]

/-! ## Specification -/

/-- Sample `t` of the overlap-added frames: frame `i` starts at sample `i * hop`; outside itself a frame is zero. -/
def overlapped (rows : List (List α)) (hop t : Nat) : α :=
  ∑ i ∈ Finset.range rows.length, if i * hop ≤ t then (rows.getD i []).getD (t - i * hop) 0 else 0

/-- The time dimension of `k` windows of `n` samples every `hop` samples of audio whose samples last `f0` picoseconds. -/
def windowsDim (f0 : Int) (n hop k : Nat) : Dim := ⟨f0 * hop, f0 * n, k⟩

/-- The windows of a signal, weighted. -/
def weightedWindows (x : Nat → α) (w : Nat → α) (n hop k : Nat) : List (List α) :=
  (List.range k).map fun i => (List.range n).map fun j => w j * x (i * hop + j)

/-- The hop-shifted copies of a window of `n` samples sum to `g` everywhere. -/
def ShiftSum (w : Nat → α) (n hop : Nat) (g : α) : Prop :=
  ∀ r, r < hop → (∑ m ∈ Finset.range n, if r + m * hop < n then w (r + m * hop) else 0) = g

/-! ## Adding frames -/

theorem addAt_spec (arr f : List α) (start stop : Nat) (h : min stop arr.length - start ≤ f.length) :
    ∃ arr', addAt arr start stop f = .ok arr' ∧ arr'.length = arr.length ∧
      ∀ t, t < arr.length → arr'.getD t 0 = arr.getD t 0 + if start ≤ t ∧ t < stop then f.getD (t - start) 0 else 0 := by
  have htl : ((arr.take stop).drop start).length = min stop arr.length - start := by simp
  have hg : (f.take ((arr.take stop).drop start).length).length = ((arr.take stop).drop start).length := by
    rw [List.length_take, htl]; omega
  refine ⟨_, if_pos hg, ?_, ?_⟩
  · simp only [List.length_append, List.length_zipWith, List.length_take, List.length_drop]; omega
  · intro t ht
    simp only [List.getD_eq_getElem?_getD]
    rw [List.append_assoc]
    by_cases h1 : t < start
    · rw [List.getElem?_append_left (by simp; omega)]
      have : ¬ (start ≤ t ∧ t < stop) := by omega
      simp [this, List.getElem?_take, h1]
    · have hlen : (arr.take start).length = start := by rw [List.length_take]; omega
      rw [List.getElem?_append_right (by omega), hlen]
      by_cases h2 : t < stop
      · have h3 : start ≤ t ∧ t < stop := by omega
        rw [List.getElem?_append_left (by rw [List.length_zipWith, hg, htl]; omega), if_pos h3]
        rw [List.getElem?_zipWith]
        have e1 : ((arr.take stop).drop start)[t - start]? = some arr[t] := by
          rw [List.getElem?_drop, List.getElem?_take, if_pos (by omega)]
          have : start + (t - start) = t := by omega
          rw [this]; simp [ht]
        have hf : t - start < f.length := by omega
        have e2 : (f.take ((arr.take stop).drop start).length)[t - start]? = some f[t - start] := by
          rw [List.getElem?_take, if_pos (by rw [htl]; omega)]; simp [hf]
        rw [e1, e2]
        simp [ht, hf]
      · have h3 : ¬ (start ≤ t ∧ t < stop) := by omega
        rw [if_neg h3, add_zero]
        have hz : (List.zipWith (fun x1 x2 => x1 + x2) ((arr.take stop).drop start)
            (f.take ((arr.take stop).drop start).length)).length = min stop arr.length - start := by
          rw [List.length_zipWith, hg, htl, Nat.min_self]
        rw [List.getElem?_append_right (by rw [hz]; omega), hz, htl, List.getElem?_drop]
        congr 2
        omega

theorem addFrames_spec (hop ws : Nat) (fs : List (List α)) : ∀ (i : Nat) (arr : List α), (∀ f ∈ fs, ws ≤ f.length) →
    ∃ out, addFrames hop ws i fs arr = .ok out ∧ out.length = arr.length ∧
      ∀ t, t < arr.length → out.getD t 0 = arr.getD t 0 + ∑ j ∈ Finset.range fs.length,
        if (i + j) * hop ≤ t ∧ t < (i + j) * hop + ws then (fs.getD j []).getD (t - (i + j) * hop) 0 else 0 := by
  induction fs with
  | nil => intro i arr _; exact ⟨arr, rfl, rfl, by simp⟩
  | cons f fs ih =>
    intro i arr h
    obtain ⟨a1, e1, l1, g1⟩ := addAt_spec arr f (i * hop) (i * hop + ws) (by
      have := h f (by simp); omega)
    obtain ⟨out, e2, l2, g2⟩ := ih (i + 1) a1 (fun x hx => h x (by simp [hx]))
    refine ⟨out, by simp only [addFrames, e1, e2], by omega, ?_⟩
    intro t ht
    rw [g2 t (by omega), g1 t ht, List.length_cons, Finset.sum_range_succ', add_assoc]
    congr 1
    rw [add_comm]
    simp only [List.getD_cons_zero, List.getD_cons_succ, Nat.add_zero]
    congr 1
    apply Finset.sum_congr rfl
    intro j _
    have : i + 1 + j = i + (j + 1) := by omega
    rw [this]

/-- **C35, any time dimension**: when a frame has at least as many samples as the time dimension says a window has, output sample `t` is
the sum over the frames `i` of sample `t − i·hop` of frame `i` (weighted), for `t − i·hop` inside the window. -/
theorem C35_general (w : Option (List α)) (f : Frames α) (hn : 0 < f.n) (hsf : 0 < sampleFreq f) (ht : 0 ≤ totalSize f)
    (hrows : ∀ r ∈ f.rows, r.length = f.n) (hw : ∀ c, w = some c → c.length = f.n)
    (hws : (windowSize f).toNat ≤ f.n) :
    ∃ out, overlapAdd w f = .ok out ∧ out.length = (totalSize f).toNat ∧
      ∀ t, t < out.length → out.getD t 0 = ∑ i ∈ Finset.range f.rows.length,
        if i * (hopSize f).toNat ≤ t ∧ t < i * (hopSize f).toNat + (windowSize f).toNat then
          (match w with | none => 1 | some c => c.getD (t - i * (hopSize f).toNat) 0) *
            (f.rows.getD i []).getD (t - i * (hopSize f).toNat) 0
        else 0 := by
  unfold overlapAdd
  rw [if_neg (by omega), if_neg (by omega), if_neg (by omega)]
  cases w with
  | none =>
    obtain ⟨out, e, l, g⟩ := addFrames_spec (hopSize f).toNat (windowSize f).toNat f.rows 0
      (List.replicate (totalSize f).toNat 0) (fun r hr => by rw [hrows r hr]; exact hws)
    refine ⟨out, e, by simpa using l, ?_⟩
    intro t ht
    rw [g t (by omega)]
    simp [List.getD_eq_getElem?_getD, List.getElem?_replicate]
    rw [List.length_replicate] at l
    have ht' : (t : Int) < totalSize f := by omega
    simp [ht']
  | some c =>
    have hc := hw c rfl
    obtain ⟨out, e, l, g⟩ := addFrames_spec (hopSize f).toNat (windowSize f).toNat
      (f.rows.map fun r => List.zipWith (· * ·) c r) 0
      (List.replicate (totalSize f).toNat 0) (fun r hr => by
        simp only [List.mem_map] at hr
        obtain ⟨r', hr', rfl⟩ := hr
        rw [List.length_zipWith, hrows r' hr', hc]; omega)
    refine ⟨out, e, by simpa using l, ?_⟩
    intro t ht
    have ht' : t < (totalSize f).toNat := by rw [List.length_replicate] at l; omega
    rw [g t (by omega)]
    have h0 : (List.replicate (totalSize f).toNat (0 : α)).getD t 0 = 0 := by
      simp [List.getD_eq_getElem?_getD, List.getElem?_replicate, ht']
    rw [h0, zero_add, List.length_map]
    apply Finset.sum_congr rfl
    intro i hi
    rw [Nat.zero_add]
    split
    · rename_i hcond
      have hi' : i < f.rows.length := Finset.mem_range.1 hi
      have hlen : (f.rows.getD i []).length = f.n := by
        simp only [List.getD_eq_getElem?_getD, hi', List.getElem?_eq_getElem, Option.getD_some]
        exact hrows _ (List.getElem_mem _)
      have hrow : (f.rows.map fun r => List.zipWith (· * ·) c r).getD i [] = List.zipWith (· * ·) c (f.rows.getD i []) := by
        simp [List.getD_eq_getElem?_getD, hi']
      rw [hrow]
      have hk : t - i * (hopSize f).toNat < f.n := by omega
      simp only [List.getD_eq_getElem?_getD] at hlen ⊢
      rw [List.getElem?_zipWith]
      rw [List.getElem?_eq_getElem (by omega), List.getElem?_eq_getElem (by omega)]
      simp
    · rfl

theorem roundHalfEven_exact (q d : Int) (hd : 0 < d) : roundHalfEven (d * q) d = q := by
  have h : d * q / d = q := Int.mul_ediv_cancel_left q hd.ne'
  unfold roundHalfEven
  simp only [h]
  have : 2 * (d * q - q * d) = 0 := by ring
  rw [this, if_pos hd]

/-- The sizes computed for windows of audio are the true ones. -/
theorem sizes_of_windows (f : Frames α) (f0 : Int) (hop k : Nat) (hf0 : 0 < f0) (hn : 0 < f.n)
    (htd : f.td = windowsDim f0 f.n hop k) :
    sampleFreq f = f0 ∧ windowSize f = f.n ∧ hopSize f = hop ∧
      totalSize f = (k : Int) * hop + (f.n - hop) := by
  have h1 : sampleFreq f = f0 := by
    unfold sampleFreq
    rw [htd]
    simp only [windowsDim]
    exact Int.mul_tdiv_cancel _ (by omega)
  have hend : f.td.end_ = f0 * ((k : Int) * hop + (f.n - hop)) := by
    rw [htd]; simp only [windowsDim, Dim.end_]; ring
  refine ⟨h1, ?_, ?_, ?_⟩
  · unfold windowSize; rw [h1, htd]; exact roundHalfEven_exact _ _ hf0
  · unfold hopSize; rw [h1, htd]; exact roundHalfEven_exact _ _ hf0
  · unfold totalSize; rw [h1, hend]; exact Int.mul_tdiv_cancel_left _ hf0.ne'

/-- **C35, overlap-add**: for one or more windows of `n` samples every `hop` samples of audio at any sample rate, the result has
exactly the samples the windows cover, and sample `t` is the sum over the windows `i` of their sample `t − i·hop`. -/
theorem C35_overlap_add (f : Frames α) (f0 : Int) (hop k : Nat) (hf0 : 0 < f0) (hn : 0 < f.n)
    (htd : f.td = windowsDim f0 f.n hop (k + 1)) (hrows : ∀ r ∈ f.rows, r.length = f.n) :
    ∃ out, overlapAdd none f = .ok out ∧ out.length = k * hop + f.n ∧
      ∀ t, t < out.length → out.getD t 0 = overlapped f.rows hop t := by
  obtain ⟨s1, s2, s3, s4⟩ := sizes_of_windows f f0 hop (k + 1) hf0 hn htd
  have hT : totalSize f = ((k * hop + f.n : Nat) : Int) := by rw [s4]; push_cast; ring
  obtain ⟨out, e, l, g⟩ := C35_general none f hn (by omega) (by omega) hrows (by simp) (by omega)
  refine ⟨out, e, by omega, ?_⟩
  intro t ht
  rw [g t ht, s2, s3]
  unfold overlapped
  apply Finset.sum_congr rfl
  intro i hi
  simp only [Int.toNat_natCast, one_mul]
  by_cases h1 : i * hop ≤ t
  · by_cases h2 : t < i * hop + f.n
    · rw [if_pos ⟨h1, h2⟩, if_pos h1]
    · rw [if_neg (by omega), if_pos h1]
      have hi' : i < f.rows.length := Finset.mem_range.1 hi
      have hlen : (f.rows.getD i []).length = f.n := by
        simp only [List.getD_eq_getElem?_getD, hi', List.getElem?_eq_getElem, Option.getD_some]
        exact hrows _ (List.getElem_mem _)
      rw [List.getD_eq_getElem?_getD (l := f.rows.getD i []), List.getElem?_eq_none (by omega)]
      rfl
  · rw [if_neg (by omega), if_neg h1]

theorem getD_ext {l m : List α} (hl : l.length = m.length) (h : ∀ t, t < l.length → l.getD t 0 = m.getD t 0) : l = m := by
  apply List.ext_getElem hl
  intro t h1 h2
  have := h t h1
  simpa [List.getD_eq_getElem?_getD, h1, h2] using this

/-- **C35, no overlap**: windows that follow one another without overlap are put back end to end. -/
theorem C35_concatenates (f : Frames α) (f0 : Int) (k : Nat) (hf0 : 0 < f0) (hn : 0 < f.n)
    (htd : f.td = windowsDim f0 f.n f.n (k + 1)) (hk : f.rows.length = k + 1) (hrows : ∀ r ∈ f.rows, r.length = f.n) :
    overlapAdd none f = .ok f.rows.flatten := by
  obtain ⟨out, e, l, g⟩ := C35_overlap_add f f0 f.n k hf0 hn htd hrows
  rw [e]; congr 1
  have key : ∀ (rows : List (List α)) (n : Nat), 0 < n → (∀ r ∈ rows, r.length = n) →
      rows.flatten.length = rows.length * n ∧ ∀ t, t < rows.length * n → overlapped rows n t = rows.flatten.getD t 0 := by
    intro rows n hn
    induction rows with
    | nil => intro _; simp
    | cons r rows ih =>
      intro h
      obtain ⟨l1, g1⟩ := ih (fun x hx => h x (by simp [hx]))
      have hr : r.length = n := h r (by simp)
      refine ⟨by simp [l1, hr]; ring, ?_⟩
      intro t ht
      simp only [List.length_cons, Nat.succ_mul] at ht
      unfold overlapped
      rw [List.length_cons, Finset.sum_range_succ']
      simp only [List.getD_cons_succ, List.getD_cons_zero, Nat.zero_mul, Nat.zero_le, if_true, Nat.sub_zero, List.flatten_cons]
      by_cases hlt : t < n
      · rw [Finset.sum_eq_zero, zero_add]
        · simp only [List.getD_eq_getElem?_getD]
          rw [List.getElem?_append_left (by omega)]
        · intro i _
          rw [if_neg]
          rw [Nat.succ_mul]; omega
      · have h0 : r.getD t 0 = 0 := by
          rw [List.getD_eq_getElem?_getD, List.getElem?_eq_none (by omega)]; rfl
        rw [h0, add_zero]
        have := g1 (t - n) (by omega)
        unfold overlapped at this
        have e2 : (r ++ rows.flatten).getD t 0 = rows.flatten.getD (t - n) 0 := by
          simp only [List.getD_eq_getElem?_getD]
          rw [List.getElem?_append_right (by omega), hr]
        rw [e2, ← this]
        apply Finset.sum_congr rfl
        intro i _
        have a1 : (i + 1) * n ≤ t ↔ i * n ≤ t - n := by rw [Nat.succ_mul]; omega
        have a2 : t - (i + 1) * n = t - n - i * n := by rw [Nat.succ_mul]; omega
        simp only [a1, a2]
  obtain ⟨l1, g1⟩ := key f.rows f.n hn hrows
  have hl : out.length = f.rows.flatten.length := by rw [l, l1, hk, Nat.succ_mul]
  apply getD_ext hl
  intro t ht
  rw [g t ht, g1 t (by rw [← l1, ← hl]; exact ht)]

/-! ## Reconstruction -/

theorem overlapped_windows (x w : Nat → α) (n hop k t : Nat) :
    overlapped (weightedWindows x w n hop k) hop t =
      x t * ∑ i ∈ Finset.range k, if i * hop ≤ t ∧ t - i * hop < n then w (t - i * hop) else 0 := by
  unfold overlapped
  have hlen : (weightedWindows x w n hop k).length = k := by simp [weightedWindows]
  rw [hlen, Finset.mul_sum]
  apply Finset.sum_congr rfl
  intro i hi
  have hi' : i < k := Finset.mem_range.1 hi
  by_cases h1 : i * hop ≤ t
  · rw [if_pos h1]
    simp only [weightedWindows, List.getD_eq_getElem?_getD, List.getElem?_map, List.getElem?_range hi', Option.map_some, Option.getD_some]
    by_cases h2 : t - i * hop < n
    · rw [if_pos ⟨h1, h2⟩]
      simp only [List.getElem?_range h2, Option.map_some, Option.getD_some]
      have : i * hop + (t - i * hop) = t := by omega
      rw [this, mul_comm]
    · rw [if_neg (by omega), mul_zero]
      rw [List.getElem?_eq_none (by simp; omega)]; rfl
  · rw [if_neg h1, if_neg (by omega), mul_zero]

theorem shiftSum_at (w : Nat → α) (n hop : Nat) (hhop : 0 < hop) (g : α) (h : ShiftSum w n hop g)
    (k t : Nat) (h1 : n ≤ t + hop) (h2 : t < k * hop) :
    (∑ i ∈ Finset.range k, if i * hop ≤ t ∧ t - i * hop < n then w (t - i * hop) else 0) = g := by
  have hr : t % hop < hop := Nat.mod_lt _ hhop
  have ht := Nat.div_add_mod t hop
  have hq : t / hop < k := (Nat.div_lt_iff_lt_mul hhop).2 h2
  rw [← h (t % hop) hr]
  have hmul : hop * (t / hop) = t / hop * hop := Nat.mul_comm _ _
  -- both sums range over the same positions of the window
  have lhs : (∑ i ∈ Finset.range k, if i * hop ≤ t ∧ t - i * hop < n then w (t - i * hop) else 0) =
      ∑ i ∈ Finset.range (t / hop + 1), if t - i * hop < n then w (t - i * hop) else 0 := by
    have hsub : Finset.range (t / hop + 1) ⊆ Finset.range k := by
      intro i hi; simp at hi ⊢; omega
    rw [← Finset.sum_subset hsub]
    · apply Finset.sum_congr rfl
      intro i hi
      have hi' : i ≤ t / hop := by simpa [Nat.lt_succ_iff] using hi
      have : i * hop ≤ t := le_trans (Nat.mul_le_mul_right _ hi') (Nat.div_mul_le_self t hop)
      simp [this]
    · intro i _ hni
      rw [if_neg]
      rintro ⟨hle, -⟩
      apply hni
      simp only [Finset.mem_range, Nat.lt_succ_iff]
      exact (Nat.le_div_iff_mul_le hhop).2 hle
  rw [lhs, ← Finset.sum_range_reflect]
  have step : ∀ m, m < t / hop + 1 →
      (if t - (t / hop + 1 - 1 - m) * hop < n then w (t - (t / hop + 1 - 1 - m) * hop) else 0) =
        if t % hop + m * hop < n then w (t % hop + m * hop) else 0 := by
    intro m hm
    have : t - (t / hop + 1 - 1 - m) * hop = t % hop + m * hop := by
      have e : (t / hop + 1 - 1 - m) * hop + m * hop = t / hop * hop := by
        rw [← Nat.add_mul]; congr 1; omega
      omega
    rw [this]
  rw [Finset.sum_congr rfl (fun m hm => step m (Finset.mem_range.1 hm))]
  -- extend or cut both ranges to the larger one
  have zero : ∀ m, (t / hop + 1 ≤ m ∨ n ≤ m) → (if t % hop + m * hop < n then w (t % hop + m * hop) else 0) = 0 := by
    intro m hm
    rw [if_neg]
    rcases hm with hm | hm
    · have := Nat.mul_le_mul_right hop hm
      rw [Nat.succ_mul] at this
      omega
    · have : m ≤ m * hop := Nat.le_mul_of_pos_right _ hhop
      omega
  have big : ∀ a, (t / hop + 1 = a ∨ n = a) → (∑ m ∈ Finset.range a, if t % hop + m * hop < n then w (t % hop + m * hop) else 0) =
      ∑ m ∈ Finset.range (max (t / hop + 1) n), if t % hop + m * hop < n then w (t % hop + m * hop) else 0 := by
    intro a ha
    apply Finset.sum_subset
    · intro i hi; simp only [Finset.mem_range] at hi ⊢; omega
    · intro i _ hi
      apply zero
      simp only [Finset.mem_range] at hi; omega
  rw [big _ (Or.inl rfl), big n (Or.inr rfl)]

/-- **C35, reconstruction**: if the frames are the windows of a signal weighted by a window whose hop-shifted copies sum to `g`, then
overlap-add gives `g` times the signal everywhere but in the first `n − hop` and last `n − hop` samples. -/
theorem C35_reconstructs (x w : Nat → α) (f0 : Int) (n hop k : Nat) (g : α) (hf0 : 0 < f0) (hn : 0 < n) (hhop : 0 < hop)
    (hw : ShiftSum w n hop g) :
    ∃ out, overlapAdd none (⟨windowsDim f0 n hop (k + 1), n, weightedWindows x w n hop (k + 1)⟩ : Frames α) = .ok out ∧
      out.length = k * hop + n ∧
      ∀ t, n ≤ t + hop → t < (k + 1) * hop → t < out.length → out.getD t 0 = g * x t := by
  obtain ⟨out, e, l, h⟩ := C35_overlap_add (⟨windowsDim f0 n hop (k + 1), n, weightedWindows x w n hop (k + 1)⟩ : Frames α)
    f0 hop k hf0 hn rfl (by simp [weightedWindows])
  refine ⟨out, e, l, ?_⟩
  intro t h1 h2 h3
  rw [h t h3, overlapped_windows, shiftSum_at w n hop hhop g hw (k + 1) t h1 h2, mul_comm]

/-- **C35, synthesis window**: overlap-add with a windowing function is overlap-add of the frames weighted by it. -/
theorem C35_synthesis_window (c : List α) (f : Frames α) :
    overlapAdd (some c) f = overlapAdd none { f with rows := f.rows.map fun r => List.zipWith (· * ·) c r } := rfl

/-- Windows weighted on analysis by `a` and on synthesis by `s` are windows weighted by the product. -/
theorem weighted_twice (x a s : Nat → α) (n hop k : Nat) :
    (weightedWindows x a n hop k).map (fun r => List.zipWith (· * ·) ((List.range n).map s) r) =
      weightedWindows x (fun j => s j * a j) n hop k := by
  simp only [weightedWindows, List.map_map]
  apply List.map_congr_left
  intro i _
  apply List.ext_getElem
  · simp
  · intro j h1 h2
    simp [mul_assoc]

/-- **C35, analysis and synthesis**: with an analysis window `a` and a synthesis window `s` whose products' hop-shifted copies sum to `g`,
the signal comes back scaled by `g`, away from the two ends. -/
theorem C35_analysis_synthesis (x a s : Nat → α) (f0 : Int) (n hop k : Nat) (g : α) (hf0 : 0 < f0) (hn : 0 < n) (hhop : 0 < hop)
    (hw : ShiftSum (fun j => s j * a j) n hop g) :
    ∃ out, overlapAdd (some ((List.range n).map s))
        (⟨windowsDim f0 n hop (k + 1), n, weightedWindows x a n hop (k + 1)⟩ : Frames α) = .ok out ∧
      out.length = k * hop + n ∧
      ∀ t, n ≤ t + hop → t < (k + 1) * hop → t < out.length → out.getD t 0 = g * x t := by
  rw [C35_synthesis_window, weighted_twice]
  exact C35_reconstructs x _ f0 n hop k g hf0 hn hhop hw

/-- **C35, the ends**: the first samples are covered by the first window only, so without a compensating window they keep its weight. -/
theorem C35_first_hop (x w : Nat → α) (f0 : Int) (n hop k : Nat) (hf0 : 0 < f0) (hn : 0 < n) :
    ∃ out, overlapAdd none (⟨windowsDim f0 n hop (k + 1), n, weightedWindows x w n hop (k + 1)⟩ : Frames α) = .ok out ∧
      ∀ t, t < hop → t < n → t < out.length → out.getD t 0 = w t * x t := by
  obtain ⟨out, e, l, h⟩ := C35_overlap_add (⟨windowsDim f0 n hop (k + 1), n, weightedWindows x w n hop (k + 1)⟩ : Frames α)
    f0 hop k hf0 hn rfl (by simp [weightedWindows])
  refine ⟨out, e, ?_⟩
  intro t h1 h2 h3
  rw [h t h3, overlapped_windows, Finset.sum_range_succ', Finset.sum_eq_zero, zero_add]
  · simp [h2, mul_comm]
  · intro i _
    rw [if_neg]
    rw [Nat.succ_mul]; omega

/-- **C35, no frames**: nothing is covered, yet the result has `n − hop` zeros (for windows that overlap). -/
theorem C35_no_frames (f0 : Int) (n hop : Nat) (hf0 : 0 < f0) (hn : 0 < n) (h : hop ≤ n) :
    overlapAdd none (⟨windowsDim f0 n hop 0, n, []⟩ : Frames α) = .ok (List.replicate (n - hop) 0) := by
  obtain ⟨s1, s2, s3, s4⟩ := sizes_of_windows (⟨windowsDim f0 n hop 0, n, []⟩ : Frames α) f0 hop 0 hf0 hn rfl
  have hT : totalSize (⟨windowsDim f0 n hop 0, n, []⟩ : Frames α) = ((n - hop : Nat) : Int) := by
    rw [s4]; push_cast [h]; ring
  unfold overlapAdd
  rw [if_neg (by simp; omega), s1, if_neg hf0.ne', hT, if_neg (by omega)]
  simp [addFrames]

/-- **C35, sample rate**: the result carries the sample rate of the audio the windows were taken from. -/
theorem C35_rate (r : SampleRate) (h : r ∈ supportedRates) : resultRate r.frequency = r := by
  revert r; decide

theorem argmin_foldl (d : SampleRate → Nat) : ∀ (rs : List SampleRate) (r : SampleRate),
    ∃ pre post, r :: rs = pre ++ (rs.foldl (fun best x => if d x < d best then x else best) r) :: post ∧
      (∀ y ∈ pre, d (rs.foldl (fun best x => if d x < d best then x else best) r) < d y) ∧
      (∀ y ∈ post, d (rs.foldl (fun best x => if d x < d best then x else best) r) ≤ d y)
  | [], r => ⟨[], [], by simp⟩
  | x :: rs, r => by
    simp only [List.foldl_cons]
    by_cases h : d x < d r
    · simp only [h, if_true]
      obtain ⟨pre, post, h1, h2, h3⟩ := argmin_foldl d rs x
      refine ⟨r :: pre, post, by rw [h1]; rfl, ?_, h3⟩
      intro y hy
      rcases List.mem_cons.mp hy with rfl | hy
      · refine lt_of_le_of_lt ?_ h
        have hx : x ∈ pre ++ (rs.foldl (fun best x => if d x < d best then x else best) x) :: post := h1 ▸ List.mem_cons_self
        rcases List.mem_append.mp hx with hx | hx
        · exact (h2 x hx).le
        · rcases List.mem_cons.mp hx with hx | hx
          · rw [← hx]
          · exact h3 x hx
      · exact h2 y hy
    · simp only [h, if_false]
      obtain ⟨pre, post, h1, h2, h3⟩ := argmin_foldl d rs r
      cases pre with
      | nil =>
        rw [List.nil_append, List.cons.injEq] at h1
        refine ⟨[], x :: post, ?_, by simp, ?_⟩
        · rw [← h1.1, ← h1.2]; rfl
        · intro y hy
          rcases List.mem_cons.mp hy with rfl | hy
          · rw [← h1.1]; omega
          · exact h3 y hy
      | cons p pre =>
        rw [List.cons_append, List.cons.injEq] at h1
        obtain ⟨rfl, h1⟩ := h1
        refine ⟨r :: x :: pre, post, congrArg (fun l => r :: x :: l) h1, ?_, h3⟩
        intro y hy
        have hr := h2 r List.mem_cons_self
        rcases List.mem_cons.mp hy with rfl | hy
        · exact hr
        · rcases List.mem_cons.mp hy with rfl | hy
          · omega
          · exact h2 y (List.mem_cons_of_mem _ hy)

/-- **C35, sample rate of any frames**: the result carries the supported rate nearest to the frames' own, the first of two equally near. -/
theorem C35_rate_nearest (sf : Int) : ∃ pre post, supportedRates = pre ++ resultRate sf :: post ∧
    (∀ r ∈ pre, |10 ^ 12 - (resultRate sf).samplesPerSecond * sf| < |10 ^ 12 - r.samplesPerSecond * sf|) ∧
    (∀ r ∈ post, |10 ^ 12 - (resultRate sf).samplesPerSecond * sf| ≤ |10 ^ 12 - r.samplesPerSecond * sf|) := by
  have key : ∀ l : List SampleRate, l ≠ [] → ∃ pre post, l = pre ++ (match l with
      | [] => (⟨1, 1⟩ : SampleRate)
      | r :: rs => rs.foldl (fun best x => if rateDist sf x < rateDist sf best then x else best) r) :: post ∧
      (∀ r ∈ pre, rateDist sf (match l with
      | [] => (⟨1, 1⟩ : SampleRate)
      | r :: rs => rs.foldl (fun best x => if rateDist sf x < rateDist sf best then x else best) r) < rateDist sf r) ∧
      (∀ r ∈ post, rateDist sf (match l with
      | [] => (⟨1, 1⟩ : SampleRate)
      | r :: rs => rs.foldl (fun best x => if rateDist sf x < rateDist sf best then x else best) r) ≤ rateDist sf r) := by
    intro l hl
    cases l with
    | nil => exact absurd rfl hl
    | cons r rs => exact argmin_foldl (rateDist sf) rs r
  obtain ⟨pre, post, h1, h2, h3⟩ := key supportedRates (by decide)
  refine ⟨pre, post, h1, fun r hr => ?_, fun r hr => ?_⟩
  · have : rateDist sf (resultRate sf) < rateDist sf r := h2 r hr
    unfold rateDist at this
    rw [Int.abs_eq_natAbs, Int.abs_eq_natAbs]
    exact_mod_cast this
  · have : rateDist sf (resultRate sf) ≤ rateDist sf r := h3 r hr
    unfold rateDist at this
    rw [Int.abs_eq_natAbs, Int.abs_eq_natAbs]
    exact_mod_cast this

/-- Two half-lapped windows of four samples. -/
example : overlapAdd none (⟨windowsDim 22675736 4 2 2, 4, [[1, 2, 3, 4], [10, 20, 30, 40]]⟩ : Frames Rat) =
    .ok [1, 2, 13, 24, 30, 40] := by decide +kernel
example : ShiftSum (fun _ : Nat => (1 / 2 : Rat)) 4 2 1 := by
  intro r hr
  have : r = 0 ∨ r = 1 := by omega
  rcases this with rfl | rfl <;> simp [Finset.sum_range_succ] <;> norm_num

example := C35_general (α := ℚ) none ⟨windowsDim 22675736 4 2 2, 4, [[1, 2, 3, 4], [10, 20, 30, 40]]⟩ (by decide) (by decide +kernel) (by decide +kernel) (by decide) (fun c h => nomatch h) (by decide +kernel)
example := C35_overlap_add (α := ℚ) ⟨windowsDim 22675736 4 2 2, 4, [[1, 2, 3, 4], [10, 20, 30, 40]]⟩ 22675736 2 1 (by decide) (by decide) rfl (by decide)
example := C35_concatenates (α := ℚ) ⟨windowsDim 22675736 4 4 2, 4, [[1, 2, 3, 4], [10, 20, 30, 40]]⟩ 22675736 1 (by decide) (by decide) rfl rfl (by decide)
/-- Windows of four samples, two apart, each weighted by one half. -/
theorem halves : ShiftSum (fun _ : Nat => (1 / 2 : Rat)) 4 2 1 := by
  intro r hr
  have : r = 0 ∨ r = 1 := by omega
  rcases this with rfl | rfl <;> simp [Finset.sum_range_succ] <;> norm_num
example := C35_reconstructs (fun t => (t : ℚ)) (fun _ => 1 / 2) 22675736 4 2 3 1 (by decide) (by decide) (by decide) halves
example := C35_analysis_synthesis (fun t => (t : ℚ)) (fun _ => 1) (fun _ => 1 / 2) 22675736 4 2 3 1 (by decide) (by decide) (by decide)
  (by have := halves; simpa using this)
example := C35_first_hop (fun t => (t : ℚ)) (fun _ => 1 / 2) 22675736 4 2 3 (by decide) (by decide)
example := C35_no_frames (α := ℚ) 22675736 4 2 (by decide) (by decide) (by decide)
example := C35_rate ⟨22675736, 22675736⟩ (by decide)

end Zounds.Synth
