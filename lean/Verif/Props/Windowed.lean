import Verif.Lemmas.SlidingWindow
/-!
# Properties C01, C02, C03: cutting a signal into windows

Specification vocabulary (independent of the model): a *slice* of a signal and
the signal continued by zeros.
-/

namespace Zounds.Props
open Zounds Zounds.Npx

variable {α : Type u}

/-- `a[start : start+len]`. -/
def slice (a : List α) (start len : Nat) : List α := (a.drop start).take len

/-- Sample `j` of the signal continued by zeros. -/
def sampleOrZero (z : α) (a : List α) (j : Nat) : α := (a[j]?).getD z

/-! ## C01 -/

/-- **C01.** Without padding, `windowed(a, w, s)` returns exactly the slices
`a[i*s : i*s+w]`, the expected number of them, each of full length, and the
leftover is exactly the suffix that starts where the next window would. -/
theorem C01_windowed_exact (z : α) (a : List α) (w s : Nat) (hw : 2 ≤ w) (hs : 1 ≤ s) :
    ∃ left ws, windowed z a w (some (s : Int)) false = .ok (left, .wins ws) ∧
      ws.length = (if a.length ≤ w then 0 else 1 + (a.length - w) / s) ∧
      (∀ i (h : i < ws.length), ws[i] = slice a (i * s) w ∧ ws[i].length = w) ∧
      left = a.drop (ws.length * s) := by
  refine ⟨_, _, windowed_nopad z a w s hw hs, ?_, ?_, ?_⟩
  · simp [nWin]
  · intro i h
    have hi : i < nWin a.length w s := by simpa using h
    have := nWin_fit hi
    simp [slice]; omega
  · simp

example := C01_windowed_exact (0 : Nat) [1, 2, 3, 4, 5, 6, 7] 4 2 (by decide) (by decide)

/-- A default step means the windows do not overlap. -/
theorem C01_default_step (z : α) (a : List α) (w : Int) (p : Bool) :
    windowed z a w none p = windowed z a w (some w) p := by
  simp [windowed]

/-- **C01**, continuation: for `s ≤ w`, windowing `leftover ++ more` carries on
with precisely the next windows of `a ++ more`, and no sample before the next
window start is needed any more. -/
theorem C01_leftover_continues (z : α) (a more : List α) (w s : Nat) (hw : 2 ≤ w) (hs : 1 ≤ s)
    (hsw : s ≤ w) (left : List α) (ws : List (List α))
    (h : windowed z a w (some (s : Int)) false = .ok (left, .wins ws)) :
    ws.length * s ≤ a.length ∧ left ++ more = (a ++ more).drop (ws.length * s) ∧
    ∃ left' ws', windowed z (left ++ more) w (some (s : Int)) false = .ok (left', .wins ws') ∧
      (∀ i (h : i < ws'.length), ws'[i] = slice (a ++ more) ((ws.length + i) * s) w) ∧
      left' = (a ++ more).drop ((ws.length + ws'.length) * s) := by
  rw [windowed_nopad z a w s hw hs] at h
  injection h with h; injection h with h1 h2; injection h2 with h2
  have hn : ws.length = nWin a.length w s := by rw [← h2]; simp
  have hle : ws.length * s ≤ a.length := by
    rw [hn]; unfold nWin; split
    · omega
    · have := SlidingWindow.mul_div_bounds (a.length - w) s hs
      rw [Nat.add_mul]; omega
  have hcat : left ++ more = (a ++ more).drop (ws.length * s) := by
    rw [List.drop_append_of_le_length hle, ← h1, hn]
  refine ⟨hle, hcat, _, _, windowed_nopad z (left ++ more) w s hw hs, ?_, ?_⟩
  · intro i hi
    simp only [List.getElem_map, List.getElem_range, slice, hcat, List.drop_drop, Nat.add_mul]
  · simp only [hcat, List.drop_drop, List.length_map, List.length_range, Nat.add_mul]

example := C01_leftover_continues (0 : Nat) [1, 2, 3, 4, 5] [6, 7] 4 2 (by decide) (by decide) (by decide) [3, 4, 5] [[1, 2, 3, 4]] rfl

/-- **C01**, error branch: sizes below one are refused. -/
theorem C01_bad_sizes (z : α) (a : List α) (w s : Int) (p : Bool) (h : w < 1 ∨ s < 1) :
    windowed z a w (some s) p = .error .valueError := by
  unfold windowed
  by_cases hw : w < 1
  · simp [hw]
  · have : s < 1 := by omega
    simp [hw, this]

example := C01_bad_sizes (0 : Nat) [1, 2, 3] 2 0 false (by decide)

/-- **C01**, the degenerate window of one sample: the rows themselves, every
`s`-th of them, in order. -/
theorem C01_window_of_one (z : α) (a : List α) (s : Nat) (hs : 1 ≤ s) (p : Bool) :
    ∃ r, windowed z a 1 (some (s : Int)) p = .ok ([], .rows r) ∧
      ∀ i, r[i]? = a[i * s]? := by
  have hd : ∀ i, i < (a.length + s - 1) / s ↔ i * s < a.length := by
    intro i
    rw [Nat.lt_div_iff_mul_lt (by omega), Nat.mul_comm]
    omega
  unfold windowed
  by_cases h1 : s = 1
  · subst h1
    exact ⟨a, by simp, by simp⟩
  · have h2 : ¬ ((s : Int) < 1) := by omega
    have h3 : ¬ ((s : Int) = 1) := by omega
    have h4 : (s : Int) > 1 := by omega
    refine ⟨everyNth s a, by simp [h2, h3, h4], ?_⟩
    intro i
    have hm : everyNth s a = (List.range ((a.length + s - 1) / s)).map
        (fun i => (a[i * s]?).getD ((a[i * s]?).elim z id)) := by
      unfold everyNth
      have aux : ∀ l : List Nat, (∀ i ∈ l, i * s < a.length) →
          l.filterMap (fun i => a[i * s]?) =
            l.map (fun i => (a[i * s]?).getD ((a[i * s]?).elim z id)) := by
        intro l
        induction l with
        | nil => intro _; rfl
        | cons x xs ih =>
          intro h
          have hx := h x (by simp)
          simp only [List.filterMap_cons, List.map_cons, List.getElem?_eq_getElem hx,
            Option.getD_some]
          rw [ih (fun i hi => h i (by simp [hi]))]
      exact aux _ (fun i hi => (hd i).1 (by simpa using hi))
    rw [hm]
    by_cases hi : i * s < a.length
    · have := (hd i).2 hi
      simp [hi, this]
    · have : ¬ i < (a.length + s - 1) / s := fun h => hi ((hd i).1 h)
      simp only [List.getElem?_map]
      rw [List.getElem?_eq_none (by simpa using this), List.getElem?_eq_none (by omega)]
      rfl

example := C01_window_of_one (0 : Nat) [1, 2, 3] 2 (by decide) false

-- Non-vacuity: ten samples, windows of 4 every 2.
example : windowed 0 [0,1,2,3,4,5,6,7,8,9,10] 4 (some 2) false =
    .ok ([8,9,10], .wins [[0,1,2,3],[2,3,4,5],[4,5,6,7],[6,7,8,9]]) := by decide
example : windowed 0 [0,1,2,3] 4 (some 2) false = .ok ([0,1,2,3], .wins []) := by decide

/-! ## C02 -/

/-- **C02**, shape of the padded result: every window is a slice of the signal
continued by zeros, nothing is left over, and there is at least one window. -/
theorem C02_padded_windows (z : α) (a : List α) (w s : Nat) (hw : 2 ≤ w) (hs : 1 ≤ s) :
    ∃ ws, windowed z a w (some (s : Int)) true = .ok ([], .wins ws) ∧ ws ≠ [] ∧
      ∀ i (h : i < ws.length), ws[i].length = w ∧
        ∀ j (hj : j < w), ws[i][j]? = some (sampleOrZero z a (i * s + j)) := by
  refine ⟨_, windowed_pad z a w s hw hs, ?_, ?_⟩
  · have hn : nPad a.length w s ≠ 0 := by
      rw [← (nPad_padLen a.length w s hw hs).2, Nat.add_comm]
      exact Nat.succ_ne_zero _
    simp [hn]
  · intro i h
    refine ⟨by simp [padWindow], ?_⟩
    intro j hj
    simp [padWindow, hj, sampleOrZero]

example := C02_padded_windows (0 : Nat) [1, 2, 3, 4, 5] 4 2 (by decide) (by decide)

/-- "Every sample is used": each index of `a` lies in one of the `n` windows. -/
def AllSamplesUsed (len n w s : Nat) : Prop :=
  ∀ j, j < len → ∃ i, i < n ∧ i * s ≤ j ∧ j < i * s + w

/-- **C02 is false of the code**: with windows of 5 every 4 samples, the 14th
sample of a 14 sample signal is in no window even though `dopad=True`. -/
theorem C02_all_samples_used_fails :
    ∃ (a : List Nat) (w s : Nat) (ws : List (List Nat)), 2 ≤ w ∧ 1 ≤ s ∧ s ≤ w ∧
      windowed 0 a w (some (s : Int)) true = .ok ([], .wins ws) ∧
      ¬ AllSamplesUsed a.length ws.length w s ∧ ∃ x ∈ a, ∀ v ∈ ws, x ∉ v := by
  refine ⟨[1,2,3,4,5,6,7,8,9,10,11,12,13,14], 5, 4,
    [[1,2,3,4,5],[5,6,7,8,9],[9,10,11,12,13]], by decide, by decide, by decide, by decide, ?_, ?_⟩
  · intro h
    obtain ⟨i, h1, h2, h3⟩ := h 13 (by decide)
    simp at h1
    omega
  · exact ⟨14, by decide, by decide⟩

/-- **C02, the part that holds, exactly.** All samples are used iff the signal
fits in one window, or windows do not overlap and touch, or (overlapping) the
remainder `len % s` fits in the overlap. -/
theorem C02_all_samples_used_iff (z : α) (a : List α) (w s : Nat) (hw : 2 ≤ w) (hs : 1 ≤ s)
    (ws : List (List α)) (h : windowed z a w (some (s : Int)) true = .ok ([], .wins ws)) :
    AllSamplesUsed a.length ws.length w s ↔
      (a.length ≤ w ∨ w = s ∨ (s < w ∧ a.length % s ≤ w - s)) := by
  rw [windowed_pad z a w s hw hs] at h
  injection h with h; injection h with h1 h2; injection h2 with h2
  have hn : ws.length = nPad a.length w s := by rw [← h2]; simp
  rw [hn]
  generalize a.length = l
  constructor
  · intro hall
    by_cases c1 : l ≤ w
    · exact .inl c1
    by_cases c2 : w = s
    · exact .inr (.inl c2)
    by_cases c3 : s < w ∧ l % s ≤ w - s
    · exact .inr (.inr c3)
    exfalso
    have hN : nPad l w s = 1 + (l - w) / s := by
      unfold nPad; rw [if_neg c1, if_neg c2, if_neg c3]
    rw [hN] at hall
    have hb := SlidingWindow.mul_div_bounds (l - w) s hs
    rcases Nat.lt_or_ge w s with hlt | hge
    · -- sample `w` falls in the gap after window 0
      obtain ⟨i, _, h5, h6⟩ := hall w (by omega)
      rcases Nat.eq_zero_or_pos i with h0 | h0
      · subst h0; omega
      · have := Nat.le_mul_of_pos_left s h0; omega
    · obtain ⟨i, h4, h5, h6⟩ := hall (l - 1) (by omega)
      have h7 : i * s ≤ (l - w) / s * s := Nat.mul_le_mul_right s (by omega)
      have h8 : (l - w) / s * s = l - w := by omega
      -- then `l = w + q*s`, so `l % s = w % s ≤ w - s`
      have hls : l % s = w % s := by
        have : l = w + (l - w) / s * s := by omega
        rw [this, Nat.add_mul_mod_self_right]
      have h9 : w % s ≤ w - s := by
        have : w % s = (w - s) % s := by
          conv => lhs; rw [show w = (w - s) + s by omega, Nat.add_mod_right]
        rw [this]; exact Nat.mod_le _ _
      omega
  · intro hc j hj
    unfold nPad
    by_cases c1 : l ≤ w
    · rw [if_pos c1]; exact ⟨0, by omega, by omega, by omega⟩
    rw [if_neg c1]
    by_cases c2 : w = s
    · rw [if_pos c2]
      subst c2
      have hb := SlidingWindow.mul_div_bounds j w hs
      refine ⟨j / w, ?_, hb.1, ?_⟩
      · apply Nat.lt_of_succ_le
        rw [Nat.le_div_iff_mul_le (by omega), Nat.succ_eq_add_one, Nat.add_mul]
        omega
      · rw [Nat.add_mul] at hb; omega
    rw [if_neg c2]
    have c3 : s < w ∧ l % s ≤ w - s := by omega
    rw [if_pos c3]
    have hdm := Nat.div_add_mod l s
    rw [Nat.mul_comm] at hdm
    have hb := SlidingWindow.mul_div_bounds j s hs
    by_cases hlt : j / s < l / s
    · refine ⟨j / s, hlt, hb.1, ?_⟩
      rw [Nat.add_mul] at hb; omega
    · have hq1 : 1 ≤ l / s := by
        rw [Nat.le_div_iff_mul_le (by omega)]; omega
      generalize hq : l / s = q at *
      obtain ⟨q', rfl⟩ : ∃ q', q = q' + 1 := ⟨q - 1, by omega⟩
      have e : (q' + 1) * s = q' * s + s := by rw [Nat.add_mul]; omega
      have : (q' + 1) * s ≤ j / s * s := Nat.mul_le_mul_right s (by omega)
      exact ⟨q', by omega, by omega, by omega⟩

example := C02_all_samples_used_iff (0 : Nat) [1, 2, 3, 4, 5] 4 2 (by decide) (by decide) [[1, 2, 3, 4], [3, 4, 5, 0]] rfl

-- Non-vacuity: both sides of the equivalence occur.
example : windowed 0 [1,2,3,4,5] 2 (some 2) true = .ok ([], .wins [[1,2],[3,4],[5,0]]) := by decide
example : windowed 0 [1,2,3,4,5,6,7] 4 (some 2) true = .ok ([], .wins [[1,2,3,4],[3,4,5,6],[5,6,7,0]]) := by decide

/-! ## C03 -/

open Zounds.SlidingWindow in
/-- **C03.** For every way of cutting a signal `x` into chunks, after all chunks
have been fed (none of them final) the node has emitted exactly the slices
`x[i*s : i*s+w]` for `i < k`, all of full length, and is holding exactly the
samples from `k*s` on; it never holds more than one window's worth, so at most
one complete window is pending. -/
theorem C03_streaming_windows (z : α) (w s : Nat) (hs : 1 ≤ s) (hsw : s ≤ w)
    (chunks : List (List α)) (hne : chunks ≠ []) :
    ∃ out cache, feed z w s {} chunks = .ok (⟨some cache⟩, out) ∧
      (∀ i (h : i < out.length), out[i] = slice chunks.flatten (i * s) w ∧ out[i].length = w) ∧
      cache = chunks.flatten.drop (out.length * s) ∧
      out.length * s ≤ chunks.flatten.length ∧
      cache.length ≤ w := by
  obtain ⟨k, h1, h2, h3, h4⟩ := feed_spec z w s hs hsw chunks {} hne
  simp only [Option.getD_none, List.nil_append] at h1 h2 h3 h4
  refine ⟨_, _, h4, ?_, ?_, ?_, ?_⟩
  · intro i h
    have := h1 i (by simpa using h)
    simp only [List.getElem_map, List.getElem_range, slice, List.length_take, List.length_drop,
      true_and]
    omega
  · simp
  · simpa using h2
  · simp only [List.length_drop]; omega

example := C03_streaming_windows (0 : Nat) 4 2 (by decide) (by decide) [[1, 2, 3], [4, 5], [6, 7, 8]] (by decide)

open Zounds.SlidingWindow in
/-- **C03**, chunking independence: two ways of cutting the same signal emit the
same windows, one of them possibly one window ahead. -/
theorem C03_chunking_independent (z : α) (w s : Nat) (hs : 1 ≤ s) (hsw : s ≤ w)
    (c₁ c₂ : List (List α)) (h₁ : c₁ ≠ []) (h₂ : c₂ ≠ []) (heq : c₁.flatten = c₂.flatten)
    (st₁ st₂ : St α) (o₁ o₂ : List (List α))
    (e₁ : feed z w s {} c₁ = .ok (st₁, o₁)) (e₂ : feed z w s {} c₂ = .ok (st₂, o₂)) :
    (o₁ <+: o₂ ∨ o₂ <+: o₁) ∧ o₁.length ≤ o₂.length + 1 ∧ o₂.length ≤ o₁.length + 1 := by
  obtain ⟨k, p1, p2, p3, p4⟩ := feed_spec z w s hs hsw c₁ {} h₁
  obtain ⟨m, q1, q2, q3, q4⟩ := feed_spec z w s hs hsw c₂ {} h₂
  simp only [Option.getD_none, List.nil_append] at p1 p2 p3 p4 q1 q2 q3 q4
  rw [p4] at e₁; rw [q4] at e₂
  injection e₁ with e₁; injection e₁ with _ e₁
  injection e₂ with e₂; injection e₂ with _ e₂
  subst e₁ e₂
  rw [heq] at *
  generalize c₂.flatten = x at *
  have key : ∀ k m : Nat, k ≤ m →
      (List.range k).map (fun i => (x.drop (i*s)).take w) <+:
      (List.range m).map (fun i => (x.drop (i*s)).take w) := by
    intro k m hkm
    apply List.IsPrefix.map
    obtain ⟨d, rfl⟩ : ∃ d, m = k + d := ⟨m - k, by omega⟩
    rw [List.range_add]; exact List.prefix_append _ _
  have bound : ∀ k m : Nat, (∀ i, i < k → i * s + w ≤ x.length) → x.length ≤ w + m * s → k ≤ m + 1 := by
    intro k m hk hm
    rcases Nat.lt_or_ge (m + 1) k with h | h
    · have := hk (m+1) h
      rw [Nat.add_mul] at this; omega
    · exact h
  refine ⟨?_, ?_, ?_⟩
  · rcases Nat.le_total k m with h | h
    · exact .inl (key _ _ h)
    · exact .inr (key _ _ h)
  · simpa using bound k m p1 q3
  · simpa using bound m k q1 p3

example := C03_chunking_independent (0 : Nat) 4 2 (by decide) (by decide) [[1, 2, 3], [4, 5, 6]] [[1, 2, 3, 4, 5, 6]] (by decide) (by decide) rfl _ _ _ _ rfl rfl

open Zounds.SlidingWindow in
/-- **C03**, the end of the stream: over the whole run, window `i` is the slice at
`i*s` of the signal continued by zeros, whatever the chunking, and the run never
fails. -/
theorem C03_final_windows (z : α) (w s : Nat) (hs : 1 ≤ s) (hsw : s ≤ w)
    (chunks : List (List α)) (last : List α) :
    ∃ out, run z w s chunks last = .ok out ∧
      ∀ i (h : i < out.length), out[i].length = w ∧
        ∀ j (hj : j < w), out[i][j]? = some (sampleOrZero z (chunks.flatten ++ last) (i * s + j)) := by
  have key : ∃ out, run z w s chunks last = .ok out ∧ ∃ K,
      out = (List.range K).map (padWindow z (chunks.flatten ++ last) w s) := by
    by_cases hne : chunks = []
    · subst hne
      obtain ⟨st', h⟩ := push_pad z w s hs hsw {} last
      simp only [run, feed, h]
      exact ⟨_, rfl, _, by simp; rfl⟩
    · obtain ⟨k, h1, h2, h3, h4⟩ := feed_spec z w s hs hsw chunks {} hne
      simp only [Option.getD_none, List.nil_append] at h1 h2 h3 h4
      obtain ⟨st', h⟩ := push_pad z w s hs hsw ⟨some (chunks.flatten.drop (k * s))⟩ last
      simp only [Option.getD_some] at h
      have hcat : chunks.flatten.drop (k*s) ++ last = (chunks.flatten ++ last).drop (k*s) := by
        rw [List.drop_append_of_le_length h2]
      rw [hcat] at h
      simp only [run, h4, h]
      refine ⟨_, rfl, k + nFinal ((chunks.flatten ++ last).drop (k*s)).length w s, ?_⟩
      rw [List.range_add, List.map_append]
      congr 1
      · apply List.map_congr_left
        intro i hi
        have hi := h1 i (by simpa using hi)
        rw [padWindow_full _ _ _ _ _ (by simp only [List.length_append]; omega),
          List.drop_append_of_le_length (by omega),
          List.take_append_of_le_length (by simp only [List.length_drop]; omega)]
      · rw [List.map_map]
        apply List.map_congr_left
        intro i _
        simp only [Function.comp, padWindow_drop]
  obtain ⟨out, h1, K, rfl⟩ := key
  refine ⟨_, h1, ?_⟩
  intro i h
  refine ⟨by simp [padWindow], ?_⟩
  intro j hj
  simp [padWindow, hj, sampleOrZero]

example := C03_final_windows (0 : Nat) 4 2 (by decide) (by decide) [[1, 2, 3], [4, 5]] [6, 7]

open Zounds.SlidingWindow in
theorem nFinal_bounds (l w s : Nat) (hs : 1 ≤ s) (hsw : s ≤ w) :
    (∀ i, i * s + w ≤ l → i < nFinal l w s) ∧ (∀ i, i < nFinal l w s → i * s ≤ l) := by
  unfold nFinal
  by_cases h1 : w = 1
  · obtain rfl : s = 1 := by omega
    rw [if_pos h1]
    constructor <;> intro i hi <;> omega
  · rw [if_neg h1]
    unfold nPad
    by_cases h2 : l ≤ w
    · rw [if_pos h2]
      constructor
      · intro i hi
        have : i * s = 0 := by omega
        rcases Nat.mul_eq_zero.1 this with h | h <;> omega
      · intro i hi
        obtain rfl : i = 0 := by omega
        simp
    · rw [if_neg h2]
      by_cases h3 : w = s
      · subst h3
        rw [if_pos rfl]
        constructor
        · intro i hi
          have : (i + 1) * w ≤ l := by rw [Nat.add_mul]; omega
          have : i + 1 ≤ l / w := (Nat.le_div_iff_mul_le (by omega)).2 this
          have : l / w ≤ (l + w - 1) / w := Nat.div_le_div_right (by omega)
          omega
        · intro i hi
          have : (i + 1) * w ≤ l + w - 1 := (Nat.le_div_iff_mul_le (by omega)).1 hi
          rw [Nat.add_mul] at this
          omega
      · rw [if_neg h3]
        by_cases h4 : s < w ∧ l % s ≤ w - s
        · rw [if_pos h4]
          constructor
          · intro i hi
            have : (i + 1) * s ≤ l := by rw [Nat.add_mul]; omega
            exact (Nat.le_div_iff_mul_le (by omega)).2 this
          · intro i hi
            have : (i + 1) * s ≤ l := (Nat.le_div_iff_mul_le (by omega)).1 hi
            rw [Nat.add_mul] at this
            omega
        · rw [if_neg h4]
          constructor
          · intro i hi
            have : i ≤ (l - w) / s := (Nat.le_div_iff_mul_le (by omega)).2 (by omega)
            omega
          · intro i hi
            have : i * s ≤ l - w := (Nat.le_div_iff_mul_le (by omega)).1 (by omega)
            omega

open Zounds.SlidingWindow in
/-- **C03**, nothing is missing and nothing is made up: the complete run emits every window that lies within the signal, and none that begins
after its end. -/
theorem C03_final_complete (z : α) (w s : Nat) (hs : 1 ≤ s) (hsw : s ≤ w) (chunks : List (List α)) (last : List α)
    (out : List (List α)) (h : run z w s chunks last = .ok out) :
    (∀ i, i * s + w ≤ (chunks.flatten ++ last).length → i < out.length) ∧
    (∀ i, i < out.length → i * s ≤ (chunks.flatten ++ last).length) := by
  by_cases hne : chunks = []
  · subst hne
    obtain ⟨st', hp⟩ := push_pad z w s hs hsw {} last
    simp only [run, feed, hp, List.nil_append, Except.ok.injEq] at h
    subst h
    simpa using nFinal_bounds last.length w s hs hsw
  · obtain ⟨k, h1, h2, h3, h4⟩ := feed_spec z w s hs hsw chunks {} hne
    simp only [Option.getD_none, List.nil_append] at h1 h2 h3 h4
    obtain ⟨st', hp⟩ := push_pad z w s hs hsw ⟨some (chunks.flatten.drop (k * s))⟩ last
    simp only [Option.getD_some] at hp
    simp only [run, h4, hp, Except.ok.injEq] at h
    subst h
    have hl : (chunks.flatten.drop (k * s) ++ last).length = chunks.flatten.length - k * s + last.length := by simp
    obtain ⟨b1, b2⟩ := nFinal_bounds (chunks.flatten.drop (k * s) ++ last).length w s hs hsw
    rw [hl] at b1 b2
    have hN : (chunks.flatten ++ last).length = chunks.flatten.length + last.length := List.length_append
    rw [hN]
    simp only [List.length_append, List.length_map, List.length_range, List.length_drop]
    constructor
    · intro i hi
      by_cases hik : i < k
      · omega
      · have e : i * s = k * s + (i - k) * s := by rw [← Nat.add_mul]; congr 1; omega
        have := b1 (i - k) (by omega)
        omega
    · intro i hi
      by_cases hik : i < k
      · have := h1 i hik; omega
      · have e : i * s = k * s + (i - k) * s := by rw [← Nat.add_mul]; congr 1; omega
        have := b2 (i - k) (by omega)
        omega

example := C03_final_complete (0 : Nat) 4 2 (by decide) (by decide) [[1, 2, 3], [4, 5]] [6, 7] _ rfl

open Zounds.SlidingWindow in
/-- **C03**, a single call of `sliding_window_with_leftovers`: the windows are the slices at
multiples of the step, as many as fit (but for at most one), and the leftover is exactly
what follows the last step; in particular, with no window everything is handed back. -/
theorem C03_with_leftovers (z : α) (a : List α) (w s : Nat) (hs : 1 ≤ s) (hsw : s ≤ w) :
    ∃ left wins, slidingWindowWithLeftovers z a w s false = .ok (left, wins) ∧
      (∀ i (h : i < wins.length), wins[i] = slice a (i * s) w ∧ wins[i].length = w) ∧
      left = a.drop (wins.length * s) ∧ left.length ≤ w ∧ wins.length * s ≤ a.length := by
  obtain ⟨n, h1, h2, h3, h4⟩ := sw_nopad z a w s hs hsw
  refine ⟨_, _, h4, ?_, by simp, by simp; omega, by simpa using h2⟩
  intro i h
  have := h1 i (by simpa using h)
  simp [slice]; omega

example := C03_with_leftovers (0 : Nat) [1, 2, 3, 4, 5] 4 2 (by decide) (by decide)

open Zounds.SlidingWindow in
/-- **C03**, padding in front: with `padwith` the windows are those of the signal preceded
by that many zeros. -/
theorem C03_padwith (z : α) (p w s : Nat) (hs : 1 ≤ s) (hsw : s ≤ w)
    (chunks : List (List α)) (last : List α) :
    ∃ out, runPadded z p w s chunks last = .ok out ∧
      ∀ i (h : i < out.length), out[i].length = w ∧
        ∀ j (hj : j < w), out[i][j]? =
          some (if i * s + j < p then z else sampleOrZero z (chunks.flatten ++ last) (i * s + j - p)) := by
  have hfc : ∀ d : List α, firstChunk z p d = List.replicate p z ++ d := by
    intro d; unfold firstChunk; split
    · rfl
    · have : p = 0 := by omega
      subst this; simp
  have hz : ∀ (x : List α) (k : Nat), sampleOrZero z (List.replicate p z ++ x) k =
      if k < p then z else sampleOrZero z x (k - p) := by
    intro x k
    unfold sampleOrZero
    split
    · rename_i h
      rw [List.getElem?_append_left (by simpa using h), List.getElem?_replicate, if_pos h]; rfl
    · rename_i h
      rw [List.getElem?_append_right (by simpa using h)]; simp
  cases chunks with
  | nil =>
    obtain ⟨out, h1, h2⟩ := C03_final_windows z w s hs hsw [] (firstChunk z p last)
    refine ⟨out, h1, fun i h => ⟨(h2 i h).1, fun j hj => ?_⟩⟩
    rw [(h2 i h).2 j hj, hfc]
    simp only [List.flatten_nil, List.nil_append]
    rw [hz]
  | cons c cs =>
    obtain ⟨out, h1, h2⟩ := C03_final_windows z w s hs hsw (firstChunk z p c :: cs) last
    refine ⟨out, h1, fun i h => ⟨(h2 i h).1, fun j hj => ?_⟩⟩
    rw [(h2 i h).2 j hj, hfc]
    simp only [List.flatten_cons, List.append_assoc]
    rw [hz]

example := C03_padwith (0 : Nat) 3 4 2 (by decide) (by decide) [[1, 2, 3], [4, 5]] [6, 7]

open Zounds.SlidingWindow in
/-- **C03**, the window function: sample `j` of every emitted window is weighted with the
`j`-th coefficient, and nothing else changes. -/
theorem C03_window_function {β : Type v} (mul : β → α → α) (func : List β) (wins : List (List α))
    (hlen : ∀ x ∈ wins, x.length = func.length) (i j : Nat) (hi : i < wins.length) (hj : j < func.length) :
    ∃ (h : i < (applyFunc mul func wins).length) (h' : j < ((applyFunc mul func wins)[i]).length)
      (h'' : j < wins[i].length),
      ((applyFunc mul func wins)[i])[j] = mul func[j] (wins[i])[j] := by
  have hw := hlen _ (List.getElem_mem hi)
  refine ⟨by simpa [applyFunc] using hi, by simp [applyFunc]; omega, by omega, by simp [applyFunc]⟩

example := C03_window_function (fun (a b : Nat) => a * b) [1, 2, 1] [[1, 2, 3], [4, 5, 6]] (by decide) 1 2 (by decide) (by decide)

open Zounds.SlidingWindow in
/-- **C03 at the end of the stream is false of the code** in one respect: the
number of (zero padded) windows of the complete run depends on the chunking.
Six samples, windows of 4 every 2: one chunk gives three windows, a chunk of
five followed by a chunk of one gives two. -/
theorem C03_final_count_depends_on_chunking_fails :
    run 0 4 2 [] [1,2,3,4,5,6] = .ok [[1,2,3,4],[3,4,5,6],[5,6,0,0]] ∧
    run 0 4 2 [[1,2,3,4,5]] [6] = .ok [[1,2,3,4],[3,4,5,6]] := by
  decide

open Zounds.SlidingWindow in
/-- **C03 needs `s ≤ w`**: with a step larger than the window the samples of the
gap are not skipped across a chunk boundary, so the windows shift. -/
theorem C03_step_larger_than_window_fails :
    run 0 2 4 [] [0,1,2,3,4,5,6,7] = .ok [[0,1],[4,5]] ∧
    run 0 2 4 [[0,1,2]] [3,4,5,6,7] = .ok [[0,1],[3,4]] := by
  decide

-- Non-vacuity of the C03 hypotheses.
open Zounds.SlidingWindow in
example : feed 0 4 2 {} [[1,2,3,4,5],[],[6],[7,8,9,10]] =
    .ok (⟨some [9,10]⟩, [[1,2,3,4],[3,4,5,6],[5,6,7,8],[7,8,9,10]]) := by decide

open Zounds.SlidingWindow in
example : runPadded 0 2 4 2 [[1,2,3]] [4,5] = .ok [[0,0,1,2],[1,2,3,4],[3,4,5,0]] := by decide

end Zounds.Props
