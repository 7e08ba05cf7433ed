import Verif.Model.OggVorbis
import Mathlib.Tactic.Common
import Mathlib.Tactic.Linarith
import Mathlib.Tactic.Ring

/-!
# C33: reading a sound file by consecutive time slices returns every sample once
-/

namespace Zounds.Ogg
variable {α : Type}

/-- Specification: reads of `n1, n2, …` frames one after the other, starting at frame `i`. -/
def alignedSpans : Nat → List Nat → List (Nat × Nat)
  | _, [] => []
  | i, n :: ns => (i, n) :: alignedSpans (i + n) ns

theorem freq_pos (rate : Nat) (h : 0 < rate) (h2 : rate ≤ sec) : 0 < freq rate := Nat.div_pos h2 h

/-- **C33, one slice**: the slice `[start, start+duration)` with both ends on sample boundaries returns exactly the frames of
that interval; without a duration, everything from the start; and the full slice the whole file. -/
theorem C33_slice (f : Nat) (hf : 0 < f) (frames : List α) (i n : Nat) (hi : i ≤ frames.length) :
    getItem f frames (i * f) (some (n * f)) = .ok ((frames.drop i).take n) ∧
    getItem f frames (i * f) none = .ok (frames.drop i) ∧
    getAll frames = frames := by
  have e1 : i * f / f = i := Nat.mul_div_cancel _ hf
  have e2 : n * f / f = n := Nat.mul_div_cancel _ hf
  have hn : ¬ ((n : Int) < 0) := by omega
  have hi' : ¬ (frames.length < i) := by omega
  refine ⟨?_, ?_, by simp [getAll]⟩
  · simp only [getItem, e1, nSamples, e2, hn, hi', if_false, Int.toNat_natCast]
  · simp [getItem, e1, nSamples, hi']

example := C33_slice 3 (by decide) ['a', 'b', 'c'] 1 2 (by decide)

/-- **C33, any consecutive slices, no overlap, at most one sample lost per seam**: however a timeline is cut into consecutive
intervals, the frames read for one never overlap those read for the next, and between them at most one frame is
skipped; none is skipped exactly when the fractional sample positions do not carry over. -/
theorem C33_seams (f : Nat) (hf : 0 < f) (t d : Nat) :
    t / f + d / f ≤ (t + d) / f ∧ (t + d) / f ≤ t / f + d / f + 1 ∧
    ((t + d) / f = t / f + d / f ↔ t % f + d % f < f) := by
  have key : (t + d) / f = t / f + d / f + (t % f + d % f) / f := by
    have h1 : t + d = f * (t / f + d / f) + (t % f + d % f) := by
      have a := Nat.div_add_mod t f
      have b := Nat.div_add_mod d f
      rw [Nat.mul_add]; omega
    conv_lhs => rw [h1]
    rw [Nat.mul_add_div hf]
  have hm1 := Nat.mod_lt t hf
  have hm2 := Nat.mod_lt d hf
  have hq : (t % f + d % f) / f ≤ 1 := by
    have : (t % f + d % f) / f < 2 := by rw [Nat.div_lt_iff_lt_mul hf]; omega
    omega
  refine ⟨by rw [key]; exact Nat.le_add_right _ _, by rw [key]; exact Nat.add_le_add_left hq _, ?_⟩
  constructor
  · intro he
    rw [key] at he
    have h0 : (t % f + d % f) / f = 0 := by omega
    rcases (Nat.div_eq_zero_iff).1 h0 with h' | h'
    · omega
    · exact h'
  · intro hlt
    rw [key, Nat.div_eq_of_lt hlt]; rfl

example := C33_seams 3 (by decide) 4 4

/-- **C33, no frame is returned twice** by any sequence of consecutive slices. -/
theorem C33_no_duplicates (f : Nat) (hf : 0 < f) (t : Nat) (ds : List Nat) :
    (spans f t ds).Pairwise (fun a b => a.1 + a.2 ≤ b.1) := by
  have ge : ∀ (ds : List Nat) (t : Nat), ∀ x ∈ spans f t ds, t / f ≤ x.1 := by
    intro ds
    induction ds with
    | nil => intro t x hx; simp [spans] at hx
    | cons d ds ih =>
      intro t x hx
      simp only [spans, List.mem_cons] at hx
      rcases hx with rfl | hx
      · exact Nat.le_refl _
      · exact Nat.le_trans (Nat.le_trans (Nat.le_add_right _ _) (C33_seams f hf t d).1) (ih (t + d) x hx)
  induction ds generalizing t with
  | nil => simp [spans]
  | cons d ds ih =>
    simp only [spans, List.pairwise_cons]
    exact ⟨fun x hx => Nat.le_trans (C33_seams f hf t d).1 (ge ds (t + d) x hx), ih (t + d)⟩

example := C33_no_duplicates 3 (by decide) 0 [4, 4, 4]

/-- **C33, sample-aligned slices are seamless**: if every interval is a whole number of samples, each read starts where the last
one ended. -/
theorem C33_aligned (f : Nat) (hf : 0 < f) (i : Nat) (ns : List Nat) :
    spans f (i * f) (ns.map (· * f)) = alignedSpans i ns := by
  induction ns generalizing i with
  | nil => rfl
  | cons n ns ih =>
    simp only [List.map_cons, spans, alignedSpans, Nat.mul_div_cancel _ hf, ← Nat.add_mul, ih]

example := C33_aligned 3 (by decide) 1 [2, 2]

theorem div_div_self (T rate : Nat) (h : 0 < rate) (hr : rate * rate < T) : T / (T / rate) = rate := by
  have hd := Nat.div_add_mod T rate
  have hm : T % rate < rate := Nat.mod_lt _ h
  have hq : rate ≤ T / rate := (Nat.le_div_iff_mul_le h).2 (by omega)
  apply Nat.div_eq_of_lt_le
  · omega
  · rw [Nat.add_mul, Nat.one_mul]; omega

/-- Number of frames in a full one-second chunk. -/
theorem second_samples (rate : Nat) (h : 0 < rate) (hr : rate * rate < sec) :
    sec / freq rate = rate := div_div_self _ rate h hr

theorem start_eq (T f rate k : Nat) (hs : T / f = rate) (hk : k * (T % f) < f) : k * T / f = k * rate := by
  have hdm := Nat.div_add_mod T f
  rw [hs] at hdm
  have : k * T = f * (k * rate) + k * (T % f) := by
    conv_lhs => rw [← hdm]
    ring
  rw [this, Nat.mul_add_div (by omega), Nat.div_eq_of_lt hk, Nat.add_zero]

theorem getItem_second (f one rate : Nat) (hs : one / f = rate) (frames : List α) (st s : Nat) (hst : st / f = s)
    (hle : s ≤ frames.length) : getItem f frames st (some one) = .ok ((frames.drop s).take rate) := by
  have hn : ¬ ((rate : Int) < 0) := by omega
  have hlt : ¬ (frames.length < s) := by omega
  simp only [getItem, nSamples, hs, hst, hlt, hn, if_false, Int.toNat_natCast]

theorem iterChunks_flatten (f one rate : Nat) (h : 0 < rate) (hs : one / f = rate) (frames : List α)
    (hdrift : (frames.length / rate) * (one % f) < f) (fuel k : Nat)
    (hk : k * rate ≤ frames.length) (hfuel : frames.length / rate < fuel + k) :
    ∃ cs, iterChunksFrom f one frames fuel k = some (cs, none) ∧ cs.flatten = frames.drop (k * rate) ∧
      (∀ c ∈ cs.dropLast, c.length = rate) ∧ (∀ c ∈ cs.getLast?, c.length < rate) ∧ cs ≠ [] := by
  have hkq : k ≤ frames.length / rate := (Nat.le_div_iff_mul_le h).2 hk
  induction fuel generalizing k with
  | zero => omega
  | succ fuel ih =>
    have hst : k * one / f = k * rate := start_eq one f rate k hs (by
      refine Nat.lt_of_le_of_lt ?_ hdrift
      exact Nat.mul_le_mul_right _ hkq)
    have hget := getItem_second f one rate hs frames _ _ hst hk
    have hring : (k + 1) * rate = k * rate + rate := by ring
    simp only [iterChunksFrom, hget, nSamples, hs]
    by_cases hfull : (k + 1) * rate ≤ frames.length
    · have hlen : ((frames.drop (k * rate)).take rate).length = rate := by
        simp only [List.length_take, List.length_drop]; omega
      rw [if_pos (by rw [hlen])]
      obtain ⟨cs, e1, e2, e3, e4, e5⟩ := ih (k + 1) hfull (by omega) ((Nat.le_div_iff_mul_le h).2 hfull)
      rw [e1]
      refine ⟨_, rfl, ?_, ?_, ?_, by simp⟩
      · rw [List.flatten_cons, e2, hring, ← List.drop_drop, List.take_append_drop]
      · intro c hc
        cases cs with
        | nil => simp at hc
        | cons a as =>
          simp only [List.dropLast_cons_cons, List.mem_cons] at hc
          rcases hc with rfl | hc
          · exact hlen
          · exact e3 c hc
      · intro c hc
        cases cs with
        | nil => exact absurd rfl e5
        | cons a as => apply e4; simpa using hc
    · have hlen : ((frames.drop (k * rate)).take rate).length < rate := by
        simp only [List.length_take, List.length_drop]; omega
      rw [if_neg (by omega)]
      refine ⟨_, rfl, ?_, by simp, by intro c hc; simp at hc; subst hc; simpa using hlen, by simp⟩
      simp only [List.flatten_cons, List.flatten_nil, List.append_nil]
      rw [List.take_of_length_le]; simp; omega

/-- **C33_partial, second by second**: iterating over a file in one-second chunks terminates without an error, returns every
frame once and in order, and every chunk but the last holds exactly one second, as long as the file is short enough for the
rounding of the sample period not to add up to a sample (`⌊seconds⌋ · (10¹² mod freq) < freq`). -/
theorem C33_iter_chunks_partial (rate : Nat) (h : 0 < rate) (hr : rate * rate < sec) (frames : List α)
    (hdrift : (frames.length / rate) * (sec % freq rate) < freq rate) :
    ∃ cs, iterChunks rate frames (frames.length + 1) = some (cs, none) ∧ cs.flatten = frames ∧
      (∀ c ∈ cs.dropLast, c.length = rate) ∧ (∀ c ∈ cs.getLast?, c.length < rate) := by
  obtain ⟨cs, a, b, c, d, -⟩ := iterChunks_flatten (freq rate) sec rate h (second_samples rate h hr) frames hdrift
    (frames.length + 1) 0 (by rw [Nat.zero_mul]; exact Nat.zero_le _)
    (by have := Nat.div_le_self frames.length rate; omega)
  rw [Nat.zero_mul, List.drop_zero] at b
  exact ⟨cs, a, b, c, d⟩

example (frames : List Nat) (h : frames.length = 44100 * 534) := C33_iter_chunks_partial 44100 (by decide) (by decide +kernel) frames (by rw [h]; decide +kernel)

theorem mod_div_of_dvd (T rate : Nat) (h : 0 < rate) (hdvd : rate ∣ T) : T % (T / rate) = 0 := by
  obtain ⟨q, rfl⟩ := hdvd
  rw [Nat.mul_div_cancel_left _ h, Nat.mul_mod_left]

/-- **C33, rates that divide 10¹² picoseconds** (e.g. 16000 Hz, 8000 Hz): second-by-second reading is exact for files of any
length. -/
theorem C33_iter_chunks_exact (rate : Nat) (h : 0 < rate) (hr : rate * rate < sec) (hdvd : rate ∣ sec)
    (frames : List α) :
    ∃ cs, iterChunks rate frames (frames.length + 1) = some (cs, none) ∧ cs.flatten = frames ∧
      (∀ c ∈ cs.dropLast, c.length = rate) := by
  have hm : sec % freq rate = 0 := mod_div_of_dvd _ rate h hdvd
  have hsec : 0 < sec := by decide
  have hp := freq_pos rate h (Nat.le_of_dvd hsec hdvd)
  obtain ⟨cs, a, b, c, -⟩ := C33_iter_chunks_partial rate h hr frames (by rw [hm, Nat.mul_zero]; exact hp)
  exact ⟨cs, a, b, c⟩

example := C33_iter_chunks_exact 16000 (by decide) (by decide +kernel) (by decide +kernel) ['a', 'b', 'c']

/-- **C33, refuted for long files**: at 44100 Hz the chunk for second 534 ends just before frame 44100·535, and the chunk for
second 535 starts at the frame after it, so in every file longer than that the frame at 8 min 55 s is returned by no
chunk; at 96000 Hz the same happens at 2 min 43 s. -/
theorem C33_drift_refuted (frames : List α) :
    (44100 * 535 + 1 ≤ frames.length →
      getItem (freq 44100) frames (534 * sec) (some sec) = .ok ((frames.drop (44100 * 534)).take 44100) ∧
      getItem (freq 44100) frames (535 * sec) (some sec) = .ok ((frames.drop (44100 * 535 + 1)).take 44100)) ∧
    (96000 * 163 + 1 ≤ frames.length →
      getItem (freq 96000) frames (162 * sec) (some sec) = .ok ((frames.drop (96000 * 162)).take 96000) ∧
      getItem (freq 96000) frames (163 * sec) (some sec) = .ok ((frames.drop (96000 * 163 + 1)).take 96000)) := by
  have s1 : sec / freq 44100 = 44100 := by decide +kernel
  have s2 : sec / freq 96000 = 96000 := by decide +kernel
  have e1 : 534 * sec / freq 44100 = 44100 * 534 := by decide +kernel
  have e2 : 535 * sec / freq 44100 = 44100 * 535 + 1 := by decide +kernel
  have e3 : 162 * sec / freq 96000 = 96000 * 162 := by decide +kernel
  have e4 : 163 * sec / freq 96000 = 96000 * 163 + 1 := by decide +kernel
  have l1 : (44100 * 534 : Nat) ≤ 44100 * 535 + 1 := by decide +kernel
  have l2 : (96000 * 162 : Nat) ≤ 96000 * 163 + 1 := by decide +kernel
  exact ⟨fun hl => ⟨getItem_second _ _ _ s1 frames _ _ e1 (Nat.le_trans l1 hl), getItem_second _ _ _ s1 frames _ _ e2 hl⟩,
    fun hl => ⟨getItem_second _ _ _ s2 frames _ _ e3 (Nat.le_trans l2 hl), getItem_second _ _ _ s2 frames _ _ e4 hl⟩⟩

-- concrete instances of the hypotheses
example : (0 : Nat) < 44100 ∧ 44100 * 44100 < sec ∧
    (44100 * 534 / 44100) * (sec % freq 44100) < freq 44100 := by decide +kernel
example : (16000 : Nat) ∣ sec ∧ 16000 * 16000 < sec := by decide +kernel
example : iterChunks 2 [1, 2, 3, 4, 5] 6 = some ([[1, 2], [3, 4], [5]], none) := by decide +kernel
example : spans 3 0 [4, 4, 4] = [(0, 1), (1, 1), (2, 1)] := by decide

end Zounds.Ogg
