import Verif.Model.Resynth
import Verif.Props.Stft
import Verif.Props.Mdct
import Verif.Props.Fft
import Verif.Props.WindowFunc

/-!
# A sound through a graph and back (C295 - C297)
-/

namespace Zounds.Resynth
open Zounds Zounds.Spectral Zounds.Stft

/-- `out` is the sound `x`, louder by the factor `g`, but for its first `m` and its last `m` samples; it is at least as long as the sound without its last `m` samples. -/
structure Restored (m : Nat) (g : ℝ) (x out : List ℝ) : Prop where
  middle : ∀ t, m ≤ t → t + m < x.length → out.getD t 0 = g * x.getD t 0
  long : x.length ≤ out.length

/-- The number of windows of a run over half-lapped windows. -/
theorem frames_enough (m N k : Nat) (hm : 0 < m) (hk : k = 0 ∨ (2 * m < N ∧ (k - 1) * m + 2 * m ≤ N)) (hks : k * m ≤ N) :
    0 < k + Npx.nPad (N - k * m) (2 * m) m ∧ N ≤ (k + Npx.nPad (N - k * m) (2 * m) m + 1) * m := by
  rw [nPad_eq _ _ _ (by omega) (by omega), if_neg (by omega : ¬ m = 2 * m)]
  split
  · refine ⟨by omega, ?_⟩
    have e : (k + 1 + 1) * m = k * m + 2 * m := by rw [Nat.add_assoc, Nat.add_mul]
    omega
  · rename_i hl
    have h1 := Nat.div_add_mod (N - k * m) m
    have h2 := Nat.mod_lt (N - k * m) hm
    have e : (k + (N - k * m) / m + 1) * m = k * m + m * ((N - k * m) / m) + m := by
      rw [Nat.add_mul, Nat.add_mul, Nat.one_mul, Nat.mul_comm ((N - k * m) / m) m]
    have h3 : 0 < (N - k * m) / m := Nat.div_pos (by omega) hm
    refine ⟨by omega, ?_⟩
    omega

theorem windows_eq (m n : Nat) (x : List ℝ) :
    (List.range n).map (fun i => (List.range (2 * m)).map fun (j : Nat) => (WindowFunc.oggvorbis (2 * m)).getD j 0 * (fun t => x.getD t 0) (i * m + j)) =
      (List.range n).map fun i => List.zipWith (· * ·) (WindowFunc.oggvorbis (2 * m)) (windowAt x m (2 * m) i) := by
  apply List.map_congr_left
  intro i _
  apply List.ext_getElem
  · simp [windowAt, WindowFunc.oggvorbis_length]
  · intro j h1 h2
    have hj : j < 2 * m := by simpa using h1
    simp only [List.getElem_map, List.getElem_range, List.getElem_zipWith, windowAt]
    rw [List.getD_eq_getElem _ _ (by rw [WindowFunc.oggvorbis_length]; exact hj)]

/-- **C295**: however the samples of a sound arrive, the graph's `fft` feature (half lapped ogg vorbis windows) given to the `FFTSynthesizer` makes a sound at least as long as the original,
which is the original times the constant `1 / oggMax²` but for half a window at either end. -/
theorem C295_fft (f0 : Int) (hf0 : 0 < f0) (m : Nat) (hm : 0 < m) (chunks : List (List ℝ)) (last : List ℝ) :
    ∃ out, viaFft f0 m (2 * m) chunks last = .ok out ∧ Restored m (1 / WindowFunc.oggMax (2 * m) ^ 2) (chunks.flatten ++ last) out := by
  obtain ⟨k, hk, hks, hrun⟩ := run_frames (2 * m) m (by omega) (by omega) (by omega) chunks last
  obtain ⟨hpos, hlong⟩ := frames_enough m _ k hm hk hks
  generalize hn : k + Npx.nPad ((chunks.flatten ++ last).length - k * m) (2 * m) m = n at hpos hlong hrun
  obtain ⟨k', rfl⟩ : ∃ k', n = k' + 1 := ⟨n - 1, by omega⟩
  obtain ⟨coeffs, out, h1, h2, -, h4, h5, h6⟩ := C54_fft_roundtrip (fun t => (chunks.flatten ++ last).getD t 0) f0 m k' hf0 hm
  rw [windows_eq] at h1
  have hg : graphStft m (2 * m) 0 chunks last = .ok coeffs := by
    unfold graphStft
    rw [hrun]
    simp only []
    unfold SlidingWindow.applyFunc
    rw [List.map_map]
    exact h1
  refine ⟨out, ?_, ?_, ?_⟩
  · unfold viaFft
    rw [hg]
    simp only []
    rw [h2, Nat.mul_div_cancel_left m (by omega)]
    exact h4
  · intro t ht1 ht2
    have e : (k' + 1 + 1) * m = (k' + 1) * m + m := by rw [Nat.add_mul (k' + 1), Nat.one_mul]
    exact h6 t ht1 (by omega)
  · rw [h5]
    exact hlong

/-- **C296**: the same for a graph's `mdct` feature and the `MDCTSynthesizer`. -/
theorem C296_mdct (f0 : Int) (hf0 : 0 < f0) (m : Nat) (hm : 0 < m) (chunks : List (List ℝ)) (last : List ℝ) :
    ∃ out, viaMdct f0 m (2 * m) chunks last = .ok out ∧ Restored m (1 / WindowFunc.oggMax (2 * m) ^ 2) (chunks.flatten ++ last) out := by
  obtain ⟨k, hk, hks, hrun⟩ := run_frames (2 * m) m (by omega) (by omega) (by omega) chunks last
  obtain ⟨hpos, hlong⟩ := frames_enough m _ k hm hk hks
  generalize hn : k + Npx.nPad ((chunks.flatten ++ last).length - k * m) (2 * m) m = n at hpos hlong hrun
  obtain ⟨k', rfl⟩ : ∃ k', n = k' + 1 := ⟨n - 1, by omega⟩
  obtain ⟨coeffs, out, h1, h2, -, h4, h5, h6⟩ := C53_roundtrip (fun t => (chunks.flatten ++ last).getD t 0) f0 m k' hf0 hm
  rw [windows_eq] at h1
  have hg : graphMdct m (2 * m) chunks last = .ok coeffs := by
    unfold graphMdct
    rw [hrun]
    simp only []
    unfold SlidingWindow.applyFunc
    rw [List.map_map]
    exact h1
  refine ⟨out, ?_, ?_, ?_⟩
  · unfold viaMdct
    rw [hg]
    simp only []
    rw [h2, Nat.mul_div_cancel_left m (by omega)]
    exact h4
  · intro t ht1 ht2
    have e : (k' + 1 + 1) * m = (k' + 1) * m + m := by rw [Nat.add_mul (k' + 1), Nat.one_mul]
    exact h6 t ht1 (by omega)
  · rw [h5]
    exact hlong

/-- **C296**: resynthesis by either way gives the same sound, however it arrived, but for half a window at either end. -/
theorem C296_same (f0 : Int) (hf0 : 0 < f0) (m : Nat) (hm : 0 < m) (chunks chunks' : List (List ℝ)) (last last' : List ℝ)
    (hsame : chunks.flatten ++ last = chunks'.flatten ++ last') :
    ∃ a b, viaFft f0 m (2 * m) chunks last = .ok a ∧ viaMdct f0 m (2 * m) chunks' last' = .ok b ∧
      ∀ t, m ≤ t → t + m < (chunks.flatten ++ last).length → a.getD t 0 = b.getD t 0 := by
  obtain ⟨a, ha, ra⟩ := C295_fft f0 hf0 m hm chunks last
  obtain ⟨b, hb, rb⟩ := C296_mdct f0 hf0 m hm chunks' last'
  refine ⟨a, b, ha, hb, fun t h1 h2 => ?_⟩
  rw [ra.middle t h1 h2, rb.middle t h1 (by rw [← hsame]; exact h2), hsame]

example := C296_mdct 22675736 (by norm_num) 2 (by norm_num) [[1, 2], [3]] [4, 5, 6, 7]
example := C296_same 22675736 (by norm_num) 2 (by norm_num) [[1, 2], [3]] [[1], [2, 3]] [4, 5, 6, 7] [4, 5, 6, 7] rfl

/-- **C297, refuted**: resynthesis gives the sound back.  Every sample that is not zero and not within half a window of an end comes back louder, for every window size. -/
theorem C297_louder_refuted (f0 : Int) (hf0 : 0 < f0) (m : Nat) (hm : 0 < m) (chunks : List (List ℝ)) (last : List ℝ) :
    ∃ out, viaFft f0 m (2 * m) chunks last = .ok out ∧
      ∀ t, m ≤ t → t + m < (chunks.flatten ++ last).length → (chunks.flatten ++ last).getD t 0 ≠ 0 → |(chunks.flatten ++ last).getD t 0| < |out.getD t 0| := by
  obtain ⟨out, h, r⟩ := C295_fft f0 hf0 m hm chunks last
  refine ⟨out, h, fun t h1 h2 h0 => ?_⟩
  have p1 := WindowFunc.oggMax_pos (2 * m) (by omega)
  have p2 := WindowFunc.oggMax_lt_one m hm
  have hg : 1 < 1 / WindowFunc.oggMax (2 * m) ^ 2 := by
    rw [lt_div_iff₀ (by positivity), one_mul]
    nlinarith
  rw [r.middle t h1 h2, abs_mul, abs_of_pos (show 0 < 1 / WindowFunc.oggMax (2 * m) ^ 2 by linarith)]
  have : 0 < |(chunks.flatten ++ last).getD t 0| := abs_pos.2 h0
  nlinarith

/-- A sound of seven samples that arrives in three pieces, windows of four samples. -/
example : ∃ out, viaFft 22675736 2 4 [[1, 2], [3]] [4, 5, 6, 7] = .ok out ∧ 7 ≤ out.length ∧ out.getD 3 0 = 1 / WindowFunc.oggMax 4 ^ 2 * 4 := by
  obtain ⟨out, h, r⟩ := C295_fft 22675736 (by norm_num) 2 (by norm_num) [[1, 2], [3]] [4, 5, 6, 7]
  exact ⟨out, h, r.long, r.middle 3 (by norm_num) (by simp)⟩

end Zounds.Resynth
