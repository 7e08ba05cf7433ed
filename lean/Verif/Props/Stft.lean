import Verif.Model.Stft
import Verif.Lemmas.SlidingWindow
import Verif.Props.Windowed
import Verif.Props.Codebook

/-!
# C245-C248: short time Fourier transforms, of whole signals and of streams
-/

namespace Zounds.Stft
open Zounds Zounds.Spectral Zounds.SlidingWindow Zounds.Npx

/-- The `wl` samples from sample `i * hop` on, of a signal continued with zeros. -/
def windowAt (x : List ℝ) (hop wl i : Nat) : List ℝ := (List.range wl).map fun (j : Nat) => x.getD (i * hop + j) 0

/-- `frame` is the spectrum of the `i`-th window, weighted by the coefficients `c`. -/
def FrameOf (x : List ℝ) (hop wl : Nat) (c : List ℝ) (i : Nat) (frame : List ℂ) : Prop :=
  rfft (List.zipWith (· * ·) (windowAt x hop wl i) c) = .ok frame

theorem FrameOf.unique {x : List ℝ} {hop wl : Nat} {c : List ℝ} {i : Nat} {a b : List ℂ} (ha : FrameOf x hop wl c i a) (hb : FrameOf x hop wl c i b) : a = b := by
  unfold FrameOf at ha hb
  rw [ha] at hb
  exact Except.ok.inj hb

/-- The frames `0 … n - 1`. -/
theorem frames_ok (x : List ℝ) (hop wl : Nat) (hw : 0 < wl) (c : List ℝ) (hc : c.length = wl) (n : Nat) :
    ∃ out, ((List.range n).map fun i => List.zipWith (· * ·) (windowAt x hop wl i) c).mapM rfft = .ok out ∧ out.length = n ∧
      ∀ i (h : i < out.length), FrameOf x hop wl c i out[i] := by
  have hne : ∀ i, List.zipWith (· * ·) (windowAt x hop wl i) c ≠ [] := by
    intro i h
    have := congrArg List.length h
    simp [windowAt, hc] at this
    omega
  have hok : ∀ i, ∃ o, rfft (List.zipWith (· * ·) (windowAt x hop wl i) c) = .ok o := by
    intro i
    unfold rfft
    rw [if_neg (hne i)]
    exact ⟨_, rfl⟩
  choose g hg using hok
  refine ⟨(List.range n).map g, ?_, by simp, ?_⟩
  · rw [List.mapM_map]
    exact Codebook.mapM_ok_of _ _ g (fun i _ => hg i)
  · intro i h
    simp only [List.getElem_map, List.getElem_range]
    exact hg i

theorem padWindow_at (x : List ℝ) (hop wl i : Nat) : padWindow 0 x wl hop i = windowAt x hop wl i := rfl

/-- How many windows there are. -/
theorem nPad_long (l w s : Nat) (hs : 1 ≤ s) (hsw : s < w) (hl : w < l) : nPad l w s = l / s := by
  unfold nPad
  rw [if_neg (by omega), if_neg (by omega)]
  split
  · rfl
  · rename_i h
    have hm := Nat.mod_lt l (by omega : 0 < s)
    have hd := Nat.div_add_mod l s
    have h1 : w - s < l % s := by omega
    have hq : 1 ≤ l / s := (Nat.le_div_iff_mul_le (by omega)).2 (by omega)
    have e : (l - w) / s = l / s - 1 := by
      rw [Nat.div_eq_iff (by omega)]
      generalize l / s = q at *
      obtain ⟨q', rfl⟩ : ∃ q', q = q' + 1 := ⟨q - 1, by omega⟩
      rw [Nat.mul_add] at hd
      simp only [Nat.add_sub_cancel]
      rw [Nat.mul_comm q' s]
      omega
    omega

theorem nPad_eq (l w s : Nat) (hs : 1 ≤ s) (hsw : s ≤ w) :
    nPad l w s = if l ≤ w then 1 else if s = w then (l + s - 1) / s else l / s := by
  by_cases h1 : l ≤ w
  · rw [if_pos h1]; unfold nPad; rw [if_pos h1]
  · rw [if_neg h1]
    by_cases h2 : s = w
    · rw [if_pos h2]; unfold nPad; rw [if_neg h1, if_pos h2.symm]
    · rw [if_neg h2]; exact nPad_long l w s hs (by omega) (by omega)

/-- **C245**: `stft` of a signal has one frame if it fits into a window and otherwise one for every hop that is completed (without overlap, also for the one that is begun);
frame `i` is the spectrum of the weighted samples from `i` hops on, zeros after the end. -/
theorem C245_stft (x : List ℝ) (hop wl : Nat) (hw : 2 ≤ wl) (hh : 1 ≤ hop) (hhw : hop ≤ wl) (f : Nat → List ℝ) (hf : (f wl).length = wl) :
    ∃ out, stft1 x hop wl (some f) = .ok out ∧
      out.length = (if x.length ≤ wl then 1 else if hop = wl then (x.length + hop - 1) / hop else x.length / hop) ∧
      ∀ i (h : i < out.length), FrameOf x hop wl (f wl) i out[i] := by
  have h0 : slidingWindowWithLeftovers 0 x wl hop true = .ok ([], (List.range (nPad x.length wl hop)).map (padWindow 0 x wl hop)) := by
    rcases sw_pad 0 x wl hop hh hhw with h | ⟨_, h, _⟩
    · rw [h]; unfold nFinal; rw [if_neg (by omega)]
    · omega
  obtain ⟨out, h1, h2, h3⟩ := frames_ok x hop wl (by omega) (f wl) hf (nPad x.length wl hop)
  refine ⟨out, ?_, by rw [h2, nPad_eq _ _ _ hh hhw], h3⟩
  unfold stft1 spectra
  rw [h0]
  simp only [List.map_map]
  exact h1

/-- Ten samples in windows of four: five frames every two samples, three without overlap; three samples: one frame. -/
example (f : Nat → List ℝ) (hf : ∀ n, (f n).length = n) (x : List ℝ) (hx : x.length = 10) :
    (∃ out, stft1 x 2 4 (some f) = .ok out ∧ out.length = 5) ∧ (∃ out, stft1 x 4 4 (some f) = .ok out ∧ out.length = 3) ∧
      ∃ out, stft1 [1, 2, 3] 2 4 (some f) = .ok out ∧ out.length = 1 := by
  obtain ⟨a, h1, h2, _⟩ := C245_stft x 2 4 (by omega) (by omega) (by omega) f (hf 4)
  obtain ⟨b, h3, h4, _⟩ := C245_stft x 4 4 (by omega) (by omega) (by omega) f (hf 4)
  obtain ⟨c, h5, h6, _⟩ := C245_stft [1, 2, 3] 2 4 (by omega) (by omega) (by omega) f (hf 4)
  exact ⟨⟨a, h1, by rw [h2, hx]; rfl⟩, ⟨b, h3, by rw [h4, hx]; rfl⟩, ⟨c, h5, by rw [h6]; rfl⟩⟩

/-- As long as there is not more than a window nothing is emitted. -/
theorem feed_short (z : ℝ) (w s : Nat) (hw : 2 ≤ w) (hs : 1 ≤ s) : ∀ (cs : List (List ℝ)) (st : St ℝ), (st.cache.getD [] ++ cs.flatten).length ≤ w →
    ∃ st', feed z w s st cs = .ok (st', []) ∧ st'.cache.getD [] = st.cache.getD [] ++ cs.flatten := by
  intro cs
  induction cs with
  | nil => intro st _; exact ⟨st, rfl, by simp⟩
  | cons c cs ih =>
    intro st h
    rw [List.flatten_cons, ← List.append_assoc] at h
    have he : enqueue st c = ⟨some (st.cache.getD [] ++ c)⟩ := by
      unfold enqueue; cases st.cache <;> simp
    have hlen : (st.cache.getD [] ++ c).length ≤ w := by
      rw [List.length_append] at h; omega
    have hp : push z w s false st c = .ok (⟨some (st.cache.getD [] ++ c)⟩, []) := by
      unfold push dequeue
      rw [he]
      simp only []
      have : slidingWindowWithLeftovers z (st.cache.getD [] ++ c) w s false = .ok (st.cache.getD [] ++ c, []) := by
        unfold slidingWindowWithLeftovers
        rw [windowed_nopad z _ w s hw hs]
        have hn : nWin (st.cache.getD [] ++ c).length w s = 0 := by
          unfold nWin
          rw [if_pos hlen]
        rw [hn]
        simp [Out.windows]
      rw [this]
      rfl
    obtain ⟨st', h1, h2⟩ := ih ⟨some (st.cache.getD [] ++ c)⟩ (by simpa using h)
    refine ⟨st', ?_, by rw [h2]; simp⟩
    rw [feed, hp]
    simp only []
    rw [h1]
    rfl

/-- What a stream's windows are. -/
theorem run_frames (w s : Nat) (hw : 2 ≤ w) (hs : 1 ≤ s) (hsw : s ≤ w) (chunks : List (List ℝ)) (last : List ℝ) :
    ∃ k, (k = 0 ∨ (w < (chunks.flatten ++ last).length ∧ (k - 1) * s + w ≤ (chunks.flatten ++ last).length)) ∧ k * s ≤ (chunks.flatten ++ last).length ∧
      run 0 w s chunks last = .ok ((List.range (k + nPad ((chunks.flatten ++ last).length - k * s) w s)).map (windowAt (chunks.flatten ++ last) s w)) := by
  by_cases hshort : chunks.flatten.length ≤ w
  · obtain ⟨st', h1, h2⟩ := feed_short 0 w s hw hs chunks {} (by simpa using hshort)
    obtain ⟨st'', h3⟩ := push_pad 0 w s hs hsw st' last
    refine ⟨0, Or.inl rfl, by simp, ?_⟩
    rw [h2] at h3
    simp only [Option.getD_none, List.nil_append] at h3
    unfold run
    rw [h1]
    simp only []
    rw [h3]
    simp only [List.nil_append, Nat.zero_add, Nat.zero_mul, Nat.sub_zero]
    unfold nFinal
    rw [if_neg (by omega)]
    rfl
  · have hne : chunks ≠ [] := by rintro rfl; simp at hshort
    obtain ⟨k, h1, h2, h3, h4⟩ := feed_spec 0 w s hs hsw chunks {} hne
    simp only [Option.getD_none, List.nil_append] at h1 h2 h3 h4
    obtain ⟨st', h⟩ := push_pad 0 w s hs hsw ⟨some (chunks.flatten.drop (k * s))⟩ last
    simp only [Option.getD_some] at h
    have hcat : chunks.flatten.drop (k*s) ++ last = (chunks.flatten ++ last).drop (k*s) := by
      rw [List.drop_append_of_le_length h2]
    rw [hcat] at h
    refine ⟨k, ?_, by rw [List.length_append]; omega, ?_⟩
    · by_cases hk : k = 0
      · exact Or.inl hk
      · right
        have := h1 (k - 1) (by omega)
        rw [List.length_append]
        omega
    · unfold run
      rw [h4]
      simp only []
      rw [h]
      simp only [Except.ok.injEq]
      rw [List.range_add, List.map_append]
      unfold nFinal
      rw [if_neg (by omega), List.length_drop]
      congr 1
      · apply List.map_congr_left
        intro i hi
        have hi := h1 i (by simpa using hi)
        rw [← padWindow_at, padWindow_full _ _ _ _ _ (by simp only [List.length_append]; omega),
          List.drop_append_of_le_length (by omega),
          List.take_append_of_le_length (by simp only [List.length_drop]; omega)]
      · rw [List.map_map]
        apply List.map_congr_left
        intro i _
        simp only [Function.comp, padWindow_drop, padWindow_at]

theorem oggvorbis_length (n : Nat) : (WindowFunc.oggvorbis n).length = n := by simp [WindowFunc.oggvorbis]

/-- The frames of a graph. -/
theorem graph_frames (w s : Nat) (hw : 2 ≤ w) (hs : 1 ≤ s) (hsw : s ≤ w) (chunks : List (List ℝ)) (last : List ℝ) :
    ∃ k, (k = 0 ∨ (w < (chunks.flatten ++ last).length ∧ (k - 1) * s + w ≤ (chunks.flatten ++ last).length)) ∧ k * s ≤ (chunks.flatten ++ last).length ∧
      ∃ g, graphStft s w 0 chunks last = .ok g ∧ g.length = k + nPad ((chunks.flatten ++ last).length - k * s) w s ∧
        ∀ i (h : i < g.length), FrameOf (chunks.flatten ++ last) s w (WindowFunc.oggvorbis w) i g[i] := by
  obtain ⟨k, h1, h2, h3⟩ := run_frames w s hw hs hsw chunks last
  obtain ⟨g, h4, h5, h6⟩ := frames_ok (chunks.flatten ++ last) s w (by omega) _ (oggvorbis_length w) (k + nPad ((chunks.flatten ++ last).length - k * s) w s)
  refine ⟨k, h1, h2, g, ?_, h5, h6⟩
  unfold graphStft
  rw [h3]
  simp only []
  rw [← h4]
  unfold applyFunc
  rw [List.map_map]
  have e : ∀ r : List ℝ, zfft r 0 = rfft r := by intro r; unfold zfft; simp
  simp only [e]
  congr 1
  apply List.map_congr_left
  intro i _
  simp only [Function.comp]
  rw [List.zipWith_comm]
  congr 1
  funext a b
  exact mul_comm _ _

theorem prefix_of_frames {x : List ℝ} {hop wl : Nat} {c : List ℝ} {a b : List (List ℂ)} (ha : ∀ i (h : i < a.length), FrameOf x hop wl c i a[i])
    (hb : ∀ i (h : i < b.length), FrameOf x hop wl c i b[i]) (hl : a.length ≤ b.length) : a <+: b := by
  rw [List.prefix_iff_eq_take]
  apply List.ext_getElem
  · simp; omega
  · intro i h1 h2
    rw [List.getElem_take]
    exact (ha i h1).unique (hb i (by simp at h2; omega))

/-- **C246**: however the samples of a sound arrive, the frames of a graph's `fft` feature are those of `stft` of all of them with the ogg vorbis window: both have every frame that lies
within the sound, and one list begins with the other.  With half lapped windows the graph has all of them, or all but the last. -/
theorem C246_graph (hop wl : Nat) (hw : 2 ≤ wl) (hh : 1 ≤ hop) (hhw : hop ≤ wl) (chunks : List (List ℝ)) (last : List ℝ) :
    ∃ g o, graphStft hop wl 0 chunks last = .ok g ∧ stft1 (chunks.flatten ++ last) hop wl (some WindowFunc.oggvorbis) = .ok o ∧
      (g <+: o ∨ o <+: g) ∧ (∀ i, i * hop + wl ≤ (chunks.flatten ++ last).length → i < g.length ∧ i < o.length) ∧
      (wl = 2 * hop → g <+: o ∧ o.length ≤ g.length + 1) := by
  obtain ⟨k, hk, hks, g, h1, h2, h3⟩ := graph_frames wl hop hw hh hhw chunks last
  obtain ⟨o, h4, h5, h6⟩ := C245_stft (chunks.flatten ++ last) hop wl hw hh hhw WindowFunc.oggvorbis (oggvorbis_length wl)
  refine ⟨g, o, h1, h4, ?_, ?_, ?_⟩
  · rcases Nat.le_total g.length o.length with h | h
    · exact Or.inl (prefix_of_frames h3 h6 h)
    · exact Or.inr (prefix_of_frames h6 h3 h)
  · intro i hi
    constructor
    · rw [h2]
      by_cases hik : i < k
      · omega
      · have hb := (Props.nFinal_bounds ((chunks.flatten ++ last).length - k * hop) wl hop hh hhw).1 (i - k)
        unfold nFinal at hb
        rw [if_neg (by omega)] at hb
        have e : i * hop = k * hop + (i - k) * hop := by rw [← Nat.add_mul]; congr 1; omega
        have := hb (by omega)
        omega
    · rw [h5, ← nPad_eq _ _ _ hh hhw]
      have hb := (Props.nFinal_bounds (chunks.flatten ++ last).length wl hop hh hhw).1 i hi
      unfold nFinal at hb
      rwa [if_neg (by omega)] at hb
  · intro he
    generalize hN : (chunks.flatten ++ last).length = N at *
    rw [nPad_eq _ _ _ hh hhw] at h2
    rw [if_neg (by omega : ¬ hop = wl)] at h2 h5
    have key : g.length ≤ o.length ∧ o.length ≤ g.length + 1 := by
      by_cases hs : N ≤ wl
      · have hk0 : k = 0 := by rcases hk with h | h <;> omega
        subst hk0
        rw [if_pos hs] at h5
        rw [if_pos (by omega)] at h2
        omega
      · rw [if_neg hs] at h5
        by_cases hs2 : N - k * hop ≤ wl
        · rw [if_pos hs2] at h2
          have a1 : k + 1 ≤ N / hop := by
            rw [Nat.le_div_iff_mul_le (by omega), Nat.add_mul]
            rcases hk with h | ⟨_, h⟩
            · subst h; omega
            · cases k with
              | zero => omega
              | succ k' => simp only [Nat.add_sub_cancel] at h; rw [Nat.add_mul]; omega
          have a2 : N / hop ≤ k + 2 := by
            rw [← Nat.lt_succ_iff, Nat.div_lt_iff_lt_mul (by omega)]
            have : (k + 2).succ * hop = k * hop + 3 * hop := by rw [← Nat.add_mul]
            omega
          omega
        · rw [if_neg hs2] at h2
          have : (N - k * hop) / hop = N / hop - k := by rw [Nat.mul_comm k hop, Nat.sub_mul_div]
          have : k ≤ N / hop := (Nat.le_div_iff_mul_le (by omega)).2 hks
          omega
    exact ⟨prefix_of_frames h3 h6 key.1, key.2⟩

/-- Six samples in windows of four every two: a graph that gets five of them and then the sixth. -/
example : ∃ g o, graphStft 2 4 0 [[1, 2, 3, 4, 5]] [6] = .ok g ∧ stft1 [1, 2, 3, 4, 5, 6] 2 4 (some WindowFunc.oggvorbis) = .ok o ∧ g <+: o ∧ o.length = 3 := by
  obtain ⟨g, o, h1, h2, _, _, h3⟩ := C246_graph 2 4 (by omega) (by omega) (by omega) [[1, 2, 3, 4, 5]] [6]
  obtain ⟨o', h4, h5, _⟩ := C245_stft [1, 2, 3, 4, 5, 6] 2 4 (by omega) (by omega) (by omega) WindowFunc.oggvorbis (oggvorbis_length 4)
  have h2' : stft1 [1, 2, 3, 4, 5, 6] 2 4 (some WindowFunc.oggvorbis) = .ok o := h2
  rw [h4] at h2'
  cases h2'
  exact ⟨g, o, h1, h4, (h3 rfl).1, by rw [h5]; rfl⟩

/-- **C247, refuted**: `stft(x, window=None)` uses unweighted windows.  It is a TypeError, for every signal that can be cut into windows. -/
theorem C247_no_window_refuted (x : List ℝ) (hop wl : Nat) (hw : 2 ≤ wl) (hh : 1 ≤ hop) (hhw : hop ≤ wl) : stft1 x hop wl none = .error .typeError := by
  unfold stft1
  rcases sw_pad 0 x wl hop hh hhw with h | ⟨_, h, _⟩
  · rw [h]; rfl
  · omega

/-- **C248, refuted**: a signal has the same frames alone and in a batch.  With half lapped windows a signal longer than a window lacks its last frame in a batch, one shorter than a
window is a ValueError there; the frames that both have are the same. -/
theorem C248_batch_refuted (x : List ℝ) (hop wl : Nat) (hh : 1 ≤ hop) (he : wl = 2 * hop) (f : Nat → List ℝ) (hf : (f wl).length = wl) :
    ∃ o, stft1 x hop wl (some f) = .ok o ∧
      (x.length < wl → stft2 [x] x.length hop wl (some f) = .error .valueError) ∧
      (x.length = wl → stft2 [x] x.length hop wl (some f) = .ok [o]) ∧
      (wl < x.length → ∃ b, stft2 [x] x.length hop wl (some f) = .ok [b] ∧ b <+: o ∧ o.length = b.length + 1) := by
  obtain ⟨o, h1, h2, h3⟩ := C245_stft x hop wl (by omega) hh (by omega) f hf
  have hb : wl ≤ x.length → ∃ b, stft2 [x] x.length hop wl (some f) = .ok [b] ∧ b.length = (x.length - wl) / hop + 1 ∧ ∀ i (h : i < b.length), FrameOf x hop wl (f wl) i b[i] := by
    intro hl
    obtain ⟨b, g1, g2, g3⟩ := frames_ok x hop wl (by omega) (f wl) hf ((x.length - wl) / hop + 1)
    refine ⟨b, ?_, g2, g3⟩
    unfold stft2
    rw [if_neg (by simp; omega), List.mapM_cons]
    have : spectra (some f) wl ((List.range ((x.length - wl) / hop + 1)).map fun i => (x.drop (i * hop)).take wl) = .ok b := by
      unfold spectra
      simp only []
      rw [← g1, List.map_map]
      congr 1
      apply List.map_congr_left
      intro i hi
      simp only [Function.comp]
      rw [← padWindow_at, padWindow_full]
      have : i ≤ (x.length - wl) / hop := by have := List.mem_range.1 hi; omega
      have := (Nat.le_div_iff_mul_le (by omega)).1 this
      omega
    rw [this]
    rfl
  rw [if_neg (by omega : ¬ hop = wl)] at h2
  refine ⟨o, h1, ?_, ?_, ?_⟩
  · intro hl
    unfold stft2
    exact if_pos (Or.inl hl)
  · intro hl
    obtain ⟨b, g1, g2, g3⟩ := hb (by omega)
    rw [if_pos (by omega)] at h2
    have : b = o := by
      have hlen : b.length = o.length := by rw [g2, h2, hl]; simp
      exact (prefix_of_frames g3 h3 (by omega)).eq_of_length hlen
    rw [g1, this]
  · intro hl
    obtain ⟨b, g1, g2, g3⟩ := hb (by omega)
    rw [if_neg (by omega)] at h2
    have e : (x.length - wl) / hop = x.length / hop - 2 := by rw [he, Nat.mul_comm 2 hop, Nat.sub_mul_div]
    have : 2 ≤ x.length / hop := (Nat.le_div_iff_mul_le (by omega)).2 (by omega)
    exact ⟨b, g1, prefix_of_frames g3 h3 (by omega), by omega⟩

/-- Six samples in windows of four. -/
example : ∃ o b, stft1 [1, 2, 3, 4, 5, 6] 2 4 (some WindowFunc.oggvorbis) = .ok o ∧ stft2 [[1, 2, 3, 4, 5, 6]] 6 2 4 (some WindowFunc.oggvorbis) = .ok [b] ∧
    o.length = b.length + 1 := by
  obtain ⟨o, h1, _, _, h2⟩ := C248_batch_refuted [1, 2, 3, 4, 5, 6] 2 4 (by omega) rfl WindowFunc.oggvorbis (oggvorbis_length 4)
  obtain ⟨b, h3, _, h4⟩ := h2 (by simp)
  exact ⟨o, b, h1, h3, h4⟩

end Zounds.Stft
