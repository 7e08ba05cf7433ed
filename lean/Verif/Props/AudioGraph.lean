import Verif.Model.AudioGraph
import Verif.Props.Stft
import Verif.Props.Descriptors
import Verif.Props.ScaleApply
/-!
# C263–C265: the features of `audio_graph`
-/

namespace Zounds.AudioGraph
open Zounds Zounds.Spectral Zounds.SlidingWindow Zounds.Stft

theorem feedBatches_eq {α : Type} (z : α) (w s : Int) : ∀ (cs : List (List α)) (st st' : St α) (out : List (List α)), feed z w s st cs = .ok (st', out) →
    ∃ outs, feedBatches z w s st cs = .ok (st', outs) ∧ outs.flatten = out := by
  intro cs
  induction cs with
  | nil =>
    intro st st' out h
    simp only [feed, Except.ok.injEq, Prod.mk.injEq] at h
    exact ⟨[], by simp [feedBatches, h.1], by simp [← h.2]⟩
  | cons c cs ih =>
    intro st st' out h
    simp only [feed] at h
    cases h1 : push z w s false st c with
    | error e => simp [h1] at h
    | ok p =>
      obtain ⟨s1, o1⟩ := p
      simp only [h1] at h
      cases h2 : feed z w s s1 cs with
      | error e => simp [h2] at h
      | ok q =>
        obtain ⟨s2, o2⟩ := q
        simp only [h2, Except.ok.injEq, Prod.mk.injEq] at h
        obtain ⟨outs, h3, h4⟩ := ih s1 s2 o2 h2
        refine ⟨if o1.isEmpty then outs else o1 :: outs, by simp [feedBatches, h1, h3, h.1], ?_⟩
        rw [← h.2, ← h4]
        cases o1 <;> simp

/-- Kept apart or not, the windows are the same. -/
theorem batches_eq {α : Type} (z : α) (w s : Int) (chunks : List (List α)) (last : List α) (out : List (List α)) (h : run z w s chunks last = .ok out) :
    ∃ bs, batches z w s chunks last = .ok bs ∧ bs.flatten = out := by
  unfold run at h
  cases h1 : feed z w s {} chunks with
  | error e => simp [h1] at h
  | ok p =>
    obtain ⟨st, o1⟩ := p
    simp only [h1] at h
    obtain ⟨outs, h2, h3⟩ := feedBatches_eq z w s chunks {} st o1 h1
    cases h4 : push z w s true st last with
    | error e => simp [h4] at h
    | ok q =>
      obtain ⟨s2, o2⟩ := q
      simp only [h4, Except.ok.injEq] at h
      refine ⟨outs ++ if o2.isEmpty then [] else [o2], by simp [batches, h2, h4], ?_⟩
      rw [← h, List.flatten_append, h3]
      cases o2 <;> simp

/-- The features of a single frame: the spectrum and the cosine transform of a weighted window; the Bark bands, the chroma and the cepstral coefficients of the spectrum's magnitudes; the
centroid of the Bark bands.  `B`, `C` and `w` are the weights of the Bark bands, of the chromas and of the A-weighting. -/
structure FrameFeatures (B C : List (List ℝ)) (w : List ℝ) (x : List ℝ) (dct : List ℝ) (fft : List ℂ) (bark : List ℝ) (centroid : ℝ) (chroma bfcc : List ℝ) : Prop where
  fftOk : rfft x = .ok fft
  dctOk : scipyDct x = .ok dct
  barkOk : bark = B.map fun b => ScaleApply.dot b (fft.map fun z => ‖z‖)
  centroidOk : centroid = Descriptors.centroid bark
  chromaOk : chroma = C.map fun b => ScaleApply.dot b (List.zipWith (· * ·) (fft.map fun z => ‖z‖) w)
  bfccOk : bfcc = Descriptors.bfcc (1 / 10 ^ 12) 13 1 (fft.map fun z => ‖z‖)

/-- The scales and the weighting of the graph fit together (no exception when their weights are computed). -/
structure Fits (c : Config) (B C : List (List ℝ)) (w : List ℝ) : Prop where
  bark : ScaleApply.basis c.X (.bark c.band c.nBands) c.scale WindowFunc.hanning = .ok B
  width : B.length = c.nBands
  chroma : ScaleApply.chromaBasis c.X c.scale WindowFunc.hanning c.hz c.start c.stop = .ok C
  weights : Weighting.aWeights c.centres = .ok w

/-- A whole number of windows, whatever the batches. -/
theorem mapM_batches {α β : Type} (node : List α → Except PyErr (List β)) (f : α → β) (bs : List (List α)) (h : ∀ b ∈ bs, node b = .ok (b.map f)) :
    bs.mapM node = .ok (bs.map (List.map f)) := Codebook.mapM_ok_of node bs (List.map f) h

theorem abs_magnitudes (r : List ℂ) : (magnitudes r).map (fun x => |x|) = magnitudes r := by
  unfold magnitudes
  rw [List.map_map]
  apply List.map_congr_left
  intro z _
  exact abs_of_nonneg (norm_nonneg z)

/-- **C263**: whatever chunks the samples of a sound arrive in, `audio_graph` computes its features; all have the same number of frames, among them every window that lies within the sound;
the values of frame `i` are those of the `i`-th window, weighted by the ogg vorbis window. -/
theorem C263_features (c : Config) (hw : 2 ≤ c.wl) (hh : 1 ≤ c.hop) (hhw : c.hop ≤ c.wl) (B C : List (List ℝ)) (w : List ℝ) (hf : Fits c B C w) (chunks : List (List ℝ)) (last : List ℝ) :
    ∃ f n, audioGraph c chunks last = .ok f ∧
      f.dct.length = n ∧ f.fft.length = n ∧ f.bark.length = n ∧ f.centroid.length = n ∧ f.chroma.length = n ∧ f.bfcc.length = n ∧
      (∀ i, i * c.hop + c.wl ≤ (chunks.flatten ++ last).length → i < n) ∧
      ∀ i < n, FrameFeatures B C w (List.zipWith (· * ·) (windowAt (chunks.flatten ++ last) c.hop c.wl i) (WindowFunc.oggvorbis c.wl))
        (f.dct.getD i []) (f.fft.getD i []) (f.bark.getD i []) (f.centroid.getD i 0) (f.chroma.getD i []) (f.bfcc.getD i []) := by
  obtain ⟨k, hk, hks, hrun⟩ := run_frames c.wl c.hop hw hh hhw chunks last
  obtain ⟨bs, hbs, hflat⟩ := batches_eq 0 c.wl c.hop chunks last _ hrun
  set x := chunks.flatten ++ last with hx
  set n := k + Npx.nPad (x.length - k * c.hop) c.wl c.hop with hn
  set og := WindowFunc.oggvorbis c.wl with hog
  -- every row has a spectrum and a cosine transform
  have hlen : ∀ b ∈ bs, ∀ r ∈ b, r.length = c.wl := by
    intro b hb r hr
    have : r ∈ bs.flatten := List.mem_flatten_of_mem hb hr
    rw [hflat] at this
    obtain ⟨i, -, rfl⟩ := List.mem_map.1 this
    simp [windowAt]
  have hrow : ∀ r : List ℝ, r.length = c.wl → List.zipWith (· * ·) og r ≠ [] := by
    intro r hr h0
    have := congrArg List.length h0
    simp [hr, hog, oggvorbis_length] at this
    omega
  let F : List ℝ → List ℂ := fun r => match rfft r with | .ok o => o | .error _ => []
  let D : List ℝ → List ℝ := fun r => match scipyDct r with | .ok o => o | .error _ => []
  have hF : ∀ r, r ≠ [] → rfft r = .ok (F r) := by
    intro r hr
    simp only [F, rfft]
    rw [if_neg hr]
  have hD : ∀ r, r ≠ [] → scipyDct r = .ok (D r) := by
    intro r hr
    simp only [D, scipyDct]
    rw [if_neg hr]
  let W : List ℝ → List ℝ := fun r => List.zipWith (· * ·) og r
  have hwins : bs.map (applyFunc (· * ·) og) = bs.map (List.map W) := rfl
  have hmem : ∀ b ∈ bs.map (List.map W), ∀ r ∈ b, r ≠ [] := by
    intro b hb r hr
    obtain ⟨b', hb', rfl⟩ := List.mem_map.1 hb
    obtain ⟨r', hr', rfl⟩ := List.mem_map.1 hr
    exact hrow r' (hlen b' hb' r' hr')
  have e1 : (bs.map (List.map W)).mapM (fun b => b.mapM scipyDct) = .ok ((bs.map (List.map W)).map (List.map D)) :=
    mapM_batches _ D _ fun b hb => Codebook.mapM_ok_of _ _ _ fun r hr => hD r (hmem b hb r hr)
  have e2 : (bs.map (List.map W)).mapM (fun b => b.mapM fun r => zfft r 0) = .ok ((bs.map (List.map W)).map (List.map F)) :=
    mapM_batches _ F _ fun b hb => Codebook.mapM_ok_of _ _ _ fun r hr => by
      unfold zfft
      rw [List.replicate_zero, List.append_nil]
      exact hF r (hmem b hb r hr)
  let K : List ℂ → List ℝ := fun r => B.map fun b => ScaleApply.dot b (magnitudes r)
  have e3 : ∀ fs : List (List (List ℂ)), fs.mapM (barkNode c) = .ok (fs.map (List.map K)) := by
    intro fs
    refine mapM_batches _ K _ fun b _ => ?_
    unfold barkNode ScaleApply.barkBands ScaleApply.applyScale
    rw [hf.bark]
    simp only [List.map_map, Except.ok.injEq]
    apply List.map_congr_left
    intro r _
    simp only [Function.comp, abs_magnitudes, K]
  let T : List ℂ → List ℝ := fun r => C.map fun b => ScaleApply.dot b (List.zipWith (· * ·) (magnitudes r) w)
  have e4 : ∀ fs : List (List (List ℂ)), fs.mapM (chromaNode c) = .ok (fs.map (List.map T)) := by
    intro fs
    refine mapM_batches _ T _ fun b _ => ?_
    unfold chromaNode ScaleApply.applyChroma
    rw [hf.weights]
    simp only []
    rw [hf.chroma]
    simp only [List.map_map, Except.ok.injEq]
    rfl
  have e5 : ∀ fs : List (List (List ℂ)), centroidNode c.nBands (fs.map (List.map K)) = .ok ((fs.map (List.map K)).map (List.map Descriptors.centroid)) := by
    intro fs
    unfold centroidNode
    refine mapM_batches _ Descriptors.centroid _ fun b hb => ?_
    unfold centroidBatch
    refine Codebook.mapM_ok_of _ _ _ fun r hr => ?_
    obtain ⟨b', -, rfl⟩ := List.mem_map.1 hb
    obtain ⟨r', -, rfl⟩ := List.mem_map.1 hr
    have hl : (K r').length = c.nBands := by simp [K, hf.width]
    rw [if_pos hl]
    unfold Descriptors.centroid
    rw [hl]
  have hg : audioGraph c chunks last = .ok ⟨((bs.map (List.map W)).map (List.map D)).flatten, ((bs.map (List.map W)).map (List.map F)).flatten,
      (((bs.map (List.map W)).map (List.map F)).map (List.map K)).flatten, ((((bs.map (List.map W)).map (List.map F)).map (List.map K)).map (List.map Descriptors.centroid)).flatten,
      (((bs.map (List.map W)).map (List.map F)).map (List.map T)).flatten, (((bs.map (List.map W)).map (List.map F)).map bfccNode).flatten⟩ := by
    unfold audioGraph
    simp only [hbs, bind, Except.bind, pure, Except.pure]
    rw [← hog, hwins, e1]
    simp only [e2, e3, e4, e5]
  have hbf : ∀ fs : List (List (List ℂ)), fs.map bfccNode = fs.map (List.map fun r => Descriptors.bfcc (1 / 10 ^ 12) 13 1 (magnitudes r)) := fun fs => rfl
  -- the frames, without their batches
  have hcomm : ∀ i, W (windowAt x c.hop c.wl i) = List.zipWith (· * ·) (windowAt x c.hop c.wl i) og := by
    intro i
    simp only [W]
    rw [List.zipWith_comm]
    congr 1
    funext a b
    exact mul_comm _ _
  simp only [hbf, ← List.map_flatten, hflat, List.map_map, Function.comp_def] at hg
  refine ⟨_, n, hg, by simp, by simp, by simp, by simp, by simp, by simp, ?_, ?_⟩
  · intro i hi
    obtain ⟨g, o, q1, -, -, q4, -⟩ := C246_graph c.hop c.wl hw hh hhw chunks last
    obtain ⟨k', _, _, g', r1, r2, _⟩ := graph_frames c.wl c.hop hw hh hhw chunks last
    have hlg : g.length = n := by
      have : graphStft c.hop c.wl 0 chunks last = .ok (((List.range n).map fun i => W (windowAt x c.hop c.wl i)).map F) := by
        unfold graphStft
        rw [hrun]
        simp only []
        have := e2
        rw [show applyFunc (fun x1 x2 => x1 * x2) (WindowFunc.oggvorbis c.wl) ((List.range n).map (windowAt x c.hop c.wl)) = (List.range n).map fun i => W (windowAt x c.hop c.wl i) by
          unfold applyFunc; rw [List.map_map]; rfl]
        refine Codebook.mapM_ok_of _ _ _ fun r hr => ?_
        obtain ⟨i, -, rfl⟩ := List.mem_map.1 hr
        unfold zfft
        rw [List.replicate_zero, List.append_nil]
        exact hF _ (hrow _ (by simp [windowAt]))
      rw [this] at q1
      cases q1
      simp
    have := (q4 i hi).1
    omega
  · intro i hi
    have hr : List.zipWith (· * ·) (windowAt x c.hop c.wl i) og ≠ [] := by
      rw [← hcomm]
      exact hrow _ (by simp [windowAt])
    have hget : ∀ {β : Type} (g : Nat → β) (d : β), ((List.range n).map g).getD i d = g i := by
      intro β g d
      rw [List.getD_eq_getElem _ _ (by simpa using hi)]
      simp
    simp only [hget, hcomm]
    exact ⟨hF _ hr, hD _ hr, rfl, rfl, rfl, rfl⟩

theorem FrameFeatures.unique {B C : List (List ℝ)} {w x : List ℝ} {a a' : List ℝ} {b b' : List ℂ} {d d' : List ℝ} {e e' : ℝ} {f f' g g' : List ℝ}
    (h : FrameFeatures B C w x a b d e f g) (h' : FrameFeatures B C w x a' b' d' e' f' g') : a = a' ∧ b = b' ∧ d = d' ∧ e = e' ∧ f = f' ∧ g = g' := by
  have h1 : b = b' := Except.ok.inj (h.fftOk.symm.trans h'.fftOk)
  subst h1
  have h2 : d = d' := h.barkOk.trans h'.barkOk.symm
  subst h2
  exact ⟨Except.ok.inj (h.dctOk.symm.trans h'.dctOk), rfl, rfl, h.centroidOk.trans h'.centroidOk.symm, h.chromaOk.trans h'.chromaOk.symm, h.bfccOk.trans h'.bfccOk.symm⟩

theorem prefix_of_getD {β : Type} {a b : List β} (d : β) (hl : a.length ≤ b.length) (h : ∀ i < a.length, a.getD i d = b.getD i d) : a <+: b := by
  rw [List.prefix_iff_eq_take]
  apply List.ext_getElem
  · simp; omega
  · intro i h1 h2
    have := h i h1
    rw [List.getElem_take]
    rwa [List.getD_eq_getElem _ _ h1, List.getD_eq_getElem _ _ (by omega)] at this

/-- One sound's features begin with another's. -/
structure Features.Prefix (f g : Features) : Prop where
  dct : f.dct <+: g.dct
  fft : f.fft <+: g.fft
  bark : f.bark <+: g.bark
  centroid : f.centroid <+: g.centroid
  chroma : f.chroma <+: g.chroma
  bfcc : f.bfcc <+: g.bfcc

/-- **C264**: the same samples in other chunks give the same features, up to frames at the end that are not whole windows of the sound: one run's features begin with the other's, and
every window that lies within the sound is in both. -/
theorem C264_chunking (c : Config) (hw : 2 ≤ c.wl) (hh : 1 ≤ c.hop) (hhw : c.hop ≤ c.wl) (B C : List (List ℝ)) (w : List ℝ) (hf : Fits c B C w) (chunks chunks' : List (List ℝ)) (last last' : List ℝ)
    (hs : chunks.flatten ++ last = chunks'.flatten ++ last') :
    ∃ f f', audioGraph c chunks last = .ok f ∧ audioGraph c chunks' last' = .ok f' ∧ (f.Prefix f' ∨ f'.Prefix f) ∧
      ∀ i, i * c.hop + c.wl ≤ (chunks.flatten ++ last).length → i < f.fft.length ∧ i < f'.fft.length := by
  have key : ∀ (f f' : Features) (n n' : Nat) (x : List ℝ), n ≤ n' →
      (f.dct.length = n ∧ f.fft.length = n ∧ f.bark.length = n ∧ f.centroid.length = n ∧ f.chroma.length = n ∧ f.bfcc.length = n) →
      (f'.dct.length = n' ∧ f'.fft.length = n' ∧ f'.bark.length = n' ∧ f'.centroid.length = n' ∧ f'.chroma.length = n' ∧ f'.bfcc.length = n') →
      (∀ i < n, FrameFeatures B C w (List.zipWith (· * ·) (windowAt x c.hop c.wl i) (WindowFunc.oggvorbis c.wl))
        (f.dct.getD i []) (f.fft.getD i []) (f.bark.getD i []) (f.centroid.getD i 0) (f.chroma.getD i []) (f.bfcc.getD i [])) →
      (∀ i < n', FrameFeatures B C w (List.zipWith (· * ·) (windowAt x c.hop c.wl i) (WindowFunc.oggvorbis c.wl))
        (f'.dct.getD i []) (f'.fft.getD i []) (f'.bark.getD i []) (f'.centroid.getD i 0) (f'.chroma.getD i []) (f'.bfcc.getD i [])) → f.Prefix f' := by
    rintro f f' n n' x hnn ⟨a1, a2, a3, a4, a5, a6⟩ ⟨b1, b2, b3, b4, b5, b6⟩ h h'
    have hu := fun i (hi : i < n) => (h i hi).unique (h' i (by omega))
    exact ⟨prefix_of_getD [] (by omega) fun i hi => (hu i (by omega)).1, prefix_of_getD [] (by omega) fun i hi => (hu i (by omega)).2.1,
      prefix_of_getD [] (by omega) fun i hi => (hu i (by omega)).2.2.1, prefix_of_getD 0 (by omega) fun i hi => (hu i (by omega)).2.2.2.1,
      prefix_of_getD [] (by omega) fun i hi => (hu i (by omega)).2.2.2.2.1, prefix_of_getD [] (by omega) fun i hi => (hu i (by omega)).2.2.2.2.2⟩
  obtain ⟨f, n, h1, a1, a2, a3, a4, a5, a6, h3, h4⟩ := C263_features c hw hh hhw B C w hf chunks last
  obtain ⟨f', n', h1', b1, b2, b3, b4, b5, b6, h3', h4'⟩ := C263_features c hw hh hhw B C w hf chunks' last'
  rw [← hs] at h3' h4'
  refine ⟨f, f', h1, h1', ?_, fun i hi => ⟨by rw [a2]; exact h3 i hi, by rw [b2]; exact h3' i hi⟩⟩
  rcases Nat.le_total n n' with h | h
  · exact Or.inl (key f f' n n' _ h ⟨a1, a2, a3, a4, a5, a6⟩ ⟨b1, b2, b3, b4, b5, b6⟩ h4 h4')
  · exact Or.inr (key f' f n' n _ h ⟨b1, b2, b3, b4, b5, b6⟩ ⟨a1, a2, a3, a4, a5, a6⟩ h4' h4)

/-! ## C265: Bark frequency cepstral coefficients -/

/-- A band of several bins gives its first bin, and so the bin of frequency zero, no weight. -/
theorem hanning_first (n lo hi : Nat) (h : ¬ (lo = 0 ∧ min hi n = 1)) : (ScaleApply.weightRow WindowFunc.hanning n lo hi).getD 0 0 = 0 := by
  by_cases hn : 0 < n
  · rw [ScaleApply.weightRow_getD _ _ _ _ _ hn]
    split
    · rename_i h'
      have h0 : lo = 0 := by omega
      subst h0
      unfold WindowFunc.hanning
      rw [if_neg (by omega), Nat.zero_sub, Nat.sub_zero]
      rw [List.getD_eq_getElem _ _ (by simp; omega)]
      simp
    · rfl
  · have : n = 0 := by omega
    subst this
    simp [ScaleApply.weightRow]

theorem dot_first (b r r' : List ℝ) (h : b.getD 0 0 = 0) (ht : r.tail = r'.tail) (hl : r.length = r'.length) : ScaleApply.dot b r = ScaleApply.dot b r' := by
  cases r with
  | nil => cases r' with
    | nil => rfl
    | cons _ _ => simp at hl
  | cons x r => cases r' with
    | nil => simp at hl
    | cons y r' =>
      simp only [List.tail_cons] at ht
      subst ht
      cases b with
      | nil => rfl
      | cons c b =>
        have : c = 0 := by simpa using h
        subst this
        simp [ScaleApply.dot]

/-- **C265, refuted**: the Bark frequency cepstral coefficients of a frame are determined by its Bark bands.  They are made from the spectrum: whatever the spectrum, changing the
magnitude of its first bin (which no band of several bins gives any weight, `hanning_first`) changes them, and does not change the Bark bands. -/
theorem C265_bfcc_refuted (B : List (List ℝ)) (hB : ∀ b ∈ B, b.getD 0 0 = 0) (r : List ℂ) (hr : 1 ≤ r.length) (z z' : ℂ) (hz : ‖z‖ ≠ ‖z'‖) :
    (B.map fun b => ScaleApply.dot b (magnitudes (z :: r))) = (B.map fun b => ScaleApply.dot b (magnitudes (z' :: r))) ∧
      bfccNode [z :: r] ≠ bfccNode [z' :: r] := by
  refine ⟨List.map_congr_left fun b hb => dot_first b _ _ (hB b hb) rfl rfl, ?_⟩
  intro h
  unfold bfccNode at h
  simp only [List.map_cons, List.map_nil, List.cons.injEq, and_true] at h
  have h0 := congrArg (fun l => l.getD 0 0) h
  beta_reduce at h0
  have hf : (0 : ℝ) < 1 / 10 ^ 12 := by positivity
  generalize (1 / 10 ^ 12 : ℝ) = fl at h0 hf
  have hm : ∀ y : ℂ, 0 < min 13 ((magnitudes (y :: r)).length - 1) := by intro y; simp [magnitudes]; omega
  rw [Descriptors.C62_bfcc_value _ _ _ _ 0 (hm z), Descriptors.C62_bfcc_value _ _ _ _ 0 (hm z')] at h0
  have hl : ∀ y : ℂ, (magnitudes (y :: r)).length = r.length + 1 := by intro y; simp [magnitudes]
  rw [hl, hl, Finset.sum_range_succ', Finset.sum_range_succ'] at h0
  have hg : ∀ (y : ℂ) (t : ℕ), (magnitudes (y :: r)).getD (t + 1) 0 = (magnitudes r).getD t 0 := fun y t => rfl
  have hg0 : ∀ y : ℂ, (magnitudes (y :: r)).getD 0 0 = ‖y‖ := fun y => rfl
  simp only [hg, hg0, abs_norm] at h0
  have hc : 0 < Real.cos (Real.pi * ((1 + 0 : ℕ) : ℝ) * (2 * ((0 : ℕ) : ℝ) + 1) / (2 * ((r.length + 1 : ℕ) : ℝ))) := by
    apply Real.cos_pos_of_mem_Ioo
    have hp := Real.pi_pos
    have hl2 : (2 : ℝ) ≤ ((r.length + 1 : ℕ) : ℝ) := by exact_mod_cast (by omega : 2 ≤ r.length + 1)
    have h4 : (0 : ℝ) < 2 * ((r.length + 1 : ℕ) : ℝ) := by linarith
    have e : Real.pi * ((1 + 0 : ℕ) : ℝ) * (2 * ((0 : ℕ) : ℝ) + 1) = Real.pi := by push_cast; ring
    rw [e]
    constructor
    · have : 0 < Real.pi / (2 * ((r.length + 1 : ℕ) : ℝ)) := div_pos hp h4
      linarith
    · rw [div_lt_div_iff₀ h4 (by norm_num)]
      nlinarith
  have h1 : Real.log (‖z‖ + fl) = Real.log (‖z'‖ + fl) := by
    have := mul_right_cancel₀ hc.ne' (by linarith : Real.log (‖z‖ + fl) * _ = Real.log (‖z'‖ + fl) * _)
    exact this
  have h2 := Real.log_injOn_pos (Set.mem_Ioi.2 (by have := norm_nonneg z; linarith)) (Set.mem_Ioi.2 (by have := norm_nonneg z'; linarith)) h1
  exact hz (by linarith)

/-! ## The hypotheses are met -/

open Zounds.Props.Frequency in
/-- The scales fit together if the spectra are on a linear scale, the Bark scale has its bands, the semitones ascend and there are bins. -/
theorem fits_linear (c : Config) (b : Freq.Band ℝ) (n : Nat) (hs : c.scale = .linear b n false) (hb : b.start < b.stop) (hn : 2 ≤ n) (bb : List (Freq.Band ℝ))
    (hbb : (Freq.Scale.bark c.band c.nBands).bands c.X = .ok bb) (hlb : bb.length = c.nBands) (hmono : ∀ s, c.hz s < c.hz (s + 2)) (hc : c.centres ≠ []) : ∃ B C w, Fits c B C w := by
  obtain ⟨obs, ho1, ho2, ho3⟩ : ∃ obs, c.scale.bands c.X = .ok obs ∧ Ordered obs ∧ c.scale.len = obs.length := by
    rw [hs]
    exact ⟨_, Freq.linearBands_eq b n hb hn, C21_linear_ordered b n hb, by simp [Freq.Scale.len]⟩
  have hsl : Sliceable c.scale := by rw [hs]; intro _ h; cases h
  have hev : c.scale.alwaysEven = false := by rw [hs]; rfl
  have hh : ∀ k, (WindowFunc.hanning k).length = k := by
    intro k
    unfold WindowFunc.hanning
    split
    · rename_i h; simp [h]
    · simp
  have hrow : ∀ q, ∃ w, ScaleApply.bandRow c.X c.scale WindowFunc.hanning q = .ok w := by
    intro q
    obtain ⟨w, hw, _⟩ := ScaleApply.bandRow_spec c.X c.scale hsl hev obs ho1 ho2 ho3 WindowFunc.hanning hh q
    exact ⟨w, hw⟩
  obtain ⟨B, e, hl, _⟩ := ScaleApply.sequence_map (ScaleApply.bandRow c.X c.scale WindowFunc.hanning) bb (fun q _ => hrow q)
  obtain ⟨T, e', _, _⟩ := ScaleApply.sequence_map (ScaleApply.chromaTone c.X c.scale WindowFunc.hanning c.hz) (ScaleApply.chromaTones c.start c.stop) (fun s _ => by
    obtain ⟨w, hw⟩ := hrow ⟨c.hz s, c.hz (s + 2)⟩
    exact ⟨((s % 12).toNat, w), by simp only [ScaleApply.chromaTone, (C22_new _ _).1 (hmono s), hw]⟩)
  have hw : ∃ w, Weighting.aWeights c.centres = .ok w := by
    unfold Weighting.aWeights
    cases hcc : c.centres with
    | nil => exact absurd hcc hc
    | cons x xs => exact ⟨_, rfl⟩
  obtain ⟨w, hw⟩ := hw
  have hC : ∃ C, ScaleApply.chromaBasis c.X c.scale WindowFunc.hanning c.hz c.start c.stop = .ok C := by
    simp only [ScaleApply.chromaBasis, e']
    exact ⟨_, rfl⟩
  obtain ⟨C, hC⟩ := hC
  exact ⟨B, C, w, by simp only [ScaleApply.basis, hbb, e], by rw [hl, hlb], hC, hw⟩

/-- A small graph: windows of four samples every two, three bins, one Bark band. -/
noncomputable def small : Config :=
  { X := ⟨fun _ _ _ => [], fun _ n => List.replicate n 100, fun _ _ => []⟩, hop := 2, wl := 4, scale := .linear ⟨0, 300⟩ 3 false, centres := [50, 150, 250], band := ⟨20, 300⟩, nBands := 1,
    hz := fun s => s, start := -5, stop := 9 }

example : ∃ B C w, Fits small B C w := by
  have h1 : (100 : ℝ) - Freq.erb 100 / 2 < 100 + Freq.erb 100 / 2 := by norm_num [Freq.erb]
  refine fits_linear small ⟨0, 300⟩ 3 rfl (by norm_num) (by norm_num) [⟨100 - Freq.erb 100 / 2, 100 + Freq.erb 100 / 2⟩] ?_ rfl ?_ (by simp [small])
  · show Freq.sequence [Freq.Band.fromCenter 100 (Freq.erb 100)] = _
    unfold Freq.Band.fromCenter
    rw [(Zounds.Props.Frequency.C22_new _ _).1 h1]
    rfl
  · intro s
    simp [small]

/-- The weights of a band over three bins and of one over the last two. -/
example : ∀ b ∈ [ScaleApply.weightRow WindowFunc.hanning 3 0 3, ScaleApply.weightRow WindowFunc.hanning 3 1 3], b.getD 0 0 = 0 := by
  intro b hb
  simp at hb
  rcases hb with rfl | rfl <;> exact hanning_first _ _ _ (by omega)

theorem small_fits : ∃ B C w, Fits small B C w := by
  have h1 : (100 : ℝ) - Freq.erb 100 / 2 < 100 + Freq.erb 100 / 2 := by norm_num [Freq.erb]
  refine fits_linear small ⟨0, 300⟩ 3 rfl (by norm_num) (by norm_num) [⟨100 - Freq.erb 100 / 2, 100 + Freq.erb 100 / 2⟩] ?_ rfl ?_ (by simp [small])
  · show Freq.sequence [Freq.Band.fromCenter 100 (Freq.erb 100)] = _
    unfold Freq.Band.fromCenter
    rw [(Zounds.Props.Frequency.C22_new _ _).1 h1]
    rfl
  · intro s
    simp [small]

example : ∃ f n, audioGraph small [[1, 2, 3], [4, 5]] [6, 7] = .ok f ∧ f.dct.length = n ∧ f.fft.length = n := by
  obtain ⟨B, C, w, h⟩ := small_fits
  obtain ⟨f, n, h1, h2, h3, -⟩ := C263_features small (by simp [small]) (by simp [small]) (by simp [small]) B C w h [[1, 2, 3], [4, 5]] [6, 7]
  exact ⟨f, n, h1, h2, h3⟩
example : ∃ f f', audioGraph small [[1, 2, 3], [4, 5]] [6, 7] = .ok f ∧ audioGraph small [[1], [2, 3, 4]] [5, 6, 7] = .ok f' := by
  obtain ⟨B, C, w, h⟩ := small_fits
  obtain ⟨f, f', h1, h2, -⟩ := C264_chunking small (by simp [small]) (by simp [small]) (by simp [small]) B C w h [[1, 2, 3], [4, 5]] [[1], [2, 3, 4]] [6, 7] [5, 6, 7] rfl
  exact ⟨f, f', h1, h2⟩

end Zounds.AudioGraph
