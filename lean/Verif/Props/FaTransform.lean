import Verif.Model.FaTransform
import Verif.Props.FreqAdaptive
import Verif.Props.Irfft
import Mathlib.Tactic.Abel
import Mathlib.Data.List.GetD
/-!
# Property C60: frequency-adaptive transforms and their synthesizers
-/

set_option linter.unusedSectionVars false

namespace Zounds.FaTransform
open Zounds Zounds.Freq Zounds.Props.FreqAdaptive Zounds.Props.Frequency

variable {α : Type} [Field α] [LinearOrder α] {β γ : Type}

/-- The coefficients of a row from `lo` up to `hi`. -/
def cut (r : List γ) (run : Nat × Nat) : List γ := (r.take run.2).drop run.1

theorem cut_length (r : List γ) (run : Nat × Nat) : (cut r run).length = min run.2 r.length - run.1 := by simp [cut]

/-- A transform and what undoes it, up to `P`, for rows of at least `least` numbers. -/
structure Undone (T : List γ → Except PyErr (List β)) (S : List β → Except PyErr (List γ)) (P : List γ → List γ) (len : Nat → Nat)
    (least : Nat) : Prop where
  pair : ∀ v, least ≤ v.length → ∃ u, T v = .ok u ∧ u.length = len v.length ∧ S u = .ok (P v) ∧ (P v).length = v.length

def valueOf (x : Except PyErr (List β)) : List β := match x with | .ok u => u | .error _ => []

theorem getSlice_run (X : NumExt α) (lin : Scale α) (hs : Sliceable lin) (ls : List (Band α)) (hls : lin.bands X = .ok ls) (b : Band α) :
    lin.getSlice X (.band b) = .ok (.run (bandRun lin.alwaysEven ls b).1 (bandRun lin.alwaysEven ls b).2) := by
  cases lin with
  | chroma b => exact absurd rfl (hs b)
  | _ => simp only [Scale.getSlice, hls]

section
variable [CommRing γ]

theorem getD_ext {l m : List γ} (hl : l.length = m.length) (h : ∀ t, t < l.length → l.getD t 0 = m.getD t 0) : l = m := by
  apply List.ext_getElem hl
  intro t h1 h2
  have := h t h1
  simpa [List.getD_eq_getElem?_getD, h1, h2] using this

theorem cut_getD (r : List γ) (run : Nat × Nat) (k : Nat) (h1 : run.1 ≤ k) (h2 : k < run.2) : (cut r run).getD (k - run.1) 0 = r.getD k 0 := by
  simp only [cut, List.getD_eq_getElem?_getD, List.getElem?_drop, List.getElem?_take]
  rw [show run.1 + (k - run.1) = k from by omega, if_pos h2]

/-- The weighted coefficients a band is transformed from. -/
def weighted (window : Nat → List γ) (run : Nat × Nat) (r : List γ) : List γ :=
  List.zipWith (· * ·) (cut r run) (window (cut r run).length)

theorem weighted_length (window : Nat → List γ) (hw : ∀ n, (window n).length = n) (run : Nat × Nat) (r : List γ) :
    (weighted window run r).length = min run.2 r.length - run.1 := by
  simp [weighted, hw, cut_length]

theorem weighted_getD (window : Nat → List γ) (hw : ∀ n, (window n).length = n) (run : Nat × Nat) (r : List γ) (k : Nat)
    (h1 : run.1 ≤ k) (h2 : k < run.2) (h3 : k < r.length) :
    (weighted window run r).getD (k - run.1) 0 = (window (min run.2 r.length - run.1)).getD (k - run.1) 0 * r.getD k 0 := by
  have a : k - run.1 < (cut r run).length := by rw [cut_length]; omega
  have b : k - run.1 < (window (cut r run).length).length := by rw [hw]; exact a
  have hc := cut_getD r run k h1 h2
  rw [weighted, List.getD_eq_getElem?_getD, List.getElem?_zipWith, List.getElem?_eq_getElem a, List.getElem?_eq_getElem b]
  rw [List.getD_eq_getElem?_getD, List.getElem?_eq_getElem a] at hc
  rw [← cut_length r run, List.getD_eq_getElem?_getD (l := window _), List.getElem?_eq_getElem b]
  simp only [Option.getD_some] at hc ⊢
  rw [hc, mul_comm]

theorem analyze_ok (X : NumExt α) (T : List γ → Except PyErr (List β)) (S : List β → Except PyErr (List γ)) (P : List γ → List γ)
    (len : Nat → Nat) (least : Nat) (hT : Undone T S P len least) (window : Nat → List γ) (hw : ∀ n, (window n).length = n)
    (lin : Scale α) (hlin : Sliceable lin) (ls : List (Band α)) (hls : lin.bands X = .ok ls) (n : Nat)
    (rows : List (List γ)) (hne : rows ≠ []) (hrows : ∀ r ∈ rows, r.length = n) (scale : Scale α) (bs : List (Band α))
    (hbs : ScaleOk X scale bs) (hbne : bs ≠ [])
    (hwide : ∀ b ∈ bs, least ≤ min (bandRun lin.alwaysEven ls b).2 n - (bandRun lin.alwaysEven ls b).1) :
    ∃ fa, analyze X T window lin rows scale = .ok fa ∧ fa.rows.length = rows.length ∧
      ∀ i (h : i < bs.length), fa.getBand X bs[i] =
        .ok (rows.map fun r => valueOf (T (weighted window (bandRun lin.alwaysEven ls bs[i]) r))) := by
  have hTw : ∀ b ∈ bs, ∀ r ∈ rows, T (weighted window (bandRun lin.alwaysEven ls b) r) =
      .ok (valueOf (T (weighted window (bandRun lin.alwaysEven ls b) r))) ∧
      (valueOf (T (weighted window (bandRun lin.alwaysEven ls b) r))).length =
        len (min (bandRun lin.alwaysEven ls b).2 n - (bandRun lin.alwaysEven ls b).1) := by
    intro b hb r hr
    obtain ⟨u, h1, h2, _⟩ := hT.pair (weighted window (bandRun lin.alwaysEven ls b) r) (by
      rw [weighted_length window hw, hrows r hr]; exact hwide b hb)
    rw [h1]
    refine ⟨rfl, ?_⟩
    simp only [valueOf]
    rw [h2, weighted_length window hw, hrows r hr]
  let arr : Band α → Nat × List (List β) := fun b =>
    (len (min (bandRun lin.alwaysEven ls b).2 n - (bandRun lin.alwaysEven ls b).1),
      rows.map fun r => valueOf (T (weighted window (bandRun lin.alwaysEven ls b) r)))
  have hproc : ∀ b ∈ bs, processBand X T window lin rows b = .ok (arr b) := by
    intro b hb
    unfold processBand
    rw [getSlice_run X lin hlin ls hls b]
    simp only []
    have := Spectral.mapM_ok (weightedRow T window (SliceOut.run (α := α) (bandRun lin.alwaysEven ls b).1 (bandRun lin.alwaysEven ls b).2)) id
      (fun r => valueOf (T (weighted window (bandRun lin.alwaysEven ls b) r))) rows (by
        intro r hr
        simp only [weightedRow, SliceOut.select, id]
        exact (hTw b hb r hr).1)
    rw [List.map_id] at this
    rw [this]
    simp only [arr]
    congr 2
    match hr : rows, hne with
    | r :: rs, _ =>
      rw [List.map_cons, List.headD_cons]
      exact (hTw b hb r (by simp)).2
  have hseq : Freq.sequence (bs.map (processBand X T window lin rows)) = .ok (bs.map arr) := by
    rw [sequence_ok, List.map_map]
    apply List.map_congr_left
    intro b hb
    exact hproc b hb
  have hB : Bands rows.length (bs.map arr) := by
    refine ⟨by simpa using hbne, ?_, ?_⟩
    · intro a ha
      obtain ⟨b, _, rfl⟩ := List.mem_map.1 ha
      simp [arr]
    · intro a ha r hr
      obtain ⟨b, hb, rfl⟩ := List.mem_map.1 ha
      obtain ⟨r', hr', rfl⟩ := List.mem_map.1 hr
      exact (hTw b hb r' hr').2
  obtain ⟨fa, h1, h2⟩ := C24_get_band X rows.length _ hB scale bs hbs (by simp)
  have h3 := new_eq X rows.length _ hB scale bs hbs (by simp)
  rw [h1] at h3
  refine ⟨fa, ?_, ?_, ?_⟩
  · unfold analyze
    rw [hbs.bands]
    simp only [hseq, h1]
  · cases h3; simp
  · intro i h
    rw [h2 i h (by simpa using h), List.getElem_map]

theorem addRun_ok (row : List γ) (lo hi : Nat) (v : List γ) (hv : v.length = (cut row (lo, hi)).length) (hpos : 0 < v.length) :
    ∃ row', addRun row lo hi v = .ok row' ∧ row'.length = row.length ∧
      ∀ k, k < row.length → row'.getD k 0 = row.getD k 0 + if lo ≤ k ∧ k < hi then v.getD (k - lo) 0 else 0 := by
  have hl := cut_length row (lo, hi)
  simp only at hl
  have hlt : lo < row.length := by omega
  unfold addRun
  simp only []
  have hv' : v.length = ((row.take hi).drop lo).length := hv
  rw [if_pos hv']
  have hm : ((row.take hi).drop lo).length = min hi row.length - lo := hl
  refine ⟨_, rfl, ?_, ?_⟩
  · simp only [List.length_append, List.length_take, List.length_zipWith, List.length_drop, hv]
    rw [hl]
    omega
  · intro k hk
    rw [List.append_assoc]
    by_cases h1 : k < lo
    · rw [List.getD_append _ _ _ _ (by simp; omega), if_neg (by omega), add_zero]
      simp [List.getD_eq_getElem?_getD, List.getElem?_take, h1]
    · rw [List.getD_append_right _ _ _ _ (by simp; omega)]
      have e : (row.take lo).length = lo := by simp; omega
      rw [e]
      by_cases h2 : k < hi
      · rw [if_pos ⟨by omega, h2⟩, List.getD_append _ _ _ _ (by rw [List.length_zipWith, ← hv', Nat.min_self, hv, hl]; omega)]
        have a : k - lo < ((row.take hi).drop lo).length := by rw [hm]; omega
        have b : k - lo < v.length := by rw [hv']; exact a
        rw [List.getD_eq_getElem?_getD, List.getElem?_zipWith, List.getElem?_eq_getElem a, List.getElem?_eq_getElem b]
        simp only [Option.getD_some]
        rw [List.getD_eq_getElem?_getD, List.getElem?_eq_getElem hk, List.getD_eq_getElem?_getD, List.getElem?_eq_getElem b]
        simp only [Option.getD_some, List.getElem_drop, List.getElem_take]
        congr 2
        omega
      · rw [if_neg (by omega), add_zero, List.getD_append_right _ _ _ _ (by rw [List.length_zipWith, ← hv', Nat.min_self, hv, hl]; omega)]
        have e2 : (List.zipWith (fun x1 x2 => x1 + x2) ((row.take hi).drop lo) v).length = min hi row.length - lo := by
          rw [List.length_zipWith, ← hv', Nat.min_self, hv', hm]
        rw [e2, List.getD_eq_getElem?_getD, List.getElem?_drop, hm, List.getD_eq_getElem?_getD]
        congr 2
        omega

theorem addBands_ok (X : NumExt α) (S : List β → Except PyErr (List γ)) (lin : Scale α) (hlin : Sliceable lin) (ls : List (Band α))
    (hls : lin.bands X = .ok ls) (n T : Nat) (fa : FreqAdaptive α β) (val : Band α → Nat → List γ) (bs : List (Band α))
    (hget : ∀ b ∈ bs, ∃ rows, fa.getBand X b = .ok rows ∧ rows.mapM S = .ok ((List.range T).map (val b)))
    (hval : ∀ b ∈ bs, ∀ t, t < T → (val b t).length = min (bandRun lin.alwaysEven ls b).2 n - (bandRun lin.alwaysEven ls b).1 ∧ 0 < (val b t).length) :
    ∀ coeffs : List (List γ), coeffs.length = T → (∀ r ∈ coeffs, r.length = n) →
      ∃ res, addBands X S lin fa bs coeffs = .ok res ∧ res.length = T ∧ (∀ r ∈ res, r.length = n) ∧
        ∀ t, t < T → ∀ k, k < n → (res.getD t []).getD k 0 = (coeffs.getD t []).getD k 0 +
          (bs.map fun b => if (bandRun lin.alwaysEven ls b).1 ≤ k ∧ k < (bandRun lin.alwaysEven ls b).2 then
            (val b t).getD (k - (bandRun lin.alwaysEven ls b).1) 0 else 0).sum := by
  induction bs with
  | nil => intro coeffs h1 h2; exact ⟨coeffs, rfl, h1, h2, by intro t _ k _; simp⟩
  | cons b bs ih =>
    intro coeffs h1 h2
    obtain ⟨rows, g1, g2⟩ := hget b (by simp)
    have hv := hval b (by simp)
    generalize hrun : bandRun lin.alwaysEven ls b = run at hv
    have hstep : ∀ t (h : t < coeffs.length), ∃ row', addRun coeffs[t] run.1 run.2 (val b t) = .ok row' ∧ row'.length = n ∧
        ∀ k, k < n → row'.getD k 0 = (coeffs[t]).getD k 0 + if run.1 ≤ k ∧ k < run.2 then (val b t).getD (k - run.1) 0 else 0 := by
      intro t h
      have hr := h2 _ (List.getElem_mem h)
      obtain ⟨row', r1, r2, r3⟩ := addRun_ok coeffs[t] run.1 run.2 (val b t) (by
        rw [cut_length, hr]; exact (hv t (by omega)).1) (hv t (by omega)).2
      rw [hr] at r2 r3
      exact ⟨row', r1, r2, r3⟩
    choose! f hf1 hf2 hf3 using hstep
    have hm : ((coeffs.zip ((List.range T).map (val b))).mapM fun p => addRun p.1 run.1 run.2 p.2) = .ok ((List.range T).map f) := by
      have hz : coeffs.zip ((List.range T).map (val b)) = (List.range T).map fun t => (coeffs.getD t [], val b t) := by
        apply List.ext_getElem
        · simp [h1]
        · intro t a c
          have : t < coeffs.length := by simp at a; omega
          simp [List.getD_eq_getElem?_getD, this]
      rw [hz]
      refine Spectral.mapM_ok _ _ f _ ?_
      intro t ht
      have ht' : t < coeffs.length := by rw [h1]; exact List.mem_range.1 ht
      have e : coeffs.getD t [] = coeffs[t] := by simp [List.getD_eq_getElem?_getD, ht']
      simp only [e]
      exact hf1 t ht'
    obtain ⟨res, s1, s2, s3, s4⟩ := ih (fun b' hb' => hget b' (by simp [hb'])) (fun b' hb' => hval b' (by simp [hb']))
      ((List.range T).map f) (by simp) (by
        intro r hr
        obtain ⟨t, ht, rfl⟩ := List.mem_map.1 hr
        exact hf2 t (by rw [h1]; exact List.mem_range.1 ht))
    refine ⟨res, ?_, s2, s3, ?_⟩
    · unfold addBands addBand
      simp only [g1, g2, getSlice_run X lin hlin ls hls b, hrun, hm, s1]
    · intro t ht k hk
      rw [s4 t ht k hk, List.map_cons, List.sum_cons, ← add_assoc, hrun]
      congr 1
      have e : coeffs.getD t [] = coeffs[t]'(by omega) := by
        have : t < coeffs.length := by omega
        simp [List.getD_eq_getElem?_getD, this]
      have e2 : ((List.range T).map f).getD t [] = f t := by simp [List.getD_eq_getElem?_getD, ht]
      rw [e2, hf3 t (by omega) k hk, e]

/-- Analysis and recovery of the coefficients: every band gives back, up to `P`, the weighted coefficients it was made from, and
what several bands hold is added up. -/
theorem recover_analyze (X : NumExt α) (T : List γ → Except PyErr (List β)) (S : List β → Except PyErr (List γ)) (P : List γ → List γ)
    (len : Nat → Nat) (least : Nat) (hleast : 0 < least) (hT : Undone T S P len least) (window : Nat → List γ) (hw : ∀ n, (window n).length = n)
    (lin : Scale α) (hlin : Sliceable lin) (ls : List (Band α)) (hls : lin.bands X = .ok ls)
    (rows : List (List γ)) (hne : rows ≠ []) (hrows : ∀ r ∈ rows, r.length = lin.len) (scale : Scale α) (bs : List (Band α))
    (hbs : ScaleOk X scale bs) (hbne : bs ≠ [])
    (hwide : ∀ b ∈ bs, least ≤ min (bandRun lin.alwaysEven ls b).2 lin.len - (bandRun lin.alwaysEven ls b).1) :
    ∃ fa res, analyze X T window lin rows scale = .ok fa ∧ recover X S lin scale fa = .ok res ∧ res.length = rows.length ∧
      (∀ r ∈ res, r.length = lin.len) ∧
      ∀ t, t < rows.length → ∀ k, k < lin.len → (res.getD t []).getD k 0 =
        (bs.map fun b => if (bandRun lin.alwaysEven ls b).1 ≤ k ∧ k < (bandRun lin.alwaysEven ls b).2 then
          (P (weighted window (bandRun lin.alwaysEven ls b) (rows.getD t []))).getD (k - (bandRun lin.alwaysEven ls b).1) 0 else 0).sum := by
  obtain ⟨fa, h1, h2, h3⟩ := analyze_ok X T S P len least hT window hw lin hlin ls hls lin.len rows hne hrows scale bs hbs hbne hwide
  have hrow : ∀ t, t < rows.length → (rows.getD t []).length = lin.len := by
    intro t ht
    rw [List.getD_eq_getElem?_getD, List.getElem?_eq_getElem ht]
    exact hrows _ (List.getElem_mem ht)
  have hP : ∀ b ∈ bs, ∀ t, t < rows.length → ∃ u, T (weighted window (bandRun lin.alwaysEven ls b) (rows.getD t [])) = .ok u ∧
      S u = .ok (P (weighted window (bandRun lin.alwaysEven ls b) (rows.getD t []))) ∧
      (P (weighted window (bandRun lin.alwaysEven ls b) (rows.getD t []))).length =
        min (bandRun lin.alwaysEven ls b).2 lin.len - (bandRun lin.alwaysEven ls b).1 := by
    intro b hb t ht
    obtain ⟨u, u1, _, u3, u4⟩ := hT.pair (weighted window (bandRun lin.alwaysEven ls b) (rows.getD t [])) (by
      rw [weighted_length window hw, hrow t ht]; exact hwide b hb)
    exact ⟨u, u1, u3, by rw [u4, weighted_length window hw, hrow t ht]⟩
  obtain ⟨res, r1, r2, r3, r4⟩ := addBands_ok X S lin hlin ls hls lin.len rows.length fa
    (fun b t => P (weighted window (bandRun lin.alwaysEven ls b) (rows.getD t []))) bs (by
      intro b hb
      obtain ⟨i, hi, rfl⟩ := List.getElem_of_mem hb
      refine ⟨_, h3 i hi, ?_⟩
      have e : (rows.map fun r => valueOf (T (weighted window (bandRun lin.alwaysEven ls bs[i]) r))) =
          (List.range rows.length).map fun t => valueOf (T (weighted window (bandRun lin.alwaysEven ls bs[i]) (rows.getD t []))) := by
        apply List.ext_getElem
        · simp
        · intro t a c
          simp only [List.length_map] at a
          simp [List.getD_eq_getElem?_getD, a]
      rw [e]
      refine Spectral.mapM_ok _ _ _ _ ?_
      intro t ht
      obtain ⟨u, u1, u2, _⟩ := hP bs[i] hb t (List.mem_range.1 ht)
      rw [u1]
      exact u2) (by
      intro b hb t ht
      obtain ⟨u, _, _, u3⟩ := hP b hb t ht
      refine ⟨u3, ?_⟩
      rw [u3]
      exact Nat.lt_of_lt_of_le hleast (hwide b hb))
    (fa.rows.map fun _ => List.replicate lin.len 0) (by simp [h2]) (by
      intro r hr; obtain ⟨_, _, rfl⟩ := List.mem_map.1 hr; simp)
  refine ⟨fa, res, h1, ?_, r2, r3, ?_⟩
  · unfold recover
    rw [hbs.bands]
    exact r1
  · intro t ht k hk
    rw [r4 t ht k hk]
    have : ((fa.rows.map fun _ => List.replicate lin.len (0 : γ)).getD t []).getD k 0 = 0 := by
      have : t < fa.rows.length := by omega
      simp [List.getD_eq_getElem?_getD, this, hk]
    rw [this, zero_add]

end

/-! ## The property -/

/-- Specification: the weight coefficient `k` of `n` gets from a band that is cut from `run.1` up to `run.2`. -/
def weightAt (window : Nat → List ℝ) (n : Nat) (run : Nat × Nat) (k : Nat) : ℝ :=
  if run.1 ≤ k ∧ k < run.2 then (window (min run.2 n - run.1)).getD (k - run.1) 0 else 0

theorem sum_cast {δ : Type} (f : δ → ℝ) (l : List δ) : (l.map fun b => ((f b : ℝ) : ℂ)).sum = ((l.map f).sum : ℝ) := by
  induction l with
  | nil => simp
  | cons b l ih => rw [List.map_cons, List.sum_cons, ih, List.map_cons, List.sum_cons, Complex.ofReal_add]

theorem undone_dct : Undone Spectral.scipyIdct Spectral.scipyDct id id 1 := by
  refine ⟨fun v hv => ?_⟩
  obtain ⟨u, h1, h2, h3⟩ := Spectral.C54_idct_inverse v (by rintro rfl; simp at hv)
  exact ⟨u, h1, h2, h3, rfl⟩

theorem undone_fft : Undone Spectral.irfft Spectral.rfft Spectral.realEnds (fun m => 2 * (m - 1)) 2 := by
  refine ⟨fun v hv => ?_⟩
  obtain ⟨u, h1, h2, h3⟩ := Spectral.C54_irfft_inverse v hv
  exact ⟨u, h1, h2, h3, Spectral.realEnds_length v⟩

/-- **C60, DCT**: coefficients analyzed with the inverse DCT of their weighted bands and recovered by the synthesizer's DCT come back
multiplied by the sum of the weights of the bands they lie in. -/
theorem C60_dct (X : NumExt α) (window : Nat → List ℝ) (hw : ∀ n, (window n).length = n)
    (lin : Scale α) (hlin : Sliceable lin) (ls : List (Band α)) (hls : lin.bands X = .ok ls)
    (rows : List (List ℝ)) (hne : rows ≠ []) (hrows : ∀ r ∈ rows, r.length = lin.len) (scale : Scale α) (bs : List (Band α))
    (hbs : ScaleOk X scale bs) (hbne : bs ≠ [])
    (hwide : ∀ b ∈ bs, (bandRun lin.alwaysEven ls b).1 < min (bandRun lin.alwaysEven ls b).2 lin.len) :
    ∃ fa res, analyze X Spectral.scipyIdct window lin rows scale = .ok fa ∧
      recover X Spectral.scipyDct lin scale fa = .ok res ∧ res.length = rows.length ∧ (∀ r ∈ res, r.length = lin.len) ∧
      ∀ t, t < rows.length → ∀ k, k < lin.len → (res.getD t []).getD k 0 =
        (bs.map fun b => weightAt window lin.len (bandRun lin.alwaysEven ls b) k).sum * (rows.getD t []).getD k 0 := by
  obtain ⟨fa, res, h1, h2, h3, h4, h5⟩ := recover_analyze X _ _ id id 1 (by omega) undone_dct window hw lin hlin ls hls rows hne hrows scale bs hbs
    hbne (by intro b hb; have := hwide b hb; omega)
  refine ⟨fa, res, h1, h2, h3, h4, ?_⟩
  intro t ht k hk
  rw [h5 t ht k hk, ← List.sum_map_mul_right]
  congr 1
  apply List.map_congr_left
  intro b _
  have hr : (rows.getD t []).length = lin.len := by
    rw [List.getD_eq_getElem?_getD, List.getElem?_eq_getElem ht]
    exact hrows _ (List.getElem_mem ht)
  unfold weightAt
  by_cases hc : (bandRun lin.alwaysEven ls b).1 ≤ k ∧ k < (bandRun lin.alwaysEven ls b).2
  · rw [if_pos hc, if_pos hc, id, weighted_getD window hw _ _ k hc.1 hc.2 (by omega), hr]
  · rw [if_neg hc, if_neg hc, zero_mul]

/-- **C60, DCT synthesis**: when the weights of the bands sum to one at every coefficient, the synthesizer gives exactly the audio that
`DCTSynthesizer` makes from the coefficients that were analyzed. -/
theorem C60_dct_exact [IsStrictOrderedRing α] (X : NumExt α) (window : Nat → List ℝ) (hw : ∀ n, (window n).length = n) (ny : α) (hny : 0 < ny) (n : Nat) (hn : 2 ≤ n)
    (sf : Int) (hsf : 0 < sf) (td : Time.Dim) (htd : td.duration = n * sf)
    (rows : List (List ℝ)) (hne : rows ≠ []) (hrows : ∀ r ∈ rows, r.length = n) (scale : Scale α) (bs ls : List (Band α))
    (hbs : ScaleOk X scale bs) (hbne : bs ≠ []) (hls : (Scale.linear ⟨0, ny⟩ n true).bands X = .ok ls)
    (hwide : ∀ b ∈ bs, (bandRun true ls b).1 < min (bandRun true ls b).2 n)
    (hone : ∀ k, k < n → (bs.map fun b => weightAt window n (bandRun true ls b) k).sum = 1) :
    ∃ fa, analyze X Spectral.scipyIdct window (.linear ⟨0, ny⟩ n true) rows scale = .ok fa ∧
      dctSynthesize X scale ny sf td fa = Spectral.dctSynthesize none ⟨td, n, rows⟩ := by
  obtain ⟨fa, res, h1, h2, h3, h4, h5⟩ := C60_dct X window hw (.linear ⟨0, ny⟩ n true) (by intro b; simp) ls hls rows hne hrows scale bs hbs hbne hwide
  refine ⟨fa, h1, ?_⟩
  have hres : res = rows := by
    apply List.ext_getElem h3
    intro t a b
    have e1 : res.getD t [] = res[t] := by simp [List.getD_eq_getElem?_getD, a]
    have e2 : rows.getD t [] = rows[t] := by simp [List.getD_eq_getElem?_getD, b]
    have l1 : (res[t]).length = n := h4 _ (List.getElem_mem a)
    apply getD_ext (by rw [l1, hrows _ (List.getElem_mem b)])
    intro k hk
    have := h5 t b k (by rw [l1] at hk; exact hk)
    rw [e1, e2] at this
    rw [this, Scale.len, Scale.alwaysEven, hone k (by omega), one_mul]
  unfold dctSynthesize
  have hq : (td.duration / sf).toNat = n := by
    rw [htd, Int.mul_ediv_cancel _ (by omega)]; simp
  simp only [hq, Band.new, if_neg (not_le.2 hny), h2, hres]

/-- **C60, FFT**: coefficients analyzed with the inverse FFT of their weighted bands and recovered by the synthesizer's FFT come back as
the sum over the bands they lie in of their weighted value, of which a band keeps only the real part at its two ends. -/
theorem C60_fft (X : NumExt α) (w : Nat → List ℝ) (hw : ∀ n, (w n).length = n)
    (lin : Scale α) (hlin : Sliceable lin) (ls : List (Band α)) (hls : lin.bands X = .ok ls)
    (rows : List (List ℂ)) (hne : rows ≠ []) (hrows : ∀ r ∈ rows, r.length = lin.len) (scale : Scale α) (bs : List (Band α))
    (hbs : ScaleOk X scale bs) (hbne : bs ≠ [])
    (hwide : ∀ b ∈ bs, (bandRun lin.alwaysEven ls b).1 + 2 ≤ min (bandRun lin.alwaysEven ls b).2 lin.len) :
    ∃ fa res, analyze X Spectral.irfft (fun n => (w n).map fun x : ℝ => (x : ℂ)) lin rows scale = .ok fa ∧
      recover X Spectral.rfft lin scale fa = .ok res ∧ res.length = rows.length ∧ (∀ r ∈ res, r.length = lin.len) ∧
      ∀ t, t < rows.length → ∀ k, k < lin.len → (res.getD t []).getD k 0 =
        (bs.map fun b => (weightAt w lin.len (bandRun lin.alwaysEven ls b) k : ℂ) *
          if k = (bandRun lin.alwaysEven ls b).1 ∨ k + 1 = min (bandRun lin.alwaysEven ls b).2 lin.len then
            ((((rows.getD t []).getD k 0).re : ℝ) : ℂ) else (rows.getD t []).getD k 0).sum := by
  obtain ⟨fa, res, h1, h2, h3, h4, h5⟩ := recover_analyze X _ _ _ _ 2 (by omega) undone_fft (fun n => (w n).map fun x : ℝ => (x : ℂ))
    (by intro n; simp [hw]) lin hlin ls hls rows hne hrows scale bs hbs hbne (by intro b hb; have := hwide b hb; omega)
  refine ⟨fa, res, h1, h2, h3, h4, ?_⟩
  intro t ht k hk
  rw [h5 t ht k hk]
  congr 1
  apply List.map_congr_left
  intro b hb
  have hr : (rows.getD t []).length = lin.len := by
    rw [List.getD_eq_getElem?_getD, List.getElem?_eq_getElem ht]
    exact hrows _ (List.getElem_mem ht)
  have hwb := hwide b hb
  generalize bandRun lin.alwaysEven ls b = run at hwb ⊢
  unfold weightAt
  by_cases hc : run.1 ≤ k ∧ k < run.2
  · rw [if_pos hc, if_pos hc]
    have hlen : (weighted (fun n => (w n).map fun x : ℝ => (x : ℂ)) run (rows.getD t [])).length = min run.2 lin.len - run.1 := by
      rw [weighted_length _ (by intro n; simp [hw]), hr]
    have hkl : k - run.1 < min run.2 lin.len - run.1 := by omega
    have hwg : (((w (min run.2 lin.len - run.1)).map fun x : ℝ => (x : ℂ)).getD (k - run.1) 0) =
        (((w (min run.2 lin.len - run.1)).getD (k - run.1) 0 : ℝ) : ℂ) := by
      simp [List.getD_eq_getElem?_getD, hw, hkl]
    have hg := weighted_getD (fun n => (w n).map fun x : ℝ => (x : ℂ)) (by intro n; simp [hw]) run (rows.getD t []) k hc.1 hc.2 (by omega)
    rw [hr, hwg] at hg
    unfold Spectral.realEnds
    rw [Spectral.getD_map_range _ _ _ _ (by rw [hlen]; exact hkl), hlen, hg]
    by_cases he : k = run.1 ∨ k + 1 = min run.2 lin.len
    · rw [if_pos he, if_pos (by omega), Complex.re_ofReal_mul, Complex.ofReal_mul]
    · rw [if_neg he, if_neg (by omega)]
  · rw [if_neg hc, if_neg hc]
    simp

/-- **C60, FFT synthesis**: when the weights of the bands sum to one at every coefficient and the window vanishes at its ends, except
that the first and last coefficient of real audio may be weighted, the synthesizer gives exactly the audio that `FFTSynthesizer` makes
from the coefficients that were analyzed. -/
theorem C60_fft_exact [IsStrictOrderedRing α] (X : NumExt α) (w : Nat → List ℝ) (hw : ∀ n, (w n).length = n) (ny : α) (hny : 0 < ny) (n : Nat) (hn : 2 ≤ n)
    (sf : Int) (hsf : 0 < sf) (td : Time.Dim) (htd : td.duration = (2 * (n - 1) : Nat) * sf)
    (rows : List (List ℂ)) (hne : rows ≠ []) (hrows : ∀ r ∈ rows, r.length = n) (scale : Scale α) (bs ls : List (Band α))
    (hbs : ScaleOk X scale bs) (hbne : bs ≠ []) (hls : (Scale.linear ⟨0, ny⟩ n false).bands X = .ok ls)
    (hwide : ∀ b ∈ bs, (bandRun false ls b).1 + 2 ≤ min (bandRun false ls b).2 n)
    (hone : ∀ k, k < n → (bs.map fun b => weightAt w n (bandRun false ls b) k).sum = 1)
    (hreal : ∀ r ∈ rows, ∀ k, k < n → (∃ b ∈ bs, weightAt w n (bandRun false ls b) k ≠ 0 ∧
      (k = (bandRun false ls b).1 ∨ k + 1 = min (bandRun false ls b).2 n)) → (r.getD k 0).im = 0) :
    ∃ fa, analyze X Spectral.irfft (fun n => (w n).map fun x : ℝ => (x : ℂ)) (.linear ⟨0, ny⟩ n false) rows scale = .ok fa ∧
      fftSynthesize X scale ny sf td fa = Spectral.fftSynthesize ⟨td, n, rows⟩ := by
  obtain ⟨fa, res, h1, h2, h3, h4, h5⟩ := C60_fft X w hw (.linear ⟨0, ny⟩ n false) (by intro b; simp) ls hls rows hne hrows scale bs hbs hbne hwide
  refine ⟨fa, h1, ?_⟩
  have hres : res = rows := by
    apply List.ext_getElem h3
    intro t a b
    have e1 : res.getD t [] = res[t] := by simp [List.getD_eq_getElem?_getD, a]
    have e2 : rows.getD t [] = rows[t] := by simp [List.getD_eq_getElem?_getD, b]
    have l1 : (res[t]).length = n := h4 _ (List.getElem_mem a)
    apply getD_ext (by rw [l1, hrows _ (List.getElem_mem b)])
    intro k hk
    rw [l1] at hk
    have := h5 t b k hk
    rw [e1, e2] at this
    rw [this, Scale.len, Scale.alwaysEven]
    have hall : (bs.map fun b => (weightAt w n (bandRun false ls b) k : ℂ) *
          if k = (bandRun false ls b).1 ∨ k + 1 = min (bandRun false ls b).2 n then
            ((((rows[t]).getD k 0).re : ℝ) : ℂ) else (rows[t]).getD k 0) =
        bs.map fun b => (weightAt w n (bandRun false ls b) k : ℂ) * (rows[t]).getD k 0 := by
      apply List.map_congr_left
      intro b' hb'
      split
      · rename_i he
        by_cases hz : weightAt w n (bandRun false ls b') k = 0
        · rw [hz]; simp
        · congr 1
          apply Complex.ext
          · simp
          · rw [Complex.ofReal_im, hreal _ (List.getElem_mem b) k hk ⟨b', hb', hz, he⟩]
      · rfl
    rw [hall, List.sum_map_mul_right]
    have hsum : (bs.map fun b => (weightAt w n (bandRun false ls b) k : ℂ)).sum = (((bs.map fun b => weightAt w n (bandRun false ls b) k).sum : ℝ) : ℂ) := by
      exact sum_cast (fun b => weightAt w n (bandRun false ls b) k) bs
    rw [hsum, hone k hk]
    simp
  unfold fftSynthesize
  have hq : (td.duration / sf).toNat / 2 + 1 = n := by
    rw [htd, Int.mul_ediv_cancel _ (by omega)]; simp; omega
  simp only [hq, Band.new, if_neg (not_le.2 hny), h2, hres]

/-- **C60, construction**: asked to check, the node accepts exactly the scales whose adjacent bands have at least half of the lower one
in common, and refuses the others with a ValueError. -/
theorem C60_check [IsStrictOrderedRing α] (X : NumExt α) (scale : Scale α) (bs : List (Band α)) (hbs : scale.bands X = .ok bs)
    (hwf : ∀ b ∈ bs, WF b) :
    (construct X scale true = .ok () ↔ Adjacent (fun a b => 1 / 2 * a.bandwidth ≤ overlapLength a b) bs) ∧
    (construct X scale true = .ok () ∨ construct X scale true = .error .valueError) ∧ construct X scale false = .ok () := by
  obtain ⟨h1, h2⟩ := C22_ensure_overlap (1 / 2 : α) bs hwf
  unfold construct
  rw [if_pos rfl, if_neg (by simp), hbs]
  simp only []
  rw [← h1]
  rcases h2 with h | h
  · rw [h]; simp
  · rw [h]; simp

/-! ## Bands that are too narrow -/

theorem sequence_error {δ : Type} (e : PyErr) (l : List (Except PyErr δ)) (hl : ∀ x ∈ l, (∃ v, x = .ok v) ∨ x = .error e)
    (hx : .error e ∈ l) : Freq.sequence l = .error e := by
  induction l with
  | nil => simp at hx
  | cons x l ih =>
    rcases hl x (by simp) with ⟨v, rfl⟩ | rfl
    · have hx' : Except.error e ∈ l := by simpa using hx
      simp only [Freq.sequence, ih (fun y hy => hl y (by simp [hy])) hx']
    · simp [Freq.sequence]

theorem mapM_error {δ ε : Type} (f : δ → Except PyErr ε) (e : PyErr) (l : List δ) (hne : l ≠ []) (h : ∀ x ∈ l, f x = .error e) :
    l.mapM f = .error e := by
  match l, hne with
  | x :: l, _ => rw [List.mapM_cons, h x (by simp)]; rfl

theorem narrow [CommRing γ] (X : NumExt α) (T : List γ → Except PyErr (List β)) (least : Nat)
    (hok : ∀ v, least ≤ v.length → ∃ u, T v = .ok u) (herr : ∀ v, v.length < least → T v = .error .valueError)
    (window : Nat → List γ) (hw : ∀ n, (window n).length = n)
    (lin : Scale α) (hlin : Sliceable lin) (ls : List (Band α)) (hls : lin.bands X = .ok ls)
    (rows : List (List γ)) (hne : rows ≠ []) (hrows : ∀ r ∈ rows, r.length = lin.len) (scale : Scale α) (bs : List (Band α))
    (hbs : scale.bands X = .ok bs) (b : Band α) (hb : b ∈ bs)
    (hnarrow : min (bandRun lin.alwaysEven ls b).2 lin.len - (bandRun lin.alwaysEven ls b).1 < least) :
    analyze X T window lin rows scale = .error .valueError := by
  have hproc : ∀ b, processBand X T window lin rows b =
      (match rows.mapM (weightedRow T window (SliceOut.run (α := α) (bandRun lin.alwaysEven ls b).1 (bandRun lin.alwaysEven ls b).2)) with
        | .error e => .error e
        | .ok rs => .ok ((rs.headD []).length, rs)) := by
    intro b
    unfold processBand
    rw [getSlice_run X lin hlin ls hls b]
    rfl
  have hrow : ∀ b, ∀ r ∈ rows, weightedRow T window (SliceOut.run (α := α) (bandRun lin.alwaysEven ls b).1 (bandRun lin.alwaysEven ls b).2) r =
      T (weighted window (bandRun lin.alwaysEven ls b) r) ∧
      (weighted window (bandRun lin.alwaysEven ls b) r).length = min (bandRun lin.alwaysEven ls b).2 lin.len - (bandRun lin.alwaysEven ls b).1 := by
    intro b r hr
    refine ⟨rfl, ?_⟩
    rw [weighted_length window hw, hrows r hr]
  have hnar : ∀ b, min (bandRun lin.alwaysEven ls b).2 lin.len - (bandRun lin.alwaysEven ls b).1 < least →
      processBand X T window lin rows b = .error .valueError := by
    intro b h
    rw [hproc, mapM_error _ .valueError rows hne]
    intro r hr
    obtain ⟨e, hl⟩ := hrow b r hr
    rw [e]
    exact herr _ (by omega)
  unfold analyze
  rw [hbs]
  simp only []
  rw [sequence_error .valueError]
  · intro x hx
    obtain ⟨b', _, rfl⟩ := List.mem_map.1 hx
    by_cases h : min (bandRun lin.alwaysEven ls b').2 lin.len - (bandRun lin.alwaysEven ls b').1 < least
    · exact .inr (hnar b' h)
    · left
      have := Spectral.mapM_ok (weightedRow T window (SliceOut.run (α := α) (bandRun lin.alwaysEven ls b').1 (bandRun lin.alwaysEven ls b').2)) id
        (fun r => valueOf (T (weighted window (bandRun lin.alwaysEven ls b') r))) rows (by
          intro r hr
          obtain ⟨e, hl⟩ := hrow b' r hr
          rw [id, e]
          obtain ⟨u, hu⟩ := hok (weighted window (bandRun lin.alwaysEven ls b') r) (by omega)
          rw [hu]; rfl)
      rw [List.map_id] at this
      rw [hproc, this]
      exact ⟨_, rfl⟩
  · exact List.mem_map.2 ⟨b, hb, hnar b hnarrow⟩

/-- **C60, narrow bands**: a scale with a band that contains no coefficient cannot be analyzed with the DCT, one with a band that
contains fewer than two cannot be analyzed with the FFT. -/
theorem C60_narrow (X : NumExt α) (lin : Scale α) (hlin : Sliceable lin) (ls : List (Band α)) (hls : lin.bands X = .ok ls)
    (scale : Scale α) (bs : List (Band α)) (hbs : scale.bands X = .ok bs) (b : Band α) (hb : b ∈ bs) :
    (∀ (window : Nat → List ℝ) (rows : List (List ℝ)), (∀ n, (window n).length = n) → rows ≠ [] → (∀ r ∈ rows, r.length = lin.len) →
      min (bandRun lin.alwaysEven ls b).2 lin.len - (bandRun lin.alwaysEven ls b).1 < 1 →
      analyze X Spectral.scipyIdct window lin rows scale = .error .valueError) ∧
    (∀ (window : Nat → List ℂ) (rows : List (List ℂ)), (∀ n, (window n).length = n) → rows ≠ [] → (∀ r ∈ rows, r.length = lin.len) →
      min (bandRun lin.alwaysEven ls b).2 lin.len - (bandRun lin.alwaysEven ls b).1 < 2 →
      analyze X Spectral.irfft window lin rows scale = .error .valueError) := by
  constructor
  · intro window rows hw hne hrows h
    refine narrow X _ 1 ?_ ?_ window hw lin hlin ls hls rows hne hrows scale bs hbs b hb h
    · intro v hv
      obtain ⟨u, h1, _⟩ := undone_dct.pair v hv
      exact ⟨u, h1⟩
    · intro v hv
      have : v = [] := by rw [← List.length_eq_zero_iff]; omega
      subst this
      simp [Spectral.scipyIdct]
  · intro window rows hw hne hrows h
    refine narrow X _ 2 ?_ ?_ window hw lin hlin ls hls rows hne hrows scale bs hbs b hb h
    · intro v hv
      obtain ⟨u, h1, _⟩ := undone_fft.pair v hv
      exact ⟨u, h1⟩
    · exact fun v hv => Spectral.C54_irfft_short v hv

/-! ## What goes wrong -/

/-- Four linear bands of 25 Hz. -/
def four (even : Bool) : Scale ℚ := .linear ⟨0, 100⟩ 4 even

def fourBands : List (Band ℚ) := [⟨0, 25⟩, ⟨25, 50⟩, ⟨50, 75⟩, ⟨75, 100⟩]

theorem four_bands (even : Bool) : (four even).bands noExt = .ok fourBands := by
  cases even <;> decide +kernel

def ones (n : Nat) : List ℝ := List.replicate n 1

theorem ones_getD (n k : Nat) (h : k < n) : (ones n).getD k 0 = 1 := by simp [ones, List.getD_eq_getElem?_getD, h]

/-- **C60, adjoining bands**: with the node's default window (ones) and a scale that divides the spectrum into two halves, the
coefficient just below the border is in both bands and comes back doubled. -/
theorem C60_adjoining_refuted (a b c d : ℝ) :
    ∃ fa res, analyze noExt Spectral.scipyIdct ones (four true) [[a, b, c, d]] (.explicit [⟨0, 50⟩, ⟨50, 100⟩]) = .ok fa ∧
      recover noExt Spectral.scipyDct (four true) (.explicit [⟨0, 50⟩, ⟨50, 100⟩]) fa = .ok res ∧ (res.getD 0 []).getD 1 0 = 2 * b := by
  have r1 : bandRun (four true).alwaysEven fourBands ⟨0, 50⟩ = (0, 2) := by decide +kernel
  have r2 : bandRun (four true).alwaysEven fourBands ⟨50, 100⟩ = (1, 5) := by decide +kernel
  obtain ⟨fa, res, h1, h2, _, _, h5⟩ := C60_dct noExt ones (by intro n; simp [ones]) (four true) (by intro b; simp [four]) fourBands
    (four_bands true) [[a, b, c, d]] (by simp) (by simp [four, Scale.len]) (.explicit [⟨0, 50⟩, ⟨50, 100⟩]) [⟨0, 50⟩, ⟨50, 100⟩]
    ⟨rfl, rfl, by decide +kernel⟩ (by simp) (by
      intro q hq
      simp only [List.mem_cons, List.not_mem_nil, or_false] at hq
      rcases hq with rfl | rfl
      · rw [r1]; simp [four, Scale.len]
      · rw [r2]; simp [four, Scale.len])
  refine ⟨fa, res, h1, h2, ?_⟩
  rw [h5 0 (by simp) 1 (by simp [four, Scale.len])]
  simp only [List.map_cons, List.map_nil, List.sum_cons, List.sum_nil, r1, r2, weightAt]
  have e1 : min (0, 2).2 (four true).len - (0, 2).1 = 2 := by simp [four, Scale.len]
  have e2 : min (1, 5).2 (four true).len - (1, 5).1 = 3 := by simp [four, Scale.len]
  rw [e1, e2]
  norm_num [ones]

/-- **C60, evenness**: the DCT node does not slice evenly unless told to, the synthesizer always does: coefficients analyzed on the
node's default scale cannot be synthesized when a band holds an odd number of them. -/
theorem C60_even_mismatch_refuted (a b c d : ℝ) :
    ∃ fa, analyze noExt Spectral.scipyIdct ones (four false) [[a, b, c, d]] (.explicit [⟨0, 60⟩]) = .ok fa ∧
      recover noExt Spectral.scipyDct (four true) (.explicit [⟨0, 60⟩]) fa = .error .valueError := by
  have r1 : bandRun (four false).alwaysEven fourBands ⟨0, 60⟩ = (0, 3) := by decide +kernel
  have r2 : bandRun (four true).alwaysEven fourBands ⟨0, 60⟩ = (0, 4) := by decide +kernel
  obtain ⟨fa, h1, h2, h3⟩ := analyze_ok noExt Spectral.scipyIdct Spectral.scipyDct id id 1 undone_dct ones (by intro n; simp [ones])
    (four false) (by intro b; simp [four]) fourBands (four_bands false) 4 [[a, b, c, d]] (by simp) (by simp) (.explicit [⟨0, 60⟩]) [⟨0, 60⟩]
    ⟨rfl, rfl, by decide +kernel⟩ (by simp) (by
      intro q hq
      simp only [List.mem_cons, List.not_mem_nil, or_false] at hq
      rw [hq, r1]; simp)
  refine ⟨fa, h1, ?_⟩
  have h30 := h3 0 (by simp)
  rw [List.getElem_cons_zero, r1] at h30
  obtain ⟨u, u1, u2, u3, _⟩ := undone_dct.pair (weighted ones (0, 3) [a, b, c, d]) (by
    rw [weighted_length ones (by intro n; simp [ones])]; simp)
  have hlen : (weighted ones (0, 3) [a, b, c, d]).length = 3 := by
    rw [weighted_length ones (by intro n; simp [ones])]; simp
  simp only [List.map_cons, List.map_nil, u1, valueOf] at h30
  have hrows : fa.rows.map (fun _ => List.replicate (four true).len (0 : ℝ)) = [List.replicate 4 0] := by
    match hr : fa.rows, h2 with
    | [x], _ => rfl
  unfold recover
  have hb : (Scale.explicit [(⟨0, 60⟩ : Band ℚ)]).bands noExt = .ok [⟨0, 60⟩] := rfl
  rw [hb]
  simp only [addBands, addBand, h30, getSlice_run noExt (four true) (by intro b; simp [four]) fourBands (four_bands true), r2, hrows]
  have hm : [u].mapM Spectral.scipyDct = .ok [weighted ones (0, 3) [a, b, c, d]] := by
    have := Spectral.mapM_ok Spectral.scipyDct id (fun _ => weighted ones (0, 3) [a, b, c, d]) [u] (by
      intro x hx
      simp only [List.mem_cons, List.not_mem_nil, or_false] at hx
      rw [hx]; exact u3)
    simpa using this
  rw [hm]
  simp only [List.zip_cons_cons, List.zip_nil_right]
  rw [mapM_error _ .valueError _ (by simp)]
  intro p hp
  simp only [List.mem_cons, List.not_mem_nil, or_false] at hp
  rw [hp]
  unfold addRun
  simp only []
  rw [if_neg (by rw [hlen]; simp)]
  match hv : weighted ones (0, 3) [a, b, c, d], hlen with
  | [x, y, z], _ => rfl

/-- Five linear bands of 20 Hz. -/
def five : Scale ℚ := .linear ⟨0, 100⟩ 5 false

def fiveBands : List (Band ℚ) := [⟨0, 20⟩, ⟨20, 40⟩, ⟨40, 60⟩, ⟨60, 80⟩, ⟨80, 100⟩]

theorem five_bands : five.bands noExt = .ok fiveBands := by decide +kernel

/-- **C60, FFT band ends**: unless the window vanishes at its ends, the imaginary part of a coefficient at the end of its bands is
lost. -/
theorem C60_fft_ends_refuted (a b c d e : ℂ) :
    ∃ fa res, analyze noExt Spectral.irfft (fun n => (ones n).map fun x : ℝ => (x : ℂ)) five [[a, b, c, d, e]]
        (.explicit [⟨0, 50⟩, ⟨70, 100⟩]) = .ok fa ∧
      recover noExt Spectral.rfft five (.explicit [⟨0, 50⟩, ⟨70, 100⟩]) fa = .ok res ∧
      (res.getD 0 []).getD 2 0 = (c.re : ℂ) := by
  have r1 : bandRun five.alwaysEven fiveBands ⟨0, 50⟩ = (0, 3) := by
    decide +kernel
  have r2 : bandRun five.alwaysEven fiveBands ⟨70, 100⟩ = (3, 5) := by
    decide +kernel
  obtain ⟨fa, res, h1, h2, _, _, h5⟩ := C60_fft noExt ones (by intro n; simp [ones]) five (by intro b; simp [five]) fiveBands five_bands
    [[a, b, c, d, e]] (by simp) (by simp [five, Scale.len]) (.explicit [⟨0, 50⟩, ⟨70, 100⟩]) [⟨0, 50⟩, ⟨70, 100⟩]
    ⟨rfl, rfl, by decide +kernel⟩ (by simp) (by
      intro q hq
      simp only [List.mem_cons, List.not_mem_nil, or_false] at hq
      rcases hq with rfl | rfl
      · rw [r1]; simp [five, Scale.len]
      · rw [r2]; simp [five, Scale.len])
  refine ⟨fa, res, h1, h2, ?_⟩
  rw [h5 0 (by simp) 2 (by simp [five, Scale.len])]
  simp only [List.map_cons, List.map_nil, List.sum_cons, List.sum_nil, r1, r2, weightAt]
  simp [five, Scale.len, ones]

/-- The weights of one band over the whole spectrum sum to one: the hypotheses of the exact theorem are met. -/
example : ∀ k, k < 4 → (([⟨0, 100⟩] : List (Band ℚ)).map fun b => weightAt ones 4 (bandRun true fourBands b) k).sum = 1 := by
  have r1 : bandRun true fourBands ⟨0, 100⟩ = (0, 4) := by decide +kernel
  intro k hk
  simp only [List.map_cons, List.map_nil, List.sum_cons, List.sum_nil, r1, weightAt]
  rw [if_pos ⟨by omega, hk⟩, ones_getD _ _ (by simpa using hk)]
  simp

theorem four_total : ∀ k, k < 4 → (([⟨0, 100⟩] : List (Band ℚ)).map fun b => weightAt ones 4 (bandRun true fourBands b) k).sum = 1 := by
  have r1 : bandRun true fourBands ⟨0, 100⟩ = (0, 4) := by decide +kernel
  intro k hk
  simp only [List.map_cons, List.map_nil, List.sum_cons, List.sum_nil, r1, weightAt]
  rw [if_pos ⟨by omega, hk⟩, ones_getD _ _ (by simpa using hk)]
  simp
example := C60_dct_exact noExt ones (by intro n; simp [ones]) (100 : ℚ) (by norm_num) 4 (by norm_num) 10 (by norm_num) ⟨20, 40, 1⟩ rfl [[1, 2, 3, 4]] (by simp) (by simp)
  (.explicit [⟨0, 100⟩]) [⟨0, 100⟩] fourBands ⟨rfl, rfl, by decide +kernel⟩ (by simp) (four_bands true) (by decide +kernel) four_total
example := C60_check noExt (.explicit [⟨0, 60⟩, ⟨25, 75⟩] : Scale ℚ) [⟨0, 60⟩, ⟨25, 75⟩] rfl (by
  intro b hb
  simp only [List.mem_cons, List.not_mem_nil, or_false] at hb
  rcases hb with rfl | rfl <;> unfold WF <;> norm_num)
example := C60_narrow noExt (four true) (by intro b; simp [four]) fourBands (four_bands true) (.explicit [⟨0, 100⟩]) [⟨0, 100⟩] rfl ⟨0, 100⟩ (by simp)

end Zounds.FaTransform
