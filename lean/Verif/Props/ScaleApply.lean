import Verif.Model.ScaleApply
import Verif.Props.Frequency
import Mathlib.Algebra.BigOperators.Intervals
import Mathlib.Algebra.BigOperators.Ring.List
import Mathlib.Algebra.Order.BigOperators.Group.List
import Mathlib.Data.List.GetD

/-!
# C64: applying a scale to a spectrum
-/

namespace Zounds.ScaleApply
open Zounds Zounds.Freq Zounds.Props.Frequency Finset

variable {α : Type} [Field α] [LinearOrder α]

/-- The specification: the coefficients that touch the band, weighted by a window as wide as there are of them, added up. -/
def windowedSum (window : Nat → List α) (obs : List (Band α)) (b : Band α) (row : List α) : α :=
  (List.zipWith (· * ·) (window (rowsTouching obs b row).length) (rowsTouching obs b row)).sum

theorem list_sum_eq (l : List α) : l.sum = ∑ j ∈ range l.length, l.getD j 0 := by
  induction l with
  | nil => simp
  | cons a l ih => rw [List.sum_cons, List.length_cons, sum_range_succ', ih]; simp [add_comm]

theorem dot_eq (a b : List α) : dot a b = ∑ j ∈ range (min a.length b.length), a.getD j 0 * b.getD j 0 := by
  unfold dot
  rw [list_sum_eq, List.length_zipWith]
  apply sum_congr rfl
  intro j hj
  have := mem_range.1 hj
  have h1 : j < a.length := by omega
  have h2 : j < b.length := by omega
  simp [h1, h2]

theorem weightRow_length (window : Nat → List α) (n lo hi : Nat) : (weightRow window n lo hi).length = n := by simp [weightRow]

theorem weightRow_getD (window : Nat → List α) (n lo hi j : Nat) (hj : j < n) :
    (weightRow window n lo hi).getD j 0 = if lo ≤ j ∧ j < hi then (window (min hi n - lo)).getD (j - lo) 0 else 0 := by
  unfold weightRow
  rw [List.getD_eq_getElem?_getD, List.getElem?_map, List.getElem?_range hj]
  rfl

theorem dot_weightRow (window : Nat → List α) (hwin : ∀ k, (window k).length = k) (n lo hi : Nat) (r : List α) (hr : r.length = n) :
    dot (weightRow window n lo hi) r =
      (List.zipWith (· * ·) (window ((r.take hi).drop lo).length) ((r.take hi).drop lo)).sum := by
  have hk : ((r.take hi).drop lo).length = min hi n - lo := by rw [List.length_drop, List.length_take, hr]
  rw [hk]
  have e2 : (List.zipWith (· * ·) (window (min hi n - lo)) ((r.take hi).drop lo)).sum =
      ∑ i ∈ range (min hi n - lo), (window (min hi n - lo)).getD i 0 * r.getD (lo + i) 0 := by
    rw [show (List.zipWith (· * ·) (window (min hi n - lo)) ((r.take hi).drop lo)).sum =
      dot (window (min hi n - lo)) ((r.take hi).drop lo) from rfl, dot_eq, hwin, hk, Nat.min_self]
    apply sum_congr rfl
    intro i hi'
    have := mem_range.1 hi'
    congr 1
    simp only [List.getD_eq_getElem?_getD, List.getElem?_drop]
    rw [List.getElem?_take_of_lt (by omega)]
  rw [e2, dot_eq, weightRow_length, hr, Nat.min_self]
  have e3 : ∀ j ∈ range n, (weightRow window n lo hi).getD j 0 * r.getD j 0 =
      if lo ≤ j ∧ j < hi then (window (min hi n - lo)).getD (j - lo) 0 * r.getD j 0 else 0 := by
    intro j hj
    rw [weightRow_getD _ _ _ _ _ (mem_range.1 hj)]
    split
    · rfl
    · rw [zero_mul]
  rw [sum_congr rfl e3, ← sum_filter]
  have e4 : (range n).filter (fun j => lo ≤ j ∧ j < hi) = Ico lo (min hi n) := by
    ext j
    simp only [mem_filter, mem_range, mem_Ico]
    omega
  rw [e4, sum_Ico_eq_sum_range]
  apply sum_congr rfl
  intro i _
  rw [Nat.add_sub_cancel_left]

/-- One band: the row of weights, applied. -/
theorem bandRow_spec (X : NumExt α) (other : Scale α) (hs : Sliceable other) (heven : other.alwaysEven = false)
    (obs : List (Band α)) (hb : other.bands X = .ok obs) (ho : Ordered obs) (hlen : other.len = obs.length)
    (window : Nat → List α) (hwin : ∀ k, (window k).length = k) (b : Band α) :
    ∃ w, bandRow X other window b = .ok w ∧ w.length = obs.length ∧
      ∀ r : List α, r.length = obs.length → dot w r = windowedSum window obs b r := by
  obtain ⟨out, e, hsel⟩ := C20_selects_exactly X other hs heven obs hb ho b
  have hout : ∃ lo hi, out = .run lo hi := by
    cases other with
    | chroma c => exact absurd rfl (hs c)
    | _ =>
      simp only [Scale.getSlice, hb] at e
      cases e
      exact ⟨_, _, rfl⟩
  obtain ⟨lo, hi, rfl⟩ := hout
  refine ⟨weightRow window other.len lo hi, by simp only [bandRow, e], by rw [weightRow_length, hlen], ?_⟩
  intro r hr
  rw [dot_weightRow window hwin other.len lo hi r (by omega)]
  have := hsel r hr
  simp only [SliceOut.select, Except.ok.injEq] at this
  rw [this]
  rfl

theorem sequence_map {γ δ : Type} (f : γ → Except PyErr δ) (l : List γ) (h : ∀ x ∈ l, ∃ y, f x = .ok y) :
    ∃ ys, Freq.sequence (l.map f) = .ok ys ∧ ys.length = l.length ∧ ∀ (i : Nat) (x : γ), l[i]? = some x → ∃ y, ys[i]? = some y ∧ f x = .ok y := by
  induction l with
  | nil => exact ⟨[], rfl, rfl, by simp⟩
  | cons a l ih =>
    obtain ⟨y, hy⟩ := h a (by simp)
    obtain ⟨ys, e, hl, hv⟩ := ih (fun x hx => h x (by simp [hx]))
    refine ⟨y :: ys, by simp only [List.map_cons, hy, Freq.sequence, e], by simp [hl], ?_⟩
    intro i x hx
    cases i with
    | zero =>
      simp only [List.getElem?_cons_zero, Option.some.injEq] at hx
      subst hx
      exact ⟨y, by simp, hy⟩
    | succ i => simpa using hv i x (by simpa using hx)

/-- **C64, apply**: applied to a spectrum on another scale, whose bands are in order, a scale gives one row for each row, with one
coefficient for every band of the scale: the sum of the spectrum's coefficients that touch that band, weighted by the window. -/
theorem C64_apply (X : NumExt α) (scale other : Scale α) (sbs : List (Band α)) (hsb : scale.bands X = .ok sbs)
    (hs : Sliceable other) (heven : other.alwaysEven = false)
    (obs : List (Band α)) (hb : other.bands X = .ok obs) (ho : Ordered obs) (hlen : other.len = obs.length)
    (window : Nat → List α) (hwin : ∀ k, (window k).length = k) (rows : List (List α)) (hrows : ∀ r ∈ rows, r.length = obs.length) :
    ∃ out, applyScale X scale other window rows = .ok out ∧ out.length = rows.length ∧
      ∀ (t : Nat) (r : List α), rows[t]? = some r → ∃ y, out[t]? = some y ∧ y.length = sbs.length ∧
        ∀ (i : Nat) (b : Band α), sbs[i]? = some b → y[i]? = some (windowedSum window obs b r) := by
  obtain ⟨bas, e, hl, hv⟩ := sequence_map (bandRow X other window) sbs (fun b _ => by
    obtain ⟨w, hw, _⟩ := bandRow_spec X other hs heven obs hb ho hlen window hwin b
    exact ⟨w, hw⟩)
  refine ⟨rows.map fun r => bas.map fun b => dot b r, by simp only [applyScale, basis, hsb, e], by simp, ?_⟩
  intro t r hr
  refine ⟨bas.map fun b => dot b r, by rw [List.getElem?_map, hr]; rfl, by simp [hl], ?_⟩
  intro i b hib
  obtain ⟨y, hy, hyb⟩ := hv i b hib
  obtain ⟨w, hw, _, hdot⟩ := bandRow_spec X other hs heven obs hb ho hlen window hwin b
  rw [hw] at hyb
  cases hyb
  rw [List.getElem?_map, hy, Option.map_some, hdot r (hrows r (List.mem_iff_getElem?.2 ⟨t, hr⟩))]

/-- **C64, only bins in the band count**: two spectra that agree where the band is touched give the same coefficient. -/
theorem C64_local (window : Nat → List α) (obs : List (Band α)) (b : Band α) (r r' : List α)
    (h : rowsTouching obs b r = rowsTouching obs b r') : windowedSum window obs b r = windowedSum window obs b r' := by
  unfold windowedSum
  rw [h]

/-- **C64, a window of ones adds up the touching bins.** -/
theorem C64_ones (obs : List (Band α)) (b : Band α) (r : List α) :
    windowedSum (fun k => List.replicate k 1) obs b r = (rowsTouching obs b r).sum := by
  unfold windowedSum
  generalize rowsTouching obs b r = l
  induction l with
  | nil => simp
  | cons a l ih => simp [List.replicate_succ, ih]

section order
variable [IsStrictOrderedRing α]

/-- **C64, energies stay energies**: with a window that is nowhere negative, Bark bands are not negative. -/
theorem C64_bark_nonneg (X : NumExt α) (band : Band α) (nBands : Nat) (other : Scale α) (sbs : List (Band α))
    (hsb : (Scale.bark band nBands).bands X = .ok sbs)
    (hs : Sliceable other) (heven : other.alwaysEven = false)
    (obs : List (Band α)) (hb : other.bands X = .ok obs) (ho : Ordered obs) (hlen : other.len = obs.length)
    (window : Nat → List α) (hwin : ∀ k, (window k).length = k) (hpos : ∀ k, ∀ w ∈ window k, 0 ≤ w)
    (rows : List (List α)) (hrows : ∀ r ∈ rows, r.length = obs.length) :
    ∃ out, barkBands X band nBands other window rows = .ok out ∧ ∀ y ∈ out, y.length = sbs.length ∧ ∀ v ∈ y, 0 ≤ v := by
  obtain ⟨out, e, hl, hv⟩ := C64_apply X (.bark band nBands) other sbs hsb hs heven obs hb ho hlen window hwin
    (rows.map fun r => r.map fun x => |x|) (by
      intro r hr
      obtain ⟨r0, h0, rfl⟩ := List.mem_map.1 hr
      rw [List.length_map]; exact hrows r0 h0)
  refine ⟨out, e, ?_⟩
  intro y hy
  obtain ⟨t, ht⟩ := List.mem_iff_getElem?.1 hy
  have htl : t < rows.length := by
    have := (List.getElem?_eq_some_iff.1 ht).1
    rw [hl, List.length_map] at this; exact this
  obtain ⟨y', hy', hyl, hyv⟩ := hv t (rows[t].map fun x => |x|) (by simp [htl])
  rw [ht] at hy'
  cases hy'
  refine ⟨hyl, ?_⟩
  intro v hvm
  obtain ⟨i, hi⟩ := List.mem_iff_getElem?.1 hvm
  have hil : i < sbs.length := by
    have := (List.getElem?_eq_some_iff.1 hi).1
    omega
  have := hyv i sbs[i] (List.getElem?_eq_getElem hil)
  rw [hi] at this
  cases this
  unfold windowedSum
  apply List.sum_nonneg
  intro z hz
  obtain ⟨k, hk, rfl⟩ := List.mem_iff_getElem.1 hz
  rw [List.getElem_zipWith]
  apply mul_nonneg
  · exact hpos _ _ (List.getElem_mem _)
  · have hm := List.getElem_mem (l := rowsTouching obs sbs[i] (rows[t].map fun x => |x|)) (n := k) (by
      rw [List.length_zipWith] at hk; omega)
    unfold rowsTouching at hm
    obtain ⟨p, hp, hpe⟩ := List.mem_map.1 hm
    have hp2 := (List.of_mem_zip (List.mem_of_mem_filter hp)).2
    unfold rowsTouching
    rw [← hpe]
    obtain ⟨x, _, hx⟩ := List.mem_map.1 hp2
    rw [← hx]
    exact abs_nonneg x

omit [IsStrictOrderedRing α] in
/-- **C64.** The windowed sum of the sum of two spectra is the sum of theirs. -/
theorem C64_windowed_add (window : Nat → List α) (obs : List (Band α)) (b : Band α) (r s : List α) (h : r.length = s.length) :
    windowedSum window obs b (List.zipWith (· + ·) r s) = windowedSum window obs b r + windowedSum window obs b s := by
  have key : ∀ (obs : List (Band α)) (r s : List α), r.length = s.length →
      rowsTouching obs b (List.zipWith (· + ·) r s) = List.zipWith (· + ·) (rowsTouching obs b r) (rowsTouching obs b s) ∧
      (rowsTouching obs b r).length = (rowsTouching obs b s).length := by
    intro obs
    induction obs with
    | nil => intro r s _; simp [rowsTouching]
    | cons o os ih =>
      intro r s h
      cases r with
      | nil => cases s with
        | nil => simp [rowsTouching]
        | cons y s => simp at h
      | cons x r => cases s with
        | nil => simp at h
        | cons y s =>
          have := ih r s (by simpa using h)
          unfold rowsTouching at this ⊢
          simp only [List.zipWith_cons_cons, List.zip_cons_cons, List.filter_cons]
          split
          · simp only [List.map_cons, List.zipWith_cons_cons, this.1, List.length_cons, this.2, and_self]
          · exact this
  obtain ⟨e, hl⟩ := key obs r s h
  unfold windowedSum
  rw [e, List.length_zipWith, ← hl, Nat.min_self]
  generalize window _ = w
  generalize rowsTouching obs b r = l at hl
  generalize rowsTouching obs b s = m at hl
  clear e h key
  induction l generalizing w m with
  | nil => cases m with
    | nil => simp
    | cons y m => simp at hl
  | cons a l ih =>
    cases m with
    | nil => simp at hl
    | cons y m =>
      cases w with
      | nil => simp
      | cons c w =>
        simp only [List.zipWith_cons_cons, List.sum_cons, ih w m (by simpa using hl)]
        ring

/-- **C64, volume**: with any window, scaling the spectrum scales every Bark band by the magnitude of the factor. -/
theorem C64_windowed_scale (window : Nat → List α) (obs : List (Band α)) (b : Band α) (r : List α) (c : α) :
    windowedSum window obs b (r.map fun x => c * x) = c * windowedSum window obs b r := by
  have e : rowsTouching obs b (r.map fun x => c * x) = (rowsTouching obs b r).map fun x => c * x := by
    unfold rowsTouching
    rw [List.zip_map_right, List.filter_map, List.map_map, List.map_map]
    rfl
  unfold windowedSum
  rw [e, List.length_map]
  generalize window _ = w
  generalize rowsTouching obs b r = l
  induction l generalizing w with
  | nil => simp
  | cons a l ih =>
    cases w with
    | nil => simp
    | cons v w => simp only [List.map_cons, List.zipWith_cons_cons, List.sum_cons, ih, mul_add]; ring

/-! ## Chroma -/

/-- **C64, chroma**: coefficient `c` is the sum of the windowed sums over the bands of all tones `s` from one below the lowest to three
below the highest semitone of the range, with `s` leaving `c` on division by twelve; the band of `s` reaches from that tone
to the second above it. -/
theorem C64_chroma (X : NumExt α) (other : Scale α) (hs : Sliceable other) (heven : other.alwaysEven = false)
    (obs : List (Band α)) (hb : other.bands X = .ok obs) (ho : Ordered obs) (hlen : other.len = obs.length)
    (window : Nat → List α) (hwin : ∀ k, (window k).length = k) (hz : Int → α) (hmono : ∀ s, hz s < hz (s + 2)) (start stop : Int)
    (rows : List (List α)) (hrows : ∀ r ∈ rows, r.length = obs.length) :
    ∃ out, applyChroma X other window hz start stop rows = .ok out ∧ out.length = rows.length ∧
      ∀ (t : Nat) (r : List α), rows[t]? = some r → ∃ y, out[t]? = some y ∧ y.length = 12 ∧
        ∀ c : Nat, c < 12 → y[c]? = some (((chromaTones start stop).map fun s =>
          if s % 12 = (c : Int) then windowedSum window obs ⟨hz s, hz (s + 2)⟩ r else 0).sum) := by
  have hnew : ∀ s, Band.new (hz s) (hz (s + 2)) = .ok ⟨hz s, hz (s + 2)⟩ := fun s => (C22_new _ _).1 (hmono s)
  have htone : ∀ s, ∃ w, chromaTone X other window hz s = .ok ((s % 12).toNat, w) ∧ w.length = obs.length ∧
      ∀ r : List α, r.length = obs.length → dot w r = windowedSum window obs ⟨hz s, hz (s + 2)⟩ r := by
    intro s
    obtain ⟨w, hw, hwl, hd⟩ := bandRow_spec X other hs heven obs hb ho hlen window hwin ⟨hz s, hz (s + 2)⟩
    exact ⟨w, by simp only [chromaTone, hnew, hw], hwl, hd⟩
  obtain ⟨tones, e, hl, hv⟩ := sequence_map (chromaTone X other window hz) (chromaTones start stop) (fun s _ => by
    obtain ⟨w, hw, _⟩ := htone s
    exact ⟨_, hw⟩)
  refine ⟨rows.map fun r => ((List.range 12).map fun c => (List.range other.len).map fun j =>
      (tones.map fun p => if p.1 = c then p.2.getD j 0 else 0).sum).map fun b => dot b r,
    by simp only [applyChroma, chromaBasis, e], by simp, ?_⟩
  intro t r hr
  have hrl : r.length = obs.length := hrows r (List.mem_iff_getElem?.2 ⟨t, hr⟩)
  refine ⟨((List.range 12).map fun c => (List.range other.len).map fun j =>
      (tones.map fun p => if p.1 = c then p.2.getD j 0 else 0).sum).map fun b => dot b r,
    by rw [List.getElem?_map, hr]; rfl, by simp, ?_⟩
  intro c hc
  rw [List.getElem?_map, List.getElem?_map, List.getElem?_range hc, Option.map_some, Option.map_some, dot_eq]
  simp only [List.length_map, List.length_range, hrl, hlen, Nat.min_self, Option.some.injEq]
  have e1 : ∀ j ∈ range obs.length, ((List.range obs.length).map fun j =>
      (tones.map fun p => if p.1 = c then p.2.getD j 0 else 0).sum).getD j 0 * r.getD j 0 =
      (tones.map fun p => if p.1 = c then p.2.getD j 0 * r.getD j 0 else 0).sum := by
    intro j hj
    rw [List.getD_eq_getElem?_getD, List.getElem?_map, List.getElem?_range (mem_range.1 hj), Option.map_some, Option.getD_some,
      ← List.sum_map_mul_right]
    congr 1
    apply List.map_congr_left
    intro p _
    split
    · rfl
    · rw [zero_mul]
  rw [sum_congr rfl e1]
  have swap : ∀ L : List (Nat × List α), (∑ j ∈ range obs.length, (L.map fun p => if p.1 = c then p.2.getD j 0 * r.getD j 0 else 0).sum) =
      (L.map fun p => if p.1 = c then ∑ j ∈ range obs.length, p.2.getD j 0 * r.getD j 0 else 0).sum := by
    intro L
    induction L with
    | nil => simp
    | cons p L ih =>
      simp only [List.map_cons, List.sum_cons, sum_add_distrib, ih]
      congr 1
      split
      · rfl
      · simp
  rw [swap]
  congr 1
  apply List.ext_getElem
  · simp [hl]
  · intro i h1 h2
    have hi : i < (chromaTones start stop).length := by simpa using h2
    obtain ⟨y, hy, hyt⟩ := hv i (chromaTones start stop)[i] (List.getElem?_eq_getElem hi)
    obtain ⟨w, hw, hwl, hd⟩ := htone (chromaTones start stop)[i]
    rw [hw] at hyt
    cases hyt
    have hti : tones[i]'(by omega) = ((((chromaTones start stop)[i]) % 12).toNat, w) := by
      rw [List.getElem?_eq_getElem (by omega)] at hy
      exact Option.some.inj hy
    rw [List.getElem_map, List.getElem_map, hti]
    have hmod : ((((chromaTones start stop)[i]) % 12).toNat = c) ↔ ((chromaTones start stop)[i]) % 12 = (c : Int) := by omega
    have hdot := hd r hrl
    rw [dot_eq, hwl, hrl, Nat.min_self] at hdot
    simp only [hmod, hdot]

/-- **C64, octaves**: tones an octave apart count towards the same chroma. -/
theorem C64_chroma_octave (s : Int) (k : Int) : (s + 12 * k) % 12 = s % 12 := by omega

/-- Which tones get a band: from one below the lowest to three below the highest. -/
theorem C64_chroma_tones (start stop : Int) (s : Int) : s ∈ chromaTones start stop ↔ start - 1 ≤ s ∧ s ≤ stop - 3 := by
  unfold chromaTones
  simp only [List.mem_map, List.mem_range]
  constructor
  · rintro ⟨i, hi, rfl⟩
    omega
  · rintro ⟨h1, h2⟩
    exact ⟨(s - (start - 1)).toNat, by omega, by omega⟩

/-- **C64, refuted**: the tone in the middle of a band is not the one it is counted for: the band around the concert pitch A (semitone 0)
is counted as the tone below, number 11; and the highest tone but one in the range (and the highest), being the middle of no band, is
not counted at all. -/
theorem C64_chroma_tone_refuted (start stop : Int) (h : start ≤ 0) (h' : 2 ≤ stop) :
    (-1 ∈ chromaTones start stop ∧ (-1 : Int) % 12 = 11) ∧
    (∀ s ∈ chromaTones start stop, s + 1 ≠ stop - 1 ∧ s + 1 ≠ stop) := by
  refine ⟨⟨(C64_chroma_tones _ _ _).2 (by omega), by decide⟩, ?_⟩
  intro s hs
  have := (C64_chroma_tones _ _ _).1 hs
  omega

end order

/-- Bands that touch at an edge count on both sides. -/
example : applyScale noExt (.linear ⟨0, 100⟩ 2 false) (.linear ⟨0, 100⟩ 4 false) (fun k => List.replicate k 1) [[1, 2, 3, 4]] =
    .ok [[3, 9]] := by decide +kernel

theorem four_ordered : Ordered ([⟨0, 25⟩, ⟨25, 50⟩, ⟨50, 75⟩, ⟨75, 100⟩] : List (Band ℚ)) :=
  ⟨by decide +kernel, by decide +kernel⟩
example := C64_apply noExt (.linear (⟨0, 100⟩ : Band ℚ) 2 false) (.linear ⟨0, 100⟩ 4 false) [⟨0, 50⟩, ⟨50, 100⟩] (by decide +kernel) (fun b h => nomatch h) rfl
  [⟨0, 25⟩, ⟨25, 50⟩, ⟨50, 75⟩, ⟨75, 100⟩] (by decide +kernel) four_ordered rfl (fun k => List.replicate k 1) (by simp) [[1, 2, 3, 4]] (by simp)
example := C64_local (fun k => List.replicate k 1) ([⟨0, 25⟩, ⟨25, 50⟩, ⟨50, 75⟩, ⟨75, 100⟩] : List (Band ℚ)) ⟨0, 30⟩ [1, 2, 3, 4] [1, 2, 7, 9] (by decide +kernel)
example := C64_chroma noExt (.linear (⟨0, 100⟩ : Band ℚ) 4 false) (fun b h => nomatch h) rfl
  [⟨0, 25⟩, ⟨25, 50⟩, ⟨50, 75⟩, ⟨75, 100⟩] (by decide +kernel) four_ordered rfl (fun k => List.replicate k 1) (by simp) (fun s => s) (by intro s; push_cast; linarith) 20 50 [[1, 2, 3, 4]] (by simp)

end Zounds.ScaleApply
