import Verif.Lemmas.Frequency
import Mathlib.Tactic.NormNum
import Mathlib.Algebra.Order.Ring.Rat
/-!
# Properties C20 (frequency slicing), C21 (linear scales), C22 (bands), C23 (equality)
-/

set_option linter.unusedSectionVars false

namespace Zounds.Props.Frequency
open Zounds Zounds.Freq

variable {α : Type} [Field α] [LinearOrder α]

/-! ## Specification -/

/-- The frequencies in a band. -/
def Mem (x : α) (b : Band α) : Prop := b.start ≤ x ∧ x < b.stop

/-- Bands that the constructor accepts. -/
def WF (b : Band α) : Prop := b.start < b.stop

/-- A band touches a queried range. -/
def touches (q b : Band α) : Bool := decide (q.start ≤ b.stop) && decide (b.start < q.stop)

/-- The rows of an array whose bands touch the queried range. -/
def rowsTouching {β : Type} (bs : List (Band α)) (q : Band α) (l : List β) : List β :=
  ((bs.zip l).filter fun p => touches q p.1).map Prod.snd

/-- Band starts and band stops never decrease. -/
structure Ordered (bs : List (Band α)) : Prop where
  starts : (bs.map Band.start).Pairwise (· ≤ ·)
  stops : (bs.map Band.stop).Pairwise (· ≤ ·)

/-! ## C22 -/

/-- **C22.** A frequency band can be built exactly when its stop lies above its start. -/
theorem C22_new (s t : α) :
    (s < t → Band.new s t = .ok ⟨s, t⟩) ∧ (¬ s < t → Band.new s t = .error .valueError) := by
  unfold Band.new
  constructor
  · intro h; rw [if_neg (not_le.2 h)]
  · intro h; rw [if_pos (not_lt.1 h)]

/-- **C22.** The intersection of two bands holds exactly the common frequencies. -/
theorem C22_intersect (a b i : Band α) (h : a.intersect b = .ok i) :
    WF i ∧ ∀ x, Mem x i ↔ Mem x a ∧ Mem x b := by
  unfold Band.intersect Band.new at h
  split at h
  · cases h
  · rename_i hlt
    cases h
    refine ⟨not_le.1 hlt, fun x => ?_⟩
    simp only [Mem, max_le_iff, lt_min_iff]
    constructor
    · rintro ⟨⟨h1, h2⟩, h3, h4⟩; exact ⟨⟨h1, h3⟩, h2, h4⟩
    · rintro ⟨⟨h1, h3⟩, h2, h4⟩; exact ⟨⟨h1, h2⟩, h3, h4⟩

example := C22_intersect (⟨500, 1000⟩ : Band ℚ) ⟨900, 2000⟩ ⟨900, 1000⟩ (by decide +kernel)

/-- **C22.** Intersecting raises (a `ValueError`) exactly when no frequency is common. -/
theorem C22_intersect_disjoint (a b : Band α) :
    (∃ e, a.intersect b = .error e) ↔ ¬ ∃ x, Mem x a ∧ Mem x b := by
  unfold Band.intersect Band.new
  split
  · rename_i hle
    simp only [Except.error.injEq, exists_eq', true_iff]
    rintro ⟨x, ⟨h1, h2⟩, h3, h4⟩
    exact absurd hle (not_le.2 (lt_of_le_of_lt (max_le h1 h3) (lt_min h2 h4)))
  · rename_i hlt
    simp only [reduceCtorEq, exists_false, false_iff, not_not]
    have hlt := not_le.1 hlt
    exact ⟨max a.start b.start, ⟨le_max_left _ _, lt_of_lt_of_le hlt (min_le_left _ _)⟩,
      le_max_right _ _, lt_of_lt_of_le hlt (min_le_right _ _)⟩

/-- **C22.** The only exception `intersect` raises is `ValueError`. -/
theorem C22_intersect_error (a b : Band α) (e : PyErr) (h : a.intersect b = .error e) :
    e = .valueError := by
  unfold Band.intersect Band.new at h
  split at h
  · cases h; rfl
  · cases h

example := C22_intersect_error (⟨500, 1000⟩ : Band ℚ) ⟨1000, 2000⟩ .valueError (by decide +kernel)

/-- **C22.** Intersection is commutative, and idempotent on bands. -/
theorem C22_intersect_comm (a b : Band α) : a.intersect b = b.intersect a := by
  unfold Band.intersect
  rw [max_comm, min_comm]

theorem C22_intersect_self (a : Band α) (h : WF a) : a.intersect a = .ok a := by
  unfold Band.intersect
  rw [max_self, min_self, (C22_new _ _).1 h]

example := C22_intersect_self (⟨500, 1000⟩ : Band ℚ) (by unfold WF; norm_num)

section field
variable [IsStrictOrderedRing α]

/-- **C22.** The centre is the midpoint, strictly inside the band; the bandwidth is
positive. -/
theorem C22_center (a : Band α) (h : WF a) :
    a.center * 2 = a.start + a.stop ∧ a.start < a.center ∧ a.center < a.stop ∧ 0 < a.bandwidth := by
  unfold WF at h
  have hb : 0 < a.stop - a.start := by linarith
  have h2 : a.center * 2 = a.start + a.stop := by
    unfold Band.center Band.bandwidth
    linarith
  refine ⟨h2, ?_, ?_, hb⟩ <;> linarith

example := C22_center (⟨500, 1000⟩ : Band ℚ) (by unfold WF; norm_num)

/-- **C22.** `from_center` gives a band with that centre and that bandwidth, for every
positive bandwidth, and raises for any other. -/
theorem C22_from_center (c w : α) :
    (0 < w → ∃ b, Band.fromCenter c w = .ok b ∧ b.center = c ∧ b.bandwidth = w) ∧
    (¬ 0 < w → Band.fromCenter c w = .error .valueError) := by
  constructor
  · intro h
    refine ⟨⟨c - w / 2, c + w / 2⟩, (C22_new _ _).1 (by linarith), ?_, ?_⟩ <;>
      simp only [Band.center, Band.bandwidth] <;> linarith
  · intro h
    exact (C22_new _ _).2 (by linarith)

example := (C22_from_center (750 : ℚ) 500).1 (by norm_num)
example := (C22_from_center (750 : ℚ) (-1)).2 (by norm_num)

/-- **C22.** `from_start` gives the band with that start and that bandwidth. -/
theorem C22_from_start (s w : α) :
    (0 < w → ∃ b, Band.fromStart s w = .ok b ∧ b.start = s ∧ b.bandwidth = w) ∧
    (¬ 0 < w → Band.fromStart s w = .error .valueError) := by
  constructor
  · intro h
    refine ⟨⟨s, s + w⟩, (C22_new _ _).1 (by linarith), rfl, ?_⟩
    simp only [Band.bandwidth]
    linarith
  · intro h
    exact (C22_new _ _).2 (by linarith)

example := (C22_from_start (750 : ℚ) 500).1 (by norm_num)
example := (C22_from_start (750 : ℚ) 0).2 (by norm_num)

/-- **C22.** Every well formed band is rebuilt from its centre and bandwidth. -/
theorem C22_from_center_self (a : Band α) (h : WF a) : Band.fromCenter a.center a.bandwidth = .ok a := by
  unfold WF at h
  have h1 : a.center - a.bandwidth / 2 = a.start := by unfold Band.center; linarith
  have h2 : a.center + a.bandwidth / 2 = a.stop := by unfold Band.center Band.bandwidth; linarith
  unfold Band.fromCenter
  rw [h1, h2, (C22_new _ _).1 h]

example := C22_from_center_self (⟨500, 1000⟩ : Band ℚ) (by unfold WF; norm_num)

/-- **C22.** The intersection ratio is the fraction of the first band that is common:
above zero, at most one, and one exactly when the first band lies within the second. -/
theorem C22_intersection_ratio (a b : Band α) (ha : WF a) (r : α) (h : a.intersectionRatio b = .ok r) :
    0 < r ∧ r ≤ 1 ∧ (r = 1 ↔ b.start ≤ a.start ∧ a.stop ≤ b.stop) ∧
      r * (a.stop - a.start) = min a.stop b.stop - max a.start b.start := by
  unfold WF at ha
  unfold Band.intersectionRatio Band.intersect Band.new at h
  split at h
  · cases h
  · rename_i i hi
    split at hi
    · cases hi
    · rename_i hlt
      cases hi
      cases h
      have hw : 0 < a.stop - a.start := by linarith
      have hlt := not_le.1 hlt
      have e : a.bandwidthRatio ⟨max a.start b.start, min a.stop b.stop⟩ =
          (min a.stop b.stop - max a.start b.start) / (a.stop - a.start) := rfl
      have h1 := min_le_left a.stop b.stop
      have h2 := le_max_left a.start b.start
      rw [e]
      refine ⟨div_pos (by linarith) hw, ?_, ?_, ?_⟩
      · rw [div_le_one hw]; linarith
      · rw [div_eq_one_iff_eq (ne_of_gt hw)]
        constructor
        · intro h
          have h3 : max a.start b.start ≤ a.start := by linarith
          have h4 : a.stop ≤ min a.stop b.stop := by linarith
          exact ⟨le_trans (le_max_right _ _) h3, le_trans h4 (min_le_right _ _)⟩
        · rintro ⟨h3, h4⟩
          rw [max_eq_left h3, min_eq_left h4]
      · exact div_mul_cancel₀ _ (ne_of_gt hw)

example := C22_intersection_ratio (⟨500, 1000⟩ : Band ℚ) ⟨900, 2000⟩ (by unfold WF; norm_num) (1 / 5) (by decide +kernel)

/-- The common part of two adjacent bands, as a length. -/
def overlapLength (a b : Band α) : α := max 0 (min a.stop b.stop - max a.start b.start)

/-- Every pair of neighbours in a list satisfies `P`. -/
def Adjacent {γ : Type} (P : γ → γ → Prop) : List γ → Prop
  | a :: b :: r => P a b ∧ Adjacent P (b :: r)
  | _ => True

/-- **C22.** `ensure_overlap_ratio` accepts a scale exactly when, for all adjacent
bands, the common part is at least that fraction of the first of the two. -/
theorem C22_ensure_overlap (r : α) (bs : List (Band α)) (hwf : ∀ b ∈ bs, WF b) :
    (ensureOverlapRatio r bs = .ok () ↔
      Adjacent (fun a b => r * a.bandwidth ≤ overlapLength a b) bs) ∧
    (ensureOverlapRatio r bs = .ok () ∨ ensureOverlapRatio r bs = .error .assertionError) := by
  induction bs with
  | nil => simp [ensureOverlapRatio, Adjacent]
  | cons a t ih =>
    cases t with
    | nil => simp [ensureOverlapRatio, Adjacent]
    | cons b t =>
      have ih := ih (fun x hx => hwf x (by simp [hx]))
      have ha : WF a := hwf a (by simp)
      have hw : 0 < a.bandwidth := (C22_center a ha).2.2.2
      have key : ∃ s, ensureOverlapRatio r (a :: b :: t) =
          (if s < r then .error .assertionError else ensureOverlapRatio r (b :: t)) ∧
          s * a.bandwidth = overlapLength a b := by
        cases h : a.intersectionRatio b with
        | ok s =>
          refine ⟨s, by simp [ensureOverlapRatio, h], ?_⟩
          have := C22_intersection_ratio a b ha s h
          simp only [overlapLength, Band.bandwidth]
          rw [this.2.2.2]
          refine (max_eq_right ?_).symm
          rw [← this.2.2.2]
          exact le_of_lt (mul_pos this.1 hw)
        | error e =>
          refine ⟨0, by simp [ensureOverlapRatio, h], ?_⟩
          simp only [zero_mul, overlapLength]
          unfold Band.intersectionRatio Band.intersect Band.new at h
          split at h
          · rename_i hi
            split at hi
            · rename_i hle
              rw [max_eq_left]
              linarith
            · cases hi
          · cases h
      obtain ⟨s, hs1, hs2⟩ := key
      rw [hs1]
      unfold Adjacent
      rw [← hs2]
      have hcmp : r * a.bandwidth ≤ s * a.bandwidth ↔ r ≤ s := mul_le_mul_iff_of_pos_right hw
      rw [hcmp]
      by_cases hs : s < r
      · rw [if_pos hs]
        exact ⟨⟨fun h => (nomatch h), fun h => absurd h.1 (not_le.2 hs)⟩, Or.inr rfl⟩
      · rw [if_neg hs]
        exact ⟨by rw [ih.1]; simp [not_lt.1 hs], ih.2⟩

example := C22_ensure_overlap (1 / 2 : ℚ) [⟨0, 2⟩, ⟨1, 3⟩, ⟨2, 4⟩] (by unfold WF; decide +kernel)

end field

example : Band.intersect (⟨500, 1000⟩ : Band ℚ) ⟨900, 2000⟩ = .ok ⟨900, 1000⟩ := by decide +kernel
example : ensureOverlapRatio (1 / 2 : ℚ) [⟨0, 2⟩, ⟨1, 3⟩, ⟨2, 4⟩] = .ok () := by decide +kernel
example : ensureOverlapRatio (1 / 2 : ℚ) [⟨0, 2⟩, ⟨1, 3⟩, ⟨3, 4⟩] = .error .assertionError := by
  decide +kernel

/-! ## C20 -/

theorem run_spec (bs : List (Band α)) (ho : Ordered bs) (q : Band α) :
    bisectLeft (bs.map Band.stop) q.start ≤ bs.length ∧
    bisectLeft (bs.map Band.start) q.stop ≤ bs.length ∧
    ∀ i (h : i < bs.length), touches q bs[i] = true ↔
      (bisectLeft (bs.map Band.stop) q.start ≤ i ∧ i < bisectLeft (bs.map Band.start) q.stop) := by
  have h1 := bisectLeft_spec (bs.map Band.stop) q.start ho.stops
  have h2 := bisectLeft_spec (bs.map Band.start) q.stop ho.starts
  simp only [List.length_map, List.getElem_map] at h1 h2
  refine ⟨h1.1, h2.1, fun i h => ?_⟩
  have h1 := h1.2 i h
  have h2 := h2.2 i h
  unfold touches
  simp only [Bool.and_eq_true, decide_eq_true_eq]
  rw [h2, ← not_lt, ← h1, Nat.not_lt]

/-- Scales that can be sliced by frequency: all but the chroma scale. -/
def Sliceable (s : Scale α) : Prop := ∀ b, s ≠ .chroma b

/-- **C20.** Slicing by a frequency band selects exactly the rows whose bands touch the
requested range, in order: those with `stop_hz >= start_hz` of the range and `start_hz`
below its `stop_hz`. -/
theorem C20_selects_exactly (X : NumExt α) (s : Scale α) (hs : Sliceable s) (heven : s.alwaysEven = false)
    (bs : List (Band α)) (hb : s.bands X = .ok bs) (ho : Ordered bs) (q : Band α) :
    ∃ out, s.getSlice X (.band q) = .ok out ∧
      ∀ {β : Type} (l : List β), l.length = bs.length → out.select l = .ok (rowsTouching bs q l) := by
  refine ⟨.run (bisectLeft (bs.map Band.stop) q.start) (bisectLeft (bs.map Band.start) q.stop), ?_, ?_⟩
  · cases s with
    | chroma b => exact absurd rfl (hs b)
    | _ => simp only [Scale.getSlice, hb, bandRun, heven]; rfl
  · intro β l hl
    simp only [SliceOut.select, rowsTouching]
    rw [take_drop_eq_filter bs l (touches q) _ _ hl (run_spec bs ho q).2.2]

example := C20_selects_exactly (⟨fun _ _ _ => [], fun _ _ => [], fun _ _ => []⟩ : NumExt ℚ) (.explicit [⟨0, 1⟩, ⟨1, 2⟩, ⟨2, 4⟩]) (by intro b; simp)
  rfl [⟨0, 1⟩, ⟨1, 2⟩, ⟨2, 4⟩] rfl ⟨by decide +kernel, by decide +kernel⟩ ⟨1 / 2, 3⟩

theorem drop_take_succ {β : Type} (l : List β) (lo hi : Nat) :
    ∃ extra : List β, extra.length ≤ 1 ∧ (l.take (hi + 1)).drop lo = (l.take hi).drop lo ++ extra ∧
      (extra = [] → l.length ≤ hi ∨ hi + 1 ≤ lo) := by
  rw [List.take_add_one]
  by_cases h : hi < l.length
  · by_cases h2 : lo ≤ hi
    · refine ⟨[l[hi]], by simp, ?_, by simp⟩
      rw [List.getElem?_eq_getElem h, List.drop_append_of_le_length (by simp; omega)]
      rfl
    · refine ⟨[], by simp, ?_, fun _ => Or.inr (by omega)⟩
      rw [List.drop_of_length_le (by simp [List.getElem?_eq_getElem h]; omega),
        List.drop_of_length_le (by simp; omega)]
      rfl
  · refine ⟨[], by simp, ?_, fun _ => Or.inl (by omega)⟩
    rw [List.getElem?_eq_none (by omega)]
    simp

/-- **C20, even slices (partial).** With `always_even` the rows that touch the range are
selected, followed by at most one further row.  The number of rows is even — unless the
last band of the scale touches the range (the case in which no further row exists, see
`C20_even_fails`). -/
theorem C20_even_partial (X : NumExt α) (s : Scale α) (hs : Sliceable s) (heven : s.alwaysEven = true)
    (bs : List (Band α)) (hb : s.bands X = .ok bs) (ho : Ordered bs) (q : Band α) :
    ∃ out, s.getSlice X (.band q) = .ok out ∧
      ∀ {β : Type} (l : List β), l.length = bs.length →
        ∃ extra : List β, extra.length ≤ 1 ∧ out.select l = .ok (rowsTouching bs q l ++ extra) ∧
          ((rowsTouching bs q l ++ extra).length % 2 = 0 ∨
            (extra = [] ∧ ∃ b, bs.getLast? = some b ∧ touches q b = true)) := by
  obtain ⟨hlo, hhi, hrun⟩ := run_spec bs ho q
  set lo := bisectLeft (bs.map Band.stop) q.start with hlodef
  set hi := bisectLeft (bs.map Band.start) q.stop with hhidef
  refine ⟨.run (bandRun true bs q).1 (bandRun true bs q).2, ?_, ?_⟩
  · cases s with
    | chroma b => exact absurd rfl (hs b)
    | _ => simp only [Scale.getSlice, hb, heven]
  · intro β l hl
    have htouch : rowsTouching bs q l = (l.take hi).drop lo := by
      rw [take_drop_eq_filter bs l (touches q) lo hi hl hrun]; rfl
    have hlen : (rowsTouching bs q l).length = hi - lo := by
      rw [htouch]; simp; omega
    unfold bandRun
    simp only [← hlodef, ← hhidef, Bool.true_and]
    by_cases hodd : ((hi : Int) - lo) % 2 ≠ 0
    · simp only [hodd, not_false_eq_true, decide_true, if_true, ne_eq, SliceOut.select]
      obtain ⟨extra, he1, he2, he3⟩ := drop_take_succ l lo hi
      refine ⟨extra, he1, by rw [he2, htouch], ?_⟩
      rw [List.length_append, hlen]
      by_cases hx : extra = []
      · rcases he3 hx with h | h
        · by_cases hlt : lo < hi
          · right
            refine ⟨hx, ?_⟩
            have hpos : bs.length - 1 < bs.length := by omega
            refine ⟨bs[bs.length - 1], ?_, ?_⟩
            · rw [List.getLast?_eq_getElem?, List.getElem?_eq_getElem hpos]
            · rw [hrun _ hpos]; omega
          · left; subst hx; simp; omega
        · left; subst hx; simp; omega
      · left
        have : extra.length = 1 := by
          have : extra.length ≠ 0 := by simpa using hx
          omega
        have hlt : lo ≤ hi := by
          by_contra hc
          apply hx
          have h1 : (l.take (hi + 1)).drop lo = [] := List.drop_of_length_le (by simp; omega)
          rw [h1] at he2
          exact (List.append_eq_nil_iff.1 he2.symm).2
        omega
    · simp only [hodd, decide_false, Bool.false_eq_true, if_false, SliceOut.select]
      refine ⟨[], by simp, by rw [htouch]; simp, Or.inl ?_⟩
      rw [List.append_nil, hlen]
      omega

example := C20_even_partial (⟨fun _ _ _ => [], fun _ _ => [], fun _ _ => []⟩ : NumExt ℚ) (.linear ⟨0, 40⟩ 4 true) (by intro b; simp)
  rfl [⟨0, 10⟩, ⟨10, 20⟩, ⟨20, 30⟩, ⟨30, 40⟩] (by decide +kernel) ⟨by decide +kernel, by decide +kernel⟩ ⟨15, 25⟩

/-- **C20.** A slice with a `Hertz` bound means the band between its ends: a missing
start is zero, a missing stop is the top of the scale and a negative bound is measured
from the top of the scale. -/
theorem C20_hertz_slice (X : NumExt α) (s : Scale α) (hs : Sliceable s) (sb : Band α)
    (hsb : s.band X = .ok sb) (a b : Bnd α) (hh : a.isHertz = true ∨ b.isHertz = true) :
    let from0 := a.value.getD 0
    let upto := b.value.getD sb.stop
    let lo := if from0 < 0 then sb.stop + from0 else from0
    let hi := if upto < 0 then sb.stop + upto else upto
    (lo < hi → s.getSlice X (.slice a b) = s.getSlice X (.band ⟨lo, hi⟩)) ∧
    (¬ lo < hi → s.getSlice X (.slice a b) = .error .attributeError) := by
  intro from0 upto lo hi
  have hcond : (!a.isHertz && !b.isHertz) = false := by
    rcases hh with h | h <;> simp [h]
  have hq : hertzSliceBand sb.stop a b =
      if hi ≤ lo then .error .attributeError else .ok ⟨lo, hi⟩ := by
    show (match Band.new lo hi with
      | .error _ => (Except.error PyErr.attributeError : Except PyErr (Band α))
      | .ok q => Except.ok q) = _
    unfold Band.new
    by_cases h : hi ≤ lo
    · rw [if_pos h, if_pos h]
    · rw [if_neg h, if_neg h]
  constructor
  · intro hlt
    have : hertzSliceBand sb.stop a b = .ok ⟨lo, hi⟩ := by
      rw [hq, if_neg (not_le.2 hlt)]
    cases s with
    | chroma c => exact absurd rfl (hs c)
    | _ => simp only [Scale.getSlice, hcond, hsb, this, Bool.false_eq_true, if_false]
  · intro hlt
    have : hertzSliceBand sb.stop a b = .error .attributeError := by
      rw [hq, if_pos (not_lt.1 hlt)]
    cases s with
    | chroma c => exact absurd rfl (hs c)
    | _ => simp only [Scale.getSlice, hcond, hsb, this, Bool.false_eq_true, if_false]

example := C20_hertz_slice (⟨fun _ _ _ => [], fun _ _ => [], fun _ _ => []⟩ : NumExt ℚ) (.linear ⟨0, 40⟩ 4 false) (by intro b; simp)
  ⟨0, 40⟩ (by decide +kernel) (.hz (-15)) .none (.inl rfl)

/-- **C20, refuted for Bark and Mel bounds.** A slice whose bounds are `Bark` or `Mel`
values is handed back unchanged and cannot index any list or array. -/
theorem C20_perceptual_slice_fails (X : NumExt α) (s : Scale α) (hs : Sliceable s) (f g h k : α) :
    s.getSlice X (.slice (.perceptual f g) (.perceptual h k)) =
      .ok (.same (.perceptual f g) (.perceptual h k)) ∧
    ∀ {β : Type} (l : List β),
      (SliceOut.same (.perceptual f g) (.perceptual h k) : SliceOut α).select l = .error .typeError := by
  refine ⟨?_, fun l => rfl⟩
  cases s with
  | chroma c => exact absurd rfl (hs c)
  | _ => rfl

example := C20_perceptual_slice_fails (⟨fun _ _ _ => [], fun _ _ => [], fun _ _ => []⟩ : NumExt ℚ) (.linear ⟨0, 40⟩ 4 false) (by intro b; simp)
  1 2 3 4

/-- **C20, refuted for Bark and Mel bounds (2).** Mixed with a `Hertz` bound, a `Bark` or
`Mel` bound counts with the number it was built from, not with its frequency: slicing
from 0 Hz to `Bark(10)` (about 1.5 kHz) of a scale selects the bands below 10 Hz. -/
theorem C20_mixed_perceptual_fails (X : NumExt α) (s : Scale α) (hs : Sliceable s) (sb : Band α)
    (hsb : s.band X = .ok sb) (x f g : α) (hx : 0 ≤ x) (hf : x < f) (h0 : 0 ≤ f) :
    s.getSlice X (.slice (.hz x) (.perceptual f g)) = s.getSlice X (.band ⟨x, f⟩) := by
  have h := (C20_hertz_slice X s hs sb hsb (.hz x) (.perceptual f g) (Or.inl rfl)).1
  simp only [Bnd.value, Option.getD_some, not_lt.2 hx, not_lt.2 h0, if_false] at h
  exact h hf

example := C20_mixed_perceptual_fails (⟨fun _ _ _ => [], fun _ _ => [], fun _ _ => []⟩ : NumExt ℚ) (.linear ⟨0, 40⟩ 4 false) (by intro b; simp)
  ⟨0, 40⟩ (by decide +kernel) 5 10 2 (by norm_num) (by norm_num) (by norm_num)

/-- No external numerics, for concrete examples. -/
def noExt : NumExt ℚ := ⟨fun _ _ _ => [], fun _ _ => [], fun _ _ => []⟩

/-- **C20, even slices: refuted.** An `always_even` scale of three bands gives a slice
of three rows. -/
theorem C20_even_fails :
    ∃ (s : Scale ℚ) (q : Band ℚ) (out : SliceOut ℚ), s.alwaysEven = true ∧
      s.getSlice noExt (.band q) = .ok out ∧ out.select [0, 1, 2] = .ok [0, 1, 2] ∧ s.len = 3 :=
  ⟨.linear ⟨0, 30⟩ 3 true, ⟨0, 30⟩, .run 0 4, rfl, by decide +kernel, by decide, rfl⟩

example : (Scale.linear (⟨0, 100⟩ : Band ℚ) 10 false).getSlice noExt (.band ⟨15, 40⟩) = .ok (.run 1 4) := by
  decide +kernel
example : (Scale.linear (⟨0, 100⟩ : Band ℚ) 10 true).getSlice noExt (.slice (.hz (-30)) .none) =
    .ok (.run 6 10) := by decide +kernel

/-! ## C21 -/

section linear
variable [IsStrictOrderedRing α]

/-- **C21.** The bands of a linear scale with at least two bands are consecutive, equally
wide, start at the bottom of the scale's range and end at its top. -/
theorem C21_linear_tiles (X : NumExt α) (b : Band α) (n : Nat) (ev : Bool) (hb : WF b) (hn : 2 ≤ n) :
    ∃ bs, (Scale.linear b n ev).bands X = .ok bs ∧ bs.length = n ∧
      (bs.head?.map Band.start = some b.start) ∧ (bs.getLast?.map Band.stop = some b.stop) ∧
      (∀ i (h : i + 1 < bs.length), bs[i].stop = bs[i + 1].start) ∧
      (∀ c ∈ bs, WF c ∧ c.bandwidth = b.bandwidth / (n : α)) := by
  have hn0 : (n : α) ≠ 0 := by
    have : 0 < n := by omega
    exact_mod_cast (Nat.cast_pos (α := α).2 this).ne'
  refine ⟨(List.range n).map (part b n), linearBands_eq b n hb hn, by simp, ?_, ?_, ?_, ?_⟩
  · obtain ⟨m, rfl⟩ : ∃ m, n = m + 1 := ⟨n - 1, by omega⟩
    rw [List.range_succ_eq_map]
    simp [part]
  · obtain ⟨m, rfl⟩ : ∃ m, n = m + 1 := ⟨n - 1, by omega⟩
    rw [List.range_succ]
    simp only [List.map_append, List.map_cons, List.map_nil, List.getLast?_append, List.getLast?_singleton,
      Option.some_or, Option.map_some, Option.some.injEq, part]
    push_cast at hn0 ⊢
    field_simp
    ring
  · intro i h
    simp [part]
  · intro c hc
    obtain ⟨k, _, rfl⟩ := List.mem_map.1 hc
    have hw : 0 < (b.stop - b.start) / (n : α) := by
      apply div_pos
      · unfold WF at hb; linarith
      · exact_mod_cast (show 0 < n by omega)
    refine ⟨?_, ?_⟩
    · unfold WF part
      dsimp only
      linarith
    · unfold part Band.bandwidth
      dsimp only
      ring

example := C21_linear_tiles noExt ⟨0, 40⟩ 4 false (by unfold WF; norm_num) (by decide)

/-- **C21.** A linear scale of fewer than two bands has no computable bands at all. -/
theorem C21_linear_small_fails (X : NumExt α) (b : Band α) (n : Nat) (ev : Bool) (hn : n < 2) :
    (Scale.linear b n ev).bands X = .error .indexError := by
  match n, hn with
  | 0, _ => rfl
  | 1, _ => rfl

example := C21_linear_small_fails noExt ⟨0, 40⟩ 1 false (by decide)

/-- **C20/C21.** The bands of a linear scale are ordered, so `C20_selects_exactly` applies to
every linear scale of at least two bands. -/
theorem C21_linear_ordered (b : Band α) (n : Nat) (hb : WF b) :
    Ordered ((List.range n).map (part b n)) := by
  unfold WF at hb
  have hw : 0 ≤ (b.stop - b.start) / (n : α) := div_nonneg (by linarith) (Nat.cast_nonneg n)
  constructor
  · rw [List.map_map, List.pairwise_map]
    refine List.pairwise_lt_range.imp ?_
    intro i j hij
    have : (i : α) ≤ (j : α) := by exact_mod_cast le_of_lt hij
    simp only [Function.comp, part]
    have := mul_le_mul_of_nonneg_right this hw
    linarith
  · rw [List.map_map, List.pairwise_map]
    refine List.pairwise_lt_range.imp ?_
    intro i j hij
    have : (i : α) ≤ (j : α) := by exact_mod_cast le_of_lt hij
    simp only [Function.comp, part]
    have := mul_le_mul_of_nonneg_right this hw
    linarith

example := C21_linear_ordered (⟨0, 40⟩ : Band ℚ) 4 (by unfold WF; norm_num)

theorem part_part (b : Band α) (n i m k : Nat) (hn : 0 < n) (hm : 0 < m) :
    part ⟨(part b n i).start, (part b n (i + m - 1)).stop⟩ m k = part b n (i + k) := by
  have hn0 : (n : α) ≠ 0 := by exact_mod_cast (Nat.cast_pos (α := α).2 hn).ne'
  have hm0 : (m : α) ≠ 0 := by exact_mod_cast (Nat.cast_pos (α := α).2 hm).ne'
  obtain ⟨m, rfl⟩ : ∃ m', m = m' + 1 := ⟨m - 1, by omega⟩
  have e : i + (m + 1) - 1 = i + m := by omega
  rw [e]
  simp only [part, Band.mk.injEq]
  push_cast at hm0 ⊢
  constructor
  · field_simp
    ring
  · field_simp
    ring

/-- A run of at least two bands of a linear scale spans a band whose own equal division
gives back exactly those bands. -/
theorem linear_fromSlice (X : NumExt α) (b : Band α) (n : Nat) (ev : Bool) (hb : WF b)
    (i m : Nat) (him : i + m ≤ n) (hm : 2 ≤ m) :
    ∃ t, (Scale.linear b n ev).fromSlice ((((List.range n).map (part b n)).take (i + m)).drop i) = .ok t ∧
      t.bands X = .ok ((((List.range n).map (part b n)).take (i + m)).drop i) ∧ t.len = m ∧
      t.alwaysEven = false := by
  have hsel : (((List.range n).map (part b n)).take (i + m)).drop i =
      (List.range m).map (fun k => part b n (i + k)) := by
    apply List.ext_getElem
    · simp; omega
    · intro k h1 h2
      simp
  rw [hsel]
  have hwf : WF (⟨(part b n i).start, (part b n (i + m - 1)).stop⟩ : Band α) := by
    obtain ⟨m', rfl⟩ : ∃ m', m = m' + 1 := ⟨m - 1, by omega⟩
    rw [show i + (m' + 1) - 1 = i + m' by omega]
    unfold WF at hb
    have hn : (0 : α) < n := by exact_mod_cast (show 0 < n by omega)
    have hw : 0 < (b.stop - b.start) / (n : α) := div_pos (by linarith) hn
    simp only [part, WF]
    push_cast
    have : (0 : α) ≤ (m' : α) := Nat.cast_nonneg m'
    nlinarith
  have hspan : spanOf ((List.range m).map (fun k => part b n (i + k))) =
      .ok ⟨(part b n i).start, (part b n (i + m - 1)).stop⟩ := by
    obtain ⟨m', rfl⟩ : ∃ m', m = m' + 1 := ⟨m - 1, by omega⟩
    have h1 : ((List.range (m' + 1)).map (fun k => part b n (i + k))).head? = some (part b n i) := by
      rw [List.range_succ_eq_map]; simp
    have h2 : ((List.range (m' + 1)).map (fun k => part b n (i + k))).getLast? = some (part b n (i + m')) := by
      rw [List.range_succ]; simp
    unfold spanOf
    rw [h1, h2]
    dsimp only
    rw [show i + (m' + 1) - 1 = i + m' by omega] at hwf ⊢
    exact (C22_new _ _).1 hwf
  refine ⟨.linear ⟨(part b n i).start, (part b n (i + m - 1)).stop⟩ m false, ?_, ?_, rfl, rfl⟩
  · simp only [Scale.fromSlice, hspan, List.length_map, List.length_range]
  · simp only [Scale.bands]
    rw [linearBands_eq _ m hwf hm]
    congr 1
    apply List.map_congr_left
    intro k _
    exact part_part b n i m k (by omega) (by omega)

/-- **C21, slicing by position (partial: at least two bands, no step).** `scale[i:j]`
of a linear scale is a scale made of exactly the bands `i..j-1` of the original. -/
theorem C21_slice_int (X : NumExt α) (b : Band α) (n : Nat) (ev : Bool) (hb : WF b) (hn : 2 ≤ n)
    (i j : Int) (bs : List (Band α)) (hbs : (Scale.linear b n ev).bands X = .ok bs)
    (hlen : 2 ≤ (pySlice bs i j).length) :
    ∃ t, (Scale.linear b n ev).getScale X (.slice (.int i) (.int j)) = .ok t ∧
      t.bands X = .ok (pySlice bs i j) ∧ t.len = (pySlice bs i j).length := by
  have hbs' : (Scale.linear b n ev).bands X = .ok ((List.range n).map (part b n)) := linearBands_eq b n hb hn
  rw [hbs'] at hbs
  cases hbs
  have hpb : ∀ x : Int, pyBound ((List.range n).map (part b n)).length x ≤ n := by
    intro x; unfold pyBound
    simp only [List.length_map, List.length_range]
    split <;> omega
  have hl : (pySlice ((List.range n).map (part b n)) i j).length =
      pyBound ((List.range n).map (part b n)).length j - pyBound ((List.range n).map (part b n)).length i := by
    simp only [pySlice, List.length_drop, List.length_take]
    have := hpb j
    simp only [List.length_map, List.length_range] at this ⊢
    omega
  have hi := hpb i
  have hj := hpb j
  set p := pyBound ((List.range n).map (part b n)).length i with hp
  set q := pyBound ((List.range n).map (part b n)).length j with hq
  have heq : q = p + (q - p) := by omega
  have hsl : pySlice ((List.range n).map (part b n)) i j =
      (((List.range n).map (part b n)).take (p + (q - p))).drop p := by
    rw [← heq]; rfl
  obtain ⟨t, h1, h2, h3, _⟩ := linear_fromSlice X b n ev hb p (q - p) (by omega) (by omega)
  refine ⟨t, ?_, by rw [hsl]; exact h2, by rw [h3]; omega⟩
  unfold Scale.getScale
  rw [hbs']
  simp only [sliceList, Bnd.asInt, Option.getD_some]
  rw [hsl]
  exact h1

example := C21_slice_int noExt ⟨0, 40⟩ 4 false (by unfold WF; norm_num) (by decide) 1 (-1) [⟨0, 10⟩, ⟨10, 20⟩, ⟨20, 30⟩, ⟨30, 40⟩]
  (by decide +kernel) (by decide +kernel)

/-- **C21, slicing by frequency (partial: at least two bands).** `scale[band]` of a
linear scale is a scale made of exactly the bands touching the requested range. -/
theorem C21_slice_band (X : NumExt α) (b : Band α) (n : Nat) (hb : WF b) (hn : 2 ≤ n)
    (q : Band α) (bs : List (Band α)) (hbs : (Scale.linear b n false).bands X = .ok bs)
    (hlen : 2 ≤ (bs.filter (touches q)).length) :
    ∃ t, (Scale.linear b n false).getScale X (.band q) = .ok t ∧
      t.bands X = .ok (bs.filter (touches q)) ∧ t.len = (bs.filter (touches q)).length := by
  have hbs' : (Scale.linear b n false).bands X = .ok ((List.range n).map (part b n)) := linearBands_eq b n hb hn
  rw [hbs'] at hbs
  cases hbs
  set bs := (List.range n).map (part b n) with hbsdef
  obtain ⟨hlo, hhi, hrun⟩ := run_spec bs (C21_linear_ordered b n hb) q
  set lo := bisectLeft (bs.map Band.stop) q.start with hlodef
  set hi := bisectLeft (bs.map Band.start) q.stop with hhidef
  have hsel : (bs.take hi).drop lo = bs.filter (touches q) := by
    rw [take_drop_eq_filter bs bs (touches q) lo hi rfl hrun]
    have : bs.zip bs = bs.map fun x => (x, x) := by
      rw [List.zip_eq_zipWith]
      clear hrun hlo hhi hlen hbs' hlodef hhidef hbsdef
      induction bs with
      | nil => rfl
      | cons x xs ih => simp
    rw [this, List.filter_map, List.map_map]
    simp [Function.comp_def]
  have hl : (bs.filter (touches q)).length = hi - lo := by
    rw [← hsel]
    simp only [List.length_drop, List.length_take]
    omega
  have hbl : bs.length = n := by simp [hbsdef]
  have heq : hi = lo + (hi - lo) := by omega
  obtain ⟨t, h1, h2, h3, _⟩ := linear_fromSlice X b n false hb lo (hi - lo) (by omega) (by omega)
  rw [← hbsdef, ← heq] at h1 h2
  rw [hsel] at h1 h2
  refine ⟨t, ?_, h2, by rw [h3, hl]⟩
  unfold Scale.getScale
  rw [hbs']
  have hg : (Scale.linear b n false).getSlice X (.band q) = .ok (.run lo hi) := by
    simp only [Scale.getSlice, hbs', bandRun, Scale.alwaysEven, Bool.false_and, Bool.false_eq_true, if_false,
      ← hlodef, ← hhidef]
  simp only [hg, SliceOut.select]
  rw [hsel]
  exact h1

example := C21_slice_band noExt ⟨0, 40⟩ 4 (by unfold WF; norm_num) (by decide) ⟨15, 25⟩ [⟨0, 10⟩, ⟨10, 20⟩, ⟨20, 30⟩, ⟨30, 40⟩]
  (by decide +kernel) (by decide +kernel)

end linear

/-- **C21, the missing part (1).** Slicing one band out of a linear scale gives a scale
that is unusable: asking for its bands raises `IndexError`. -/
theorem C21_slice_one_band_fails :
    ∃ t, (Scale.linear (⟨0, 100⟩ : Band ℚ) 10 false).getScale noExt (.slice (.int 2) (.int 3)) = .ok t ∧
      t.len = 1 ∧ t.bands noExt = .error .indexError :=
  ⟨.linear ⟨20, 30⟩ 1 false, by decide +kernel, rfl, rfl⟩

/-- **C21, the missing part (2).** An empty selection raises. -/
theorem C21_slice_empty_fails :
    (Scale.linear (⟨0, 100⟩ : Band ℚ) 10 false).getScale noExt (.slice (.int 3) (.int 3)) =
      .error .indexError := by decide +kernel

/-- **C21, the missing part (3).** Slicing forgets `always_even`. -/
theorem C21_slice_forgets_even :
    ∃ t, (Scale.linear (⟨0, 100⟩ : Band ℚ) 10 true).getScale noExt (.slice (.int 0) (.int 4)) = .ok t ∧
      t.alwaysEven = false :=
  ⟨.linear ⟨0, 40⟩ 4 false, by decide +kernel, rfl⟩

/-- **C21.** Slicing an explicit or geometric scale keeps exactly the selected bands,
however the selection is made. -/
theorem C21_explicit_slice (X : NumExt α) (s : Scale α)
    (hs : (∃ bs, s = .explicit bs) ∨ ∃ a b c n e, s = .geometric a b c n e)
    (bs sel : List (Band α)) (t : Scale α) (hbs : s.bands X = .ok bs)
    (h : s.fromSlice sel = .ok t) : t.bands X = .ok sel ∧ t.len = sel.length := by
  rcases hs with ⟨cs, rfl⟩ | ⟨a, b, c, n, e, rfl⟩ <;>
  · simp only [Scale.fromSlice, newExplicit] at h
    split at h
    · cases h
    · cases h; exact ⟨rfl, rfl⟩

example := C21_explicit_slice noExt (.explicit [⟨0, 1⟩, ⟨1, 2⟩, ⟨2, 4⟩]) (.inl ⟨_, rfl⟩) [⟨0, 1⟩, ⟨1, 2⟩, ⟨2, 4⟩] [⟨1, 2⟩, ⟨2, 4⟩]
  (.explicit [⟨1, 2⟩, ⟨2, 4⟩]) rfl rfl

/-! ## C23 -/

/-- **C23, refuted (1).** Explicit scales with different bands compare equal when one is
a prefix of the other. -/
theorem C23_explicit_eq_fails :
    ∃ bs cs : List (Band ℚ), bs ≠ cs ∧ (Scale.explicit bs).eq noExt (.explicit cs) = .ok true :=
  ⟨[⟨0, 1⟩], [⟨0, 1⟩, ⟨1, 2⟩], by decide, by decide +kernel⟩

/-- **C23, refuted (2).** Comparison of scales is not symmetric. -/
theorem C23_not_symmetric :
    ∃ s t : Scale ℚ, s.eq noExt t = .ok true ∧ t.eq noExt s = .ok false :=
  ⟨.explicit [⟨0, 50⟩, ⟨50, 100⟩], .linear ⟨0, 100⟩ 2 false, by decide +kernel, by decide +kernel⟩

/-- **C23, refuted (3).** Linear scales that slice differently compare equal:
`always_even` is ignored. -/
theorem C23_ignores_even :
    ∃ s t : Scale ℚ, s.eq noExt t = .ok true ∧
      s.getSlice noExt (.band ⟨0, 10⟩) ≠ t.getSlice noExt (.band ⟨0, 10⟩) :=
  ⟨.linear ⟨0, 100⟩ 10 false, .linear ⟨0, 100⟩ 10 true, by decide +kernel, by decide +kernel⟩

theorem zipAllEq_iff (bs cs : List (Band α)) (h : bs.length = cs.length) :
    zipAllEq bs cs = true ↔ bs = cs := by
  induction bs generalizing cs with
  | nil => cases cs <;> simp_all [zipAllEq]
  | cons b bs ih =>
    cases cs with
    | nil => simp at h
    | cons c cs =>
      have hbc : b.eq c = true ↔ b = c := by
        cases b; cases c; simp [Band.eq]
      simp only [zipAllEq, Bool.and_eq_true, List.cons.injEq, hbc, ih cs (by simpa using h)]

/-- **C23 (partial).** Explicit scales with the same number of bands are equal exactly
when they have the same bands in the same order. -/
theorem C23_explicit_eq (X : NumExt α) (bs cs : List (Band α)) (h : bs.length = cs.length) :
    (Scale.explicit bs).eq X (.explicit cs) = .ok (decide (bs = cs)) := by
  simp only [Scale.eq, Scale.bands]
  congr 1
  rw [Bool.eq_iff_iff, zipAllEq_iff bs cs h, decide_eq_true_eq]

example := C23_explicit_eq noExt [⟨0, 1⟩, ⟨1, 2⟩] [⟨0, 1⟩, ⟨1, 3⟩] rfl

/-- **C23 (partial).** Explicit frequency dimensions with as many slices, given as the same
kind of sequence, are equal exactly when bands and slices agree. -/
theorem C23_dimension_eq (X : NumExt α) (bs cs : List (Band α)) (sl tl : List (Int × Int))
    (k : Bool) (h1 : bs.length = sl.length) (h2 : cs.length = tl.length) :
    (ExplicitDim.mk (.explicit bs) sl k).eq X ⟨.explicit cs, tl, k⟩ = .ok (decide (bs = cs ∧ sl = tl)) := by
  unfold ExplicitDim.eq
  by_cases h : bs.length = cs.length
  · simp only [C23_explicit_eq X bs cs h]
    by_cases hb : bs = cs <;> simp [hb]
  · have hne : ¬ (bs = cs) := fun hc => h (by rw [hc])
    have hsl : ¬ (sl = tl) := fun hc => h (by rw [h1, h2, hc])
    simp only [Scale.eq, Scale.bands, hne, hsl, false_and, decide_false]
    cases zipAllEq bs cs <;> simp

example := C23_dimension_eq noExt [⟨0, 1⟩, ⟨1, 2⟩] [⟨0, 1⟩, ⟨1, 3⟩] [(0, 3), (3, 5)] [(0, 3), (3, 6)] true rfl rfl

/-- **C23.** Two dimensions that differ only in whether `slices` is a list or a tuple are
unequal. -/
theorem C23_tuple_vs_list (X : NumExt α) (bs : List (Band α)) (sl : List (Int × Int)) :
    (ExplicitDim.mk (.explicit bs) sl true).eq X ⟨.explicit bs, sl, false⟩ = .ok false := by
  unfold ExplicitDim.eq
  rw [C23_explicit_eq X bs bs rfl]
  simp

theorem find_zip_reverse (bs : List (Band α)) (sls : List (Int × Int)) (hnd : bs.Nodup) (i : Nat)
    (hi : i < bs.length) (hi' : i < sls.length) : lookupBand bs sls bs[i] = some sls[i] := by
  unfold lookupBand
  have heq : ∀ a b : Band α, a.eq b = true ↔ a = b := by
    intro a b; cases a; cases b; simp [Band.eq]
  have hmem : ∀ p ∈ bs.zip sls, p.1 = bs[i] → p = (bs[i], sls[i]) := by
    intro p hp hpe
    obtain ⟨k, hk, rfl⟩ := List.getElem_of_mem hp
    simp only [List.length_zip] at hk
    simp only [List.getElem_zip] at hpe ⊢
    have : k = i := (List.Nodup.getElem_inj_iff hnd).1 hpe
    subst this
    rfl
  cases hf : (bs.zip sls).reverse.find? (fun p => p.1.eq bs[i]) with
  | none =>
    have := List.find?_eq_none.1 hf (bs[i], sls[i]) (by
      rw [List.mem_reverse, List.mem_iff_getElem]
      exact ⟨i, by simp [List.length_zip]; omega, by simp⟩)
    simp [heq] at this
  | some p =>
    have h1 := List.find?_some hf
    have h2 := List.mem_of_find?_eq_some hf
    rw [heq] at h1
    rw [List.mem_reverse] at h2
    rw [hmem p h2 h1]
    rfl

/-- **C23 (partial: no band occurs twice).** Selecting one of the dimension's own bands
gives the slice stored for it, and the selected axis has that band and slice alone. -/
theorem C23_lookup (X : NumExt α) (d : ExplicitDim α) (bs : List (Band α))
    (hb : d.scale.bands X = .ok bs) (hnd : bs.Nodup) (i : Nat) (hi : i < bs.length)
    (hi' : i < d.slices.length) (hwf : WF bs[i]) :
    d.intSlice X bs[i] = .ok d.slices[i] ∧
      d.metaslice X bs[i] = .ok ⟨.explicit [bs[i]], [d.slices[i]], true⟩ := by
  have h := find_zip_reverse bs d.slices hnd i hi hi'
  unfold ExplicitDim.intSlice ExplicitDim.metaslice
  simp only [hb, h, true_and]
  simp only [newExplicit, spanOf, List.head?_cons, List.getLast?_singleton]
  rw [(C22_new _ _).1 hwf]
  rfl

example := C23_lookup noExt ⟨.explicit [⟨0, 1⟩, ⟨1, 2⟩, ⟨2, 3⟩], [(0, 3), (3, 5), (5, 9)], true⟩ [⟨0, 1⟩, ⟨1, 2⟩, ⟨2, 3⟩] rfl
  (by decide +kernel) 1 (by decide) (by decide) (by unfold WF; decide +kernel)

/-- **C23, refuted (4).** When a band occurs twice the lookup returns the later slice, so
the first occurrence's own coefficients cannot be selected. -/
theorem C23_duplicate_band_fails :
    ∃ (d : ExplicitDim ℚ), ExplicitDim.new noExt d.scale d.slices true = .ok d ∧
      d.scale.bands noExt = .ok [⟨0, 1⟩, ⟨0, 1⟩] ∧ d.slices = [(0, 3), (3, 5)] ∧
      d.intSlice noExt ⟨0, 1⟩ = .ok (3, 5) :=
  ⟨⟨.explicit [⟨0, 1⟩, ⟨0, 1⟩], [(0, 3), (3, 5)], true⟩, by decide +kernel, rfl, rfl, by decide +kernel⟩

/-- **C23.** An explicit frequency dimension refuses a number of slices other than its
number of bands. -/
theorem C23_length_mismatch (X : NumExt α) (s : Scale α) (sls : List (Int × Int)) (k : Bool)
    (h : s.len ≠ sls.length) : ExplicitDim.new X s sls k = .error .valueError := by
  unfold ExplicitDim.new
  rw [if_pos h]

example := C23_length_mismatch noExt (.explicit [⟨0, 1⟩, ⟨1, 2⟩, ⟨2, 3⟩]) [(0, 3), (3, 5)] true (by decide)

/-! ## Integer indices, the other kinds of scales, comparison and validation -/

/-- **C20.** Explicit, Bark and mel scales never round the number of rows: slicing them by a band always selects exactly the rows that touch
the range. -/
theorem C20_never_even (X : NumExt α) (s : Scale α)
    (hs : (∃ bs, s = .explicit bs) ∨ (∃ b n, s = .bark b n) ∨ ∃ b n, s = .mel b n)
    (bs : List (Band α)) (hb : s.bands X = .ok bs) (ho : Ordered bs) (q : Band α) :
    ∃ out, s.getSlice X (.band q) = .ok out ∧
      ∀ {β : Type} (l : List β), l.length = bs.length → out.select l = .ok (rowsTouching bs q l) := by
  refine C20_selects_exactly X s ?_ ?_ bs hb ho q
  · rcases hs with ⟨_, rfl⟩ | ⟨_, _, rfl⟩ | ⟨_, _, rfl⟩ <;> intro b hc <;> cases hc
  · rcases hs with ⟨_, rfl⟩ | ⟨_, _, rfl⟩ | ⟨_, _, rfl⟩ <;> rfl

example := C20_never_even noExt (.explicit [⟨0, 1⟩, ⟨1, 2⟩, ⟨2, 4⟩]) (.inl ⟨_, rfl⟩) [⟨0, 1⟩, ⟨1, 2⟩, ⟨2, 4⟩] rfl
  ⟨by decide +kernel, by decide +kernel⟩ ⟨1 / 2, 3⟩

/-- **C21.** `scale[i]` is band `i`, counted from the front for `i >= 0` and from the back for `i < 0`; anything else is an IndexError. -/
theorem C21_get_int (X : NumExt α) (s : Scale α) (bs : List (Band α)) (hb : s.bands X = .ok bs) :
    (∀ i (h : i < bs.length), s.getInt X (i : Int) = .ok bs[i]) ∧
    (∀ i (h : i < bs.length), s.getInt X ((i : Int) - bs.length) = .ok bs[i]) ∧
    (∀ i : Int, (bs.length : Int) ≤ i ∨ i < -(bs.length : Int) → s.getInt X i = .error .indexError) := by
  unfold Scale.getInt
  simp only [hb, pyGet]
  refine ⟨?_, ?_, ?_⟩
  · intro i h
    rw [if_neg (by omega), if_neg (by omega)]
    simp [List.getElem?_eq_getElem h]
  · intro i h
    have hneg : (i : Int) - bs.length < 0 := by omega
    simp only [hneg, if_true]
    rw [if_neg (by omega)]
    have : ((i : Int) - bs.length + bs.length).toNat = i := by omega
    rw [this, List.getElem?_eq_getElem h]
  · intro i h
    rcases h with h | h
    · have hneg : ¬ i < 0 := by omega
      simp only [hneg, if_false]
      rw [List.getElem?_eq_none (by omega)]
    · have hneg : i < 0 := by omega
      simp only [hneg, if_true]
      rw [if_pos (by omega)]

example := C21_get_int noExt (.explicit [⟨0, 1⟩, ⟨1, 2⟩, ⟨2, 4⟩]) [⟨0, 1⟩, ⟨1, 2⟩, ⟨2, 4⟩] rfl

/-- **C21.** A chroma scale has twelve rows but no bands: it cannot be indexed or sliced by frequency. -/
theorem C21_chroma (X : NumExt α) (b : Band α) (ix : Index α) (i : Int) :
    (Scale.chroma b).len = 12 ∧ (Scale.chroma b).getInt X i = .error .notImplemented ∧
    (Scale.chroma b).getSlice X ix = .error .notImplemented ∧ (Scale.chroma b).getScale X ix = .error .notImplemented :=
  ⟨rfl, rfl, rfl, rfl⟩

/-- **C23.** Linear, Bark, mel, chroma and geometric scales compare equal to scales of their own kind exactly when their parameters other than
`always_even` agree, and never to other kinds. -/
theorem C23_scale_eq (X : NumExt α) :
    (∀ b c : Band α, ∀ n m ev ev', (Scale.linear b n ev).eq X (.linear c m ev') = .ok (decide (b = c ∧ n = m))) ∧
    (∀ b c : Band α, ∀ n m, (Scale.bark b n).eq X (.bark c m) = .ok (decide (b = c ∧ n = m))) ∧
    (∀ b c : Band α, ∀ n m, (Scale.mel b n).eq X (.mel c m) = .ok (decide (b = c ∧ n = m))) ∧
    (∀ b c : Band α, (Scale.chroma b).eq X (.chroma c) = .ok (decide (b = c))) ∧
    (∀ (s e r s' e' r' : α) n n' ev ev', (∃ t, newGeometric X s e r n ev = .ok t) → (∃ t, newGeometric X s' e' r' n' ev' = .ok t) →
      (Scale.geometric s e r n ev).eq X (.geometric s' e' r' n' ev') = .ok (decide (s = s' ∧ e = e' ∧ r = r' ∧ n = n'))) ∧
    (∀ b c : Band α, ∀ n m ev, (Scale.linear b n ev).eq X (.bark c m) = .ok false ∧ (Scale.bark c m).eq X (.linear b n ev) = .ok false ∧
      (Scale.linear b n ev).eq X (.mel c m) = .ok false ∧ (Scale.bark b n).eq X (.mel c m) = .ok false) := by
  have heq : ∀ a b : Band α, a.eq b = decide (a = b) := by
    intro a b
    cases a; cases b
    simp [Band.eq, Band.mk.injEq, Bool.decide_and]
  refine ⟨?_, ?_, ?_, ?_, ?_, ?_⟩
  · intro b c n m ev ev'; simp [Scale.eq, heq, Bool.decide_and]
  · intro b c n m; simp [Scale.eq, heq, Bool.decide_and]
  · intro b c n m; simp [Scale.eq, heq, Bool.decide_and]
  · intro b c; simp [Scale.eq, heq]
  · intro s e r s' e' r' n n' ev ev' h1 h2
    have hband : ∀ (s e r : α) n ev, (∃ t, newGeometric X s e r n ev = .ok t) → ∃ b, (Scale.geometric s e r n ev).band X = .ok b := by
      intro s e r n ev ⟨t, ht⟩
      unfold newGeometric at ht
      split at ht
      · cases ht
      · rename_i bs hbs
        split at ht
        · cases ht
        · rename_i b hb
          exact ⟨b, by simp only [Scale.band, hbs, hb]⟩
    obtain ⟨b, hb⟩ := hband s e r n ev h1
    obtain ⟨c, hc⟩ := hband s' e' r' n' ev' h2
    have hbc : s = s' → e = e' → r = r' → n = n' → b = c := by
      rintro rfl rfl rfl rfl
      have : (Scale.geometric s e r n ev').band X = .ok b := hb
      rw [this] at hc
      cases hc; rfl
    simp only [Scale.eq, hb, hc, heq]
    congr 1
    rw [Bool.eq_iff_iff]
    simp only [Bool.and_eq_true, decide_eq_true_eq]
    constructor
    · rintro ⟨⟨⟨⟨_, a⟩, b⟩, c⟩, d⟩; exact ⟨b, c, d, a⟩
    · rintro ⟨a, b, c, d⟩; exact ⟨⟨⟨⟨hbc a b c d, d⟩, a⟩, b⟩, c⟩
  · intro b c n m ev; exact ⟨rfl, rfl, rfl, rfl⟩

/-- **C23.** A frequency dimension accepts exactly the axes with as many rows as its scale has bands. -/
theorem C23_validate (s : Scale α) (n : Nat) :
    (n = s.len → validateFreq s n = .ok ()) ∧ (n ≠ s.len → validateFreq s n = .error .valueError) := by
  unfold validateFreq
  constructor <;> intro h <;> simp [h]

example := (C23_validate (.explicit [(⟨0, 1⟩ : Band ℚ), ⟨1, 2⟩, ⟨2, 4⟩]) 3).1 rfl
example := (C23_validate (.explicit [(⟨0, 1⟩ : Band ℚ), ⟨1, 2⟩, ⟨2, 4⟩]) 4).2 (by decide)

/-- **C23.** An explicit dimension's check answers whether the axis ends where the last slice ends; the answer is only a truth value, so a
mismatch is never refused. -/
theorem C23_explicit_validate (d : ExplicitDim α) (last : Int × Int) (h : d.slices.getLast? = some last) (n : Nat) :
    d.validate n = .ok (decide ((n : Int) = last.2)) := by
  unfold ExplicitDim.validate
  simp only [h]

example := C23_explicit_validate (⟨.explicit [⟨0, 1⟩, ⟨1, 2⟩], [(0, 3), (3, 5)], true⟩ : ExplicitDim ℚ) (3, 5) rfl 5

/-- **C23.** Slicing an explicit dimension by a range that is not one of its bands selects the rows from the start of the first to the end of
the last band that touches the range; when no band touches it, IndexError. -/
theorem C23_range (X : NumExt α) (d : ExplicitDim α) (hs : Sliceable d.scale) (heven : d.scale.alwaysEven = false)
    (bs : List (Band α)) (hb : d.scale.bands X = .ok bs) (ho : Ordered bs) (hl : d.slices.length = bs.length)
    (q : Band α) (hq : ∀ b ∈ bs, b ≠ q) :
    (∀ f l, (rowsTouching bs q d.slices).head? = some f → (rowsTouching bs q d.slices).getLast? = some l →
      d.intSlice X q = .ok (f.1, l.2)) ∧
    (rowsTouching bs q d.slices = [] → d.intSlice X q = .error .indexError) := by
  have hlook : lookupBand bs d.slices q = none := by
    unfold lookupBand
    rw [Option.map_eq_none_iff, List.find?_eq_none]
    intro p hp hc
    have hp : p ∈ bs.zip d.slices := by simpa using hp
    obtain ⟨b, sl⟩ := p
    have hmem := (List.of_mem_zip hp).1
    refine hq b hmem ?_
    cases b; cases q
    simpa [Band.eq] using hc
  obtain ⟨out, ho1, ho2⟩ := C20_selects_exactly X d.scale hs heven bs hb ho q
  have hsel := ho2 d.slices hl
  constructor
  · intro f l hf hll
    unfold ExplicitDim.intSlice
    simp only [hb, hlook, ho1, hsel, sliceSpan, hf, hll]
  · intro hnil
    unfold ExplicitDim.intSlice
    simp only [hb, hlook, ho1, hsel, sliceSpan, hnil]
    rfl

example := C23_range noExt ⟨.explicit [⟨0, 1⟩, ⟨1, 2⟩, ⟨2, 3⟩], [(0, 3), (3, 5), (5, 9)], true⟩ (by intro b; simp) rfl
  [⟨0, 1⟩, ⟨1, 2⟩, ⟨2, 3⟩] rfl ⟨by decide +kernel, by decide +kernel⟩ rfl ⟨3 / 2, 5 / 2⟩ (by decide +kernel)

example : (ExplicitDim.mk (.explicit [⟨0, 1⟩, ⟨1, 2⟩, ⟨2, 3⟩]) [(0, 3), (3, 5), (5, 9)] true : ExplicitDim ℚ).intSlice noExt ⟨3 / 2, 5 / 2⟩ =
    .ok (3, 9) := by decide +kernel
example : (Scale.explicit [⟨0, 1⟩, ⟨1, 2⟩, (⟨2, 3⟩ : Band ℚ)]).getInt noExt (-1) = .ok ⟨2, 3⟩ := by decide +kernel

end Zounds.Props.Frequency
