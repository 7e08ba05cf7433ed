import Verif.Model.ComplexDomain
import Verif.Props.Rainbow
import Mathlib.Analysis.SpecialFunctions.Trigonometric.Basic
import Mathlib.Analysis.SpecialFunctions.Sqrt

/-!
# Complex-domain onset detection (C302)
-/

namespace Zounds.ComplexDomain
open Zounds Zounds.Arr

/-- **C302** (the phase is lost): of the deviation of the phase only the sign counts: if it is negative the detection function is the sum of the two
magnitudes, otherwise their difference, which may be negative. -/
theorem C302_sign (z0 z1 z2 : ℂ) :
    detect z0 z1 z2 = if deviation z0 z1 z2 < 0 then ‖z1‖ + ‖z2‖ else ‖z1‖ - ‖z2‖ := by
  unfold detect angle angleOfReal
  by_cases h : deviation z0 z1 z2 < 0
  · have hpi : Real.pi ≠ 0 := Real.pi_ne_zero
    simp only [h, if_true, hpi, if_false]
    rw [Real.cos_pi, show ‖z1‖ ^ 2 + ‖z2‖ ^ 2 - 2 * ‖z1‖ * ‖z2‖ * -1 = (‖z1‖ + ‖z2‖) ^ 2 by ring, Real.sqrt_sq (by positivity)]
  · simp only [h, if_false, if_true]

/-- **C302** (the phase is lost, in words): spectra with the same magnitudes and deviations of the same sign are not told apart. -/
theorem C302_same (z0 z1 z2 y0 y1 y2 : ℂ) (h1 : ‖z1‖ = ‖y1‖) (h2 : ‖z2‖ = ‖y2‖) (hs : deviation z0 z1 z2 < 0 ↔ deviation y0 y1 y2 < 0) :
    detect z0 z1 z2 = detect y0 y1 y2 := by
  rw [C302_sign, C302_sign, h1, h2]
  simp only [hs]

/-- **C302** (what the deviation is): the second difference of the three phases, up to full turns, and never more than one full turn. -/
theorem C302_deviation (z0 z1 z2 : ℂ) :
    (∃ k : ℤ, deviation z0 z1 z2 = z2.arg - 2 * z1.arg + z0.arg + k * (2 * Real.pi)) ∧ |deviation z0 z1 z2| ≤ 2 * Real.pi := by
  obtain ⟨-, h1, h2⟩ := Rainbow.C163_unwrap [z0.arg, z1.arg, z2.arg]
  obtain ⟨a, ha⟩ := h1 0 (by simp)
  obtain ⟨b, hb⟩ := h1 1 (by simp)
  obtain ⟨c, hc⟩ := h1 2 (by simp)
  have d1 := h2 0 (by simp)
  have d2 := h2 1 (by simp)
  simp only [List.getD_cons_zero, List.getD_cons_succ, zero_add, Nat.reduceAdd] at ha hb hc d1 d2
  unfold deviation
  simp only []
  constructor
  · refine ⟨c - 2 * b + a, ?_⟩
    rw [ha, hb, hc]
    push_cast
    ring
  · rw [abs_le] at d1 d2 ⊢
    constructor <;> linarith [d1.1, d1.2, d2.1, d2.2]

/-- **C302** (a steady tone): if the phase advances by the same angle, less than half a turn, from the first to the second and from the second to the third
frame, the detection function is the difference of the magnitudes. -/
theorem C302_steady (z0 z1 z2 : ℂ) (δ : ℝ) (hδ : |δ| < Real.pi) (p q : ℤ) (h1 : z1.arg = z0.arg + δ + p * (2 * Real.pi))
    (h2 : z2.arg = z1.arg + δ + q * (2 * Real.pi)) : detect z0 z1 z2 = ‖z1‖ - ‖z2‖ := by
  have e1 := Rainbow.unwrap_step [z0.arg, z1.arg, z2.arg] δ hδ 0 (by simp) ⟨p, by simp only [List.getD_cons_zero, List.getD_cons_succ]; rw [h1]⟩
  have e2 := Rainbow.unwrap_step [z0.arg, z1.arg, z2.arg] δ hδ 1 (by simp) ⟨q, by simp only [List.getD_cons_zero, List.getD_cons_succ]; rw [h2]⟩
  rw [C302_sign, if_neg]
  unfold deviation
  simp only [zero_add, Nat.reduceAdd] at e1 e2 ⊢
  rw [e2, e1]
  linarith

example : detect 1 1 2 = ‖(1 : ℂ)‖ - ‖(2 : ℂ)‖ :=
  C302_steady 1 1 2 0 (by simp [Real.pi_pos]) 0 0 (by simp) (by
    simp)

section
variable {φ : Type} [Field φ] [LinearOrder φ] (X : Freq.NumExt φ)

/-- **C302** (positions found by `np.where`): an array with units of two axes cannot be indexed by what `np.where` finds in it, whatever its dimensions: a
frequency dimension takes the array of positions for a band, and otherwise the dimensions do not fit the numbers picked. -/
theorem C302_where {α : Type} (a : Awu (LibDim φ) α) (h : a.dims.length = 2) (picked : ℕ) :
    whereIndex a picked = .error .valueError ∨ (∃ s, .freq s ∈ a.dims) ∧ (whereIndex a picked = .error .attributeError ∨ whereIndex a picked = .error .notImplemented) := by
  obtain ⟨d0, d1, hd⟩ := List.length_eq_two.1 h
  unfold whereIndex
  rw [hd]
  cases d0 with
  | freq s => right; exact ⟨⟨s, by simp⟩, by cases s <;> simp [arrayOk]⟩
  | identity =>
    cases d1 with
    | freq s => right; exact ⟨⟨s, by simp⟩, by cases s <;> simp [arrayOk]⟩
    | identity => left; simp [arrayOk]
    | time f u n => left; simp [arrayOk]
  | time f u n =>
    cases d1 with
    | freq s => right; exact ⟨⟨s, by simp⟩, by cases s <;> simp [arrayOk]⟩
    | identity => left; simp [arrayOk]
    | time f u n => left; simp [arrayOk]

/-- **C302** (never any output): on windows of three axes, whatever their dimensions and values, the node raises. -/
theorem C302_never (data : Awu (LibDim φ) ℂ) : ∃ e, process X data = .error e := by
  unfold process
  split
  · exact ⟨_, rfl⟩
  · exact ⟨_, rfl⟩
  · simp only []
    split
    · exact ⟨_, rfl⟩
    · split
      · exact ⟨_, rfl⟩
      · exact ⟨_, rfl⟩

/-- **C302** (which error): windows of a spectrum on a scale with computable bands (two or more on a linear scale) are an AttributeError. -/
theorem C302_spectrum (n m : ℕ) (f u f' u' : ℤ) (s : Freq.Scale φ) (hs : ∀ b, s ≠ .chroma b) (get : List ℕ → ℂ) (t : Freq.Scale φ) (hm : s.len = m)
    (ht : freqScale X s (.slice none none none) = .ok t) (htl : t.len = m) (htc : ∀ b, t ≠ .chroma b) :
    process X ⟨[n, 3, m], [.time f u (some n), .time f' u' (some 3), .freq s], get⟩ = .error .attributeError := by
  have hfirst : (Item.slice none none none : Item (LibIdx φ)).raw = some (.slice none none none) := rfl
  have hint : ∀ i, (Item.int i : Item (LibIdx φ)).raw = some (.int i) := fun _ => rfl
  have hr : ∀ n : ℕ, sliceRange n none none none = .ok (0, 1, n) := by intro n; simp [sliceRange, upFrom, upTo]
  have hg : ∀ i : ℤ, 0 ≤ i → i < 3 → ∃ g, (⟨[n, 3, m], [.time f u (some n), .time f' u' (some 3), .freq s], get⟩ : Awu (LibDim φ) ℂ).getitem (libOps X)
      [.slice none none none, .int i, .slice none none none] = .ok ⟨[n, m], [.time f u (some n), .freq t], g⟩ := by
    intro i h0 h3
    unfold Awu.getitem
    have hc : computeIndices (libOps X) [.time f u (some n), .time f' u' (some 3), .freq s] 3 0
        [.slice none none none, .int i, .slice none none none] = .ok [.slice none none none, .int i, .slice none none none] := by
      simp only [computeIndices, hfirst, hint]
    have hni : normIndex 3 i = .ok i.toNat := by
      unfold normIndex
      rw [if_neg (by push_cast; omega), if_neg (by omega)]
    have hv : npIndex [n, 3, m] [.slice none none none, .int i, .slice none none none] =
        .ok ⟨[n, m], fun idx => walk [.run 0 1 n, .fixed i.toNat, .run 0 1 m] 0 idx⟩ := by
      simp only [npIndex, expand]
      simp [List.countP_cons, NpItem.consumes, pieces, hr, hni, view, Piece.isPick, Piece.axis, List.filterMap_cons]
    have hmeta : (libOps X).metaslice (.freq s) (.slice none none none) m = .ok (.freq t) := by
      simp only [libOps, ht]
    have hd : newDims (libOps X) [.time f u (some n), .time f' u' (some 3), .freq s] 3 [n, m] 0 0
        [.slice none none none, .int i, .slice none none none] = .ok [.time f u (some n), .freq t] := by
      simp only [newDims, List.getElem?_cons_zero, List.getElem?_cons_succ, metasliceOr, hmeta, List.drop]
      simp [libOps]
    have l1 : ([.slice none none none, .int i, .slice none none none] : List (Item (LibIdx φ))).length = 3 := rfl
    have c1 : ([.slice none none none, .int i, .slice none none none] : List (Item (LibIdx φ))).countP Item.counts = 3 := rfl
    simp only [l1, hc, c1, hv, hd]
    refine ⟨fun idx => get (walk [.run 0 1 n, .fixed i.toNat, .run 0 1 m] 0 idx), ?_⟩
    unfold Awu.new
    rw [if_neg (by simp)]
    simp [installAll, libOps, Freq.validateFreq, htl]
  obtain ⟨g1, h1⟩ := hg 1 (by omega) (by omega)
  obtain ⟨g2, h2⟩ := hg 2 (by omega) (by omega)
  unfold process
  rw [h1, h2]
  have ha : arrayOk (.freq t) = .error .attributeError := by
    cases t with
    | chroma b => exact absurd rfl (htc b)
    | _ => rfl
  simp only [whereIndex, ha]
  simp [arrayOk]
end

/-- A linear scale of five bands. -/
example : freqScale (⟨fun _ _ _ => [], fun _ _ => [], fun _ _ => []⟩ : Freq.NumExt ℚ) (.linear ⟨0, 100⟩ 5 false) (.slice none none none) = .ok (.linear ⟨0, 100⟩ 5 false) := by
  decide +kernel

example := C302_where (⟨[4, 5], [.time 1 1 (some 4), .freq (.linear ⟨0, 100⟩ 5 false)], fun i => i⟩ : Awu (LibDim ℚ) (List ℕ)) rfl 3
example (get : List ℕ → ℂ) := C302_spectrum (⟨fun _ _ _ => [], fun _ _ => [], fun _ _ => []⟩ : Freq.NumExt ℚ) 4 5 10 10 10 10 (.linear ⟨0, 100⟩ 5 false) (fun b h => nomatch h) get
  (.linear ⟨0, 100⟩ 5 false) rfl (by decide +kernel) rfl (fun b h => nomatch h)

end Zounds.ComplexDomain
