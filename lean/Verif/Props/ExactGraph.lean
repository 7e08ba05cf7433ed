import Verif.Props.AudioGraph
import Verif.Props.TimeRequest
/-!
# What the Bark frequency cepstral coefficients tell apart (C265), and when the Content-Range of a stretch stays within the file (C279)
-/

namespace Zounds.AudioGraph
open Zounds Zounds.Spectral Zounds.SlidingWindow Zounds.Stft

/-- **C265**, exactly which spectra have the same Bark frequency cepstral coefficients: those whose logarithmic magnitudes, bin by bin of the spectrum, differ by something orthogonal to the first
(at most 13) cosines. -/
theorem C265_exact (r r' : List ℂ) (h : r.length = r'.length) :
    bfccNode [r] = bfccNode [r'] ↔
      ∀ m : ℕ, 1 ≤ m → m ≤ 13 → m < r.length →
        ∑ t ∈ Finset.range r.length, (Real.log (‖r.getD t 0‖ + 1 / 10 ^ 12) - Real.log (‖r'.getD t 0‖ + 1 / 10 ^ 12)) * Real.cos (Real.pi * m * (2 * t + 1) / (2 * r.length)) = 0 := by
  have hl : ∀ r : List ℂ, (magnitudes r).length = r.length := by intro r; simp [magnitudes]
  have hbl : ∀ r : List ℂ, (Descriptors.bfcc (1 / 10 ^ 12) 13 1 (magnitudes r)).length = min 13 (r.length - 1) := by
    intro r
    unfold Descriptors.bfcc Descriptors.rawDct Descriptors.safeLog
    simp [hl]
    omega
  have hg : ∀ (r : List ℂ) (t : ℕ), |(magnitudes r).getD t 0| = ‖r.getD t 0‖ := by
    intro r t
    by_cases ht : t < r.length
    · rw [List.getD_eq_getElem _ _ (by rw [hl]; exact ht), List.getD_eq_getElem _ _ ht]
      simp [magnitudes]
    · rw [List.getD_eq_default _ _ (by rw [hl]; omega), List.getD_eq_default _ _ (by omega)]
      simp
  have hval : ∀ (r : List ℂ) (k : ℕ), k < min 13 (r.length - 1) → (Descriptors.bfcc (1 / 10 ^ 12) 13 1 (magnitudes r)).getD k 0 =
      2 * ∑ t ∈ Finset.range r.length, Real.log (‖r.getD t 0‖ + 1 / 10 ^ 12) * Real.cos (Real.pi * ((1 + k : ℕ) : ℝ) * (2 * (t : ℝ) + 1) / (2 * (r.length : ℝ))) := by
    intro r k hk
    rw [Descriptors.C62_bfcc_value _ _ _ _ k (by rw [hl]; exact hk)]
    simp only [hl, hg]
  unfold bfccNode
  simp only [List.map_cons, List.map_nil, List.cons.injEq, and_true]
  constructor
  · intro he m h1 h2 h3
    have hk : m - 1 < min 13 (r.length - 1) := by omega
    have := congrArg (fun l => l.getD (m - 1) 0) he
    beta_reduce at this
    rw [hval r _ hk, hval r' _ (by rw [← h]; exact hk), ← h, show 1 + (m - 1) = m by omega] at this
    simp only [sub_mul, Finset.sum_sub_distrib]
    linarith
  · intro hm
    apply List.ext_getElem
    · rw [hbl, hbl, h]
    · intro k h1 h2
      have hk : k < min 13 (r.length - 1) := by rw [← hbl]; exact h1
      have := hm (1 + k) (by omega) (by omega) (by omega)
      rw [← List.getD_eq_getElem _ 0 h1, ← List.getD_eq_getElem _ 0 h2, hval r k hk, hval r' k (by rw [← h]; exact hk), ← h]
      simp only [sub_mul, Finset.sum_sub_distrib] at this
      linarith

/-- **C265**: so the magnitudes of the spectrum determine them. -/
theorem C265_magnitudes (r r' : List ℂ) (h : magnitudes r = magnitudes r') : bfccNode [r] = bfccNode [r'] := by
  simp [bfccNode, h]

example := C265_exact [1, 2, 3] [1, -2, 3] rfl
example : bfccNode [[1, -2]] = bfccNode [[1, 2]] := C265_magnitudes _ _ (by simp [magnitudes])

end Zounds.AudioGraph

namespace Zounds.TimeRequest
open Zounds

/-- **C279**, exactly when the header stays within the file: the Content-Range of the answer to `seconds=a-b` names an end within the length it names if and only if `b` is not past the end of
the file. -/
theorem C279_within {α : Type} (pf : List Char → Option Rat) (rate : Nat) (frames : List α) (start stop : List Char) (hn : Number start) (hs : '\n' ∉ stop)
    (a b : Int) (ha : pf start = some ((a : Rat) / 1000000000000)) (hb : pf stop = some ((b : Rat) / 1000000000000)) (hne : b ≠ 0) (r : Answer α)
    (h : getOgg pf rate frames (some (secondsHeader start stop)) = .ok (some r)) :
    r.contentRange.2.1 ≤ r.contentRange.2.2 ↔ b ≤ oggTotal rate frames.length := by
  rw [C279_header pf rate frames start stop hn hs a b ha hb hne r h]
  simp only
  rw [div_le_div_iff_of_pos_right (by norm_num)]
  exact_mod_cast Iff.rfl

end Zounds.TimeRequest
