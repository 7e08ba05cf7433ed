import Verif.Model.Decompose
import Verif.Props.FreqAdaptive
import Mathlib.Tactic.Linarith
import Mathlib.Tactic.Abel
import Mathlib.Tactic.Positivity
import Mathlib.Tactic.Common
import Mathlib.Tactic.FieldSimp
import Mathlib.Data.List.Nodup
import Mathlib.Algebra.BigOperators.Group.List.Basic
/-!
# Property C59: decomposition into resampled frequency bands
-/

set_option linter.unusedSectionVars false

namespace Zounds.Decompose
open Zounds Zounds.Freq Zounds.Props.FreqAdaptive

variable {β : Type} [AddCommGroup β]

/-- Specification: the sum of rows of `n` samples. -/
def sumRows (n : Nat) (rows : List (List β)) : List β := (List.range n).map fun k => (rows.map fun r => r.getD k 0).sum

/-- Specification: the two edges in Hertz of the bands of the given sizes. -/
def edges (nyquist : Rat) (n : Nat) (start : Rat) (sizes : List Nat) : List (Band Rat) :=
  List.zipWith Band.mk (start :: sizes.map fun s : Nat => nyquist * ((s : Rat) / n)) (sizes.map fun s : Nat => nyquist * ((s : Rat) / n))

/-! ## Rows -/

theorem getD_ext {l m : List β} (hl : l.length = m.length) (h : ∀ t, t < l.length → l.getD t 0 = m.getD t 0) : l = m := by
  apply List.ext_getElem hl
  intro t h1 h2
  have := h t h1
  simpa [List.getD_eq_getElem?_getD, h1, h2] using this

theorem sumRows_length (n : Nat) (rows : List (List β)) : (sumRows n rows).length = n := by simp [sumRows]

theorem sumRows_getD (n : Nat) (rows : List (List β)) (k : Nat) (hk : k < n) :
    (sumRows n rows).getD k 0 = (rows.map fun r => r.getD k 0).sum := by
  simp [sumRows, List.getD_eq_getElem?_getD, hk]

theorem addRow_length (a b : List β) (n : Nat) (ha : a.length = n) (hb : b.length = n) : (addRow a b).length = n := by
  simp [addRow, ha, hb]

theorem subRow_length (a b : List β) (n : Nat) (ha : a.length = n) (hb : b.length = n) : (subRow a b).length = n := by
  simp [subRow, ha, hb]

theorem addRow_getD (a b : List β) (n : Nat) (ha : a.length = n) (hb : b.length = n) (k : Nat) (hk : k < n) :
    (addRow a b).getD k 0 = a.getD k 0 + b.getD k 0 := by
  simp [addRow, List.getD_eq_getElem?_getD, List.getElem?_zipWith, ha, hb, hk]

theorem subRow_getD (a b : List β) (n : Nat) (ha : a.length = n) (hb : b.length = n) (k : Nat) (hk : k < n) :
    (subRow a b).getD k 0 = a.getD k 0 - b.getD k 0 := by
  simp [subRow, List.getD_eq_getElem?_getD, List.getElem?_zipWith, ha, hb, hk]

theorem getD_length (l : List (List β)) (n : Nat) (h : ∀ r ∈ l, r.length = n) (t : Nat) (ht : t < l.length) : (l.getD t []).length = n := by
  rw [List.getD_eq_getElem?_getD, List.getElem?_eq_getElem ht]
  exact h _ (List.getElem_mem ht)

/-! ## The bands -/

/-- The band taken from what remains of one row. -/
def down (R : List β → Nat → List β) (n size : Nat) (x : List β) : List β := if size ≠ n then R x size else x

/-- The bands of one row. -/
def rowBands (R : List β → Nat → List β) (n : Nat) : List β → List Nat → List (List β)
  | _, [] => []
  | x, size :: sizes => down R n size x :: rowBands R n (subRow x (R (down R n size x) n)) sizes

theorem rowBands_length (R : List β → Nat → List β) (n : Nat) (sizes : List Nat) : ∀ x, (rowBands R n x sizes).length = sizes.length := by
  induction sizes with
  | nil => intro x; rfl
  | cons s ss ih => intro x; simp [rowBands, ih]

theorem down_length (R : List β → Nat → List β) (hR : ∀ w m, (R w m).length = m) (n size : Nat) (x : List β) (hx : x.length = n) :
    (down R n size x).length = size := by
  unfold down
  split
  · exact hR _ _
  · rename_i h; omega

theorem rowBands_getD_length (R : List β → Nat → List β) (hR : ∀ w m, (R w m).length = m) (n : Nat) (sizes : List Nat) :
    ∀ x : List β, x.length = n → ∀ i, i < sizes.length → ((rowBands R n x sizes).getD i []).length = sizes.getD i 0 := by
  induction sizes with
  | nil => intro x _ i hi; simp at hi
  | cons s ss ih =>
    intro x hx i hi
    cases i with
    | zero => simp [rowBands, down_length R hR n s x hx]
    | succ i =>
      simp only [rowBands, List.getD_cons_succ]
      exact ih _ (subRow_length _ _ n hx (hR _ _)) i (by simpa using hi)

theorem bandsLoop_eq (R : List β → Nat → List β) (n : Nat) (sizes : List Nat) : ∀ data : List (List β),
    bandsLoop R n data sizes = (List.range sizes.length).map fun i =>
      (sizes.getD i 0, data.map fun r => (rowBands R n r sizes).getD i []) := by
  induction sizes with
  | nil => intro data; rfl
  | cons s ss ih =>
    intro data
    have h1 : bandOf R n data s = data.map (down R n s) := by
      unfold bandOf down
      split <;> simp_all
    have h2 : List.zipWith subRow data ((bandOf R n data s).map fun r => R r n) =
        data.map fun r => subRow r (R (down R n s r) n) := by
      rw [h1]
      apply List.ext_getElem
      · simp
      · intro t a b; simp
    unfold bandsLoop
    simp only []
    rw [h2, ih, h1, List.length_cons, List.range_succ_eq_map, List.map_cons, List.map_map]
    congr 1
    apply List.map_congr_left
    intro i _
    simp [rowBands, List.map_map, Function.comp_def]

/-- What remains of a row after the first bands is the row less those bands, brought back to its size. -/
theorem rowBands_spec (R : List β → Nat → List β) (hR : ∀ w m, (R w m).length = m) (n : Nat) (sizes : List Nat) :
    ∀ x : List β, x.length = n → ∀ i, i < sizes.length →
      (rowBands R n x sizes).getD i [] = down R n (sizes.getD i 0)
        (subRow x (sumRows n ((List.range i).map fun j => R ((rowBands R n x sizes).getD j []) n))) := by
  induction sizes with
  | nil => intro x _ i hi; simp at hi
  | cons s ss ih =>
    intro x hx i hi
    cases i with
    | zero =>
      simp only [rowBands, List.getD_cons_zero, List.range_zero, List.map_nil]
      congr 1
      apply getD_ext
      · rw [subRow_length _ _ n hx (sumRows_length _ _), hx]
      · intro t ht
        rw [subRow_getD _ _ n hx (sumRows_length _ _) t (by omega), sumRows_getD _ _ _ (by omega)]
        simp
    | succ i =>
      have hy := subRow_length x (R (down R n s x) n) n hx (hR _ _)
      simp only [rowBands, List.getD_cons_succ]
      rw [ih _ hy i (by simpa using hi)]
      congr 1
      apply getD_ext
      · rw [subRow_length _ _ n hy (sumRows_length _ _), subRow_length _ _ n hx (sumRows_length _ _)]
      · intro t ht
        rw [subRow_length _ _ n hy (sumRows_length _ _)] at ht
        rw [subRow_getD _ _ n hy (sumRows_length _ _) t ht, subRow_getD _ _ n hx (sumRows_length _ _) t ht,
          subRow_getD _ _ n hx (hR _ _) t ht, sumRows_getD _ _ _ ht, sumRows_getD _ _ _ ht, List.range_succ_eq_map, List.map_cons,
          List.map_map, List.map_map, List.map_cons, List.map_map, List.sum_cons]
        simp only [List.getD_cons_zero, Function.comp_def, List.getD_cons_succ]
        abel

theorem down_zero (R : List β → Nat → List β) (hz : ∀ a m, R (List.replicate a 0) m = List.replicate m 0) (n s : Nat) :
    down R n s (List.replicate n 0) = List.replicate s 0 := by
  unfold down
  split
  · exact hz _ _
  · rename_i h
    have : s = n := by omega
    rw [this]

theorem rowBands_zero (R : List β → Nat → List β) (hz : ∀ a m, R (List.replicate a 0) m = List.replicate m 0) (n : Nat)
    (sizes : List Nat) : rowBands R n (List.replicate n 0) sizes = sizes.map fun s => List.replicate s 0 := by
  induction sizes with
  | nil => rfl
  | cons s ss ih =>
    unfold rowBands
    rw [down_zero R hz, hz]
    have : subRow (List.replicate n (0 : β)) (List.replicate n 0) = List.replicate n 0 := by simp [subRow]
    rw [this, ih, List.map_cons]

/-- Once the whole remainder has been taken the bands add up to the row. -/
theorem rowBands_sum (R : List β → Nat → List β) (hR : ∀ w m, (R w m).length = m) (hid : ∀ w, R w w.length = w)
    (hz : ∀ a m, R (List.replicate a 0) m = List.replicate m 0) (n : Nat) (sizes : List Nat) :
    ∀ x : List β, x.length = n → n ∈ sizes → ∀ t, t < n → ((rowBands R n x sizes).map fun b => (R b n).getD t 0).sum = x.getD t 0 := by
  induction sizes with
  | nil => intro x _ h; simp at h
  | cons s ss ih =>
    intro x hx hmem t ht
    simp only [rowBands, List.map_cons, List.sum_cons]
    by_cases hs : s = n
    · have hd : down R n s x = x := by simp [down, hs]
      have hRx : R x n = x := by rw [← hx]; exact hid x
      have hzz : subRow x x = List.replicate n 0 := by
        apply getD_ext
        · rw [subRow_length x x n hx hx]; simp
        · intro k hk
          rw [subRow_length x x n hx hx] at hk
          rw [subRow_getD x x n hx hx k hk]
          simp [List.getD_eq_getElem?_getD, hk]
      rw [hd, hRx, hzz, rowBands_zero R hz, List.map_map]
      have : (ss.map ((fun b => (R b n).getD t 0) ∘ fun s => List.replicate s (0 : β))) = ss.map fun _ => 0 := by
        apply List.map_congr_left
        intro a _
        simp [hz, List.getD_eq_getElem?_getD, ht]
      rw [this]
      simp
    · have hmem' : n ∈ ss := by
        rcases List.mem_cons.1 hmem with h | h
        · exact absurd h.symm hs
        · exact h
      rw [ih _ (subRow_length _ _ n hx (hR _ _)) hmem' t ht, subRow_getD _ _ n hx (hR _ _) t ht]
      abel

/-! ## Frequencies -/

theorem bandsHz_ok (ny : Rat) (n : Nat) (sizes : List Nat) : ∀ (start : Rat) (bs : List (Band Rat)),
    bandsHz ny n start sizes = .ok bs ↔
      bs = edges ny n start sizes ∧ List.IsChain (· < ·) (start :: sizes.map fun s : Nat => ny * ((s : Rat) / n)) := by
  induction sizes with
  | nil => intro start bs; simp [bandsHz, edges, eq_comm]
  | cons s ss ih =>
    intro start bs
    unfold bandsHz Band.new
    simp only []
    by_cases h : ny * ((s : Rat) / n) ≤ start
    · rw [if_pos h]
      simp only [reduceCtorEq, false_iff, List.map_cons, List.isChain_cons_cons, not_and]
      intro _ h2
      exact absurd h2 (not_lt.2 h)
    · rw [if_neg h]
      simp only []
      simp only [List.map_cons, List.isChain_cons_cons, edges, List.zipWith_cons_cons]
      cases hb : bandsHz ny n (ny * ((s : Rat) / n)) ss with
      | error e =>
        simp only [reduceCtorEq, false_iff, not_and]
        intro _ _ hc
        have := (ih (ny * ((s : Rat) / n)) _).2 ⟨rfl, hc⟩
        rw [hb] at this
        cases this
      | ok bs' =>
        obtain ⟨h1, h2⟩ := (ih _ _).1 hb
        simp only [Except.ok.injEq]
        constructor
        · intro e
          exact ⟨by rw [← e, h1]; rfl, not_le.1 h, h2⟩
        · rintro ⟨e, _⟩
          rw [e, h1]; rfl

theorem bandsHz_error (ny : Rat) (n : Nat) (sizes : List Nat) : ∀ (start : Rat) (e : PyErr),
    bandsHz ny n start sizes = .error e → e = .valueError := by
  induction sizes with
  | nil => intro start e h; simp [bandsHz] at h
  | cons s ss ih =>
    intro start e h
    unfold bandsHz Band.new at h
    simp only [] at h
    split at h
    · rename_i e' h'
      split at h'
      · cases h'; cases h; rfl
      · cases h'
    · split at h
      · rename_i e' h'
        cases h
        exact ih _ _ h'
      · cases h

theorem sorted_perm (sizes : List Nat) : (sorted sizes).Perm sizes := List.perm_insertionSort _ _

theorem sorted_le (sizes : List Nat) : (sorted sizes).Pairwise (· ≤ ·) := List.pairwise_insertionSort _ _

theorem chain_iff (ny : Rat) (hny : 0 < ny) (n : Nat) (hn : 0 < n) (sizes : List Nat) :
    List.IsChain (· < ·) ((0 : Rat) :: (sorted sizes).map fun s : Nat => ny * ((s : Rat) / n)) ↔ sizes.Nodup ∧ 0 ∉ sizes := by
  have hn' : (0 : Rat) < n := by exact_mod_cast hn
  have hmono : ∀ a b : Nat, ny * ((a : Rat) / n) < ny * ((b : Rat) / n) ↔ a < b := by
    intro a b
    rw [mul_lt_mul_iff_right₀ hny, div_lt_div_iff_of_pos_right hn']
    exact Nat.cast_lt
  have h0 : (0 : Rat) = ny * (((0 : Nat) : Rat) / n) := by simp
  rw [h0, ← List.map_cons (f := fun s : Nat => ny * ((s : Rat) / n)), List.isChain_map]
  simp only [hmono]
  rw [List.isChain_iff_pairwise, List.pairwise_cons]
  have hperm := sorted_perm sizes
  have hsort := sorted_le sizes
  constructor
  · rintro ⟨h1, h2⟩
    constructor
    · exact hperm.nodup_iff.1 (h2.imp (fun h => Nat.ne_of_lt h))
    · intro hmem
      exact absurd (h1 0 (hperm.mem_iff.2 hmem)) (by omega)
  · rintro ⟨h1, h2⟩
    constructor
    · intro a ha
      have ha' := hperm.mem_iff.1 ha
      rcases Nat.eq_zero_or_pos a with h | h
      · subst h; exact absurd ha' h2
      · exact h
    · have hnd : List.Pairwise (· ≠ ·) (sorted sizes) := hperm.nodup_iff.2 h1
      exact (hsort.and hnd).imp (fun ⟨a, b⟩ => by omega)

theorem edges_length (ny : Rat) (n : Nat) (start : Rat) (sizes : List Nat) : (edges ny n start sizes).length = sizes.length := by
  simp [edges]

theorem edges_nodup (ny : Rat) (n : Nat) (start : Rat) (sizes : List Nat)
    (h : List.IsChain (· < ·) (start :: sizes.map fun s : Nat => ny * ((s : Rat) / n))) : (edges ny n start sizes).Nodup := by
  rw [List.isChain_iff_pairwise, List.pairwise_cons] at h
  have hnd : (sizes.map fun s : Nat => ny * ((s : Rat) / n)).Nodup := h.2.imp (fun h => ne_of_lt h)
  have : (edges ny n start sizes).map Band.stop = sizes.map fun s : Nat => ny * ((s : Rat) / n) := by
    apply List.ext_getElem
    · simp [edges]
    · intro i h1 h2
      simp [edges]
  rw [← this] at hnd
  exact List.Nodup.of_map _ hnd

theorem newExplicit_edges (ny : Rat) (n : Nat) (sizes : List Nat) (hne : sizes ≠ [])
    (h : List.IsChain (· < ·) ((0 : Rat) :: sizes.map fun s : Nat => ny * ((s : Rat) / n))) :
    newExplicit (edges ny n 0 sizes) = .ok (.explicit (edges ny n 0 sizes)) := by
  unfold newExplicit
  have : ∃ b, spanOf (edges ny n 0 sizes) = .ok b := by
    match hs : sizes, hne with
    | s :: ss, _ =>
      have hpos : edges ny n 0 (s :: ss) ≠ [] := by simp [edges]
      have hl : (edges ny n 0 (s :: ss)).getLast hpos ∈ edges ny n 0 (s :: ss) := List.getLast_mem hpos
      have hstop : ((edges ny n 0 (s :: ss)).getLast hpos).stop ∈ (s :: ss).map fun s : Nat => ny * ((s : Rat) / n) := by
        obtain ⟨i, hi, he⟩ := List.getElem_of_mem hl
        rw [← he]
        simp only [edges, List.getElem_zipWith]
        exact List.getElem_mem _
      rw [List.isChain_iff_pairwise, List.pairwise_cons] at h
      have hlt := h.1 _ hstop
      unfold spanOf
      rw [List.getLast?_eq_some_getLast hpos]
      have hh : (edges ny n 0 (s :: ss)).head? = some ⟨0, ny * ((s : Rat) / n)⟩ := by simp [edges]
      rw [hh]
      simp only []
      unfold Band.new
      exact ⟨_, if_neg (not_le.2 hlt)⟩
  obtain ⟨b, hb⟩ := this
  rw [hb]

/-! ## The property -/

theorem sorted_ne_nil (sizes : List Nat) (hne : sizes ≠ []) : (sorted sizes) ≠ [] := by
  intro h
  apply hne
  have := (sorted_perm sizes).length_eq
  rw [h] at this
  simpa using this.symm

theorem decomposition_eq (X : NumExt Rat) (R : List β → Nat → List β) (hR : ∀ w m, (R w m).length = m) (ny : Rat) (hny : 0 < ny)
    (n : Nat) (hn : 0 < n) (rows : List (List β)) (hrows : ∀ r ∈ rows, r.length = n) (sizes : List Nat) (hne : sizes ≠ [])
    (hnd : sizes.Nodup) (h0 : 0 ∉ sizes) :
    ∃ fa, frequencyDecomposition X R ny n rows sizes = .ok fa ∧ fa.dim.scale = .explicit (edges ny n 0 (sorted sizes)) ∧
      fa.rows.length = rows.length ∧
      ∀ i (h : i < (edges ny n 0 (sorted sizes)).length),
        fa.getBand X (edges ny n 0 (sorted sizes))[i] = .ok (rows.map fun r => (rowBands R n r (sorted sizes)).getD i []) := by
  have hch := (chain_iff ny hny n hn sizes).2 ⟨hnd, h0⟩
  have hne' := sorted_ne_nil sizes hne
  set ss := (sorted sizes) with hss
  have hlen : (edges ny n 0 ss).length = (bandsLoop R n rows ss).length := by rw [edges_length, bandsLoop_eq]; simp
  have hB : Bands rows.length (bandsLoop R n rows ss) := by
    rw [bandsLoop_eq]
    refine ⟨?_, ?_, ?_⟩
    · have : 0 < ss.length := List.length_pos_of_ne_nil hne'
      intro hc
      have hc' := congrArg List.length hc
      rw [List.length_map, List.length_range, List.length_nil] at hc'
      omega
    · intro a ha
      obtain ⟨i, _, rfl⟩ := List.mem_map.1 ha
      simp
    · intro a ha r hr
      obtain ⟨i, hi, rfl⟩ := List.mem_map.1 ha
      obtain ⟨r', hr', rfl⟩ := List.mem_map.1 hr
      exact rowBands_getD_length R hR n ss r' (hrows r' hr') i (List.mem_range.1 hi)
  have hS : ScaleOk X (.explicit (edges ny n 0 ss)) (edges ny n 0 ss) := ⟨rfl, rfl, edges_nodup ny n 0 ss hch⟩
  obtain ⟨fa, h1, h2⟩ := C24_get_band X rows.length _ hB _ _ hS hlen
  have h3 := new_eq X rows.length _ hB _ _ hS hlen
  rw [h1] at h3
  refine ⟨fa, ?_, ?_, ?_, ?_⟩
  · unfold frequencyDecomposition
    simp only []
    rw [if_neg (by omega), ← hss, (bandsHz_ok ny n ss 0 _).2 ⟨rfl, hch⟩]
    simp only [newExplicit_edges ny n ss hne' hch, h1]
  · cases h3; rfl
  · cases h3; simp
  · intro i h
    rw [h2 i h (by omega)]
    congr 1
    simp only [bandsLoop_eq, List.getElem_map, List.getElem_range]

/-- **C59, the bands**: decomposing windows of `n` samples into bands of different positive sizes gives, in increasing order of size,
one band per size, with a number of samples of that size per window, spanning the frequencies from the previous size's share of the
Nyquist frequency to its own, each the resampled remainder (the remainder itself for size `n`) of the window once the bands below
it, brought back to `n` samples, have been taken away. -/
theorem C59_bands (X : NumExt Rat) (R : List β → Nat → List β) (hR : ∀ w m, (R w m).length = m) (ny : Rat) (hny : 0 < ny)
    (n : Nat) (hn : 0 < n) (rows : List (List β)) (hrows : ∀ r ∈ rows, r.length = n) (sizes : List Nat) (hne : sizes ≠ [])
    (hnd : sizes.Nodup) (h0 : 0 ∉ sizes) :
    ∃ fa ss, frequencyDecomposition X R ny n rows sizes = .ok fa ∧ ss.Perm sizes ∧ ss.Pairwise (· < ·) ∧
      fa.dim.scale = .explicit (edges ny n 0 ss) ∧
      ∃ band : Nat → Nat → List β, ∀ i (h : i < (edges ny n 0 ss).length), i < ss.length ∧
        fa.getBand X (edges ny n 0 ss)[i] = .ok ((List.range rows.length).map (band i)) ∧
        ∀ t, t < rows.length → (band i t).length = ss.getD i 0 ∧
          band i t = if ss.getD i 0 = n then subRow (rows.getD t []) (sumRows n ((List.range i).map fun j => R (band j t) n))
            else R (subRow (rows.getD t []) (sumRows n ((List.range i).map fun j => R (band j t) n))) (ss.getD i 0) := by
  obtain ⟨fa, h1, h2, _, h3⟩ := decomposition_eq X R hR ny hny n hn rows hrows sizes hne hnd h0
  have hperm := sorted_perm sizes
  refine ⟨fa, (sorted sizes), h1, hperm, ?_, h2, fun i t => (rowBands R n (rows.getD t []) (sorted sizes)).getD i [], ?_⟩
  · have hsort := sorted_le sizes
    have hnd' : List.Pairwise (· ≠ ·) (sorted sizes) := hperm.nodup_iff.2 hnd
    exact (hsort.and hnd').imp (fun ⟨a, b⟩ => by omega)
  · intro i h
    have hi : i < (sorted sizes).length := by simpa [edges_length] using h
    refine ⟨hi, ?_, ?_⟩
    · rw [h3 i h]
      congr 1
      apply List.ext_getElem
      · simp
      · intro t a b
        simp only [List.length_map] at a
        simp [List.getD_eq_getElem?_getD, a]
    · intro t ht
      have hx := getD_length rows n hrows t ht
      refine ⟨rowBands_getD_length R hR n _ _ hx i hi, ?_⟩
      have hs := rowBands_spec R hR n _ _ hx i hi
      unfold down at hs
      simp only [ite_not] at hs
      exact hs

/-- **C59, refusals**: exactly the decompositions into no bands, into an empty band or into two bands of the same size are refused. -/
theorem C59_refused (X : NumExt Rat) (R : List β → Nat → List β) (hR : ∀ w m, (R w m).length = m) (ny : Rat) (hny : 0 < ny)
    (n : Nat) (hn : 0 < n) (rows : List (List β)) (hrows : ∀ r ∈ rows, r.length = n) (sizes : List Nat) :
    (frequencyDecomposition X R ny n rows [] = .error .indexError) ∧
    (sizes ≠ [] → (frequencyDecomposition X R ny n rows sizes = .error .valueError ↔ ¬ sizes.Nodup ∨ 0 ∈ sizes)) := by
  constructor
  · unfold frequencyDecomposition
    simp [sorted, bandsHz, newExplicit, spanOf]
  · intro hne
    constructor
    · intro h
      by_contra hc
      rw [not_or, not_not] at hc
      obtain ⟨fa, h1, _⟩ := decomposition_eq X R hR ny hny n hn rows hrows sizes hne hc.1 hc.2
      rw [h1] at h
      cases h
    · intro h
      unfold frequencyDecomposition
      simp only []
      rw [if_neg (by omega)]
      cases hb : bandsHz ny n 0 (sorted sizes) with
      | error e => rw [bandsHz_error _ _ _ _ _ hb]
      | ok bs =>
        exfalso
        have := (chain_iff ny hny n hn sizes).1 ((bandsHz_ok _ _ _ _ _).1 hb).2
        tauto

/-! ## Synthesis -/

/-- Specification: is band `i` among the chosen ones?  None given, or an empty list, chooses all. -/
def Chosen (chosen : Option (List Nat)) (i : Nat) : Prop := chosen = none ∨ chosen = some [] ∨ ∃ l, chosen = some l ∧ i ∈ l

instance (chosen : Option (List Nat)) (i : Nat) : Decidable (Chosen chosen i) :=
  match chosen with
  | none => .isTrue (.inl rfl)
  | some [] => .isTrue (.inr (.inl rfl))
  | some (a :: l) => if h : i ∈ a :: l then .isTrue (.inr (.inr ⟨_, rfl, h⟩)) else .isFalse (by
      rintro (h1 | h1 | ⟨l', h1, h2⟩)
      · cases h1
      · cases h1
      · cases h1; exact h h2)

theorem skip_iff (chosen : Option (List Nat)) (i : Nat) :
    skips chosen i = decide (¬ Chosen chosen i) := by
  match chosen with
  | none => simp [skips, Chosen]
  | some [] => simp [skips, Chosen]
  | some (a :: l) => simp [skips, Chosen]

theorem synthLoop_eq (X : NumExt Rat) (R : List β → Nat → List β) (hR : ∀ w m, (R w m).length = m) (n : Nat)
    (fa : FreqAdaptive Rat β) (chosen : Option (List Nat)) (T : Nat) (band : Nat → Nat → List β) (bs : List (Band Rat)) :
    ∀ (i : Nat) (out : List (List β)), out.length = T → (∀ r ∈ out, r.length = n) →
      (∀ k (h : k < bs.length), fa.getBand X bs[k] = .ok ((List.range T).map (band (i + k)))) →
      ∃ res, synthLoop X R n fa chosen i bs out = .ok res ∧ res.length = T ∧ (∀ r ∈ res, r.length = n) ∧
        ∀ t, t < T → ∀ k, k < n → (res.getD t []).getD k 0 = (out.getD t []).getD k 0 +
          ((List.range bs.length).map fun j => if Chosen chosen (i + j) then (R (band (i + j) t) n).getD k 0 else 0).sum := by
  induction bs with
  | nil => intro i out h1 h2 _; exact ⟨out, rfl, h1, h2, by intro t _ k _; simp⟩
  | cons b bs ih =>
    intro i out h1 h2 h3
    have hnext : ∀ k (h : k < bs.length), fa.getBand X bs[k] = .ok ((List.range T).map (band (i + 1 + k))) := by
      intro k h
      have := h3 (k + 1) (by simpa using h)
      rw [List.getElem_cons_succ] at this
      rw [this]
      congr 3
      omega
    have hsum : ∀ t k, ((List.range (b :: bs).length).map fun j => if Chosen chosen (i + j) then (R (band (i + j) t) n).getD k 0 else 0).sum =
        (if Chosen chosen i then (R (band i t) n).getD k 0 else 0) +
          ((List.range bs.length).map fun j => if Chosen chosen (i + 1 + j) then (R (band (i + 1 + j) t) n).getD k 0 else 0).sum := by
      intro t k
      rw [List.length_cons, List.range_succ_eq_map, List.map_cons, List.map_map, List.sum_cons]
      congr 2
      apply List.map_congr_left
      intro j _
      have : i + j.succ = i + 1 + j := by omega
      simp only [Function.comp_def, this]
    unfold synthLoop
    rw [skip_iff]
    by_cases hc : Chosen chosen i
    · rw [if_neg (by simpa using hc)]
      have hb := h3 0 (by simp)
      rw [List.getElem_cons_zero, Nat.add_zero] at hb
      simp only [hb]
      obtain ⟨res, r1, r2, r3, r4⟩ := ih (i + 1) (List.zipWith addRow out (((List.range T).map (band i)).map fun r => R r n))
        (by simp [h1]) (by
          intro r hr
          obtain ⟨k, hk, rfl⟩ := List.getElem_of_mem hr
          rw [List.getElem_zipWith]
          exact addRow_length _ _ n (h2 _ (List.getElem_mem _)) (by rw [List.getElem_map]; exact hR _ _)) hnext
      refine ⟨res, r1, r2, r3, ?_⟩
      intro t ht k hk
      rw [r4 t ht k hk, hsum, if_pos hc]
      have hz : (List.zipWith addRow out (((List.range T).map (band i)).map fun r => R r n)).getD t [] =
          addRow (out.getD t []) (R (band i t) n) := by
        have : t < out.length := by omega
        simp [List.getD_eq_getElem?_getD, List.getElem?_zipWith, ht, this]
      rw [hz, addRow_getD _ _ n (getD_length out n h2 t (by omega)) (hR _ _) k hk, add_assoc]
    · rw [if_pos (by simpa using hc)]
      obtain ⟨res, r1, r2, r3, r4⟩ := ih (i + 1) out h1 h2 hnext
      refine ⟨res, r1, r2, r3, ?_⟩
      intro t ht k hk
      rw [r4 t ht k hk, hsum, if_neg hc, zero_add]

/-- **C59, synthesis**: synthesizing chosen bands (all of them when no list, or an empty one, is given) gives the sum of those bands
brought to the output size. -/
theorem C59_synthesis (X : NumExt Rat) (R : List β → Nat → List β) (hR : ∀ w m, (R w m).length = m) (n : Nat)
    (fa : FreqAdaptive Rat β) (chosen : Option (List Nat)) (bs : List (Band Rat)) (hbs : fa.dim.scale.bands X = .ok bs)
    (band : Nat → Nat → List β) (hband : ∀ i (h : i < bs.length), fa.getBand X bs[i] = .ok ((List.range fa.rows.length).map (band i))) :
    synthesize X R n fa chosen = .ok ((List.range fa.rows.length).map fun t =>
      sumRows n (((List.range bs.length).filter fun i => decide (Chosen chosen i)).map fun i => R (band i t) n)) := by
  unfold synthesize
  rw [hbs]
  simp only []
  obtain ⟨res, r1, r2, r3, r4⟩ := synthLoop_eq X R hR n fa chosen fa.rows.length band bs 0
    (fa.rows.map fun _ => List.replicate n 0) (by simp) (by intro r hr; obtain ⟨_, _, rfl⟩ := List.mem_map.1 hr; simp)
    (by intro k h; rw [hband k h, Nat.zero_add])
  rw [r1]
  congr 1
  apply List.ext_getElem
  · simp [r2]
  · intro t a b
    have ht : t < fa.rows.length := by omega
    rw [List.getElem_map, List.getElem_range]
    have hr : res[t] = res.getD t [] := by simp [List.getD_eq_getElem?_getD, a]
    apply getD_ext
    · rw [sumRows_length]; exact r3 _ (List.getElem_mem a)
    · intro k hk
      have hkn : k < n := by rw [r3 _ (List.getElem_mem a)] at hk; exact hk
      rw [hr, r4 t ht k hkn, sumRows_getD _ _ _ hkn]
      have h0 : ((fa.rows.map fun _ => List.replicate n (0 : β)).getD t []).getD k 0 = 0 := by
        simp [List.getD_eq_getElem?_getD, ht, hkn]
      rw [h0, zero_add]
      simp only [Nat.zero_add]
      generalize List.range bs.length = l
      induction l with
      | nil => rfl
      | cons i l ih =>
        rw [List.map_cons, List.sum_cons, ih, List.filter_cons]
        by_cases hc : Chosen chosen i
        · simp [hc]
        · simp [hc]

/-- **C59, reconstruction**: when one of the sizes is the windows' own, the decomposition is undone by synthesizing all the bands. -/
theorem C59_reconstruct (X : NumExt Rat) (R : List β → Nat → List β) (hR : ∀ w m, (R w m).length = m) (hid : ∀ w, R w w.length = w)
    (hz : ∀ a m, R (List.replicate a 0) m = List.replicate m 0) (ny : Rat) (hny : 0 < ny) (n : Nat) (hn : 0 < n)
    (rows : List (List β)) (hrows : ∀ r ∈ rows, r.length = n) (sizes : List Nat) (hnd : sizes.Nodup) (h0 : 0 ∉ sizes) (hmem : n ∈ sizes) :
    ∃ fa, frequencyDecomposition X R ny n rows sizes = .ok fa ∧ synthesize X R n fa none = .ok rows := by
  have hne : sizes ≠ [] := List.ne_nil_of_mem hmem
  obtain ⟨fa, h1, h2, h2', h3⟩ := decomposition_eq X R hR ny hny n hn rows hrows sizes hne hnd h0
  refine ⟨fa, h1, ?_⟩
  rw [C59_synthesis X R hR n fa none (edges ny n 0 (sorted sizes)) (by rw [h2]; rfl)
    (fun i t => (rowBands R n (rows.getD t []) (sorted sizes)).getD i []) (by
      intro i h
      rw [h3 i h, h2']
      congr 1
      apply List.ext_getElem
      · simp
      · intro t a b
        simp only [List.length_map] at a
        simp [List.getD_eq_getElem?_getD, a])]
  congr 1
  apply List.ext_getElem
  · simp [h2']
  · intro t a b
    rw [List.getElem_map, List.getElem_range]
    have hr : rows.getD t [] = rows[t] := by simp [List.getD_eq_getElem?_getD, b]
    have hx : (rows[t]).length = n := hrows _ (List.getElem_mem b)
    apply getD_ext
    · rw [sumRows_length, hx]
    · intro k hk
      rw [sumRows_length] at hk
      rw [sumRows_getD _ _ _ hk, List.map_map]
      have hall : ((List.range (edges ny n 0 (sorted sizes)).length).filter fun i => decide (Chosen none i)) =
          List.range (edges ny n 0 (sorted sizes)).length := by
        rw [List.filter_eq_self]
        intro i _
        simp [Chosen]
      rw [hall, edges_length, hr]
      have hmem' : n ∈ (sorted sizes) := (sorted_perm sizes).mem_iff.2 hmem
      rw [← rowBands_sum R hR hid hz n (sorted sizes) rows[t] hx hmem' k hk]
      congr 1
      apply List.ext_getElem
      · simp [rowBands_length]
      · intro j a1 a2
        have hj : j < (rowBands R n rows[t] (sorted sizes)).length := by simpa using a2
        simp [List.getD_eq_getElem?_getD, hj]

/-! ## Bands do not repeat one another -/

theorem rowBands_disjoint (R : List β → Nat → List β) (hR : ∀ w m, (R w m).length = m) (n : Nat)
    (hsub : ∀ a b m, a.length = b.length → R (subRow a b) m = subRow (R a m) (R b m))
    (hcomp : ∀ x k m, m ≤ k → R (R x k) m = R x m) (m : Nat) (hm : m ≤ n) (sizes : List Nat) :
    (∀ s ∈ sizes, m ≤ s) → ∀ x : List β, x.length = n → R x m = List.replicate m 0 →
      ∀ b ∈ rowBands R n x sizes, R b m = List.replicate m 0 := by
  induction sizes with
  | nil => intro _ x _ _ b hb; simp [rowBands] at hb
  | cons s ss ih =>
    intro hs x hx h0 b hb
    have hd : R (down R n s x) m = List.replicate m 0 := by
      unfold down
      split
      · rw [hcomp _ _ _ (hs s (by simp)), h0]
      · exact h0
    simp only [rowBands, List.mem_cons] at hb
    rcases hb with rfl | hb
    · exact hd
    · refine ih (fun s' h => hs s' (by simp [h])) _ (subRow_length _ _ n hx (hR _ _)) ?_ b hb
      rw [hsub _ _ _ (by rw [hx, hR]), h0, hcomp _ _ _ hm, hd]
      simp [subRow]

/-- **C59, no content is held twice**: with a resampler that is linear and, like a band limited one, forgets nothing but what a
smaller number of samples cannot hold, the bands above a band contain nothing of what that band can hold. -/
theorem C59_disjoint (X : NumExt Rat) (R : List β → Nat → List β) (hR : ∀ w m, (R w m).length = m) (hid : ∀ w, R w w.length = w)
    (hsub : ∀ a b m, a.length = b.length → R (subRow a b) m = subRow (R a m) (R b m))
    (hcomp : ∀ x k m, m ≤ k → R (R x k) m = R x m) (ny : Rat) (hny : 0 < ny) (n : Nat) (hn : 0 < n)
    (rows : List (List β)) (hrows : ∀ r ∈ rows, r.length = n) (sizes : List Nat) (hne : sizes ≠ [])
    (hnd : sizes.Nodup) (h0 : 0 ∉ sizes) (hle : ∀ s ∈ sizes, s ≤ n) :
    ∃ fa bs, frequencyDecomposition X R ny n rows sizes = .ok fa ∧ fa.dim.scale = .explicit bs ∧
      ∀ i j, i < j → (hj : j < bs.length) → (hi : i < bs.length) →
        ∃ low high, fa.getBand X bs[i] = .ok low ∧ fa.getBand X bs[j] = .ok high ∧ low.length = rows.length ∧
        high.length = rows.length ∧ ∀ a ∈ low, ∀ b ∈ high, R b a.length = List.replicate a.length 0 := by
  obtain ⟨fa, h1, h2, _, h3⟩ := decomposition_eq X R hR ny hny n hn rows hrows sizes hne hnd h0
  refine ⟨fa, _, h1, h2, ?_⟩
  intro i j hij hj hi
  refine ⟨_, _, h3 i hi, h3 j hj, by simp, by simp, ?_⟩
  have hi' : i < (sorted sizes).length := by simpa [edges_length] using hi
  have hj' : j < (sorted sizes).length := by simpa [edges_length] using hj
  have hperm := sorted_perm sizes
  have hsort := sorted_le sizes
  intro a ha b hb
  obtain ⟨r, hr, rfl⟩ := List.mem_map.1 ha
  obtain ⟨r', hr', rfl⟩ := List.mem_map.1 hb
  rw [rowBands_getD_length R hR n _ r (hrows r hr) i hi']
  have hle' : ∀ s ∈ (sorted sizes), s ≤ n := fun s hs => hle s (hperm.mem_iff.1 hs)
  revert hi' hj' hsort hle' hij
  have hx := hrows r' hr'
  clear hr' hr ha hb hrows h1 h2 h3 hi hj
  generalize sorted sizes = ss
  intro hij hi' hj' hsort hle'
  induction ss generalizing i j r' with
  | nil => simp at hi'
  | cons s ss ih =>
    rw [List.pairwise_cons] at hsort
    cases i with
    | succ i =>
      cases j with
      | zero => omega
      | succ j =>
        simp only [rowBands, List.getD_cons_succ]
        exact ih i j _ (subRow_length _ _ n hx (hR _ _)) (by omega) (by simpa using hi') (by simpa using hj') hsort.2
          (fun s' h => hle' s' (by simp [h]))
    | zero =>
      cases j with
      | zero => omega
      | succ j =>
        simp only [rowBands, List.getD_cons_succ, List.getD_cons_zero]
        have hsn : s ≤ n := hle' s (by simp)
        have hmem : (rowBands R n (subRow r' (R (down R n s r') n)) ss).getD j [] ∈
            rowBands R n (subRow r' (R (down R n s r') n)) ss := by
          have : j < (rowBands R n (subRow r' (R (down R n s r') n)) ss).length := by
            rw [rowBands_length]; simpa using hj'
          rw [List.getD_eq_getElem?_getD, List.getElem?_eq_getElem this]
          exact List.getElem_mem this
        refine rowBands_disjoint R hR n hsub hcomp s hsn ss hsort.1 _ (subRow_length _ _ n hx (hR _ _)) ?_ _ hmem
        rw [hsub _ _ _ (by rw [hx, hR]), hcomp _ _ _ hsn]
        have hd : R (down R n s r') s = R r' s := by
          unfold down
          split
          · exact hcomp _ _ _ (Nat.le_refl _)
          · rfl
        rw [hd]
        apply getD_ext
        · rw [subRow_length _ _ s (hR _ _) (hR _ _)]; simp
        · intro k hk
          rw [subRow_length _ _ s (hR _ _) (hR _ _)] at hk
          rw [subRow_getD _ _ s (hR _ _) (hR _ _) k hk]
          simp [List.getD_eq_getElem?_getD, hk]

/-! ## Concrete cases -/

/-- A resampler for the examples: cut or fill with zeros. -/
def cutOrFill (w : List Int) (m : Nat) : List Int := (List.range m).map fun k => w.getD k 0

theorem cutOrFill_length (w : List Int) (m : Nat) : (cutOrFill w m).length = m := by simp [cutOrFill]

theorem cutOrFill_getD (w : List Int) (m k : Nat) : (cutOrFill w m).getD k 0 = if k < m then w.getD k 0 else 0 := by
  by_cases h : k < m
  · simp [cutOrFill, List.getD_eq_getElem?_getD, h]
  · simp [cutOrFill, List.getD_eq_getElem?_getD, h]

/-- The hypotheses of the theorems hold of that resampler. -/
theorem cutOrFill_laws : (∀ w m, (cutOrFill w m).length = m) ∧ (∀ w, cutOrFill w w.length = w) ∧
    (∀ a m, cutOrFill (List.replicate a 0) m = List.replicate m 0) ∧
    (∀ a b m, a.length = b.length → cutOrFill (subRow a b) m = subRow (cutOrFill a m) (cutOrFill b m)) ∧
    (∀ x k m, m ≤ k → cutOrFill (cutOrFill x k) m = cutOrFill x m) := by
  refine ⟨cutOrFill_length, ?_, ?_, ?_, ?_⟩
  · intro w
    apply getD_ext (cutOrFill_length _ _)
    intro t ht
    rw [cutOrFill_length] at ht
    rw [cutOrFill_getD, if_pos ht]
  · intro a m
    apply getD_ext (by simp [cutOrFill])
    intro t ht
    rw [cutOrFill_length] at ht
    rw [cutOrFill_getD, if_pos ht]
    simp [List.getD_eq_getElem?_getD, List.getElem?_replicate, ht]
    split <;> rfl
  · intro a b m h
    apply getD_ext (by rw [subRow_length _ _ m (cutOrFill_length _ _) (cutOrFill_length _ _), cutOrFill_length])
    intro t ht
    rw [cutOrFill_length] at ht
    rw [subRow_getD _ _ m (cutOrFill_length _ _) (cutOrFill_length _ _) t ht, cutOrFill_getD, cutOrFill_getD, cutOrFill_getD,
      if_pos ht, if_pos ht, if_pos ht]
    by_cases hk : t < a.length
    · exact subRow_getD a b a.length rfl h.symm t hk
    · have : (subRow a b).length = a.length := subRow_length a b a.length rfl h.symm
      simp [List.getD_eq_getElem?_getD, List.getElem?_eq_none (Nat.le_of_not_lt hk), List.getElem?_eq_none (h ▸ Nat.le_of_not_lt hk : b.length ≤ t),
        List.getElem?_eq_none (by omega : (subRow a b).length ≤ t)]
  · intro x k m h
    apply getD_ext (by rw [cutOrFill_length, cutOrFill_length])
    intro t ht
    rw [cutOrFill_length] at ht
    rw [cutOrFill_getD, cutOrFill_getD, cutOrFill_getD, if_pos ht, if_pos ht, if_pos (by omega)]

/-- Two windows of four samples at 11025 Hz cut into bands of 1, 2 and 4 samples. -/
example : (match frequencyDecomposition Zounds.Props.Frequency.noExt cutOrFill 5512 4 [[1, 2, 3, 4], [5, 6, 7, 8]] [2, 4, 1] with
    | .ok fa => (fa.rows, fa.dim.slices) | .error _ => ([], [])) =
      ([[1, 0, 2, 0, 0, 3, 4], [5, 0, 6, 0, 0, 7, 8]], [(0, 1), (1, 3), (3, 7)]) := by decide +kernel

/-- Without a band of the windows' own size the rest of the sound is lost. -/
theorem C59_reconstruct_refuted :
    (match frequencyDecomposition Zounds.Props.Frequency.noExt cutOrFill 5512 4 [[1, 2, 3, 4]] [1, 2] with
      | .ok fa => synthesize Zounds.Props.Frequency.noExt cutOrFill 4 fa none | .error e => .error e) = .ok [[1, 2, 0, 0]] := by decide +kernel

example := C59_bands Zounds.Props.Frequency.noExt cutOrFill cutOrFill_length 5512 (by norm_num) 4 (by norm_num) [[1, 2, 3, 4], [5, 6, 7, 8]] (by simp) [2, 4, 1] (by simp) (by decide) (by simp)
example := (C59_refused Zounds.Props.Frequency.noExt cutOrFill cutOrFill_length 5512 (by norm_num) 4 (by norm_num) [[1, 2, 3, 4], [5, 6, 7, 8]] (by simp) [2, 2]).2 (by simp)
example := C59_reconstruct Zounds.Props.Frequency.noExt cutOrFill cutOrFill_length cutOrFill_laws.2.1 cutOrFill_laws.2.2.1 5512 (by norm_num) 4 (by norm_num) [[1, 2, 3, 4], [5, 6, 7, 8]] (by simp)
  [2, 4, 1] (by decide) (by simp) (by simp)
example := C59_disjoint Zounds.Props.Frequency.noExt cutOrFill cutOrFill_length cutOrFill_laws.2.1 cutOrFill_laws.2.2.2.1 cutOrFill_laws.2.2.2.2 5512 (by norm_num) 4 (by norm_num)
  [[1, 2, 3, 4], [5, 6, 7, 8]] (by simp) [2, 4, 1] (by simp) (by decide) (by simp) (by decide)

end Zounds.Decompose
