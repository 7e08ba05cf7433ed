import Verif.Props.Frequency
/-!
# Property C24: frequency-adaptive representations
-/

set_option linter.unusedSectionVars false

namespace Zounds.Props.FreqAdaptive
open Zounds Zounds.Freq Zounds.Props.Frequency

variable {α : Type} [Field α] [LinearOrder α] {β : Type}

/-- Per-band arrays as `np.concatenate(axis=1)` needs them: `T` rows each, every row of
band `i` as wide as the band. -/
structure Bands (T : Nat) (arrs : List (Nat × List (List β))) : Prop where
  nonempty : arrs ≠ []
  height : ∀ a ∈ arrs, a.2.length = T
  width : ∀ a ∈ arrs, ∀ r ∈ a.2, r.length = a.1

theorem cumSlices_length (s : Nat) (ns : List Nat) : (cumSlices s ns).length = ns.length := by
  induction ns generalizing s with
  | nil => rfl
  | cons n ns ih => simp [cumSlices, ih]

theorem cumSlices_get (ns : List Nat) : ∀ (s i : Nat) (h : i < (cumSlices s ns).length),
    (cumSlices s ns)[i] = (((s + (ns.take i).sum : Nat) : Int), ((s + (ns.take (i + 1)).sum : Nat) : Int)) := by
  induction ns with
  | nil => intro s i h; simp [cumSlices] at h
  | cons n ns ih =>
    intro s i h
    cases i with
    | zero => simp [cumSlices]
    | succ i =>
      simp only [cumSlices, List.getElem_cons_succ]
      rw [ih]
      simp only [List.take_succ_cons, List.sum_cons]
      congr 2 <;> omega

/-- **C24.** The slices of a frequency-adaptive array start at zero, follow each other
without gap or overlap, are as wide as the bands, and end at the array's width. -/
theorem C24_contiguous (ns : List Nat) :
    (cumSlices 0 ns).length = ns.length ∧
    (∀ h : 0 < (cumSlices 0 ns).length, (cumSlices 0 ns)[0].1 = 0) ∧
    (∀ i (h : i + 1 < (cumSlices 0 ns).length), (cumSlices 0 ns)[i].2 = (cumSlices 0 ns)[i + 1].1) ∧
    (∀ i (h : i < (cumSlices 0 ns).length) (h' : i < ns.length),
      (cumSlices 0 ns)[i].2 = (cumSlices 0 ns)[i].1 + (ns[i] : Int)) ∧
    (∀ l, (cumSlices 0 ns).getLast? = some l → l.2 = (ns.sum : Nat)) := by
  have hlen := cumSlices_length 0 ns
  refine ⟨hlen, ?_, ?_, ?_, ?_⟩
  · intro h; rw [cumSlices_get]; simp
  · intro i h; rw [cumSlices_get, cumSlices_get]
  · intro i h h'
    rw [cumSlices_get]
    simp only [List.take_add_one, List.getElem?_eq_getElem h', Option.toList_some, List.sum_append,
      List.sum_cons, List.sum_nil]
    omega
  · intro l hl
    rw [List.getLast?_eq_getElem?] at hl
    obtain ⟨h, rfl⟩ := List.getElem?_eq_some_iff.1 hl
    rw [cumSlices_get]
    have : (cumSlices 0 ns).length - 1 + 1 = ns.length := by omega
    rw [this, List.take_length]
    simp

theorem pySlice_nat {γ : Type} (l : List γ) (a b : Nat) :
    pySlice l (a : Int) (b : Int) = (l.take b).drop a := by
  unfold pySlice pyBound
  rw [if_neg (by omega), if_neg (by omega)]
  simp only [Int.toNat_natCast]
  apply List.ext_getElem
  · simp; omega
  · intro k h1 h2
    simp only [List.length_drop, List.length_take] at h1 h2
    simp only [List.getElem_drop, List.getElem_take]
    congr 1
    omega

theorem getD_lt {γ : Type} (l : List (List γ)) (t : Nat) (h : t < l.length) : l.getD t [] = l[t] := by
  rw [List.getD_eq_getElem?_getD, List.getElem?_eq_getElem h]; rfl

/-- Cutting a concatenation at the cumulative lengths gives back the pieces. -/
theorem flatten_slice {γ : Type} (xs : List (List γ)) (i : Nat) (h : i < xs.length) :
    (xs.flatten.take (((xs.take (i + 1)).map List.length).sum)).drop (((xs.take i).map List.length).sum) =
      xs[i] := by
  have hlen : ∀ ys : List (List γ), (ys.map List.length).sum = ys.flatten.length := by
    intro ys; rw [List.length_flatten]
  rw [hlen, hlen]
  have hsplit : xs.flatten = (xs.take (i + 1)).flatten ++ (xs.drop (i + 1)).flatten := by
    rw [← List.flatten_append, List.take_append_drop]
  rw [hsplit, List.take_left' rfl]
  rw [List.take_add_one, List.getElem?_eq_getElem h, Option.toList_some, List.flatten_append,
    List.drop_left' rfl]
  simp

/-- The scale's bands are as many as it claims (all scale classes of the library; see
`C21_linear_tiles`), pairwise different. -/
structure ScaleOk (X : NumExt α) (s : Scale α) (bs : List (Band α)) : Prop where
  bands : s.bands X = .ok bs
  len : s.len = bs.length
  nodup : bs.Nodup

theorem new_eq (X : NumExt α) (T : Nat) (arrs : List (Nat × List (List β))) (ha : Bands T arrs)
    (s : Scale α) (bs : List (Band α)) (hs : ScaleOk X s bs) (hlen : bs.length = arrs.length) :
    FreqAdaptive.new X arrs s = .ok ⟨(arrs.map Prod.fst).sum,
      (List.range T).map (fun t => (arrs.map fun a => a.2.getD t []).flatten),
      ⟨s, cumSlices 0 (arrs.map Prod.fst), true⟩⟩ := by
  unfold FreqAdaptive.new
  have h1 : ExplicitDim.new X s (cumSlices 0 (arrs.map Prod.fst)) true =
      .ok ⟨s, cumSlices 0 (arrs.map Prod.fst), true⟩ := by
    unfold ExplicitDim.new
    rw [if_neg]
    · simp only [hs.bands]
    · rw [cumSlices_length, List.length_map, hs.len, hlen]; simp
  rw [h1]
  dsimp only
  match arrs, ha with
  | [], ha => exact absurd rfl ha.nonempty
  | (w, first) :: rest, ha =>
    dsimp only
    have hf : first.length = T := ha.height (w, first) (by simp)
    rw [if_pos]
    · rw [hf]
    · rw [List.all_eq_true]
      intro a h
      rw [decide_eq_true_eq, hf]
      exact ha.height a h

/-- **C24.** Slicing a frequency-adaptive array by one of its bands returns exactly the
array of coefficients given for that band. -/
theorem C24_get_band (X : NumExt α) (T : Nat) (arrs : List (Nat × List (List β))) (ha : Bands T arrs)
    (s : Scale α) (bs : List (Band α)) (hs : ScaleOk X s bs) (hlen : bs.length = arrs.length) :
    ∃ fa, FreqAdaptive.new X arrs s = .ok fa ∧
      ∀ i (h : i < bs.length) (h' : i < arrs.length), fa.getBand X bs[i] = .ok arrs[i].2 := by
  refine ⟨_, new_eq X T arrs ha s bs hs hlen, ?_⟩
  intro i h h'
  have hcl : i < (cumSlices 0 (arrs.map Prod.fst)).length := by
    rw [cumSlices_length, List.length_map]; exact h'
  have hlook := find_zip_reverse bs (cumSlices 0 (arrs.map Prod.fst)) hs.nodup i h hcl
  unfold FreqAdaptive.getBand ExplicitDim.intSlice
  simp only [hs.bands, hlook]
  rw [cumSlices_get]
  dsimp only
  congr 1
  rw [List.map_map]
  have hT : arrs[i].2.length = T := ha.height _ (List.getElem_mem h')
  apply List.ext_getElem
  · simp [hT]
  · intro t h1 h2
    simp only [List.getElem_map, List.getElem_range, Function.comp]
    rw [pySlice_nat]
    have hrow : ∀ k, (((arrs.map fun a => a.2.getD t []).take k).map List.length).sum =
        ((arrs.map Prod.fst).take k).sum := by
      intro k
      rw [List.map_take, List.map_map]
      congr 2
      apply List.map_congr_left
      intro a hmem
      simp only [Function.comp]
      have hta : t < a.2.length := by rw [ha.height a hmem, ← hT]; exact h2
      rw [getD_lt _ _ hta]
      exact ha.width a hmem _ (List.getElem_mem hta)
    have := flatten_slice (arrs.map fun a => a.2.getD t []) i (by simpa using h')
    rw [hrow, hrow] at this
    simp only [Nat.zero_add]
    rw [this, List.getElem_map, getD_lt _ _ h2]

/-- **C24.** Rebuilding the representation from its own flat array and dimensions gives the
same representation. -/
theorem C24_roundtrip (X : NumExt α) (T : Nat) (arrs : List (Nat × List (List β))) (ha : Bands T arrs)
    (s : Scale α) (bs : List (Band α)) (hs : ScaleOk X s bs) (hlen : bs.length = arrs.length) :
    ∃ fa, FreqAdaptive.new X arrs s = .ok fa ∧ fa.fromArray X = .ok fa := by
  obtain ⟨fa, h1, h2⟩ := C24_get_band X T arrs ha s bs hs hlen
  refine ⟨fa, h1, ?_⟩
  have hfa := new_eq X T arrs ha s bs hs hlen
  rw [h1] at hfa
  have hdim : fa.dim = ⟨s, cumSlices 0 (arrs.map Prod.fst), true⟩ := by
    cases hfa; rfl
  have hwidth : fa.width = (arrs.map Prod.fst).sum := by cases hfa; rfl
  unfold FreqAdaptive.fromArray
  have hsc : fa.dim.scale = s := by rw [hdim]
  simp only [hsc, hs.bands]
  have hseq : sequence (bs.map fun b => fa.bandArray X b) = .ok arrs := by
    rw [sequence_ok]
    apply List.ext_getElem
    · simp [hlen]
    · intro i hi hi'
      simp only [List.length_map] at hi hi'
      simp only [List.getElem_map]
      have hcl : i < (cumSlices 0 (arrs.map Prod.fst)).length := by
        rw [cumSlices_length, List.length_map]; exact hi'
      have hint : fa.dim.intSlice X bs[i] = .ok ((cumSlices 0 (arrs.map Prod.fst))[i]'hcl) := by
        unfold ExplicitDim.intSlice
        simp only [hdim, hs.bands, find_zip_reverse bs (cumSlices 0 (arrs.map Prod.fst)) hs.nodup i hi hcl]
      have h2' := h2 i hi hi'
      unfold FreqAdaptive.getBand at h2'
      unfold FreqAdaptive.bandArray
      rw [hint] at h2' ⊢
      dsimp only at h2' ⊢
      simp only [Except.ok.injEq] at h2'
      rw [h2', cumSlices_get]
      dsimp only
      congr 1
      rw [pySlice_nat]
      refine Prod.ext ?_ rfl
      simp only [List.length_drop, List.length_take, List.length_replicate, hwidth]
      have hle : ((arrs.map Prod.fst).take (i + 1)).sum ≤ (arrs.map Prod.fst).sum := by
        conv_rhs => rw [← List.take_append_drop (i + 1) (arrs.map Prod.fst), List.sum_append]
        omega
      have hstep : ((arrs.map Prod.fst).take (i + 1)).sum = ((arrs.map Prod.fst).take i).sum + arrs[i].1 := by
        rw [List.take_add_one, List.getElem?_eq_getElem (by simpa using hi'), Option.toList_some,
          List.sum_append]
        simp
      omega
  rw [hseq]
  dsimp only
  exact h1

/-- **C24.** Per-band arrays of different heights are refused. -/
theorem C24_ragged (X : NumExt α) (w : Nat) (first : List (List β)) (rest : List (Nat × List (List β)))
    (s : Scale α) (a : Nat × List (List β)) (hmem : a ∈ rest) (h : a.2.length ≠ first.length) :
    ∃ e, FreqAdaptive.new X ((w, first) :: rest) s = .error e := by
  unfold FreqAdaptive.new
  split
  · exact ⟨_, rfl⟩
  · dsimp only
    rw [if_neg]
    · exact ⟨_, rfl⟩
    · rw [List.all_eq_true]
      intro hall
      have := hall a (by simp [hmem])
      exact h (by simpa using this)

example : Bands 2 [(1, [[10], [20]]), (2, [[11, 12], [21, 22]])] :=
  ⟨by decide, by decide, by decide⟩
example : ScaleOk noExt (.linear ⟨0, 100⟩ 2 false) [⟨0, 50⟩, ⟨50, 100⟩] :=
  ⟨by decide +kernel, rfl, by decide +kernel⟩

example := C24_get_band noExt 2 [(1, [[10], [20]]), (2, [[11, 12], [21, 22]])] ⟨by decide, by decide, by decide⟩ (.linear ⟨0, 100⟩ 2 false : Scale ℚ) [⟨0, 50⟩, ⟨50, 100⟩]
  ⟨by decide +kernel, rfl, by decide +kernel⟩ rfl
example := C24_roundtrip noExt 2 [(1, [[10], [20]]), (2, [[11, 12], [21, 22]])] ⟨by decide, by decide, by decide⟩ (.linear ⟨0, 100⟩ 2 false : Scale ℚ) [⟨0, 50⟩, ⟨50, 100⟩]
  ⟨by decide +kernel, rfl, by decide +kernel⟩ rfl
example := C24_ragged noExt 1 [[10], [20]] [(2, [[11, 12]])] (.linear ⟨0, 100⟩ 2 false : Scale ℚ) (2, [[11, 12]]) (by simp) (by decide)

end Zounds.Props.FreqAdaptive
