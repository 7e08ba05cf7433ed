import Verif.Model.Cut
import Verif.Props.FreqAdaptive

/-!
# Cutting frequency-adaptive arrays (C338-C340)
-/

set_option linter.unusedSectionVars false

namespace Zounds.Cut
open Zounds Zounds.Freq Zounds.Props.Frequency Zounds.Props.FreqAdaptive

section
variable {α : Type} [Field α] [LinearOrder α] {β : Type}

/-- The coefficients of one time step of the given per-band arrays, one band after the other. -/
def rowOf (arrs : List (Nat × List (List β))) (t : Nat) : List β := (arrs.map fun a => a.2.getD t []).flatten

/-- A frequency-adaptive array: the flat array of per-band arrays `arrs`, `T` time steps, on the scale `s` with bands `bs`. -/
structure Made (X : NumExt α) (T : Nat) (arrs : List (Nat × List (List β))) (s : Scale α) (bs : List (Band α))
    (fa : FreqAdaptive α β) : Prop where
  arrays : Bands T arrs
  scale : ScaleOk X s bs
  count : bs.length = arrs.length
  made : FreqAdaptive.new X arrs s = .ok fa

/-- Coefficients before band `i`. -/
def before (arrs : List (Nat × List (List β))) (i : Nat) : Nat := ((arrs.take i).map Prod.fst).sum

theorem Made.eq {X : NumExt α} {T : Nat} {arrs : List (Nat × List (List β))} {s : Scale α} {bs : List (Band α)}
    {fa : FreqAdaptive α β} (h : Made X T arrs s bs fa) :
    fa = ⟨(arrs.map Prod.fst).sum, (List.range T).map (rowOf arrs), ⟨s, cumSlices 0 (arrs.map Prod.fst), true⟩⟩ := by
  have h1 := new_eq X T arrs h.arrays s bs h.scale h.count
  rw [h.made] at h1
  exact Except.ok.inj h1

theorem sum_take_row {T : Nat} {arrs : List (Nat × List (List β))} (h : Bands T arrs) {t : Nat} (ht : t < T) (k : Nat) :
    ((((arrs.map fun a => a.2.getD t []).take k)).flatten).length = before arrs k := by
  unfold before
  rw [List.length_flatten, ← List.map_take, List.map_map]
  congr 1
  apply List.map_congr_left
  intro a ha
  have ha : a ∈ arrs := List.mem_of_mem_take ha
  simp only [Function.comp]
  have hta : t < a.2.length := by rw [h.height a ha]; exact ht
  rw [getD_lt _ _ hta]
  exact h.width a ha _ (List.getElem_mem hta)

theorem row_length {T : Nat} {arrs : List (Nat × List (List β))} (h : Bands T arrs) {t : Nat} (ht : t < T) :
    (rowOf arrs t).length = (arrs.map Prod.fst).sum := by
  have := sum_take_row h ht arrs.length
  rw [List.take_of_length_le (by simp)] at this
  unfold rowOf
  rw [this, before, List.take_length]

theorem before_mono (arrs : List (Nat × List (List β))) {i j : Nat} (h : i ≤ j) : before arrs i ≤ before arrs j := by
  unfold before
  obtain ⟨d, rfl⟩ := Nat.exists_eq_add_of_le h
  rw [List.take_add, List.map_append, List.sum_append]
  omega

theorem before_all (arrs : List (Nat × List (List β))) {i : Nat} (h : arrs.length ≤ i) : before arrs i = (arrs.map Prod.fst).sum := by
  unfold before
  rw [List.take_of_length_le h]

theorem before_le (arrs : List (Nat × List (List β))) (i : Nat) : before arrs i ≤ (arrs.map Prod.fst).sum := by
  by_cases h : i ≤ arrs.length
  · rw [← before_all arrs (Nat.le_refl _)]; exact before_mono arrs h
  · rw [before_all arrs (by omega)]

theorem before_succ (arrs : List (Nat × List (List β))) {i : Nat} (h : i < arrs.length) :
    before arrs (i + 1) = before arrs i + arrs[i].1 := by
  unfold before
  rw [List.take_add_one, List.getElem?_eq_getElem h, Option.toList_some, List.map_append, List.sum_append]
  rfl

theorem sum_drop_take (arrs : List (Nat × List (List β))) (lo hi : Nat) (h : lo ≤ hi) :
    ((((arrs.take hi).drop lo)).map Prod.fst).sum = before arrs hi - before arrs lo := by
  unfold before
  have h1 := List.take_append_drop lo (arrs.take hi)
  rw [List.take_take, Nat.min_eq_left h] at h1
  have h2 := congrArg (fun l => (l.map Prod.fst).sum) h1
  simp only [List.map_append, List.sum_append] at h2
  omega

theorem slices_get (arrs : List (Nat × List (List β))) (i : Nat) (h : i < arrs.length) :
    (cumSlices 0 (arrs.map Prod.fst))[i]? = some ((before arrs i : Int), (before arrs (i + 1) : Int)) := by
  have hl : i < (cumSlices 0 (arrs.map Prod.fst)).length := by rw [cumSlices_length]; simpa using h
  rw [List.getElem?_eq_getElem hl, cumSlices_get]
  unfold before
  simp [List.map_take]

/-- The columns of bands `lo` to `hi - 1`, cut at the slices' bounds. -/
theorem row_between {T : Nat} {arrs : List (Nat × List (List β))} (h : Bands T arrs) {t : Nat} (ht : t < T) {lo hi : Nat} (hlh : lo ≤ hi) :
    pySlice (rowOf arrs t) (before arrs lo : Int) (before arrs hi : Int) = rowOf ((arrs.take hi).drop lo) t := by
  rw [pySlice_nat]
  have hsplit : rowOf arrs t = (((arrs.map fun a => a.2.getD t []).take hi)).flatten ++ ((arrs.map fun a => a.2.getD t []).drop hi).flatten := by
    unfold rowOf
    rw [← List.flatten_append, List.take_append_drop]
  rw [hsplit, List.take_left' (sum_take_row h ht hi)]
  have hs2 : ((arrs.map fun a => a.2.getD t []).take hi) =
      ((arrs.map fun a => a.2.getD t []).take lo) ++ (((arrs.map fun a => a.2.getD t []).take hi).drop lo) := by
    conv_lhs => rw [← List.take_append_drop lo ((arrs.map fun a => a.2.getD t []).take hi)]
    rw [List.take_take, Nat.min_eq_left hlh]
  rw [hs2, List.flatten_append, List.drop_left' (sum_take_row h ht lo)]
  unfold rowOf
  rw [List.map_drop, List.map_take]

theorem width_between (W lo hi : Nat) (h : hi ≤ W) :
    (pySlice (List.replicate W ()) (lo : Int) (hi : Int)).length = hi - lo := by
  rw [pySlice_nat]
  simp
  omega

/-- The touching bands are a run of bands: from `lo` to `hi - 1`. -/
theorem run_of (bs : List (Band α)) (ho : Ordered bs) (q : Band α) (hq : ∃ b ∈ bs, touches q b = true) :
    ∃ lo hi : Nat, lo < hi ∧ hi ≤ bs.length ∧ (∀ i (h : i < bs.length), touches q bs[i] = true ↔ (lo ≤ i ∧ i < hi)) ∧
      ∀ {γ : Type} (l : List γ), l.length = bs.length → rowsTouching bs q l = (l.take hi).drop lo := by
  obtain ⟨h1, h2, h3⟩ := run_spec bs ho q
  refine ⟨bisectLeft (bs.map Band.stop) q.start, bisectLeft (bs.map Band.start) q.stop, ?_, h2, h3, ?_⟩
  · obtain ⟨b, hb, hbt⟩ := hq
    obtain ⟨i, hi, rfl⟩ := List.getElem_of_mem hb
    have := (h3 i hi).1 hbt
    omega
  · intro γ l hl
    unfold rowsTouching
    exact (take_drop_eq_filter bs l (touches q) _ _ hl h3).symm

theorem filter_eq_rows (bs : List (Band α)) (q : Band α) : bs.filter (touches q) = rowsTouching bs q bs := by
  unfold rowsTouching
  induction bs with
  | nil => rfl
  | cons b bs ih =>
    simp only [List.zip_cons_cons, List.filter_cons]
    split
    · simp [ih]
    · exact ih

theorem span_run (arrs : List (Nat × List (List β))) {lo hi : Nat} (h : lo < hi) (hh : hi ≤ arrs.length) :
    sliceSpan (((cumSlices 0 (arrs.map Prod.fst)).take hi).drop lo) = .ok ((before arrs lo : Int), (before arrs hi : Int)) := by
  have hlen : (cumSlices 0 (arrs.map Prod.fst)).length = arrs.length := by rw [cumSlices_length]; simp
  have h1 : (((cumSlices 0 (arrs.map Prod.fst)).take hi).drop lo).head? = some ((before arrs lo : Int), (before arrs (lo + 1) : Int)) := by
    rw [List.head?_eq_getElem?, List.getElem?_drop, List.getElem?_take, if_pos (by omega), Nat.add_zero, slices_get arrs lo (by omega)]
  have h2 : (((cumSlices 0 (arrs.map Prod.fst)).take hi).drop lo).getLast? = some ((before arrs (hi - 1) : Int), (before arrs hi : Int)) := by
    rw [List.getLast?_eq_getElem?, List.getElem?_drop, List.getElem?_take]
    simp only [List.length_drop, List.length_take, hlen]
    rw [if_pos (by omega), show lo + (min hi arrs.length - lo - 1) = hi - 1 by omega, slices_get arrs (hi - 1) (by omega),
      Nat.sub_add_cancel (by omega)]
  unfold sliceSpan
  rw [h1, h2]

theorem lookup_none (bs : List (Band α)) (sls : List (Int × Int)) (q : Band α) (hq : q ∉ bs) : lookupBand bs sls q = none := by
  unfold lookupBand
  rw [Option.map_eq_none_iff, List.find?_eq_none]
  intro p hp hc
  have hp : p ∈ bs.zip sls := by simpa using hp
  obtain ⟨b, sl⟩ := p
  have hmem := (List.of_mem_zip hp).1
  refine hq ?_
  have : b = q := by
    cases b; cases q
    simpa [Band.eq] using hc
  exact this ▸ hmem

theorem validate_ok (d : ExplicitDim α) (h : d.slices ≠ []) (w : Int) : ∃ v, d.validate w = .ok v := by
  unfold ExplicitDim.validate
  cases hl : d.slices.getLast? with
  | none => exact absurd (List.getLast?_eq_none_iff.1 hl) h
  | some l => exact ⟨_, rfl⟩

theorem install_ok (X : NumExt α) (w : Nat) (rows : List (List β)) (d : ExplicitDim α) (cs : List (Band α))
    (hl : d.scale.len = d.slices.length) (hb : d.scale.bands X = .ok cs) (hne : d.slices ≠ []) :
    FreqAdaptive.install X w rows d = .ok ⟨w, rows, d⟩ := by
  unfold FreqAdaptive.install
  have h1 : ExplicitDim.new X d.scale d.slices d.isList = .ok d := by
    unfold ExplicitDim.new
    rw [if_neg (by simpa using hl), hb]
  rw [h1]
  obtain ⟨v, hv⟩ := validate_ok d hne w
  simp only [hv]

/-- What is selected by a range that is not one of the bands. -/
theorem range_array (X : NumExt α) {T : Nat} {arrs : List (Nat × List (List β))} {s : Scale α} {bs : List (Band α)}
    {fa : FreqAdaptive α β} (h : Made X T arrs s bs fa) (hs : Sliceable s) (heven : s.alwaysEven = false) (ho : Ordered bs)
    (q : Band α) (hq : q ∉ bs) (hany : ∃ b ∈ bs, touches q b = true) :
    fa.bandArray X q = .ok (((rowsTouching bs q arrs).map Prod.fst).sum, (List.range T).map (rowOf (rowsTouching bs q arrs))) := by
  obtain ⟨lo, hi, h1, h2, h3, h4⟩ := run_of bs ho q hany
  have hfa := h.eq
  obtain ⟨out, ho1, ho2⟩ := C20_selects_exactly X s hs heven bs h.scale.bands ho q
  have hlen : (cumSlices 0 (arrs.map Prod.fst)).length = bs.length := by rw [cumSlices_length, h.count]; simp
  have hint : fa.dim.intSlice X q = .ok ((before arrs lo : Int), (before arrs hi : Int)) := by
    unfold ExplicitDim.intSlice
    simp only [hfa, h.scale.bands, lookup_none bs _ q hq, ho1, ho2 _ hlen]
    rw [h4 _ hlen]
    exact span_run arrs h1 (by rw [← h.count]; exact h2)
  unfold FreqAdaptive.bandArray
  simp only [hint]
  rw [h4 arrs h.count.symm, sum_drop_take arrs lo hi (by omega)]
  congr 1
  refine Prod.ext ?_ ?_
  · simp only [hfa]
    exact width_between _ _ _ (before_le arrs hi)
  · simp only [hfa, List.map_map]
    apply List.map_congr_left
    intro t ht
    exact row_between h.arrays (List.mem_range.1 ht) (by omega)

theorem range_meta (X : NumExt α) {T : Nat} {arrs : List (Nat × List (List β))} {s : Scale α} {bs : List (Band α)}
    {fa : FreqAdaptive α β} (h : Made X T arrs s bs fa) (hs : Sliceable s) (heven : s.alwaysEven = false) (ho : Ordered bs)
    (q : Band α) (hq : q ∉ bs) (t : Scale α) (ht : s.fromSlice (bs.filter (touches q)) = .ok t) :
    fa.dim.metaslice X q = ExplicitDim.new X t (rowsTouching bs q (cumSlices 0 (arrs.map Prod.fst))) true := by
  have hfa := h.eq
  obtain ⟨out, ho1, ho2⟩ := C20_selects_exactly X s hs heven bs h.scale.bands ho q
  have hlen : (cumSlices 0 (arrs.map Prod.fst)).length = bs.length := by rw [cumSlices_length, h.count]; simp
  unfold ExplicitDim.metaslice
  simp only [hfa, h.scale.bands, lookup_none bs _ q hq, ho1, ho2 _ hlen, ho2 bs rfl]
  rw [← filter_eq_rows, ht]

/-- **C338** (a range): cutting by a range of frequencies that is not one of the bands gives the coefficients of all bands that touch it, band
after band, on the scale made of these bands. -/
theorem C338_range (X : NumExt α) (T : Nat) (arrs : List (Nat × List (List β))) (s : Scale α) (bs : List (Band α))
    (fa : FreqAdaptive α β) (h : Made X T arrs s bs fa) (hs : Sliceable s) (heven : s.alwaysEven = false) (ho : Ordered bs)
    (q : Band α) (hq : q ∉ bs) (hany : ∃ b ∈ bs, touches q b = true)
    (t : Scale α) (ht : s.fromSlice (bs.filter (touches q)) = .ok t) (htl : t.len = (bs.filter (touches q)).length)
    (cs : List (Band α)) (hcs : t.bands X = .ok cs) :
    ∃ r, fa.cut X q = .ok r ∧ r.width = ((rowsTouching bs q arrs).map Prod.fst).sum ∧
      r.rows = (List.range T).map (rowOf (rowsTouching bs q arrs)) ∧ r.dim.scale = t ∧
      r.dim.slices = rowsTouching bs q (cumSlices 0 (arrs.map Prod.fst)) := by
  have hlen : (cumSlices 0 (arrs.map Prod.fst)).length = bs.length := by rw [cumSlices_length, h.count]; simp
  obtain ⟨lo, hi, h1, h2, h3, h4⟩ := run_of bs ho q hany
  have hl : t.len = (rowsTouching bs q (cumSlices 0 (arrs.map Prod.fst))).length := by
    rw [htl, filter_eq_rows, h4 bs rfl, h4 _ hlen]
    simp [hlen]
  have hne : rowsTouching bs q (cumSlices 0 (arrs.map Prod.fst)) ≠ [] := by
    rw [h4 _ hlen]
    intro hc
    have := congrArg List.length hc
    simp only [List.length_drop, List.length_take, List.length_nil, hlen] at this
    omega
  have hnew : ExplicitDim.new X t (rowsTouching bs q (cumSlices 0 (arrs.map Prod.fst))) true =
      .ok ⟨t, rowsTouching bs q (cumSlices 0 (arrs.map Prod.fst)), true⟩ := by
    unfold ExplicitDim.new
    rw [if_neg (by simpa using hl), hcs]
  refine ⟨⟨_, _, ⟨t, rowsTouching bs q (cumSlices 0 (arrs.map Prod.fst)), true⟩⟩, ?_, rfl, rfl, rfl, rfl⟩
  · unfold FreqAdaptive.cut
    rw [range_array X h hs heven ho q hq hany, range_meta X h hs heven ho q hq t ht, hnew]
    exact install_ok X _ _ _ cs hl hcs hne

/-- **C338** (explicit and geometric scales): the result carries exactly the bands that touch the range. -/
theorem C338_explicit (X : NumExt α) (T : Nat) (arrs : List (Nat × List (List β))) (s : Scale α) (bs : List (Band α))
    (fa : FreqAdaptive α β) (h : Made X T arrs s bs fa) (hk : (∃ bs, s = .explicit bs) ∨ ∃ a b c n, s = .geometric a b c n false)
    (hw : ∀ b ∈ bs, WF b) (ho : Ordered bs) (q : Band α) (hq : q ∉ bs) (hany : ∃ b ∈ bs, touches q b = true) :
    ∃ r, fa.cut X q = .ok r ∧ r.width = ((rowsTouching bs q arrs).map Prod.fst).sum ∧
      r.rows = (List.range T).map (rowOf (rowsTouching bs q arrs)) ∧ r.dim.scale = .explicit (bs.filter (touches q)) ∧
      r.dim.slices = rowsTouching bs q (cumSlices 0 (arrs.map Prod.fst)) := by
  obtain ⟨lo, hi, h1, h2, h3, h4⟩ := run_of bs ho q hany
  have hf : bs.filter (touches q) = (bs.take hi).drop lo := by rw [filter_eq_rows, h4 bs rfl]
  have hhead : (bs.filter (touches q)).head? = some bs[lo] := by
    rw [hf, List.head?_eq_getElem?, List.getElem?_drop, List.getElem?_take, if_pos (by omega), Nat.add_zero, List.getElem?_eq_getElem]
  have hlast : (bs.filter (touches q)).getLast? = some bs[hi - 1] := by
    rw [hf, List.getLast?_eq_getElem?, List.getElem?_drop, List.getElem?_take]
    simp only [List.length_drop, List.length_take]
    rw [if_pos (by omega)]
    have : lo + (min hi bs.length - lo - 1) = hi - 1 := by omega
    rw [this, List.getElem?_eq_getElem]
  have hwf : bs[lo].start < bs[hi - 1].stop := by
    have h5 : bs[lo].start < bs[lo].stop := hw _ (List.getElem_mem _)
    have h6 : bs[lo].stop ≤ bs[hi - 1].stop := by
      by_cases he : lo = hi - 1
      · subst he; exact le_refl _
      · have := List.pairwise_iff_getElem.1 ho.stops lo (hi - 1) (by simp; omega) (by simp; omega) (by omega)
        simpa using this
    exact lt_of_lt_of_le h5 h6
  have hspan : newExplicit (bs.filter (touches q)) = .ok (.explicit (bs.filter (touches q))) := by
    unfold newExplicit spanOf
    rw [hhead, hlast]
    dsimp only
    rw [(C22_new _ _).1 hwf]
  have hfs : s.fromSlice (bs.filter (touches q)) = .ok (.explicit (bs.filter (touches q))) := by
    rcases hk with ⟨cs, rfl⟩ | ⟨a, b, c, n, rfl⟩ <;> exact hspan
  have hsl : Sliceable s := by rcases hk with ⟨cs, rfl⟩ | ⟨a, b, c, n, rfl⟩ <;> exact fun b hb => nomatch hb
  have hev : s.alwaysEven = false := by rcases hk with ⟨cs, rfl⟩ | ⟨a, b, c, n, rfl⟩ <;> rfl
  exact C338_range X T arrs s bs fa h hsl hev ho q hq hany _ hfs rfl _ rfl

/-- **C338** (linear scales): the same if the range touches at least two bands: the scale of the result has exactly these bands. -/
theorem C338_linear [IsStrictOrderedRing α] (X : NumExt α) (T : Nat) (arrs : List (Nat × List (List β))) (b : Band α) (m : Nat) (hb : WF b) (hm : 2 ≤ m)
    (bs : List (Band α)) (fa : FreqAdaptive α β) (h : Made X T arrs (.linear b m false) bs fa) (q : Band α) (hq : q ∉ bs)
    (htwo : 2 ≤ (bs.filter (touches q)).length) :
    ∃ r t, fa.cut X q = .ok r ∧ r.width = ((rowsTouching bs q arrs).map Prod.fst).sum ∧
      r.rows = (List.range T).map (rowOf (rowsTouching bs q arrs)) ∧ r.dim.scale = t ∧ t.bands X = .ok (bs.filter (touches q)) ∧
      r.dim.slices = rowsTouching bs q (cumSlices 0 (arrs.map Prod.fst)) := by
  have hbs : bs = (List.range m).map (part b m) := by
    have h1 := h.scale.bands
    have h2 : (Scale.linear b m false).bands X = .ok ((List.range m).map (part b m)) := linearBands_eq b m hb hm
    rw [h2] at h1
    exact (Except.ok.inj h1).symm
  have ho : Ordered bs := by rw [hbs]; exact C21_linear_ordered b m hb
  have hany : ∃ c ∈ bs, touches q c = true := by
    obtain ⟨c, hc⟩ := List.exists_mem_of_length_pos (l := bs.filter (touches q)) (by omega)
    exact ⟨c, List.mem_filter.1 hc⟩
  obtain ⟨lo, hi, h1, h2, h3, h4⟩ := run_of bs ho q hany
  have hf : bs.filter (touches q) = (bs.take hi).drop lo := by rw [filter_eq_rows, h4 bs rfl]
  have hbl : bs.length = m := by rw [hbs]; simp
  have hcnt : (bs.filter (touches q)).length = hi - lo := by
    rw [hf]; simp only [List.length_drop, List.length_take]; omega
  obtain ⟨t, t1, t2, t3, -⟩ := linear_fromSlice X b m false hb lo (hi - lo) (by omega) (by omega)
  rw [show lo + (hi - lo) = hi by omega, ← hbs, ← hf] at t1 t2
  obtain ⟨r, r1, r2, r3, r4, r5⟩ := C338_range X T arrs _ bs fa h (fun b hb => nomatch hb) rfl ho q hq hany t t1 (by rw [t3, hcnt]) _ t2
  exact ⟨r, t, r1, r2, r3, r4, t2, r5⟩

/-- **C338** (one of the bands): cutting by a band of the scale gives exactly its coefficients, on the scale of that band alone. -/
theorem C338_band (X : NumExt α) (T : Nat) (arrs : List (Nat × List (List β))) (s : Scale α) (bs : List (Band α))
    (fa : FreqAdaptive α β) (h : Made X T arrs s bs fa) (i : Nat) (hi : i < bs.length) (hi' : i < arrs.length) (hw : WF bs[i]) :
    ∃ r, fa.cut X bs[i] = .ok r ∧ r.width = arrs[i].1 ∧ r.rows = arrs[i].2 ∧ r.dim.scale = .explicit [bs[i]] ∧
      r.dim.slices = [((before arrs i : Int), (before arrs (i + 1) : Int))] := by
  have hfa := h.eq
  obtain ⟨fa', h1, h2⟩ := C24_get_band X T arrs h.arrays s bs h.scale h.count
  rw [h.made] at h1
  cases h1
  have hl : i < fa.dim.slices.length := by rw [hfa]; simp only []; rw [cumSlices_length]; simpa using hi'
  obtain ⟨h3, h4⟩ := C23_lookup X fa.dim bs (by rw [hfa]; exact h.scale.bands) h.scale.nodup i hi hl hw
  have hsl : fa.dim.slices[i] = ((before arrs i : Int), (before arrs (i + 1) : Int)) := by
    have := slices_get arrs i hi'
    simp only [hfa] at hl ⊢
    rw [List.getElem?_eq_getElem hl] at this
    exact Option.some.inj this
  rw [hsl] at h3 h4
  refine ⟨⟨arrs[i].1, arrs[i].2, ⟨.explicit [bs[i]], [((before arrs i : Int), (before arrs (i + 1) : Int))], true⟩⟩, ?_, rfl, rfl, rfl, rfl⟩
  have hg := h2 i hi hi'
  unfold FreqAdaptive.getBand at hg
  simp only [h3, Except.ok.injEq] at hg
  unfold FreqAdaptive.cut FreqAdaptive.bandArray
  simp only [h3, h4, hg, keepOnIndexError]
  have hwid : (pySlice (List.replicate fa.width ()) (before arrs i : Int) (before arrs (i + 1) : Int)).length = arrs[i].1 := by
    have hw' : fa.width = (arrs.map Prod.fst).sum := by rw [hfa]
    rw [hw', width_between _ _ _ (before_le arrs (i + 1)), before_succ arrs hi']
    omega
  rw [hwid]
  exact install_ok X _ _ _ [bs[i]] rfl rfl (by simp)

/-- **C338** (nothing): cutting by a range that touches no band is an IndexError. -/
theorem C338_nothing (X : NumExt α) (T : Nat) (arrs : List (Nat × List (List β))) (s : Scale α) (bs : List (Band α))
    (fa : FreqAdaptive α β) (h : Made X T arrs s bs fa) (hs : Sliceable s) (heven : s.alwaysEven = false) (ho : Ordered bs)
    (q : Band α) (hq : ∀ b ∈ bs, b ≠ q) (hnone : ∀ b ∈ bs, touches q b = false) :
    fa.cut X q = .error .indexError := by
  have hfa := h.eq
  have hlen : (cumSlices 0 (arrs.map Prod.fst)).length = bs.length := by rw [cumSlices_length, h.count]; simp
  have hr : rowsTouching bs q fa.dim.slices = [] := by
    unfold rowsTouching
    rw [List.map_eq_nil_iff, List.filter_eq_nil_iff]
    intro p hp
    rw [hnone p.1 (List.of_mem_zip hp).1]
    simp
  have := (C23_range X fa.dim (by rw [hfa]; exact hs) (by rw [hfa]; exact heven) bs (by rw [hfa]; exact h.scale.bands) ho
    (by rw [hfa]; exact hlen) q hq).2 hr
  unfold FreqAdaptive.cut FreqAdaptive.bandArray
  rw [this]

/-- **C338** (refuted for one band of a linear scale): when a range, not itself a band, touches a single band of a linear scale, that band's
coefficients come out, but labelled with the whole scale and all its slices. -/
theorem C338_one_band_refuted [IsStrictOrderedRing α] (X : NumExt α) (T : Nat) (arrs : List (Nat × List (List β))) (b : Band α) (m : Nat) (bs : List (Band α))
    (fa : FreqAdaptive α β) (h : Made X T arrs (.linear b m false) bs fa) (ho : Ordered bs) (hw : ∀ b ∈ bs, WF b)
    (q : Band α) (hq : q ∉ bs) (c : Band α) (hone : bs.filter (touches q) = [c]) :
    ∃ r, fa.cut X q = .ok r ∧ r.width = ((rowsTouching bs q arrs).map Prod.fst).sum ∧
      r.rows = (List.range T).map (rowOf (rowsTouching bs q arrs)) ∧ (rowsTouching bs q arrs).length = 1 ∧
      r.dim.scale = .linear b m false ∧ r.dim.slices = cumSlices 0 (arrs.map Prod.fst) := by
  have hfa := h.eq
  have hc : c ∈ bs.filter (touches q) := by rw [hone]; simp
  have hc2 := List.mem_filter.1 hc
  have hany : ∃ b ∈ bs, touches q b = true := ⟨c, hc2⟩
  have hlen : (cumSlices 0 (arrs.map Prod.fst)).length = bs.length := by rw [cumSlices_length, h.count]; simp
  have hwc : c.start < c.stop := hw c hc2.1
  obtain ⟨lo, hi, h1, h2, h3, h4⟩ := run_of bs ho q hany
  have hnum : hi - lo = 1 := by
    have h5 : (rowsTouching bs q bs).length = 1 := by rw [← filter_eq_rows, hone]; rfl
    rw [h4 bs rfl] at h5
    simp only [List.length_drop, List.length_take] at h5
    omega
  have hfs : (Scale.linear b m false).fromSlice (bs.filter (touches q)) = .ok (.linear c 1 false) := by
    rw [hone]
    simp only [Scale.fromSlice, spanOf, List.head?_cons, List.getLast?_singleton]
    rw [(C22_new _ _).1 hwc]
    rfl
  have hmeta : fa.dim.metaslice X q = .error .indexError := by
    rw [range_meta X h (fun b hb => nomatch hb) rfl ho q hq _ hfs]
    unfold ExplicitDim.new
    have hsl : (rowsTouching bs q (cumSlices 0 (arrs.map Prod.fst))).length = 1 := by
      rw [h4 _ hlen]
      simp only [List.length_drop, List.length_take, hlen]
      omega
    rw [hsl, if_neg (by simp [Scale.len]), C21_linear_small_fails X c 1 false (by decide)]
  refine ⟨⟨_, _, fa.dim⟩, ?_, rfl, rfl, ?_, by rw [hfa], by rw [hfa]⟩
  · unfold FreqAdaptive.cut
    rw [range_array X h (fun b hb => nomatch hb) rfl ho q hq hany, hmeta]
    refine install_ok X _ _ _ bs ?_ (by rw [hfa]; exact h.scale.bands) ?_
    · rw [hfa]
      simp only [hlen]
      exact h.scale.len
    · rw [hfa]
      intro hcn
      have := congrArg List.length hcn
      simp only [hlen, List.length_nil] at this
      omega
  · rw [h4 arrs h.count.symm]
    simp only [List.length_drop, List.length_take, ← h.count]
    omega

/-- Slicing a cut array by one of its bands takes the columns the slice says, counted from the left of the cut array. -/
theorem take_slice (row : List β) (a w : Nat) : pySlice row (a : Int) ((a + w : Nat) : Int) = (row.drop a).take w := by
  rw [pySlice_nat, List.drop_take]
  congr 1
  omega

/-- **C339** (what comes out): cutting the result of a cut again, by one of its bands, takes the columns that band had in the array before the
first cut, counted from the left of the result. -/
theorem C339_again (X : NumExt α) (T : Nat) (arrs : List (Nat × List (List β))) (s : Scale α) (bs : List (Band α))
    (fa : FreqAdaptive α β) (h : Made X T arrs s bs fa) (hk : (∃ bs, s = .explicit bs) ∨ ∃ a b c n, s = .geometric a b c n false)
    (hw : ∀ b ∈ bs, WF b) (ho : Ordered bs) (q : Band α) (hq : q ∉ bs) (r : FreqAdaptive α β) (hr : fa.cut X q = .ok r)
    (i : Nat) (hi : i < bs.length) (hi' : i < arrs.length) (hti : touches q bs[i] = true) :
    r.bandArray X bs[i] = .ok (min arrs[i].1 (r.width - before arrs i), r.rows.map fun row => (row.drop (before arrs i)).take arrs[i].1) := by
  have hany : ∃ b ∈ bs, touches q b = true := ⟨_, List.getElem_mem hi, hti⟩
  obtain ⟨r', h1, h2, h3, h4, h5⟩ := C338_explicit X T arrs s bs fa h hk hw ho q hq hany
  rw [hr] at h1
  cases h1
  obtain ⟨lo, hi2, g1, g2, g3, g4⟩ := run_of bs ho q hany
  have hlen : (cumSlices 0 (arrs.map Prod.fst)).length = bs.length := by rw [cumSlices_length, h.count]; simp
  have hb : r.dim.scale.bands X = .ok (bs.filter (touches q)) := by rw [h4]; rfl
  have hpos := (g3 i hi).1 hti
  have hf : bs.filter (touches q) = (bs.take hi2).drop lo := by rw [filter_eq_rows, g4 bs rfl]
  have hk1 : i - lo < (bs.filter (touches q)).length := by
    rw [hf]; simp only [List.length_drop, List.length_take]; omega
  have hk2 : i - lo < r.dim.slices.length := by
    rw [h5, g4 _ hlen]; simp only [List.length_drop, List.length_take, hlen]; omega
  have hget : (bs.filter (touches q))[i - lo] = bs[i] := by
    have : (bs.filter (touches q))[i - lo]? = some bs[i] := by
      rw [hf, List.getElem?_drop, List.getElem?_take, if_pos (by omega), Nat.add_sub_cancel' hpos.1, List.getElem?_eq_getElem]
    rw [List.getElem?_eq_getElem hk1] at this
    exact Option.some.inj this
  have hsl : r.dim.slices[i - lo] = ((before arrs i : Int), (before arrs (i + 1) : Int)) := by
    have : r.dim.slices[i - lo]? = some ((before arrs i : Int), (before arrs (i + 1) : Int)) := by
      rw [h5, g4 _ hlen, List.getElem?_drop, List.getElem?_take, if_pos (by omega), Nat.add_sub_cancel' hpos.1, slices_get arrs i hi']
    rw [List.getElem?_eq_getElem hk2] at this
    exact Option.some.inj this
  have hlook := find_zip_reverse (bs.filter (touches q)) r.dim.slices (h.scale.nodup.filter _) (i - lo) hk1 hk2
  rw [hget, hsl] at hlook
  have hint : r.dim.intSlice X bs[i] = .ok ((before arrs i : Int), (before arrs (i + 1) : Int)) := by
    unfold ExplicitDim.intSlice
    simp only [hb, hlook]
  unfold FreqAdaptive.bandArray
  simp only [hint]
  rw [before_succ arrs hi']
  congr 1
  refine Prod.ext ?_ ?_
  · simp only [take_slice]
    simp
  · simp only [take_slice]

/-- **C339** (right): if the first cut begins with the first band, cutting again by a band that was kept gives that band's coefficients. -/
theorem C339_from_start (X : NumExt α) (T : Nat) (arrs : List (Nat × List (List β))) (s : Scale α) (bs : List (Band α))
    (fa : FreqAdaptive α β) (h : Made X T arrs s bs fa) (hk : (∃ bs, s = .explicit bs) ∨ ∃ a b c n, s = .geometric a b c n false)
    (hw : ∀ b ∈ bs, WF b) (ho : Ordered bs) (q : Band α) (hq : q ∉ bs) (h0 : 0 < bs.length) (htouch : touches q bs[0] = true)
    (r : FreqAdaptive α β) (hr : fa.cut X q = .ok r)
    (i : Nat) (hi : i < bs.length) (hi' : i < arrs.length) (hti : touches q bs[i] = true) :
    r.bandArray X bs[i] = .ok arrs[i] := by
  have hany : ∃ b ∈ bs, touches q b = true := ⟨_, List.getElem_mem hi, hti⟩
  obtain ⟨r', h1, h2, h3, h4, h5⟩ := C338_explicit X T arrs s bs fa h hk hw ho q hq hany
  rw [hr] at h1
  cases h1
  obtain ⟨lo, hi2, g1, g2, g3, g4⟩ := run_of bs ho q hany
  have hlo : lo = 0 := by have := (g3 0 h0).1 htouch; omega
  subst hlo
  have hpos := (g3 i hi).1 hti
  rw [C339_again X T arrs s bs fa h hk hw ho q hq r hr i hi hi' hti]
  have hwid : r.width = before arrs hi2 := by
    rw [h2, g4 arrs h.count.symm, sum_drop_take arrs 0 hi2 (by omega)]
    simp [before]
  have hsucc := before_succ arrs hi'
  have hmono := before_mono arrs (show i + 1 ≤ hi2 by omega)
  congr 1
  refine Prod.ext ?_ ?_
  · simp only [hwid]; omega
  · obtain ⟨fa', f1, f2⟩ := C24_get_band X T arrs h.arrays s bs h.scale h.count
    simp only [h3, List.map_map]
    have hT : arrs[i].2.length = T := h.arrays.height _ (List.getElem_mem hi')
    apply List.ext_getElem
    · simp [hT]
    · intro t ht1 ht2
      simp only [List.getElem_map, List.getElem_range, Function.comp]
      have ht : t < T := by rw [← hT]; exact ht2
      rw [g4 arrs h.count.symm, List.drop_zero]
      have hB : Bands T (arrs.take hi2) := ⟨by
          intro hc
          have := congrArg List.length hc
          have hcount := h.count
          simp only [List.length_take, List.length_nil] at this
          omega,
        fun a ha => h.arrays.height a (List.mem_of_mem_take ha), fun a ha => h.arrays.width a (List.mem_of_mem_take ha)⟩
      have hb : ∀ k, k ≤ hi2 → before (arrs.take hi2) k = before arrs k := by
        intro k hk'
        unfold before
        rw [List.take_take, Nat.min_eq_left hk']
      have hrow := row_between hB ht (lo := i) (hi := i + 1) (by omega)
      rw [hb i (by omega), hb (i + 1) (by omega), hsucc, take_slice] at hrow
      rw [hrow]
      have hone : ((arrs.take hi2).take (i + 1)).drop i = [arrs[i]] := by
        rw [List.take_take, Nat.min_eq_left (by omega), List.take_add_one, List.getElem?_eq_getElem hi', Option.toList_some,
          List.drop_left' (by rw [List.length_take]; omega)]
      rw [hone]
      unfold rowOf
      simp only [List.map_cons, List.map_nil, List.flatten_cons, List.flatten_nil, List.append_nil]
      rw [getD_lt _ _ ht2]

/-- **C339** (refuted): if the first cut does not begin with the first band, then, whatever the coefficients, the last band that was kept comes
out of the second cut with fewer coefficients than it has. -/
theorem C339_refuted (X : NumExt α) (T : Nat) (arrs : List (Nat × List (List β))) (s : Scale α) (bs : List (Band α))
    (fa : FreqAdaptive α β) (h : Made X T arrs s bs fa) (hk : (∃ bs, s = .explicit bs) ∨ ∃ a b c n, s = .geometric a b c n false)
    (hw : ∀ b ∈ bs, WF b) (ho : Ordered bs) (hone : ∀ a ∈ arrs, 0 < a.1) (q : Band α) (hq : q ∉ bs) (h0 : 0 < bs.length)
    (hnot : touches q bs[0] = false) (r : FreqAdaptive α β) (hr : fa.cut X q = .ok r)
    (i : Nat) (hi : i < bs.length) (hi' : i < arrs.length) (hti : touches q bs[i] = true)
    (hlast : ∀ j (hj : j < bs.length), i < j → touches q bs[j] = false) :
    ∃ w rows, r.bandArray X bs[i] = .ok (w, rows) ∧ w < arrs[i].1 := by
  have hany : ∃ b ∈ bs, touches q b = true := ⟨_, List.getElem_mem hi, hti⟩
  obtain ⟨r', h1, h2, h3, h4, h5⟩ := C338_explicit X T arrs s bs fa h hk hw ho q hq hany
  rw [hr] at h1
  cases h1
  obtain ⟨lo, hi2, g1, g2, g3, g4⟩ := run_of bs ho q hany
  have hpos := (g3 i hi).1 hti
  have hlo : 0 < lo := by
    by_contra hc
    have := (g3 0 h0).2 (by omega)
    rw [hnot] at this
    cases this
  have hhi : hi2 = i + 1 := by
    by_contra hc
    have hj : i + 1 < bs.length := by omega
    have := (g3 (i + 1) hj).2 (by omega)
    rw [hlast (i + 1) hj (by omega)] at this
    cases this
  refine ⟨_, _, C339_again X T arrs s bs fa h hk hw ho q hq r hr i hi hi' hti, ?_⟩
  have hwid : r.width = before arrs hi2 - before arrs lo := by
    rw [h2, g4 arrs h.count.symm, sum_drop_take arrs lo hi2 (by omega)]
  have hsucc := before_succ arrs hi'
  have hfirst : 0 < before arrs lo := by
    have h6 := before_succ arrs (i := 0) (by have := h.count; omega)
    have h7 := before_mono arrs (show 0 + 1 ≤ lo by omega)
    have h8 := hone _ (List.getElem_mem (l := arrs) (n := 0) (by have := h.count; omega))
    omega
  have hmono := before_mono arrs (show lo ≤ i by omega)
  have hwi := hone _ (List.getElem_mem hi')
  rw [hwid, hhi, hsucc]
  omega

/-- **C339** (the same band twice): `fa[:, b][:, b]` drops from the coefficients of `b` as many as come before `b` in the whole array. -/
theorem C339_same_band (X : NumExt α) (T : Nat) (arrs : List (Nat × List (List β))) (s : Scale α) (bs : List (Band α))
    (fa : FreqAdaptive α β) (h : Made X T arrs s bs fa) (i : Nat) (hi : i < bs.length) (hi' : i < arrs.length) (hw : WF bs[i]) :
    ∃ r, fa.cut X bs[i] = .ok r ∧
      r.bandArray X bs[i] = .ok (arrs[i].1 - before arrs i, arrs[i].2.map fun row => row.drop (before arrs i)) := by
  obtain ⟨r, h1, h2, h3, h4, h5⟩ := C338_band X T arrs s bs fa h i hi hi' hw
  refine ⟨r, h1, ?_⟩
  have hb : r.dim.scale.bands X = .ok [bs[i]] := by rw [h4]; rfl
  have hlook := find_zip_reverse [bs[i]] r.dim.slices (by simp) 0 (by simp) (by rw [h5]; simp)
  simp only [h5, List.getElem_cons_zero] at hlook
  have hint : r.dim.intSlice X bs[i] = .ok ((before arrs i : Int), (before arrs (i + 1) : Int)) := by
    unfold ExplicitDim.intSlice
    simp only [hb, h5, hlook]
  unfold FreqAdaptive.bandArray
  simp only [hint]
  rw [before_succ arrs hi']
  congr 1
  refine Prod.ext ?_ ?_
  · simp only [take_slice]
    simp [h2]
  · simp only [take_slice, h3]
    apply List.map_congr_left
    intro row hrow
    apply List.take_of_length_le
    rw [List.length_drop, h.arrays.width _ (List.getElem_mem hi') row hrow]
    omega

/-- **C340** (what comes out): `fa[:, i:j]` keeps the coefficients number `i` to `j - 1` and labels them with the bands number `i` to `j - 1`. -/
theorem C340_positions (X : NumExt α) (T : Nat) (arrs : List (Nat × List (List β))) (s : Scale α) (bs : List (Band α))
    (fa : FreqAdaptive α β) (h : Made X T arrs s bs fa) (i j : Nat) (hij : i < j) (hj : j ≤ bs.length)
    (t : Scale α) (ht : s.fromSlice ((bs.take j).drop i) = .ok t) (htl : t.len = j - i) (cs : List (Band α)) (hcs : t.bands X = .ok cs) :
    ∃ r, fa.cutPositions X (some (i : Int)) (some (j : Int)) = .ok r ∧ r.width = min j fa.width - min i fa.width ∧
      r.rows = (List.range T).map (fun k => ((rowOf arrs k).take j).drop i) ∧ r.dim.scale = t ∧
      r.dim.slices = ((cumSlices 0 (arrs.map Prod.fst)).take j).drop i := by
  have hfa := h.eq
  have hlen : (cumSlices 0 (arrs.map Prod.fst)).length = bs.length := by rw [cumSlices_length, h.count]; simp
  have hl : t.len = (((cumSlices 0 (arrs.map Prod.fst)).take j).drop i).length := by
    rw [htl]; simp only [List.length_drop, List.length_take, hlen]; omega
  have hne : ((cumSlices 0 (arrs.map Prod.fst)).take j).drop i ≠ [] := by
    intro hc
    rw [hc] at hl
    simp only [List.length_nil] at hl
    omega
  have hmeta : fa.dim.metaslicePositions X (some (i : Int)) (some (j : Int)) =
      .ok ⟨t, ((cumSlices 0 (arrs.map Prod.fst)).take j).drop i, true⟩ := by
    unfold ExplicitDim.metaslicePositions
    simp only [hfa, h.scale.bands, Option.getD_some, pySlice_nat, ht]
    unfold ExplicitDim.new
    rw [if_neg (by simpa using hl), hcs]
  refine ⟨⟨_, _, ⟨t, ((cumSlices 0 (arrs.map Prod.fst)).take j).drop i, true⟩⟩, ?_, rfl, rfl, rfl, rfl⟩
  unfold FreqAdaptive.cutPositions
  rw [hmeta]
  simp only [keepOnIndexError, Option.getD_some, pySlice_nat]
  have hw : (((List.replicate fa.width ()).take j).drop i).length = min j fa.width - min i fa.width := by
    simp only [List.length_drop, List.length_take, List.length_replicate]
    omega
  have hrows : (fa.rows.map fun r => (r.take j).drop i) = (List.range T).map (fun k => ((rowOf arrs k).take j).drop i) := by
    rw [hfa]; simp only [List.map_map]; rfl
  rw [hw, hrows]
  exact install_ok X _ _ _ cs hl hcs hne

/-- A Python slice of a list is as long as that of any list of the same length. -/
theorem slice_length {γ δ : Type} (l : List γ) (m : List δ) (h : l.length = m.length) (a b : Int) :
    (pySlice l a b).length = (pySlice m a b).length := by
  unfold pySlice
  simp only [List.length_take, List.length_drop, h]

/-- **C340** (any slice): `fa[:, i:j]`, with bounds missing or counted from the end, takes Python's slice of every row of coefficients, Python's
slice of the bands, and keeps with each of these bands the columns it had in the whole. -/
theorem C340_slices (X : NumExt α) (T : Nat) (arrs : List (Nat × List (List β))) (s : Scale α) (bs : List (Band α))
    (fa : FreqAdaptive α β) (h : Made X T arrs s bs fa) (i j : Option Int) (hne : pySlice bs (i.getD 0) (j.getD bs.length) ≠ [])
    (t : Scale α) (ht : s.fromSlice (pySlice bs (i.getD 0) (j.getD bs.length)) = .ok t)
    (htl : t.len = (pySlice bs (i.getD 0) (j.getD bs.length)).length) (cs : List (Band α)) (hcs : t.bands X = .ok cs) :
    ∃ r, fa.cutPositions X i j = .ok r ∧ (∀ row ∈ r.rows, row.length = r.width) ∧
      r.rows = (List.range T).map (fun k => pySlice (rowOf arrs k) (i.getD 0) (j.getD (rowOf arrs k).length)) ∧ r.dim.scale = t ∧
      r.dim.slices = pySlice ((List.range bs.length).map fun k => ((before arrs k : Int), (before arrs (k + 1) : Int))) (i.getD 0) (j.getD bs.length) := by
  have hfa := h.eq
  have hlen : (cumSlices 0 (arrs.map Prod.fst)).length = bs.length := by rw [cumSlices_length, h.count]; simp
  have hcum : cumSlices 0 (arrs.map Prod.fst) = (List.range bs.length).map fun k => ((before arrs k : Int), (before arrs (k + 1) : Int)) := by
    apply List.ext_getElem
    · simp [hlen]
    · intro k h1 h2
      have hk : k < arrs.length := by rw [hlen, h.count] at h1; exact h1
      have := slices_get arrs k hk
      rw [List.getElem?_eq_getElem h1] at this
      simp only [List.getElem_map, List.getElem_range]
      exact Option.some.inj this
  have hsl : (pySlice (cumSlices 0 (arrs.map Prod.fst)) (i.getD 0) (j.getD bs.length)).length =
      (pySlice bs (i.getD 0) (j.getD bs.length)).length := slice_length _ _ hlen _ _
  have hl : t.len = (pySlice (cumSlices 0 (arrs.map Prod.fst)) (i.getD 0) (j.getD bs.length)).length := by rw [htl, hsl]
  have hne' : pySlice (cumSlices 0 (arrs.map Prod.fst)) (i.getD 0) (j.getD bs.length) ≠ [] := by
    intro hc
    rw [hc] at hsl
    exact hne (List.length_eq_zero_iff.1 hsl.symm)
  have hmeta : fa.dim.metaslicePositions X i j =
      .ok ⟨t, pySlice (cumSlices 0 (arrs.map Prod.fst)) (i.getD 0) (j.getD bs.length), true⟩ := by
    unfold ExplicitDim.metaslicePositions
    simp only [hfa, h.scale.bands, ht, hlen]
    unfold ExplicitDim.new
    rw [if_neg (by simpa using hl), hcs]
  refine ⟨⟨(pySlice (List.replicate fa.width ()) (i.getD 0) (j.getD fa.width)).length,
    (List.range T).map (fun k => pySlice (rowOf arrs k) (i.getD 0) (j.getD (rowOf arrs k).length)),
    ⟨t, pySlice (cumSlices 0 (arrs.map Prod.fst)) (i.getD 0) (j.getD bs.length), true⟩⟩, ?_, ?_, rfl, rfl, ?_⟩
  · unfold FreqAdaptive.cutPositions
    rw [hmeta]
    simp only [keepOnIndexError]
    have hrows : (fa.rows.map fun r => pySlice r (i.getD 0) (j.getD r.length)) =
        (List.range T).map (fun k => pySlice (rowOf arrs k) (i.getD 0) (j.getD (rowOf arrs k).length)) := by
      rw [hfa]; simp only [List.map_map]; rfl
    rw [hrows]
    exact install_ok X _ _ _ cs hl hcs hne'
  · intro row hrow
    simp only [List.mem_map, List.mem_range] at hrow
    obtain ⟨k, hk, rfl⟩ := hrow
    have h1 := row_length h.arrays hk
    have hwid : fa.width = (rowOf arrs k).length := by rw [h1, hfa]
    simp only [hwid]
    exact slice_length _ _ (by simp) _ _
  · simp only [hcum]

/-- **C340** (when it is right): if every band has at least one coefficient, the number of columns of `fa[:, i:j]` is the number of coefficients
of the bands it is labelled with, for all `i < j`, exactly if every band has a single coefficient; then the columns are those of the bands. -/
theorem C340_exact (X : NumExt α) (T : Nat) (arrs : List (Nat × List (List β))) (s : Scale α) (bs : List (Band α))
    (fa : FreqAdaptive α β) (h : Made X T arrs s bs fa) (hone : ∀ a ∈ arrs, 0 < a.1)
    (hk : (∃ bs, s = .explicit bs) ∨ ∃ a b c n e, s = .geometric a b c n e)
    (hfrom : ∀ i j, i < j → j ≤ bs.length → ∃ t, s.fromSlice ((bs.take j).drop i) = .ok t) :
    ((∀ i j, i < j → j ≤ bs.length → ∀ r, fa.cutPositions X (some (i : Int)) (some (j : Int)) = .ok r →
        r.width = (((arrs.take j).drop i).map Prod.fst).sum) ↔ ∀ a ∈ arrs, a.1 = 1) ∧
    ((∀ a ∈ arrs, a.1 = 1) → ∀ i j, i < j → j ≤ bs.length → ∀ r, fa.cutPositions X (some (i : Int)) (some (j : Int)) = .ok r →
        r.rows = (List.range T).map (rowOf ((arrs.take j).drop i))) := by
  have hfa := h.eq
  have hwid : fa.width = (arrs.map Prod.fst).sum := by rw [hfa]
  have hcount := h.count
  have hcut : ∀ i j, i < j → j ≤ bs.length → ∃ r, fa.cutPositions X (some (i : Int)) (some (j : Int)) = .ok r ∧
      r.width = min j fa.width - min i fa.width ∧ r.rows = (List.range T).map (fun k => ((rowOf arrs k).take j).drop i) := by
    intro i j hij hj
    obtain ⟨t, ht⟩ := hfrom i j hij hj
    obtain ⟨h1, h2⟩ := C21_explicit_slice X s hk bs _ t h.scale.bands ht
    obtain ⟨r, r1, r2, r3, -⟩ := C340_positions X T arrs s bs fa h i j hij hj t ht
      (by rw [h2]; simp only [List.length_drop, List.length_take]; omega) _ h1
    exact ⟨r, r1, r2, r3⟩
  have hbefore : (∀ a ∈ arrs, a.1 = 1) → ∀ k, k ≤ arrs.length → before arrs k = k := by
    intro hall k
    induction k with
    | zero => intro _; rfl
    | succ k ih =>
      intro hk'
      rw [before_succ arrs (by omega), ih (by omega), hall _ (List.getElem_mem _)]
  refine ⟨⟨?_, ?_⟩, ?_⟩
  · intro hall
    have hb : ∀ k, k ≤ arrs.length → before arrs k = min k (arrs.map Prod.fst).sum := by
      intro k hk'
      by_cases h0 : k = 0
      · subst h0; simp [before]
      · obtain ⟨r, r1, r2, -⟩ := hcut 0 k (by omega) (by omega)
        have := hall 0 k (by omega) (by omega) r r1
        rw [r2, sum_drop_take arrs 0 k (by omega), hwid] at this
        simp only [before, List.take_zero, List.map_nil, List.sum_nil] at this ⊢
        omega
    intro a ha
    obtain ⟨i, hi, rfl⟩ := List.getElem_of_mem ha
    have h1 := hb i (by omega)
    have h2 := hb (i + 1) (by omega)
    have h3 := before_succ arrs hi
    have h4 := hone _ (List.getElem_mem hi)
    omega
  · intro hall i j hij hj r hr
    obtain ⟨r', r1, r2, -⟩ := hcut i j hij hj
    rw [hr] at r1
    cases r1
    have h1 := hbefore hall i (by omega)
    have h2 := hbefore hall j (by omega)
    have h3 := before_le arrs j
    rw [r2, sum_drop_take arrs i j (by omega), hwid]
    omega
  · intro hall i j hij hj r hr
    obtain ⟨r', r1, -, r3⟩ := hcut i j hij hj
    rw [hr] at r1
    cases r1
    rw [r3]
    apply List.map_congr_left
    intro k hk'
    have := row_between h.arrays (List.mem_range.1 hk') (lo := i) (hi := j) (by omega)
    rw [hbefore hall i (by omega), hbefore hall j (by omega), pySlice_nat] at this
    exact this

end

/-! ## Witnesses -/

/-- Four bands of one, two, two and one coefficients, two time steps. -/
def four : List (Nat × List (List Nat)) := [(1, [[1], [10]]), (2, [[2, 3], [20, 30]]), (2, [[4, 5], [40, 50]]), (1, [[6], [60]])]

/-- Their bands. -/
def fourBs : List (Band ℚ) := [⟨0, 10⟩, ⟨11, 20⟩, ⟨21, 30⟩, ⟨31, 40⟩]

/-- The array. -/
def fourFa : FreqAdaptive ℚ Nat := ⟨6, [[1, 2, 3, 4, 5, 6], [10, 20, 30, 40, 50, 60]], ⟨.explicit fourBs, [(0, 1), (1, 3), (3, 5), (5, 6)], true⟩⟩

theorem four_made : Made noExt 2 four (.explicit fourBs) fourBs fourFa :=
  ⟨⟨by decide, by decide, by decide⟩, ⟨rfl, rfl, by decide +kernel⟩, rfl, rfl⟩

theorem four_ordered : Ordered fourBs := ⟨by decide +kernel, by decide +kernel⟩

theorem four_wf : ∀ b ∈ fourBs, WF b := by unfold WF; decide +kernel

example := C338_range noExt 2 four (.explicit fourBs) fourBs fourFa four_made (fun b h => nomatch h) rfl four_ordered ⟨15, 25⟩
  (by decide +kernel) ⟨⟨11, 20⟩, by decide +kernel⟩ (.explicit [⟨11, 20⟩, ⟨21, 30⟩]) (by decide +kernel) (by decide +kernel) _ rfl
example := C338_explicit noExt 2 four (.explicit fourBs) fourBs fourFa four_made (.inl ⟨_, rfl⟩) four_wf four_ordered ⟨15, 25⟩
  (by decide +kernel) ⟨⟨11, 20⟩, by decide +kernel⟩
example : (fourFa.cut noExt ⟨15, 25⟩).map (fun r => r.rows) = .ok [[2, 3, 4, 5], [20, 30, 40, 50]] := by decide +kernel
example := C338_band noExt 2 four (.explicit fourBs) fourBs fourFa four_made 2 (by decide) (by decide) (four_wf _ (by decide +kernel))
example := C338_nothing noExt 2 four (.explicit fourBs) fourBs fourFa four_made (fun b h => nomatch h) rfl four_ordered ⟨50, 60⟩
  (by decide +kernel) (by decide +kernel)

/-- Two bands of a linear scale. -/
theorem two_made : Made noExt 2 [(1, [[10], [20]]), (2, [[11, 12], [21, 22]])] (.linear ⟨0, 100⟩ 2 false) [⟨0, 50⟩, ⟨50, 100⟩]
    ⟨3, [[10, 11, 12], [20, 21, 22]], ⟨.linear ⟨0, 100⟩ 2 false, [(0, 1), (1, 3)], true⟩⟩ :=
  ⟨⟨by decide, by decide, by decide⟩, ⟨by decide +kernel, rfl, by decide +kernel⟩, rfl, by
    rw [new_eq noExt 2 _ ⟨by decide, by decide, by decide⟩ _ [⟨0, 50⟩, ⟨50, 100⟩] ⟨by decide +kernel, rfl, by decide +kernel⟩ rfl]
    rfl⟩
example := C338_linear noExt 2 _ ⟨0, 100⟩ 2 (by unfold WF; norm_num) (by decide) _ _ two_made ⟨10, 70⟩ (by decide +kernel) (by decide +kernel)
example := C338_one_band_refuted noExt 2 _ _ _ _ _ two_made ⟨by decide +kernel, by decide +kernel⟩ (by unfold WF; decide +kernel) ⟨10, 20⟩
  (by decide +kernel) ⟨0, 50⟩ (by decide +kernel)

/-- The middle two bands. -/
def middle : FreqAdaptive ℚ Nat := ⟨4, [[2, 3, 4, 5], [20, 30, 40, 50]], ⟨.explicit [⟨11, 20⟩, ⟨21, 30⟩], [(1, 3), (3, 5)], true⟩⟩

theorem middle_cut : ∃ r, fourFa.cut noExt ⟨15, 25⟩ = .ok r ∧ r.rows = middle.rows := by
  obtain ⟨r, hr, h1, h2, h3, h4⟩ := C338_explicit noExt 2 four (.explicit fourBs) fourBs fourFa four_made (.inl ⟨_, rfl⟩) four_wf four_ordered
    ⟨15, 25⟩ (by decide +kernel) ⟨⟨11, 20⟩, by decide +kernel⟩
  exact ⟨r, hr, by rw [h2]; decide +kernel⟩

example : True := by
  obtain ⟨r, hr, -⟩ := middle_cut
  have := C339_again noExt 2 four (.explicit fourBs) fourBs fourFa four_made (.inl ⟨_, rfl⟩) four_wf four_ordered ⟨15, 25⟩
    (by decide +kernel) r hr 1 (by decide) (by decide) (by decide +kernel)
  have := C339_refuted noExt 2 four (.explicit fourBs) fourBs fourFa four_made (.inl ⟨_, rfl⟩) four_wf four_ordered (by decide) ⟨15, 25⟩
    (by decide +kernel) (by decide) (by decide +kernel) r hr 2 (by decide) (by decide) (by decide +kernel) (by decide +kernel)
  trivial
example : (middle.bandArray noExt ⟨11, 20⟩) = .ok (2, [[3, 4], [30, 40]]) := by decide +kernel
example : True := by
  obtain ⟨r, hr, -⟩ := C338_explicit noExt 2 four (.explicit fourBs) fourBs fourFa four_made (.inl ⟨_, rfl⟩) four_wf four_ordered ⟨5, 15⟩
    (by decide +kernel) ⟨⟨11, 20⟩, by decide +kernel⟩
  have := C339_from_start noExt 2 four (.explicit fourBs) fourBs fourFa four_made (.inl ⟨_, rfl⟩) four_wf four_ordered ⟨5, 15⟩
    (by decide +kernel) (by decide) (by decide +kernel) r hr 1 (by decide) (by decide) (by decide +kernel)
  trivial
example := C339_same_band noExt 2 four (.explicit fourBs) fourBs fourFa four_made 1 (by decide) (by decide) (four_wf _ (by decide +kernel))
example := C340_positions noExt 2 four (.explicit fourBs) fourBs fourFa four_made 1 3 (by decide) (by decide) (.explicit [⟨11, 20⟩, ⟨21, 30⟩])
  (by decide +kernel) rfl _ rfl
example := C340_slices noExt 2 four (.explicit fourBs) fourBs fourFa four_made (some (-2)) none (by decide +kernel) (.explicit [⟨21, 30⟩, ⟨31, 40⟩])
  (by decide +kernel) (by decide +kernel) _ rfl
example := C340_slices noExt 2 four (.explicit fourBs) fourBs fourFa four_made none (some 2) (by decide +kernel) (.explicit [⟨0, 10⟩, ⟨11, 20⟩])
  (by decide +kernel) (by decide +kernel) _ rfl
example := C340_exact noExt 2 four (.explicit fourBs) fourBs fourFa four_made (by decide) (.inl ⟨_, rfl⟩) (by
  intro i j hij hj
  have hj : j ≤ 4 := hj
  have : (i = 0 ∧ j = 1) ∨ (i = 0 ∧ j = 2) ∨ (i = 0 ∧ j = 3) ∨ (i = 0 ∧ j = 4) ∨ (i = 1 ∧ j = 2) ∨ (i = 1 ∧ j = 3) ∨ (i = 1 ∧ j = 4) ∨
    (i = 2 ∧ j = 3) ∨ (i = 2 ∧ j = 4) ∨ (i = 3 ∧ j = 4) := by omega
  rcases this with ⟨rfl, rfl⟩ | ⟨rfl, rfl⟩ | ⟨rfl, rfl⟩ | ⟨rfl, rfl⟩ | ⟨rfl, rfl⟩ | ⟨rfl, rfl⟩ | ⟨rfl, rfl⟩ | ⟨rfl, rfl⟩ | ⟨rfl, rfl⟩ | ⟨rfl, rfl⟩ <;>
    exact ⟨_, rfl⟩)

end Zounds.Cut
