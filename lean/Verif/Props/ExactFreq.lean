import Verif.Props.Frequency
import Verif.Props.Onset

/-!
# Exactly when (C77 - C80): frequency scales and onsets
-/

set_option linter.unusedSectionVars false

namespace Zounds.Props.Frequency
open Zounds Zounds.Freq

variable {α : Type} [Field α] [LinearOrder α]

section
variable [IsStrictOrderedRing α]

/-- **C77** (exactly when): with `always_even`, the number of rows selected by a range is even if and only if the number of rows touching it is even
or the last band of the scale does not touch it; a row is added only in the latter case. -/
theorem C77_exact (X : NumExt α) (s : Scale α) (hs : Sliceable s) (heven : s.alwaysEven = true)
    (bs : List (Band α)) (hb : s.bands X = .ok bs) (ho : Ordered bs) (q : Band α) :
    ∃ out, s.getSlice X (.band q) = .ok out ∧
      ∀ {β : Type} (l : List β), l.length = bs.length → ∃ sel extra, out.select l = .ok sel ∧ sel = rowsTouching bs q l ++ extra ∧ extra.length ≤ 1 ∧
        (sel.length % 2 = 0 ↔ (rowsTouching bs q l).length % 2 = 0 ∨ ∀ b, bs.getLast? = some b → touches q b = false) ∧
        (extra ≠ [] → (rowsTouching bs q l).length % 2 = 1 ∧ ∀ b, bs.getLast? = some b → touches q b = false) := by
  obtain ⟨hlo, hhi, hrun⟩ := run_spec bs ho q
  obtain ⟨out, h1, h2⟩ := C20_even_partial X s hs heven bs hb ho q
  refine ⟨out, h1, ?_⟩
  intro β l hl
  obtain ⟨extra, e1, e2, e3⟩ := h2 l hl
  have key : extra ≠ [] → (rowsTouching bs q l).length % 2 = 1 ∧ ∀ b, bs.getLast? = some b → touches q b = false := by
    intro hx
    have hlen : extra.length = 1 := by
      have : extra.length ≠ 0 := by simpa using hx
      omega
    have hodd : (rowsTouching bs q l).length % 2 = 1 := by
      rcases e3 with e | ⟨e, _⟩
      · rw [List.length_append] at e; omega
      · exact absurd e hx
    refine ⟨hodd, ?_⟩
    intro b hbl
    by_contra ht
    rw [Bool.not_eq_false] at ht
    rw [List.getLast?_eq_getElem?] at hbl
    have hpos : bs.length - 1 < bs.length := by
      rw [List.getElem?_eq_some_iff] at hbl
      exact hbl.1
    rw [List.getElem?_eq_getElem hpos] at hbl
    cases hbl
    have hr := (hrun _ hpos).1 ht
    have htouch : rowsTouching bs q l = (l.take (bisectLeft (bs.map Band.start) q.stop)).drop (bisectLeft (bs.map Band.stop) q.start) := by
      rw [take_drop_eq_filter bs l (touches q) _ _ hl hrun]; rfl
    have hout : out = .run (bandRun true bs q).1 (bandRun true bs q).2 := by
      have : s.getSlice X (.band q) = .ok (.run (bandRun true bs q).1 (bandRun true bs q).2) := by
        cases s with
        | chroma b => exact absurd rfl (hs b)
        | _ => simp only [Scale.getSlice, hb, heven]
      rw [this] at h1
      cases h1; rfl
    have hsel : out.select l = .ok ((l.take (bandRun true bs q).2).drop (bandRun true bs q).1) := by rw [hout]; rfl
    rw [hsel] at e2
    have e2' := congrArg (Except.map List.length) e2
    simp only [Except.map, Except.ok.injEq, List.length_append, htouch, List.length_drop, List.length_take] at e2'
    have hlo2 : (bandRun true bs q).1 = bisectLeft (bs.map Band.stop) q.start := by unfold bandRun; simp only; split <;> rfl
    rw [hlo2] at e2'
    omega
  refine ⟨_, extra, e2, rfl, e1, ?_, key⟩
  constructor
  · intro h
    by_cases hx : extra = []
    · left; subst hx; simpa using h
    · exact Or.inr (key hx).2
  · rintro (h | h)
    · rcases e3 with e | ⟨e, _⟩
      · exact e
      · subst e; simpa using h
    · rcases e3 with e | ⟨e, b, e4, e5⟩
      · exact e
      · rw [h b e4] at e5; cases e5

/-- **C78** (exactly when): `scale[i:j]` of a linear scale has the selected bands if and only if there are at least two; a single one gives a scale
whose bands cannot be asked for, none is an IndexError.  The result is never `always_even`. -/
theorem C78_exact (X : NumExt α) (b : Band α) (n : Nat) (ev : Bool) (hb : WF b) (hn : 2 ≤ n)
    (i j : Int) (bs : List (Band α)) (hbs : (Scale.linear b n ev).bands X = .ok bs) :
    ((∃ t, (Scale.linear b n ev).getScale X (.slice (.int i) (.int j)) = .ok t ∧ t.bands X = .ok (pySlice bs i j)) ↔ 2 ≤ (pySlice bs i j).length) ∧
    ((pySlice bs i j).length = 1 → ∃ t, (Scale.linear b n ev).getScale X (.slice (.int i) (.int j)) = .ok t ∧ t.len = 1 ∧ t.bands X = .error .indexError) ∧
    (pySlice bs i j = [] → (Scale.linear b n ev).getScale X (.slice (.int i) (.int j)) = .error .indexError) ∧
    (∀ t, (Scale.linear b n ev).getScale X (.slice (.int i) (.int j)) = .ok t → t.alwaysEven = false) := by
  have hbs' : (Scale.linear b n ev).bands X = .ok ((List.range n).map (part b n)) := linearBands_eq b n hb hn
  have hget : (Scale.linear b n ev).getScale X (.slice (.int i) (.int j)) = (Scale.linear b n ev).fromSlice (pySlice bs i j) := by
    unfold Scale.getScale
    rw [hbs]
    simp only [sliceList, Bnd.asInt, Option.getD_some]
  have hwf : ∀ c ∈ pySlice bs i j, WF c := by
    intro c hc
    have hm : c ∈ bs := List.mem_of_mem_take (List.mem_of_mem_drop hc)
    obtain ⟨cs, e, _, _, _, _, h⟩ := C21_linear_tiles X b n ev hb hn
    rw [hbs] at e
    cases e
    exact (h c hm).1
  have hone : (pySlice bs i j).length = 1 → ∃ t, (Scale.linear b n ev).getScale X (.slice (.int i) (.int j)) = .ok t ∧ t.len = 1 ∧ t.bands X = .error .indexError := by
    intro h1
    obtain ⟨c, hc⟩ := List.length_eq_one_iff.1 h1
    have hw : WF c := hwf c (by rw [hc]; simp)
    refine ⟨.linear c 1 false, ?_, rfl, rfl⟩
    rw [hget, hc]
    simp only [Scale.fromSlice, spanOf, List.head?_cons, List.getLast?_singleton, (C22_new _ _).1 hw, List.length_singleton]
  have hnone : pySlice bs i j = [] → (Scale.linear b n ev).getScale X (.slice (.int i) (.int j)) = .error .indexError := by
    intro h
    rw [hget, h]
    rfl
  refine ⟨⟨?_, ?_⟩, hone, hnone, ?_⟩
  · rintro ⟨t, h1, h2⟩
    by_contra hlt
    rcases (show (pySlice bs i j).length = 0 ∨ (pySlice bs i j).length = 1 by omega) with h | h
    · rw [hnone (List.length_eq_zero_iff.1 h)] at h1; cases h1
    · obtain ⟨t', g1, _, g3⟩ := hone h
      rw [g1] at h1; cases h1
      rw [g3] at h2; cases h2
  · intro h
    obtain ⟨t, h1, h2, _⟩ := C21_slice_int X b n ev hb hn i j bs hbs h
    exact ⟨t, h1, h2⟩
  · intro t ht
    rw [hget] at ht
    simp only [Scale.fromSlice] at ht
    split at ht
    · cases ht
    · cases ht; rfl

end

theorem zipAllEq_prefix : ∀ bs cs : List (Band α), zipAllEq bs cs = true ↔ bs <+: cs ∨ cs <+: bs
  | [], _ => by simp [zipAllEq]
  | _ :: _, [] => by simp [zipAllEq]
  | b :: bs, c :: cs => by
    rw [zipAllEq, Bool.and_eq_true, zipAllEq_prefix bs cs, List.cons_prefix_cons, List.cons_prefix_cons]
    have : b.eq c = true ↔ b = c := by
      cases b; cases c; simp [Band.eq]
    rw [this]
    constructor
    · rintro ⟨rfl, h | h⟩
      · exact Or.inl ⟨rfl, h⟩
      · exact Or.inr ⟨rfl, h⟩
    · rintro (⟨rfl, h⟩ | ⟨rfl, h⟩)
      · exact ⟨rfl, Or.inl h⟩
      · exact ⟨rfl, Or.inr h⟩

/-- **C79** (exactly when): an explicit scale equals another scale, of whatever kind, if and only if the bands of one of them begin the bands of the
other; explicit dimensions, which have one slice for each band, are equal if and only if they have the same bands, the same slices and the same kind
of sequence. -/
theorem C79_exact (X : NumExt α) :
    (∀ (bs cs : List (Band α)) (t : Scale α), t.bands X = .ok cs → ((Scale.explicit bs).eq X t = .ok true ↔ bs <+: cs ∨ cs <+: bs)) ∧
    (∀ (d e : ExplicitDim α) (bs cs : List (Band α)), ExplicitDim.new X d.scale d.slices d.isList = .ok d → ExplicitDim.new X e.scale e.slices e.isList = .ok e →
      d.scale = .explicit bs → e.scale.bands X = .ok cs → e.scale.len = cs.length →
      (d.eq X e = .ok true ↔ bs = cs ∧ d.slices = e.slices ∧ d.isList = e.isList)) := by
  have h1 : ∀ (bs cs : List (Band α)) (t : Scale α), t.bands X = .ok cs → ((Scale.explicit bs).eq X t = .ok true ↔ bs <+: cs ∨ cs <+: bs) := by
    intro bs cs t ht
    have : (Scale.explicit bs).eq X t = .ok (zipAllEq bs cs) := by
      unfold Scale.eq
      simp only [ht]
    rw [this, ← zipAllEq_prefix, Except.ok.injEq]
  refine ⟨h1, ?_⟩
  intro d e bs cs hd he hds hes hlen
  have hdl : d.scale.len = d.slices.length := by
    unfold ExplicitDim.new at hd
    split at hd
    · cases hd
    · rename_i h; exact Classical.not_not.1 h
  have hel : e.scale.len = e.slices.length := by
    unfold ExplicitDim.new at he
    split at he
    · cases he
    · rename_i h; exact Classical.not_not.1 h
  have hk := h1 bs cs e.scale hes
  rw [hds] at hdl
  simp only [Scale.len] at hdl
  obtain ⟨r, hr⟩ : ∃ r, (Scale.explicit bs).eq X e.scale = .ok r := by
    unfold Scale.eq
    simp only [hes]
    exact ⟨_, rfl⟩
  unfold ExplicitDim.eq
  rw [hds, hr]
  rw [hr] at hk
  cases r with
  | false =>
    constructor
    · intro h; simp at h
    · rintro ⟨rfl, _⟩
      exact absurd (hk.2 (Or.inl List.prefix_rfl)) (by simp)
  | true =>
    have hp := hk.1 rfl
    simp only [Except.ok.injEq, Bool.and_eq_true, decide_eq_true_eq]
    constructor
    · rintro ⟨a, b⟩
      refine ⟨?_, b, a⟩
      have hl : bs.length = cs.length := by rw [hdl, b, ← hel, hlen]
      rcases hp with hp | hp
      · exact hp.eq_of_length hl
      · exact (hp.eq_of_length hl.symm).symm
    · rintro ⟨_, b, c⟩
      exact ⟨c, b⟩

/-- **C79** (exactly when): selecting one of the dimension's own bands gives the slice of its last occurrence: the slice stored for the band in place
`i` can be selected if and only if no later place has the same band and a different slice. -/
theorem C79_lookup (X : NumExt α) (d : ExplicitDim α) (bs : List (Band α)) (hb : d.scale.bands X = .ok bs) (hl : d.slices.length = bs.length)
    (i : Nat) (hi : i < bs.length) (hlast : ∀ j (hj : j < bs.length), i < j → bs[j] ≠ bs[i]) :
    ∀ k (hk : k < bs.length), bs[k] = bs[i] → d.intSlice X bs[k] = .ok d.slices[i] := by
  have hi' : i < d.slices.length := by omega
  have heq : ∀ a b : Band α, a.eq b = true ↔ a = b := by
    intro a b; cases a; cases b; simp [Band.eq]
  have hz : i < (bs.zip d.slices).length := by simp [List.length_zip]; omega
  have hsplit : bs.zip d.slices = (bs.zip d.slices).take i ++ (bs[i], d.slices[i]) :: (bs.zip d.slices).drop (i + 1) := by
    conv_lhs => rw [← List.take_append_drop i (bs.zip d.slices), List.drop_eq_getElem_cons hz]
    simp
  have hfind : lookupBand bs d.slices bs[i] = some d.slices[i] := by
    unfold lookupBand
    rw [hsplit, List.reverse_append, List.reverse_cons, List.append_assoc, List.find?_append]
    have hn : (((bs.zip d.slices).drop (i + 1)).reverse.find? fun p => p.1.eq bs[i]) = none := by
      rw [List.find?_eq_none]
      intro p hp
      rw [List.mem_reverse] at hp
      obtain ⟨m, hm, rfl⟩ := List.getElem_of_mem hp
      simp only [List.length_drop, List.length_zip] at hm
      rw [heq]
      simp only [List.getElem_drop, List.getElem_zip]
      exact hlast _ _ (by omega)
    rw [hn]
    simp [(heq bs[i] bs[i]).2 rfl]
  intro k hk e
  rw [e]
  unfold ExplicitDim.intSlice
  simp only [hb, hfind]

end Zounds.Props.Frequency

namespace Zounds.Onset
open Zounds

/-- **C80** (exactly when): every slice has a positive length if and only if the stream has rows and the first is not an onset. -/
theorem C80_exact {α : Type} (freq : Int) (hf : 0 < freq) (p : α → Bool) (cs : List (List α)) :
    (∀ x ∈ pick freq (whereFrom p 0) Picker.init cs, 0 < x.2) ↔ ∃ x, cs.flatten.head? = some x ∧ p x = false := by
  constructor
  · intro h
    rw [C25_slices freq (by omega) _ (whereFrom_increasing p), absOnsets_whereFrom] at h
    cases hc : cs.flatten with
    | nil =>
      rw [hc] at h
      have := h (0, 0) (by simp [whereFrom, between])
      simp at this
    | cons x rest =>
      refine ⟨x, rfl, ?_⟩
      by_contra hp
      rw [Bool.not_eq_false] at hp
      rw [hc] at h
      simp only [whereFrom, hp, if_true, List.map_cons, List.cons_append] at h
      have := h (0, ((0 : Nat) : Int) * freq - 0) (by simp [between])
      simp at this
  · rintro ⟨x, h1, h2⟩
    refine C25_positive_durations freq hf p cs ?_ ?_
    · intro e; rw [e] at h1; cases h1
    · intro y hy; rw [h1] at hy; cases hy; exact h2

/-- **C80** (exactly when): spectral flux fails unless nothing arrives at all. -/
theorem C80_flux {α β : Type} (unit : α → α) (dist : α → α → β) (cs : List (List α)) (m : Option α) :
    (∃ out, fluxStream unit dist m cs = .ok out) ↔ cs = [] := by
  cases cs with
  | nil => simp [fluxStream]
  | cons c cs => simp [C25_flux_refused]

/-- **C80** (exactly when): an isolated peak is a peak of a window that is zero elsewhere; a window with the threshold at its mean reports one in the
place it looks at, when its right neighbour is less than the peak but greater than one and a quarter times the mean. -/
theorem C80_peak (c : Nat) (row : List Rat) (h2 : 2 ≤ c) (hc : c < row.length) :
    (movingAverageOnset mean c row = true ↔ row[c - 2] < row[c - 1] ∧ row[c] < row[c - 1] ∧ mean row * (5 / 4) < row[c]) ∧
    (∀ n k v, 0 ≤ v → row = (List.replicate n (0 : Rat)).set k v → movingAverageOnset mean c row = false) := by
  refine ⟨C25_moving_average_rule mean c row h2 hc, ?_⟩
  rintro n k v hv rfl
  exact C25_isolated_peak_missed n c k v hv

example : (∀ x ∈ pick 10 (whereFrom (fun (b : Bool) => b) 0) Picker.init [[false, true], [true]], 0 < x.2) ∧
    ¬ ∀ x ∈ pick 10 (whereFrom (fun (b : Bool) => b) 0) Picker.init [[true, true], [false]], 0 < x.2 :=
  ⟨(C80_exact 10 (by decide) _ _).2 ⟨false, rfl, rfl⟩, fun h => by
    obtain ⟨x, h1, h2⟩ := (C80_exact 10 (by decide) _ _).1 h
    cases h1
    cases h2⟩

end Zounds.Onset

namespace Zounds.Props.Frequency
open Zounds Zounds.Freq

/-- Three bands of a scale that is always even: a range that touches the first two selects two, one that touches the middle one and the one before it
selects these, one that touches all selects all three. -/
example : (∃ out, (Scale.linear (⟨0, 30⟩ : Band ℚ) 3 true).getSlice noExt (.band ⟨1, 12⟩) = .ok out ∧ out.select [0, 1, 2] = .ok [0, 1]) ∧
    (∃ out, (Scale.linear (⟨0, 30⟩ : Band ℚ) 3 true).getSlice noExt (.band ⟨1, 5⟩) = .ok out ∧ out.select [0, 1, 2] = .ok [0, 1]) ∧
    (∃ out, (Scale.linear (⟨0, 30⟩ : Band ℚ) 3 true).getSlice noExt (.band ⟨1, 25⟩) = .ok out ∧ out.select [0, 1, 2] = .ok [0, 1, 2]) :=
  ⟨⟨.run 0 2, by decide +kernel, rfl⟩, ⟨.run 0 2, by decide +kernel, rfl⟩, ⟨.run 0 4, by decide +kernel, rfl⟩⟩

/-- **C21** (construction): a geometric scale is built from the arguments, exactly if its bands can be, with at least one, and the first starts before the
last stops; an explicit scale likewise from its bands.  The span of the scale is from the start of its first to the stop of its last band. -/
theorem C21_built {α : Type} [Field α] [LinearOrder α] (X : NumExt α) (s e r : α) (n : Nat) (even : Bool) (bands : List (Band α)) (t : Scale α) :
    (newGeometric X s e r n even = .ok t ↔
      t = .geometric s e r n even ∧ ∃ bs f l, t.bands X = .ok bs ∧ bs.head? = some f ∧ bs.getLast? = some l ∧ f.start < l.stop) ∧
    (newExplicit bands = .ok t ↔ t = .explicit bands ∧ ∃ f l, bands.head? = some f ∧ bands.getLast? = some l ∧ f.start < l.stop) ∧
    (∀ f l, bands.head? = some f → bands.getLast? = some l → f.start < l.stop → (Scale.explicit bands).band X = .ok ⟨f.start, l.stop⟩) ∧
    (∀ bs f l, (Scale.geometric s e r n even).bands X = .ok bs → bs.head? = some f → bs.getLast? = some l → f.start < l.stop →
      (Scale.geometric s e r n even).band X = .ok ⟨f.start, l.stop⟩) := by
  have hspan : ∀ (bs : List (Band α)) b, spanOf bs = .ok b ↔ ∃ f l, bs.head? = some f ∧ bs.getLast? = some l ∧ f.start < l.stop ∧ b = ⟨f.start, l.stop⟩ := by
    intro bs b
    unfold spanOf
    cases h1 : bs.head? with
    | none => simp
    | some f =>
      cases h2 : bs.getLast? with
      | none => simp
      | some l =>
        by_cases hlt : f.start < l.stop
        · simp only [(C22_new f.start l.stop).1 hlt, Except.ok.injEq]
          constructor
          · intro h; exact ⟨f, l, rfl, rfl, hlt, h.symm⟩
          · rintro ⟨f', l', e1, e2, -, h⟩
            cases e1; cases e2; exact h.symm
        · simp only [(C22_new f.start l.stop).2 hlt, reduceCtorEq, false_iff]
          rintro ⟨f', l', e1, e2, h, -⟩
          cases e1; cases e2; exact hlt h
  refine ⟨?_, ?_, ?_, ?_⟩
  · unfold newGeometric
    cases hb : geometricBands X s e r n with
    | error err =>
      simp only [reduceCtorEq, false_iff]
      rintro ⟨rfl, bs, f, l, h, -⟩
      have : geometricBands X s e r n = .ok bs := h
      rw [hb] at this; cases this
    | ok bs =>
      simp only []
      cases hs : spanOf bs with
      | error err =>
        simp only [reduceCtorEq, false_iff]
        rintro ⟨rfl, bs', f, l, h, h1, h2, h3⟩
        have : geometricBands X s e r n = .ok bs' := h
        rw [hb] at this; cases this
        have := (hspan bs ⟨f.start, l.stop⟩).2 ⟨f, l, h1, h2, h3, rfl⟩
        rw [hs] at this; cases this
      | ok b =>
        simp only [Except.ok.injEq]
        constructor
        · rintro rfl
          obtain ⟨f, l, h1, h2, h3, -⟩ := (hspan bs b).1 hs
          exact ⟨rfl, bs, f, l, hb, h1, h2, h3⟩
        · rintro ⟨rfl, -⟩; rfl
  · unfold newExplicit
    cases hs : spanOf bands with
    | error err =>
      simp only [reduceCtorEq, false_iff]
      rintro ⟨rfl, f, l, h1, h2, h3⟩
      have := (hspan bands ⟨f.start, l.stop⟩).2 ⟨f, l, h1, h2, h3, rfl⟩
      rw [hs] at this; cases this
    | ok b =>
      simp only [Except.ok.injEq]
      constructor
      · rintro rfl
        obtain ⟨f, l, h1, h2, h3, -⟩ := (hspan bands b).1 hs
        exact ⟨rfl, f, l, h1, h2, h3⟩
      · rintro ⟨rfl, -⟩; rfl
  · intro f l h1 h2 h3
    exact (hspan bands _).2 ⟨f, l, h1, h2, h3, rfl⟩
  · intro bs f l h h1 h2 h3
    have hb : geometricBands X s e r n = .ok bs := h
    simp only [Scale.band, hb]
    exact (hspan bs _).2 ⟨f, l, h1, h2, h3, rfl⟩

example : newExplicit [(⟨1, 2⟩ : Band ℚ), ⟨2, 5⟩] = .ok (.explicit [⟨1, 2⟩, ⟨2, 5⟩]) := by decide +kernel

example := C77_exact noExt (Scale.linear (⟨0, 30⟩ : Band ℚ) 3 true) (fun b h => nomatch h) rfl [⟨0, 15⟩, ⟨15, 30⟩, ⟨30, 45⟩]
example := C78_exact noExt (⟨0, 30⟩ : Band ℚ) 3 true (by unfold WF; norm_num) (by decide) 0 2
example := C79_exact (α := ℚ) noExt
example := C79_lookup noExt (⟨.explicit [⟨1, 2⟩, ⟨2, 5⟩, ⟨1, 2⟩], [(0, 3), (3, 5), (5, 9)], true⟩ : ExplicitDim ℚ) [⟨1, 2⟩, ⟨2, 5⟩, ⟨1, 2⟩] rfl rfl 2 (by decide)
  (by intro j hj h; have : j < 3 := hj; omega)
example := Zounds.Onset.C80_peak 2 [1, 5, 2, 0] (by decide) (by decide)

end Zounds.Props.Frequency
