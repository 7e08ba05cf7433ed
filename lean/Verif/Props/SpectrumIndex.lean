import Verif.Props.ExactIndex
import Verif.Props.ArrayOps
import Verif.Props.ArrayWrite
import Verif.Props.Frequency

/-!
# Cutting a spectrum by frequency: the columns keep their bands (C301)
-/

namespace Zounds.Arr
open Zounds Zounds.Freq Zounds.Props.Frequency

section
variable {φ : Type} [Field φ] [LinearOrder φ] (X : Freq.NumExt φ)

/-- `n` frames of a spectrum on the scale `s`; the frames are a time axis or have no dimension of their own. -/
structure Spectrum {α : Type} (a : Awu (LibDim φ) α) (n : Nat) (d : LibDim φ) (s : Scale φ) : Prop where
  shape : a.shape = [n, s.len]
  dims : a.dims = [d, .freq s]
  frames : d = .identity ∨ ∃ f u, d = .time f u (some n)

/-- All frames, and of every frame a part. -/
def columns (it : Item (LibIdx φ)) : List (Item (LibIdx φ)) := [.slice none none none, it]

/-- The index is a slice, a frequency band or a slice of frequencies. -/
def Slicing : Item (LibIdx φ) → Prop
  | .slice _ _ _ => True
  | .custom _ => True
  | _ => False

/-- The slice of positions an item becomes. -/
def Becomes (s : Scale φ) (it : Item (LibIdx φ)) (x y st : Option Int) : Prop :=
  (match it.raw with | some r => (Except.ok r : Except PyErr NpItem) | none => (libOps X).intSlice (.freq s) it) = .ok (.slice x y st)

theorem getitem_columns {α : Type} {a : Awu (LibDim φ) α} {n : Nat} {d : LibDim φ} {s : Scale φ} (h : Spectrum a n d s) (it : Item (LibIdx φ))
    (hs : Slicing it) (x y st : Option Int) (hb : Becomes X s it x y st) (p t : Int) (c : Nat) (hr : sliceRange s.len x y st = .ok (p, t, c)) :
    a.getitem (libOps X) (columns it) =
      match freqScale X s it with
      | .ok s' => if c = s'.len then .ok ⟨[n, c], [d, .freq s'], fun idx => a.get (walk [.run 0 1 n, .run p t c] 0 idx)⟩ else .error .valueError
      | .error .indexError => if c = s.len then .ok ⟨[n, c], [d, .freq s], fun idx => a.get (walk [.run 0 1 n, .run p t c] 0 idx)⟩ else .error .valueError
      | .error e => .error e := by
  have hfirst : (Item.slice none none none : Item (LibIdx φ)).raw = some (.slice none none none) := rfl
  have hcomp : computeIndices (libOps X) a.dims 2 0 (columns it) = .ok [.slice none none none, .slice x y st] := by
    unfold Becomes at hb
    cases it with
    | slice a' b' st' =>
      cases hraw : (Item.slice a' b' st' : Item (LibIdx φ)).raw with
      | some r =>
        simp only [hraw] at hb
        cases hb
        simp only [columns, computeIndices, hfirst, hraw]
      | none =>
        simp only [hraw] at hb
        simp only [columns, computeIndices, hfirst, hraw, h.dims]
        simp [pyAt, hb]
    | custom k =>
      have hraw : (Item.custom k : Item (LibIdx φ)).raw = none := rfl
      simp only [hraw] at hb
      simp only [columns, computeIndices, hfirst, hraw, h.dims]
      simp [pyAt, hb]
    | _ => exact absurd hs id
  have hv : npIndex [n, s.len] [.slice none none none, .slice x y st] = .ok ⟨[n, c], fun idx => walk [.run 0 1 n, .run p t c] 0 idx⟩ := by
    simp only [npIndex, expand]
    have h0 : sliceRange n none none none = .ok (0, 1, n) := by simp [sliceRange, upFrom, upTo]
    simp [List.countP_cons, NpItem.consumes, pieces, hr, h0, view, Piece.isPick, Piece.axis]
  have hcount : (columns it).countP Item.counts = 2 := by
    cases it with
    | slice a' b' st' => rfl
    | custom k => rfl
    | _ => exact absurd hs id
  have hlen : (columns it).length = 2 := rfl
  have hd : metasliceOr (libOps X) d (.slice none none none) (some n) = .ok d := by
    rcases h.frames with rfl | ⟨f, u, rfl⟩ <;> simp [metasliceOr, libOps]
  have hin : (libOps X).install d n = .ok d := by
    rcases h.frames with rfl | ⟨f, u, rfl⟩ <;> simp [libOps]
  have hdims : newDims (libOps X) a.dims 2 [n, c] 0 0 (columns it) =
      match metasliceOr (libOps X) (.freq s) it (some c) with
      | .error e => .error e
      | .ok d' => .ok [d, d'] := by
    cases it with
    | slice a' b' st' =>
      simp only [columns, newDims, h.dims, List.getElem?_cons_zero, List.getElem?_cons_succ, hd, List.drop]
      cases metasliceOr (libOps X) (.freq s) (.slice a' b' st') (some c) <;> rfl
    | custom k =>
      simp only [columns, newDims, h.dims, List.getElem?_cons_zero, List.getElem?_cons_succ, hd, List.drop]
      cases metasliceOr (libOps X) (.freq s) (.custom k) (some c) <;> rfl
    | _ => exact absurd hs id
  have hnew : ∀ s' : Scale φ, Awu.new (libOps X) [n, c] (fun idx => a.get (walk [.run 0 1 n, .run p t c] 0 idx)) [d, .freq s'] =
      if c = s'.len then .ok ⟨[n, c], [d, .freq s'], fun idx => a.get (walk [.run 0 1 n, .run p t c] 0 idx)⟩ else .error .valueError := by
    intro s'
    unfold Awu.new
    rw [if_neg (by simp)]
    simp only [installAll, hin, (C36_lib_install X c).2.1 s']
    by_cases hc : c = s'.len <;> simp [hc]
  unfold Awu.getitem
  rw [hlen, hcomp, hcount, h.shape]
  simp only [hv, hdims, metasliceOr]
  have hm : (libOps X).metaslice (.freq s) it c = match freqScale X s it with | .error e => .error e | .ok s' => .ok (.freq s') := rfl
  rw [hm]
  cases hf : freqScale X s it with
  | ok s' => simp only [hnew]
  | error e =>
    cases e <;> simp only [hnew]

/-- Every column of the result carries the band it had before, and the columns are in their old order: column `k` is column `pos k` of `a`, in
every frame, and band `k` of the scale of the result is band `pos k` of the scale of `a`. -/
def Aligned {α : Type} (a r : Awu (LibDim φ) α) (n : Nat) (bs bs' : List (Band φ)) : Prop :=
  ∃ pos : Nat → Nat, (∀ i j, i < j → j < bs'.length → pos i < pos j) ∧
    ∀ k (b : Band φ), bs'[k]? = some b → bs[pos k]? = some b ∧ ∀ i, i < n → r.get [i, k] = a.get [i, pos k]

/-- A run of columns. -/
theorem aligned_run {α : Type} (a r : Awu (LibDim φ) α) (n lo hi : Nat) (c : Nat) (bs : List (Band φ))
    (hr : r.get = fun idx => a.get (walk [.run 0 1 n, .run lo 1 c] 0 idx)) : Aligned a r n bs ((bs.take hi).drop lo) := by
  refine ⟨fun k => lo + k, fun i j h _ => Nat.add_lt_add_left h lo, fun k b hk => ?_⟩
  rw [List.getElem?_drop, List.getElem?_take] at hk
  split at hk
  · refine ⟨hk, fun i _ => ?_⟩
    rw [hr]
    simp only [walk, List.headD_cons, List.tail_cons]
    congr 2
    · simp
    · congr 1; simp; omega
  · cases hk

theorem sliceRange_run (m lo hi : Nat) (hlo : lo ≤ m) :
    sliceRange m (some (lo : Int)) (some (hi : Int)) none = .ok ((lo : Int), 1, min hi m - lo) := by
  simp only [sliceRange, Option.getD_none, upFrom, upTo, pyBound]
  simp
  omega

theorem bandRun_lo (ev : Bool) (bs : List (Band φ)) (ho : Ordered bs) (q : Band φ) : (bandRun ev bs q).1 ≤ bs.length := by
  unfold bandRun
  simp only []
  split <;> exact (run_spec bs ho q).1

/-- The columns a frequency index stands for: a run of them. -/
theorem getitem_run {α : Type} {a : Awu (LibDim φ) α} {n : Nat} {d : LibDim φ} {s : Scale φ} (h : Spectrum a n d s) (k : LibIdx φ) (ix : Index φ)
    (hix : freqIndex (.custom k : Item (LibIdx φ)) = some ix) (lo hi : Nat) (hg : s.getSlice X ix = .ok (.run lo hi)) (bs : List (Band φ))
    (hbs : s.bands X = .ok bs) (hl : bs.length = s.len) (hlo : lo ≤ bs.length) (hsc : s.getScale X ix = s.fromSlice ((bs.take hi).drop lo)) :
    a.getitem (libOps X) (columns (.custom k)) =
      match s.fromSlice ((bs.take hi).drop lo) with
      | .ok s' => if ((bs.take hi).drop lo).length = s'.len then
          .ok ⟨[n, ((bs.take hi).drop lo).length], [d, .freq s'], fun idx => a.get (walk [.run 0 1 n, .run lo 1 ((bs.take hi).drop lo).length] 0 idx)⟩
        else .error .valueError
      | .error .indexError => if ((bs.take hi).drop lo).length = s.len then
          .ok ⟨[n, ((bs.take hi).drop lo).length], [d, .freq s], fun idx => a.get (walk [.run 0 1 n, .run lo 1 ((bs.take hi).drop lo).length] 0 idx)⟩
        else .error .valueError
      | .error e => .error e := by
  have hlen : ((bs.take hi).drop lo).length = min hi s.len - lo := by simp [hl]
  have hb : Becomes X s (.custom k) (some lo) (some hi) none := by
    unfold Becomes
    simp only [Item.raw, libOps, hix, hg]
  have hf : freqScale X s (.custom k) = s.fromSlice ((bs.take hi).drop lo) := by
    simp only [freqScale, hix, hsc]
  rw [getitem_columns X h (.custom k) trivial _ _ _ hb _ _ _ (sliceRange_run s.len lo hi (hl ▸ hlo)), hf, hlen]

theorem getScale_of_getSlice (s : Scale φ) (ix : Index φ) (lo hi : Nat) (hg : s.getSlice X ix = .ok (.run lo hi)) (bs : List (Band φ))
    (hbs : s.bands X = .ok bs) : s.getScale X ix = s.fromSlice ((bs.take hi).drop lo) := by
  unfold Scale.getScale
  rw [hbs]
  cases ix with
  | int i =>
    cases s <;> simp [Scale.getSlice] at hg
  | band q => simp only [hg, SliceOut.select]
  | slice a b =>
    have hd : ∃ e, sliceList bs a b = .error e := by
      have : ¬ (!a.isHertz && !b.isHertz) = true := by
        intro hc
        cases s <;> simp [Scale.getSlice, hc] at hg
      cases a <;> cases b <;> simp [Bnd.isHertz] at this <;> simp [sliceList, Bnd.asInt]
    obtain ⟨e, he⟩ := hd
    simp only [he, hg, SliceOut.select]

/-- The bands a frequency band picks from a scale that does not round to an even number: those it touches. -/
theorem run_touching (bs : List (Band φ)) (ho : Ordered bs) (q : Band φ) :
    (bs.take (bisectLeft (bs.map Band.start) q.stop)).drop (bisectLeft (bs.map Band.stop) q.start) = bs.filter (touches q) := by
  rw [take_drop_eq_filter bs bs (touches q) _ _ rfl (run_spec bs ho q).2.2]
  have : bs.zip bs = bs.map fun x => (x, x) := by
    rw [List.zip_eq_zipWith]
    clear ho
    induction bs with
    | nil => rfl
    | cons x xs ih => simp
  rw [this, List.filter_map, List.map_map]
  simp [Function.comp_def]

theorem getSlice_band (s : Scale φ) (hs : Sliceable s) (heven : s.alwaysEven = false) (bs : List (Band φ)) (hbs : s.bands X = .ok bs) (q : Band φ) :
    s.getSlice X (.band q) = .ok (.run (bisectLeft (bs.map Band.stop) q.start) (bisectLeft (bs.map Band.start) q.stop)) := by
  cases s with
  | chroma b => exact absurd rfl (hs b)
  | _ => simp only [Scale.getSlice, hbs, bandRun, heven]; rfl

/-- **C301** (what comes out): cutting a band out of a spectrum keeps the columns whose bands touch it, and its scale is the one made of these. -/
theorem C301_band {α : Type} (a : Awu (LibDim φ) α) (n : Nat) (d : LibDim φ) (s : Scale φ) (h : Spectrum a n d s) (hs : Sliceable s)
    (heven : s.alwaysEven = false) (bs : List (Band φ)) (hbs : s.bands X = .ok bs) (hl : bs.length = s.len) (ho : Ordered bs) (q : Band φ)
    (t : Scale φ) (ht : s.fromSlice (bs.filter (touches q)) = .ok t) (htl : t.len = (bs.filter (touches q)).length) :
    ∃ r, a.getitem (libOps X) (columns (.custom (.band q))) = .ok r ∧ r.shape = [n, (bs.filter (touches q)).length] ∧ r.dims = [d, .freq t] ∧
      Aligned a r n bs (bs.filter (touches q)) := by
  have hg := getSlice_band X s hs heven bs hbs q
  have hgi := getitem_run X h (.band q) (.band q) rfl _ _ hg bs hbs hl (run_spec bs ho q).1 (getScale_of_getSlice X s _ _ _ hg bs hbs)
  rw [run_touching bs ho q, ht] at hgi
  simp only [htl, if_true] at hgi
  refine ⟨_, hgi, rfl, rfl, ?_⟩
  rw [← run_touching bs ho q]
  exact aligned_run a _ n _ _ _ bs rfl

/-- **C301** (nothing): cutting out a band that touches none of the bands of a spectrum is a ValueError. -/
theorem C301_band_empty {α : Type} (a : Awu (LibDim φ) α) (n : Nat) (d : LibDim φ) (s : Scale φ) (h : Spectrum a n d s) (hs : Sliceable s)
    (heven : s.alwaysEven = false) (bs : List (Band φ)) (hbs : s.bands X = .ok bs) (hl : bs.length = s.len) (hpos : 0 < s.len) (ho : Ordered bs)
    (q : Band φ) (hq : ∀ b ∈ bs, touches q b = false) :
    a.getitem (libOps X) (columns (.custom (.band q))) = .error .valueError := by
  have hg := getSlice_band X s hs heven bs hbs q
  have hgi := getitem_run X h (.band q) (.band q) rfl _ _ hg bs hbs hl (run_spec bs ho q).1 (getScale_of_getSlice X s _ _ _ hg bs hbs)
  have hnil : bs.filter (touches q) = [] := by
    rw [List.filter_eq_nil_iff]
    intro b hb
    simp [hq b hb]
  have hfs : s.fromSlice ([] : List (Band φ)) = .error .indexError := by
    cases s with
    | chroma b => exact absurd rfl (hs b)
    | _ => rfl
  rw [run_touching bs ho q, hnil, hfs] at hgi
  simp only [List.length_nil] at hgi
  rw [hgi, if_neg (by omega)]

/-- **C301** (slices of frequencies): `x[:, Hertz(f):Hertz(g)]` is `x[:, FrequencyBand(f, g)]`; a missing bound is zero or the top of the scale,
a negative one counts from the top; an empty range is an AttributeError. -/
theorem C301_hertz {α : Type} (a : Awu (LibDim φ) α) (n : Nat) (d : LibDim φ) (s : Scale φ) (h : Spectrum a n d s) (hs : Sliceable s)
    (sb : Band φ) (hsb : s.band X = .ok sb) (bs : List (Band φ)) (hbs : s.bands X = .ok bs) (x y : Bnd φ) (hh : x.isHertz = true ∨ y.isHertz = true) :
    let from0 := x.value.getD 0
    let upto := y.value.getD sb.stop
    let lo := if from0 < 0 then sb.stop + from0 else from0
    let hi := if upto < 0 then sb.stop + upto else upto
    (lo < hi → a.getitem (libOps X) (columns (.custom (.freqPy x y))) = a.getitem (libOps X) (columns (.custom (.band ⟨lo, hi⟩)))) ∧
    (¬ lo < hi → a.getitem (libOps X) (columns (.custom (.freqPy x y))) = .error .attributeError) := by
  intro from0 upto lo hi
  obtain ⟨h1, h2⟩ := C20_hertz_slice X s hs sb hsb x y hh
  have hfirst : (Item.slice none none none : Item (LibIdx φ)).raw = some (.slice none none none) := rfl
  have hraw : ∀ k : LibIdx φ, (Item.custom k : Item (LibIdx φ)).raw = none := fun _ => rfl
  constructor
  · intro hlt
    have hg := h1 hlt
    have hband : s.getSlice X (.band ⟨lo, hi⟩) = .ok (.run (bandRun s.alwaysEven bs ⟨lo, hi⟩).1 (bandRun s.alwaysEven bs ⟨lo, hi⟩).2) := by
      cases s with
      | chroma b => exact absurd rfl (hs b)
      | _ => simp only [Scale.getSlice, hbs]
    have hi1 : (libOps X).intSlice (.freq s) (.custom (.freqPy x y)) = (libOps X).intSlice (.freq s) (.custom (.band ⟨lo, hi⟩)) := by
      have e1 : s.getSlice X (.slice x y) = .ok (.run (bandRun s.alwaysEven bs ⟨lo, hi⟩).1 (bandRun s.alwaysEven bs ⟨lo, hi⟩).2) := hg.trans hband
      simp only [libOps, freqIndex, e1, hband]
    have hm : ∀ c, (libOps X).metaslice (.freq s) (.custom (.freqPy x y)) c = (libOps X).metaslice (.freq s) (.custom (.band ⟨lo, hi⟩)) c := by
      intro c
      have e1 := getScale_of_getSlice X s _ _ _ (hg.trans hband) bs hbs
      have e2 := getScale_of_getSlice X s _ _ _ hband bs hbs
      simp only [libOps, freqScale, freqIndex, e1, e2]
    have hc : computeIndices (libOps X) a.dims 2 0 (columns (.custom (.freqPy x y))) =
        computeIndices (libOps X) a.dims 2 0 (columns (.custom (.band ⟨lo, hi⟩))) := by
      simp only [columns, computeIndices, hfirst, hraw, h.dims]
      simp [pyAt, hi1]
    have hn : ∀ sh, newDims (libOps X) a.dims 2 sh 0 0 (columns (.custom (.freqPy x y))) =
        newDims (libOps X) a.dims 2 sh 0 0 (columns (.custom (.band ⟨lo, hi⟩))) := by
      intro sh
      simp only [columns, newDims, h.dims, List.getElem?_cons_zero, List.getElem?_cons_succ, metasliceOr, hm]
    unfold Awu.getitem
    have l1 : (columns (.custom (.freqPy x y)) : List (Item (LibIdx φ))).length = 2 := rfl
    have l2 : (columns (.custom (.band ⟨lo, hi⟩)) : List (Item (LibIdx φ))).length = 2 := rfl
    have c1 : (columns (.custom (.freqPy x y)) : List (Item (LibIdx φ))).countP Item.counts = 2 := rfl
    have c2 : (columns (.custom (.band ⟨lo, hi⟩)) : List (Item (LibIdx φ))).countP Item.counts = 2 := rfl
    rw [l1, l2, hc, c1, c2]
    simp only [hn]
  · intro hlt
    have hg := h2 hlt
    unfold Awu.getitem
    have l1 : (columns (.custom (.freqPy x y)) : List (Item (LibIdx φ))).length = 2 := rfl
    have hc : computeIndices (libOps X) a.dims 2 0 (columns (.custom (.freqPy x y))) = .error .attributeError := by
      simp only [columns, computeIndices, hfirst, hraw, h.dims]
      simp [pyAt, libOps, freqIndex, hg]
    rw [l1, hc]

theorem upTo_eq (m : Nat) (j : Option Int) : upTo m j = (pyBound m (j.getD m) : Int) := by
  cases j with
  | none => simp [upTo, pyBound]
  | some j => rfl

theorem upFrom_eq (m : Nat) (i : Option Int) : upFrom m i = (pyBound m (i.getD 0) : Int) := by
  cases i with
  | none => simp [upFrom, pyBound]
  | some j => rfl

theorem pyBound_le (m : Nat) (i : Int) : pyBound m i ≤ m := by
  unfold pyBound
  split <;> omega

/-- The slice a slice of positions is. -/
theorem becomes_slice (s : Scale φ) (hs : Sliceable s) (i j st : Option Int) : Becomes X s (.slice i j st) i j st := by
  unfold Becomes
  cases hraw : (Item.slice i j st : Item (LibIdx φ)).raw with
  | some r =>
    simp only [Item.raw] at hraw
    split at hraw
    · cases hraw; rfl
    · cases hraw
  | none =>
    have hg : s.getSlice X (.slice (intBound i) (intBound j)) = .ok (.same (intBound i) (intBound j)) := by
      have : (!(intBound i : Bnd φ).isHertz && !(intBound j : Bnd φ).isHertz) = true := by
        cases i <;> cases j <;> rfl
      cases s with
      | chroma b => exact absurd rfl (hs b)
      | _ => simp only [Scale.getSlice, this, if_true]
    simp only [libOps, freqIndex, hg]

theorem sliceList_ints {β : Type} (l : List β) (i j : Option Int) :
    sliceList l (intBound i : Bnd φ) (intBound j) = .ok (pySlice l (i.getD 0) (j.getD l.length)) := by
  cases i <;> cases j <;> rfl

/-- **C301** (positions): `x[:, i:j]` keeps columns `i` to `j - 1` (counted from the end if negative), and its scale is the one made of their bands. -/
theorem C301_positions {α : Type} (a : Awu (LibDim φ) α) (n : Nat) (d : LibDim φ) (s : Scale φ) (h : Spectrum a n d s) (hs : Sliceable s)
    (bs : List (Band φ)) (hbs : s.bands X = .ok bs) (hl : bs.length = s.len) (i j : Option Int)
    (t : Scale φ) (ht : s.fromSlice (pySlice bs (i.getD 0) (j.getD bs.length)) = .ok t)
    (htl : t.len = (pySlice bs (i.getD 0) (j.getD bs.length)).length) :
    ∃ r, a.getitem (libOps X) (columns (.slice i j none)) = .ok r ∧ r.shape = [n, (pySlice bs (i.getD 0) (j.getD bs.length)).length] ∧
      r.dims = [d, .freq t] ∧ Aligned a r n bs (pySlice bs (i.getD 0) (j.getD bs.length)) := by
  have hlen : (pySlice bs (i.getD 0) (j.getD bs.length)).length = pyBound s.len (j.getD s.len) - pyBound s.len (i.getD 0) := by
    simp only [pySlice, hl, List.length_drop, List.length_take]
    have := pyBound_le s.len (j.getD s.len)
    omega
  have hr : sliceRange s.len i j none = .ok ((pyBound s.len (i.getD 0) : Int), 1, (pySlice bs (i.getD 0) (j.getD bs.length)).length) := by
    rw [hlen]
    simp only [sliceRange, Option.getD_none, upTo_eq, upFrom_eq]
    simp
  have hf : freqScale X s (.slice i j none) = .ok t := by
    simp only [freqScale, freqIndex, Scale.getScale, hbs, sliceList_ints]
    exact ht
  have hgi := getitem_columns X h (.slice i j none) trivial _ _ _ (becomes_slice X s hs i j none) _ _ _ hr
  rw [hf] at hgi
  simp only [htl, if_true] at hgi
  refine ⟨_, hgi, rfl, rfl, ?_⟩
  have := aligned_run a ⟨[n, (pySlice bs (i.getD 0) (j.getD bs.length)).length], [d, .freq t],
    fun idx => a.get (walk [.run 0 1 n, .run (pyBound s.len (i.getD 0) : Int) 1 (pySlice bs (i.getD 0) (j.getD bs.length)).length] 0 idx)⟩ n
    (pyBound s.len (i.getD 0)) (pyBound s.len (j.getD s.len)) _ bs rfl
  have e : pySlice bs (i.getD 0) (j.getD bs.length) = (bs.take (pyBound s.len (j.getD s.len))).drop (pyBound s.len (i.getD 0)) := by
    simp only [pySlice, hl]
  rw [e] at this ⊢
  exact this

/-- **C301** (chroma): a spectrum on a chroma scale cannot be cut along its twelve columns, not even by `x[:, :]`. -/
theorem C301_chroma {α : Type} (a : Awu (LibDim φ) α) (n : Nat) (d : LibDim φ) (b : Band φ) (h : Spectrum a n d (.chroma b)) (q : Band φ)
    (i j : Option Int) (st : Option Int) (hst : st ≠ some 0) :
    a.getitem (libOps X) (columns (.custom (.band q))) = .error .notImplemented ∧
    a.getitem (libOps X) (columns (.slice i j st)) = .error .notImplemented := by
  have hfirst : (Item.slice none none none : Item (LibIdx φ)).raw = some (.slice none none none) := rfl
  have hraw : ∀ k : LibIdx φ, (Item.custom k : Item (LibIdx φ)).raw = none := fun _ => rfl
  constructor
  · unfold Awu.getitem
    have l1 : (columns (.custom (.band q)) : List (Item (LibIdx φ))).length = 2 := rfl
    have hc : computeIndices (libOps X) a.dims 2 0 (columns (.custom (.band q))) = .error .notImplemented := by
      simp only [columns, computeIndices, hfirst, hraw, h.dims]
      simp [pyAt, libOps, freqIndex, Scale.getSlice]
    rw [l1, hc]
  · by_cases hz : ((Item.slice i j st : Item (LibIdx φ)).raw).isSome
    · obtain ⟨r, hr⟩ := Option.isSome_iff_exists.1 hz
      have hb : Becomes X (.chroma b) (.slice i j st) i j st := by
        unfold Becomes
        simp only [hr]
        simp only [Item.raw] at hr
        split at hr
        · cases hr; rfl
        · cases hr
      obtain ⟨⟨p, t, c⟩, hsr⟩ : ∃ v, sliceRange (Scale.chroma b).len i j st = .ok v := by
        have h0 : st.getD 1 ≠ 0 := by
          cases st with
          | none => simp
          | some v => simpa using hst
        unfold sliceRange
        simp only [h0, if_false]
        split
        · exact ⟨_, rfl⟩
        · exact ⟨_, rfl⟩
      rw [getitem_columns X h (.slice i j st) trivial _ _ _ hb _ _ _ hsr]
      have hf : freqScale X (.chroma b) (.slice i j st) = .error .notImplemented := by
        cases st <;> simp [freqScale, freqIndex, Scale.getScale, Scale.bands]
      rw [hf]
    · have hn : (Item.slice i j st : Item (LibIdx φ)).raw = none := by simpa using hz
      unfold Awu.getitem
      have l1 : (columns (.slice i j st) : List (Item (LibIdx φ))).length = 2 := rfl
      have hc : computeIndices (libOps X) a.dims 2 0 (columns (.slice i j st)) = .error .notImplemented := by
        simp only [columns, computeIndices, hfirst, hn, h.dims]
        simp [pyAt, libOps, freqIndex, Scale.getSlice]
      rw [l1, hc]

/-! ### Scales of explicit bands -/

theorem ordered_last (bs : List (Band φ)) (ho : Ordered bs) (f l : Band φ) (hf : bs.head? = some f) (hl : bs.getLast? = some l) (hw : WF f) :
    WF (⟨f.start, l.stop⟩ : Band φ) := by
  cases bs with
  | nil => simp at hf
  | cons x xs =>
    simp only [List.head?_cons, Option.some.injEq] at hf
    subst hf
    rcases List.mem_cons.1 (List.mem_of_getLast? hl) with rfl | hm
    · exact hw
    · have := (List.pairwise_cons.1 ho.stops).1 l.stop (List.mem_map.2 ⟨l, hm, rfl⟩)
      unfold WF at *
      exact lt_of_lt_of_le hw this

theorem explicit_fromSlice (s : Scale φ) (hs : (∃ bs, s = .explicit bs) ∨ ∃ a b c n e, s = .geometric a b c n e) (sel : List (Band φ))
    (hne : sel ≠ []) (hw : ∀ b ∈ sel, WF b) (ho : Ordered sel) : s.fromSlice sel = .ok (.explicit sel) := by
  have hex : newExplicit sel = .ok (.explicit sel) := by
    cases hsel : sel with
    | nil => exact absurd hsel hne
    | cons x xs =>
      rw [← hsel]
      obtain ⟨l, hl⟩ : ∃ l, sel.getLast? = some l := by
        rw [hsel]; exact ⟨_, List.getLast?_eq_some_getLast (by simp)⟩
      have hf : sel.head? = some x := by rw [hsel]; rfl
      have := ordered_last sel ho x l hf hl (hw x (by rw [hsel]; simp))
      have hspan : spanOf sel = .ok ⟨x.start, l.stop⟩ := by
        unfold spanOf
        rw [hf, hl]
        exact (C22_new _ _).1 this
      simp only [newExplicit, hspan]
  rcases hs with ⟨bs, rfl⟩ | ⟨_, _, _, _, _, rfl⟩ <;> exact hex

theorem ordered_sublist {bs sel : List (Band φ)} (ho : Ordered bs) (h : List.Sublist sel bs) : Ordered sel :=
  ⟨ho.starts.sublist (h.map _), ho.stops.sublist (h.map _)⟩

/-- **C301** (geometric and explicit scales): every column that touches the band is kept, one or more, in its place, and the bands of the result
are exactly theirs. -/
theorem C301_explicit {α : Type} (a : Awu (LibDim φ) α) (n : Nat) (d : LibDim φ) (s : Scale φ)
    (hs : (∃ bs, s = .explicit bs) ∨ ∃ x y c m, s = .geometric x y c m false) (h : Spectrum a n d s)
    (bs : List (Band φ)) (hbs : s.bands X = .ok bs) (hl : bs.length = s.len) (hw : ∀ b ∈ bs, WF b) (ho : Ordered bs) (q : Band φ)
    (hq : ∃ b ∈ bs, touches q b = true) :
    ∃ r t, a.getitem (libOps X) (columns (.custom (.band q))) = .ok r ∧ r.dims = [d, .freq t] ∧ t.bands X = .ok (bs.filter (touches q)) ∧
      r.shape = [n, (bs.filter (touches q)).length] ∧ Aligned a r n bs (bs.filter (touches q)) := by
  have hs' : (∃ bs, s = .explicit bs) ∨ ∃ a b c n e, s = .geometric a b c n e := by
    rcases hs with h | ⟨x, y, c, m, rfl⟩
    · exact Or.inl h
    · exact Or.inr ⟨_, _, _, _, _, rfl⟩
  have hsl : Sliceable s := by
    rintro b rfl
    rcases hs with ⟨_, h⟩ | ⟨_, _, _, _, h⟩ <;> cases h
  have hev : s.alwaysEven = false := by
    rcases hs with ⟨_, rfl⟩ | ⟨_, _, _, _, rfl⟩ <;> rfl
  have hne : bs.filter (touches q) ≠ [] := by
    obtain ⟨b, hb, ht⟩ := hq
    exact List.ne_nil_of_mem (List.mem_filter.2 ⟨hb, ht⟩)
  have ht := explicit_fromSlice s hs' (bs.filter (touches q)) hne (fun b hb => hw b (List.mem_of_mem_filter hb)) (ordered_sublist ho List.filter_sublist)
  obtain ⟨r, h1, h2, h3, h4⟩ := C301_band X a n d s h hsl hev bs hbs hl ho q _ ht rfl
  exact ⟨r, _, h1, h3, rfl, h2, h4⟩

theorem toNat_mul (i k : Nat) : ((0 : Int) + (i : Int) * (k : Int)).toNat = i * k := by
  rw [zero_add, ← Nat.cast_mul, Int.toNat_natCast]

variable [IsStrictOrderedRing φ]

/-- **C301** (linear scales): every column that touches the band is kept in its place, and the bands of the result are exactly theirs, if there
are at least two. -/
theorem C301_linear {α : Type} (a : Awu (LibDim φ) α) (n : Nat) (d : LibDim φ) (b : Band φ) (m : Nat) (hb : WF b) (hm : 2 ≤ m)
    (h : Spectrum a n d (.linear b m false)) (q : Band φ) (bs : List (Band φ)) (hbs : (Scale.linear b m false).bands X = .ok bs)
    (hlen : 2 ≤ (bs.filter (touches q)).length) :
    ∃ r t, a.getitem (libOps X) (columns (.custom (.band q))) = .ok r ∧ r.dims = [d, .freq t] ∧ t.bands X = .ok (bs.filter (touches q)) ∧
      r.shape = [n, (bs.filter (touches q)).length] ∧ Aligned a r n bs (bs.filter (touches q)) := by
  have hbs' : (Scale.linear b m false).bands X = .ok ((List.range m).map (part b m)) := linearBands_eq b m hb hm
  have hsl : Sliceable (Scale.linear b m false) := fun _ h => (nomatch h)
  have ho : Ordered bs := by
    rw [hbs'] at hbs; cases hbs
    exact C21_linear_ordered b m hb
  have hl : bs.length = (Scale.linear b m false).len := by
    rw [hbs'] at hbs; cases hbs
    simp [Scale.len]
  obtain ⟨t, h1, h2, h3⟩ := C21_slice_band X b m hb hm q bs hbs hlen
  have hg := getSlice_band X _ hsl rfl bs hbs q
  have e := getScale_of_getSlice X _ _ _ _ hg bs hbs
  rw [h1, run_touching bs ho q] at e
  obtain ⟨r, g1, g2, g3, g4⟩ := C301_band X a n d _ h hsl rfl bs hbs hl ho q t e.symm h3
  exact ⟨r, t, g1, g3, h2, g2, g4⟩

/-- **C301** (refuted for one column of a linear spectrum): if the band touches a single column, that column comes out, but on a scale whose
bands cannot be computed: cutting the result again, by any band, is an IndexError. -/
theorem C301_one_band_refuted {α : Type} (a : Awu (LibDim φ) α) (n : Nat) (d : LibDim φ) (b : Band φ) (m : Nat) (hb : WF b) (hm : 2 ≤ m)
    (h : Spectrum a n d (.linear b m false)) (q : Band φ) (bs : List (Band φ)) (hbs : (Scale.linear b m false).bands X = .ok bs)
    (hlen : (bs.filter (touches q)).length = 1) :
    ∃ r t, a.getitem (libOps X) (columns (.custom (.band q))) = .ok r ∧ r.shape = [n, 1] ∧ r.dims = [d, .freq t] ∧
      t.bands X = .error .indexError ∧ ∀ q', r.getitem (libOps X) (columns (.custom (.band q'))) = .error .indexError := by
  have hbs' : (Scale.linear b m false).bands X = .ok ((List.range m).map (part b m)) := linearBands_eq b m hb hm
  have hsl : Sliceable (Scale.linear b m false) := fun _ h => (nomatch h)
  have ho : Ordered bs := by
    rw [hbs'] at hbs; cases hbs
    exact C21_linear_ordered b m hb
  have hl : bs.length = (Scale.linear b m false).len := by
    rw [hbs'] at hbs; cases hbs
    simp [Scale.len]
  obtain ⟨x, hx⟩ := List.length_eq_one_iff.1 hlen
  have hwf : WF x := by
    have hxm : x ∈ bs := List.mem_of_mem_filter (p := touches q) (by rw [hx]; simp)
    obtain ⟨bs2, e1, _, _, _, _, e6⟩ := C21_linear_tiles X b m false hb hm
    rw [hbs] at e1
    cases e1
    exact (e6 x hxm).1
  have ht : (Scale.linear b m false).fromSlice (bs.filter (touches q)) = .ok (.linear ⟨x.start, x.stop⟩ 1 false) := by
    rw [hx]
    simp [Scale.fromSlice, spanOf, (C22_new x.start x.stop).1 hwf]
  obtain ⟨r, g1, g2, g3, g4⟩ := C301_band X a n d _ h hsl rfl bs hbs hl ho q _ ht (by rw [hlen]; rfl)
  refine ⟨r, _, g1, by rw [g2, hlen], g3, rfl, fun q' => ?_⟩
  have hfirst : (Item.slice none none none : Item (LibIdx φ)).raw = some (.slice none none none) := rfl
  have hraw : ∀ k : LibIdx φ, (Item.custom k : Item (LibIdx φ)).raw = none := fun _ => rfl
  unfold Awu.getitem
  have l1 : (columns (.custom (.band q')) : List (Item (LibIdx φ))).length = 2 := rfl
  have hc : computeIndices (libOps X) r.dims 2 0 (columns (.custom (.band q'))) = .error .indexError := by
    simp only [columns, computeIndices, hfirst, hraw, g3]
    simp [pyAt, libOps, freqIndex, Scale.getSlice, Scale.bands, linearBands]
  rw [l1, hc]

/-- **C301** (refuted for slices with a step): every `k`-th column of a linear spectrum comes out with bands that are not theirs, but the equal
division of what they span: the first is wider than the band of the first column (so it does not carry its band). -/
theorem C301_step_refuted {α : Type} (a : Awu (LibDim φ) α) (n : Nat) (d : LibDim φ) (b : Band φ) (m : Nat) (hb : WF b)
    (h : Spectrum a n d (.linear b m false)) (k : Nat) (hk : 2 ≤ k) (hkm : k < m) :
    ∃ r t x y, a.getitem (libOps X) (columns (.slice none none (some (k : Int)))) = .ok r ∧ r.dims = [d, .freq t] ∧
      r.shape = [n, (m + k - 1) / k] ∧ (∀ i j, r.get [i, j] = a.get [i, j * k]) ∧
      (∃ bs, (Scale.linear b m false).bands X = .ok bs ∧ bs[0]? = some x) ∧ (∃ bs, t.bands X = .ok bs ∧ bs[0]? = some y) ∧
      x.start = y.start ∧ x.stop < y.stop := by
  have hm : 2 ≤ m := by omega
  have hbs : (Scale.linear b m false).bands X = .ok ((List.range m).map (part b m)) := linearBands_eq b m hb hm
  have hsl : Sliceable (Scale.linear b m false) := fun _ h => (nomatch h)
  obtain ⟨c, hc⟩ : ∃ c, c = (m + k - 1) / k := ⟨_, rfl⟩
  rw [← hc]
  have hk0 : 0 < k := by omega
  have hc2 : 2 ≤ c := by
    rw [hc, Nat.le_div_iff_mul_le hk0]; omega
  have hlast : (c - 1) * k < m := by
    have := Nat.div_mul_le_self (m + k - 1) k
    have h2 : c * k ≤ m + k - 1 := by rw [hc]; exact this
    have : (c - 1) * k = c * k - k := by rw [Nat.sub_mul, one_mul]
    omega
  have hr : sliceRange m none none (some (k : Int)) = .ok (0, (k : Int), c) := by
    simp only [sliceRange, Option.getD_some, upFrom, upTo]
    have h0 : (k : Int) ≠ 0 := by omega
    have h1 : 0 < (k : Int) := by omega
    rw [if_neg h0, if_pos h1]
    congr 3
    have : ((m : Int) - 0 + k - 1) / k = ((m + k - 1 : Nat) : Int) / (k : Int) := by
      congr 1
      omega
    rw [this, hc]
    exact_mod_cast rfl
  have hsel : stepped ((List.range m).map (part b m)) none none (some (k : Int)) = .ok ((List.range c).map fun i => part b m (i * k)) := by
    unfold stepped
    simp only [List.length_map, List.length_range, hr]
    congr 1
    have hmap : (List.range c).map (fun i => part b m (i * k)) = (List.range c).filterMap (fun i => some (part b m (i * k))) := by
      rw [← List.filterMap_eq_map]; rfl
    rw [hmap]
    apply List.filterMap_congr
    intro i hi
    have hi : i < c := List.mem_range.1 hi
    have : i * k < m := lt_of_le_of_lt (Nat.mul_le_mul_right k (by omega)) hlast
    rw [toNat_mul i k]
    simp [this]
  obtain ⟨c', rfl⟩ : ∃ c', c = c' + 1 := ⟨c - 1, by omega⟩
  have hspan : spanOf ((List.range (c' + 1)).map fun i => part b m (i * k)) = Band.new (part b m 0).start (part b m (c' * k)).stop := by
    have h1 : ((List.range (c' + 1)).map fun i => part b m (i * k)).head? = some (part b m 0) := by
      rw [List.range_succ_eq_map]; simp
    have h2 : ((List.range (c' + 1)).map fun i => part b m (i * k)).getLast? = some (part b m (c' * k)) := by
      rw [List.range_succ]; simp
    unfold spanOf
    rw [h1, h2]
  have hm0 : (0 : φ) < m := by exact_mod_cast (show 0 < m by omega)
  have hw : 0 < (b.stop - b.start) / (m : φ) := div_pos (by unfold WF at hb; linarith) hm0
  have hc0 : (0 : φ) < (c' : φ) + 1 := by positivity
  have hwf : WF (⟨(part b m 0).start, (part b m (c' * k)).stop⟩ : Band φ) := by
    simp only [WF, part]
    have : (0 : φ) ≤ ((c' * k : Nat) : φ) := Nat.cast_nonneg _
    push_cast at this ⊢
    nlinarith
  have ht : freqScale X (.linear b m false) (.slice none none (some (k : Int))) = .ok (.linear ⟨(part b m 0).start, (part b m (c' * k)).stop⟩ (c' + 1) false) := by
    simp only [freqScale, hbs, hsel, Scale.fromSlice, hspan, (C22_new _ _).1 hwf]
    simp
  have hgi := getitem_columns X h (.slice none none (some (k : Int))) trivial _ _ _ (becomes_slice X _ hsl none none (some (k : Int))) _ _ _ hr
  rw [ht] at hgi
  simp only [Scale.len, if_true] at hgi
  refine ⟨_, _, part b m 0, part ⟨(part b m 0).start, (part b m (c' * k)).stop⟩ (c' + 1) 0, hgi, rfl, rfl, ?_, ?_, ?_, ?_, ?_⟩
  · intro i j
    simp only [walk, List.headD_cons, List.tail_cons]
    congr 2
    · simp
    · congr 1
      exact toNat_mul j k
  · exact ⟨_, hbs, by simp [show 0 < m by omega]⟩
  · exact ⟨_, linearBands_eq _ (c' + 1) hwf (by omega), by simp⟩
  · simp [part]
  · have hc'1 : (1 : φ) ≤ c' := by exact_mod_cast (show 1 ≤ c' by omega)
    have hk2 : (2 : φ) ≤ k := by exact_mod_cast hk
    simp only [part]
    push_cast
    rw [show b.start + (0 + 1) * ((b.stop - b.start) / (m : φ)) = b.start + (b.stop - b.start) / (m : φ) by ring]
    set w := (b.stop - b.start) / (m : φ)
    have e : b.start + 0 * w + (0 + 1) * ((b.start + ((c' : φ) * k + 1) * w - (b.start + 0 * w)) / ((c' : φ) + 1)) =
        b.start + w + w * ((c' : φ) * (k - 1)) / ((c' : φ) + 1) := by
      field_simp
      ring
    rw [e]
    have : 0 < w * ((c' : φ) * (k - 1)) / ((c' : φ) + 1) := by
      apply div_pos _ hc0
      apply mul_pos hw
      apply mul_pos <;> linarith
    linarith
end

/-! ### A concrete spectrum: three frames of ten bands of 10 Hz -/

def tenBands : Awu (LibDim ℚ) (List Nat) := ⟨[3, 10], [.time 5 5 (some 3), .freq (.linear ⟨0, 100⟩ 10 false)], fun i => i⟩

theorem tenBands_spectrum : Spectrum tenBands 3 (.time 5 5 (some 3)) (.linear ⟨0, 100⟩ 10 false) := ⟨rfl, rfl, Or.inr ⟨5, 5, rfl⟩⟩

/-- `x[:, FrequencyBand(25, 45)]` is columns 2, 3 and 4, on the bands from 20 to 50 Hz. -/
example : look (tenBands.getitem (libOps noNum) (columns (.custom (.band ⟨25, 45⟩)))) =
    .ok ([3, 3], [.time 5 5 (some 3), .freq (.linear ⟨20, 50⟩ 3 false)]) := by decide +kernel

example : (tenBands.getitem (libOps noNum) (columns (.custom (.freqPy (.hz 25) (.hz (-55)))))).map (fun r => r.get [1, 2]) = .ok [1, 4] := by
  decide +kernel

example : look (tenBands.getitem (libOps noNum) (columns (.slice (some 2) (some (-4)) none))) =
    .ok ([3, 4], [.time 5 5 (some 3), .freq (.linear ⟨20, 60⟩ 4 false)]) := by decide +kernel

/-- Every third column: 0, 3, 6 and 9, labelled with the quarters of 0 to 100 Hz. -/
example : look (tenBands.getitem (libOps noNum) (columns (.slice none none (some 3)))) =
    .ok ([3, 4], [.time 5 5 (some 3), .freq (.linear ⟨0, 100⟩ 4 false)]) := by decide +kernel

/-- The ten bands of 10 Hz. -/
theorem tenBands_bands : (Scale.linear (⟨0, 100⟩ : Band ℚ) 10 false).bands noNum = .ok ((List.range 10).map (part ⟨0, 100⟩ 10)) := by decide +kernel
example := C301_chroma noNum (⟨[3, 12], [.identity, .freq (.chroma ⟨0, 100⟩)], fun i => i⟩ : Awu (LibDim ℚ) (List Nat)) 3 .identity ⟨0, 100⟩ ⟨rfl, rfl, Or.inl rfl⟩ ⟨25, 45⟩ none (some 3) none (by decide)
example := C301_linear noNum tenBands 3 _ ⟨0, 100⟩ 10 (by unfold WF; norm_num) (by decide) tenBands_spectrum ⟨25, 45⟩ _ tenBands_bands (by decide +kernel)
example := C301_band noNum tenBands 3 _ _ tenBands_spectrum (fun b h => nomatch h) rfl _ tenBands_bands rfl (C21_linear_ordered _ _ (by unfold WF; norm_num)) ⟨25, 45⟩ (.linear ⟨20, 50⟩ 3 false) (by decide +kernel) (by decide +kernel)
example := C301_band_empty noNum tenBands 3 _ _ tenBands_spectrum (fun b h => nomatch h) rfl _ tenBands_bands rfl (by decide) (C21_linear_ordered _ _ (by unfold WF; norm_num)) ⟨125, 145⟩ (by decide +kernel)
example := C301_hertz noNum tenBands 3 _ _ tenBands_spectrum (fun b h => nomatch h) _ rfl _ tenBands_bands (.hz 25) .none (Or.inl rfl)
example := C301_positions noNum tenBands 3 _ _ tenBands_spectrum (fun b h => nomatch h) _ tenBands_bands rfl (some 2) (some (-4)) (.linear ⟨20, 60⟩ 4 false) (by decide +kernel) (by decide +kernel)

end Zounds.Arr
