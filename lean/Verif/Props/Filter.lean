import Verif.Model.Filter
import Verif.Props.SpectrumIndex

/-!
# Keeping a part of a spectrum (C359), and splitting one in two (C360)
-/

namespace Zounds.Filter
open Zounds Zounds.Arr Zounds.Freq Zounds.Props.Frequency

section
variable {φ : Type} [Field φ] [LinearOrder φ] (X : Freq.NumExt φ)

/-- The columns a band cuts out of a spectrum: `lo`, `lo + 1`, ... -/
theorem band_cut {α : Type} (a : Awu (LibDim φ) α) (n : Nat) (d : LibDim φ) (s : Scale φ) (h : Spectrum a n d s) (hs : Sliceable s)
    (heven : s.alwaysEven = false) (bs : List (Band φ)) (hbs : s.bands X = .ok bs) (hl : bs.length = s.len) (ho : Ordered bs) (q : Band φ)
    (t : Scale φ) (ht : s.fromSlice (bs.filter (touches q)) = .ok t) (htl : t.len = (bs.filter (touches q)).length) :
    a.getitem (libOps X) (columns (.custom (.band q))) =
      .ok ⟨[n, (bs.filter (touches q)).length], [d, .freq t], fun idx =>
        a.get (walk [.run 0 1 n, .run (bisectLeft (bs.map Band.stop) q.start : Nat) 1 (bs.filter (touches q)).length] 0 idx)⟩ := by
  have hg := getSlice_band X s hs heven bs hbs q
  have hgi := getitem_run X h (.band q) (.band q) rfl _ _ hg bs hbs hl (run_spec bs ho q).1 (getScale_of_getSlice X s _ _ _ hg bs hbs)
  rw [run_touching bs ho q, ht] at hgi
  simpa only [htl, if_true] using hgi

theorem walk_two (n lo c i k : Nat) : walk [.run 0 1 n, .run (lo : Int) 1 c] 0 [i, k] = [i, lo + k] := by
  simp only [walk, List.headD_cons, List.tail_cons]
  congr 1
  · simp
  · congr 1; simp; omega

theorem run_columns (bs : List (Band φ)) (ho : Ordered bs) (q : Band φ) (j : Nat) (b : Band φ) (hj : bs[j]? = some b) :
    touches q b = true ↔ bisectLeft (bs.map Band.stop) q.start ≤ j ∧
      j < bisectLeft (bs.map Band.stop) q.start + (bs.filter (touches q)).length := by
  obtain ⟨h1, h2, h3⟩ := run_spec bs ho q
  obtain ⟨hlt, rfl⟩ := List.getElem?_eq_some_iff.1 hj
  rw [h3 j hlt, ← run_touching bs ho q]
  simp only [List.length_drop, List.length_take]
  omega

theorem inB_two {n c : Nat} {p : List Nat} (h : Nd.InB p [n, c]) : ∃ i k, p = [i, k] ∧ i < n ∧ k < c := by
  cases h with
  | cons hi h => cases h with
    | cons hk h => cases h; exact ⟨_, _, rfl, hi, hk⟩

theorem before_irrefl (p : List Nat) : ¬ Nd.Before p p := by
  induction p with
  | nil => intro h; cases h
  | cons i p ih =>
    intro h
    cases h with
    | here h => omega
    | there h => exact ih h

theorem spectrum_settled {α : Type} {a : Awu (LibDim φ) α} {n : Nat} {d : LibDim φ} {s : Scale φ} (h : Spectrum a n d s) :
    Settled (libOps X) a := by
  refine ⟨by rw [h.dims, h.shape]; rfl, ?_⟩
  have hin : (libOps X).install d n = .ok d := by
    rcases h.frames with rfl | ⟨f, u, rfl⟩ <;> simp [libOps]
  have hin2 : (libOps X).install (.freq s) s.len = .ok (.freq s) := by simp [(C36_lib_install X s.len).2.1 s]
  intro k hk
  have hk2 : k < 2 := by simpa [h.dims] using hk
  simp only [h.dims, h.shape]
  match k, hk2 with
  | 0, _ => exact hin
  | 1, _ => exact hin2

/-- **C359** (what is kept): filtering a spectrum by a band gives an array of its shape and its dimensions; the columns whose bands touch the band are those
of the spectrum, the other ones are zero, and the spectrum itself is untouched. -/
theorem C359_filter {α : Type} (zero : α) (m : Mem α) (a : Awu (LibDim φ) Nat) (ha : Held m a) (n : Nat) (d : LibDim φ) (s : Scale φ)
    (h : Spectrum a n d s) (hs : Sliceable s) (heven : s.alwaysEven = false) (bs : List (Band φ)) (hbs : s.bands X = .ok bs)
    (hl : bs.length = s.len) (ho : Ordered bs) (q : Band φ) (t : Scale φ) (ht : s.fromSlice (bs.filter (touches q)) = .ok t)
    (htl : t.len = (bs.filter (touches q)).length) :
    ∃ m' f, bandPass (libOps X) zero m a (.custom (.band q)) = .ok (m', f) ∧ f.shape = a.shape ∧ f.dims = a.dims ∧ Held m' f ∧
      (∀ i j b, i < n → bs[j]? = some b → (m'.read f).get [i, j] = if touches q b = true then (m.read a).get [i, j] else zero) ∧
      (∀ p, Nd.InB p a.shape → (m'.read a).get p = (m.read a).get p) ∧ m.next ≤ m'.next ∧ (∀ c, c < m.next → m'.cells c = m.cells c) := by
  obtain ⟨lo, hlo⟩ : ∃ lo, lo = bisectLeft (bs.map Band.stop) q.start := ⟨_, rfl⟩
  obtain ⟨c, hc⟩ : ∃ c, c = (bs.filter (touches q)).length := ⟨_, rfl⟩
  have hcol : ∀ j b, bs[j]? = some b → (touches q b = true ↔ lo ≤ j ∧ j < lo + c) := by
    intro j b hj
    rw [hlo, hc]
    exact run_columns bs ho q j b hj
  have hle : lo + c ≤ s.len ∨ c = 0 := by
    have := run_touching bs ho q
    have e : c = ((bs.take (bisectLeft (bs.map Band.start) q.stop)).drop lo).length := by rw [hc, hlo, this]
    simp only [List.length_drop, List.length_take] at e
    omega
  -- the cut
  have hcut := band_cut X a n d s h hs heven bs hbs hl ho q t ht htl
  have hpos := band_cut X (positions a.shape a.dims) n d s ⟨h.shape, h.dims, h.frames⟩ hs heven bs hbs hl ho q t ht htl
  rw [← hlo, ← hc] at hcut hpos
  have hview : getitemIn (libOps X) m a (columns (.custom (.band q))) =
      .ok (m, ⟨[n, c], [d, .freq t], fun idx => a.get (walk [.run 0 1 n, .run (lo : Int) 1 c] 0 idx)⟩) := by
    unfold getitemIn
    rw [hcut]
    have : sharesMemory (columns (.custom (.band q)) : List (Item (LibIdx φ))) [n, c] = true := rfl
    simp only [this, if_true]
  -- the zeros
  obtain ⟨z, hz, z1, z2, z3⟩ := C241_zeros (libOps X) zero (m.read a) (spectrum_settled X (a := m.read a) ⟨h.shape, h.dims, h.frames⟩)
  have zs : z.shape = a.shape := z1
  have zd : z.dims = a.dims := z2
  have hnew : ∀ p, Nd.InB p a.shape → (m.alloc z).2.get p = m.next + Nd.ravel a.shape p := by
    intro p _
    simp only [Mem.alloc, zs]
  have hold : ∀ i, i < m.next → (m.alloc z).1.cells i = m.cells i := by
    intro i hi
    simp only [Mem.alloc]
    exact if_neg (by omega)
  have hheld : Held (m.alloc z).1 (m.alloc z).2 := by
    constructor
    · intro p hp
      have hp' : Nd.InB p a.shape := by simpa [Mem.alloc, zs] using hp
      have := Nd.ravel_lt hp'
      simp only [Mem.alloc, zs]
      omega
    · intro p r hp hr he
      have hp' : Nd.InB p a.shape := by simpa [Mem.alloc, zs] using hp
      have hr' : Nd.InB r a.shape := by simpa [Mem.alloc, zs] using hr
      rw [hnew p hp', hnew r hr'] at he
      have e : Nd.ravel a.shape p = Nd.ravel a.shape r := by omega
      rw [← Nd.unravel_ravel hp', ← Nd.unravel_ravel hr', e]
  have hzero : ∀ p, Nd.InB p a.shape → ((m.alloc z).1.read (m.alloc z).2).get p = zero := by
    intro p hp
    have := Nd.ravel_lt hp
    simp only [Mem.read, Mem.alloc, zs]
    rw [if_pos ⟨by omega, by omega⟩, z3]
  -- the store
  obtain ⟨part, hpart⟩ : ∃ part : Awu (LibDim φ) Nat, part = ⟨[n, c], [d, .freq t], fun idx => a.get (walk [.run 0 1 n, .run (lo : Int) 1 c] 0 idx)⟩ :=
    ⟨_, rfl⟩
  rw [← hpart] at hview
  have hsh : (m.alloc z).2.shape = a.shape := by simp only [Mem.alloc, zs]
  have hdm : (m.alloc z).2.dims = a.dims := by simp only [Mem.alloc, zd]
  have hposn : (positions (m.alloc z).2.shape (m.alloc z).2.dims).getitem (libOps X) (columns (.custom (.band q))) =
      .ok ⟨[n, c], [d, .freq t], fun idx => walk [.run 0 1 n, .run (lo : Int) 1 c] 0 idx⟩ := by
    rw [hsh, hdm]; exact hpos
  obtain ⟨m3, hm3⟩ := (C241_writable (libOps X) (m.alloc z).1 (m.alloc z).2 (columns (.custom (.band q))) part.shape
    ((m.alloc z).1.read part).get _ hposn).1 (by
      intro k x hk
      right
      rw [hpart] at hk
      exact hk)
  obtain ⟨w1, w2, w3, w4⟩ := C241_writes (libOps X) (m.alloc z).1 m3 (m.alloc z).2 hheld (columns (.custom (.band q))) part.shape
    ((m.alloc z).1.read part).get _ hposn hm3
  have hm3next : m3.next = (m.alloc z).1.next := by
    obtain ⟨_, _, _, _, _, rfl⟩ := setitem_ok hm3
    exact storeAll_next _ _
  refine ⟨m3, (m.alloc z).2, ?_, hsh, hdm, ⟨fun p hp => by rw [hm3next]; exact hheld.1 p hp, hheld.2⟩, ?_, ?_, ?_, ?_⟩
  · unfold bandPass
    rw [show ([.slice none none none, .custom (.band q)] : List (Item (LibIdx φ))) = columns (.custom (.band q)) from rfl]
    simp only [hview, hz, hm3]
  · intro i j b hi hj
    have hjlt : j < s.len := by rw [← hl]; exact (List.getElem?_eq_some_iff.1 hj).1
    have hin : Nd.InB [i, j] a.shape := by rw [h.shape]; exact .cons hi (.cons hjlt .nil)
    by_cases htb : touches q b = true
    · rw [if_pos htb]
      obtain ⟨g1, g2⟩ := (hcol j b hj).1 htb
      have hk : Nd.InB [i, j - lo] [n, c] := .cons hi (.cons (by omega) .nil)
      have e : lo + (j - lo) = j := by omega
      have := w2 [i, j - lo] [i, j - lo] hk (by
        intro j' hj' hb he
        obtain ⟨i2, k2, rfl, _, _⟩ := inB_two hj'
        simp only [walk_two] at he
        have hi2 : i2 = i := by simpa using List.cons.inj he |>.1
        have hk2 : k2 = j - lo := by
          have := (List.cons.inj (List.cons.inj he).2).1
          omega
        subst hi2; subst hk2
        exact before_irrefl _ hb) (by
        rw [hpart]
        refine ⟨rfl, fun k x hk' => ?_⟩
        match k, hk' with
        | 0, hk' =>
          simp at hk'
          subst hk'
          split
          · simp; omega
          · simp
        | 1, hk' =>
          simp at hk'
          subst hk'
          split
          · simp; omega
          · simp)
      simp only [walk_two, e] at this
      rw [this, hpart]
      simp only [Mem.read, walk_two, e]
      exact hold _ (ha.1 _ hin)
    · rw [if_neg htb]
      rw [w3 [i, j] (by rw [hsh]; exact hin) (by
        intro j' hj' he
        obtain ⟨i2, k2, rfl, _, hk2⟩ := inB_two hj'
        simp only [walk_two] at he
        have := (List.cons.inj (List.cons.inj he).2).1
        exact htb ((hcol j b hj).2 (by omega)))]
      exact hzero _ hin
  · intro p hp
    simp only [Mem.read]
    rw [w4 (a.get p) (by
      intro p' hp' he
      rw [hnew p' (hsh ▸ hp')] at he
      have := ha.1 p hp
      omega)]
    exact hold _ (ha.1 p hp)
  · rw [hm3next]
    simp only [Mem.alloc]
    omega
  · intro i hi
    rw [w4 i (by
      intro p' hp' he
      rw [hnew p' (hsh ▸ hp')] at he
      omega)]
    exact hold _ hi

/-- **C359** (nothing to keep): a band that touches no column is a ValueError. -/
theorem C359_nothing {α : Type} (zero : α) (m : Mem α) (a : Awu (LibDim φ) Nat) (n : Nat) (d : LibDim φ) (s : Scale φ)
    (h : Spectrum a n d s) (hs : Sliceable s) (heven : s.alwaysEven = false) (bs : List (Band φ)) (hbs : s.bands X = .ok bs)
    (hl : bs.length = s.len) (hpos : 0 < s.len) (ho : Ordered bs) (q : Band φ) (hq : ∀ b ∈ bs, touches q b = false) :
    bandPass (libOps X) zero m a (.custom (.band q)) = .error .valueError := by
  have := C301_band_empty X a n d s h hs heven bs hbs hl hpos ho q hq
  unfold bandPass getitemIn
  rw [show ([.slice none none none, .custom (.band q)] : List (Item (LibIdx φ))) = columns (.custom (.band q)) from rfl, this]

/-- **C359** (slices of frequencies): filtering by `slice(Hertz(f), Hertz(g))` is filtering by `FrequencyBand(f, g)`; a missing bound is zero or
the top of the scale, a negative one counts from the top. -/
theorem C359_hertz {α : Type} (zero : α) (m : Mem α) (a : Awu (LibDim φ) Nat) (n : Nat) (d : LibDim φ) (s : Scale φ)
    (h : Spectrum a n d s) (hs : Sliceable s) (sb : Band φ) (hsb : s.band X = .ok sb) (bs : List (Band φ)) (hbs : s.bands X = .ok bs)
    (x y : Bnd φ) (hh : x.isHertz = true ∨ y.isHertz = true) :
    let from0 := x.value.getD 0
    let upto := y.value.getD sb.stop
    let lo := if from0 < 0 then sb.stop + from0 else from0
    let hi := if upto < 0 then sb.stop + upto else upto
    (lo < hi → bandPass (libOps X) zero m a (.custom (.freqPy x y)) = bandPass (libOps X) zero m a (.custom (.band ⟨lo, hi⟩))) ∧
    (¬ lo < hi → bandPass (libOps X) zero m a (.custom (.freqPy x y)) = .error .attributeError) := by
  intro from0 upto lo hi
  obtain ⟨g1, g2⟩ := C301_hertz X a n d s h hs sb hsb bs hbs x y hh
  obtain ⟨h1, _⟩ := C20_hertz_slice X s hs sb hsb x y hh
  have ec : ∀ k : LibIdx φ, ([.slice none none none, .custom k] : List (Item (LibIdx φ))) = columns (.custom k) := fun _ => rfl
  constructor
  · intro hlt
    have hg := g1 hlt
    have hband : s.getSlice X (.band ⟨lo, hi⟩) = .ok (.run (bandRun s.alwaysEven bs ⟨lo, hi⟩).1 (bandRun s.alwaysEven bs ⟨lo, hi⟩).2) := by
      cases s with
      | chroma b => exact absurd rfl (hs b)
      | _ => simp only [Scale.getSlice, hbs]
    have e1 : s.getSlice X (.slice x y) = .ok (.run (bandRun s.alwaysEven bs ⟨lo, hi⟩).1 (bandRun s.alwaysEven bs ⟨lo, hi⟩).2) := (h1 hlt).trans hband
    have hi1 : (libOps X).intSlice (.freq s) (.custom (.freqPy x y)) = (libOps X).intSlice (.freq s) (.custom (.band ⟨lo, hi⟩)) := by
      simp only [libOps, freqIndex, e1, hband]
    have hget : getitemIn (libOps X) m a (columns (.custom (.freqPy x y))) = getitemIn (libOps X) m a (columns (.custom (.band ⟨lo, hi⟩))) := by
      unfold getitemIn
      rw [hg]
      rfl
    have hset : ∀ (m2 : Mem α) (b : Awu (LibDim φ) Nat) (_ : b.dims = a.dims) (sh : List Nat) (val : List Nat → α),
        setitem (libOps X) m2 b (columns (.custom (.freqPy x y))) sh val = setitem (libOps X) m2 b (columns (.custom (.band ⟨lo, hi⟩))) sh val := by
      intro m2 b hb sh val
      have hfirst : (Item.slice none none none : Item (LibIdx φ)).raw = some (.slice none none none) := rfl
      have hraw : ∀ k : LibIdx φ, (Item.custom k : Item (LibIdx φ)).raw = none := fun _ => rfl
      have hc : computeIndices (libOps X) b.dims 2 0 (columns (.custom (.freqPy x y))) =
          computeIndices (libOps X) b.dims 2 0 (columns (.custom (.band ⟨lo, hi⟩))) := by
        simp only [columns, computeIndices, hfirst, hraw, hb, h.dims]
        simp [pyAt, hi1]
      unfold setitem
      have l1 : (columns (.custom (.freqPy x y)) : List (Item (LibIdx φ))).length = 2 := rfl
      have l2 : (columns (.custom (.band ⟨lo, hi⟩)) : List (Item (LibIdx φ))).length = 2 := rfl
      rw [l1, l2, hc]
    unfold bandPass
    rw [ec, ec, hget]
    cases hgi : getitemIn (libOps X) m a (columns (.custom (.band ⟨lo, hi⟩))) with
    | error e => rfl
    | ok v =>
      obtain ⟨m1, part⟩ := v
      obtain ⟨z, hz, _, z2, _⟩ := C241_zeros (libOps X) zero (m1.read a) (spectrum_settled X (a := m1.read a) ⟨h.shape, h.dims, h.frames⟩)
      simp only [hz]
      rw [hset _ _ z2]
  · intro hlt
    unfold bandPass getitemIn
    rw [ec, g2 hlt]

/-- **C359** (geometric and explicit scales): every band that touches a column will do. -/
theorem C359_explicit {α : Type} (zero : α) (m : Mem α) (a : Awu (LibDim φ) Nat) (ha : Held m a) (n : Nat) (d : LibDim φ) (s : Scale φ)
    (hs : (∃ bs, s = .explicit bs) ∨ ∃ x y c k, s = .geometric x y c k false) (h : Spectrum a n d s)
    (bs : List (Band φ)) (hbs : s.bands X = .ok bs) (hl : bs.length = s.len) (hw : ∀ b ∈ bs, WF b) (ho : Ordered bs) (q : Band φ)
    (hq : ∃ b ∈ bs, touches q b = true) :
    ∃ m' f, bandPass (libOps X) zero m a (.custom (.band q)) = .ok (m', f) ∧ f.shape = a.shape ∧ f.dims = a.dims ∧ Held m' f ∧
      (∀ i j b, i < n → bs[j]? = some b → (m'.read f).get [i, j] = if touches q b = true then (m.read a).get [i, j] else zero) ∧
      (∀ p, Nd.InB p a.shape → (m'.read a).get p = (m.read a).get p) ∧ m.next ≤ m'.next ∧ (∀ c, c < m.next → m'.cells c = m.cells c) := by
  have hs' : (∃ bs, s = .explicit bs) ∨ ∃ a b c n e, s = .geometric a b c n e := by
    rcases hs with h | ⟨x, y, c, k, rfl⟩
    · exact Or.inl h
    · exact Or.inr ⟨_, _, _, _, _, rfl⟩
  have hsl : Sliceable s := by
    rintro b rfl
    rcases hs with ⟨_, h⟩ | ⟨_, _, _, _, h⟩ <;> cases h
  have hev : s.alwaysEven = false := by
    rcases hs with ⟨_, rfl⟩ | ⟨_, _, _, _, rfl⟩ <;> rfl
  have hne : bs.filter (touches q) ≠ [] := by
    obtain ⟨b, hb, ht⟩ := hq
    exact List.ne_nil_of_mem (List.mem_filter.2 ⟨hb, ht⟩)
  have ht := explicit_fromSlice s hs' (bs.filter (touches q)) hne (fun b hb => hw b (List.mem_of_mem_filter hb)) (ordered_sublist ho List.filter_sublist)
  exact C359_filter X zero m a ha n d s h hsl hev bs hbs hl ho q _ ht rfl

theorem linear_fromSlice (b : Band φ) (k : Nat) (ev : Bool) (sel : List (Band φ))
    (hne : sel ≠ []) (hw : ∀ b ∈ sel, WF b) (ho : Ordered sel) :
    ∃ t, (Scale.linear b k ev).fromSlice sel = .ok t ∧ t.len = sel.length := by
  cases hsel : sel with
  | nil => exact absurd hsel hne
  | cons x xs =>
    rw [← hsel]
    obtain ⟨l, hl⟩ : ∃ l, sel.getLast? = some l := by
      rw [hsel]; exact ⟨_, List.getLast?_eq_some_getLast (by simp)⟩
    have hf : sel.head? = some x := by rw [hsel]; rfl
    have := ordered_last sel ho x l hf hl (hw x (by rw [hsel]; simp))
    have hspan : spanOf sel = .ok ⟨x.start, l.stop⟩ := by
      unfold spanOf
      rw [hf, hl]
      exact (C22_new _ _).1 this
    exact ⟨.linear ⟨x.start, l.stop⟩ sel.length false, by simp [Scale.fromSlice, hspan], rfl⟩

variable [IsStrictOrderedRing φ]

/-- **C359** (linear scales, as those of the transforms): every band that touches a column will do. -/
theorem C359_linear {α : Type} (zero : α) (m : Mem α) (a : Awu (LibDim φ) Nat) (ha : Held m a) (n : Nat) (d : LibDim φ) (b : Band φ) (k : Nat)
    (hb : WF b) (hk : 2 ≤ k) (h : Spectrum a n d (.linear b k false)) (bs : List (Band φ)) (hbs : (Scale.linear b k false).bands X = .ok bs)
    (q : Band φ) (hq : ∃ b ∈ bs, touches q b = true) :
    ∃ m' f, bandPass (libOps X) zero m a (.custom (.band q)) = .ok (m', f) ∧ f.shape = a.shape ∧ f.dims = a.dims ∧ Held m' f ∧
      (∀ i j b, i < n → bs[j]? = some b → (m'.read f).get [i, j] = if touches q b = true then (m.read a).get [i, j] else zero) ∧
      (∀ p, Nd.InB p a.shape → (m'.read a).get p = (m.read a).get p) ∧ m.next ≤ m'.next ∧ (∀ c, c < m.next → m'.cells c = m.cells c) := by
  have hbs' : (Scale.linear b k false).bands X = .ok ((List.range k).map (part b k)) := linearBands_eq b k hb hk
  have hsl : Sliceable (Scale.linear b k false) := fun _ h => (nomatch h)
  have ho : Ordered bs := by
    rw [hbs'] at hbs; cases hbs
    exact C21_linear_ordered b k hb
  have hl : bs.length = (Scale.linear b k false).len := by
    rw [hbs'] at hbs; cases hbs
    simp [Scale.len]
  have hw : ∀ x ∈ bs, WF x := by
    obtain ⟨bs2, e1, _, _, _, _, e6⟩ := C21_linear_tiles X b k false hb hk
    rw [hbs] at e1
    cases e1
    exact fun x hx => (e6 x hx).1
  have hne : bs.filter (touches q) ≠ [] := by
    obtain ⟨b, hb, ht⟩ := hq
    exact List.ne_nil_of_mem (List.mem_filter.2 ⟨hb, ht⟩)
  obtain ⟨t, ht, htl⟩ := linear_fromSlice b k false (bs.filter (touches q)) hne (fun x hx => hw x (List.mem_of_mem_filter hx))
    (ordered_sublist ho List.filter_sublist)
  exact C359_filter X zero m a ha n d _ h hsl rfl bs hbs hl ho q t ht htl

/-- The columns of a spectrum a frequency falls into; a frequency between two columns belongs to the lower one. -/
def Holds (f : φ) (b : Band φ) : Prop := b.start < f ∧ f ≤ b.stop

/-- **C360** (what the two halves hold together): splitting a linear spectrum at a frequency inside it, into what touches the frequencies up to it and
what touches those from it on, and adding the two, gives every column back, and a second time the column the frequency falls into; there is exactly one. -/
theorem C360_crossover {α : Type} [AddMonoid α] (m : Mem α) (a : Awu (LibDim φ) Nat) (ha : Held m a) (n : Nat) (d : LibDim φ) (b : Band φ) (k : Nat)
    (hb : WF b) (hk : 2 ≤ k) (h : Spectrum a n d (.linear b k false)) (bs : List (Band φ)) (hbs : (Scale.linear b k false).bands X = .ok bs)
    (f : φ) (h1 : b.start < f) (h2 : f < b.stop) :
    ∃ m1 low m2 high, bandPass (libOps X) 0 m a (.custom (.band ⟨b.start, f⟩)) = .ok (m1, low) ∧
      bandPass (libOps X) 0 m1 a (.custom (.band ⟨f, b.stop⟩)) = .ok (m2, high) ∧
      (∃ (j : Nat) (x : Band φ), bs[j]? = some x ∧ Holds f x ∧ (∀ (j' : Nat) (x' : Band φ), bs[j']? = some x' → Holds f x' → j' = j)) ∧
      ∀ (i j : Nat) (x : Band φ), i < n → bs[j]? = some x →
        (Holds f x → (m2.read low).get [i, j] + (m2.read high).get [i, j] = (m.read a).get [i, j] + (m.read a).get [i, j]) ∧
        (¬ Holds f x → (m2.read low).get [i, j] + (m2.read high).get [i, j] = (m.read a).get [i, j]) := by
  have hbs' : (Scale.linear b k false).bands X = .ok ((List.range k).map (part b k)) := linearBands_eq b k hb hk
  have hlist : bs = (List.range k).map (part b k) := by rw [hbs'] at hbs; cases hbs; rfl
  have hk0 : (0 : φ) < k := by exact_mod_cast (show 0 < k by omega)
  have hwpos : 0 < (b.stop - b.start) / (k : φ) := div_pos (by unfold WF at hb; linarith) hk0
  obtain ⟨w, hw⟩ : ∃ w, w = (b.stop - b.start) / (k : φ) := ⟨_, rfl⟩
  rw [← hw] at hwpos
  have htop : b.start + (k : φ) * w = b.stop := by rw [hw]; field_simp; ring
  have hget : ∀ (j : Nat) (x : Band φ), bs[j]? = some x → j < k ∧ x.start = b.start + (j : φ) * w ∧ x.stop = b.start + ((j : φ) + 1) * w := by
    intro j x hj
    rw [hlist] at hj
    obtain ⟨hlt, he⟩ := List.getElem?_eq_some_iff.1 hj
    have hjk : j < k := by simpa using hlt
    refine ⟨hjk, ?_, ?_⟩ <;> rw [← he] <;> simp [part, hw]
  have hin : ∀ (j : Nat) (x : Band φ), bs[j]? = some x → b.start ≤ x.stop ∧ x.start < b.stop := by
    intro j x hj
    obtain ⟨g0, g1, g2⟩ := hget j x hj
    have hj0 : (0 : φ) ≤ j := Nat.cast_nonneg _
    have hjk : (j : φ) + 1 ≤ k := by exact_mod_cast g0
    constructor
    · rw [g2]; nlinarith
    · rw [g1, ← htop]; nlinarith
  -- the one column
  have hone : ∃ (j : Nat) (x : Band φ), bs[j]? = some x ∧ Holds f x ∧ (∀ (j' : Nat) (x' : Band φ), bs[j']? = some x' → Holds f x' → j' = j) := by
    have hex : ∃ j : Nat, j < k ∧ f ≤ b.start + ((j : φ) + 1) * w :=
      ⟨k - 1, by omega, by
        have : ((k - 1 : Nat) : φ) + 1 = k := by exact_mod_cast (show k - 1 + 1 = k by omega)
        rw [this, htop]; exact h2.le⟩
    classical
    have hfind := Nat.find_spec hex
    have hmin : ∀ i, i < Nat.find hex → ¬ (i < k ∧ f ≤ b.start + ((i : φ) + 1) * w) := fun i hi => Nat.find_min hex hi
    obtain ⟨j, hjeq⟩ : ∃ j, j = Nat.find hex := ⟨_, rfl⟩
    rw [← hjeq] at hfind hmin
    refine ⟨j, part b k j, by rw [hlist]; simp [hfind.1], ⟨?_, ?_⟩, ?_⟩
    · simp only [part, ← hw]
      rcases Nat.eq_zero_or_pos j with h0 | h0
      · rw [h0]; simpa using h1
      · have := hmin (j - 1) (by omega)
        have hlt := lt_of_not_ge fun hc => this ⟨by omega, hc⟩
        have e : ((j - 1 : Nat) : φ) + 1 = j := by exact_mod_cast (show j - 1 + 1 = j by omega)
        rwa [e] at hlt
    · simp only [part, ← hw]; exact hfind.2
    · intro j' x' hj' hx'
      obtain ⟨g0, g1, g2⟩ := hget j' x' hj'
      rcases Nat.lt_trichotomy j' j with hlt | heq | hgt
      · exact absurd ⟨g0, by rw [← g2]; exact hx'.2⟩ (hmin j' hlt)
      · exact heq
      · exfalso
        have e : (j : φ) + 1 ≤ j' := by exact_mod_cast hgt
        have := hx'.1
        rw [g1] at this
        nlinarith [hfind.2]
  have hone' := hone
  obtain ⟨jc, xc, hjc, hxc, _⟩ := hone'
  have hmem : xc ∈ bs := List.mem_of_getElem? hjc
  obtain ⟨m1, low, e1, s1, d1, held1, val1, _, next1, keep1⟩ := C359_linear X 0 m a ha n d b k hb hk h bs hbs ⟨b.start, f⟩
    ⟨xc, hmem, by simp [touches, (hin jc xc hjc).1, hxc.1]⟩
  have ha1 : Held m1 a := ⟨fun p hp => lt_of_lt_of_le (ha.1 p hp) next1, ha.2⟩
  obtain ⟨m2, high, e2, s2, d2, held2, val2, _, next2, keep2⟩ := C359_linear X 0 m1 a ha1 n d b k hb hk h bs hbs ⟨f, b.stop⟩
    ⟨xc, hmem, by simp [touches, (hin jc xc hjc).2, hxc.2]⟩
  refine ⟨m1, low, m2, high, e1, e2, hone, ?_⟩
  intro i j x hi hj
  have hjlt : j < k := (hget j x hj).1
  have hinb : Nd.InB [i, j] a.shape := by rw [h.shape]; exact .cons hi (.cons hjlt .nil)
  have v1 : (m2.read low).get [i, j] = if x.start < f then (m.read a).get [i, j] else 0 := by
    have hc : low.get [i, j] < m1.next := held1.1 _ (by rw [s1]; exact hinb)
    have := val1 i j x hi hj
    simp only [Mem.read] at this ⊢
    rw [keep2 _ hc, this]
    simp [touches, (hin j x hj).1]
  have v2 : (m2.read high).get [i, j] = if f ≤ x.stop then (m.read a).get [i, j] else 0 := by
    have := val2 i j x hi hj
    simp only [Mem.read] at this ⊢
    rw [this, keep1 _ (ha.1 _ hinb)]
    simp [touches, (hin j x hj).2]
  rw [v1, v2]
  have hwf : x.start < x.stop := by
    obtain ⟨_, g1, g2⟩ := hget j x hj
    rw [g1, g2]; nlinarith
  constructor
  · intro hh
    rw [if_pos hh.1, if_pos hh.2]
  · intro hh
    by_cases hx : x.start < f
    · rw [if_pos hx, if_neg (fun hc => hh ⟨hx, hc⟩), add_zero]
    · rw [if_neg hx, if_pos (le_trans (not_lt.1 hx) hwf.le), zero_add]

end

/-! ### A concrete spectrum in memory: three frames of ten bands of 10 Hz -/

def tenMem : Mem ℚ := ⟨fun i => i + 1, 30⟩

def tenHeld : Awu (LibDim ℚ) Nat := ⟨[3, 10], [.time 5 5 (some 3), .freq (.linear ⟨0, 100⟩ 10 false)], fun p => Nd.ravel [3, 10] p⟩

theorem tenHeld_spectrum : Spectrum tenHeld 3 (.time 5 5 (some 3)) (.linear ⟨0, 100⟩ 10 false) := ⟨rfl, rfl, Or.inr ⟨5, 5, rfl⟩⟩

theorem tenHeld_held : Held tenMem tenHeld :=
  ⟨fun p hp => Nd.ravel_lt (shape := [3, 10]) hp, fun p q hp hq he => by
    rw [← Nd.unravel_ravel (shape := [3, 10]) hp, ← Nd.unravel_ravel (shape := [3, 10]) hq]
    exact congrArg _ he⟩

/-- The values of the first frame after filtering. -/
def firstFrame (r : Except PyErr (Mem ℚ × Awu (LibDim ℚ) Nat)) : List ℚ :=
  match r with
  | .ok (m, f) => (List.range 10).map fun j => (m.read f).get [0, j]
  | .error _ => []

/-- `FrequencyBand(25, 45)` keeps columns 2, 3 and 4. -/
example : firstFrame (bandPass (libOps noNum) 0 tenMem tenHeld (.custom (.band ⟨25, 45⟩))) = [0, 0, 3, 4, 5, 0, 0, 0, 0, 0] := by decide +kernel

example : firstFrame (bandPass (libOps noNum) 0 tenMem tenHeld (.custom (.freqPy (.hz 25) (.hz (-55))))) = [0, 0, 3, 4, 5, 0, 0, 0, 0, 0] := by
  decide +kernel

example := C359_linear noNum 0 tenMem tenHeld tenHeld_held 3 _ ⟨0, 100⟩ 10 (by unfold WF; norm_num) (by decide) tenHeld_spectrum _ tenBands_bands
  ⟨25, 45⟩ ⟨part ⟨0, 100⟩ 10 3, by decide +kernel, by decide +kernel⟩
example := C359_filter noNum 0 tenMem tenHeld tenHeld_held 3 _ _ tenHeld_spectrum (fun b h => nomatch h) rfl _ tenBands_bands rfl
  (C21_linear_ordered _ _ (by unfold WF; norm_num)) ⟨25, 45⟩ (.linear ⟨20, 50⟩ 3 false) (by decide +kernel) (by decide +kernel)
example := C359_nothing noNum 0 tenMem tenHeld 3 _ _ tenHeld_spectrum (fun _ h => nomatch h) rfl _ tenBands_bands rfl (by decide)
  (C21_linear_ordered _ _ (by unfold WF; norm_num)) ⟨125, 145⟩ (by decide +kernel)
example := C359_hertz noNum 0 tenMem tenHeld 3 _ _ tenHeld_spectrum (fun b h => nomatch h) _ rfl _ tenBands_bands (.hz 25) .none (Or.inl rfl)
example := C359_explicit noNum 0 (⟨fun i => i, 6⟩ : Mem ℚ) (⟨[3, 2], [.identity, .freq (.explicit [⟨0, 10⟩, ⟨5, 30⟩])], fun p => Nd.ravel [3, 2] p⟩)
  ⟨fun p hp => Nd.ravel_lt (shape := [3, 2]) hp, fun p q hp hq he => by
    rw [← Nd.unravel_ravel (shape := [3, 2]) hp, ← Nd.unravel_ravel (shape := [3, 2]) hq]
    exact congrArg _ he⟩ 3 .identity (.explicit [⟨0, 10⟩, ⟨5, 30⟩]) (Or.inl ⟨_, rfl⟩) ⟨rfl, rfl, Or.inl rfl⟩ [⟨0, 10⟩, ⟨5, 30⟩] rfl rfl
  (by simp [WF]; norm_num) ⟨by decide +kernel, by decide +kernel⟩ ⟨20, 25⟩ ⟨⟨5, 30⟩, by simp, by decide +kernel⟩
/-- Splitting at 30 Hz, where column 2 ends and column 3 begins: column 2 is counted twice. -/
example : firstFrame (bandPass (libOps noNum) 0 tenMem tenHeld (.custom (.band ⟨0, 30⟩))) = [1, 2, 3, 0, 0, 0, 0, 0, 0, 0] ∧
    firstFrame (bandPass (libOps noNum) 0 tenMem tenHeld (.custom (.band ⟨30, 100⟩))) = [0, 0, 3, 4, 5, 6, 7, 8, 9, 10] := by decide +kernel
example := C360_crossover noNum tenMem tenHeld tenHeld_held 3 _ ⟨0, 100⟩ 10 (by unfold WF; norm_num) (by decide) tenHeld_spectrum _ tenBands_bands
  30 (by norm_num) (by norm_num)

end Zounds.Filter
