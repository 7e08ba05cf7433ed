import Verif.Model.PhaseBand
import Verif.Props.SpectrumIndex
import Verif.Props.Arith

/-!
# C333, C334: shifting the phases of a part of a spectrum
-/

namespace Zounds.PhaseBand
open Zounds Zounds.Arr Zounds.Freq Zounds.Props.Frequency

section
variable {φ : Type} [Field φ] [LinearOrder φ] (X : Freq.NumExt φ)

/-! ## Copies -/

theorem alloc_held {δ α : Type} (m : Mem α) (b : Awu δ α) : Held (m.alloc b).1 (m.alloc b).2 := by
  refine ⟨fun p hp => ?_, fun p q hp hq he => ?_⟩
  · have := Nd.ravel_lt hp
    simp only [Mem.alloc] at this ⊢
    omega
  · simp only [Mem.alloc] at he hp hq
    have e : Nd.ravel b.shape p = Nd.ravel b.shape q := by omega
    rw [← Nd.unravel_ravel hp, ← Nd.unravel_ravel hq, e]

theorem alloc_read {δ α : Type} (m : Mem α) (b : Awu δ α) (p : List Nat) (hp : Nd.InB p b.shape) : ((m.alloc b).1.read (m.alloc b).2).get p = b.get p := by
  have hlt := Nd.ravel_lt hp
  refine (if_pos ⟨Nat.le_add_right _ _, Nat.add_lt_add_left hlt _⟩).trans ?_
  show b.get (Nd.unravel b.shape (m.next + Nd.ravel b.shape p - m.next)) = _
  rw [Nat.add_sub_cancel_left, Nd.unravel_ravel hp]

theorem alloc_old {δ α : Type} (m : Mem α) (b : Awu δ α) (i : Nat) (hi : i < m.next) : (m.alloc b).1.cells i = m.cells i :=
  if_neg (fun h => absurd h.1 (by omega))

/-- What `a[index] *= v` leaves alone: every cell that was handed out before and is not one of the array's. -/
theorem augmented_old {K δ κ α : Type} (ops : DimOps δ κ) (hn : NoLists ops) (f : α → α → α) (m m' : Mem α) (a : Awu δ Nat) (ha : Held m a) (index : List (Item κ))
    (v : Val K δ α) (b : Awu δ (List Nat)) (hb : (positions a.shape a.dims).getitem ops index = .ok b) (h : augmented ops f m a index v = .ok m')
    (i : Nat) (hi : i < m.next) (hne : ∀ p, Nd.InB p a.shape → a.get p ≠ i) : m'.cells i = m.cells i := by
  obtain ⟨vw, hv, h3, h4⟩ := getitem_selects hb
  simp only [positions] at hv h4
  have hin := selects_inB hv
  unfold augmented at h
  split at h
  · cases h
  · rename_i m1 x hx
    split at h
    · cases h
    · rename_i m2 hm2
      have hcase : (∀ p q, Nd.InB p x.shape → Nd.InB q x.shape → x.get p = x.get q → p = q) ∧ (∀ j, Nd.InB j x.shape → x.get j ≠ i) ∧
          m1.cells i = m.cells i ∧ Held m1 a := by
        unfold getitemIn at hx
        split at hx
        · cases hx
        · rename_i r hr
          obtain ⟨v', hv', r3, r4⟩ := getitem_selects hr
          obtain rfl := hv.unique hv'
          split at hx
          · rename_i hsh
            cases hx
            have hnr : NoRepeats index := by
              intro l hl
              unfold sharesMemory at hsh
              rw [Bool.and_eq_true, List.all_eq_true] at hsh
              exact absurd (hsh.1 _ hl) (by simp)
            refine ⟨?_, ?_, rfl, ha⟩
            · intro p q hp hq he
              rw [r4, r4] at he
              rw [r3] at hp hq
              exact selects_inj hn hnr hv p q hp hq (ha.2 _ _ (hin p hp) (hin q hq) he)
            · intro j hj
              rw [r4]
              exact hne _ (hin j (r3 ▸ hj))
          · simp only [Except.ok.injEq, Prod.mk.injEq] at hx
            obtain ⟨e1, e2⟩ : m1 = (m.alloc (m.read r)).1 ∧ x = (m.alloc (m.read r)).2 := by rw [hx]; exact ⟨rfl, rfl⟩
            subst e1 e2
            refine ⟨(alloc_held m (m.read r)).2, ?_, alloc_old m _ i hi, ⟨fun p hp => ?_, ha.2⟩⟩
            · intro j hj
              simp only [Mem.alloc]
              omega
            · have := ha.1 p hp
              simp only [Mem.alloc]
              omega
      obtain ⟨c1, c2, c3, c4⟩ := hcase
      obtain ⟨-, i2, -, i4⟩ := inPlace_spec f m1 m2 x c1 v hm2
      have hheld : Held m2 a := ⟨fun p hp => by rw [i2]; exact c4.1 p hp, ha.2⟩
      obtain ⟨-, -, -, w4⟩ := C241_writes ops m2 m' a hheld index x.shape (fun j => m2.cells (x.get j)) b hb h
      rw [w4 i hne, i4 i c2, c3]

/-- `apply`: the selected positions are multiplied by the numbers of the shift for their places, everything else stays. -/
theorem apply_spec (m : Mem ℂ) (a : Awu (LibDim φ) Nat) (axis : Nat) (it : Item (LibIdx φ)) (hit : ∀ l, it ≠ .list l) (shift sh : Awu (LibDim φ) ℂ)
    (hsh : shift.getitem (libOps X) [it] = .ok sh) (b : Awu (LibDim φ) (List Nat))
    (hb : (positions a.shape a.dims).getitem (libOps X) (indexOf a.shape.length axis it) = .ok b) :
    (¬ FitsIn sh.shape b.shape → apply X m a axis it shift = .error .valueError) ∧
    (FitsIn sh.shape b.shape → ∃ m' c, apply X m a axis it shift = .ok (m', c) ∧ c.shape = a.shape ∧ c.dims = a.dims ∧
      (∀ j i, Nd.InB j b.shape → Nd.InB (b.get j) a.shape → SpreadIdx sh.shape j i → (m'.read c).get (b.get j) = (m.read a).get (b.get j) * sh.get i) ∧
      (∀ p, Nd.InB p a.shape → (∀ j, Nd.InB j b.shape → b.get j ≠ p) → (m'.read c).get p = (m.read a).get p) ∧
      (∀ i, i < m.next → m'.cells i = m.cells i)) := by
  have hheld := alloc_held m (m.read a)
  have hnl := C241_lib_noLists X
  obtain ⟨c, hc⟩ : ∃ c, c = m.alloc (m.read a) := ⟨_, rfl⟩
  have hshape : c.2.shape = a.shape := by rw [hc]; rfl
  have hdims : c.2.dims = a.dims := by rw [hc]; rfl
  have hb' : (positions c.2.shape c.2.dims).getitem (libOps X) (indexOf a.shape.length axis it) = .ok b := by rw [hshape, hdims]; exact hb
  rw [← hc] at hheld
  have hread : ∀ p, Nd.InB p a.shape → (c.1.read c.2).get p = (m.read a).get p := by
    intro p hp
    rw [hc]
    exact alloc_read m (m.read a) p hp
  obtain ⟨v, hv, v1, v2, v3⟩ := getitem_map hb' c.2.get
  have hget : ∃ y, getitemIn (libOps X) c.1 c.2 (indexOf a.shape.length axis it) = .ok y := by
    unfold getitemIn
    have : c.2.getitem (libOps X) (indexOf a.shape.length axis it) = .ok ⟨b.shape, b.dims, fun j => c.2.get (v.src j)⟩ := v3
    rw [this]
    simp only []
    split <;> exact ⟨_, rfl⟩
  obtain ⟨y, hy⟩ := hget
  have hacc := C256_accepted (libOps X) (· * ·) c.1 c.2 (indexOf a.shape.length axis it) (Val.units () sh) b hb'
  have happ : apply X m a axis it shift = match augmented (libOps X) (· * ·) c.1 c.2 (indexOf a.shape.length axis it) (Val.units () sh) with
      | .error e => .error e
      | .ok m' => .ok (m', c.2) := by
    unfold apply
    simp only [← hc, hy, hsh]
    rfl
  constructor
  · intro hf
    rw [happ, hacc.2 hf]
  · intro hf
    obtain ⟨m', hm'⟩ := hacc.1 hf
    rw [happ, hm']
    refine ⟨m', c.2, rfl, hshape, hdims, ?_, ?_, ?_⟩
    · intro j i hj hbj hi
      have hinj : ∀ j', Nd.InB j' b.shape → Nd.Before j j' → b.get j' ≠ b.get j := by
        intro j' hj' hbef he
        obtain ⟨w, hw, w1, w2⟩ := getitem_selects hb
        rw [w2, w2] at he
        have hnr : NoRepeats (indexOf a.shape.length axis it) := by
          intro l hl
          unfold indexOf at hl
          split at hl
          · simp only [List.mem_singleton] at hl
            exact absurd hl.symm (hit l)
          · rcases List.mem_or_eq_of_mem_set hl with hl | hl
            · exact absurd (List.eq_of_mem_replicate hl) (by simp)
            · exact absurd hl.symm (hit l)
        have := selects_inj hnl hnr hw j' j (w1 ▸ hj') (w1 ▸ hj) he
        subst this
        exact absurd hbef (by
          clear * -
          intro h
          induction j' with
          | nil => cases h
          | cons x xs ih => cases h with
            | here h => omega
            | there h => exact ih h)
      have := (C256_augmented (libOps X) hnl (· * ·) c.1 m' c.2 hheld _ (Val.units () sh) b hb' hm').1 j i hj hinj hi
      rw [this, hread _ hbj]
      rfl
    · intro p hp hne
      rw [(C256_augmented (libOps X) hnl (· * ·) c.1 m' c.2 hheld _ (Val.units () sh) b hb' hm').2 p (hshape ▸ hp) hne, hread p hp]
    · intro i hi
      rw [augmented_old (libOps X) hnl (· * ·) c.1 m' c.2 hheld _ (Val.units () sh) b hb' hm' i
        (by rw [hc]; simp only [Mem.alloc]; omega) (by intro p _; rw [hc]; simp only [Mem.alloc]; omega), hc]
      exact alloc_old m _ i hi

/-! ## One axis -/

theorem getitem_line {α : Type} {a : Awu (LibDim φ) α} {s : Scale φ} (hsh : a.shape = [s.len]) (hd : a.dims = [.freq s]) (it : Item (LibIdx φ))
    (hs : Slicing it) (x y st : Option Int) (hb : Becomes X s it x y st) (p t : Int) (c : Nat) (hr : sliceRange s.len x y st = .ok (p, t, c)) :
    a.getitem (libOps X) [it] =
      match freqScale X s it with
      | .ok s' => if c = s'.len then .ok ⟨[c], [.freq s'], fun idx => a.get (walk [.run p t c] 0 idx)⟩ else .error .valueError
      | .error .indexError => if c = s.len then .ok ⟨[c], [.freq s], fun idx => a.get (walk [.run p t c] 0 idx)⟩ else .error .valueError
      | .error e => .error e := by
  have hcomp : computeIndices (libOps X) a.dims 1 0 [it] = .ok [.slice x y st] := by
    unfold Becomes at hb
    cases it with
    | slice a' b' st' =>
      cases hraw : (Item.slice a' b' st' : Item (LibIdx φ)).raw with
      | some r =>
        simp only [hraw] at hb
        cases hb
        simp only [computeIndices, hraw]
      | none =>
        simp only [hraw] at hb
        simp only [computeIndices, hraw, hd]
        simp [pyAt, hb]
    | custom k =>
      have hraw : (Item.custom k : Item (LibIdx φ)).raw = none := rfl
      simp only [hraw] at hb
      simp only [computeIndices, hraw, hd]
      simp [pyAt, hb]
    | _ => exact absurd hs id
  have hv : npIndex [s.len] [.slice x y st] = .ok ⟨[c], fun idx => walk [.run p t c] 0 idx⟩ := by
    simp only [npIndex, expand]
    simp [List.countP_cons, NpItem.consumes, pieces, hr, view, Piece.isPick, Piece.axis]
  have hcount : ([it] : List (Item (LibIdx φ))).countP Item.counts = 1 := by
    cases it with
    | slice a' b' st' => rfl
    | custom k => rfl
    | _ => exact absurd hs id
  have hdims : newDims (libOps X) a.dims 1 [c] 0 0 [it] =
      match metasliceOr (libOps X) (.freq s) it (some c) with
      | .error e => .error e
      | .ok d' => .ok [d'] := by
    cases it with
    | slice a' b' st' =>
      simp only [newDims, hd, List.getElem?_cons_zero, List.drop]
      cases metasliceOr (libOps X) (.freq s) (.slice a' b' st') (some c) <;> rfl
    | custom k =>
      simp only [newDims, hd, List.getElem?_cons_zero, List.drop]
      cases metasliceOr (libOps X) (.freq s) (.custom k) (some c) <;> rfl
    | _ => exact absurd hs id
  have hnew : ∀ s' : Scale φ, Awu.new (libOps X) [c] (fun idx => a.get (walk [.run p t c] 0 idx)) [.freq s'] =
      if c = s'.len then .ok ⟨[c], [.freq s'], fun idx => a.get (walk [.run p t c] 0 idx)⟩ else .error .valueError := by
    intro s'
    unfold Awu.new
    rw [if_neg (by simp)]
    simp only [installAll, (C36_lib_install X c).2.1 s']
    by_cases hc : c = s'.len <;> simp [hc]
  unfold Awu.getitem
  rw [show ([it] : List (Item (LibIdx φ))).length = 1 from rfl, hcomp, hcount, hsh]
  simp only [hv, hdims, metasliceOr]
  have hm : (libOps X).metaslice (.freq s) it c = match freqScale X s it with | .error e => .error e | .ok s' => .ok (.freq s') := rfl
  rw [hm]
  cases hf : freqScale X s it with
  | ok s' => simp only [hnew]
  | error e =>
    cases e <;> simp only [hnew]

theorem fromSlice_ok (s : Scale φ) (hs : Sliceable s) (sel : List (Band φ)) (hne : sel ≠ []) (hw : ∀ b ∈ sel, WF b) (ho : Ordered sel) :
    ∃ t, s.fromSlice sel = .ok t ∧ t.len = sel.length := by
  obtain ⟨x, hf⟩ : ∃ x, sel.head? = some x := by
    cases sel with
    | nil => exact absurd rfl hne
    | cons x xs => exact ⟨x, rfl⟩
  obtain ⟨l, hl⟩ : ∃ l, sel.getLast? = some l := ⟨_, List.getLast?_eq_some_getLast hne⟩
  have hspan : spanOf sel = .ok ⟨x.start, l.stop⟩ := by
    unfold spanOf
    rw [hf, hl]
    exact (C22_new _ _).1 (ordered_last sel ho x l hf hl (hw x (List.mem_of_head? hf)))
  cases s with
  | chroma b => exact absurd rfl (hs b)
  | linear => simp only [Scale.fromSlice, hspan]; exact ⟨_, rfl, rfl⟩
  | bark => simp only [Scale.fromSlice, hspan]; exact ⟨_, rfl, rfl⟩
  | mel => simp only [Scale.fromSlice, hspan]; exact ⟨_, rfl, rfl⟩
  | geometric => simp only [Scale.fromSlice, newExplicit, hspan]; exact ⟨_, rfl, rfl⟩
  | explicit => simp only [Scale.fromSlice, newExplicit, hspan]; exact ⟨_, rfl, rfl⟩

theorem inB2 {j : List Nat} {x y : Nat} (h : Nd.InB j [x, y]) : ∃ i k, j = [i, k] ∧ i < x ∧ k < y := by
  cases h with
  | cons h1 h2 => cases h2 with
    | cons h3 h4 => cases h4; exact ⟨_, _, rfl, h1, h3⟩

theorem inB1 {j : List Nat} {x : Nat} (h : Nd.InB j [x]) : ∃ i, j = [i] ∧ i < x := by
  cases h with
  | cons h1 h2 => cases h2; exact ⟨_, rfl, h1⟩

theorem mkInB2 {i k x y : Nat} (h : i < x) (h' : k < y) : Nd.InB [i, k] [x, y] := .cons h (.cons h' .nil)

theorem spread2 (i k c : Nat) (hk : k < c) : SpreadIdx [c] [i, k] [k] := by
  refine ⟨rfl, fun e n h => ?_⟩
  cases e with
  | zero =>
    simp at h
    subst h
    by_cases hc : c = 1
    · subst hc; have : k = 0 := by omega
      subst this; rfl
    · simp [hc]
  | succ e => simp at h

theorem fits2 (n c : Nat) : FitsIn [c] [n, c] := by
  refine ⟨by simp, fun e x h => ?_⟩
  cases e with
  | zero => right; simpa using h
  | succ e => simp at h

/-- The angle by which coefficient `k` of `n` is turned when the sound is to come `s` samples later. -/
noncomputable def angle (n : Nat) (s : Int) (k : Nat) : ℝ := -(2 * Real.pi * k * s / n)

theorem turn_eq (n : Nat) (s : Int) (k : Nat) : turn n s k = Complex.exp (angle n s k * Complex.I) := by
  unfold turn angle
  congr 1
  push_cast
  ring

theorem newLine (s : Scale φ) (w : List Nat → ℂ) : Awu.new (libOps X) [s.len] w [.freq s] = .ok ⟨[s.len], [.freq s], w⟩ := by
  unfold Awu.new
  rw [if_neg (by simp)]
  simp only [installAll, (C36_lib_install X s.len).2.1 s]
  simp

theorem phaseShift_columns (m : Mem ℂ) (a : Awu (LibDim φ) Nat) (n : Nat) (d : LibDim φ) (s : Scale φ) (h : Spectrum a n d s) (f t axis : Int)
    (hax : axis = -1 ∨ axis = 1) (band : Option (Item (LibIdx φ))) :
    phaseShift X m a f t axis band =
      apply X m a 1 (partOf band) ⟨[s.len], [.freq s], fun idx => turn s.len (t.tdiv f) (idx.headD 0)⟩ := by
  have hp : place a.dims.length axis = .ok 1 := by
    rw [h.dims]
    rcases hax with rfl | rfl <;> rfl
  unfold phaseShift
  rw [hp]
  simp only [h.dims, h.shape, List.getElem?_cons_succ, List.getElem?_cons_zero, List.getD_cons_succ, List.getD_cons_zero, newLine]

theorem index2 (a : Awu (LibDim φ) Nat) (n : Nat) (d : LibDim φ) (s : Scale φ) (h : Spectrum a n d s) (it : Item (LibIdx φ)) :
    indexOf a.shape.length 1 it = columns it := by
  rw [h.shape]; rfl

/-- A run of columns of a spectrum, shifted. -/
theorem shifted_run (m : Mem ℂ) (a : Awu (LibDim φ) Nat) (n : Nat) (d : LibDim φ) (s : Scale φ) (h : Spectrum a n d s) (f t axis : Int)
    (hax : axis = -1 ∨ axis = 1) (band : Option (Item (LibIdx φ))) (hsl : Slicing (partOf band)) (lo c : Nat) (x y : Option Int)
    (hb : Becomes X s (partOf band) x y none) (hr : sliceRange s.len x y none = .ok ((lo : Int), 1, c)) (s' : Scale φ)
    (hf : freqScale X s (partOf band) = .ok s') (hc : c = s'.len) :
    ∃ m' r, phaseShift X m a f t axis band = .ok (m', r) ∧ r.shape = a.shape ∧ r.dims = a.dims ∧
      (∀ i k, i < n → k < s.len → (m'.read r).get [i, k] = if lo ≤ k ∧ k < lo + c
        then (m.read a).get [i, k] * Complex.exp (angle s.len (t.tdiv f) k * Complex.I) else (m.read a).get [i, k]) ∧
      (∀ i, i < m.next → m'.cells i = m.cells i) := by
  have hpos : Spectrum (positions a.shape a.dims) n d s := ⟨h.shape, h.dims, h.frames⟩
  have hit : ∀ l, partOf band ≠ .list l := by
    intro l hl
    rw [hl] at hsl
    exact hsl
  have g1 := getitem_columns X hpos (partOf band) hsl x y none hb lo 1 c hr
  rw [hf] at g1
  simp only [hc, if_true] at g1
  rw [← hc] at g1
  have g2 := getitem_line X (a := (⟨[s.len], [.freq s], fun idx => turn s.len (t.tdiv f) (idx.headD 0)⟩ : Awu (LibDim φ) ℂ)) rfl rfl (partOf band) hsl x y none hb lo 1 c hr
  rw [hf] at g2
  simp only [hc, if_true] at g2
  rw [← hc] at g2
  rw [phaseShift_columns X m a n d s h f t axis hax band]
  have hspec := (apply_spec X m a 1 (partOf band) hit _ _ g2 _ (by rw [index2 a n d s h]; exact g1)).2 (fits2 n c)
  obtain ⟨m', r, e1, e2, e3, e4, e5, e6⟩ := hspec
  have hw : ∀ i k, walk [.run 0 1 n, .run lo 1 c] 0 [i, k] = [i, lo + k] := by
    intro i k
    simp only [walk, List.headD_cons, List.tail_cons]
    simp
    omega
  have hw1 : ∀ k, walk [.run lo 1 c] 0 [k] = [lo + k] := by
    intro k
    simp only [walk, List.headD_cons, List.tail_cons]
    simp
    omega
  refine ⟨m', r, e1, e2, e3, ?_, e6⟩
  intro i k hi hk
  split
  · rename_i hin
    have hj : Nd.InB [i, k - lo] [n, c] := mkInB2 hi (by omega)
    have hkk : lo + (k - lo) = k := by omega
    have := e4 [i, k - lo] [k - lo] hj (by
      simp only [positions, hw, hkk, h.shape]
      exact mkInB2 hi hk) (spread2 i (k - lo) c (by omega))
    simp only [positions, hw, hw1, hkk, List.headD_cons] at this
    rw [this, turn_eq]
  · rename_i hin
    refine e5 [i, k] (by rw [h.shape]; exact mkInB2 hi hk) ?_
    intro j hj he
    obtain ⟨i', k', rfl, _, hk'⟩ := inB2 hj
    simp only [positions, hw] at he
    simp only [List.cons.injEq, and_true] at he
    omega

/-- **C333**: shifting the phases within a frequency band multiplies the coefficients whose bands touch it, in every frame, by the factor that belongs to
their place in the whole spectrum, and leaves all others; the result has the units of the spectrum, and neither the spectrum nor anything else
in memory is changed. -/
theorem C333_band (m : Mem ℂ) (a : Awu (LibDim φ) Nat) (n : Nat) (d : LibDim φ) (s : Scale φ) (h : Spectrum a n d s) (hs : Sliceable s) (heven : s.alwaysEven = false)
    (bs : List (Band φ)) (hbs : s.bands X = .ok bs) (hl : bs.length = s.len) (hw : ∀ b ∈ bs, WF b) (ho : Ordered bs) (q : Band φ) (hq : ∃ b ∈ bs, touches q b = true)
    (f t axis : Int) (hax : axis = -1 ∨ axis = 1) :
    ∃ m' r, phaseShift X m a f t axis (some (.custom (.band q))) = .ok (m', r) ∧ r.shape = a.shape ∧ r.dims = a.dims ∧
      (∀ i k b, i < n → bs[k]? = some b → (m'.read r).get [i, k] = if touches q b
        then (m.read a).get [i, k] * Complex.exp (angle s.len (t.tdiv f) k * Complex.I) else (m.read a).get [i, k]) ∧
      (∀ i, i < m.next → m'.cells i = m.cells i) := by
  obtain ⟨lo, hlo⟩ : ∃ lo, lo = bisectLeft (bs.map Band.stop) q.start := ⟨_, rfl⟩
  obtain ⟨hi, hhi⟩ : ∃ hi, hi = bisectLeft (bs.map Band.start) q.stop := ⟨_, rfl⟩
  have hrun := run_spec bs ho q
  rw [← hlo, ← hhi] at hrun
  have hsel := run_touching bs ho q
  rw [← hlo, ← hhi] at hsel
  have hg := getSlice_band X s hs heven bs hbs q
  rw [← hlo, ← hhi] at hg
  have hne : bs.filter (touches q) ≠ [] := by
    obtain ⟨b, hb, ht⟩ := hq
    exact List.ne_nil_of_mem (List.mem_filter.2 ⟨hb, ht⟩)
  obtain ⟨s', hs1, hs2⟩ := fromSlice_ok s hs (bs.filter (touches q)) hne (fun b hb => hw b (List.mem_of_mem_filter hb)) (ordered_sublist ho List.filter_sublist)
  have hlen : (bs.filter (touches q)).length = min hi s.len - lo := by rw [← hsel]; simp [hl]
  have hpos : 0 < (bs.filter (touches q)).length := List.length_pos_iff.2 hne
  have hf : freqScale X s (.custom (.band q)) = .ok s' := by
    have e := getScale_of_getSlice X s _ _ _ hg bs hbs
    rw [hsel, hs1] at e
    simp only [freqScale, freqIndex, e]
  obtain ⟨m', r, e1, e2, e3, e4, e5⟩ := shifted_run X m a n d s h f t axis hax (some (.custom (.band q))) trivial lo (min hi s.len - lo) (some lo) (some hi)
    (by unfold Becomes; simp only [partOf, Item.raw, libOps, freqIndex, hg]) (sliceRange_run s.len lo hi (hl ▸ hrun.1)) s' hf (by rw [hs2, hlen])
  refine ⟨m', r, e1, e2, e3, fun i k b hi' hk => ?_, e5⟩
  obtain ⟨hkl, hkb⟩ := List.getElem?_eq_some_iff.1 hk
  have ht := hrun.2.2 k hkl
  rw [hkb] at ht
  rw [e4 i k hi' (hl ▸ hkl)]
  have : (lo ≤ k ∧ k < lo + (min hi s.len - lo)) ↔ touches q b = true := by
    rw [ht]
    have := hrun.2.1
    omega
  by_cases hc : touches q b = true
  · rw [if_pos (this.2 hc), if_pos hc]
  · rw [if_neg (fun h => hc (this.1 h)), if_neg hc]

/-- **C333**, the whole spectrum: without a band every coefficient is turned. -/
theorem C333_whole (m : Mem ℂ) (a : Awu (LibDim φ) Nat) (n : Nat) (d : LibDim φ) (s : Scale φ) (h : Spectrum a n d s) (hs : Sliceable s)
    (bs : List (Band φ)) (hbs : s.bands X = .ok bs) (hl : bs.length = s.len) (hne : bs ≠ []) (hw : ∀ b ∈ bs, WF b) (ho : Ordered bs)
    (f t axis : Int) (hax : axis = -1 ∨ axis = 1) :
    ∃ m' r, phaseShift X m a f t axis none = .ok (m', r) ∧ r.shape = a.shape ∧ r.dims = a.dims ∧
      (∀ i k, i < n → k < s.len → (m'.read r).get [i, k] = (m.read a).get [i, k] * Complex.exp (angle s.len (t.tdiv f) k * Complex.I)) ∧
      (∀ i, i < m.next → m'.cells i = m.cells i) := by
  obtain ⟨s', hs1, hs2⟩ := fromSlice_ok s hs bs hne hw ho
  have hf : freqScale X s (partOf none) = .ok s' := by
    have e := sliceList_ints (φ := φ) bs none none
    have e' : pySlice bs 0 bs.length = bs := by
      have h1 : pyBound bs.length (bs.length : Int) = bs.length := by unfold pyBound; split <;> omega
      have h2 : pyBound bs.length 0 = 0 := by unfold pyBound; split <;> omega
      simp [pySlice, h1, h2]
    simp only [Option.getD_none, e'] at e
    simp only [partOf, freqScale, freqIndex, Scale.getScale, hbs, e, hs1]
  obtain ⟨m', r, e1, e2, e3, e4, e5⟩ := shifted_run X m a n d s h f t axis hax none trivial 0 s.len none none
    (becomes_slice X s hs none none none) (by simp [sliceRange, upFrom, upTo]) s' hf (by rw [hs2, hl])
  refine ⟨m', r, e1, e2, e3, fun i k hi hk => ?_, e5⟩
  rw [e4 i k hi hk, if_pos ⟨by omega, by omega⟩]

/-- **C333**, nothing to shift: a band that touches none of the bands is a ValueError. -/
theorem C333_empty (m : Mem ℂ) (a : Awu (LibDim φ) Nat) (n : Nat) (d : LibDim φ) (s : Scale φ) (h : Spectrum a n d s) (hs : Sliceable s) (heven : s.alwaysEven = false)
    (bs : List (Band φ)) (hbs : s.bands X = .ok bs) (hl : bs.length = s.len) (hpos : 0 < s.len) (ho : Ordered bs) (q : Band φ) (hq : ∀ b ∈ bs, touches q b = false)
    (f t axis : Int) (hax : axis = -1 ∨ axis = 1) :
    phaseShift X m a f t axis (some (.custom (.band q))) = .error .valueError := by
  rw [phaseShift_columns X m a n d s h f t axis hax]
  have hsp : Spectrum (m.alloc (m.read a)).2 n d s := ⟨h.shape, h.dims, h.frames⟩
  have := C301_band_empty X (m.alloc (m.read a)).2 n d s hsp hs heven bs hbs hl hpos ho q hq
  unfold apply
  rw [index2 a n d s h]
  simp only [getitemIn, partOf, this]

theorem spread1 (k c : Nat) (hk : k < c) : SpreadIdx [c] [k] [k] := by
  refine ⟨rfl, fun e n h => ?_⟩
  cases e with
  | zero =>
    simp at h
    subst h
    by_cases hc : c = 1
    · subst hc; have : k = 0 := by omega
      subst this; rfl
    · simp [hc]
  | succ e => simp at h

/-- **C333**, a single frame: the same for the coefficients of one frame (an array with one axis). -/
theorem C333_frame (m : Mem ℂ) (a : Awu (LibDim φ) Nat) (s : Scale φ) (hshape : a.shape = [s.len]) (hdims : a.dims = [.freq s]) (hs : Sliceable s)
    (heven : s.alwaysEven = false) (bs : List (Band φ)) (hbs : s.bands X = .ok bs) (hl : bs.length = s.len) (hw : ∀ b ∈ bs, WF b) (ho : Ordered bs)
    (q : Band φ) (hq : ∃ b ∈ bs, touches q b = true) (f t axis : Int) (hax : axis = -1 ∨ axis = 0) :
    ∃ m' r, phaseShift X m a f t axis (some (.custom (.band q))) = .ok (m', r) ∧ r.shape = a.shape ∧ r.dims = a.dims ∧
      (∀ k b, bs[k]? = some b → (m'.read r).get [k] = if touches q b
        then (m.read a).get [k] * Complex.exp (angle s.len (t.tdiv f) k * Complex.I) else (m.read a).get [k]) ∧
      (∀ i, i < m.next → m'.cells i = m.cells i) := by
  obtain ⟨lo, hlo⟩ : ∃ lo, lo = bisectLeft (bs.map Band.stop) q.start := ⟨_, rfl⟩
  obtain ⟨hi, hhi⟩ : ∃ hi, hi = bisectLeft (bs.map Band.start) q.stop := ⟨_, rfl⟩
  have hrun := run_spec bs ho q
  rw [← hlo, ← hhi] at hrun
  have hsel := run_touching bs ho q
  rw [← hlo, ← hhi] at hsel
  have hg := getSlice_band X s hs heven bs hbs q
  rw [← hlo, ← hhi] at hg
  have hne : bs.filter (touches q) ≠ [] := by
    obtain ⟨b, hb, ht⟩ := hq
    exact List.ne_nil_of_mem (List.mem_filter.2 ⟨hb, ht⟩)
  obtain ⟨s', hs1, hs2⟩ := fromSlice_ok s hs (bs.filter (touches q)) hne (fun b hb => hw b (List.mem_of_mem_filter hb)) (ordered_sublist ho List.filter_sublist)
  obtain ⟨c, hc⟩ : ∃ c, c = min hi s.len - lo := ⟨_, rfl⟩
  have hlen : (bs.filter (touches q)).length = c := by rw [← hsel, hc]; simp [hl]
  have hf : freqScale X s (.custom (.band q)) = .ok s' := by
    have e := getScale_of_getSlice X s _ _ _ hg bs hbs
    rw [hsel, hs1] at e
    simp only [freqScale, freqIndex, e]
  have hb : Becomes X s (.custom (.band q)) (some lo) (some hi) none := by
    unfold Becomes; simp only [Item.raw, libOps, freqIndex, hg]
  have hr : sliceRange s.len (some (lo : Int)) (some (hi : Int)) none = .ok ((lo : Int), 1, c) := by
    rw [hc]; exact sliceRange_run s.len lo hi (hl ▸ hrun.1)
  have g1 := getitem_line X (a := positions a.shape a.dims) hshape hdims (.custom (.band q)) trivial _ _ none hb lo 1 c hr
  have g2 := getitem_line X (a := (⟨[s.len], [.freq s], fun idx => turn s.len (t.tdiv f) (idx.headD 0)⟩ : Awu (LibDim φ) ℂ)) rfl rfl (.custom (.band q)) trivial _ _ none
    hb lo 1 c hr
  rw [hf] at g1 g2
  simp only [hs2, hlen, if_true] at g1 g2
  have hp : place a.dims.length axis = .ok 0 := by
    rw [hdims]
    rcases hax with rfl | rfl <;> rfl
  have hps : phaseShift X m a f t axis (some (.custom (.band q))) =
      apply X m a 0 (.custom (.band q)) ⟨[s.len], [.freq s], fun idx => turn s.len (t.tdiv f) (idx.headD 0)⟩ := by
    unfold phaseShift
    rw [hp]
    simp only [hdims, hshape, List.getElem?_cons_zero, List.getD_cons_zero, newLine, partOf]
  have hidx : indexOf a.shape.length 0 (.custom (.band q)) = ([.custom (.band q)] : List (Item (LibIdx φ))) := by rw [hshape]; rfl
  obtain ⟨m', r, e1, e2, e3, e4, e5, e6⟩ := (apply_spec X m a 0 (.custom (.band q)) (fun l hl => nomatch hl) _ _ g2 _ (by rw [hidx]; exact g1)).2
    ⟨by simp, fun k x h => Or.inr h⟩
  have hw1 : ∀ k, walk [.run lo 1 c] 0 [k] = [lo + k] := by
    intro k
    simp only [walk, List.headD_cons, List.tail_cons]
    simp
    omega
  rw [hps]
  refine ⟨m', r, e1, e2, e3, fun k b hk => ?_, e6⟩
  obtain ⟨hkl, hkb⟩ := List.getElem?_eq_some_iff.1 hk
  have ht := hrun.2.2 k hkl
  rw [hkb] at ht
  have hk2 := hrun.2.1
  by_cases htq : touches q b = true
  · rw [if_pos htq]
    have hin := ht.1 htq
    have hkk : lo + (k - lo) = k := by omega
    have := e4 [k - lo] [k - lo] (.cons (by omega) .nil) (by
      simp only [positions, hw1, hkk, hshape]
      exact .cons (hl ▸ hkl) .nil) (spread1 (k - lo) c (by omega))
    simp only [positions, hw1, hkk, List.headD_cons] at this
    rw [this, turn_eq]
  · rw [if_neg htq]
    have hout : ¬ (lo ≤ k ∧ k < hi) := fun h => htq (ht.2 h)
    refine e5 [k] (by rw [hshape]; exact .cons (hl ▸ hkl) .nil) ?_
    intro j hj he
    obtain ⟨k', rfl, hk'⟩ := inB1 hj
    simp only [positions, hw1] at he
    simp only [List.cons.injEq, and_true] at he
    omega

/-! ## The first axis -/

/-- A spectrum lying on its side: the bands along the first axis, `n` frames along the second. -/
structure Upright {α : Type} (a : Awu (LibDim φ) α) (n : Nat) (d : LibDim φ) (s : Scale φ) : Prop where
  shape : a.shape = [s.len, n]
  dims : a.dims = [.freq s, d]
  frames : d = .identity ∨ ∃ f u, d = .time f u (some n)

theorem getitem_upright {α : Type} {a : Awu (LibDim φ) α} {n : Nat} {d : LibDim φ} {s : Scale φ} (h : Upright a n d s) (s' : Scale φ)
    (hf : freqScale X s (.slice none none none) = .ok s') (hl : s.len = s'.len) :
    a.getitem (libOps X) [.slice none none none, .slice none none none] =
      .ok ⟨[s.len, n], [.freq s', d], fun idx => a.get (walk [.run 0 1 s.len, .run 0 1 n] 0 idx)⟩ := by
  have hfirst : (Item.slice none none none : Item (LibIdx φ)).raw = some (.slice none none none) := rfl
  have hcomp : computeIndices (libOps X) a.dims 2 0 [.slice none none none, .slice none none none] = .ok [.slice none none none, .slice none none none] := by
    simp only [computeIndices, hfirst]
  have h0 : ∀ k, sliceRange k none none none = .ok (0, 1, k) := by intro k; simp [sliceRange, upFrom, upTo]
  have hv : npIndex [s.len, n] [.slice none none none, .slice none none none] = .ok ⟨[s.len, n], fun idx => walk [.run 0 1 s.len, .run 0 1 n] 0 idx⟩ := by
    simp only [npIndex, expand]
    simp [List.countP_cons, NpItem.consumes, pieces, h0, view, Piece.isPick, Piece.axis]
  have hd : metasliceOr (libOps X) d (.slice none none none) (some n) = .ok d := by
    rcases h.frames with rfl | ⟨f, u, rfl⟩ <;> simp [metasliceOr, libOps]
  have hin : (libOps X).install d n = .ok d := by
    rcases h.frames with rfl | ⟨f, u, rfl⟩ <;> simp [libOps]
  have hm : metasliceOr (libOps X) (.freq s) (.slice none none none) (some s.len) = .ok (.freq s') := by
    have hm : (libOps X).metaslice (.freq s) (.slice none none none) s.len = match freqScale X s (.slice none none none) with | .error e => .error e | .ok s' => .ok (.freq s') := rfl
    simp only [metasliceOr, hm, hf]
  unfold Awu.getitem
  rw [show ([Item.slice none none none, .slice none none none] : List (Item (LibIdx φ))).length = 2 from rfl, hcomp,
    show ([Item.slice none none none, .slice none none none] : List (Item (LibIdx φ))).countP Item.counts = 2 from rfl, h.shape]
  simp only [hv, newDims, h.dims, List.getElem?_cons_zero, List.getElem?_cons_succ, hm, hd, List.drop]
  unfold Awu.new
  rw [if_neg (by simp)]
  simp only [installAll, hin, hl, (C36_lib_install X s'.len).2.1 s', if_true]

/-- **C334, refuted**: along the first axis of two, `phase_shift` is a ValueError unless the axes have the same length or there is a single
coefficient; if they have the same length every number is turned by the factor of its frame's number, not of its band's. -/
theorem C334_first_axis_refuted (m : Mem ℂ) (a : Awu (LibDim φ) Nat) (n : Nat) (d : LibDim φ) (s : Scale φ) (h : Upright a n d s) (hs : Sliceable s)
    (bs : List (Band φ)) (hbs : s.bands X = .ok bs) (hl : bs.length = s.len) (hne : bs ≠ []) (hw : ∀ b ∈ bs, WF b) (ho : Ordered bs)
    (f t axis : Int) (hax : axis = 0 ∨ axis = -2) :
    (s.len ≠ n → s.len ≠ 1 → phaseShift X m a f t axis none = .error .valueError) ∧
    (s.len = n → ∃ m' r, phaseShift X m a f t axis none = .ok (m', r) ∧ r.shape = a.shape ∧ r.dims = a.dims ∧
      ∀ k i, k < s.len → i < n → (m'.read r).get [k, i] = (m.read a).get [k, i] * Complex.exp (angle s.len (t.tdiv f) i * Complex.I)) := by
  obtain ⟨s', hs1, hs2⟩ := fromSlice_ok s hs bs hne hw ho
  have hf : freqScale X s (partOf none) = .ok s' := by
    have e := sliceList_ints (φ := φ) bs none none
    have e' : pySlice bs 0 bs.length = bs := by
      have h1 : pyBound bs.length (bs.length : Int) = bs.length := by unfold pyBound; split <;> omega
      have h2 : pyBound bs.length 0 = 0 := by unfold pyBound; split <;> omega
      simp [pySlice, h1, h2]
    simp only [Option.getD_none, e'] at e
    simp only [partOf, freqScale, freqIndex, Scale.getScale, hbs, e, hs1]
  have hp : place a.dims.length axis = .ok 0 := by
    rw [h.dims]
    rcases hax with rfl | rfl <;> rfl
  have hps : phaseShift X m a f t axis none = apply X m a 0 (partOf none) ⟨[s.len], [.freq s], fun idx => turn s.len (t.tdiv f) (idx.headD 0)⟩ := by
    unfold phaseShift
    rw [hp]
    simp only [h.dims, h.shape, List.getElem?_cons_zero, List.getD_cons_zero, newLine]
  have hidx : indexOf a.shape.length 0 (partOf none) = ([.slice none none none, .slice none none none] : List (Item (LibIdx φ))) := by
    rw [h.shape]; rfl
  have hpos : Upright (positions a.shape a.dims) n d s := ⟨h.shape, h.dims, h.frames⟩
  have g1 := getitem_upright X hpos s' hf (by rw [hs2, hl])
  have g2 := getitem_line X (a := (⟨[s.len], [.freq s], fun idx => turn s.len (t.tdiv f) (idx.headD 0)⟩ : Awu (LibDim φ) ℂ)) rfl rfl (partOf none) trivial none none none
    (becomes_slice X s hs none none none) 0 1 s.len (by simp [sliceRange, upFrom, upTo])
  rw [hf] at g2
  simp only [hs2, hl, if_true] at g2
  have hspec := apply_spec X m a 0 (partOf none) (fun l hl => nomatch hl) _ _ g2 _ (by rw [hidx]; exact g1)
  rw [hps]
  constructor
  · intro h1 h2
    refine hspec.1 (fun hfit => ?_)
    rcases hfit.2 0 s.len rfl with he | he
    · exact h2 he
    · simp at he
      exact h1 he.symm
  · intro hsn
    obtain ⟨m', r, e1, e2, e3, e4, -, -⟩ := hspec.2 (by simp only [hsn]; exact fits2 n n)
    refine ⟨m', r, e1, e2, e3, fun k i hk hi => ?_⟩
    have hw2 : walk [.run 0 1 s.len, .run 0 1 n] 0 [k, i] = [k, i] := by
      simp only [walk, List.headD_cons, List.tail_cons]
      simp
    have hw1 : walk [.run 0 1 s.len] 0 [i] = [i] := by
      simp only [walk, List.headD_cons, List.tail_cons]
      simp
    have := e4 [k, i] [i] (mkInB2 hk hi) (by simp only [positions, hw2, h.shape]; exact mkInB2 hk hi) (by simp only [hsn]; exact spread2 k i n hi)
    simp only [positions, hw2, hw1, List.headD_cons] at this
    rw [this, turn_eq]

/-- **C334**, other axes: an axis without frequencies is a ValueError, an axis the array does not have an IndexError. -/
theorem C334_other_axes (m : Mem ℂ) (a : Awu (LibDim φ) Nat) (f t : Int) (band : Option (Item (LibIdx φ))) :
    (∀ axis : Int, (axis < -a.dims.length ∨ a.dims.length ≤ axis) → phaseShift X m a f t axis band = .error .indexError) ∧
    (∀ k : Nat, (hk : k < a.dims.length) → (∀ s, a.dims[k] ≠ .freq s) →
      phaseShift X m a f t k band = .error .valueError ∧ phaseShift X m a f t (k - a.dims.length : Int) band = .error .valueError) := by
  constructor
  · intro axis h
    have : place a.dims.length axis = .error .indexError := by
      unfold place
      rw [if_neg (by omega), if_neg (by omega)]
    unfold phaseShift
    rw [this]
  · intro k hk hno
    have h1 : place a.dims.length (k : Int) = .ok k := by
      unfold place
      rw [if_pos (by omega)]
      simp
    have h2 : place a.dims.length (k - a.dims.length : Int) = .ok k := by
      unfold place
      rw [if_neg (by omega), if_pos (by omega)]
      congr 1
      omega
    unfold phaseShift
    rw [h1, h2]
    simp only [List.getElem?_eq_getElem hk]
    cases hd : a.dims[k] with
    | freq s => exact absurd hd (hno s)
    | _ => exact ⟨rfl, rfl⟩
end

/-! ## Examples -/

/-- Three frames of ten bands from 0 to 100 Hz, in memory. -/
def spectrum10 : Awu (LibDim ℚ) Nat := ⟨[3, 10], [.time 5 5 (some 3), .freq (.linear ⟨0, 100⟩ 10 false)], fun i => Nd.ravel [3, 10] i⟩
def tenLinear : List (Band ℚ) := (List.range 10).map fun k => part ⟨0, 100⟩ 10 k

/-- Shifting between 25 and 45 Hz: coefficients 2, 3 and 4 of every frame are turned, coefficient 5 is not. -/
example (m : Mem ℂ) : True := by
  have hb : (Scale.linear (⟨0, 100⟩ : Band ℚ) 10 false).bands noNum = .ok tenLinear := linearBands_eq ⟨0, 100⟩ 10 (by norm_num) (by norm_num)
  obtain ⟨bs2, e1, _, _, _, _, e6⟩ := C21_linear_tiles noNum (⟨0, 100⟩ : Band ℚ) 10 false (by unfold WF; norm_num) (by norm_num)
  have hw : ∀ b ∈ tenLinear, WF b := by
    rw [hb] at e1
    cases e1
    exact fun x hx => (e6 x hx).1
  have ho : Ordered tenLinear := C21_linear_ordered ⟨0, 100⟩ 10 (by unfold WF; norm_num)
  obtain ⟨m', r, -, -, -, h4, -⟩ := C333_band noNum m spectrum10 3 _ _ ⟨rfl, rfl, Or.inr ⟨5, 5, rfl⟩⟩ (fun b h => nomatch h) rfl tenLinear hb rfl hw ho ⟨25, 45⟩
    ⟨tenLinear.getD 3 ⟨0, 0⟩, by decide +kernel, by decide +kernel⟩ 5 15 (-1) (Or.inl rfl)
  have h5 := h4 1 5 _ (by norm_num) (show tenLinear[5]? = some _ from rfl)
  have h2 := h4 1 2 _ (by norm_num) (show tenLinear[2]? = some _ from rfl)
  rw [if_neg (by decide +kernel)] at h5
  rw [if_pos (by decide +kernel)] at h2
  have := C333_whole noNum m spectrum10 3 _ _ ⟨rfl, rfl, Or.inr ⟨5, 5, rfl⟩⟩ (fun b h => nomatch h) tenLinear hb rfl (by decide +kernel) hw ho 5 15 1 (Or.inr rfl)
  have := C333_empty noNum m spectrum10 3 _ _ ⟨rfl, rfl, Or.inr ⟨5, 5, rfl⟩⟩ (fun b h => nomatch h) rfl tenLinear hb rfl (by decide) ho ⟨200, 300⟩
    (by decide +kernel) 5 15 1 (Or.inr rfl)
  have := C333_frame noNum m ⟨[10], [.freq (.linear ⟨0, 100⟩ 10 false)], fun i => i.headD 0⟩ _ rfl rfl (fun b h => nomatch h) rfl tenLinear hb rfl hw ho ⟨25, 45⟩
    ⟨tenLinear.getD 3 ⟨0, 0⟩, by decide +kernel, by decide +kernel⟩ 5 15 0 (Or.inr rfl)
  trivial

/-- Ten bands of three frames: refused; the frames of ten by ten are turned by the wrong factors. -/
example (m : Mem ℂ) : True := by
  have hb : (Scale.linear (⟨0, 100⟩ : Band ℚ) 10 false).bands noNum = .ok tenLinear := linearBands_eq ⟨0, 100⟩ 10 (by norm_num) (by norm_num)
  obtain ⟨bs2, e1, _, _, _, _, e6⟩ := C21_linear_tiles noNum (⟨0, 100⟩ : Band ℚ) 10 false (by unfold WF; norm_num) (by norm_num)
  have hw : ∀ b ∈ tenLinear, WF b := by
    rw [hb] at e1
    cases e1
    exact fun x hx => (e6 x hx).1
  have ho : Ordered tenLinear := C21_linear_ordered ⟨0, 100⟩ 10 (by unfold WF; norm_num)
  have h1 := (C334_first_axis_refuted noNum m ⟨[10, 3], [.freq (.linear ⟨0, 100⟩ 10 false), .identity], fun i => Nd.ravel [10, 3] i⟩ 3 _ _ ⟨rfl, rfl, Or.inl rfl⟩
    (fun b h => nomatch h) tenLinear hb rfl (by decide +kernel) hw ho 5 15 0 (Or.inl rfl)).1 (by decide) (by decide)
  have h2 := (C334_first_axis_refuted noNum m ⟨[10, 10], [.freq (.linear ⟨0, 100⟩ 10 false), .identity], fun i => Nd.ravel [10, 10] i⟩ 10 _ _ ⟨rfl, rfl, Or.inl rfl⟩
    (fun b h => nomatch h) tenLinear hb rfl (by decide +kernel) hw ho 5 15 (-2) (Or.inr rfl)).2 rfl
  have h3 := (C334_other_axes noNum m spectrum10 5 15 none).1 2 (Or.inr (by decide))
  have h4 := (C334_other_axes noNum m spectrum10 5 15 none).2 0 (by decide) (fun s h => nomatch h)
  trivial

end Zounds.PhaseBand
