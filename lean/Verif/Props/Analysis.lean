import Verif.Model.Analysis
import Verif.Props.SynthLinear
import Verif.Props.Stft
import Verif.Props.Energy

/-!
# Analysis is linear (C365), commutes with delays (C366) and keeps the energy (C367)
-/

namespace Zounds.Analysis
open Zounds Zounds.Spectral Zounds.SlidingWindow Zounds.Npx Zounds.SynthLinear

/-! ## What a window node does depends on how many samples there are, never on what they are -/

section
variable {α : Type u} {γ : Type v} (f : α → γ)

theorem everyNth_map (k : Nat) (l : List α) : everyNth k (l.map f) = (everyNth k l).map f := by
  unfold everyNth
  rw [List.length_map, List.map_filterMap]
  simp

theorem pad_map (z : α) (a : List α) (d : Int) : pad (f z) (a.map f) d = (pad z a d).map f := by
  unfold pad
  rw [List.length_map]
  split <;> simp

theorem pySlice_map (a : List α) (s t : Int) : pySlice (a.map f) s t = (pySlice a s t).map f := by
  unfold pySlice
  simp [List.map_drop, List.map_take]

theorem mapM_map_ok {ι : Type w} (g : ι → Except PyErr α) : ∀ l : List ι, l.mapM (fun i => (g i).map f) = (l.mapM g).map (List.map f)
  | [] => rfl
  | i :: l => by
    rw [List.mapM_cons, List.mapM_cons, mapM_map_ok g l]
    cases g i with
    | error e => rfl
    | ok a => cases l.mapM g <;> rfl

theorem readWindow_map (a : List α) (w s i : Nat) : readWindow (a.map f) w s i = (readWindow a w s i).map (List.map f) := by
  unfold readWindow
  rw [← mapM_map_ok]
  congr 1
  funext j
  rw [List.getElem?_map]
  cases a[i * s + j]? <;> rfl

/-- The result of `windowed`, sample by sample. -/
def mapOut : Out α → Out γ
  | .rows r => .rows (r.map f)
  | .wins ws => .wins (ws.map (List.map f))

theorem windows_mapOut (o : Out α) : (mapOut f o).windows = o.windows.map (List.map f) := by
  cases o <;> simp [mapOut, Out.windows]

theorem windowed_map (z : α) (a : List α) (w : Int) (step : Option Int) (dopad : Bool) :
    windowed (f z) (a.map f) w step dopad = (windowed z a w step dopad).map fun r => (r.1.map f, mapOut f r.2) := by
  unfold windowed
  by_cases h1 : w < 1
  · simp only [h1, if_true]; rfl
  simp only [h1, if_false]
  by_cases h2 : step.getD w < 1
  · simp only [h2, if_true]; rfl
  simp only [h2, if_false]
  by_cases h3 : w = 1 ∧ step.getD w = 1
  · simp only [if_pos h3]; rfl
  simp only [h3, if_false]
  by_cases h4 : w = 1 ∧ step.getD w > 1
  · simp only [if_pos h4, everyNth_map]; rfl
  simp only [h4, if_false, List.length_map, pad_map, pySlice_map]
  have key : ∀ (lo a' : List α),
      (if (a'.map f).length = 0 then .ok (lo.map f, Out.wins [])
        else match (List.range (1 + (((a'.map f).length : Int) - w) / step.getD w).toNat).mapM (readWindow (a'.map f) w.toNat (step.getD w).toNat) with
          | .ok ws => .ok (lo.map f, Out.wins ws)
          | .error e => .error e : Except PyErr (List γ × Out γ)) =
      ((if a'.length = 0 then .ok (lo, Out.wins [])
        else match (List.range (1 + ((a'.length : Int) - w) / step.getD w).toNat).mapM (readWindow a' w.toNat (step.getD w).toNat) with
          | .ok ws => .ok (lo, Out.wins ws)
          | .error e => .error e : Except PyErr (List α × Out α))).map fun r => (r.1.map f, mapOut f r.2) := by
    intro lo a'
    rw [List.length_map]
    split
    · rfl
    · have : readWindow (a'.map f) w.toNat (step.getD w).toNat = fun i => (readWindow a' w.toNat (step.getD w).toNat i).map (List.map f) := by
        funext i; exact readWindow_map f a' _ _ i
      rw [this, mapM_map_ok]
      cases (List.range (1 + ((a'.length : Int) - w) / step.getD w).toNat).mapM (readWindow a' w.toNat (step.getD w).toNat) <;> rfl
  cases dopad with
  | true => exact key [] _
  | false => exact key _ _

theorem leftovers_map (z : α) (a : List α) (w s : Int) (dopad : Bool) :
    slidingWindowWithLeftovers (f z) (a.map f) w s dopad =
      (slidingWindowWithLeftovers z a w s dopad).map fun r => (r.1.map f, r.2.map (List.map f)) := by
  unfold slidingWindowWithLeftovers
  rw [windowed_map]
  cases windowed z a w (some s) dopad with
  | error e => rfl
  | ok r =>
    obtain ⟨lo, o⟩ := r
    simp only [Except.map, windows_mapOut, List.isEmpty_map]
    split <;> rfl

/-- The node's state, sample by sample. -/
def mapSt (st : St α) : St γ := ⟨st.cache.map (List.map f)⟩

theorem enqueue_map (st : St α) (d : List α) : enqueue (mapSt f st) (d.map f) = mapSt f (enqueue st d) := by
  cases st with
  | mk c => cases c <;> simp [enqueue, mapSt]

theorem dequeue_map (z : α) (w s : Int) (fin : Bool) (st : St α) :
    dequeue (f z) w s fin (mapSt f st) = (dequeue z w s fin st).map fun r => (mapSt f r.1, r.2.map (List.map f)) := by
  cases st with
  | mk c =>
    cases c with
    | none => rfl
    | some c =>
      simp only [dequeue, mapSt, Option.map_some]
      rw [leftovers_map]
      cases slidingWindowWithLeftovers z c w s fin with
      | error e => rfl
      | ok r =>
        obtain ⟨lo, ws⟩ := r
        simp only [Except.map, List.isEmpty_map]
        split <;> rfl

theorem push_map (z : α) (w s : Int) (fin : Bool) (st : St α) (d : List α) :
    push (f z) w s fin (mapSt f st) (d.map f) = (push z w s fin st d).map fun r => (mapSt f r.1, r.2.map (List.map f)) := by
  unfold push
  simp only [enqueue_map, dequeue_map]
  cases dequeue z w s fin (enqueue st d) with
  | error e => cases e <;> rfl
  | ok r => rfl

theorem feed_map (z : α) (w s : Int) : ∀ (cs : List (List α)) (st : St α),
    feed (f z) w s (mapSt f st) (cs.map (List.map f)) = (feed z w s st cs).map fun r => (mapSt f r.1, r.2.map (List.map f))
  | [], _ => rfl
  | c :: cs, st => by
    simp only [List.map_cons, feed, push_map]
    cases push z w s false st c with
    | error e => rfl
    | ok r =>
      simp only [Except.map]
      rw [feed_map z w s cs r.1]
      cases feed z w s r.1 cs with
      | error e => rfl
      | ok r' => simp [Except.map]

theorem run_map (z : α) (w s : Int) (cs : List (List α)) (last : List α) :
    run (f z) w s (cs.map (List.map f)) (last.map f) = (run z w s cs last).map (List.map (List.map f)) := by
  unfold run
  have := feed_map f z w s cs {}
  have h0 : mapSt f ({} : St α) = {} := rfl
  rw [h0] at this
  rw [this]
  cases feed z w s {} cs with
  | error e => rfl
  | ok r =>
    simp only [Except.map]
    rw [push_map]
    cases push z w s true r.1 last with
    | error e => rfl
    | ok r' => simp [Except.map]

theorem firstChunk_map (z : α) (p : Nat) (d : List α) : firstChunk (f z) p (d.map f) = (firstChunk z p d).map f := by
  unfold firstChunk
  split <;> simp

theorem runPadded_map (z : α) (p : Nat) (w s : Int) (cs : List (List α)) (last : List α) :
    runPadded (f z) p w s (cs.map (List.map f)) (last.map f) = (runPadded z p w s cs last).map (List.map (List.map f)) := by
  cases cs with
  | nil =>
    simp only [runPadded, List.map_nil, firstChunk_map]
    exact run_map f z w s [] _
  | cons c cs =>
    simp only [runPadded, List.map_cons, firstChunk_map]
    exact run_map f z w s (firstChunk z p c :: cs) last
end

/-! ## Mixes -/

theorem mix_zip (c : ℝ) (x y : List ℝ) : mix c x y = (x.zip y).map fun p => c * p.1 + p.2 := by
  unfold mix
  rw [List.zip, List.map_zipWith]

theorem zip_fst : ∀ (x y : List ℝ), x.length = y.length → (x.zip y).map Prod.fst = x
  | [], [], _ => rfl
  | a :: x, b :: y, h => by simp [zip_fst x y (by simpa using h)]

theorem zip_snd : ∀ (x y : List ℝ), x.length = y.length → (x.zip y).map Prod.snd = y
  | [], [], _ => rfl
  | a :: x, b :: y, h => by simp [zip_snd x y (by simpa using h)]

/-- Frame by frame in pairs. -/
def zipRows (f g : List (List ℝ)) : List (List (ℝ × ℝ)) := List.zipWith List.zip f g

theorem zipRows_fst : ∀ (f g : List (List ℝ)), SameSize f g → (zipRows f g).map (List.map Prod.fst) = f
  | [], [], _ => rfl
  | [], _ :: _, h => by simp [SameSize] at h
  | _ :: _, [], h => by simp [SameSize] at h
  | a :: f, b :: g, h => by
    simp only [SameSize, List.map_cons, List.cons.injEq] at h
    have := zipRows_fst f g h.2
    simp only [zipRows, List.zipWith_cons_cons, List.map_cons] at this ⊢
    rw [this, zip_fst _ _ h.1]

theorem zipRows_snd : ∀ (f g : List (List ℝ)), SameSize f g → (zipRows f g).map (List.map Prod.snd) = g
  | [], [], _ => rfl
  | [], _ :: _, h => by simp [SameSize] at h
  | _ :: _, [], h => by simp [SameSize] at h
  | a :: f, b :: g, h => by
    simp only [SameSize, List.map_cons, List.cons.injEq] at h
    have := zipRows_snd f g h.2
    simp only [zipRows, List.zipWith_cons_cons, List.map_cons] at this ⊢
    rw [this, zip_snd _ _ h.1]

theorem zipRows_mix (c : ℝ) : ∀ (f g : List (List ℝ)), (zipRows f g).map (List.map fun p => c * p.1 + p.2) = mixRows c f g
  | [], _ => rfl
  | _ :: _, [] => rfl
  | a :: f, b :: g => by
    have := zipRows_mix c f g
    simp only [zipRows, mixRows, List.zipWith_cons_cons, List.map_cons] at this ⊢
    rw [this, mix_zip]

/-- A mix of rows of pairs is the mix of their parts. -/
theorem rows_of_pairs (c : ℝ) (r : List (List (ℝ × ℝ))) :
    SameSize (r.map (List.map Prod.fst)) (r.map (List.map Prod.snd)) ∧
      r.map (List.map fun p => c * p.1 + p.2) = mixRows c (r.map (List.map Prod.fst)) (r.map (List.map Prod.snd)) := by
  constructor
  · simp [SameSize]
  · induction r with
    | nil => rfl
    | cons a r ih =>
      simp only [mixRows, List.map_cons, List.zipWith_cons_cons] at ih ⊢
      rw [ih]
      congr 1
      induction a with
      | nil => rfl
      | cons p a ih => simp only [mix, List.map_cons, List.zipWith_cons_cons] at ih ⊢; rw [ih]

/-- Two results that fail together, and mix. -/
def MixesRows {β : Type} [Mul β] [Add β] (c : β) (x y z : Except PyErr (List (List β))) : Prop :=
  (∀ a, x = .ok a → ∃ b, y = .ok b ∧ SameSize a b ∧ z = .ok (mixRows c a b)) ∧ ∀ e, x = .error e → y = .error e ∧ z = .error e

theorem runPadded_mix (c : ℝ) (p : Nat) (w s : Int) (cs ds : List (List ℝ)) (l k : List ℝ) (hc : SameSize cs ds) (hl : l.length = k.length) :
    MixesRows c (runPadded 0 p w s cs l) (runPadded 0 p w s ds k) (runPadded 0 p w s (mixRows c cs ds) (mix c l k)) := by
  have h1 := runPadded_map Prod.fst ((0 : ℝ), (0 : ℝ)) p w s (zipRows cs ds) (l.zip k)
  have h2 := runPadded_map Prod.snd ((0 : ℝ), (0 : ℝ)) p w s (zipRows cs ds) (l.zip k)
  have h3 := runPadded_map (fun q : ℝ × ℝ => c * q.1 + q.2) ((0 : ℝ), (0 : ℝ)) p w s (zipRows cs ds) (l.zip k)
  rw [zipRows_fst _ _ hc, zip_fst _ _ hl] at h1
  rw [zipRows_snd _ _ hc, zip_snd _ _ hl] at h2
  rw [zipRows_mix, ← mix_zip] at h3
  simp only [mul_zero, add_zero] at h1 h2 h3
  rw [h1, h2, h3]
  cases runPadded ((0 : ℝ), (0 : ℝ)) p w s (zipRows cs ds) (l.zip k) with
  | error e =>
    constructor
    · intro a ha; cases ha
    · intro e' he; cases he; exact ⟨rfl, rfl⟩
  | ok r =>
    constructor
    · intro a ha
      cases ha
      obtain ⟨i1, i2⟩ := rows_of_pairs c r
      exact ⟨_, rfl, i1, by simp only [Except.map]; rw [i2]⟩
    · intro e he; cases he

theorem weigh_mix (c : ℝ) (func : Option (List ℝ)) (f g : List (List ℝ)) (h : SameSize f g) :
    SameSize (weigh func f) (weigh func g) ∧ weigh func (mixRows c f g) = mixRows c (weigh func f) (weigh func g) := by
  cases func with
  | none => exact ⟨h, rfl⟩
  | some w =>
    simp only [weigh, applyFunc]
    constructor
    · unfold SameSize at h ⊢
      have : ∀ (a b : List (List ℝ)), a.map List.length = b.map List.length →
          (a.map fun r => List.zipWith (· * ·) w r).map List.length = (b.map fun r => List.zipWith (· * ·) w r).map List.length := by
        intro a b hab
        have e : ∀ a : List (List ℝ), (a.map fun r => List.zipWith (· * ·) w r).map List.length = (a.map List.length).map fun n => min w.length n := by
          intro a; simp [Function.comp_def]
        rw [e, e, hab]
      exact this f g h
    · clear h
      induction f generalizing g with
      | nil => rfl
      | cons a f ih => cases g with
        | nil => rfl
        | cons b g =>
          simp only [mixRows, List.zipWith_cons_cons, List.map_cons, mix_mul] at ih ⊢
          rw [ih]

/-- A transform of single windows that is linear. -/
def LinearT {β : Type} [Mul β] [Add β] (lift : ℝ → β) (T : List ℝ → Except PyErr (List β)) : Prop :=
  ∀ (c : ℝ) (x y : List ℝ), x.length = y.length →
    (∃ a b, T x = .ok a ∧ T y = .ok b ∧ a.length = b.length ∧ T (mix c x y) = .ok (mix (lift c) a b)) ∨
      ∃ e, T x = .error e ∧ T y = .error e ∧ T (mix c x y) = .error e

theorem mapM_mix {β : Type} [Mul β] [Add β] (lift : ℝ → β) (T : List ℝ → Except PyErr (List β)) (hT : LinearT lift T) (c : ℝ) :
    ∀ (fs gs : List (List ℝ)), SameSize fs gs → MixesRows (lift c) (fs.mapM T) (gs.mapM T) ((mixRows c fs gs).mapM T)
  | [], [], _ => ⟨fun a ha => ⟨[], rfl, by cases ha; exact rfl, by cases ha; rfl⟩, fun e he => by cases he⟩
  | [], _ :: _, h => by simp [SameSize] at h
  | _ :: _, [], h => by simp [SameSize] at h
  | f :: fs, g :: gs, h => by
    simp only [SameSize, List.map_cons, List.cons.injEq] at h
    have ih := mapM_mix lift T hT c fs gs h.2
    simp only [mixRows, List.zipWith_cons_cons, List.mapM_cons] at ih ⊢
    rcases hT c f g h.1 with ⟨a, b, e1, e2, e3, e4⟩ | ⟨e, e1, e2, e3⟩
    · cases hfs : fs.mapM T with
      | ok as =>
        obtain ⟨bs, i1, i2, i3⟩ := ih.1 as hfs
        constructor
        · intro r hr
          rw [e1] at hr
          simp only [bind, Except.bind, pure, Except.pure] at hr
          cases hr
          refine ⟨b :: bs, ?_, ?_, ?_⟩
          · simp [e2, i1, bind, Except.bind, pure, Except.pure]
          · simp only [SameSize, List.map_cons, e3] at i2 ⊢
            rw [i2]
          · rw [e4, i3]; rfl
        · intro e he
          rw [e1] at he
          cases he
      | error e =>
        obtain ⟨i1, i2⟩ := ih.2 e hfs
        constructor
        · intro r hr
          rw [e1] at hr
          cases hr
        · intro e' he
          rw [e1] at he
          cases he
          exact ⟨by rw [e2, i1]; rfl, by rw [e4, i2]; rfl⟩
    · constructor
      · intro r hr
        rw [e1] at hr
        cases hr
      · intro e' he
        rw [e1] at he
        cases he
        exact ⟨by rw [e2]; rfl, by rw [e3]; rfl⟩

/-- The whole way from samples to coefficients is linear if the transform is. -/
theorem analyse_mix {β : Type} [Mul β] [Add β] (lift : ℝ → β) (T : List ℝ → Except PyErr (List β)) (hT : LinearT lift T) (c : ℝ) (func : Option (List ℝ)) (p : Nat)
    (wl hop : Int) (cs ds : List (List ℝ)) (l k : List ℝ) (hc : SameSize cs ds) (hl : l.length = k.length) :
    MixesRows (lift c) (analyse T func p wl hop cs l) (analyse T func p wl hop ds k) (analyse T func p wl hop (mixRows c cs ds) (mix c l k)) := by
  have h := runPadded_mix c p wl hop cs ds l k hc hl
  unfold analyse
  cases hr : runPadded 0 p wl hop cs l with
  | error e =>
    obtain ⟨h1, h2⟩ := h.2 e hr
    rw [h1, h2]
    constructor
    · intro a ha; cases ha
    · intro e' he; cases he; exact ⟨rfl, rfl⟩
  | ok wins =>
    obtain ⟨wins', h1, h2, h3⟩ := h.1 wins hr
    rw [h1, h3]
    simp only []
    obtain ⟨w1, w2⟩ := weigh_mix c func wins wins' h2
    rw [w2]
    exact mapM_mix lift T hT c _ _ w1

theorem linearT_of {T : List ℝ → Except PyErr (List ℝ)} (h : Linear1 id T) : LinearT id T := by
  intro c x y hxy
  exact h c x y hxy

theorem dct_linear : Linear1 id scipyDct := by
  intro c x y h
  unfold scipyDct
  by_cases hx : x = []
  · have hy : y = [] := by rw [← List.length_eq_zero_iff, ← h, hx]; rfl
    have hm : mix (id c) x y = [] := (mix_nil _ x y h).2 hx
    rw [if_pos hx, if_pos hy, if_pos hm]
    exact Or.inr ⟨_, rfl, rfl, rfl⟩
  · have hy : y ≠ [] := by
      intro hy
      exact hx (by rw [← List.length_eq_zero_iff, h, hy]; rfl)
    have hm : mix (id c) x y ≠ [] := fun hm => hx ((mix_nil _ x y h).1 hm)
    rw [if_neg hx, if_neg hy, if_neg hm]
    have hl : (mix (id c) x y).length = x.length := mix_length c x y h
    refine Or.inl ⟨_, _, rfl, rfl, by simp [h], ?_⟩
    rw [hl, ← h, mix_map]
    congr 1
    apply List.map_congr_left
    intro t _
    simp only [mix_getD _ x y h]
    simp only [id_eq]
    rw [show ∀ (s : Finset ℕ) (f g e : ℕ → ℝ), ∑ i ∈ s, (c * f i + g i) * e i = c * ∑ i ∈ s, f i * e i + ∑ i ∈ s, g i * e i from fun s f g e => by
      rw [Finset.mul_sum, ← Finset.sum_add_distrib]
      exact Finset.sum_congr rfl fun k _ => by ring]
    ring

theorem mdct_linear : Linear1 id mdct := by
  intro c x y h
  unfold mdct
  have hl : (mix (id c) x y).length = x.length := mix_length c x y h
  have hxy : (y = []) ↔ (x = []) := by
    rw [← List.length_eq_zero_iff, ← List.length_eq_zero_iff, h]
  by_cases hx : x.length % 2 = 1 ∨ x = []
  · have hy : y.length % 2 = 1 ∨ y = [] := by rw [← h, hxy]; exact hx
    have hm : (mix (id c) x y).length % 2 = 1 ∨ mix (id c) x y = [] := by rw [hl, mix_nil _ x y h]; exact hx
    rw [if_pos hx, if_pos hy, if_pos hm]
    exact Or.inr ⟨_, rfl, rfl, rfl⟩
  · have hy : ¬ (y.length % 2 = 1 ∨ y = []) := by rw [← h, hxy]; exact hx
    have hm : ¬ ((mix (id c) x y).length % 2 = 1 ∨ mix (id c) x y = []) := by rw [hl, mix_nil _ x y h]; exact hx
    rw [if_neg hx, if_neg hy, if_neg hm]
    refine Or.inl ⟨_, _, rfl, rfl, by simp [h], ?_⟩
    simp only [hl, ← h]
    rw [mix_map]
    congr 1
    apply List.map_congr_left
    intro k hk
    have hmap : (List.range (2 * (x.length / 2))).map (fun t : ℕ => (((mix (id c) x y).getD t 0 : ℝ) : ℂ) *
          Complex.exp (-Complex.I * Real.pi * t / 2 / ((x.length / 2 : ℕ) : ℂ))) =
        mix (c : ℂ) ((List.range (2 * (x.length / 2))).map fun t : ℕ => ((x.getD t 0 : ℝ) : ℂ) * Complex.exp (-Complex.I * Real.pi * t / 2 / ((x.length / 2 : ℕ) : ℂ)))
          ((List.range (2 * (x.length / 2))).map fun t : ℕ => ((y.getD t 0 : ℝ) : ℂ) * Complex.exp (-Complex.I * Real.pi * t / 2 / ((x.length / 2 : ℕ) : ℂ))) := by
      rw [mix_map]
      apply List.map_congr_left
      intro f _
      rw [mix_getD _ x y h]
      push_cast
      simp only [id_eq]
      ring
    rw [hmap, fft_mix _ _ _ _ (by simp), mix_take, mix_getD _ _ _ (by simp [fft_length]), add_mul, mul_assoc, Complex.add_re, Complex.re_ofReal_mul]
    ring

theorem zfft_linear (p : Nat) : LinearT (fun c : ℝ => (c : ℂ)) fun r => zfft r p := by
  intro c x y h
  have hz : mix c x y ++ List.replicate p 0 = mix c (x ++ List.replicate p 0) (y ++ List.replicate p 0) := by
    rw [mix_append _ _ _ _ _ h]
    congr 1
    have : ∀ k : Nat, mix c (List.replicate k 0) (List.replicate k 0) = List.replicate k (0 : ℝ) := by
      intro k
      induction k with
      | zero => rfl
      | succ k ih => simp only [List.replicate_succ, mix, List.zipWith_cons_cons] at ih ⊢; rw [ih]; simp
    rw [this]
  unfold zfft
  beta_reduce
  rw [hz]
  have h' : (x ++ List.replicate p 0).length = (y ++ List.replicate p 0).length := by simp [h]
  generalize x ++ List.replicate p 0 = x at *
  generalize y ++ List.replicate p 0 = y at *
  clear hz
  unfold rfft
  by_cases hx : x = []
  · have hy : y = [] := by rw [← List.length_eq_zero_iff, ← h', hx]; rfl
    have hm : mix c x y = [] := (mix_nil _ x y h').2 hx
    rw [if_pos hx, if_pos hy, if_pos hm]
    exact Or.inr ⟨_, rfl, rfl, rfl⟩
  · have hy : y ≠ [] := by
      intro hy
      exact hx (by rw [← List.length_eq_zero_iff, h', hy]; rfl)
    have hm : mix c x y ≠ [] := fun hm => hx ((mix_nil _ x y h').1 hm)
    rw [if_neg hx, if_neg hy, if_neg hm]
    have hl : (mix c x y).length = x.length := mix_length c x y h'
    refine Or.inl ⟨_, _, rfl, rfl, by simp [h'], ?_⟩
    rw [hl, ← h', mix_map]
    congr 1
    apply List.map_congr_left
    intro t _
    simp only [mix_getD _ x y h']
    rw [show ∀ (s : Finset ℕ) (f g : ℕ → ℝ) (e : ℕ → ℂ), ∑ i ∈ s, ((c * f i + g i : ℝ) : ℂ) * e i = (c : ℂ) * ∑ i ∈ s, (f i : ℂ) * e i + ∑ i ∈ s, (g i : ℂ) * e i from
      fun s f g e => by
        rw [Finset.mul_sum, ← Finset.sum_add_distrib]
        exact Finset.sum_congr rfl fun k _ => by push_cast; ring]
    ring

/-- **C365** (FFT node, with any zero padding). -/
theorem C365_fft (c : ℝ) (padding : Nat) (func : Option (List ℝ)) (p : Nat) (wl hop : Int) (cs ds : List (List ℝ)) (l k : List ℝ) (hc : SameSize cs ds)
    (hl : l.length = k.length) :
    MixesRows (c : ℂ) (analyse (fun r => zfft r padding) func p wl hop cs l) (analyse (fun r => zfft r padding) func p wl hop ds k)
      (analyse (fun r => zfft r padding) func p wl hop (mixRows c cs ds) (mix c l k)) :=
  analyse_mix _ _ (zfft_linear padding) c func p wl hop cs ds l k hc hl

/-- **C365** (MDCT node). -/
theorem C365_mdct (c : ℝ) (func : Option (List ℝ)) (p : Nat) (wl hop : Int) (cs ds : List (List ℝ)) (l k : List ℝ) (hc : SameSize cs ds) (hl : l.length = k.length) :
    MixesRows c (analyse mdct func p wl hop cs l) (analyse mdct func p wl hop ds k) (analyse mdct func p wl hop (mixRows c cs ds) (mix c l k)) :=
  analyse_mix _ _ (linearT_of mdct_linear) c func p wl hop cs ds l k hc hl

/-- **C365** (DCT node). -/
theorem C365_dct (c : ℝ) (func : Option (List ℝ)) (p : Nat) (wl hop : Int) (cs ds : List (List ℝ)) (l k : List ℝ) (hc : SameSize cs ds) (hl : l.length = k.length) :
    MixesRows c (analyse scipyDct func p wl hop cs l) (analyse scipyDct func p wl hop ds k) (analyse scipyDct func p wl hop (mixRows c cs ds) (mix c l k)) :=
  analyse_mix _ _ (linearT_of dct_linear) c func p wl hop cs ds l k hc hl

/-- **C365** (DCTIV node). -/
theorem C365_dctiv (c : ℝ) (func : Option (List ℝ)) (p : Nat) (wl hop : Int) (cs ds : List (List ℝ)) (l k : List ℝ) (hc : SameSize cs ds) (hl : l.length = k.length) :
    MixesRows c (analyse dctiv func p wl hop cs l) (analyse dctiv func p wl hop ds k) (analyse dctiv func p wl hop (mixRows c cs ds) (mix c l k)) :=
  analyse_mix _ _ (linearT_of dctiv_linear) c func p wl hop cs ds l k hc hl

/-- Two sounds of seven samples in chunks of four and two and a last sample, in windows of four every two, through the MDCT node. -/
example : ∃ a b, analyse mdct none 0 4 2 [[1, 2, 3, 4], [5, 6]] [7] = .ok a ∧ analyse mdct none 0 4 2 [[0, 1, 0, 1], [0, 1]] [0] = .ok b ∧
    analyse mdct none 0 4 2 (mixRows 2 [[1, 2, 3, 4], [5, 6]] [[0, 1, 0, 1], [0, 1]]) (mix 2 [7] [0]) = .ok (mixRows 2 a b) := by
  have h := C365_mdct 2 none 0 4 2 [[1, 2, 3, 4], [5, 6]] [[0, 1, 0, 1], [0, 1]] [7] [0] (by simp [SameSize]) (by simp)
  obtain ⟨k, _, _, h3⟩ := Stft.run_frames 4 2 (by decide) (by decide) (by decide) [[1, 2, 3, 4], [5, 6]] [7]
  obtain ⟨a, ha⟩ : ∃ a, analyse mdct none 0 4 2 [[1, 2, 3, 4], [5, 6]] [7] = .ok a := by
    unfold analyse
    have e : runPadded (0 : ℝ) 0 4 2 [[1, 2, 3, 4], [5, 6]] [7] = run 0 4 2 [[1, 2, 3, 4], [5, 6]] [7] := rfl
    rw [e]
    rw [show ((4 : Nat) : Int) = 4 from rfl, show ((2 : Nat) : Int) = 2 from rfl] at h3
    rw [h3]
    simp only [weigh]
    have hw : ∀ i, ∃ o, mdct (Stft.windowAt ([[1, 2, 3, 4], [5, 6]].flatten ++ [7]) 2 4 i) = .ok o := by
      intro i
      exact ⟨_, C53_mdct 2 (by decide) _ (by simp [Stft.windowAt])⟩
    choose g hg using hw
    rw [List.mapM_map]
    exact ⟨_, Codebook.mapM_ok_of _ _ g (fun i _ => hg i)⟩
  obtain ⟨b, hb, _, hm⟩ := h.1 a ha
  exact ⟨a, b, ha, hb, hm⟩

/-! ## Delays -/

theorem windowAt_delay (a x : List ℝ) (hop wl k i : Nat) (ha : a.length = k * hop) : Stft.windowAt (a ++ x) hop wl (i + k) = Stft.windowAt x hop wl i := by
  unfold Stft.windowAt
  apply List.map_congr_left
  intro j _
  rw [List.getD_eq_getElem?_getD, List.getElem?_append_right (by rw [ha, Nat.add_mul]; omega), ← List.getD_eq_getElem?_getD, ha]
  congr 1
  rw [Nat.add_mul]
  omega

/-- **C366**: with `k` hops of any samples in front of a sound, frame `i + k` of `stft` is frame `i` of the sound alone, and if the sound is longer than a window
there are exactly `k` more frames. -/
theorem C366_stft (a x : List ℝ) (hop wl k : Nat) (hw : 2 ≤ wl) (hh : 1 ≤ hop) (hhw : hop ≤ wl) (f : Nat → List ℝ) (hf : (f wl).length = wl)
    (ha : a.length = k * hop) :
    ∃ X Y, Stft.stft1 x hop wl (some f) = .ok X ∧ Stft.stft1 (a ++ x) hop wl (some f) = .ok Y ∧
      (∀ i, i < X.length → i + k < Y.length → Y[i + k]? = X[i]?) ∧ (wl < x.length → Y.length = X.length + k) := by
  obtain ⟨X, h1, h2, h3⟩ := Stft.C245_stft x hop wl hw hh hhw f hf
  obtain ⟨Y, g1, g2, g3⟩ := Stft.C245_stft (a ++ x) hop wl hw hh hhw f hf
  refine ⟨X, Y, h1, g1, ?_, ?_⟩
  · intro i hi hik
    rw [List.getElem?_eq_getElem hi, List.getElem?_eq_getElem hik]
    congr 1
    have e1 := h3 i hi
    have e2 := g3 (i + k) hik
    unfold Stft.FrameOf at e1 e2
    rw [windowAt_delay a x hop wl k i ha, e1] at e2
    exact (Except.ok.inj e2).symm
  · intro hl
    rw [if_neg (by omega)] at h2
    rw [List.length_append, ha, if_neg (by omega)] at g2
    rw [h2, g2]
    by_cases he : hop = wl
    · rw [if_pos he, if_pos he, show k * hop + x.length + hop - 1 = (x.length + hop - 1) + k * hop by omega, Nat.add_mul_div_right _ _ (by omega)]
    · rw [if_neg he, if_neg he, Nat.add_comm (k * hop), Nat.add_mul_div_right _ _ (by omega)]

example := C366_stft [0, 0, 0, 0] [1, 2, 3, 4, 5] 2 4 2 (by decide) (by decide) (by decide) WindowFunc.oggvorbis (Stft.oggvorbis_length 4) rfl

/-- **C366, streams**: the same for the `fft` feature of a graph, however the two sounds arrive. -/
theorem C366_graph (hop wl k : Nat) (hw : 2 ≤ wl) (hh : 1 ≤ hop) (hhw : hop ≤ wl) (cs ds : List (List ℝ)) (l m a : List ℝ)
    (ha : a.length = k * hop) (hd : ds.flatten ++ m = a ++ (cs.flatten ++ l)) :
    ∃ X Y, Stft.graphStft hop wl 0 cs l = .ok X ∧ Stft.graphStft hop wl 0 ds m = .ok Y ∧
      (∀ i, i < X.length → i + k < Y.length → Y[i + k]? = X[i]?) ∧
      ∀ i, i * hop + wl ≤ (cs.flatten ++ l).length → i < X.length ∧ i + k < Y.length := by
  obtain ⟨X, o, h1, h2, h3, h4, _⟩ := Stft.C246_graph hop wl hw hh hhw cs l
  obtain ⟨Y, o', g1, g2, g3, g4, _⟩ := Stft.C246_graph hop wl hw hh hhw ds m
  obtain ⟨_, _, _, X', e1, _, e3⟩ := Stft.graph_frames wl hop hw hh hhw cs l
  obtain ⟨_, _, _, Y', f1, _, f3⟩ := Stft.graph_frames wl hop hw hh hhw ds m
  rw [h1] at e1; cases e1
  rw [g1] at f1; cases f1
  refine ⟨X, Y, h1, g1, ?_, ?_⟩
  · intro i hi hik
    rw [List.getElem?_eq_getElem hi, List.getElem?_eq_getElem hik]
    congr 1
    have u1 := e3 i hi
    have u2 := f3 (i + k) hik
    unfold Stft.FrameOf at u1 u2
    rw [hd, windowAt_delay a _ hop wl k i ha, u1] at u2
    exact (Except.ok.inj u2).symm
  · intro i hi
    refine ⟨(h4 i hi).1, (g4 (i + k) ?_).1⟩
    rw [hd, List.length_append, ha, Nat.add_mul]
    omega

example := C366_graph 2 4 1 (by decide) (by decide) (by decide) [[1, 2, 3], [4, 5]] [[9, 9, 1], [2, 3, 4]] [6] [5, 6] [9, 9] rfl rfl

/-! ## Energy -/

/-- **C367**: `stft` of a sound longer than a window, in half-lapped windows weighted by the ogg vorbis window, has the sound's energy: `1 / oggMax²` times it, of which the
first half window and what is left after the last whole hop may be missing in part; exactly that if the sound is silent there. -/
theorem C367_stft (x : List ℝ) (hop : Nat) (hh : 1 ≤ hop) (hx : 2 * hop < x.length) :
    ∃ X, Stft.stft1 x hop (2 * hop) (some WindowFunc.oggvorbis) = .ok X ∧
      Energy.EnergyKept (fun t => x.getD t 0) hop (x.length / hop - 1) (X.map Energy.spectrumEnergy).sum ∧
      ((∀ t, t < hop ∨ x.length / hop * hop ≤ t → x.getD t 0 = 0) →
        (X.map Energy.spectrumEnergy).sum = 1 / WindowFunc.oggMax (2 * hop) ^ 2 * Energy.energy x) := by
  obtain ⟨X, h1, h2, h3⟩ := Stft.C245_stft x hop (2 * hop) (by omega) hh (by omega) WindowFunc.oggvorbis (Stft.oggvorbis_length _)
  rw [if_neg (by omega), if_neg (by omega)] at h2
  have hn : 2 ≤ x.length / hop := (Nat.le_div_iff_mul_le (by omega)).2 (by omega)
  obtain ⟨Y, g1, g2, g3⟩ := Energy.C364_fft (fun t => x.getD t 0) hop (x.length / hop - 1) (by omega)
  have hXY : X = Y := by
    have hrows : ((List.range (x.length / hop)).map fun i => List.zipWith (· * ·) (Stft.windowAt x hop (2 * hop) i) (WindowFunc.oggvorbis (2 * hop))) =
        Energy.weighted (fun t => x.getD t 0) hop (x.length / hop - 1) := by
      unfold Energy.weighted
      rw [show x.length / hop - 1 + 1 = x.length / hop by omega]
      apply List.map_congr_left
      intro i _
      unfold Stft.windowAt
      conv_lhs => rw [ogg_list]
      rw [List.zipWith_map, List.zipWith_self]
      apply List.map_congr_left
      intro j _
      exact mul_comm _ _
    have hlen : X.length = Y.length := by rw [h2, g2]; omega
    have hX : ((List.range (x.length / hop)).map fun i => List.zipWith (· * ·) (Stft.windowAt x hop (2 * hop) i) (WindowFunc.oggvorbis (2 * hop))).mapM rfft = .ok X := by
      obtain ⟨out, o1, o2, o3⟩ := Stft.frames_ok x hop (2 * hop) (by omega) _ (Stft.oggvorbis_length (2 * hop)) (x.length / hop)
      rw [o1]
      congr 1
      apply List.ext_getElem (by rw [o2, h2])
      intro i p1 p2
      exact (o3 i p1).unique (h3 i p2)
    rw [hrows] at hX
    have hz : (fun r => zfft r 0) = rfft := by
      funext r; unfold zfft; rw [List.replicate_zero, List.append_nil]
    rw [hz, hX] at g1
    exact Except.ok.inj g1
  rw [← hXY] at g3
  refine ⟨X, h1, g3, ?_⟩
  intro hz
  have e := g3.2.2 (by
    intro t ht
    apply hz
    rcases ht with ht | ht
    · exact Or.inl ht
    · rw [show x.length / hop - 1 + 1 = x.length / hop by omega] at ht
      exact Or.inr ht.1)
  rw [e, Energy.energy_eq, show x.length / hop - 1 + 2 = x.length / hop + 1 by omega]
  congr 1
  unfold Energy.span
  rw [Nat.Ico_zero_eq_range]
  have hle : x.length ≤ (x.length / hop + 1) * hop := by
    have := Nat.lt_div_mul_add (a := x.length) (b := hop) (by omega)
    rw [Nat.add_mul]; omega
  symm
  apply Finset.sum_subset
  · intro t ht
    exact Finset.mem_range.2 (lt_of_lt_of_le (Finset.mem_range.1 ht) hle)
  · intro t _ ht
    have : x.length ≤ t := by simpa using ht
    rw [List.getD_eq_getElem?_getD, List.getElem?_eq_none this]
    simp

example := C367_stft [0, 0, 1, 2, 3, 4] 2 (by decide) (by decide)

end Zounds.Analysis
