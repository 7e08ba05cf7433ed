import Verif.Model.Spectral
import Verif.Props.Filter
import Verif.Props.Synth
import Mathlib.Tactic.Ring
import Mathlib.Tactic.Linarith

/-!
# The synthesizers are linear (C361)
-/

namespace Zounds.SynthLinear
open Zounds Zounds.Synth Zounds.Spectral Finset

/-- Sample by sample, `c` times the one plus the other. -/
def mix {α : Type} [Mul α] [Add α] (c : α) (x y : List α) : List α := List.zipWith (fun a b => c * a + b) x y

/-- Two lists of frames of the same sizes. -/
def SameSize {α : Type} (f g : List (List α)) : Prop := f.map List.length = g.map List.length

/-- Frame by frame. -/
def mixRows {α : Type} [Mul α] [Add α] (c : α) (f g : List (List α)) : List (List α) := List.zipWith (mix c) f g

section
variable {α : Type} [Field α]

theorem mix_length (c : α) (x y : List α) (h : x.length = y.length) : (mix c x y).length = x.length := by
  simp [mix, h]

theorem mix_getD (c : α) (x y : List α) (h : x.length = y.length) (i : Nat) : (mix c x y).getD i 0 = c * x.getD i 0 + y.getD i 0 := by
  unfold mix
  by_cases hi : i < x.length
  · simp [List.getD, hi, h ▸ hi]
  · have h1 : x[i]? = none := List.getElem?_eq_none (by omega)
    have h2 : y[i]? = none := List.getElem?_eq_none (by omega)
    have h3 : (List.zipWith (fun a b => c * a + b) x y)[i]? = none := List.getElem?_eq_none (by rw [List.length_zipWith]; omega)
    simp [List.getD, h1, h2, h3]

theorem mix_map {β : Type} (c : α) (l : List β) (f g : β → α) : mix c (l.map f) (l.map g) = l.map fun i => c * f i + g i := by
  unfold mix
  induction l with
  | nil => rfl
  | cons a l ih => simp [ih]

theorem mix_append (c : α) (x1 x2 y1 y2 : List α) (h : x1.length = y1.length) : mix c (x1 ++ x2) (y1 ++ y2) = mix c x1 y1 ++ mix c x2 y2 :=
  List.zipWith_append h

theorem mix_take (c : α) (x y : List α) (k : Nat) : (mix c x y).take k = mix c (x.take k) (y.take k) := List.take_zipWith

theorem mix_drop (c : α) (x y : List α) (k : Nat) : (mix c x y).drop k = mix c (x.drop k) (y.drop k) := List.drop_zipWith

theorem mix_add (c : α) : ∀ (x1 x2 y1 y2 : List α), x1.length = x2.length → y1.length = y2.length → x1.length = y1.length →
    List.zipWith (· + ·) (mix c x1 y1) (mix c x2 y2) = mix c (List.zipWith (· + ·) x1 x2) (List.zipWith (· + ·) y1 y2)
  | [], [], [], [], _, _, _ => rfl
  | a :: x1, b :: x2, a' :: y1, b' :: y2, h1, h2, h3 => by
    have := mix_add c x1 x2 y1 y2 (by simpa using h1) (by simpa using h2) (by simpa using h3)
    simp only [mix, List.zipWith_cons_cons] at this ⊢
    rw [this]
    congr 1
    ring

theorem mix_mul (c : α) : ∀ (w x y : List α), List.zipWith (· * ·) w (mix c x y) = mix c (List.zipWith (· * ·) w x) (List.zipWith (· * ·) w y)
  | [], _, _ => by simp [mix]
  | _ :: _, [], _ => by simp [mix]
  | _ :: _, _ :: _, [] => by simp [mix]
  | v :: w, a :: x, b :: y => by
    have := mix_mul c w x y
    simp only [mix, List.zipWith_cons_cons] at this ⊢
    rw [this]
    congr 1
    ring

theorem mix_map_add (c : α) (u v : α) : ∀ x y : List α, (mix c x y).map (· + (c * u + v)) = mix c (x.map (· + u)) (y.map (· + v))
  | [], _ => rfl
  | _ :: _, [] => rfl
  | a :: x, b :: y => by
    have := mix_map_add c u v x y
    simp only [mix, List.zipWith_cons_cons, List.map_cons] at this ⊢
    rw [this]
    congr 1
    ring

/-- Two computations that fail together, and whose results mix. -/
def Together (c : α) (x y z : Except PyErr (List α)) : Prop :=
  (∃ a b, x = .ok a ∧ y = .ok b ∧ a.length = b.length ∧ z = .ok (mix c a b)) ∨ ∃ e, x = .error e ∧ y = .error e ∧ z = .error e

theorem addAt_mix (c : α) (x y f g : List α) (s t : Nat) (hxy : x.length = y.length) (hfg : f.length = g.length) :
    Together c (addAt x s t f) (addAt y s t g) (addAt (mix c x y) s t (mix c f g)) ∧
      ∀ a, addAt x s t f = .ok a → a.length = x.length := by
  obtain ⟨tx, htx⟩ : ∃ tx, tx = (x.take t).drop s := ⟨_, rfl⟩
  obtain ⟨ty, hty⟩ : ∃ ty, ty = (y.take t).drop s := ⟨_, rfl⟩
  have hlt : tx.length = ty.length := by simp [htx, hty, hxy]
  have htm : ((mix c x y).take t).drop s = mix c tx ty := by rw [mix_take, mix_drop, htx, hty]
  have hml : (mix c tx ty).length = tx.length := mix_length c _ _ hlt
  have hgm : (mix c f g).take tx.length = mix c (f.take tx.length) (g.take tx.length) := mix_take c f g _
  have hlen : (f.take tx.length).length = (g.take tx.length).length := by simp [hfg]
  have hmgl : (mix c (f.take tx.length) (g.take tx.length)).length = (f.take tx.length).length := mix_length c _ _ hlen
  have htl : tx.length = min t x.length - s := by simp [htx]
  unfold addAt
  simp only [← htx, ← hty, htm, hml, ← hlt, hgm, hmgl, ← hlen]
  by_cases he : (f.take tx.length).length = tx.length
  · simp only [he, if_true]
    have e1 : (x.take s).length = (y.take s).length := by simp [hxy]
    have hz1 : (List.zipWith (· + ·) tx (f.take tx.length)).length = tx.length := by
      rw [List.length_zipWith, he, Nat.min_self]
    have hz2 : (List.zipWith (· + ·) ty (g.take tx.length)).length = tx.length := by
      rw [List.length_zipWith, ← hlen, he, ← hlt, Nat.min_self]
    refine ⟨Or.inl ⟨_, _, rfl, rfl, ?_, ?_⟩, ?_⟩
    · rw [List.length_append, List.length_append, List.length_append, List.length_append, hz1, hz2, e1]
      simp [hxy]
    · rw [mix_add c tx (f.take tx.length) ty (g.take tx.length) he.symm (by rw [← hlen, he, hlt]) hlt, mix_take, mix_drop,
        mix_append _ _ _ _ _ (by rw [List.length_append, List.length_append, hz1, hz2, e1]), mix_append _ _ _ _ _ e1]
    · intro a ha
      cases ha
      rw [List.length_append, List.length_append, hz1, List.length_take, List.length_drop]
      omega
  · simp only [he, if_false]
    cases hf : f.take tx.length with
    | nil =>
      cases hg : g.take tx.length with
      | nil => exact ⟨Or.inr ⟨_, rfl, rfl, rfl⟩, fun a ha => by cases ha⟩
      | cons v vs => rw [hf, hg] at hlen; simp at hlen
    | cons u us =>
      cases hg : g.take tx.length with
      | nil => rw [hf, hg] at hlen; simp at hlen
      | cons v vs =>
        rw [hf, hg] at hlen
        cases us with
        | nil =>
          cases vs with
          | nil =>
            have e1 : (x.take s).length = (y.take s).length := by simp [hxy]
            refine ⟨Or.inl ⟨_, _, rfl, rfl, ?_, ?_⟩, ?_⟩
            · rw [List.length_append, List.length_append, List.length_append, List.length_append, List.length_map, List.length_map, e1, hlt]
              simp [hxy]
            · have : mix c [u] [v] = [c * u + v] := rfl
              simp only [this]
              rw [mix_map_add, mix_take, mix_drop, mix_append _ _ _ _ _ (by simp [hlt, hxy]), mix_append _ _ _ _ _ e1]
            · intro a ha
              cases ha
              rw [List.length_append, List.length_append, List.length_map, List.length_take, List.length_drop]
              omega
          | cons _ _ => simp at hlen
        | cons u2 us =>
          cases vs with
          | nil => simp at hlen
          | cons v2 vs =>
            have : ∃ w1 w2 ws, mix c (u :: u2 :: us) (v :: v2 :: vs) = w1 :: w2 :: ws := ⟨_, _, _, rfl⟩
            obtain ⟨w1, w2, ws, hw⟩ := this
            simp only [hw]
            exact ⟨Or.inr ⟨_, rfl, rfl, rfl⟩, fun a ha => by cases ha⟩

theorem addFrames_mix (c : α) (hop ws : Nat) : ∀ (fs gs : List (List α)), SameSize fs gs → ∀ (i : Nat) (x y : List α), x.length = y.length →
    Together c (addFrames hop ws i fs x) (addFrames hop ws i gs y) (addFrames hop ws i (mixRows c fs gs) (mix c x y))
  | [], [], _, _, x, y, hxy => Or.inl ⟨x, y, rfl, rfl, hxy, rfl⟩
  | [], _ :: _, h, _, _, _, _ => by simp [SameSize] at h
  | _ :: _, [], h, _, _, _, _ => by simp [SameSize] at h
  | f :: fs, g :: gs, h, i, x, y, hxy => by
    simp only [SameSize, List.map_cons, List.cons.injEq] at h
    have ha := (addAt_mix c x y f g (i * hop) (i * hop + ws) hxy h.1).1
    simp only [mixRows, List.zipWith_cons_cons, addFrames]
    rcases ha with ⟨a, b, e1, e2, e3, e4⟩ | ⟨e, e1, e2, e3⟩
    · simp only [e1, e2, e4]
      exact addFrames_mix c hop ws fs gs h.2 (i + 1) a b e3
    · simp only [e1, e2, e3]
      exact Or.inr ⟨e, rfl, rfl, rfl⟩

theorem overlapAdd_mix (c : α) (w : Option (List α)) (td : Time.Dim) (n : Nat) (fs gs : List (List α)) (h : SameSize fs gs) :
    Together c (overlapAdd w ⟨td, n, fs⟩) (overlapAdd w ⟨td, n, gs⟩) (overlapAdd w ⟨td, n, mixRows c fs gs⟩) := by
  have hsf : ∀ rows : List (List α), sampleFreq ⟨td, n, rows⟩ = td.duration.tdiv n := fun _ => rfl
  have hts : ∀ rows : List (List α), totalSize ⟨td, n, rows⟩ = td.end_.tdiv (td.duration.tdiv n) := fun _ => rfl
  have hzero : ∀ k : Nat, mix c (List.replicate k 0) (List.replicate k 0) = List.replicate k (0 : α) := by
    intro k
    induction k with
    | zero => rfl
    | succ k ih => simp only [List.replicate_succ, mix, List.zipWith_cons_cons] at ih ⊢; rw [ih]; simp
  unfold overlapAdd
  simp only [hsf, hts]
  by_cases h0 : n = 0
  · simp only [h0, if_true]; exact Or.inr ⟨_, rfl, rfl, rfl⟩
  simp only [h0, if_false]
  by_cases h1 : td.duration.tdiv n = 0
  · simp only [h1, if_true]; exact Or.inr ⟨_, rfl, rfl, rfl⟩
  simp only [h1, if_false]
  by_cases h2 : td.end_.tdiv (td.duration.tdiv n) < 0
  · simp only [h2, if_true]; exact Or.inr ⟨_, rfl, rfl, rfl⟩
  simp only [h2, if_false]
  have hh : ∀ rows : List (List α), hopSize ⟨td, n, rows⟩ = hopSize (⟨td, n, []⟩ : Frames α) := fun _ => rfl
  have hw : ∀ rows : List (List α), windowSize ⟨td, n, rows⟩ = windowSize (⟨td, n, []⟩ : Frames α) := fun _ => rfl
  rw [hh fs, hh gs, hh (mixRows c fs gs), hw fs, hw gs, hw (mixRows c fs gs)]
  cases w with
  | none =>
    have := addFrames_mix c (hopSize (⟨td, n, []⟩ : Frames α)).toNat (windowSize (⟨td, n, []⟩ : Frames α)).toNat fs gs h 0
      (List.replicate (td.end_.tdiv (td.duration.tdiv n)).toNat 0) (List.replicate (td.end_.tdiv (td.duration.tdiv n)).toNat 0) rfl
    rw [hzero] at this
    exact this
  | some w =>
    have hsame : SameSize (fs.map fun r => List.zipWith (· * ·) w r) (gs.map fun r => List.zipWith (· * ·) w r) := by
      unfold SameSize at h ⊢
      clear hh hw hsf hts
      induction fs generalizing gs with
      | nil => cases gs with
        | nil => rfl
        | cons _ _ => simp at h
      | cons f fs ih => cases gs with
        | nil => simp at h
        | cons g gs =>
          simp only [List.map_cons, List.cons.injEq, List.length_zipWith] at h ⊢
          exact ⟨by rw [h.1], ih gs h.2⟩
    have hrows : (mixRows c fs gs).map (fun r => List.zipWith (· * ·) w r) =
        mixRows c (fs.map fun r => List.zipWith (· * ·) w r) (gs.map fun r => List.zipWith (· * ·) w r) := by
      clear hh hw hsf hts hsame h
      induction fs generalizing gs with
      | nil => rfl
      | cons f fs ih => cases gs with
        | nil => rfl
        | cons g gs =>
          simp only [mixRows, List.zipWith_cons_cons, List.map_cons, mix_mul] at ih ⊢
          rw [ih]
    have := addFrames_mix c (hopSize (⟨td, n, []⟩ : Frames α)).toNat (windowSize (⟨td, n, []⟩ : Frames α)).toNat _ _ hsame 0
      (List.replicate (td.end_.tdiv (td.duration.tdiv n)).toNat 0) (List.replicate (td.end_.tdiv (td.duration.tdiv n)).toNat 0) rfl
    rw [hzero, ← hrows] at this
    exact this
end

/-- A transform of single frames that is linear, `lift c` being the number `c` among the coefficients. -/
def Linear1 {β : Type} [Mul β] [Add β] (lift : ℝ → β) (T : List β → Except PyErr (List ℝ)) : Prop :=
  ∀ (c : ℝ) (x y : List β), x.length = y.length → Together c (T x) (T y) (T (mix (lift c) x y))

theorem rows_mix {β : Type} [Mul β] [Add β] (lift : ℝ → β) (T : List β → Except PyErr (List ℝ)) (hT : Linear1 lift T) (c : ℝ) :
    ∀ (fs gs : List (List β)), SameSize fs gs →
      (∃ a b, fs.mapM T = .ok a ∧ gs.mapM T = .ok b ∧ SameSize a b ∧ (mixRows (lift c) fs gs).mapM T = .ok (mixRows c a b)) ∨
      ∃ e, fs.mapM T = .error e ∧ gs.mapM T = .error e ∧ (mixRows (lift c) fs gs).mapM T = .error e
  | [], [], _ => Or.inl ⟨[], [], rfl, rfl, rfl, rfl⟩
  | [], _ :: _, h => by simp [SameSize] at h
  | _ :: _, [], h => by simp [SameSize] at h
  | f :: fs, g :: gs, h => by
    simp only [SameSize, List.map_cons, List.cons.injEq] at h
    have ih := rows_mix lift T hT c fs gs h.2
    simp only [mixRows, List.zipWith_cons_cons, List.mapM_cons] at ih ⊢
    rcases hT c f g h.1 with ⟨a, b, e1, e2, e3, e4⟩ | ⟨e, e1, e2, e3⟩
    · rcases ih with ⟨as, bs, i1, i2, i3, i4⟩ | ⟨e, i1, i2, i3⟩
      · refine Or.inl ⟨a :: as, b :: bs, ?_, ?_, ?_, ?_⟩
        · simp [e1, i1, bind, Except.bind, pure, Except.pure]
        · simp [e2, i2, bind, Except.bind, pure, Except.pure]
        · simp only [SameSize, List.map_cons, e3] at i3 ⊢
          rw [i3]
        · simp [e4, i4, bind, Except.bind, pure, Except.pure]
      · refine Or.inr ⟨e, ?_, ?_, ?_⟩
        · simp [e1, i1, bind, Except.bind]
        · simp [e2, i2, bind, Except.bind]
        · simp [e4, i3, bind, Except.bind]
    · refine Or.inr ⟨e, ?_, ?_, ?_⟩
      · simp [e1, bind, Except.bind]
      · simp [e2, bind, Except.bind]
      · simp [e3, bind, Except.bind]

theorem mixF_getD {β : Type} [Field β] (c : β) (x y : List β) (h : x.length = y.length) (i : Nat) :
    (mix c x y).getD i 0 = c * x.getD i 0 + y.getD i 0 := mix_getD c x y h i

theorem mix_nil {β : Type} [Mul β] [Add β] (c : β) (x y : List β) (h : x.length = y.length) : mix c x y = [] ↔ x = [] := by
  unfold mix
  rw [← List.length_eq_zero_iff, List.length_zipWith, ← h, Nat.min_self, List.length_eq_zero_iff]

theorem idct_linear : Linear1 id scipyIdct := by
  intro c x y h
  unfold scipyIdct
  by_cases hx : x = []
  · have hy : y = [] := by rw [← List.length_eq_zero_iff, ← h, hx]; rfl
    have hm : mix (id c) x y = [] := (mix_nil _ x y h).2 hx
    rw [if_pos hx, if_pos hy, if_pos hm]
    exact Or.inr ⟨_, rfl, rfl, rfl⟩
  · have hy : y ≠ [] := by
      intro hy
      exact hx (by rw [← List.length_eq_zero_iff, h, hy]; rfl)
    have hm : mix (id c) x y ≠ [] := fun hm => hx ((mix_nil _ x y h).1 hm)
    rw [if_neg hx, if_neg hy, if_neg hm]
    have hl : (mix (id c) x y).length = x.length := mix_length c x y h
    refine Or.inl ⟨_, _, rfl, rfl, by simp [h], ?_⟩
    rw [hl, ← h, mix_map]
    congr 1
    apply List.map_congr_left
    intro t _
    simp only [mix_getD _ x y h]
    simp only [id_eq]
    rw [Finset.mul_sum, ← Finset.sum_add_distrib]
    exact Finset.sum_congr rfl fun k _ => by ring

theorem fft_mix (c : ℂ) (x y : List ℂ) (n : ℕ) (h : x.length = y.length) : fft (mix c x y) n = mix c (fft x n) (fft y n) := by
  unfold fft
  rw [mix_map]
  apply List.map_congr_left
  intro k _
  simp only [mix_getD _ x y h]
  rw [Finset.mul_sum, ← Finset.sum_add_distrib]
  exact Finset.sum_congr rfl fun k _ => by ring

theorem fft_length (x : List ℂ) (n : ℕ) : (fft x n).length = n := by simp [fft]

theorem imdct_linear : Linear1 id imdct := by
  intro c x y h
  unfold imdct
  by_cases hx : x = []
  · have hy : y = [] := by rw [← List.length_eq_zero_iff, ← h, hx]; rfl
    have hm : mix (id c) x y = [] := (mix_nil _ x y h).2 hx
    rw [if_pos hx, if_pos hy, if_pos hm]
    exact Or.inr ⟨_, rfl, rfl, rfl⟩
  · have hy : y ≠ [] := by
      intro hy
      exact hx (by rw [← List.length_eq_zero_iff, h, hy]; rfl)
    have hm : mix (id c) x y ≠ [] := fun hm => hx ((mix_nil _ x y h).1 hm)
    rw [if_neg hx, if_neg hy, if_neg hm]
    have hl : (mix (id c) x y).length = x.length := mix_length c x y h
    refine Or.inl ⟨_, _, rfl, rfl, by simp [h], ?_⟩
    simp only [hl, ← h]
    rw [mix_map]
    congr 1
    apply List.map_congr_left
    intro t ht
    have hmap : (List.range x.length).map (fun f : ℕ => (((mix (id c) x y).getD f 0 : ℝ) : ℂ) *
          Complex.exp (-Complex.I * Real.pi * (f + 1 / 2) * (x.length + 1) / 2 / x.length)) =
        mix (c : ℂ) ((List.range x.length).map fun f : ℕ => ((x.getD f 0 : ℝ) : ℂ) * Complex.exp (-Complex.I * Real.pi * (f + 1 / 2) * (x.length + 1) / 2 / x.length))
          ((List.range x.length).map fun f : ℕ => ((y.getD f 0 : ℝ) : ℂ) * Complex.exp (-Complex.I * Real.pi * (f + 1 / 2) * (x.length + 1) / 2 / x.length)) := by
      rw [mix_map]
      apply List.map_congr_left
      intro f _
      rw [mix_getD _ x y h]
      push_cast
      simp only [id_eq]
      ring
    rw [hmap, fft_mix _ _ _ _ (by simp), mix_getD _ _ _ (by rw [fft_length, fft_length]), add_mul, mul_assoc, Complex.add_re, Complex.re_ofReal_mul]
    ring

theorem irfft_linear : Linear1 (fun c : ℝ => (c : ℂ)) irfft := by
  intro c x y h
  unfold irfft
  have hl : (mix (c : ℂ) x y).length = x.length := mix_length (c : ℂ) x y h
  by_cases hx : x.length ≤ 1
  · simp only [hl, ← h, hx, if_true]
    exact Or.inr ⟨_, rfl, rfl, rfl⟩
  · simp only [hl, ← h, hx, if_false]
    refine Or.inl ⟨_, _, rfl, rfl, by simp, ?_⟩
    rw [mix_map]
    congr 1
    apply List.map_congr_left
    intro t ht
    simp only [mix_getD _ x y h]
    simp only [add_mul, mul_assoc, Complex.add_re, Complex.re_ofReal_mul]
    rw [show ∀ s : Finset ℕ, ∀ f g : ℕ → ℝ, ∑ k ∈ s, 2 * (c * f k + g k) = c * ∑ k ∈ s, 2 * f k + ∑ k ∈ s, 2 * g k from fun s f g => by
      rw [Finset.mul_sum, ← Finset.sum_add_distrib]
      exact Finset.sum_congr rfl fun k _ => by ring]
    ring

theorem dctiv_linear : Linear1 id dctiv := by
  intro c x y h
  unfold dctiv
  by_cases hx : x = []
  · have hy : y = [] := by rw [← List.length_eq_zero_iff, ← h, hx]; rfl
    have hm : mix (id c) x y = [] := (mix_nil _ x y h).2 hx
    rw [if_pos hx, if_pos hy, if_pos hm]
    exact Or.inr ⟨_, rfl, rfl, rfl⟩
  · have hy : y ≠ [] := by
      intro hy
      exact hx (by rw [← List.length_eq_zero_iff, h, hy]; rfl)
    have hm : mix (id c) x y ≠ [] := fun hm => hx ((mix_nil _ x y h).1 hm)
    rw [if_neg hx, if_neg hy, if_neg hm]
    have hl : (mix (id c) x y).length = x.length := mix_length c x y h
    refine Or.inl ⟨_, _, rfl, rfl, by simp [h], ?_⟩
    simp only [hl, ← h]
    rw [mix_map]
    congr 1
    apply List.map_congr_left
    intro k hk
    have hmap : (List.range x.length).map (fun t : ℕ => (((((mix (id c) x y).getD t 0 : ℝ) : ℂ) * Complex.exp (-Complex.I * Real.pi * t / 2 / x.length)).re : ℂ)) =
        mix (c : ℂ) ((List.range x.length).map fun t : ℕ => ((((x.getD t 0 : ℝ) : ℂ) * Complex.exp (-Complex.I * Real.pi * t / 2 / x.length)).re : ℂ))
          ((List.range x.length).map fun t : ℕ => ((((y.getD t 0 : ℝ) : ℂ) * Complex.exp (-Complex.I * Real.pi * t / 2 / x.length)).re : ℂ)) := by
      rw [mix_map]
      apply List.map_congr_left
      intro f _
      rw [mix_getD _ x y h]
      simp only [Complex.re_ofReal_mul, id_eq]
      push_cast
      ring
    rw [hmap, fft_mix _ _ _ _ (by simp), mix_take, mix_getD _ _ _ (by simp [fft_length]), add_mul, mul_assoc, Complex.add_re, Complex.re_ofReal_mul]
    ring

theorem synth_mix {β : Type} [Mul β] [Add β] (lift : ℝ → β) (T : List β → Except PyErr (List ℝ)) (hT : Linear1 lift T) (c : ℝ) (w : Option (List ℝ))
    (td : Time.Dim) (n : Nat) (fs gs : List (List β)) (h : SameSize fs gs) (S : List (List β) → Except PyErr (List ℝ))
    (hS : ∀ rows, S rows = match rows.mapM T with | .error e => .error e | .ok ys => overlapAdd w ⟨td, n, ys⟩) :
    Together c (S fs) (S gs) (S (mixRows (lift c) fs gs)) := by
  rw [hS, hS, hS]
  rcases rows_mix lift T hT c fs gs h with ⟨a, b, e1, e2, e3, e4⟩ | ⟨e, e1, e2, e3⟩
  · rw [e1, e2, e4]
    exact overlapAdd_mix c w td n a b e3
  · rw [e1, e2, e3]
    exact Or.inr ⟨e, rfl, rfl, rfl⟩

/-- The sound of a mix is the mix of the sounds: whenever the one set of coefficients can be synthesized, so can the other and every mix
`c` times the one plus the other, to as many samples, each `c` times the one sample plus the other. -/
def MixesSounds (c : ℝ) (x y z : Except PyErr (List ℝ)) : Prop :=
  (∀ a, x = .ok a → ∃ b s, y = .ok b ∧ z = .ok s ∧ b.length = a.length ∧ s.length = a.length ∧
    ∀ t, s.getD t 0 = c * a.getD t 0 + b.getD t 0) ∧
  ∀ e, x = .error e → y = .error e ∧ z = .error e

theorem Together.sounds {c : ℝ} {x y z : Except PyErr (List ℝ)} (h : Together c x y z) : MixesSounds c x y z := by
  rcases h with ⟨a, b, e1, e2, e3, e4⟩ | ⟨e, e1, e2, e3⟩
  · constructor
    · intro a' ha
      rw [e1] at ha
      cases ha
      exact ⟨b, _, e2, e4, e3.symm, mix_length c a b e3, fun t => mix_getD c a b e3 t⟩
    · intro e he
      rw [e1] at he
      cases he
  · constructor
    · intro a ha
      rw [e1] at ha
      cases ha
    · intro e' he
      rw [e1] at he
      cases he
      exact ⟨e2, e3⟩

/-- **C361** (MDCTSynthesizer). -/
theorem C361_mdct (c : ℝ) (td : Time.Dim) (n : Nat) (fs gs : List (List ℝ)) (h : SameSize fs gs) :
    MixesSounds c (mdctSynthesize ⟨td, n, fs⟩) (mdctSynthesize ⟨td, n, gs⟩) (mdctSynthesize ⟨td, n, mixRows c fs gs⟩) :=
  (synth_mix id imdct imdct_linear c (some (WindowFunc.oggvorbis (2 * n))) td (2 * n) fs gs h (fun rows => mdctSynthesize ⟨td, n, rows⟩) fun _ => rfl).sounds

/-- **C361** (FFTSynthesizer): the coefficients are complex, the factor real. -/
theorem C361_fft (c : ℝ) (td : Time.Dim) (n : Nat) (fs gs : List (List ℂ)) (h : SameSize fs gs) :
    MixesSounds c (fftSynthesize ⟨td, n, fs⟩) (fftSynthesize ⟨td, n, gs⟩) (fftSynthesize ⟨td, n, mixRows (c : ℂ) fs gs⟩) :=
  (synth_mix (fun c : ℝ => (c : ℂ)) irfft irfft_linear c (some (WindowFunc.oggvorbis (2 * (n - 1)))) td (2 * (n - 1)) fs gs h (fun rows => fftSynthesize ⟨td, n, rows⟩) fun _ => rfl).sounds

/-- **C361** (DCTSynthesizer, with any windowing function). -/
theorem C361_dct (c : ℝ) (w : Option (List ℝ)) (td : Time.Dim) (n : Nat) (fs gs : List (List ℝ)) (h : SameSize fs gs) :
    MixesSounds c (dctSynthesize w ⟨td, n, fs⟩) (dctSynthesize w ⟨td, n, gs⟩) (dctSynthesize w ⟨td, n, mixRows c fs gs⟩) :=
  (synth_mix id scipyIdct idct_linear c w td n fs gs h (fun rows => dctSynthesize w ⟨td, n, rows⟩) fun _ => rfl).sounds

/-- **C361** (DCTIVSynthesizer's transform of every frame). -/
theorem C361_dctiv (c : ℝ) (x y : List ℝ) (h : x.length = y.length) : MixesSounds c (dctiv x) (dctiv y) (dctiv (mix c x y)) :=
  (dctiv_linear c x y h).sounds

/-- The frames of an array in memory. -/
def framesOf {δ α : Type} (m : Arr.Mem α) (a : Arr.Awu δ Nat) (n k : Nat) : List (List α) :=
  (List.range n).map fun i => (List.range k).map fun j => (m.read a).get [i, j]

/-- The same frames, all columns but one silenced. -/
def onlyColumn {δ : Type} (m : Arr.Mem ℝ) (a : Arr.Awu δ Nat) (n k c : Nat) : List (List ℝ) :=
  (List.range n).map fun i => (List.range k).map fun j => if j = c then (m.read a).get [i, j] else 0

theorem mixRows_map {γ : Type} (l : List γ) (f g : γ → List ℝ) : mixRows 1 (l.map f) (l.map g) = l.map fun i => mix 1 (f i) (g i) := by
  unfold mixRows
  induction l with
  | nil => rfl
  | cons a l ih => simp [ih]

theorem same_rows (n k : Nat) (f g : Nat → Nat → ℝ) :
    SameSize ((List.range n).map fun i => (List.range k).map (f i)) ((List.range n).map fun i => (List.range k).map (g i)) := by
  simp [SameSize]

open Zounds.Arr Zounds.Freq Zounds.Props.Frequency Zounds.Filter in
/-- **C361** (the two halves of a crossover): splitting the MDCT coefficients of a sound at a frequency inside the spectrum and synthesizing the two parts
gives two sounds that add up, sample by sample, to the sound of the whole plus the sound of one column, the one the frequency falls into. -/
theorem C361_crossover {φ : Type} [Field φ] [LinearOrder φ] [IsStrictOrderedRing φ] (X : Freq.NumExt φ) (m : Mem ℝ) (a : Awu (LibDim φ) Nat)
    (ha : Held m a) (n : Nat) (d : LibDim φ) (b : Band φ) (k : Nat) (hb : WF b) (hk : 2 ≤ k) (h : Spectrum a n d (.linear b k false))
    (bs : List (Band φ)) (hbs : (Scale.linear b k false).bands X = .ok bs) (f : φ) (h1 : b.start < f) (h2 : f < b.stop) (td : Time.Dim)
    (whole : List ℝ) (hw : mdctSynthesize ⟨td, k, framesOf m a n k⟩ = .ok whole) :
    ∃ m1 low m2 high c x s1 s2 s3, bandPass (libOps X) 0 m a (.custom (.band ⟨b.start, f⟩)) = .ok (m1, low) ∧
      bandPass (libOps X) 0 m1 a (.custom (.band ⟨f, b.stop⟩)) = .ok (m2, high) ∧
      bs[(c : Nat)]? = some x ∧ x.start < f ∧ f ≤ x.stop ∧
      mdctSynthesize ⟨td, k, framesOf m2 low n k⟩ = .ok s1 ∧ mdctSynthesize ⟨td, k, framesOf m2 high n k⟩ = .ok s2 ∧
      mdctSynthesize ⟨td, k, onlyColumn m a n k c⟩ = .ok s3 ∧
      ∀ t, s1.getD t 0 + s2.getD t 0 = whole.getD t 0 + s3.getD t 0 := by
  obtain ⟨m1, low, m2, high, e1, e2, ⟨c, x, hc, hx, huniq⟩, hval⟩ := C360_crossover X m a ha n d b k hb hk h bs hbs f h1 h2
  have hlen : bs.length = k := by
    have hbs' : (Scale.linear b k false).bands X = .ok ((List.range k).map (part b k)) := linearBands_eq b k hb hk
    rw [hbs'] at hbs; cases hbs; simp
  have hrows : mixRows 1 (framesOf m2 low n k) (framesOf m2 high n k) = mixRows 1 (framesOf m a n k) (onlyColumn m a n k c) := by
    unfold framesOf onlyColumn
    rw [mixRows_map, mixRows_map]
    apply List.map_congr_left
    intro i hi
    rw [mix_map, mix_map]
    apply List.map_congr_left
    intro j hj
    have hi' : i < n := List.mem_range.1 hi
    have hj' : j < bs.length := by rw [hlen]; exact List.mem_range.1 hj
    have hg : bs[j]? = some bs[j] := List.getElem?_eq_getElem hj'
    obtain ⟨v1, v2⟩ := hval i j bs[j] hi' hg
    by_cases hjc : j = c
    · have hh : Holds f bs[j] := by
        have : bs[j] = x := by
          subst hjc
          rw [hg] at hc
          exact Option.some.inj hc
        rw [this]; exact hx
      rw [if_pos hjc, one_mul, one_mul, v1 hh]
    · have hh : ¬ Holds f bs[j] := fun hc' => hjc (huniq j _ hg hc')
      rw [if_neg hjc, one_mul, one_mul, v2 hh, add_zero]
  have hm1 := C361_mdct 1 td k (framesOf m a n k) (onlyColumn m a n k c) (same_rows n k _ _)
  have hm2 := C361_mdct 1 td k (framesOf m2 low n k) (framesOf m2 high n k) (same_rows n k _ _)
  rw [hrows] at hm2
  obtain ⟨s3, s, g1, g2, _, _, g3⟩ := hm1.1 whole hw
  cases hlow : mdctSynthesize ⟨td, k, framesOf m2 low n k⟩ with
  | error e =>
    have := (hm2.2 e hlow).2
    rw [g2] at this
    cases this
  | ok s1 =>
    obtain ⟨s2, s', g4, g5, _, _, g6⟩ := hm2.1 s1 hlow
    rw [g2] at g5
    cases g5
    refine ⟨m1, low, m2, high, c, x, s1, s2, s3, e1, e2, hc, hx.1, hx.2, hlow, g4, g1, fun t => ?_⟩
    have a1 := g3 t
    have a2 := g6 t
    linarith

theorem imdct_rows (k : Nat) (hk : 0 < k) : ∀ rows : List (List ℝ), (∀ r ∈ rows, r.length = k) →
    ∃ ys, rows.mapM imdct = .ok ys ∧ ∀ y ∈ ys, y.length = 2 * k
  | [], _ => ⟨[], rfl, by simp⟩
  | r :: rows, h => by
    obtain ⟨ys, e, l⟩ := imdct_rows k hk rows fun x hx => h x (by simp [hx])
    have hr : r.length = k := h r (by simp)
    have hne : r ≠ [] := by rintro rfl; simp at hr; omega
    have : ∃ y, imdct r = .ok y ∧ y.length = 2 * k := by
      unfold imdct
      rw [if_neg hne]
      exact ⟨_, rfl, by simp [hr]⟩
    obtain ⟨y, e1, l1⟩ := this
    refine ⟨y :: ys, by simp [List.mapM_cons, e1, e, bind, Except.bind, pure, Except.pure], ?_⟩
    intro z hz
    rcases List.mem_cons.1 hz with rfl | hz
    · exact l1
    · exact l z hz

/-- Coefficients whose time dimension describes windows of their size have a sound. -/
theorem mdct_total (td : Time.Dim) (k : Nat) (hk : 0 < k) (rows : List (List ℝ)) (h : ∀ r ∈ rows, r.length = k)
    (hsf : 0 < td.duration.tdiv (2 * k : Nat)) (ht : 0 ≤ td.end_.tdiv (td.duration.tdiv (2 * k : Nat)))
    (hws : (Time.roundHalfEven td.duration (td.duration.tdiv (2 * k : Nat))).toNat ≤ 2 * k) :
    ∃ whole, mdctSynthesize ⟨td, k, rows⟩ = .ok whole := by
  obtain ⟨ys, e, l⟩ := imdct_rows k hk rows h
  obtain ⟨out, e1, _⟩ := C35_general (some (WindowFunc.oggvorbis (2 * k))) (⟨td, 2 * k, ys⟩ : Frames ℝ) (by simp; omega) hsf ht l
    (fun c hc => by cases hc; simp [WindowFunc.oggvorbis]) hws
  exact ⟨out, by unfold mdctSynthesize; simp only [e, e1]⟩

open Zounds.Arr Zounds.Freq Zounds.Props.Frequency Zounds.Filter in
example : True := by
  obtain ⟨whole, hw⟩ := mdct_total ⟨10000, 20000, 3⟩ 10 (by decide) (framesOf (⟨fun i => i, 30⟩ : Mem ℝ) tenHeld 3 10) (by simp [framesOf])
    (by decide +kernel) (by decide +kernel) (by decide +kernel)
  have := C361_crossover noNum (⟨fun i => i, 30⟩ : Mem ℝ) tenHeld ⟨fun p hp => tenHeld_held.1 p hp, tenHeld_held.2⟩ 3 _ ⟨0, 100⟩ 10
    (by unfold WF; norm_num) (by decide) tenHeld_spectrum _ tenBands_bands 30 (by norm_num) (by norm_num) _ whole hw
  trivial

example := C361_mdct 2 ⟨2000, 2000, 2⟩ 2 [[1, 2], [3, 4]] [[5, 6], [7, 8]] rfl
example := C361_fft 2 ⟨2000, 2000, 2⟩ 3 [[1, 2, 3], [3, 4, 5]] [[5, 6, 7], [7, 8, 9]] rfl
example := C361_dct 2 none ⟨2000, 2000, 2⟩ 2 [[1, 2], [3, 4]] [[5, 6], [7, 8]] rfl
example := C361_dctiv 2 [1, 2] [3, 4] rfl

end Zounds.SynthLinear
