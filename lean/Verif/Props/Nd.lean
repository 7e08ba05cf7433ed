import Verif.Model.Nd
import Verif.Model.Windowed
import Mathlib.Tactic.Common
import Mathlib.Tactic.Ring
import Mathlib.Tactic.Linarith
/-!
# Property C37: n-dimensional sliding windows
-/

namespace Zounds.Nd
open Zounds

/-! ## Specification -/

/-- `idx` is an index of an array of this shape. -/
inductive InB : List Nat → List Nat → Prop
  | nil : InB [] []
  | cons {i n idx shape} : i < n → InB idx shape → InB (i :: idx) (n :: shape)

/-- Item `j` of the window number `i`: position `i * step + j` in every axis. -/
def place : List Nat → List Nat → List Nat → List Nat
  | i :: is, s :: ss, j :: js => (i * s + j) :: place is ss js
  | _, _, _ => []

/-- Lexicographic order of indices. -/
inductive Before : List Nat → List Nat → Prop
  | here {i j is js} : i < j → Before (i :: is) (j :: js)
  | there {i is js} : Before is js → Before (i :: is) (i :: js)

theorem InB.length {idx shape : List Nat} (h : InB idx shape) : idx.length = shape.length := by
  induction h with
  | nil => rfl
  | cons _ _ ih => simp [ih]

theorem InB.append {i s j t : List Nat} (h : InB i s) (h2 : InB j t) : InB (i ++ j) (s ++ t) := by
  induction h with
  | nil => exact h2
  | cons hi _ ih => exact InB.cons hi ih

theorem size_append (a b : List Nat) : size (a ++ b) = size a * size b := by
  induction a with
  | nil => simp [size]
  | cons x a ih => simp [size, ih, Nat.mul_assoc]

theorem ravel_lt {shape idx : List Nat} (h : InB idx shape) : ravel shape idx < size shape := by
  induction h with
  | nil => simp [ravel, size]
  | @cons i n idx shape hi _ ih =>
    simp only [ravel, size]
    calc i * size shape + ravel shape idx < i * size shape + size shape := by omega
      _ = (i + 1) * size shape := by ring
      _ ≤ n * size shape := Nat.mul_le_mul_right _ hi

theorem unravel_ravel {shape idx : List Nat} (h : InB idx shape) : unravel shape (ravel shape idx) = idx := by
  induction h with
  | nil => rfl
  | @cons i n idx shape hi hr ih =>
    have hlt := ravel_lt hr
    simp only [ravel, unravel]
    rw [show i * size shape + ravel shape idx = ravel shape idx + i * size shape by ring,
      Nat.add_mul_mod_self_right, Nat.mod_eq_of_lt hlt, ih, Nat.add_mul_div_right _ _ (by omega),
      Nat.div_eq_of_lt hlt, Nat.zero_add]

theorem unravel_inB (shape : List Nat) : ∀ k, k < size shape → InB (unravel shape k) shape := by
  induction shape with
  | nil => intro k _; exact InB.nil
  | cons n shape ih =>
    intro k hk
    simp only [size] at hk
    have hpos : 0 < size shape := by
      rcases Nat.eq_zero_or_pos (size shape) with h | h
      · rw [h] at hk; simp at hk
      · exact h
    refine InB.cons ?_ (ih _ (Nat.mod_lt _ hpos))
    rw [Nat.div_lt_iff_lt_mul hpos]; exact hk

theorem ravel_unravel (shape : List Nat) : ∀ k, k < size shape → ravel shape (unravel shape k) = k := by
  induction shape with
  | nil => intro k hk; simp [size] at hk; simp [ravel, unravel, hk]
  | cons n shape ih =>
    intro k hk
    simp only [size] at hk
    have hpos : 0 < size shape := by
      rcases Nat.eq_zero_or_pos (size shape) with h | h
      · rw [h] at hk; simp at hk
      · exact h
    simp only [unravel, ravel]
    rw [ih _ (Nat.mod_lt _ hpos), Nat.mul_comm]
    exact Nat.div_add_mod k (size shape)

theorem ravel_append {i c j w : List Nat} (h : InB i c) : ravel (c ++ w) (i ++ j) = ravel c i * size w + ravel w j := by
  induction h with
  | nil => simp [ravel]
  | @cons a n idx shape ha _ ih =>
    simp only [List.cons_append, ravel, ih, size_append]
    ring

/-- **C37** (row-major order): the number of a window in the flattened result is its rank in the lexicographic order of window indices. -/
theorem C37_order {shape a b : List Nat} (ha : InB a shape) (hb : InB b shape) :
    ravel shape a < ravel shape b ↔ Before a b := by
  have fwd : ∀ {shape a b : List Nat}, InB a shape → InB b shape → Before a b → ravel shape a < ravel shape b := by
    intro shape a b ha hb h
    induction h generalizing shape with
    | @here i j is js hij =>
      cases ha with
      | @cons _ n _ sh hi hr =>
        cases hb with
        | cons hj hs =>
          have := ravel_lt hr
          have h2 : (i + 1) * size sh ≤ j * size sh := Nat.mul_le_mul_right _ hij
          have h3 : (i + 1) * size sh = i * size sh + size sh := by ring
          simp only [ravel]
          omega
    | @there i is js _ ih =>
      cases ha with
      | cons hi hr =>
        cases hb with
        | cons hj hs =>
          have := ih hr hs
          simp only [ravel]
          omega
  constructor
  · intro h
    have tri : ∀ {shape a b : List Nat}, InB a shape → InB b shape → Before a b ∨ a = b ∨ Before b a := by
      intro shape a b ha
      induction ha generalizing b with
      | nil => intro hb; cases hb; exact Or.inr (Or.inl rfl)
      | @cons i n idx shape hi hr ih =>
        intro hb
        cases hb with
        | @cons j _ jdx _ hj hs =>
          rcases Nat.lt_trichotomy i j with h | h | h
          · exact Or.inl (Before.here h)
          · subst h
            rcases ih hs with h | h | h
            · exact Or.inl (Before.there h)
            · exact Or.inr (Or.inl (by rw [h]))
            · exact Or.inr (Or.inr (Before.there h))
          · exact Or.inr (Or.inr (Before.here h))
    rcases tri ha hb with h1 | h1 | h1
    · exact h1
    · subst h1; omega
    · have := fwd hb ha h1; omega
  · exact fwd ha hb

theorem offset_append (i j : List Nat) (s t : List Int) (h : i.length = s.length) :
    offsetOf (i ++ j) (s ++ t) = offsetOf i s + offsetOf j t := by
  induction i generalizing s with
  | nil => cases s with
    | nil => simp [offsetOf]
    | cons _ _ => simp at h
  | cons a i ih => cases s with
    | nil => simp at h
    | cons b s =>
      simp only [List.cons_append, offsetOf]
      rw [ih s (by simpa using h)]
      ring

theorem scaleStrides_length (st : List Int) (ss : List Nat) (h : st.length = ss.length) : (scaleStrides st ss).length = ss.length := by
  induction st generalizing ss with
  | nil => cases ss with
    | nil => rfl
    | cons _ _ => simp at h
  | cons a st ih => cases ss with
    | nil => simp at h
    | cons b ss => simp [scaleStrides, ih ss (by simpa using h)]

theorem offset_place (i ss j : List Nat) (st : List Int) (h1 : i.length = ss.length) (h2 : j.length = ss.length)
    (h3 : st.length = ss.length) :
    offsetOf i (scaleStrides st ss) + offsetOf j st = offsetOf (place i ss j) st := by
  induction ss generalizing i j st with
  | nil =>
    simp only [List.length_nil, List.length_eq_zero_iff] at h1 h2 h3
    subst h1; subst h2; subst h3; simp [offsetOf, place]
  | cons s ss ih =>
    match i, j, st, h1, h2, h3 with
    | a :: i, b :: j, c :: st, h1, h2, h3 =>
      simp only [scaleStrides, offsetOf, place]
      have := ih i j st (by simpa using h1) (by simpa using h2) (by simpa using h3)
      rw [← this]
      push_cast
      ring

/-- **C37** (in bounds): the position addressed by item `j` of window `i` is a position of the array. -/
theorem C37_in_bounds (shape ws ss : List Nat) (h1 : shape.length = ws.length) (h2 : ws.length = ss.length)
    (hw : ∀ k (h : k < ws.length), ws[k] ≤ shape[k]'(by omega)) (i j : List Nat) (hi : InB i (counts shape ws ss)) (hj : InB j ws) :
    InB (place i ss j) shape := by
  induction ws generalizing shape ss i j with
  | nil =>
    cases hj
    cases ss with
    | nil => cases shape with
      | nil => cases hi; exact InB.nil
      | cons _ _ => simp at h1
    | cons _ _ => simp at h2
  | cons w ws ih =>
    match shape, ss, h1, h2 with
    | n :: shape, s :: ss, h1, h2 =>
      cases hj with
      | @cons b _ j _ hb hj =>
        cases hi with
        | @cons a _ i _ ha hi =>
          have hwn : w ≤ n := hw 0 (by simp)
          refine InB.cons ?_ (ih shape ss (by simpa using h1) (by simpa using h2)
            (fun k h => hw (k + 1) (by simpa using h)) i j hi hj)
          have : a ≤ (n - w) / s := by omega
          have h3 : a * s ≤ (n - w) / s * s := Nat.mul_le_mul_right _ this
          have h4 : (n - w) / s * s ≤ n - w := Nat.div_mul_le_self _ _
          omega

theorem tooLarge_iff (ws shape : List Nat) (h : shape.length = ws.length) :
    tooLarge ws shape = false ↔ ∀ k (hk : k < ws.length), ws[k] ≤ shape[k]'(by omega) := by
  induction ws generalizing shape with
  | nil => simp [tooLarge]
  | cons w ws ih =>
    match shape, h with
    | n :: shape, h =>
      have := ih shape (by simpa using h)
      simp only [tooLarge, Bool.or_eq_false_iff, decide_eq_false_iff_not, this]
      constructor
      · rintro ⟨h1, h2⟩ k hk
        cases k with
        | zero => simpa using h1
        | succ k => simpa using h2 k (by simpa using hk)
      · intro h3
        exact ⟨Nat.not_lt.2 (h3 0 (by simp)), fun k hk => h3 (k + 1) (by simpa using hk)⟩

theorem counts_length (shape ws ss : List Nat) (h1 : shape.length = ws.length) (h2 : ws.length = ss.length) :
    (counts shape ws ss).length = ws.length := by
  induction ws generalizing shape ss with
  | nil => cases shape <;> cases ss <;> simp_all [counts]
  | cons w ws ih =>
    match shape, ss, h1, h2 with
    | n :: shape, s :: ss, h1, h2 => simp [counts, ih shape ss (by simpa using h1) (by simpa using h2)]

/-- **C37** (number of windows): `(shape - window) // step + 1` along each axis. -/
theorem C37_counts (shape ws ss : List Nat) (h1 : shape.length = ws.length) (h2 : ws.length = ss.length) (k : Nat) (hk : k < ws.length) :
    (counts shape ws ss)[k]? = some ((shape[k]'(by omega) - ws[k]) / ss[k]'(by omega) + 1) := by
  induction ws generalizing shape ss k with
  | nil => simp at hk
  | cons w ws ih =>
    match shape, ss, h1, h2 with
    | n :: shape, s :: ss, h1, h2 =>
      cases k with
      | zero => simp [counts]
      | succ k => simpa [counts] using ih shape ss (by simpa using h1) (by simpa using h2) k (by simpa using hk)

/-- The conditions under which `sliding_window` accepts its arguments: as many window sizes and steps as axes, at least one axis, and no
window larger than the array. -/
structure Accepts (shape ws ss : List Nat) : Prop where
  rank : shape.length = ws.length
  rank' : ws.length = ss.length
  axes : ws ≠ []
  fits : ∀ k (h : k < ws.length), ws[k] ≤ shape[k]'(by omega)

/-- **C37** (unflattened): item `j` of window `i` is the array item at `i * step + j`. -/
theorem C37_view {α : Type} (a : Strided α) (hst : a.strides.length = a.shape.length) (ws ss : List Nat)
    (h : Accepts a.shape ws ss) :
    ∃ v, windowView a ws (some ss) = .ok v ∧ v.shape = counts a.shape ws ss ++ ws ∧
      ∀ i j, InB i (counts a.shape ws ss) → InB j ws → v.read (i ++ j) = a.read (place i ss j) := by
  obtain ⟨h1, h2, _, h3⟩ := h
  refine ⟨_, by
    unfold windowView
    simp only [Option.getD_some]
    rw [if_neg (by omega), if_neg (by rw [(tooLarge_iff ws a.shape h1).2 h3]; simp)], rfl, ?_⟩
  intro i j hi hj
  have hil := hi.length
  rw [counts_length _ _ _ h1 h2] at hil
  unfold Strided.read
  simp only
  rw [offset_append i j _ _ (by rw [scaleStrides_length _ _ (by omega)]; omega),
    offset_place i ss j a.strides (by omega) (by have := hj.length; omega) (by omega)]

/-- **C37** (the default, flattened form): the result has one axis counting all windows followed by the window axes; window `i` is found at
its row-major number, and its item `j` is the array item at `i * step + j`; every number below the count is some window. -/
theorem C37_windows {α : Type} (a : Strided α) (hst : a.strides.length = a.shape.length) (ws ss : List Nat)
    (h : Accepts a.shape ws ss) :
    ∃ out, slidingWindow a ws (some ss) = .ok out ∧ out.shape = size (counts a.shape ws ss) :: ws ∧
      (∀ i j, InB i (counts a.shape ws ss) → InB j ws →
        ravel (counts a.shape ws ss) i < size (counts a.shape ws ss) ∧
        InB (place i ss j) a.shape ∧
        out.get (ravel (counts a.shape ws ss) i :: j) = a.read (place i ss j)) ∧
      (∀ k, k < size (counts a.shape ws ss) → ∃ i, InB i (counts a.shape ws ss) ∧ ravel (counts a.shape ws ss) i = k) := by
  obtain ⟨v, hv, hsh, hread⟩ := C37_view a hst ws ss h
  obtain ⟨h1, h2, h0, h3⟩ := h
  have hcl := counts_length _ _ _ h1 h2
  have hne : ws.length ≠ 0 := by simpa using h0
  have hsub : v.shape.length - ws.length = (counts a.shape ws ss).length := by rw [hsh]; simp [hcl]
  have htake : v.shape.take (v.shape.length - ws.length) = counts a.shape ws ss := by
    rw [hsub, hsh, List.take_left' rfl]
  have hdrop : v.shape.drop (v.shape.length - ws.length) = ws := by
    rw [hsub, hsh, List.drop_left' rfl]
  refine ⟨⟨size (counts a.shape ws ss) :: ws, fun idx => v.read (unravel v.shape (ravel (size (counts a.shape ws ss) :: ws) idx))⟩,
    ?_, rfl, ?_, ?_⟩
  · unfold slidingWindow
    rw [hv]
    simp only
    rw [if_neg hne, htake, hdrop]
    unfold Strided.reshape
    rw [if_pos (by rw [hsh, size_append]; rfl)]
  · intro i j hi hj
    refine ⟨ravel_lt hi, C37_in_bounds _ _ _ h1 h2 h3 i j hi hj, ?_⟩
    show v.read (unravel v.shape (ravel (size (counts a.shape ws ss) :: ws) (ravel (counts a.shape ws ss) i :: j))) = _
    have e : ravel (size (counts a.shape ws ss) :: ws) (ravel (counts a.shape ws ss) i :: j) = ravel v.shape (i ++ j) := by
      rw [hsh, ravel_append hi]; rfl
    rw [e, unravel_ravel (by rw [hsh]; exact hi.append hj)]
    exact hread i j hi hj
  · intro k hk
    exact ⟨unravel _ k, unravel_inB _ k hk, ravel_unravel _ k hk⟩

/-- **C37** (no step given): windows do not overlap, the step is the window. -/
theorem C37_default_step {α : Type} (a : Strided α) (ws : List Nat) :
    slidingWindow a ws none = slidingWindow a ws (some ws) ∧ windowView a ws none = windowView a ws (some ws) := by
  constructor <;> simp [slidingWindow, windowView]

/-- **C37** (memory safety): if every index of the array can be read, so can every index of the windows. -/
theorem C37_memory_safe {α : Type} (a : Strided α) (hst : a.strides.length = a.shape.length) (ws ss : List Nat)
    (h : Accepts a.shape ws ss) (hsafe : ∀ idx, InB idx a.shape → ∃ x, a.read idx = some x) (out : Nd α)
    (ho : slidingWindow a ws (some ss) = .ok out) (idx : List Nat) (hidx : InB idx out.shape) : ∃ x, out.get idx = some x := by
  obtain ⟨out', ho', hsh, hget, hsurj⟩ := C37_windows a hst ws ss h
  rw [ho'] at ho
  cases ho
  rw [hsh] at hidx
  cases hidx with
  | @cons k _ j _ hk hj =>
    obtain ⟨i, hi, rfl⟩ := hsurj k hk
    obtain ⟨_, hin, e⟩ := hget i j hi hj
    rw [e]
    exact hsafe _ hin

/-- **C37** (refusals): a wrong number of window sizes or steps, or a window larger than the array along some axis, is a ValueError. -/
theorem C37_refused {α : Type} (a : Strided α) (ws ss : List Nat)
    (h : a.shape.length ≠ ws.length ∨ ws.length ≠ ss.length ∨
      ∃ (h1 : a.shape.length = ws.length) (k : Nat) (hk : k < ws.length), a.shape[k]'(by omega) < ws[k]) :
    slidingWindow a ws (some ss) = .error .valueError := by
  have hv : windowView a ws (some ss) = .error .valueError := by
    unfold windowView
    simp only [Option.getD_some]
    by_cases c : a.shape.length ≠ ws.length ∨ ws.length ≠ ss.length
    · rw [if_pos c]
    · rw [if_neg c]
      rcases h with h | h | ⟨h1, k, hk, hlt⟩
      · exact absurd (Or.inl h) c
      · exact absurd (Or.inr h) c
      · have : tooLarge ws a.shape = true := by
          by_contra hn
          have := (tooLarge_iff ws a.shape h1).1 (by simpa using hn) k hk
          omega
        rw [if_pos this]
  simp [slidingWindow, hv]

/-! ### One axis: the same windows as `windowed` -/

/-- A one-dimensional array in contiguous memory. -/
def ofList {α : Type} (l : List α) : Strided α := ⟨l, 0, [l.length], [1]⟩

theorem ofList_read {α : Type} (l : List α) (k : Nat) : (ofList l).read [k] = l[k]? := by
  simp only [Strided.read, ofList, offsetOf]
  rw [if_neg (by omega)]
  congr 1
  omega

/-- **C37** (one axis): `sliding_window(a, w, s)` has `(len(a) - w) // s + 1` windows and window `i` is `a[i*s : i*s+w]`. -/
theorem C37_one_axis {α : Type} (l : List α) (w s : Nat) (hw : w ≤ l.length) :
    ∃ out, slidingWindow (ofList l) [w] (some [s]) = .ok out ∧ out.shape = [(l.length - w) / s + 1, w] ∧
      ∀ i j, i < (l.length - w) / s + 1 → j < w → out.get [i, j] = l[i * s + j]? := by
  have hacc : Accepts (ofList l).shape [w] [s] := by
    refine ⟨rfl, rfl, by simp, ?_⟩
    intro k hk
    simp at hk
    subst hk
    simpa [ofList] using hw
  obtain ⟨out, ho, hsh, hget, _⟩ := C37_windows (ofList l) rfl [w] [s] hacc
  refine ⟨out, ho, by simpa [counts, size, ofList] using hsh, ?_⟩
  intro i j hi hj
  have hi' : InB [i] (counts (ofList l).shape [w] [s]) := by
    simp only [counts, ofList]
    exact InB.cons hi InB.nil
  have := (hget [i] [j] hi' (InB.cons hj InB.nil)).2.2
  simp only [counts, ofList, ravel, size, Nat.mul_one, Nat.add_zero, place] at this
  rw [this]
  exact ofList_read l (i * s + j)

/-! ### A concrete case: a 4 x 4 array, 2 x 2 windows, steps 1 and 2 -/

def sample : Strided Nat := ⟨List.range 16, 0, [4, 4], [4, 1]⟩

example : Accepts sample.shape [2, 2] [1, 2] := by
  refine ⟨rfl, rfl, by simp, ?_⟩
  intro k hk
  have : k = 0 ∨ k = 1 := by simp at hk; omega
  rcases this with rfl | rfl <;> simp [sample]

/-- The window at (1, 1), number 3 of 6, holds 6, 7, 10, 11. -/
example : (slidingWindow sample [2, 2] (some [1, 2])).toOption.map (fun o =>
    (o.shape, o.get [3, 0, 0], o.get [3, 0, 1], o.get [3, 1, 0], o.get [3, 1, 1]))
    = some ([6, 2, 2], some 6, some 7, some 10, some 11) := by decide +kernel

/-- The same memory seen as a transposed (non contiguous) array is windowed correctly too. -/
example : (slidingWindow { sample with strides := [1, 4] } [2, 2] (some [1, 2])).toOption.map (fun o =>
    (o.get [3, 0, 0], o.get [3, 0, 1])) = some (some 9, some 13) := by decide +kernel

theorem sample_accepts : Accepts sample.shape [2, 2] [1, 2] := by
  refine ⟨rfl, rfl, by simp, ?_⟩
  intro k hk
  have : k = 0 ∨ k = 1 := by simp at hk; omega
  rcases this with rfl | rfl <;> simp [sample]
example := C37_order (shape := [3, 4]) (a := [1, 3]) (b := [2, 0]) (.cons (by decide) (.cons (by decide) .nil)) (.cons (by decide) (.cons (by decide) .nil))
example := C37_in_bounds [3, 4] [2, 2] [1, 2] rfl rfl (by
  intro k hk
  have : k = 0 ∨ k = 1 := by simp at hk; omega
  rcases this with rfl | rfl <;> simp) [1, 1] [1, 0] (.cons (by decide) (.cons (by decide) .nil)) (.cons (by decide) (.cons (by decide) .nil))
example := C37_counts [3, 4] [2, 2] [1, 2] rfl rfl 1 (by decide)
example := C37_view sample rfl [2, 2] [1, 2] sample_accepts
example := C37_windows sample rfl [2, 2] [1, 2] sample_accepts
example := C37_refused sample [2, 2, 2] [1, 2] (Or.inl (by decide))
example := C37_one_axis ['a', 'b', 'c', 'd'] 2 1 (by decide)

end Zounds.Nd
