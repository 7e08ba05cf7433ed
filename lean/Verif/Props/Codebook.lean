import Verif.Model.Codebook
import Verif.Props.Mdct
import Mathlib.Data.List.GetD
import Mathlib.Tactic.Linarith
import Mathlib.Tactic.Positivity
import Mathlib.Tactic.Common
import Mathlib.Tactic.FinCases
import Mathlib.Algebra.Order.BigOperators.Group.List
import Mathlib.Data.Matrix.Reflection

/-!
# C179-C183: k-means codes, scikit-learn models
-/

namespace Zounds.Codebook
open Zounds

/-! ## Specification -/

/-- `b` is the position of the first codeword that is nearest to `x`. -/
def Nearest (codebook : List (List ℝ)) (x : List ℝ) (b : ℕ) : Prop :=
  b < codebook.length ∧ (∀ j, j < codebook.length → dist x (codebook.getD b []) ≤ dist x (codebook.getD j [])) ∧
    ∀ j, j < b → dist x (codebook.getD b []) < dist x (codebook.getD j [])

/-- The code with a single one, at `b`. -/
def OneHot (n : ℕ) (code : List ℕ) (b : ℕ) : Prop := code.length = n ∧ b < n ∧ ∀ j, j < n → code.getD j 0 = if j = b then 1 else 0

/-! ## argmin -/

theorem argminFrom_spec (l : List ℝ) : ∀ (ys pre : List ℝ) (b : ℕ) (x : ℝ), l = pre ++ ys → b < pre.length → pre.getD b 0 = x →
    (∀ j, j < pre.length → x ≤ pre.getD j 0) → (∀ j, j < b → x < pre.getD j 0) →
    argminFrom b x pre.length ys < l.length ∧ (∀ j, j < l.length → l.getD (argminFrom b x pre.length ys) 0 ≤ l.getD j 0) ∧
      ∀ j, j < argminFrom b x pre.length ys → l.getD (argminFrom b x pre.length ys) 0 < l.getD j 0
  | [], pre, b, x, hl, hb, hx, h1, h2 => by
    rw [List.append_nil] at hl
    subst hl
    simp only [argminFrom]
    rw [hx]
    exact ⟨hb, h1, h2⟩
  | y :: ys, pre, b, x, hl, hb, hx, h1, h2 => by
    have hl' : l = (pre ++ [y]) ++ ys := by rw [hl]; simp
    have hlen : (pre ++ [y]).length = pre.length + 1 := by simp
    have hget : ∀ j, j < pre.length → (pre ++ [y]).getD j 0 = pre.getD j 0 := by
      intro j hj
      rw [List.getD_eq_getElem?_getD, List.getElem?_append_left hj, List.getD_eq_getElem?_getD]
    have hgety : (pre ++ [y]).getD pre.length 0 = y := by
      rw [List.getD_eq_getElem?_getD, List.getElem?_append_right (le_refl _)]; simp
    simp only [argminFrom]
    split
    · rename_i hlt
      have := argminFrom_spec l ys (pre ++ [y]) pre.length y hl' (by omega) hgety ?_ ?_
      · rw [hlen] at this; exact this
      · intro j hj
        by_cases hj' : j < pre.length
        · rw [hget j hj']; have := h1 j hj'; linarith
        · have : j = pre.length := by omega
          rw [this, hgety]
      · intro j hj
        rw [hget j hj]; have := h1 j hj; linarith
    · rename_i hlt
      have := argminFrom_spec l ys (pre ++ [y]) b x hl' (by omega) (by rw [hget b hb, hx]) ?_ ?_
      · rw [hlen] at this; exact this
      · intro j hj
        by_cases hj' : j < pre.length
        · rw [hget j hj']; exact h1 j hj'
        · have : j = pre.length := by omega
          rw [this, hgety]; linarith
      · intro j hj
        rw [hget j (by omega)]; exact h2 j hj

theorem argmin_spec (l : List ℝ) (hne : l ≠ []) : ∃ b, argmin l = .ok b ∧ b < l.length ∧ (∀ j, j < l.length → l.getD b 0 ≤ l.getD j 0) ∧
    ∀ j, j < b → l.getD b 0 < l.getD j 0 := by
  cases l with
  | nil => exact absurd rfl hne
  | cons x xs =>
    have := argminFrom_spec (x :: xs) xs [x] 0 x rfl (by simp) rfl (by intro j hj; have : j = 0 := by simpa using hj
                                                                       subst this; simp) (by intro j hj; omega)
    exact ⟨_, rfl, this⟩

theorem map_getD {α : Type} (f : α → ℝ) (d : α) (l : List α) (j : ℕ) (h : j < l.length) : (l.map f).getD j 0 = f (l.getD j d) := by
  rw [List.getD_eq_getElem?_getD, List.getElem?_map, List.getD_eq_getElem?_getD, List.getElem?_eq_getElem h]
  rfl

/-- The nearest codeword is found. -/
theorem encodeRow_spec (codebook : List (List ℝ)) (hne : codebook ≠ []) (x : List ℝ) :
    ∃ b code, encodeRow codebook x = .ok code ∧ Nearest codebook x b ∧ OneHot codebook.length code b := by
  obtain ⟨b, hb, h1, h2, h3⟩ := argmin_spec (codebook.map (dist x)) (by simpa using hne)
  rw [List.length_map] at h1 h2
  refine ⟨b, (List.range codebook.length).map fun j => if j = b then 1 else 0, ?_, ⟨h1, ?_, ?_⟩, by simp, h1, ?_⟩
  · unfold encodeRow; rw [hb]
  · intro j hj
    have := h2 j hj
    rwa [map_getD _ [] _ _ hj, map_getD _ [] _ _ h1] at this
  · intro j hj
    have := h3 j hj
    rwa [map_getD _ [] _ _ h1, map_getD _ [] _ j (by omega)] at this
  · intro j hj
    rw [Spectral.getD_map_range _ _ _ _ hj]

theorem mapM_ok_of {α β : Type} (f : α → Except PyErr β) : ∀ (l : List α) (g : α → β), (∀ a ∈ l, f a = .ok (g a)) → l.mapM f = .ok (l.map g)
  | [], _, _ => rfl
  | a :: as, g, h => by
    rw [List.mapM_cons, h a (by simp), mapM_ok_of f as g (fun b hb => h b (by simp [hb]))]
    rfl

/-- **C179, codes**: with a codebook of at least one codeword, data of the codewords' dimension is encoded: one code for each row, of one number for each
codeword, with a single one at the first of the nearest codewords. -/
theorem C179_encode (dim : ℕ) (codebook d : List (List ℝ)) (hne : codebook ≠ []) (hd : ∀ x ∈ d, x.length = dim) :
    ∃ codes, encode dim codebook d = .ok codes ∧ codes.length = d.length ∧
      ∀ i, i < d.length → ∃ b, Nearest codebook (d.getD i []) b ∧ OneHot codebook.length (codes.getD i []) b := by
  choose b code h1 h2 h3 using encodeRow_spec codebook hne
  refine ⟨d.map code, ?_, by simp, ?_⟩
  · unfold encode
    rw [if_neg (by push Not; exact hd), mapM_ok_of _ _ code (fun x _ => h1 x)]
  · intro i hi
    refine ⟨b (d.getD i []), h2 _, ?_⟩
    have : (d.map code).getD i [] = code (d.getD i []) := by
      rw [List.getD_eq_getElem?_getD, List.getElem?_map, List.getD_eq_getElem?_getD, List.getElem?_eq_getElem hi]; rfl
    rw [this]
    exact h3 _

/-- **C179, errors**: a row of another dimension, or an empty codebook and any row, is a ValueError. -/
theorem C179_errors (dim : ℕ) (codebook d : List (List ℝ)) (h : (∃ x ∈ d, x.length ≠ dim) ∨ (codebook = [] ∧ d ≠ [])) :
    encode dim codebook d = .error .valueError := by
  unfold encode
  by_cases h1 : ∃ x ∈ d, x.length ≠ dim
  · rw [if_pos h1]
  · rw [if_neg h1]
    rcases h with h | ⟨rfl, h2⟩
    · exact absurd h h1
    · cases d with
      | nil => exact absurd rfl h2
      | cons x xs => rw [List.mapM_cons]; rfl

example : encode 2 [[0, 0], [1, 1]] [[1, 2], [3]] = .error .valueError := C179_errors 2 _ _ (Or.inl ⟨[3], by simp, by simp⟩)
example : encode 2 [] [[1, 2]] = .error .valueError := C179_errors 2 _ _ (Or.inr ⟨rfl, by simp⟩)

theorem onesOf_oneHot (n : ℕ) (code : List ℕ) (b : ℕ) (h : OneHot n code b) : onesOf code = [b] := by
  obtain ⟨h1, h2, h3⟩ := h
  unfold onesOf
  rw [h1]
  have : (List.range n).filter (fun j => decide (code.getD j 0 = 1)) = (List.range n).filter (fun j => decide (j = b)) := by
    apply List.filter_congr
    intro j hj
    rw [h3 j (List.mem_range.1 hj)]
    split <;> simp [*]
  rw [this]
  clear this h1 h3
  have : List.range n = List.range b ++ b :: List.range' (b + 1) (n - b - 1) := by
    rw [List.range_eq_range', List.range_eq_range']
    rw [show b :: List.range' (b + 1) (n - b - 1) = List.range' b (n - b - 1 + 1) from rfl]
    have := List.range'_append_1 (s := 0) (m := b) (n := n - b - 1 + 1)
    rw [Nat.zero_add] at this
    rw [this]
    congr 1
    omega
  rw [this, List.filter_append, List.filter_cons]
  simp only [decide_true, if_true]
  rw [List.filter_eq_nil_iff.2, List.filter_eq_nil_iff.2]
  · rfl
  · intro a ha; simp only [List.mem_range'_1] at ha; simp; omega
  · intro a ha; simp only [List.mem_range] at ha; simp; omega

theorem flatten_singletons {α β : Type} (f : α → β) (l : List α) : (l.map fun a => [f a]).flatten = l.map f := by
  induction l with
  | nil => rfl
  | cons a as ih => simp [ih]

theorem nearest_unique (codebook : List (List ℝ)) (x : List ℝ) (b b' : ℕ) (h : Nearest codebook x b) (h' : Nearest codebook x b') : b = b' := by
  rcases Nat.lt_trichotomy b b' with hlt | heq | hgt
  · have := h'.2.2 b hlt
    have := h.2.1 b' h'.1
    linarith
  · exact heq
  · have := h.2.2 b' hgt
    have := h'.2.1 b h.1
    linarith

theorem dist_self (x : List ℝ) : dist x x = 0 := by
  unfold dist
  have : List.zipWith (fun a b => (a - b) ^ 2) x x = x.map fun _ => (0 : ℝ) := by
    rw [List.zipWith_self]
    apply List.map_congr_left
    intro a _
    simp
  rw [this]
  simp

theorem sum_sq_zero : ∀ (x y : List ℝ), x.length = y.length → (List.zipWith (fun a b => (a - b) ^ 2) x y).sum = 0 → x = y
  | [], [], _, _ => rfl
  | [], _ :: _, h, _ => by simp at h
  | _ :: _, [], h, _ => by simp at h
  | a :: x, b :: y, h, hs => by
    simp only [List.zipWith_cons_cons, List.sum_cons] at hs
    have hnn : 0 ≤ (List.zipWith (fun a b => (a - b) ^ 2) x y).sum := by
      apply List.sum_nonneg
      intro v hv
      rw [List.mem_iff_getElem] at hv
      obtain ⟨i, hi, rfl⟩ := hv
      rw [List.getElem_zipWith]
      positivity
    have h1 : (a - b) ^ 2 = 0 := by nlinarith [sq_nonneg (a - b)]
    have h2 : (List.zipWith (fun a b => (a - b) ^ 2) x y).sum = 0 := by linarith
    rw [sum_sq_zero x y (by simpa using h) h2]
    have : a - b = 0 := by simpa using h1
    rw [show a = b by linarith]

theorem dist_eq_zero (x y : List ℝ) (h : x.length = y.length) (hd : dist x y = 0) : x = y := by
  apply sum_sq_zero x y h
  unfold dist at hd
  have hnn : 0 ≤ (List.zipWith (fun a b => (a - b) ^ 2) x y).sum := by
    apply List.sum_nonneg
    intro v hv
    rw [List.mem_iff_getElem] at hv
    obtain ⟨i, hi, rfl⟩ := hv
    rw [List.getElem_zipWith]
    positivity
  exact (Real.sqrt_eq_zero hnn).1 hd

theorem oneHot_unique (n : ℕ) (c c' : List ℕ) (b : ℕ) (h : OneHot n c b) (h' : OneHot n c' b) : c = c' := by
  apply List.ext_getElem?
  intro j
  by_cases hj : j < n
  · have e1 := h.2.2 j hj
    have e2 := h'.2.2 j hj
    rw [List.getD_eq_getElem?_getD, List.getElem?_eq_getElem (by rw [h.1]; exact hj)] at e1
    rw [List.getD_eq_getElem?_getD, List.getElem?_eq_getElem (by rw [h'.1]; exact hj)] at e2
    rw [List.getElem?_eq_getElem (by rw [h.1]; exact hj), List.getElem?_eq_getElem (by rw [h'.1]; exact hj)]
    simp only [Option.getD_some] at e1 e2
    rw [e1, e2]
  · rw [List.getElem?_eq_none (by rw [h.1]; omega), List.getElem?_eq_none (by rw [h'.1]; omega)]

/-- **C179, reconstruction**: decoding the codes of data gives one row for each row, the codeword that was nearest to it; nothing in the codebook is nearer. And encoding
the reconstruction gives the same codes again. -/
theorem C179_decode (dim : ℕ) (codebook d : List (List ℝ)) (hne : codebook ≠ []) (hc : ∀ c ∈ codebook, c.length = dim) (hd : ∀ x ∈ d, x.length = dim)
    (codes : List (List ℕ)) (he : encode dim codebook d = .ok codes) :
    ∃ ys, decode codebook codes = .ok ys ∧ ys.length = d.length ∧
      (∀ i, i < d.length → ys.getD i [] ∈ codebook ∧ ∀ c ∈ codebook, dist (d.getD i []) (ys.getD i []) ≤ dist (d.getD i []) c) ∧
      encode dim codebook ys = .ok codes := by
  choose b code h1 h2 h3 using encodeRow_spec codebook hne
  have hcodes : codes = d.map code := by
    unfold encode at he
    rw [if_neg (by push Not; exact hd), mapM_ok_of _ _ code (fun x _ => h1 x)] at he
    cases he; rfl
  subst hcodes
  have hones : ((d.map code).map onesOf).flatten = d.map b := by
    rw [List.map_map, ← flatten_singletons b d]
    congr 1
    apply List.map_congr_left
    intro x _
    exact onesOf_oneHot _ _ _ (h3 x)
  have hcw : ∀ x, codeword codebook (b x) = .ok (codebook.getD (b x) []) := by
    intro x
    unfold codeword
    have h := (h2 x).1
    rw [List.getD_eq_getElem?_getD, List.getElem?_eq_getElem h]
    rfl
  have hmem : ∀ x, codebook.getD (b x) [] ∈ codebook := by
    intro x
    rw [List.getD_eq_getElem?_getD, List.getElem?_eq_getElem (h2 x).1]
    exact List.getElem_mem _
  refine ⟨d.map fun x => codebook.getD (b x) [], ?_, by simp, ?_, ?_⟩
  · unfold decode
    rw [hones, mapM_ok_of _ _ (fun i => codebook.getD i []), List.map_map]
    · rfl
    · intro i hi
      obtain ⟨x, _, rfl⟩ := List.mem_map.1 hi
      exact hcw x
  · intro i hi
    have e : (d.map fun x => codebook.getD (b x) []).getD i [] = codebook.getD (b (d.getD i [])) [] := by
      rw [List.getD_eq_getElem?_getD, List.getElem?_map, List.getD_eq_getElem?_getD (l := d), List.getElem?_eq_getElem hi]; rfl
    rw [e]
    refine ⟨hmem _, ?_⟩
    intro c hcm
    obtain ⟨j, hj, rfl⟩ := List.getElem_of_mem hcm
    have := (h2 (d.getD i [])).2.1 j hj
    rwa [List.getD_eq_getElem?_getD (l := codebook) (i := j), List.getElem?_eq_getElem hj] at this
  · unfold encode
    rw [if_neg (by push Not; intro x hx; obtain ⟨x, _, rfl⟩ := List.mem_map.1 hx; exact hc _ (hmem x)),
      mapM_ok_of _ _ code (fun x _ => h1 x), List.map_map]
    congr 1
    apply List.map_congr_left
    intro x _
    have hb : b (codebook.getD (b x) []) = b x := by
      apply nearest_unique codebook (codebook.getD (b x) []) _ _ (h2 _)
      refine ⟨(h2 x).1, ?_, ?_⟩
      · intro j _
        rw [dist_self]
        exact Real.sqrt_nonneg _
      · intro j hj
        rw [dist_self]
        rcases (Real.sqrt_nonneg _ : 0 ≤ dist (codebook.getD (b x) []) (codebook.getD j [])).lt_or_eq with h | h
        · exact h
        · exfalso
          have hj' : j < codebook.length := by have := (h2 x).1; omega
          have hl : (codebook.getD j []).length = dim := by
            rw [List.getD_eq_getElem?_getD, List.getElem?_eq_getElem hj']
            exact hc _ (List.getElem_mem _)
          have := dist_eq_zero _ _ (by rw [hc _ (hmem x), hl]) h.symm
          have h4 := (h2 x).2.2 j hj
          rw [← this] at h4
          exact lt_irrefl _ h4
    have := h3 (codebook.getD (b x) [])
    rw [hb] at this
    exact oneHot_unique _ _ _ _ this (h3 x)

/-- Three codewords on a line, two of them equal. -/
example : ∃ codes ys, encode 1 [[0], [10], [10]] [[1], [9]] = .ok codes ∧ decode [[0], [10], [10]] codes = .ok ys ∧ ys.length = 2 := by
  obtain ⟨codes, h, _⟩ := C179_encode 1 [[0], [10], [10]] [[1], [9]] (by simp) (by simp)
  obtain ⟨ys, h1, h2, _⟩ := C179_decode 1 [[0], [10], [10]] [[1], [9]] (by simp) (by simp) (by simp) codes h
  exact ⟨codes, ys, h, h1, h2⟩

/-- **C180, refuted**: decoding gives one row for every one in the codes, not for every code: a code without a one has no row in the result, a code with
two has two. -/
theorem C180_rows_refuted (codebook : List (List ℝ)) (codes : List (List ℕ)) (hl : ∀ c ∈ codes, c.length = codebook.length) :
    ∃ ys, decode codebook codes = .ok ys ∧ ys.length = (codes.map fun c => c.count 1).sum := by
  have hcount : ∀ c : List ℕ, (onesOf c).length = c.count 1 := by
    intro c
    unfold onesOf
    have : c = (List.range c.length).map fun j => c.getD j 0 := by
      apply List.ext_getElem?
      intro j
      rw [List.getElem?_map]
      by_cases hj : j < c.length
      · rw [List.getElem?_range hj, List.getElem?_eq_getElem hj, Option.map_some, List.getD_eq_getElem?_getD, List.getElem?_eq_getElem hj]; rfl
      · rw [List.getElem?_eq_none (by omega), List.getElem?_eq_none (by simpa using hj)]; rfl
    conv_rhs => rw [this]
    rw [List.count, List.countP_map, List.countP_eq_length_filter]
    congr 1
  have hin : ∀ i ∈ (codes.map onesOf).flatten, codeword codebook i = .ok (codebook.getD i []) := by
    intro i hi
    obtain ⟨l, hl1, hl2⟩ := List.mem_flatten.1 hi
    obtain ⟨c, hc, rfl⟩ := List.mem_map.1 hl1
    unfold onesOf at hl2
    have := List.mem_range.1 (List.mem_filter.1 hl2).1
    rw [hl c hc] at this
    unfold codeword
    rw [List.getElem?_eq_getElem this, List.getD_eq_getElem?_getD, List.getElem?_eq_getElem this]
    rfl
  refine ⟨_, mapM_ok_of _ _ _ hin, ?_⟩
  rw [List.length_map, List.length_flatten, List.map_map]
  congr 1
  apply List.map_congr_left
  intro c _
  exact hcount c

example : ∃ ys, decode [[0], [10]] [[0, 0], [0, 0], [1, 1]] = .ok ys ∧ ys.length = 2 := C180_rows_refuted _ _ (by simp)

/-- C180: a code with a one past the end of the codebook is an IndexError, whatever the other codes are. -/
theorem C180_past_end (codebook : List (List ℝ)) (codes : List (List ℕ)) (c : List ℕ) (hc : c ∈ codes) (j : ℕ) (hj : c[j]? = some 1) (hlen : codebook.length ≤ j) :
    decode codebook codes = .error .indexError := by
  have hm : j ∈ (codes.map onesOf).flatten := by
    refine List.mem_flatten.2 ⟨onesOf c, List.mem_map.2 ⟨c, hc, rfl⟩, ?_⟩
    unfold onesOf
    obtain ⟨h1, h2⟩ := List.getElem?_eq_some_iff.1 hj
    refine List.mem_filter.2 ⟨List.mem_range.2 h1, ?_⟩
    rw [List.getD_eq_getElem?_getD, hj]
    rfl
  unfold decode
  generalize (codes.map onesOf).flatten = l at hm
  induction l with
  | nil => cases hm
  | cons i l ih =>
    rw [List.mapM_cons]
    cases hcw : codeword codebook i with
    | error e =>
      unfold codeword at hcw
      split at hcw
      · cases hcw; rfl
      · cases hcw
    | ok x =>
      have hne : j ≠ i := by
        rintro rfl
        unfold codeword at hcw
        rw [List.getElem?_eq_none hlen] at hcw
        cases hcw
      have := ih ((List.mem_cons.1 hm).resolve_left hne)
      rw [this]
      rfl

example : decode [[0], [10]] [[1, 0], [0, 0, 1]] = .error .indexError := C180_past_end _ _ [0, 0, 1] (by simp) 2 rfl (by simp)

/-! ## scikit-learn -/

theorem rows_flatten (n m : ℕ) : ∀ data : List ℝ, data.length = n * m → (rows n m data).flatten = data := by
  induction n with
  | zero => intro data h; simp at h; simp [rows, h]
  | succ n ih =>
    intro data h
    have e : rows (n + 1) m data = data.take m :: rows n m (data.drop m) := by
      unfold rows
      rw [List.range_succ_eq_map, List.map_cons, List.map_map]
      congr 1
      · simp
      · apply List.map_congr_left
        intro i _
        simp only [Function.comp, List.drop_drop, Nat.succ_mul]
        congr 2
        omega
    rw [e, List.flatten_cons, ih (data.drop m) (by rw [List.length_drop, h, Nat.succ_mul]; omega), List.take_append_drop]

/-- **C181, scikit-learn models**: data of any shape with at least one example and one number per example is given to the model as one row per example, and, when the
model's inverse undoes its transform on these rows, comes back unchanged, in its own shape. -/
theorem C181_roundtrip (transform inverse : List ℝ → List ℝ) (n : ℕ) (shape : List ℕ) (data : List ℝ) (hn : 0 < n) (hs : 0 < shape.prod)
    (hl : data.length = n * shape.prod) (hinv : ∀ i, i < n → ∀ r, r = (data.drop (i * shape.prod)).take shape.prod → inverse (transform r) = r) :
    ∃ codes, forward transform ⟨n :: shape, data⟩ = .ok codes ∧ codes.length = n ∧
      (∀ i, i < n → codes.getD i [] = transform ((data.drop (i * shape.prod)).take shape.prod)) ∧
      backward inverse shape codes = .ok ⟨n :: shape, data⟩ := by
  have hdiv : data.length / n = shape.prod := by rw [hl]; exact Nat.mul_div_cancel_left _ hn
  have hf : forward transform ⟨n :: shape, data⟩ = .ok ((rows n shape.prod data).map transform) := by
    unfold forward reshapeRows
    simp only
    rw [if_neg (by push Not; exact ⟨by omega, by rw [hl]; exact Nat.mul_mod_right _ _⟩), hdiv]
  refine ⟨_, hf, by simp [rows], ?_, ?_⟩
  · intro i hi
    unfold rows
    rw [List.map_map, Spectral.getD_map_range _ _ _ _ hi]
    rfl
  · unfold backward
    have : ((rows n shape.prod data).map transform).map inverse = rows n shape.prod data := by
      rw [List.map_map]
      conv_rhs => rw [← List.map_id (rows n shape.prod data)]
      apply List.map_congr_left
      intro r hr
      unfold rows at hr
      obtain ⟨i, hi, rfl⟩ := List.mem_map.1 hr
      exact hinv i (List.mem_range.1 hi) _ rfl
    rw [this, rows_flatten n _ data hl]
    unfold reshapeBack
    rw [if_neg (by push Not; exact ⟨by omega, by rw [hl]; exact Nat.mul_mod_left _ _⟩), hl, Nat.mul_div_cancel _ hs]

/-- Two examples of shape 2 × 1, with a model that doubles. -/
example : ∃ codes, forward (List.map (2 * ·)) ⟨[2, 2, 1], [1, 2, 3, 4]⟩ = .ok codes ∧ backward (List.map (· / 2)) [2, 1] codes = .ok ⟨[2, 2, 1], [1, 2, 3, 4]⟩ := by
  obtain ⟨c, h1, _, _, h2⟩ := C181_roundtrip (List.map (2 * ·)) (List.map (· / 2)) 2 [2, 1] [1, 2, 3, 4] (by simp) (by simp) (by simp)
    (by intro i _ r _; rw [List.map_map]; conv_rhs => rw [← List.map_id r]
        apply List.map_congr_left; intro a _; simp)
  exact ⟨c, h1, h2⟩

/-- C181: rows of numbers that do not make up whole examples of the stored shape are a ValueError, and so are examples without numbers. -/
theorem C181_refused (inverse : List ℝ → List ℝ) (shape : List ℕ) (codes : List (List ℝ))
    (h : ¬ (0 < shape.prod ∧ shape.prod ∣ (codes.map inverse).flatten.length)) : backward inverse shape codes = .error .valueError := by
  unfold backward reshapeBack
  refine if_pos ?_
  rw [Nat.dvd_iff_mod_eq_zero] at h
  omega

example : backward id [2, 2] [[1, 2, 3, 4], [5, 6, 7]] = .error .valueError := C181_refused _ _ _ (by simp)

/-- **C182, refuted**: no examples at all cannot be transformed, whatever their shape, because the size of a row cannot be told from them. -/
theorem C182_empty_refuted (transform : List ℝ → List ℝ) (shape : List ℕ) : forward transform ⟨0 :: shape, []⟩ = .error .valueError := by
  simp [forward, reshapeRows]

/-- **C183, refuted**: with components instead of the model's inverse the mean that the model subtracted is not added again: an example that the components describe
exactly comes back without the mean, and so unchanged only if the mean is zero. -/
theorem C183_mean_refuted {k m : ℕ} (components : Matrix (Fin k) (Fin m) ℝ) (horth : components * components.transpose = 1) (mean x : Fin m → ℝ)
    (hx : ∃ a, x = mean + Matrix.vecMul a components) :
    withComponents components (pcaTransform components mean x) = x - mean ∧
    (withComponents components (pcaTransform components mean x) = x ↔ mean = 0) := by
  obtain ⟨a, ha⟩ := hx
  have h : withComponents components (pcaTransform components mean x) = x - mean := by
    unfold withComponents pcaTransform
    rw [ha, add_sub_cancel_left]
    rw [← Matrix.mulVec_transpose components a, Matrix.mulVec_mulVec, horth, Matrix.one_mulVec, Matrix.mulVec_transpose]
  refine ⟨h, ?_⟩
  rw [h]
  constructor
  · intro hh
    have : x - (x - mean) = 0 := by rw [hh]; simp
    simpa using this
  · intro hh; rw [hh]; simp

/-- One component in the plane. -/
example : (!![1, 0] : Matrix (Fin 1) (Fin 2) ℝ) * (!![1, 0] : Matrix (Fin 1) (Fin 2) ℝ).transpose = 1 := by
  ext i j
  fin_cases i
  fin_cases j
  simp [Matrix.mul_apply]

end Zounds.Codebook
