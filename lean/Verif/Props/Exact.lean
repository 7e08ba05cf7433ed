import Verif.Props.Loss
import Verif.Props.VariableRate
import Verif.Props.Rates
import Verif.Props.Search
import Mathlib.Algebra.Order.Floor.Ring
import Mathlib.Data.List.GetD

/-!
# Exactly when (C95, C131, C139, C140, C144, C231, C289)

Claims that do not hold for all inputs, with the exact condition under which they do.
-/

namespace Zounds.Props.VariableRate
open Zounds.VariableRate

variable {α : Type}

/-- **C95** (exactly when): the span of a series covers all its examples exactly if none of them ends after the last one. -/
theorem C95_exact (l : List (Ex α)) (h : Chronological l) :
    Covers (span l) l ↔ ∀ last, l.getLast? = some last → ∀ x ∈ l, x.start + x.duration ≤ last.start + last.duration := by
  cases l with
  | nil => simp [Covers]
  | cons y ys =>
    have he : endOf (y :: ys) = ((y :: ys).getLast (by simp)).end_ := by
      unfold endOf
      rw [List.getLast?_eq_some_getLast (by simp)]
    have hstart : ∀ x ∈ y :: ys, y.start ≤ x.start := by
      intro x hx
      rcases List.mem_cons.1 hx with rfl | hx
      · exact Int.le_refl _
      · exact (List.pairwise_cons.1 h).1 x hx
    constructor
    · intro hc last hl x hx
      rw [List.getLast?_eq_some_getLast (by simp)] at hl
      have h2 := (hc x hx).2
      simp only [span, he, Option.some.inj hl, Ex.end_] at h2
      omega
    · intro hl x hx
      have h2 := hl _ (List.getLast?_eq_some_getLast (by simp)) x hx
      refine ⟨hstart x hx, ?_⟩
      simp only [span, he, Ex.end_]
      omega

example : ¬ Covers (span ([⟨0, 100, 0⟩, ⟨10, 20, 1⟩] : List (Ex Nat))) [⟨0, 100, 0⟩, ⟨10, 20, 1⟩] := fun h =>
  absurd ((C95_exact _ (by unfold Chronological; decide)).1 h ⟨10, 20, 1⟩ rfl ⟨0, 100, 0⟩ (by simp)) (by decide)

end Zounds.Props.VariableRate

namespace Zounds.Conv

/-- **C131** (exactly when): the layers of a multi-resolution block make the same number of samples of `n` samples exactly if their kernels have one parity or the stride does not
divide `n`. -/
theorem C131_exact (kernels : List Nat) (hk : ∀ k ∈ kernels, 0 < k) (s n : Nat) (hs : 0 < s) (hn : 0 < n) :
    (∀ a ∈ multiResolutionSizes kernels s none n, ∀ b ∈ multiResolutionSizes kernels s none n, a = b) ↔
      ((∀ k ∈ kernels, ∀ k' ∈ kernels, k % 2 = k' % 2) ∨ ¬ s ∣ n) := by
  rw [C130_multiresolution kernels hk s n hn]
  have hdiv : (n - 1) / s = n / s ↔ ¬ s ∣ n := by
    constructor
    · rintro he ⟨c, rfl⟩
      rw [Nat.mul_div_cancel_left _ hs, Nat.div_eq_iff hs] at he
      have : 0 < c := Nat.pos_of_mul_pos_left hn
      have h2 : s * c = c * s := Nat.mul_comm _ _
      omega
    · intro hd
      rw [Nat.div_eq_iff hs]
      have h1 := Nat.div_add_mod n s
      have h2 : 0 < n % s := Nat.pos_of_ne_zero fun h0 => hd (Nat.dvd_of_mod_eq_zero h0)
      have h3 := Nat.mod_lt n hs
      have h4 : s * (n / s) = n / s * s := Nat.mul_comm _ _
      omega
  constructor
  · intro h
    by_cases hd : s ∣ n
    · left
      intro k hk1 k' hk2
      have := h _ (List.mem_map_of_mem hk1) _ (List.mem_map_of_mem hk2)
      have hne : (n - 1) / s ≠ n / s := fun e => (hdiv.1 e) hd
      rcases Nat.mod_two_eq_zero_or_one k with e | e <;> rcases Nat.mod_two_eq_zero_or_one k' with e' | e' <;> simp [e, e'] at this ⊢
      · exact hne this.symm
      · exact hne this
    · exact Or.inr hd
  · intro h a ha b hb
    obtain ⟨k, hk1, rfl⟩ := List.mem_map.1 ha
    obtain ⟨k', hk2, rfl⟩ := List.mem_map.1 hb
    rcases h with h | h
    · simp only [h k hk1 k' hk2]
    · simp only [hdiv.2 h, ite_self]

example := C131_exact [3, 4] (by decide) 2 5 (by decide) (by decide)

/-- Kernels of both parities, a stride that does not divide the number of samples, and one that does. -/
example : multiResolutionSizes [3, 4] 2 none 5 = [3, 3] ∧ multiResolutionSizes [3, 4] 2 none 6 = [3, 4] := by decide

end Zounds.Conv

namespace Zounds.Loss
open Zounds.Conv

theorem oneHot_shift (n : Nat) (d : ℝ) :
    ∃ K : ℝ, ∀ c ≤ n, (oneHot n d).getD c 0 = -((d - (c : ℝ)) ^ 2 * 10 ^ 12) - K := by
  refine ⟨Real.log ((((List.range (n + 1)).map fun (c : Nat) => -((d - (c : ℝ)) ^ 2 * 10 ^ 12)).map Real.exp).sum), ?_⟩
  intro c hc
  unfold oneHot
  simp only [List.getD_eq_getElem?_getD, List.getElem?_map]
  rw [List.getElem?_range (by omega)]
  rfl

/-- **C139** (exactly when): for a sample that is discretized to `d`, the category the loss takes for the target, `⌊d⌋`, is a most probable one of the input exactly if `d` is at most half
a category above it. -/
theorem C139_exact (n : Nat) (d : ℝ) (h0 : 0 ≤ d) (hn : d ≤ n) :
    (∀ c ≤ n, (oneHot n d).getD c 0 ≤ (oneHot n d).getD ⌊d⌋₊ 0) ↔ d - ⌊d⌋₊ ≤ 1 / 2 := by
  have hf : ⌊d⌋₊ ≤ n := by
    have := Nat.floor_mono hn
    rwa [Nat.floor_natCast] at this
  obtain ⟨K, hK⟩ := oneHot_shift n d
  have hle := Nat.floor_le h0
  have hlt := Nat.lt_floor_add_one d
  constructor
  · intro h
    by_contra hc
    rw [not_le] at hc
    have hf1 : ⌊d⌋₊ + 1 ≤ n := by
      by_contra hc2
      have : ⌊d⌋₊ = n := by omega
      rw [this] at hc
      linarith
    have := h (⌊d⌋₊ + 1) hf1
    rw [hK _ hf1, hK _ hf] at this
    push_cast at this
    nlinarith
  · intro h c hc
    rw [hK _ hc, hK _ hf]
    have key : (d - (⌊d⌋₊ : ℝ)) ^ 2 ≤ (d - (c : ℝ)) ^ 2 := by
      rcases Nat.lt_or_ge ⌊d⌋₊ c with h1 | h1
      · have h2 : ((⌊d⌋₊ : ℝ)) + 1 ≤ (c : ℝ) := by exact_mod_cast h1
        nlinarith
      · have h2 : (c : ℝ) ≤ ⌊d⌋₊ := by exact_mod_cast h1
        nlinarith
    linarith

example := C139_exact 4 (7 / 2) (by norm_num) (by norm_num)

/-- Half a category above three and more than that above four. -/
example : (7 / 2 : ℝ) - ⌊(7 / 2 : ℝ)⌋₊ ≤ 1 / 2 ∧ ¬ ((14 / 3 : ℝ) - ⌊(14 / 3 : ℝ)⌋₊ ≤ 1 / 2) := by
  have h1 : ⌊(7 / 2 : ℝ)⌋₊ = 3 := by rw [Nat.floor_eq_iff (by norm_num)]; norm_num
  have h2 : ⌊(14 / 3 : ℝ)⌋₊ = 4 := by rw [Nat.floor_eq_iff (by norm_num)]; norm_num
  rw [h1, h2]
  norm_num

theorem maxAbs_append (xs ys : List ℝ) : maxAbs (xs ++ ys) = max (maxAbs xs) (maxAbs ys) := by
  induction xs with
  | nil =>
    show maxAbs ys = max 0 (maxAbs ys)
    rw [max_eq_right (maxAbs_nonneg ys)]
  | cons x xs ih =>
    show max |x| (maxAbs (xs ++ ys)) = max (max |x| (maxAbs xs)) (maxAbs ys)
    rw [ih, max_assoc]

/-- **C140** (exactly when): an example that is not silent is discretized in a batch as it is alone exactly if no sample of the rest of the batch is further from zero than its own. -/
theorem C140_exact (n : Nat) (hn : 0 < n) (xs rest ds ds' : List ℝ) (h1 : discretized n xs = .ok (some ds)) (h2 : discretized n (xs ++ rest) = .ok (some ds')) :
    ds'.take xs.length = ds ↔ ∃ x ∈ xs, ∀ y ∈ rest, |y| ≤ |x| := by
  unfold discretized at h1 h2
  split at h1
  · cases h1
  · rename_i hne
    split at h1
    · cases h1
    · rename_i hm
      injection h1 with h1; injection h1 with h1
      split at h2
      · cases h2
      · split at h2
        · cases h2
        · rename_i hm2
          injection h2 with h2; injection h2 with h2
          subst h1 h2
          rw [List.map_append, List.take_append_of_le_length (by simp), List.take_of_length_le (by simp)]
          obtain ⟨x₀, hx₀, he⟩ := maxAbs_mem hm
          have hpos : 0 < maxAbs xs := lt_of_le_of_ne (maxAbs_nonneg xs) (Ne.symm hm)
          have hiff : (∃ x ∈ xs, ∀ y ∈ rest, |y| ≤ |x|) ↔ maxAbs (xs ++ rest) = maxAbs xs := by
            rw [maxAbs_append, max_eq_left_iff]
            constructor
            · rintro ⟨x, hx, h⟩
              by_cases h0 : maxAbs rest = 0
              · rw [h0]; exact maxAbs_nonneg xs
              · obtain ⟨y, hy, hye⟩ := maxAbs_mem h0
                rw [← hye]
                exact (h y hy).trans (le_maxAbs hx)
            · intro h
              exact ⟨x₀, hx₀, fun y hy => by rw [he]; exact (le_maxAbs hy).trans h⟩
          rw [hiff]
          constructor
          · intro h
            rw [List.map_inj_left] at h
            have := h x₀ hx₀
            unfold shiftAndScale at this
            have hn2 : ((n : ℝ) / 2) ≠ 0 := by positivity
            have := mul_right_cancel₀ hn2 this
            have := (C134_mu_law n hn).2.1.injective (add_right_cancel this)
            have hx0 : x₀ ≠ 0 := by
              rintro rfl
              rw [abs_zero] at he
              exact hm he.symm
            rw [div_eq_div_iff hm2 hm] at this
            exact (mul_left_cancel₀ hx0 this).symm
          · intro h
            rw [h]

/-- A loud example is discretized as alone, a soft one beside it is not. -/
example : (∃ x ∈ ([1, 1 / 7] : List ℝ), ∀ y ∈ ([1 / 2] : List ℝ), |y| ≤ |x|) ∧ ¬ ∃ x ∈ ([1 / 2] : List ℝ), ∀ y ∈ ([1, 1 / 7] : List ℝ), |y| ≤ |x| := by
  refine ⟨⟨1, by simp, fun y hy => ?_⟩, ?_⟩
  · simp only [List.mem_singleton] at hy
    subst hy
    rw [abs_of_pos (by norm_num), abs_of_pos (by norm_num)]
    norm_num
  · rintro ⟨x, hx, h⟩
    simp only [List.mem_singleton] at hx
    subst hx
    have := h 1 (by simp)
    rw [abs_of_pos (by norm_num), abs_of_pos (by norm_num)] at this
    norm_num at this

/-- **C144** (exactly when): a critic whose gradients (at the mixtures `xs` of the real and the fake examples) are for audio of shape (batch, 1, n), so one row of
`n` derivatives for each example, is not penalised exactly if each single derivative is plus or minus one.  The norm of each of the gradients is then the root of `n`, so
gradients of norm one go unpenalised only for single samples. -/
theorem C144_exact (weight : ℝ) (hw : 0 < weight) (n : Nat) (alphas : List ℝ) (real fake : List (List (List ℝ)))
    (grad : List (List (List ℝ)) → List (List ℝ)) (xs : List (List (List ℝ)))
    (hxs : xs = List.zipWith (fun a (p : List (List ℝ) × List (List ℝ)) => interpolate a p.1 p.2) alphas (real.zip fake))
    (hn : ∀ g ∈ grad xs, g.length = n) (v : ℝ)
    (h : gradientPenalty weight n (fun x => (grad x).map fun g => [g]) alphas real fake = .ok v) :
    (v = 0 ↔ ∀ g ∈ grad xs, ∀ x ∈ g, |x| = 1) ∧
    (v = 0 → ∀ g ∈ grad xs, Real.sqrt ((g.map fun x => x ^ 2).sum) = Real.sqrt n) ∧
    (v = 0 → ∀ g ∈ grad xs, Real.sqrt ((g.map fun x => x ^ 2).sum) = 1 → n = 1) := by
  have hl : real.length = fake.length := by
    by_contra hl
    rw [C143_sizes weight n _ alphas real fake hl] at h
    cases h
  obtain ⟨v', xs', hv, -, hxs', hz⟩ := C143_penalty weight hw n (fun x => (grad x).map fun g => [g]) alphas real fake hl
  rw [h] at hv
  cases hv
  rw [← hxs] at hxs'
  subst hxs'
  have key : v = 0 ↔ ∀ g ∈ grad xs', ∀ x ∈ g, |x| = 1 := by
    rw [hz]
    constructor
    · intro hall g hg x hx
      obtain ⟨t, ht, rfl⟩ := List.getElem_of_mem hx
      have := hall [g] (List.mem_map.mpr ⟨g, hg, rfl⟩) t (by rw [← hn g hg]; exact ht)
      unfold columnNorm at this
      simp only [List.map_cons, List.map_nil, List.sum_cons, List.sum_nil, add_zero, List.getD_eq_getElem _ _ ht] at this
      rwa [Real.sqrt_sq_eq_abs] at this
    · intro hall g' hg' t ht
      obtain ⟨g, hg, rfl⟩ := List.mem_map.mp hg'
      rw [← hn g hg] at ht
      unfold columnNorm
      simp only [List.map_cons, List.map_nil, List.sum_cons, List.sum_nil, add_zero, List.getD_eq_getElem _ _ ht]
      rw [Real.sqrt_sq_eq_abs]
      exact hall g hg _ (List.getElem_mem ht)
  have hsum : ∀ g : List ℝ, (∀ x ∈ g, |x| = 1) → (g.map fun (x : ℝ) => x ^ 2).sum = (g.length : ℝ) := by
    intro g
    induction g with
    | nil => intro _; simp
    | cons x g ih =>
      intro hall
      have h1 : x ^ 2 = 1 := by rw [← sq_abs, hall x List.mem_cons_self]; norm_num
      simp only [List.map_cons, List.sum_cons, h1, ih fun y hy => hall y (List.mem_cons_of_mem _ hy), List.length_cons]
      push_cast
      ring
  refine ⟨key, fun h0 g hg => by rw [hsum g (key.1 h0 g hg), hn g hg], ?_⟩
  intro h0 g hg h1
  rw [hsum g (key.1 h0 g hg), hn g hg, Real.sqrt_eq_one] at h1
  exact_mod_cast h1

example := C144_exact 10 (by norm_num) 2 [1 / 2, 1 / 3] [[[1, 2]], [[0, 1]]] [[[3, 4]], [[5, 6]]] (fun xs => xs.map fun _ => [1, -1]) _ rfl
  (by intro g hg; obtain ⟨_, _, rfl⟩ := List.mem_map.mp hg; rfl) _ rfl

end Zounds.Loss

namespace Zounds.Rates
open Zounds Zounds.Time

theorem back_whole (n : Int) (q : Rat) (hq : 0 < q) (m : Int) (h1 : (m : Rat) ≤ n * q) (h2 : (n : Rat) * q < m + 1) (hm : 0 < m) :
    truncate ((m : Rat) * (1 / q)) = n ↔ ∃ k : Int, (n : Rat) * q = k := by
  have hm' : (0 : Rat) < m := by exact_mod_cast hm
  have hpos : (0 : Rat) ≤ m * (1 / q) := by positivity
  obtain ⟨t1, t2, t3⟩ := truncate_nonneg _ hpos
  constructor
  · intro h
    rw [h] at t1
    refine ⟨m, le_antisymm ?_ h1⟩
    rw [mul_one_div, le_div_iff₀ hq] at t1
    exact t1
  · rintro ⟨k, hk⟩
    rw [hk] at h1 h2
    have e1 : m ≤ k := by exact_mod_cast h1
    have e2 : k < m + 1 := by exact_mod_cast h2
    have e : m = k := by omega
    subst e
    have : (m : Rat) * (1 / q) = n := by
      rw [← hk]
      field_simp
    rw [this] at t1 t2 ⊢
    have hn : (0 : Rat) < n := by
      rw [← this]; positivity
    exact truncate_int n (by exact_mod_cast hn.le)

/-- **C231** (exactly when): a ratio is undone by its reciprocal exactly if it makes whole picoseconds of the step and of the duration. -/
theorem C231_exact (f d : Int) (hf : 0 < f) (hd : 0 < d) (q : Rat) (hq : 0 < q) (r : SampleRate) (h : resample ⟨f, d⟩ q = .ok r) :
    resample r (1 / q) = .ok ⟨f, d⟩ ↔ (∃ k : Int, (f : Rat) * q = k) ∧ ∃ k : Int, (d : Rat) * q = k := by
  obtain ⟨a1, a2, b1, b2, c1, c2⟩ := (C230_resample f d hf hd q hq).2 r h
  rw [← back_whole f q hq r.frequency a1 a2 c1, ← back_whole d q hq r.duration b1 b2 c2]
  constructor
  · intro he
    unfold resample SampleRate.new at he
    split at he
    · cases he
    · split at he
      · cases he
      · injection he with he
        injection he with e1 e2
        exact ⟨e1, e2⟩
  · rintro ⟨e1, e2⟩
    unfold resample SampleRate.new
    rw [e1, e2, if_neg (by omega), if_neg (by omega)]

example : ∃ r, resample ⟨22675736, 22675736⟩ (1 / 2) = .ok r ∧ resample r (1 / (1 / 2)) = .ok ⟨22675736, 22675736⟩ := by
  obtain ⟨r, hr⟩ : ∃ r, resample ⟨22675736, 22675736⟩ (1 / 2) = .ok r := ⟨⟨11337868, 11337868⟩, by decide +kernel⟩
  exact ⟨r, hr, (C231_exact _ _ (by decide) (by decide) (1 / 2) (by norm_num) r hr).2 ⟨⟨11337868, by norm_num⟩, ⟨11337868, by norm_num⟩⟩⟩

/-- Half of an even step is undone, half of an odd one is not. -/
example : (∃ k : Int, ((22675736 : Int) : Rat) * (1 / 2) = k) ∧ ¬ ∃ k : Int, ((22675737 : Int) : Rat) * (1 / 2) = k := by
  refine ⟨⟨11337868, by norm_num⟩, ?_⟩
  rintro ⟨k, hk⟩
  have h2 : ((22675737 : Int) : Rat) = ((2 * k : Int) : Rat) := by
    push_cast
    rw [← hk]
    norm_num
  have : (22675737 : Int) = 2 * k := by exact_mod_cast h2
  omega

end Zounds.Rates

namespace Zounds.Search

/-- **C289** (exactly when): the length of an index object is the number of indexed segments exactly if it has opened the database or nothing is indexed. -/
theorem C289_exact {X : Type} (np : HammingDb.Numpy) (js : Json X) (as : List (Act X)) (hids : (drawn as).Nodup) (k : Nat) (x : Index X)
    (hk : (acts np js {} as).indexes[k]? = some x) :
    len (acts np js {} as).world x = (shelf [] {} as).rows.length ↔ x.db ≠ none ∨ (shelf [] {} as).rows = [] := by
  constructor
  · intro h
    by_cases hdb : x.db = none
    · right
      simp only [len, hdb] at h
      exact List.length_eq_zero_iff.1 h.symm
    · exact Or.inl hdb
  · rintro (h | h)
    · exact C289_len np js as hids k x hk h
    · by_cases hdb : x.db = none
      · rw [h]; simp only [len, hdb, List.length_nil]
      · exact C289_len np js as hids k x hk hdb

example (np : HammingDb.Numpy) (js : Json Nat) : True := by
  obtain ⟨x, hx, -⟩ := history_index np js
  have := C289_exact np js history history_ok.1 1 x hx
  trivial

end Zounds.Search
