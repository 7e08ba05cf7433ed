import Verif.Props.Loss
/-!
# What CategoricalLoss compares when it is given audio (C138)
-/

namespace Zounds.Loss
open Zounds Zounds.Conv

theorem flatten_getD (m : Nat) (hm : 0 < m) : ∀ (rows : List (List ℝ)), (∀ r ∈ rows, r.length = m) → ∀ i : Nat, i < rows.length * m →
    rows.flatten.getD i 0 = (rows.getD (i / m) []).getD (i % m) 0 := by
  intro rows
  induction rows with
  | nil => intro _ i hi; simp at hi
  | cons r rows ih =>
    intro h i hi
    have hr := h r List.mem_cons_self
    rw [List.flatten_cons]
    by_cases hc : i < m
    · rw [Nat.div_eq_of_lt hc, Nat.mod_eq_of_lt hc, List.getD_append _ _ _ _ (by omega)]
      rfl
    · rw [List.getD_append_right _ _ _ _ (by omega), hr]
      have h1 : i / m = (i - m) / m + 1 := by
        rw [Nat.div_eq_sub_div hm (by omega)]
      have h2 : i % m = (i - m) % m := by rw [Nat.mod_eq_sub_mod (by omega)]
      rw [h1, h2, List.getD_cons_succ]
      apply ih (fun r' hr' => h r' (List.mem_cons_of_mem _ hr'))
      rw [List.length_cons, Nat.succ_mul] at hi
      omega

/-- **C138**, what the loss of audio with itself is: with `c` the category of sample `t` of an example, it is minus the mean log probability that sample number `(c w + t) / (n + 1)` of the
example - not sample `t` - is in category `(c w + t) mod (n + 1)` - not in category `c`. -/
theorem C138_exact (n : Nat) (hn : 0 < n) (B w : Nat) (hB : 0 < B) (hw : 0 < w) (heven : w % 2 = 0) (xs : List ℝ) (hxs : xs.length = B * w) (hx : ∃ x ∈ xs, x ≠ 0) :
    ∃ ds v, discretized n xs = .ok (some ds) ∧ categoricalLoss n (.raw xs) w xs w = .ok (some v) ∧
      v = -(∑ b ∈ Finset.range B, ∑ t ∈ Finset.range w,
        (oneHot n (ds.getD (b * w + (⌊ds.getD (b * w + t) 0⌋₊ * w + t) / (n + 1)) 0)).getD ((⌊ds.getD (b * w + t) 0⌋₊ * w + t) % (n + 1)) 0) / (B * w) := by
  obtain ⟨ds, hd, hlen, -⟩ := C135_discretized n hn xs hx
  have hrl : ∀ r ∈ ds.map (oneHot n), r.length = n + 1 := by
    intro r hr
    obtain ⟨d, _, rfl⟩ := List.mem_map.1 hr
    exact (C136_one_hot n d).1
  have hfl : (ds.map (oneHot n)).flatten.length = xs.length * (n + 1) := by
    rw [List.length_flatten, List.map_map, ← hlen]
    rw [show (ds.map (List.length ∘ oneHot n)) = ds.map fun _ => n + 1 from List.map_congr_left fun d hd => hrl _ (List.mem_map_of_mem hd)]
    simp
  obtain ⟨ds', v, h1, h2, h3, h4, _⟩ := C137_loss n hn B w hB hw heven (ds.map (oneHot n)).flatten xs (by rw [hfl, hxs]; ring) hxs hx
  rw [hd] at h1
  cases h1
  have hsame : categoricalLoss n (.raw xs) w xs w = categoricalLoss n (.logProbs (ds.map (oneHot n)).flatten) w xs w := by
    simp only [categoricalLoss, categorical, hd, hfl]
  refine ⟨ds, v, hd, by rw [hsame, h2], ?_⟩
  rw [h4]
  congr 2
  apply Finset.sum_congr rfl
  intro b hb
  apply Finset.sum_congr rfl
  intro t ht
  rw [Finset.mem_range] at hb ht
  have hk : b * w + t < ds.length := by
    rw [hlen, hxs]
    calc b * w + t < b * w + w := by omega
      _ = (b + 1) * w := by ring
      _ ≤ B * w := Nat.mul_le_mul_right w hb
  have hc : ⌊ds.getD (b * w + t) 0⌋₊ ≤ n := by
    rw [List.getD_eq_getElem _ _ hk]
    exact h3 _ (List.getElem_mem hk)
  generalize ⌊ds.getD (b * w + t) 0⌋₊ = c at hc
  unfold logProb
  have hidx : (b * (n + 1) + c) * w + t = b * w * (n + 1) + (c * w + t) := by ring
  have hcw : c * w + t < (n + 1) * w := by
    calc c * w + t < c * w + w := by omega
      _ = (c + 1) * w := by ring
      _ ≤ (n + 1) * w := Nat.mul_le_mul_right w (by omega)
  have hlt : b * w * (n + 1) + (c * w + t) < ds.length * (n + 1) := by
    rw [hlen, hxs]
    calc b * w * (n + 1) + (c * w + t) < b * w * (n + 1) + (n + 1) * w := by omega
      _ = (b + 1) * w * (n + 1) := by ring
      _ ≤ B * w * (n + 1) := Nat.mul_le_mul_right _ (Nat.mul_le_mul_right w hb)
  rw [hidx, flatten_getD (n + 1) (by omega) _ hrl _ (by simpa using hlt)]
  have hdiv : (b * w * (n + 1) + (c * w + t)) / (n + 1) = b * w + (c * w + t) / (n + 1) := by
    rw [Nat.add_comm, Nat.add_mul_div_right _ _ (by omega), Nat.add_comm]
  have hmod : (b * w * (n + 1) + (c * w + t)) % (n + 1) = (c * w + t) % (n + 1) := by
    rw [Nat.add_comm, Nat.add_mul_mod_self_right]
  rw [hdiv, hmod]
  have hi : b * w + (c * w + t) / (n + 1) < ds.length := by
    have := (Nat.div_lt_iff_lt_mul (Nat.succ_pos n)).2 hlt
    rwa [Nat.succ_eq_add_one, hdiv] at this
  congr 1
  rw [List.getD_eq_getElem (ds.map (oneHot n)) [] (by simpa using hi), List.getElem_map, List.getD_eq_getElem ds 0 hi]

/-- The hypotheses are met: one example of two samples in two categories. -/
example : ∃ v, categoricalLoss 1 (.raw [1, 1]) 2 [1, 1] 2 = .ok (some v) := by
  obtain ⟨_, v, _, h, _⟩ := C138_exact 1 (by norm_num) 1 2 (by norm_num) (by norm_num) rfl [1, 1] rfl ⟨1, by simp, one_ne_zero⟩
  exact ⟨v, h⟩

end Zounds.Loss
