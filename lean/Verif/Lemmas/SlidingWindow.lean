import Verif.Model.SlidingWindow
import Verif.Lemmas.Windowed
/-! Helper lemmas about the streaming `SlidingWindow` node. -/

namespace Zounds.SlidingWindow
open Zounds Zounds.Npx
variable {α : Type u}

theorem mul_div_bounds (l s : Nat) (hs : 1 ≤ s) : l / s * s ≤ l ∧ l < (l / s + 1) * s := by
  have := Nat.div_add_mod l s
  have h2 := Nat.mod_lt l (by omega : 0 < s)
  rw [Nat.mul_comm] at this
  rw [Nat.add_mul]; omega

theorem map_range_singleton (a : List α) :
    (List.range a.length).map (fun i => (a.drop (i * 1)).take 1) = a.map fun x => [x] := by
  apply List.ext_getElem
  · simp
  · intro i h1 h2
    simp at h1 h2
    simp [List.take_one, h1]

/-- Uniform description of one unpadded call, for `1 ≤ s ≤ w`. -/
theorem sw_nopad (z : α) (a : List α) (w s : Nat) (hs : 1 ≤ s) (hsw : s ≤ w) :
    ∃ n, (∀ i, i < n → i * s + w ≤ a.length) ∧ n * s ≤ a.length ∧ a.length ≤ w + n * s ∧
      slidingWindowWithLeftovers z a w s false =
        .ok (a.drop (n * s), (List.range n).map fun i => (a.drop (i * s)).take w) := by
  by_cases hw : 2 ≤ w
  · refine ⟨nWin a.length w s, fun i hi => nWin_fit hi, ?_, ?_, ?_⟩
    · unfold nWin
      split
      · omega
      · have := mul_div_bounds (a.length - w) s hs
        rw [Nat.add_mul]; omega
    · unfold nWin
      split
      · omega
      · have := mul_div_bounds (a.length - w) s hs
        rw [Nat.add_mul] at *; omega
    · unfold slidingWindowWithLeftovers
      rw [windowed_nopad z a w s hw hs]
      simp only [Out.windows]
      by_cases h : nWin a.length w s = 0
      · simp [h]
      · simp [h]
  · obtain rfl : w = 1 := by omega
    obtain rfl : s = 1 := by omega
    refine ⟨a.length, fun i hi => by omega, by omega, by omega, ?_⟩
    unfold slidingWindowWithLeftovers windowed
    simp only [Int.natCast_one, Option.getD_some, and_self, if_true]
    rw [map_range_singleton a]
    simp [Out.windows]

theorem push_nopad (z : α) (w s : Nat) (hs : 1 ≤ s) (hsw : s ≤ w) (st : St α) (d : List α) :
    ∃ n, (∀ i, i < n → i * s + w ≤ (st.cache.getD [] ++ d).length) ∧
      n * s ≤ (st.cache.getD [] ++ d).length ∧ (st.cache.getD [] ++ d).length ≤ w + n * s ∧
      push z w s false st d =
        .ok (⟨some ((st.cache.getD [] ++ d).drop (n * s))⟩,
          (List.range n).map fun i => ((st.cache.getD [] ++ d).drop (i * s)).take w) := by
  have he : enqueue st d = ⟨some (st.cache.getD [] ++ d)⟩ := by
    unfold enqueue; cases st.cache <;> simp
  obtain ⟨n, h1, h2, h3, h4⟩ := sw_nopad z (st.cache.getD [] ++ d) w s hs hsw
  refine ⟨n, h1, h2, h3, ?_⟩
  unfold push dequeue
  rw [he]
  simp only [h4]
  by_cases hn : n = 0
  · subst hn; simp
  · simp [hn]

theorem feed_spec (z : α) (w s : Nat) (hs : 1 ≤ s) (hsw : s ≤ w) (cs : List (List α)) :
    ∀ st : St α, cs ≠ [] →
    ∃ k, (∀ i, i < k → i * s + w ≤ (st.cache.getD [] ++ cs.flatten).length) ∧
      k * s ≤ (st.cache.getD [] ++ cs.flatten).length ∧
      (st.cache.getD [] ++ cs.flatten).length ≤ w + k * s ∧
      feed z w s st cs =
        .ok (⟨some ((st.cache.getD [] ++ cs.flatten).drop (k * s))⟩,
          (List.range k).map fun i => ((st.cache.getD [] ++ cs.flatten).drop (i * s)).take w) := by
  induction cs with
  | nil => intro st h; exact absurd rfl h
  | cons d rest ih =>
    intro st _
    obtain ⟨n, h1, h2, h3, h4⟩ := push_nopad z w s hs hsw st d
    by_cases hr : rest = []
    · subst hr
      refine ⟨n, ?_⟩
      simp only [List.flatten_cons, List.flatten_nil, List.append_nil, feed, h4]
      refine ⟨h1, h2, h3, by first | rfl | simp⟩
    · obtain ⟨k, g1, g2, g3, g4⟩ := ih ⟨some ((st.cache.getD [] ++ d).drop (n * s))⟩ hr
      simp only [Option.getD_some] at g1 g2 g3 g4
      generalize hx : st.cache.getD [] ++ d = x at *
      have hcat : x.drop (n * s) ++ rest.flatten = (x ++ rest.flatten).drop (n * s) := by
        rw [List.drop_append_of_le_length h2]
      rw [hcat] at g1 g2 g3 g4
      have hxx : st.cache.getD [] ++ (d :: rest).flatten = x ++ rest.flatten := by
        rw [← hx]; simp
      rw [hxx]
      have hlen : ((x ++ rest.flatten).drop (n*s)).length = x.length + rest.flatten.length - n * s := by
        simp only [List.length_drop, List.length_append]
      rw [hlen] at g1 g2 g3
      have hlx : (x ++ rest.flatten).length = x.length + rest.flatten.length := by
        simp only [List.length_append]
      rw [hlx]
      refine ⟨n + k, ?_, ?_, ?_, ?_⟩
      · intro i hi
        by_cases hin : i < n
        · have := h1 i hin; omega
        · have := g1 (i - n) (by omega)
          have e : i * s = n * s + (i - n) * s := by rw [← Nat.add_mul]; congr 1; omega
          omega
      · rw [Nat.add_mul]; omega
      · rw [Nat.add_mul]; omega
      · simp only [feed, h4, g4]
        congr 2
        · rw [List.drop_drop, Nat.add_mul]
        · rw [List.range_add, List.map_append]
          congr 1
          · apply List.map_congr_left
            intro i hi
            have hi := h1 i (by simpa using hi)
            rw [List.drop_append_of_le_length (by omega), List.take_append_of_le_length (by simp; omega)]
          · rw [List.map_map]
            apply List.map_congr_left
            intro i _
            simp only [Function.comp, List.drop_drop, Nat.add_mul]

theorem padWindow_drop (z : α) (x : List α) (w s k i : Nat) :
    padWindow z (x.drop (k * s)) w s i = padWindow z x w s (k + i) := by
  unfold padWindow
  apply List.map_congr_left
  intro j _
  simp only [List.getD_eq_getElem?_getD, List.getElem?_drop, Nat.add_mul, Nat.add_assoc]

/-- Number of windows emitted by a padded call. -/
def nFinal (l w s : Nat) : Nat := if w = 1 then l else nPad l w s

theorem sw_pad (z : α) (a : List α) (w s : Nat) (hs : 1 ≤ s) (hsw : s ≤ w) :
    slidingWindowWithLeftovers z a w s true =
        .ok ([], (List.range (nFinal a.length w s)).map (padWindow z a w s))
    ∨ (a = [] ∧ w = 1 ∧ slidingWindowWithLeftovers z a w s true = .ok (a, [])) := by
  by_cases hw : 2 ≤ w
  · left
    have hne : ¬ w = 1 := by omega
    unfold slidingWindowWithLeftovers nFinal
    rw [windowed_pad z a w s hw hs, if_neg hne]
    simp only [Out.windows]
    have hn : nPad a.length w s ≠ 0 := by
      rw [← (nPad_padLen a.length w s hw hs).2, Nat.add_comm]
      exact Nat.succ_ne_zero _
    simp [hn]
  · obtain rfl : w = 1 := by omega
    obtain rfl : s = 1 := by omega
    unfold slidingWindowWithLeftovers windowed nFinal
    simp only [Int.natCast_one, Option.getD_some, and_self, if_true]
    by_cases ha : a = []
    · right; subst ha; simp [Out.windows]
    · left
      have : (a.map fun x => [x]) = (List.range a.length).map (padWindow z a 1 1) := by
        rw [← map_range_singleton a]
        apply List.map_congr_left
        intro i hi
        rw [padWindow_full]
        have : i < a.length := by simpa using hi
        omega
      simp [Out.windows, ha, this]

theorem push_pad (z : α) (w s : Nat) (hs : 1 ≤ s) (hsw : s ≤ w) (st : St α) (d : List α) :
    ∃ st', push z w s true st d =
        .ok (st', (List.range (nFinal (st.cache.getD [] ++ d).length w s)).map
          (padWindow z (st.cache.getD [] ++ d) w s)) := by
  have he : enqueue st d = ⟨some (st.cache.getD [] ++ d)⟩ := by
    unfold enqueue; cases st.cache <;> simp
  unfold push dequeue
  rw [he]
  rcases sw_pad z (st.cache.getD [] ++ d) w s hs hsw with h | ⟨h1, h2, h⟩
  · simp only [h]
    generalize nFinal (st.cache.getD [] ++ d).length w s = m
    by_cases hn : m = 0
    · simp [hn]
    · simp [hn]
  · simp only [h]
    rw [h1]; simp [h2, nFinal]

end Zounds.SlidingWindow
