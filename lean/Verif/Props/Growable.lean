import Verif.Model.Growable
/-!
# Property C10: `Growable` is a list under `append` and `extend`

Specification: a plain list; `append` adds one element at the end, `extend`
several.
-/

namespace Zounds.Props.Growable
open Zounds Zounds.Growable
variable {α : Type u}

/-- What the operation does to a plain list. -/
def specStep (l : List (Option α)) : Op α → List (Option α)
  | .append x => l ++ [some x]
  | .extend xs => l ++ xs.map some

theorem tmpSize_pos (g : G α) : 1 ≤ g.tmpSize := by
  unfold G.tmpSize; simp only
  generalize g.data.length * g.rateNum / g.rateDen = n
  split <;> omega

theorem append_spec (g : G α) (h : g.position ≤ g.data.length) (x : α) :
    ∃ g', g.append x = .ok g' ∧ g'.position ≤ g'.data.length ∧
      g'.logicalData = g.logicalData ++ [some x] ∧ g'.position = g.position + 1 := by
  have core : ∀ d : List (Option α), g.position < d.length →
      (d.set g.position (some x)).take (g.position + 1) = d.take g.position ++ [some x] := by
    intro d hd
    rw [List.take_add_one, List.take_set_of_le (Nat.le_refl _)]
    simp [hd]
  unfold G.append setCell
  by_cases hlt : g.position < g.data.length
  · rw [if_pos hlt]
    refine ⟨_, rfl, by simp; omega, ?_, rfl⟩
    simpa [G.logicalData] using core _ hlt
  · rw [if_neg hlt]
    have hpos := tmpSize_pos g
    have hlen : g.position < (g.grow none).data.length := by
      simp [G.grow]; omega
    have hp : (g.grow none).position = g.position := rfl
    simp only [hp]
    rw [if_pos hlen]
    refine ⟨_, rfl, by simp [G.grow]; omega, ?_, rfl⟩
    have := core _ hlen
    simp only [G.logicalData]
    rw [this]
    congr 1
    simp [G.grow, List.take_append_of_le_length (show g.position ≤ g.data.length from h)]

theorem extend_spec (g : G α) (h : g.position ≤ g.data.length) (xs : List α) :
    ∃ g', g.extend xs = .ok g' ∧ g'.position ≤ g'.data.length ∧
      g'.logicalData = g.logicalData ++ xs.map some ∧ g'.position = g.position + xs.length := by
  have core : ∀ d : List (Option α), g.position + xs.length ≤ d.length →
      setRange d g.position xs = .ok (d.take g.position ++ xs.map some ++ d.drop (g.position + xs.length)) := by
    intro d hd
    unfold setRange
    rw [if_pos]
    simp; omega
  unfold G.extend G.logicalSize G.physicalSize
  simp only
  by_cases hgt : xs.length + g.position > g.data.length
  · rw [if_pos hgt]
    generalize hamt : (if g.data.length + g.tmpSize < xs.length + g.position then
      xs.length + g.position - g.data.length else g.tmpSize) = amt
    have hroom : g.position + xs.length ≤ (g.grow (some amt)).data.length := by
      simp [G.grow]
      split at hamt <;> omega
    have hp : (g.grow (some amt)).position = g.position := rfl
    rw [hp, core _ hroom]
    refine ⟨_, rfl, ?_, ?_, rfl⟩
    · simp only [List.length_append, List.length_take, List.length_map, List.length_drop]; omega
    · simp only [G.logicalData]
      rw [List.take_left' (by simp; omega)]
      congr 1
      simp [G.grow, List.take_append_of_le_length h]
  · rw [if_neg hgt, core _ (by omega)]
    refine ⟨_, rfl, ?_, ?_, rfl⟩
    · simp only [List.length_append, List.length_take, List.length_map, List.length_drop]; omega
    · simp only [G.logicalData]
      rw [List.take_left' (by simp; omega)]

/-- **C10.** Whatever sequence of `append`s and `extend`s a client performs on a
`Growable` whose logical size fits its array, none of them raises, the logical
data is the initial logical data followed by everything that was added, in
order, and the logical size is its length, within the physical size. -/
theorem C10_growable_is_list (ops : List (Op α)) : ∀ (g : G α), g.position ≤ g.data.length →
    ∃ g', g.steps ops = .ok g' ∧ g'.logicalData = ops.foldl specStep g.logicalData ∧
      g'.logicalSize = g'.logicalData.length ∧ g'.logicalSize ≤ g'.physicalSize := by
  induction ops with
  | nil =>
    intro g h
    refine ⟨g, rfl, rfl, ?_, h⟩
    simp [G.logicalSize, G.logicalData]; omega
  | cons o os ih =>
    intro g h
    cases o with
    | append x =>
      obtain ⟨g₁, h1, h2, h3, _⟩ := append_spec g h x
      obtain ⟨g', e1, e2, e3⟩ := ih g₁ h2
      refine ⟨g', by simp [G.steps, G.step, h1, e1], ?_, e3⟩
      rw [e2, h3]; rfl
    | extend xs =>
      obtain ⟨g₁, h1, h2, h3, _⟩ := extend_spec g h xs
      obtain ⟨g', e1, e2, e3⟩ := ih g₁ h2
      refine ⟨g', by simp [G.steps, G.step, h1, e1], ?_, e3⟩
      rw [e2, h3]; rfl

/-- **C10**, nothing that was written is ever changed: the logical data only grows
at its end. -/
theorem C10_prefix_preserved (ops : List (Op α)) (g g' : G α) (h : g.position ≤ g.data.length)
    (he : g.steps ops = .ok g') : g.logicalData <+: g'.logicalData := by
  obtain ⟨g₁, h1, h2, _⟩ := C10_growable_is_list ops g h
  rw [he] at h1; injection h1 with h1; subst h1
  rw [h2]
  clear he h2 h
  generalize g.logicalData = l
  induction ops generalizing l with
  | nil => exact List.prefix_refl l
  | cons o os ih =>
    refine List.IsPrefix.trans ?_ (ih (specStep l o))
    cases o <;> exact List.prefix_append _ _

/-- **C10**, only positive growth rates are accepted. -/
theorem C10_growth_rate (data : List (Option α)) (p : Nat) (num : Int) (den : Nat) :
    new data p num den = .error .valueError ↔ num ≤ 0 := by
  unfold new; split <;> simp [*]

/-- The constructor documents that the logical size may exceed the array, but then
even a single `append` can raise `IndexError`: the hypothesis of C10 is needed. -/
theorem C10_oversized_position_fails :
    ∃ g : G Nat, new [some 1] 3 1 1 = .ok g ∧ g.append 5 = .error .indexError := by
  refine ⟨⟨[some 1], 3, 1, 1⟩, ?_, ?_⟩ <;> decide

-- Non-vacuity: an empty array, rate 1/2.
example : (G.steps (⟨[], 0, 1, 2⟩ : G Nat) [.append 7, .extend [8, 9, 10], .append 11]) =
    .ok ⟨[some 7, some 8, some 9, some 10, some 11, none], 5, 1, 2⟩ := by decide

/-- **C10** (growth): an append to a full array makes room for `rate` times as many items again, at least one. -/
theorem C10_growth_amount (g g' : G α) (h : g.position = g.data.length) (x : α) (he : g.append x = .ok g') :
    g'.physicalSize = g.physicalSize + max 1 (g.physicalSize * g.rateNum / g.rateDen) := by
  have hs : setCell g.data g.position x = .error .indexError := by unfold setCell; rw [if_neg (by omega)]
  unfold G.append at he
  rw [hs] at he
  simp only [G.grow, Option.getD_none] at he
  unfold setCell at he
  split at he
  · rename_i d hd
    split at hd
    · injection hd with hd
      injection he with he
      subst hd; subst he
      simp only [G.physicalSize, List.length_set, List.length_append, List.length_replicate, G.tmpSize]
      generalize g.data.length * g.rateNum / g.rateDen = k
      split <;> omega
    · cases hd
  · cases he

example := C10_growable_is_list [.append 5, .extend [6, 7, 8], .append 9] (⟨[some 1, none], 1, 1, 1⟩ : G Nat) (by decide)
example := C10_prefix_preserved [.append 5, .extend [6, 7, 8]] (⟨[some 1, none], 1, 1, 1⟩ : G Nat) _ (by decide) rfl
example := C10_growth_amount (⟨[some 1, some 2], 2, 1, 1⟩ : G Nat) _ rfl 5 rfl

end Zounds.Props.Growable
