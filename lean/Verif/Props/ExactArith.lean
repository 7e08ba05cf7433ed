import Verif.Props.Arith
/-!
# Exactly when the dimensions of results of arithmetic, of numpy's reductions and of numpy's transpositions fit (C252, C254, C255)
-/

namespace Zounds.Arr
open Zounds

section
variable {φ : Type} [Field φ] [LinearOrder φ] (X : Freq.NumExt φ)

/-- A dimension of the library that fits an axis fits one of another size exactly if it has no size (an identity dimension) or the size is the same. -/
theorem fits_iff (d : LibDim φ) (m n : Nat) (h : (libOps X).install d m = .ok d) : (libOps X).install d n = .ok d ↔ d = .identity ∨ n = m := by
  obtain ⟨t, f, i⟩ := C36_lib_install X n
  obtain ⟨t', f', i'⟩ := C36_lib_install X m
  cases d with
  | identity => simp [i]
  | time fr du sz =>
    rw [t'] at h
    simp only [Except.ok.injEq, LibDim.time.injEq, true_and] at h
    rw [t, ← h]
    simp
  | freq s =>
    rw [f'] at h
    rw [f]
    have hm : m = s.len := by
      by_contra hc
      rw [if_neg hc] at h
      cases h
    by_cases hn : n = s.len
    · simp [hn, hm]
    · rw [if_neg hn]
      simp [hm, hn]

/-- Dimensions that fit the axes of one array fit those of another with as many axes exactly where they have no size or the axes are equally long. -/
theorem settled_other {α β : Type} (a : Awu (LibDim φ) α) (ha : Settled (libOps X) a) (b : Awu (LibDim φ) β) (hd : b.dims = a.dims) (hs : b.shape.length = a.shape.length) :
    Settled (libOps X) b ↔ ∀ k (h : k < a.dims.length) (h1 : k < a.shape.length) (h2 : k < b.shape.length), a.dims[k] = .identity ∨ b.shape[k] = a.shape[k] := by
  constructor
  · intro h k hk h1 h2
    have := h.own k (by rw [hd]; exact hk)
    simp only [hd] at this
    exact (fits_iff X _ _ _ (ha.own k hk)).1 this
  · intro h
    refine ⟨by rw [hd, hs]; exact ha.len, ?_⟩
    intro k hk
    have hk' : k < a.dims.length := by rw [← hd]; exact hk
    simp only [hd]
    exact (fits_iff X _ _ _ (ha.own k hk')).2 (h k hk' (by rw [← ha.len]; exact hk') (by rw [hs, ← ha.len]; exact hk'))

/-- **C252**, exactly when the dimensions of a combination describe its axes: the combination of an array whose dimensions fit with anything has, if it has units at all, the array's class and
dimensions, and they fit if and only if every axis that has become longer (from one) has a dimension without a size. -/
theorem C252_exact {K α β γ : Type} (f : α → β → γ) (c : K) (a : Awu (LibDim φ) α) (ha : Settled (libOps X) a) (y : Val K (LibDim φ) β) (c' : K) (r : Awu (LibDim φ) γ)
    (h : ufunc2 f (.units c a) y = .ok (.units c' r)) :
    c' = c ∧ r.dims = a.dims ∧ r.shape.length = a.shape.length ∧ broadcast a.shape y.shape = .ok r.shape ∧
      (Settled (libOps X) r ↔ ∀ k (_ : k < a.dims.length) (h1 : k < a.shape.length) (h2 : k < r.shape.length), a.dims[k] = .identity ∨ r.shape[k] = a.shape[k]) := by
  unfold ufunc2 at h
  simp only [Val.owner, Option.some_or] at h
  cases hb : broadcast (Val.units c a : Val K (LibDim φ) α).shape y.shape with
  | error e => simp [hb] at h
  | ok s =>
    simp only [hb, finish] at h
    by_cases hl : a.dims.length ≠ s.length
    · simp only [if_pos hl] at h
      split at h <;> simp at h
    · simp only [if_neg hl, Except.ok.injEq, Val.units.injEq] at h
      obtain ⟨rfl, rfl⟩ := h
      have hs : s.length = a.shape.length := by rw [← ha.len]; omega
      exact ⟨rfl, rfl, hs, hb, settled_other X a ha _ rfl hs⟩

/-- **C252**: no combination with a number or with an array that is nowhere longer makes them unfit; one with an array that is longer on an axis with a time or frequency dimension always does. -/
theorem C252_longer {K α β γ : Type} (f : α → β → γ) (c : K) (a : Awu (LibDim φ) α) (ha : Settled (libOps X) a) (y : Val K (LibDim φ) β) (c' : K) (r : Awu (LibDim φ) γ)
    (h : ufunc2 f (.units c a) y = .ok (.units c' r)) :
    (r.shape = a.shape → Settled (libOps X) r) ∧
    ((∀ d ∈ a.dims, d ≠ .identity) → Settled (libOps X) r → r.shape = a.shape) := by
  obtain ⟨_, _, hl, _, hs⟩ := C252_exact X f c a ha y c' r h
  constructor
  · intro he
    rw [hs]
    intro k _ h1 h2
    exact Or.inr (by simp [he])
  · intro hd hr
    apply List.ext_getElem hl
    intro k h1 h2
    have hk : k < a.dims.length := by rw [ha.len]; exact h2
    rcases hs.1 hr k hk h2 h1 with h' | h'
    · exact absurd h' (hd _ (List.getElem_mem hk))
    · exact h'

/-- **C255**, exactly when `transpose()` is `T`: both have the same shape and the same numbers; they have the same dimensions if and only if these read the same from both ends; and the dimensions of
`transpose()` fit its axes if and only if every axis whose length changes has a dimension without a size. -/
theorem C255_exact {α : Type} (a : Awu (LibDim φ) α) (ha : Settled (libOps X) a) :
    ∃ t, Awu.transpose (libOps X) a = .ok t ∧ (npTranspose a).shape = t.shape ∧ (∀ idx, (npTranspose a).get idx = t.get idx) ∧ Settled (libOps X) t ∧
      ((npTranspose a).dims = t.dims ↔ a.dims.reverse = a.dims) ∧
      (Settled (libOps X) (npTranspose a) ↔
        ∀ k (_ : k < a.dims.length) (h1 : k < a.shape.length) (h2 : k < a.shape.reverse.length), a.dims[k] = .identity ∨ a.shape.reverse[k] = a.shape[k]) := by
  obtain ⟨t, h1, h2, h3, h4, h5, _⟩ := C36_transpose (libOps X) a ha
  refine ⟨t, h1, h2.symm, ?_, h4, ?_, settled_other X a ha (npTranspose a) rfl (by simp [npTranspose])⟩
  · intro idx
    have := h5 idx.reverse
    rw [List.reverse_reverse] at this
    rw [this]
    rfl
  · rw [h3]
    exact eq_comm

/-- **C255**: `flatten()` has one dimension for its one axis exactly if the array had one axis; then they fit. -/
theorem C255_flatten {α : Type} (a : Awu (LibDim φ) α) (ha : Settled (libOps X) a) :
    (npFlatten a).shape.length = 1 ∧ (Settled (libOps X) (npFlatten a) ↔ a.shape.length = 1) := by
  refine ⟨rfl, ?_⟩
  constructor
  · intro h
    have := h.len
    rw [← ha.len]
    exact this
  · intro h
    refine (settled_other X a ha (npFlatten a) rfl (by rw [h]; rfl)).2 ?_
    intro k hk h1 h2
    right
    obtain ⟨n, hn⟩ := List.length_eq_one_iff.1 h
    have h2' : k < 1 := h2
    obtain rfl : k = 0 := by omega
    have : (npFlatten a).shape = a.shape := by
      simp [npFlatten, hn, Nd.size]
    simp [this]

end

theorem reducedShape_shorter (f : Nat → Bool) : ∀ (l : List Nat) (k : Nat), (reducedShape f false k l).length = l.length ↔ ∀ j, k ≤ j → j < k + l.length → f j = false := by
  intro l
  induction l with
  | nil => intro k; simp only [reducedShape, List.length_nil, Nat.add_zero, true_iff]; intro j h1 h2; omega
  | cons n l ih =>
    intro k
    have hle : ∀ (l : List Nat) (k : Nat), (reducedShape f false k l).length ≤ l.length := by
      intro l
      induction l with
      | nil => intro k; simp [reducedShape]
      | cons n l ih =>
        intro k
        simp only [reducedShape]
        have := ih (k + 1)
        cases f k <;> simp <;> omega
    simp only [reducedShape]
    cases hf : f k with
    | true =>
      simp only [if_true, Bool.false_eq_true, if_false, List.length_cons]
      have := hle l (k + 1)
      constructor
      · intro h; omega
      · intro h
        have := h k (Nat.le_refl k) (by omega)
        rw [hf] at this
        cases this
    | false =>
      simp only [Bool.false_eq_true, if_false, List.length_cons, Nat.add_right_cancel_iff, ih]
      constructor
      · intro h j h1 h2
        rcases Nat.lt_or_ge k j with hj | hj
        · exact h j hj (by omega)
        · obtain rfl : j = k := by omega
          exact hf
      · intro h j h1 h2
        exact h j (by omega) (by omega)

theorem reducedShape_kept (f : Nat → Bool) (k : Nat) (l : List Nat) : (reducedShape f true k l).length = l.length := by
  rw [(reducedShape_eq f k l).2]
  simp

theorem normList_bound (nd : Nat) : ∀ (axes : List Int) (l : List Nat), normList nd axes = .ok l → l.length = axes.length ∧ ∀ j ∈ l, j < nd := by
  intro axes l h
  by_cases hv : ∀ x ∈ axes, -(nd : Int) ≤ x ∧ x < nd
  · rw [normList_ok nd axes hv] at h
    cases h
    refine ⟨by simp, ?_⟩
    intro j hj
    obtain ⟨x, hx, rfl⟩ := List.mem_map.1 hj
    have := hv x hx
    split <;> omega
  · rw [normList_error nd axes hv] at h
    cases h

/-- **C254**, exactly when numpy's own reductions (`mean`, `min`, `std`, …) keep units: with `keepdims`, or along no axis; then the result has all the old dimensions. Otherwise it is a bare number or
array. -/
theorem C254_exact {K δ α β : Type} (red : List α → β) (c : K) (a : Awu δ α) (hl : a.dims.length = a.shape.length) (axes : List Int) (keep : Bool) (v : Val K δ β)
    (h : npReduce red c a axes keep = .ok v) :
    ((∃ c' r, v = .units c' r) ↔ keep = true ∨ axes = []) ∧ ∀ c' r, v = .units c' r → c' = c ∧ r.dims = a.dims ∧ r.shape.length = a.shape.length := by
  unfold npReduce at h
  cases hn : normList a.shape.length axes with
  | error e => simp [hn] at h
  | ok l =>
    simp only [hn] at h
    split at h
    · cases h
    · obtain ⟨h1, h2⟩ := normList_bound _ _ _ hn
      simp only [Except.ok.injEq, finish] at h
      subst h
      have key : (reducedShape (fun k => decide (k ∈ l)) keep 0 a.shape).length = a.shape.length ↔ keep = true ∨ axes = [] := by
        cases keep with
        | true => simp [reducedShape_kept]
        | false =>
          rw [reducedShape_shorter]
          simp only [Nat.zero_le, Nat.zero_add, true_implies, decide_eq_false_iff_not, Bool.false_eq_true, false_or]
          constructor
          · intro h
            apply List.length_eq_zero_iff.1
            rw [← h1]
            cases l with
            | nil => rfl
            | cons j l => exact absurd List.mem_cons_self (h j (h2 j List.mem_cons_self))
          · rintro rfl j _
            rw [List.length_nil, List.length_eq_zero_iff] at h1
            simp [h1]
      by_cases hs : (reducedShape (fun k => decide (k ∈ l)) keep 0 a.shape).length = a.shape.length
      · have e : ¬ a.dims.length ≠ (reducedShape (fun k => decide (k ∈ l)) keep 0 a.shape).length := by rw [hs, hl]; simp
        simp only [if_neg e]
        refine ⟨⟨fun _ => key.1 hs, fun _ => ⟨_, _, rfl⟩⟩, ?_⟩
        intro c' r hr
        simp only [Val.units.injEq] at hr
        obtain ⟨rfl, rfl⟩ := hr
        exact ⟨rfl, rfl, hs⟩
      · have e : a.dims.length ≠ (reducedShape (fun k => decide (k ∈ l)) keep 0 a.shape).length := by rw [hl]; exact Ne.symm hs
        simp only [if_pos e]
        have hno : ∀ c' r, (if reducedShape (fun k => decide (k ∈ l)) keep 0 a.shape = [] then
            Val.num (red (((allIdx a.shape).filter fun s => decide (project (fun k => decide (k ∈ l)) keep 0 s = [])).map a.get))
            else Val.plain (reducedShape (fun k => decide (k ∈ l)) keep 0 a.shape) fun idx =>
              red (((allIdx a.shape).filter fun s => decide (project (fun k => decide (k ∈ l)) keep 0 s = idx)).map a.get) : Val K δ β) ≠ .units c' r := by
          intro c' r
          split <;> simp
        refine ⟨⟨?_, fun hc => absurd (key.2 hc) hs⟩, ?_⟩
        · rintro ⟨c', r, hr⟩
          exact absurd hr (hno c' r)
        · intro c' r hr
          exact absurd hr (hno c' r)

/-- Two frames of three numbers. -/
def frames23 : Awu (LibDim Rat) Nat := ⟨[2, 3], [.time 1 1 (some 2), .identity], fun _ => 1⟩

/-- The hypotheses are met: the sums of the frames have no units. -/
example : ∃ v : Val Unit (LibDim Rat) Nat, npReduce (fun l : List Nat => l.sum) () frames23 [-1] false = .ok v ∧ ¬ ∃ c' r, v = .units c' r := by
  obtain ⟨v, hv⟩ : ∃ v : Val Unit (LibDim Rat) Nat, npReduce (fun l : List Nat => l.sum) () frames23 [-1] false = .ok v := ⟨_, rfl⟩
  refine ⟨v, hv, ?_⟩
  rw [(C254_exact _ _ _ rfl [-1] false v hv).1]
  simp

/-- The hypotheses are met: three numbers added to every frame. -/
example (X : Freq.NumExt ℚ) : Settled (libOps X) frames23 ∧
    ∃ r, ufunc2 (· + ·) (.units () frames23) (.plain [3] fun _ => 1) = .ok (.units () r) ∧ Settled (libOps X) r := by
  have hs : Settled (libOps X) frames23 := by
    refine ⟨rfl, ?_⟩
    intro k hk
    match k, hk with
    | 0, _ => rfl
    | 1, _ => rfl
  obtain ⟨r, hr, hsh⟩ : ∃ r, ufunc2 (· + ·) (.units () frames23) (.plain [3] fun _ => 1) = .ok (.units () r) ∧ r.shape = frames23.shape := ⟨⟨[2, 3], frames23.dims, fun _ => 2⟩, rfl, rfl⟩
  exact ⟨hs, r, hr, (C252_longer X _ _ _ hs _ _ r hr).1 hsh⟩

theorem frames23_settled (X : Freq.NumExt ℚ) : Settled (libOps X) frames23 := by
  refine ⟨rfl, ?_⟩
  intro k hk
  match k, hk with
  | 0, _ => rfl
  | 1, _ => rfl
example (X : Freq.NumExt ℚ) : ∃ r, ufunc2 (· + ·) (.units () frames23) (.plain [3] fun _ => 1) = .ok (.units () r) ∧ r.dims = frames23.dims := by
  obtain ⟨r, hr⟩ : ∃ r, ufunc2 (· + ·) (.units () frames23) (.plain [3] fun _ => 1) = .ok (.units () r) := ⟨⟨[2, 3], frames23.dims, fun _ => 2⟩, rfl⟩
  exact ⟨r, hr, (C252_exact X _ _ _ (frames23_settled X) _ _ r hr).2.1⟩
example (X : Freq.NumExt ℚ) := C255_exact X frames23 (frames23_settled X)
example (X : Freq.NumExt ℚ) := C255_flatten X frames23 (frames23_settled X)

end Zounds.Arr
