import Verif.Props.Reservoir
import Verif.Props.Merge
import Verif.Props.Pipeline
import Mathlib.Data.List.GetD

/-!
# Exactly when (C81 - C84): reservoirs, merged streams, preprocessing
-/

set_option linter.unusedSectionVars false

namespace Zounds.Reservoir
open Zounds

/-! ## C81 -/

/-- All lists of `c` numbers below `N`: the equally likely draws for a chunk of `c` rows. -/
def vectors (N : Nat) : Nat → List (List Nat)
  | 0 => [[]]
  | c + 1 => (List.range N).flatMap fun (d : Nat) => (vectors N c).map (d :: ·)

theorem vectors_length (N c : Nat) : (vectors N c).length = N ^ c := by
  induction c with
  | zero => rfl
  | succ c ih =>
    simp only [vectors, List.length_flatMap, List.length_map, ih]
    rw [List.map_const']
    simp [pow_succ, Nat.mul_comm]

theorem vectors_mem (N : Nat) : ∀ (c : Nat) (ds : List Nat), ds ∈ vectors N c ↔ ds.length = c ∧ ∀ d ∈ ds, d < N
  | 0, ds => by
    simp only [vectors, List.mem_singleton]
    constructor
    · rintro rfl; simp
    · rintro ⟨h, _⟩; exact List.length_eq_zero_iff.1 h
  | c + 1, ds => by
    simp only [vectors, List.mem_flatMap, List.mem_range, List.mem_map]
    constructor
    · rintro ⟨d, hd, t, ht, rfl⟩
      obtain ⟨h1, h2⟩ := (vectors_mem N c t).1 ht
      refine ⟨by simp [h1], ?_⟩
      intro x hx
      rcases List.mem_cons.1 hx with rfl | hx
      · exact hd
      · exact h2 x hx
    · rintro ⟨h1, h2⟩
      cases ds with
      | nil => simp at h1
      | cons d t =>
        exact ⟨d, h2 d (by simp), t, (vectors_mem N c t).2 ⟨by simpa using h1, fun x hx => h2 x (by simp [hx])⟩, rfl⟩

/-- How many of them have all numbers below `n`. -/
theorem vectors_count (N n : Nat) (h : n ≤ N) : ∀ c, (vectors N c).countP (fun ds => ds.all fun d => decide (d < n)) = n ^ c
  | 0 => rfl
  | c + 1 => by
    have ih := vectors_count N n h c
    have key : ∀ m : Nat, ((List.range m).flatMap fun (d : Nat) => (vectors N c).map (d :: ·)).countP (fun ds => ds.all fun d => decide (d < n)) =
        min m n * n ^ c := by
      intro m
      induction m with
      | zero => simp
      | succ m ihm =>
        rw [List.range_succ, List.flatMap_append, List.countP_append, ihm]
        simp only [List.flatMap_cons, List.flatMap_nil, List.append_nil, List.countP_map]
        by_cases hm : m < n
        · have : ((fun ds : List Nat => ds.all fun d => decide (d < n)) ∘ fun ds => m :: ds) = fun ds => ds.all fun d => decide (d < n) := by
            funext ds; simp [hm]
          rw [this, ih, min_eq_left (by omega : m ≤ n), min_eq_left (by omega : m + 1 ≤ n)]
          ring
        · have : ((fun ds : List Nat => ds.all fun d => decide (d < n)) ∘ fun ds => m :: ds) = fun _ => false := by
            funext ds; simp [hm]
          rw [this, min_eq_right (by omega : n ≤ m), min_eq_right (by omega : n ≤ m + 1)]
          simp
    simp only [vectors]
    rw [key N, min_eq_right h, pow_succ, Nat.mul_comm]

theorem mem_assign {α : Type} (x : α) : ∀ (is : List Nat) (arr xs : List α), x ∈ assign arr is xs → x ∈ arr ∨ x ∈ xs
  | [], arr, xs, h => by cases xs <;> exact Or.inl h
  | i :: is, arr, [], h => Or.inl h
  | i :: is, arr, y :: xs, h => by
    rw [assign] at h
    rcases mem_assign x is _ xs h with h | h
    · rcases List.mem_or_eq_of_mem_set h with h | h
      · exact Or.inl h
      · exact Or.inr (by simp [h])
    · exact Or.inr (by simp [h])

theorem assign_concat {α : Type} : ∀ (is : List Nat) (arr xs : List α) (i : Nat) (x : α), is.length = xs.length →
    assign arr (is ++ [i]) (xs ++ [x]) = (assign arr is xs).set i x
  | [], arr, xs, i, x, h => by
    cases xs with
    | nil => rfl
    | cons y ys => simp at h
  | j :: is, arr, [], i, x, h => by simp at h
  | j :: is, arr, y :: xs, i, x, h => by
    simp only [List.cons_append, assign]
    exact assign_concat is _ xs i x (by simpa using h)

/-- A new last row of a chunk is held if and only if every draw for the chunk is accepted. -/
theorem last_row_held {α : Type} (n : Nat) (s : Sampler α) (hr : s.r.length = n) (hfull : n ≤ s.index) (front : List α) (x : α)
    (hx : x ∉ s.r) (hx' : x ∉ front) (draw : Nat → Nat) :
    x ∈ (enqueue n s (front ++ [x]) draw).r ↔ ∀ k < front.length + 1, draw k < n := by
  have h0 : ¬ s.index < n := by omega
  have he : (enqueue n s (front ++ [x]) draw).r =
      assign s.r (((List.range (front.length + 1)).map draw).filter fun i => decide (i < n))
        ((front ++ [x]).take (((List.range (front.length + 1)).map draw).filter fun i => decide (i < n)).length) := by
    unfold enqueue fill replace
    simp only [h0, if_false, List.length_append, List.length_singleton]
    rfl
  rw [he]
  have hlen : (((List.range (front.length + 1)).map draw).filter fun i => decide (i < n)).length ≤ front.length + 1 := by
    refine (List.length_filter_le _ _).trans ?_
    simp
  constructor
  · intro hm
    by_contra hn
    have hlt : (((List.range (front.length + 1)).map draw).filter fun i => decide (i < n)).length ≤ front.length := by
      by_contra hc
      apply hn
      have : (((List.range (front.length + 1)).map draw).filter fun i => decide (i < n)).length = ((List.range (front.length + 1)).map draw).length := by
        simp only [List.length_map, List.length_range]; omega
      rw [List.length_filter_eq_length_iff] at this
      intro k hk
      have := this (draw k) (List.mem_map.2 ⟨k, List.mem_range.2 hk, rfl⟩)
      simpa using this
    rw [List.take_append_of_le_length hlt] at hm
    rcases mem_assign x _ _ _ hm with h | h
    · exact hx h
    · exact hx' (List.mem_of_mem_take h)
  · intro hall
    have hf : ((List.range (front.length + 1)).map draw).filter (fun i => decide (i < n)) = (List.range (front.length + 1)).map draw := by
      rw [List.filter_eq_self]
      intro i hi
      obtain ⟨k, hk, rfl⟩ := List.mem_map.1 hi
      simpa using hall k (List.mem_range.1 hk)
    rw [hf]
    simp only [List.length_map, List.length_range]
    rw [List.take_of_length_le (by simp), List.range_succ, List.map_append, List.map_singleton, assign_concat _ _ _ _ _ (by simp)]
    have hl : draw front.length < (assign s.r ((List.range front.length).map draw) front).length := by
      rw [assign_length, hr]; exact hall _ (by omega)
    exact List.mem_iff_getElem.2 ⟨draw front.length, by simpa using hl, by simp⟩

theorem pow_gap (I : Nat) : ∀ c : Nat, I ^ (c + 1) * (I + (c + 2)) < (I + 1) ^ (c + 2)
  | 0 => by ring_nf; omega
  | c + 1 => by
    have ih := pow_gap I c
    have h1 : (I + 1) ^ (c + 3) = (I + 1) ^ (c + 2) * (I + 1) := pow_succ _ _
    have h2 : I ^ (c + 2) = I ^ (c + 1) * I := pow_succ _ _
    have h3 : (I ^ (c + 1) * (I + (c + 2)) + 1) * (I + 1) ≤ (I + 1) ^ (c + 2) * (I + 1) := Nat.mul_le_mul_right _ ih
    rw [show c + 1 + 1 = c + 2 from rfl, show c + 1 + 2 = c + 3 from rfl, h1, h2]
    refine lt_of_lt_of_le ?_ h3
    have : I ^ (c + 1) * I * (I + (c + 3)) = I ^ (c + 1) * (I * I + (c + 3) * I) := by ring
    have : (I ^ (c + 1) * (I + (c + 2)) + 1) * (I + 1) = I ^ (c + 1) * (I * I + (c + 3) * I + (c + 2)) + I + 1 := by ring
    rw [this, ‹I ^ (c + 1) * I * (I + (c + 3)) = _›]
    have : I ^ (c + 1) * (I * I + (c + 3) * I) ≤ I ^ (c + 1) * (I * I + (c + 3) * I + (c + 2)) := Nat.mul_le_mul_left _ (by omega)
    omega

/-- **C81** (exactly when): a full sampler of `n` rows gets a chunk of `c` rows.  Of the `(index + 1) ^ c` equally likely draws `n ^ c` keep the last
row, if it is new; that is its fair share `n / (index + c)` if and only if it is the only row of the chunk. -/
theorem C81_exact {α : Type} [DecidableEq α] (n : Nat) (hn : 0 < n) (s : Sampler α) (hr : s.r.length = n) (hfull : n ≤ s.index) (front : List α) (x : α)
    (hx : x ∉ s.r) (hx' : x ∉ front) :
    (vectors (s.index + 1) (front.length + 1)).countP (fun ds => decide (x ∈ (enqueue n s (front ++ [x]) fun k => ds.getD k 0).r)) = n ^ (front.length + 1) ∧
    ((vectors (s.index + 1) (front.length + 1)).countP (fun ds => decide (x ∈ (enqueue n s (front ++ [x]) fun k => ds.getD k 0).r)) * (s.index + (front.length + 1)) =
      n * (vectors (s.index + 1) (front.length + 1)).length ↔ front = []) := by
  have h1 : (vectors (s.index + 1) (front.length + 1)).countP (fun ds => decide (x ∈ (enqueue n s (front ++ [x]) fun k => ds.getD k 0).r)) =
      n ^ (front.length + 1) := by
    rw [← vectors_count (s.index + 1) n (by omega) (front.length + 1)]
    apply List.countP_congr
    intro ds hds
    obtain ⟨hl, _⟩ := (vectors_mem _ _ _).1 hds
    rw [decide_eq_true_eq, last_row_held n s hr hfull front x hx hx', List.all_eq_true]
    constructor
    · intro h d hd
      obtain ⟨k, hk, rfl⟩ := List.getElem_of_mem hd
      have := h k (by omega)
      rw [List.getD_eq_getElem ds 0 hk] at this
      simpa using this
    · intro h k hk
      rw [List.getD_eq_getElem ds 0 (by omega)]
      simpa using h _ (List.getElem_mem (by omega : k < ds.length))
  refine ⟨h1, ?_⟩
  rw [h1, vectors_length]
  constructor
  · intro h
    by_contra hne
    obtain ⟨y, ys, rfl⟩ := List.exists_cons_of_ne_nil hne
    simp only [List.length_cons] at h
    rw [pow_succ, Nat.mul_comm (n ^ (ys.length + 1)) n, Nat.mul_assoc] at h
    have h2 := Nat.eq_of_mul_eq_mul_left hn h
    have h3 := pow_gap s.index ys.length
    have h4 : n ^ (ys.length + 1) * (s.index + (ys.length + 2)) ≤ s.index ^ (ys.length + 1) * (s.index + (ys.length + 2)) :=
      Nat.mul_le_mul_right _ (Nat.pow_le_pow_left hfull _)
    rw [show ys.length + 1 + 1 = ys.length + 2 from rfl] at h2
    omega
  · rintro rfl
    simp

example := C81_exact 1 (by decide) (⟨[0], 1⟩ : Sampler Nat) rfl (by decide) [5] 7 (by decide) (by decide)

/-! ## C82 -/

/-- What an add writes into row `k`: the last of its samples for that row. -/
def lastAt {α : Type} (is : List Nat) (xs : List α) (k : Nat) : Option α := ((is.zip xs).reverse.find? fun p => p.1 == k).map Prod.snd

theorem lastAt_cons {α : Type} (i : Nat) (is : List Nat) (x : α) (xs : List α) (k : Nat) :
    lastAt (i :: is) (x :: xs) k = (lastAt is xs k).orElse fun _ => if i = k then some x else none := by
  unfold lastAt
  rw [List.zip_cons_cons, List.reverse_cons, List.find?_append]
  cases (is.zip xs).reverse.find? fun p => p.1 == k with
  | some p => rfl
  | none =>
    by_cases h : i = k <;> simp [h]

theorem assign_get {α : Type} : ∀ (is : List Nat) (arr xs : List α) (k : Nat), k < arr.length →
    (assign arr is xs)[k]? = (lastAt is xs k).orElse fun _ => arr[k]?
  | [], arr, xs, k, _ => by cases xs <;> simp [assign, lastAt]
  | i :: is, arr, [], k, _ => by simp [assign, lastAt]
  | i :: is, arr, x :: xs, k, hk => by
    rw [assign, assign_get is _ xs k (by simpa using hk), lastAt_cons]
    cases lastAt is xs k with
    | some y => rfl
    | none =>
      by_cases h : i = k
      · subst h; simp [hk]
      · simp [h]

/-- **C82** (exactly when): two adds that both succeed leave a reservoir with the same rows whichever of them comes first if and only if they write the
same sample into every row both of them write.  So two adds interleaved between the keys of a multiplexed reservoir cannot be told from one after the
other if they write no common row. -/
theorem C82_order {α : Type} (z : α) (r : Res α) (arr : List α) (ha : r.arr = some arr) (hl : arr.length = r.nsamples) (xs ys : List α) (is js : List Nat)
    (hi : ∀ i ∈ is, i < r.nsamples) (hj : ∀ j ∈ js, j < r.nsamples) (h1 : is.length = xs.length) (h2 : js.length = ys.length) :
    (((r.add z xs (is.map Int.ofNat)).1.add z ys (js.map Int.ofNat)).1.arr = ((r.add z ys (js.map Int.ofNat)).1.add z xs (is.map Int.ofNat)).1.arr ↔
      ∀ k x y, lastAt is xs k = some x → lastAt js ys k = some y → x = y) := by
  have hnorm : ∀ (n : Nat) (l : List Nat), (∀ i ∈ l, i < n) → normAll n (l.map Int.ofNat) = some l := by
    intro n l
    induction l with
    | nil => intro _; rfl
    | cons i l ih =>
      intro h
      have : normIndex n (Int.ofNat i) = some i := by
        unfold normIndex
        have := h i (by simp)
        rw [if_pos (by constructor <;> simp <;> omega)]
        simp
      rw [List.map_cons, normAll, this, ih fun i hi => h i (by simp [hi])]
  have hadd : ∀ (r : Res α) (arr : List α) (xs : List α) (is : List Nat), r.arr = some arr → (∀ i ∈ is, i < r.nsamples) → is.length = xs.length →
      (r.add z xs (is.map Int.ofNat)).1.arr = some (assign arr is xs) ∧ (r.add z xs (is.map Int.ofNat)).1.nsamples = r.nsamples := by
    intro r arr xs is ha hi h
    unfold Res.add
    rw [ha, Option.getD_some]
    simp only [List.length_map, h, ne_eq, not_true, if_false]
    rw [hnorm _ _ hi]
    exact ⟨rfl, rfl⟩
  obtain ⟨a1, a2⟩ := hadd r arr xs is ha hi h1
  obtain ⟨b1, b2⟩ := hadd r arr ys js ha hj h2
  obtain ⟨c1, _⟩ := hadd _ _ ys js a1 (by rw [a2]; exact hj) h2
  obtain ⟨d1, _⟩ := hadd _ _ xs is b1 (by rw [b2]; exact hi) h1
  rw [c1, d1, Option.some.injEq]
  have hget1 : ∀ k, k < arr.length → (assign (assign arr is xs) js ys)[k]? = (lastAt js ys k).orElse fun _ => (lastAt is xs k).orElse fun _ => arr[k]? := by
    intro k hk
    rw [assign_get _ _ _ _ (by rw [assign_length]; exact hk), assign_get _ _ _ _ hk]
  have hget2 : ∀ k, k < arr.length → (assign (assign arr js ys) is xs)[k]? = (lastAt is xs k).orElse fun _ => (lastAt js ys k).orElse fun _ => arr[k]? := by
    intro k hk
    rw [assign_get _ _ _ _ (by rw [assign_length]; exact hk), assign_get _ _ _ _ hk]
  have hbound : ∀ k x, lastAt is xs k = some x → k < arr.length := by
    intro k x h
    unfold lastAt at h
    cases hf : (is.zip xs).reverse.find? fun p => p.1 == k with
    | none => rw [hf] at h; cases h
    | some p =>
      have e := List.find?_some hf
      have hm := List.mem_of_find?_eq_some hf
      rw [List.mem_reverse] at hm
      obtain ⟨p1, p2⟩ := p
      have : p1 ∈ is := (List.of_mem_zip hm).1
      have hp : p1 = k := by simpa using e
      rw [hl, ← hp]
      exact hi _ this
  constructor
  · intro h k x y hx hy
    have hk := hbound k x hx
    have := hget1 k hk
    rw [h, hget2 k hk, hx, hy] at this
    simpa using this
  · intro h
    apply List.ext_getElem?
    intro k
    by_cases hk : k < arr.length
    · rw [hget1 k hk, hget2 k hk]
      cases hx : lastAt is xs k with
      | none => cases lastAt js ys k <;> rfl
      | some x =>
        cases hy : lastAt js ys k with
        | none => rfl
        | some y => rw [h k x y hx hy]
    · rw [List.getElem?_eq_none (by rw [assign_length, assign_length]; omega), List.getElem?_eq_none (by rw [assign_length, assign_length]; omega)]

example := C82_order 0 (⟨3, some [7, 8, 9], [0]⟩ : Res Nat) [7, 8, 9] rfl rfl [1, 2] [3] [0, 1] [1] (by decide) (by decide) rfl rfl

/-- **C82** (what a refused add leaves behind): the keys before the one with the wrong number of rows have been written, those after it have not. -/
theorem C82_refused {κ α : Type} [DecidableEq κ] (z : α) (indices : List Int) (n : Nat) (ks : List Nat) (hks : normAll n indices = some ks)
    (pre post : List (κ × List α)) (bad : κ × List α) (hpre : ∀ p ∈ pre, p.2.length = indices.length) (hbad : bad.2.length ≠ indices.length)
    (rs : List (κ × Res α)) (hn : ∀ e ∈ rs, e.2.nsamples = n) (hin : ∀ p ∈ pre ++ [bad], p.1 ∈ rs.map (·.1)) (hnd : (pre ++ bad :: post).map (·.1) |>.Nodup) :
    (muxAddAll z indices (pre ++ bad :: post) rs).2 = .error .valueError ∧
    ∀ (k : κ) (r : Res α), rs.find? (fun e => decide (e.1 = k)) = some (k, r) →
      (∀ v, (k, v) ∈ pre → (muxAddAll z indices (pre ++ bad :: post) rs).1.find? (fun e => decide (e.1 = k)) = some (k, (r.add z v indices).1)) ∧
      (k ∈ post.map (·.1) → (muxAddAll z indices (pre ++ bad :: post) rs).1.find? (fun e => decide (e.1 = k)) = some (k, r)) := by
  have hone : ∀ (k : κ) (v : List α) (rs : List (κ × Res α)), k ∈ rs.map (·.1) → ∃ r, rs.find? (fun e => decide (e.1 = k)) = some (k, r) ∧
      (muxAddOne z k v indices rs).2 = (r.add z v indices).2 ∧
      (muxAddOne z k v indices rs).1.map (·.1) = rs.map (·.1) ∧
      (muxAddOne z k v indices rs).1.find? (fun e => decide (e.1 = k)) = some (k, (r.add z v indices).1) ∧
      ∀ k', k' ≠ k → (muxAddOne z k v indices rs).1.find? (fun e => decide (e.1 = k')) = rs.find? (fun e => decide (e.1 = k')) := by
    intro k v rs
    induction rs with
    | nil => intro h; simp at h
    | cons e rs ih =>
      obtain ⟨k0, r0⟩ := e
      intro h
      by_cases hk : k = k0
      · subst hk
        refine ⟨r0, by simp, by simp [muxAddOne], by simp [muxAddOne], by simp [muxAddOne], ?_⟩
        intro k' hk'
        have : ¬ k = k' := fun e => hk' e.symm
        simp [muxAddOne, this]
      · have hk0 : ¬ k0 = k := fun e => hk e.symm
        obtain ⟨r, e1, e2, e3, e4, e5⟩ := ih (by simpa [hk] using h)
        refine ⟨r, by simp [hk0, e1], by simp [muxAddOne, hk, e2], by simp [muxAddOne, hk, e3], by simp [muxAddOne, hk, hk0, e4], ?_⟩
        intro k' hk'
        by_cases h' : k0 = k'
        · subst h'; simp [muxAddOne, hk]
        · simp [muxAddOne, hk, h', e5 k' hk']
  have hns : ∀ (k : κ) (v : List α) (rs : List (κ × Res α)), (∀ e ∈ rs, e.2.nsamples = n) → ∀ e ∈ (muxAddOne z k v indices rs).1, e.2.nsamples = n := by
    intro k v rs
    induction rs with
    | nil => intro _ e he; simp [muxAddOne] at he
    | cons e rs ih =>
      obtain ⟨k0, r0⟩ := e
      intro h
      have hadd : (r0.add z v indices).1.nsamples = r0.nsamples := by
        unfold Res.add
        simp only
        split
        · rfl
        · split <;> rfl
      by_cases hk : k = k0
      · intro e he
        simp only [muxAddOne, hk, if_true] at he
        rcases List.mem_cons.1 he with rfl | he
        · exact hadd.trans (h (k0, r0) (by simp))
        · exact h e (by simp [he])
      · intro e he
        simp only [muxAddOne, hk, if_false] at he
        rcases List.mem_cons.1 he with rfl | he
        · exact h (k0, r0) (by simp)
        · exact ih (fun e he => h e (by simp [he])) e he
  induction pre generalizing rs with
  | nil =>
    obtain ⟨r0, e1, e2, e3, e4, e5⟩ := hone bad.1 bad.2 rs (hin bad (by simp))
    have hv : (r0.add z bad.2 indices).2 = .error .valueError := by
      unfold Res.add
      simp only
      rw [if_pos (fun e => hbad e.symm)]
    have hrun : muxAddAll z indices ([] ++ bad :: post) rs = ((muxAddOne z bad.1 bad.2 indices rs).1, .error .valueError) := by
      rw [hv] at e2
      obtain ⟨b1, b2⟩ := bad
      rw [List.nil_append, muxAddAll]
      cases hm : muxAddOne z b1 b2 indices rs with
      | mk x y => rw [hm] at e2; simp only at e2; rw [e2]
    rw [hrun]
    refine ⟨rfl, ?_⟩
    intro k r hk
    refine ⟨fun v hv => by simp at hv, ?_⟩
    intro hp
    have : k ≠ bad.1 := by
      rintro rfl
      simp only [List.nil_append, List.map_cons, List.nodup_cons] at hnd
      exact hnd.1 hp
    rw [e5 k this]
    exact hk
  | cons p pre ih =>
    obtain ⟨k0, v0⟩ := p
    obtain ⟨r0, e1, e2, e3, e4, e5⟩ := hone k0 v0 rs (hin (k0, v0) (by simp))
    have hmem : (k0, r0) ∈ rs := List.mem_of_find?_eq_some e1
    have hv : (r0.add z v0 indices).2 = .ok () := by
      unfold Res.add
      simp only
      rw [if_neg (by rw [hpre (k0, v0) (by simp)]; simp), hn _ hmem, hks]
    have hrun : muxAddAll z indices ((k0, v0) :: pre ++ bad :: post) rs = muxAddAll z indices (pre ++ bad :: post) (muxAddOne z k0 v0 indices rs).1 := by
      rw [hv] at e2
      rw [List.cons_append, muxAddAll]
      cases hm : muxAddOne z k0 v0 indices rs with
      | mk x y => rw [hm] at e2; simp only at e2; rw [e2]
    rw [hrun]
    have hnd' : ((pre ++ bad :: post).map (·.1)).Nodup := by
      simp only [List.cons_append, List.map_cons, List.nodup_cons] at hnd
      exact hnd.2
    have hk0 : k0 ∉ (pre ++ bad :: post).map (·.1) := by
      simp only [List.cons_append, List.map_cons, List.nodup_cons] at hnd
      exact hnd.1
    have hstay : ∀ q : κ × List α, q ∈ pre ++ bad :: post → q.1 ≠ k0 := by
      rintro q hq rfl
      exact hk0 (List.mem_map.2 ⟨q, hq, rfl⟩)
    obtain ⟨i1, i2⟩ := ih (fun p hp => hpre p (by simp [hp])) (muxAddOne z k0 v0 indices rs).1 (hns k0 v0 rs hn)
      (by intro p hp; rw [e3]; exact hin p (by rw [List.cons_append]; exact List.mem_cons_of_mem _ hp)) hnd'
    refine ⟨i1, ?_⟩
    intro k r hk
    by_cases hkk : k = k0
    · subst hkk
      rw [hk] at e1
      cases e1
      -- the key just written is not touched again
      have hkeep : ∀ (l : List (κ × List α)) (rs : List (κ × Res α)), (∀ q ∈ l, q.1 ≠ k) →
          (muxAddAll z indices l rs).1.find? (fun e => decide (e.1 = k)) = rs.find? (fun e => decide (e.1 = k)) := by
        intro l
        induction l with
        | nil => intro rs _; rfl
        | cons q l ihl =>
          intro rs hq
          obtain ⟨q1, q2⟩ := q
          have hne : k ≠ q1 := fun e => hq (q1, q2) (by simp) e.symm
          have hthis : (muxAddOne z q1 q2 indices rs).1.find? (fun e => decide (e.1 = k)) = rs.find? (fun e => decide (e.1 = k)) := by
            by_cases hmem : q1 ∈ rs.map (·.1)
            · obtain ⟨_, _, _, _, _, e5'⟩ := hone q1 q2 rs hmem
              exact e5' k hne
            · have hskip : ∀ rs : List (κ × Res α), q1 ∉ rs.map (·.1) → (muxAddOne z q1 q2 indices rs).1 = rs := by
                intro rs
                induction rs with
                | nil => intro _; rfl
                | cons e rs ihr =>
                  obtain ⟨a, b⟩ := e
                  intro h
                  simp only [List.map_cons, List.mem_cons, not_or] at h
                  simp only [muxAddOne, h.1, if_false]
                  rw [ihr h.2]
              rw [hskip rs hmem]
          rw [muxAddAll]
          cases hm : muxAddOne z q1 q2 indices rs with
          | mk x y =>
            rw [hm] at hthis
            cases y with
            | ok u => simp only; rw [ihl x (fun q hq' => hq q (by simp [hq']))]; exact hthis
            | error e => exact hthis
      have hfin := hkeep (pre ++ bad :: post) (muxAddOne z k v0 indices rs).1 hstay
      rw [hfin, e4]
      constructor
      · intro v hv
        rcases List.mem_cons.1 hv with hv | hv
        · cases hv; rfl
        · exact absurd rfl (hstay (k, v) (by simp [hv]))
      · intro hp
        exact absurd (by simp only [List.map_append, List.map_cons]; simp only [List.mem_append, List.mem_cons]; exact Or.inr (Or.inr hp)) hk0
    · obtain ⟨j1, j2⟩ := i2 k r (by rw [e5 k hkk]; exact hk)
      refine ⟨?_, j2⟩
      intro v hv
      rcases List.mem_cons.1 hv with hv | hv
      · cases hv; exact absurd rfl hkk
      · exact j1 v hv

example := C82_refused 0 [0, 2] 3 [0, 2] (by decide) [("a", [1, 2])] [("c", [5, 6])] ("b", [3]) (by simp) (by simp)
  [("a", (⟨3, some [7, 8, 9], [0]⟩ : Res Nat)), ("b", ⟨3, none, []⟩), ("c", ⟨3, none, []⟩)] (by simp) (by simp) (by decide)

end Zounds.Reservoir

namespace Zounds.Reservoir

/-- One row held, index 1, a chunk of two rows: of the four draws one keeps the last row; its fair share would be a third. -/
example : (vectors 2 2).countP (fun ds => decide (7 ∈ (enqueue 1 ⟨[0], 1⟩ [5, 7] fun k => ds.getD k 0).r)) = 1 := by decide

/-- Adds to rows 0 and 1 commute, adds of different samples to row 1 do not. -/
example : lastAt [0] ["a"] 0 = some "a" ∧ lastAt [1] ["b"] 0 = none ∧ lastAt [1, 1] ["b", "c"] 1 = some "c" := by decide

end Zounds.Reservoir

namespace Zounds.Merge
open Zounds

theorem push_eq {β : Type} (v data : List (List β)) : push (some v) data = v ++ data ↔ v = [] ∨ 0 < size v := by
  unfold push
  simp only
  by_cases h : size v = 0
  · rw [if_pos h]
    constructor
    · intro e
      left
      have := congrArg List.length e
      rw [List.length_append] at this
      exact List.length_eq_zero_iff.1 (by omega)
    · rintro (rfl | h')
      · rfl
      · omega
  · rw [if_neg h]
    exact ⟨fun _ => Or.inr (by omega), fun _ => rfl⟩

/-- **C83** (exactly when): one source sends two chunks, then the other one at least as many rows.  All rows of the first source are emitted if and
only if the first chunk is empty or has a row with a column; otherwise exactly those of the second chunk are. -/
theorem C83_exact {β : Type} (c : Cache β) (hc : new β 2 = .ok c) (v data rows : List (List β)) (hd : data ≠ []) (hr : v.length + data.length ≤ rows.length) :
    ∃ outs, run c [(0, v), (0, data), (1, rows)] = .ok outs ∧
      (outs.flatten = List.zipWith (· ++ ·) (v ++ data) rows ↔ v = [] ∨ 0 < size v) ∧
      (v ≠ [] → size v = 0 → outs.flatten = List.zipWith (· ++ ·) data rows) := by
  have hc' : c = [none, none] := by
    unfold new at hc
    simp at hc
    exact hc.symm
  subst hc'
  have hdl : 0 < data.length := List.length_pos_iff.2 hd
  have hpush : ∃ w, push (some v) data = w ∧ 0 < w.length ∧ w.length ≤ rows.length ∧ ((w = v ++ data ↔ v = [] ∨ 0 < size v)) ∧ (size v = 0 → w = data) := by
    refine ⟨_, rfl, ?_, ?_, push_eq v data, ?_⟩
    · unfold push; simp only; split
      · exact hdl
      · rw [List.length_append]; omega
    · unfold push; simp only; split
      · omega
      · rw [List.length_append]; omega
    · intro h; unfold push; simp only; rw [if_pos h]
  obtain ⟨w, hw, hw0, hwl, hwe, hwd⟩ := hpush
  have hrun : run [none, none] [(0, v), (0, data), (1, rows)] = .ok [List.zipWith (· ++ ·) w rows] := by
    have s1 : enqueue ([none, none] : Cache β) 0 v = .ok [some v, none] := rfl
    have d1 : dequeue ([some v, none] : Cache β) = .error .notEnoughData := by
      simp [dequeue, starved]
    have s2 : enqueue ([some v, none] : Cache β) 0 data = .ok [some w, none] := by
      simp [enqueue, hw]
    have d2 : dequeue ([some w, none] : Cache β) = .error .notEnoughData := by
      simp [dequeue, starved]
    have s3 : enqueue ([some w, none] : Cache β) 1 rows = .ok [some w, some rows] := rfl
    have hne : ¬ (w = [] ∨ rows = []) := by
      rintro (rfl | rfl)
      · simp at hw0
      · simp at hwl; subst hwl; simp at hw0
    have d3 : dequeue ([some w, some rows] : Cache β) = .ok ([w, rows.take w.length], [some [], some (rows.drop w.length)]) := by
      have hst : starved ([some w, some rows] : Cache β) = false := by
        rw [Bool.eq_false_iff]
        intro h
        simp [starved] at h
        exact hne h
      have hsh : shortest ([some w, some rows] : Cache β) = w.length := by
        simp [shortest]; omega
      unfold dequeue
      rw [hst, hsh]
      simp
    unfold run
    rw [s1]; simp only [d1]
    unfold run
    rw [s2]; simp only [d2]
    unfold run
    rw [s3]; simp only [d3, run, hconcat]
    congr 2
    rw [List.zipWith_eq_zipWith_take_min]
    conv_rhs => rw [List.zipWith_eq_zipWith_take_min]
    rw [List.length_take, min_eq_left (show w.length ≤ rows.length from hwl), min_self, List.take_take, min_self]
  refine ⟨_, hrun, ?_, ?_⟩
  · rw [← hwe]
    simp only [List.flatten_cons, List.flatten_nil, List.append_nil]
    constructor
    · intro h
      have hl := congrArg List.length h
      simp only [List.length_zipWith, List.length_append] at hl
      by_cases hs : v = [] ∨ 0 < size v
      · exact hwe.2 hs
      · rw [not_or] at hs
        have : w = data := hwd (by omega)
        subst this
        have : 0 < v.length := List.length_pos_iff.2 hs.1
        omega
    · intro h; rw [h]
  · intro _ h
    rw [hwd h]
    simp

/-- **C83**: streams whose rows have columns lose nothing (C28_merge); `Sum` fails on every input. -/
theorem C83_sum {α : Type} (data : List (List α)) : sumProcess data = .error .typeError := C28_sum_always_fails data

example : ∃ outs, run ([none, none] : Cache Nat) [(0, [[], []]), (0, [[]]), (1, [[7], [8], [9]])] = .ok outs ∧ outs.flatten = [[7]] := by
  obtain ⟨outs, h1, _, h3⟩ := C83_exact (β := Nat) [none, none] rfl [[], []] [[]] [[7], [8], [9]] (by simp) (by simp)
  exact ⟨outs, h1, by rw [h3 (by simp) rfl]; rfl⟩

end Zounds.Merge

namespace Zounds.Pipeline
open Zounds

theorem meanStd_row_iff (junk : Nat → ℝ) : ∀ (xs ms ss : List ℝ) (k : Nat), xs.length = ms.length → xs.length = ss.length →
    (meanStdInvRow (meanStdRow junk k xs ms ss) ms ss = xs ↔ ∀ j, ss.getD j 0 = 0 → xs.getD j 0 = ms.getD j 0) := by
  intro xs
  induction xs with
  | nil =>
    intro ms ss k h1 h2
    rw [List.length_nil] at h1 h2
    have e1 := List.length_eq_zero_iff.1 h1.symm
    have e2 := List.length_eq_zero_iff.1 h2.symm
    subst e1 e2
    simp [meanStdRow, meanStdInvRow]
  | cons x xs ih =>
    intro ms ss k h1 h2
    cases ms with
    | nil => simp at h1
    | cons m ms =>
      cases ss with
      | nil => simp at h2
      | cons s ss =>
        simp only [meanStdRow, meanStdInvRow, List.cons.injEq]
        rw [ih ms ss (k + 1) (by simpa using h1) (by simpa using h2)]
        have hhead : ((if s ≠ 0 then (x - m) / s else junk k) * s + m = x) ↔ (s = 0 → x = m) := by
          by_cases hs : s = 0
          · simp [hs, eq_comm]
          · simp only [ne_eq, hs, not_false_eq_true, if_true, false_implies, iff_true]
            field_simp
            ring
        rw [hhead]
        constructor
        · rintro ⟨a, b⟩ j
          cases j with
          | zero => simpa using a
          | succ j => simpa using b j
        · intro h
          exact ⟨by simpa using h 0, fun j => by simpa using h (j + 1)⟩

/-- **C84** (exactly when): normalisation by mean and deviation is undone if and only if every value of a feature whose deviation is zero is the mean
of that feature; unit norm is undone if and only if examples have an axis; scaling to a maximum that is not zero is always undone. -/
theorem C84_exact (junk : Nat → Nat → ℝ) (d : Batch) (hw : WF d) :
    (∀ mean std : List ℝ, mean.length = size d.fshape → std.length = size d.fshape →
      ((∃ out inv, ((Step.meanStd mean std).proc junk).step d = .ok (out, inv) ∧ ((Step.meanStd mean std).proc junk).inverse out inv = .ok d) ↔
        ∀ r ∈ d.rows, ∀ j, std.getD j 0 = 0 → r.getD j 0 = mean.getD j 0)) ∧
    ((∃ out inv, (Step.unitNorm.proc junk).step d = .ok (out, inv) ∧ (Step.unitNorm.proc junk).inverse out inv = .ok d) ↔ d.fshape ≠ []) ∧
    (∀ mv, mv ≠ 0 → size d.fshape ≠ 0 →
      ∃ out inv, ((Step.instanceScaling mv).proc junk).step d = .ok (out, inv) ∧ ((Step.instanceScaling mv).proc junk).inverse out inv = .ok d) := by
  refine ⟨?_, ?_, ?_⟩
  · intro mean std h1 h2
    constructor
    · rintro ⟨out, inv, e1, e2⟩ r hr
      have hstep : ((Step.meanStd mean std).proc junk).step d =
          .ok (⟨d.fshape, d.rows.mapIdx (fun i r => meanStdRow (junk i) 0 r mean std)⟩, .meanStd mean std) := by
        unfold Proc.step Step.proc
        simp only [h1, h2, and_self, if_true]
      rw [hstep] at e1
      cases e1
      simp only [Step.proc, Except.ok.injEq] at e2
      have hrows := congrArg Batch.rows e2
      simp only at hrows
      obtain ⟨i, hi, rfl⟩ := List.getElem_of_mem hr
      have hg := congrArg (fun l : List (List ℝ) => l[i]?) hrows
      simp only [List.getElem?_map, List.getElem?_mapIdx, List.getElem?_eq_getElem hi, Option.map_some, Option.some.injEq] at hg
      have hl := hw _ (List.getElem_mem hi)
      exact (meanStd_row_iff (junk i) _ mean std 0 (by omega) (by omega)).1 hg
    · intro h
      exact C29_mean_std junk mean std d hw ⟨h1, h2, h⟩
  · constructor
    · rintro ⟨out, inv, e1, e2⟩ hf
      obtain ⟨out', inv', b, g1, g2, g3⟩ := C29_unit_norm_one_dimensional junk d hf
      rw [g1] at e1
      cases e1
      rw [g2] at e2
      cases e2
      rw [hf] at g3
      simp at g3
    · exact C29_unit_norm junk d
  · intro mv h1 h2
    exact C29_instance_scaling junk mv d ⟨h1, h2⟩

/-- Two examples of two features; the second feature never changes. -/
example (junk : Nat → Nat → ℝ) :
    (∃ out inv, ((Step.meanStd [1, 5] [2, 0]).proc junk).step ⟨[2], [[3, 5], [-1, 5]]⟩ = .ok (out, inv) ∧
      ((Step.meanStd [1, 5] [2, 0]).proc junk).inverse out inv = .ok ⟨[2], [[3, 5], [-1, 5]]⟩) ∧
    ¬ ∃ out inv, ((Step.meanStd [1, 5] [2, 0]).proc junk).step ⟨[2], [[3, 6]]⟩ = .ok (out, inv) ∧
      ((Step.meanStd [1, 5] [2, 0]).proc junk).inverse out inv = .ok ⟨[2], [[3, 6]]⟩ := by
  constructor
  · refine ((C84_exact junk ⟨[2], [[3, 5], [-1, 5]]⟩ (by intro r hr; simp at hr; rcases hr with rfl | rfl <;> rfl)).1 _ _ rfl rfl).2 ?_
    intro r hr j hj
    simp at hr
    rcases hr with rfl | rfl <;> rcases j with _ | _ | j <;> simp_all
  · intro h
    have := ((C84_exact junk ⟨[2], [[3, 6]]⟩ (by intro r hr; simp at hr; subst hr; rfl)).1 _ _ rfl rfl).1 h [3, 6] (by simp) 1 (by simp)
    norm_num at this

end Zounds.Pipeline
