import Verif.Lemmas.PopCount
/-!
# Property C13: counting bits, and the packed Hamming distance
-/

namespace Zounds.Props.PopCount
open Zounds Zounds.PopCount

/-- The number of positions at which the word `x` has a one bit. -/
def ones (x : BitVec 64) : Nat := ((List.range 64).filter fun i => x.getLsbD i).length

/-- The number of differing bit positions of two packed codes. -/
def differingBits : List (BitVec 64) → List (BitVec 64) → Nat
  | x :: xs, y :: ys => ((List.range 64).filter fun i => x.getLsbD i != y.getLsbD i).length + differingBits xs ys
  | _, _ => 0

/-- **C13.** For every 64-bit word, `count_bits` returns the number of one bits. -/
theorem C13_count_bits (x : BitVec 64) : (countBits x).toNat = ones x := by
  rw [countBits_toNat]
  unfold popN ones
  refine congrArg List.length (List.filter_congr ?_)
  intro i _
  simp [BitVec.getLsbD]

/-- **C13.** `count_bits` on an array does so for every element. -/
theorem C13_count_bits_array (xs : List (BitVec 64)) :
    (countBitsArr xs).map BitVec.toNat = xs.map ones := by
  unfold countBitsArr
  induction xs with
  | nil => rfl
  | cons x xs ih =>
    rw [List.map_cons, List.map_cons, List.map_cons, ih, C13_count_bits]

theorem foldl_sum (row : List (BitVec 64)) : ∀ z,
    row.foldl (fun z w => z + builtinPopcountl w) z = z + (row.map builtinPopcountl).sum := by
  induction row with
  | nil => intro z; simp
  | cons w ws ih => intro z; simp [ih, Nat.add_assoc]

/-- The distance of two codes as computed by the library. -/
def dist (a b : List (BitVec 64)) : Nat := countPackedRow (List.zipWith (· ^^^ ·) a b)

/-- **C13.** The packed distance to each row of an array is the number of differing
bits. -/
theorem C13_packed_distance (a : List (BitVec 64)) (rows : List (List (BitVec 64))) :
    packedDistance a rows = rows.map (differingBits a) := by
  unfold packedDistance
  apply List.map_congr_left
  intro b _
  unfold countPackedRow
  rw [foldl_sum, Nat.zero_add]
  clear * -
  induction a generalizing b with
  | nil => simp [differingBits]
  | cons x xs ih =>
    cases b with
    | nil => simp [differingBits]
    | cons y ys =>
      simp only [List.zipWith_cons_cons, List.map_cons, List.sum_cons, differingBits, ih]
      refine congrArg (· + _) ?_
      unfold builtinPopcountl
      refine congrArg List.length (List.filter_congr ?_)
      intro i _
      simp [BitVec.getLsbD_xor]

/-- The scalar distance agrees with the packed one on one-word codes. -/
theorem C13_hamming_distance (a : BitVec 64) (bs : List (BitVec 64)) :
    (hammingDistance a bs).map BitVec.toNat = bs.map fun b => differingBits [a] [b] := by
  unfold hammingDistance
  rw [C13_count_bits_array, List.map_map]
  apply List.map_congr_left
  intro b _
  simp only [Function.comp, ones, differingBits, Nat.add_zero]
  refine congrArg List.length (List.filter_congr ?_)
  intro i _
  simp [BitVec.getLsbD_xor]

/-- **C13.** The distance is symmetric. -/
theorem C13_symm (a b : List (BitVec 64)) : differingBits a b = differingBits b a := by
  induction a generalizing b with
  | nil => cases b <;> rfl
  | cons x xs ih =>
    cases b with
    | nil => rfl
    | cons y ys =>
      simp only [differingBits, ih ys]
      refine congrArg (fun l => List.length l + _) (List.filter_congr ?_)
      intro i _
      simp [bne, Bool.beq_comm]

theorem filter_length_zero {β : Type _} (p : β → Bool) (l : List β) :
    (l.filter p).length = 0 ↔ ∀ x ∈ l, p x = false := by
  rw [List.length_eq_zero_iff, List.filter_eq_nil_iff]
  simp

/-- **C13.** The distance of two codes of the same size is zero iff they are equal. -/
theorem C13_zero_iff_eq (a b : List (BitVec 64)) (h : a.length = b.length) :
    differingBits a b = 0 ↔ a = b := by
  induction a generalizing b with
  | nil =>
    cases b with
    | nil => simp [differingBits]
    | cons _ _ => simp at h
  | cons x xs ih =>
    cases b with
    | nil => simp at h
    | cons y ys =>
      simp only [differingBits, Nat.add_eq_zero_iff, filter_length_zero, List.mem_range,
        bne_eq_false_iff_eq, ih ys (by simpa using h), List.cons.injEq]
      constructor
      · rintro ⟨h1, h2⟩
        refine ⟨?_, h2⟩
        apply BitVec.eq_of_getLsbD_eq
        intro i hi
        exact h1 i hi
      · rintro ⟨rfl, h2⟩; exact ⟨fun _ _ => rfl, h2⟩

theorem filter_triangle {β : Type _} (p q r : β → Bool) (l : List β)
    (h : ∀ x, p x = true → q x = true ∨ r x = true) :
    (l.filter p).length ≤ (l.filter q).length + (l.filter r).length := by
  induction l with
  | nil => simp
  | cons x xs ih =>
    simp only [List.filter_cons]
    have := h x
    cases hp : p x <;> cases hq : q x <;> cases hr : r x <;> simp [hp, hq, hr] at this ⊢ <;> omega

/-- **C13.** The distance satisfies the triangle inequality. -/
theorem C13_triangle (a b c : List (BitVec 64)) (h1 : a.length = b.length)
    (h2 : b.length = c.length) :
    differingBits a c ≤ differingBits a b + differingBits b c := by
  induction a generalizing b c with
  | nil => simp [differingBits]
  | cons x xs ih =>
    cases b with
    | nil => simp at h1
    | cons y ys =>
      cases c with
      | nil => simp at h2
      | cons z zs =>
        simp only [differingBits]
        have := ih ys zs (by simpa using h1) (by simpa using h2)
        have := filter_triangle (fun i => x.getLsbD i != z.getLsbD i)
          (fun i => x.getLsbD i != y.getLsbD i) (fun i => y.getLsbD i != z.getLsbD i) (List.range 64)
          (by intro i; cases x.getLsbD i <;> cases y.getLsbD i <;> cases z.getLsbD i <;> simp)
        omega

example := C13_zero_iff_eq [1, 2] [3, 2] rfl
example := C13_triangle [1, 2] [3, 2] [7, 0] rfl rfl

/-- **C13.** The distance never exceeds the number of bits. -/
theorem C13_bound (a b : List (BitVec 64)) : differingBits a b ≤ 64 * a.length := by
  induction a generalizing b with
  | nil => simp [differingBits]
  | cons x xs ih =>
    cases b with
    | nil => simp [differingBits]
    | cons y ys =>
      simp only [differingBits, List.length_cons]
      have := ih ys
      have := List.length_filter_le (fun i => x.getLsbD i != y.getLsbD i) (List.range 64)
      simp at this
      omega

example : (countBits 0xFFFFFFFFFFFFFFFF#64).toNat = 64 := by decide
example : packedDistance [0b1011#64, 0#64] [[0b1000#64, 1#64], [0b1011#64, 0#64]] = [3, 0] := by decide

end Zounds.Props.PopCount
