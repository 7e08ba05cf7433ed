import Verif.Model.PackBits
import Verif.Props.ArrayOps
import Verif.Props.Codes
import Verif.Props.Frequency

/-!
# C313: packing the bits of arrays with units
-/

namespace Zounds.Arr
open Zounds

theorem eightBits_bit (n i : Nat) (bit : Nat → Bool) (j : Nat) (hj : j < 8) :
    (Codes.unpackByte (Codes.packByte (eightBits n i bit))).getD j false = if 8 * i + j < n then bit (8 * i + j) else false := by
  have key : eightBits n i bit = ((List.range (min 8 (n - 8 * i))).map fun j => bit (8 * i + j)) := by
    unfold eightBits
    have h : ∀ m, (List.range m).filterMap (fun j => if 8 * i + j < n then some (bit (8 * i + j)) else none) =
        (List.range (min m (n - 8 * i))).map fun j => bit (8 * i + j) := by
      intro m
      induction m with
      | zero => simp
      | succ m ih =>
        rw [List.range_succ, List.filterMap_append, ih]
        by_cases hm : 8 * i + m < n
        · have e : min (m + 1) (n - 8 * i) = min m (n - 8 * i) + 1 := by omega
          have e2 : min m (n - 8 * i) = m := by omega
          rw [e, List.range_succ, List.map_append, e2]
          simp [hm]
        · have e : min (m + 1) (n - 8 * i) = min m (n - 8 * i) := by omega
          rw [e]
          simp [hm]
    exact h 8
  rw [Props.Codes.packByte_unpack _ (by rw [key]; simp), key, List.getD_eq_getElem?_getD]
  by_cases h : 8 * i + j < n
  · rw [List.getElem?_append_left (by simp; omega), List.getElem?_map, List.getElem?_range (by omega), if_pos h]
    rfl
  · rw [List.getElem?_append_right (by simp; omega), if_neg h, List.getElem?_replicate]
    split <;> rfl

/-- **C313**: packing along an axis keeps every bit, in order, eight to a byte, zeros after the last one; all other axes stay what they are, and the packed one is
labelled with the old dimension, if that accepts the new size, otherwise its exception is raised. -/
theorem C313_axis {δ κ α : Type} (ops : DimOps δ κ) (nonzero : α → Bool) (a : Awu δ α) (ha : Settled ops a) (k : Nat) (hk : k < a.dims.length) :
    (∀ d', ops.install a.dims[k] ((a.shape.getD k 0 + 7) / 8) = .ok d' →
      ∃ r, a.packbits ops nonzero (some k) = .ok r ∧ r.shape = a.shape.set k ((a.shape.getD k 0 + 7) / 8) ∧ r.dims = a.dims.set k d' ∧
        ∀ (idx : List Nat) (p : Nat), idx.length = a.shape.length →
          (Codes.unpackByte (r.get (idx.set k (p / 8)))).getD (p % 8) false = if p < a.shape.getD k 0 then nonzero (a.get (idx.set k p)) else false) ∧
    (∀ e, ops.install a.dims[k] ((a.shape.getD k 0 + 7) / 8) = .error e → ∃ e', a.packbits ops nonzero (some k) = .error e') := by
  have hl := ha.len
  constructor
  · intro d' hd
    refine ⟨⟨a.shape.set k ((a.shape.getD k 0 + 7) / 8), a.dims.set k d',
      fun idx => Codes.packByte (eightBits (a.shape.getD k 0) (idx.getD k 0) fun p => nonzero (a.get (idx.set k p)))⟩, ?_, rfl, rfl, ?_⟩
    · unfold Awu.packbits
      simp only []
      rw [if_neg (by omega)]
      rw [C36_new]
      refine ⟨by simp [hl], rfl, rfl, by simp, ?_⟩
      intro j h1 h2 h3
      rw [List.getElem_set, List.getElem_set]
      by_cases hjk : k = j
      · subst hjk
        rw [if_pos rfl, if_pos rfl]
        exact hd
      · rw [if_neg hjk, if_neg hjk]
        exact ha.own j h1
    · intro idx p hi
      simp only []
      rw [List.getD_eq_getElem?_getD (l := idx.set k (p / 8)), List.getElem?_set_self (by omega)]
      simp only [Option.getD_some, List.set_set]
      rw [eightBits_bit _ _ _ _ (Nat.mod_lt _ (by omega)), Nat.div_add_mod]
  · intro e he
    unfold Awu.packbits
    simp only []
    rw [if_neg (by omega)]
    cases hr : Awu.new ops (a.shape.set k ((a.shape.getD k 0 + 7) / 8))
      (fun idx => Codes.packByte (eightBits (a.shape.getD k 0) (idx.getD k 0) fun p => nonzero (a.get (idx.set k p)))) a.dims with
    | error e' => exact ⟨e', rfl⟩
    | ok r =>
      obtain ⟨-, -, -, h4, h5⟩ := (C36_new ops _ _ _ r).1 hr
      have := h5 k hk (by simp; omega) (by omega)
      rw [List.getElem_set_self, he] at this
      cases this

example (X : Freq.NumExt ℚ) := C313_axis (libOps X) (fun b : Bool => b) (⟨[9, 3], [.time 1000000000000 1000000000000 (some 9), .identity], fun _ => true⟩ : Awu (LibDim ℚ) Bool) ⟨rfl, by
  intro k hk
  match k, hk with
  | 0, _ => rfl
  | 1, _ => rfl⟩ 1 (by decide)

section
variable {φ : Type} [Field φ] [LinearOrder φ] (X : Freq.NumExt φ)

/-- **C313, the library's dimensions**: an identity axis can be packed.  **Refuted**: a frequency axis of two or more bands cannot; and a time axis of two or more entries is
labelled as if every byte lasted as long as one of its eight entries did, so that the packed array seems to end earlier. -/
theorem C313_lib {α : Type} (nonzero : α → Bool) (a : Awu (LibDim φ) α) (ha : Settled (libOps X) a) (k : Nat) (hk : k < a.dims.length) :
    (a.dims[k] = .identity → ∃ r, a.packbits (libOps X) nonzero (some k) = .ok r ∧ r.dims = a.dims) ∧
    (∀ s, a.dims[k] = .freq s → 2 ≤ a.shape.getD k 0 → ∃ e, a.packbits (libOps X) nonzero (some k) = .error e) ∧
    (∀ f u sz, a.dims[k] = .time f u sz → 0 < f → 2 ≤ a.shape.getD k 0 →
      ∃ r, a.packbits (libOps X) nonzero (some k) = .ok r ∧ r.dims[k]? = some (.time f u (some ((a.shape.getD k 0 + 7) / 8))) ∧
        (Time.Dim.mk f u ((a.shape.getD k 0 + 7) / 8 : Nat)).end_ < (Time.Dim.mk f u (a.shape.getD k 0 : Nat)).end_) := by
  have hl := ha.len
  obtain ⟨i1, i2, i3⟩ := C36_lib_install X ((a.shape.getD k 0 + 7) / 8)
  refine ⟨fun h => ?_, fun s h hn => ?_, fun f u sz h hf hn => ?_⟩
  · obtain ⟨r, h1, -, h3, -⟩ := (C313_axis (libOps X) nonzero a ha k hk).1 .identity (by rw [h]; exact i3)
    refine ⟨r, h1, ?_⟩
    rw [h3, ← h, List.set_getElem_self]
  · refine (C313_axis (libOps X) nonzero a ha k hk).2 .valueError ?_
    have hown := ha.own k hk
    rw [h, (C36_lib_install X _).2.1] at hown
    have hlen : a.shape[k]'(by omega) = s.len := by
      by_contra hc
      rw [if_neg hc] at hown
      cases hown
    have hg : a.shape.getD k 0 = s.len := by
      rw [List.getD_eq_getElem?_getD, List.getElem?_eq_getElem (by omega), Option.getD_some, hlen]
    rw [h, i2, if_neg (by omega)]
  · obtain ⟨r, h1, -, h3, -⟩ := (C313_axis (libOps X) nonzero a ha k hk).1 _ (by rw [h]; exact i1 f u sz)
    refine ⟨r, h1, by rw [h3, List.getElem?_set_self hk], ?_⟩
    unfold Time.Dim.end_
    simp only []
    have : (((a.shape.getD k 0 + 7) / 8 : Nat) : Int) < ((a.shape.getD k 0 : Nat) : Int) := by omega
    have := Int.mul_lt_mul_of_pos_right this hf
    omega
example (X : Freq.NumExt ℚ) := C313_lib X (fun b : Bool => b) (⟨[9, 3], [.time 1000000000000 1000000000000 (some 9), .identity], fun _ => true⟩ : Awu (LibDim ℚ) Bool) ⟨rfl, by
  intro k hk
  match k, hk with
  | 0, _ => rfl
  | 1, _ => rfl⟩ 1 (by decide)

end

/-- **C313, refuted**: without an axis (the default) the array is flattened; only arrays with a single axis can be labelled then, all others are refused. -/
theorem C313_flat_refuted {δ κ α : Type} (ops : DimOps δ κ) (nonzero : α → Bool) (a : Awu δ α) (ha : Settled ops a) :
    (a.shape.length ≠ 1 → a.packbits ops nonzero none = .error .valueError) ∧
    (a.shape.length = 1 → (∃ e, a.packbits ops nonzero none = .error e ∧ a.packbits ops nonzero (some 0) = .error e) ∨
      ∃ r r', a.packbits ops nonzero none = .ok r ∧ a.packbits ops nonzero (some 0) = .ok r' ∧ r.shape = r'.shape ∧ r.dims = r'.dims ∧ ∀ i, r.get [i] = r'.get [i]) := by
  have hl := ha.len
  constructor
  · intro h
    unfold Awu.packbits
    exact C36_new_refused ops _ _ _ (by simp; omega)
  · intro h
    obtain ⟨sh, dims, get⟩ := a
    obtain ⟨n, rfl⟩ := List.length_eq_one_iff.1 h
    unfold Awu.packbits Awu.new
    simp only [Nd.size, Nat.mul_one, List.length_singleton, List.set_cons_zero, List.getD_cons_zero, if_neg (show ¬ 1 ≤ 0 by omega)]
    simp only at hl
    rw [if_neg (by simp at hl ⊢; omega), if_neg (by simp at hl ⊢; omega)]
    cases installAll ops dims [(n + 7) / 8] with
    | error e => exact Or.inl ⟨e, rfl, rfl⟩
    | ok ds =>
      refine Or.inr ⟨_, _, rfl, rfl, rfl, rfl, ?_⟩
      intro i
      simp [Nd.unravel, Nd.size]

/-- Nine frames of three bits become two rows: column 0 has ones in every second frame, that is the bytes 10101010 and 10000000. -/
example : ∃ r, (⟨[9, 3], [LibDim.time 1 1 (some 9), .identity], fun idx => decide (idx.getD 0 0 % 2 = idx.getD 1 0 % 2)⟩ : Awu (LibDim ℚ) Bool).packbits
      (libOps (Props.Frequency.noExt)) id (some 0) = .ok r ∧ r.shape = [2, 3] ∧ r.get [0, 0] = 170 ∧ r.get [1, 0] = 128 ∧ r.get [1, 1] = 0 := by
  refine ⟨_, rfl, rfl, ?_, ?_, ?_⟩ <;> decide +kernel

/-- **C313, an axis that does not exist** is a ValueError. -/
theorem C313_no_axis {δ κ α : Type} (ops : DimOps δ κ) (nonzero : α → Bool) (a : Awu δ α) (k : Nat) (hk : a.shape.length ≤ k) :
    a.packbits ops nonzero (some k) = .error .valueError := if_pos hk

example := C313_no_axis (libOps (⟨fun _ _ _ => [], fun _ _ => [], fun _ _ => []⟩ : Freq.NumExt ℚ)) (fun n : Nat => decide (n ≠ 0)) ⟨[9], [.identity], fun _ => 1⟩ 1 (by decide)

end Zounds.Arr
