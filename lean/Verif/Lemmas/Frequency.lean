import Verif.Model.Frequency
import Mathlib.Tactic.Linarith
import Mathlib.Tactic.FieldSimp
import Mathlib.Tactic.Ring
import Mathlib.Data.List.Sort
/-!
# Facts about the frequency model
-/

namespace Zounds.Freq
open Zounds

section order
variable {α : Type} [LinearOrder α]

theorem bisectLoop_spec [Field α] (a : List α) (x : α) (hs : a.Pairwise (· ≤ ·)) :
    ∀ (n lo hi : Nat), hi - lo = n → lo ≤ hi → hi ≤ a.length →
      (∀ i (h : i < a.length), i < lo → a[i] < x) →
      (∀ i (h : i < a.length), hi ≤ i → x ≤ a[i]) →
      let r := bisectLoop a x lo hi
      r ≤ a.length ∧ (∀ i (h : i < a.length), i < r → a[i] < x) ∧
        (∀ i (h : i < a.length), r ≤ i → x ≤ a[i]) := by
  intro n
  induction n using Nat.strongRecOn with
  | _ n ih =>
    intro lo hi hn hle hlen hl hr
    unfold bisectLoop
    by_cases h : lo < hi
    · simp only [h, dite_true]
      have hm : (lo + hi) / 2 < a.length := by omega
      rw [List.getElem?_eq_getElem hm]
      dsimp only
      split
      · rename_i hv
        refine ih _ ?_ _ _ rfl ?_ ?_ ?_ ?_
        · omega
        · omega
        · omega
        · intro i hi' hlt
          by_cases he : i = (lo + hi) / 2
          · subst he; exact hv
          · exact lt_of_le_of_lt (List.pairwise_iff_getElem.1 hs i _ hi' hm (by omega)) hv
        · exact hr
      · rename_i hv
        refine ih _ ?_ _ _ rfl ?_ ?_ ?_ ?_
        · omega
        · omega
        · omega
        · exact hl
        · intro i hi' hge
          by_cases he : i = (lo + hi) / 2
          · subst he; exact le_of_not_gt hv
          · exact le_trans (le_of_not_gt hv) (List.pairwise_iff_getElem.1 hs _ i hm hi' (by omega))
    · simp only [h, dite_false]
      have : lo = hi := by omega
      subst this
      exact ⟨hlen, hl, hr⟩

/-- On a sorted list `bisect_left` is the number of smaller elements, in front of
everything that is not smaller. -/
theorem bisectLeft_spec [Field α] (a : List α) (x : α) (hs : a.Pairwise (· ≤ ·)) :
    bisectLeft a x ≤ a.length ∧ (∀ i (h : i < a.length), i < bisectLeft a x ↔ a[i] < x) := by
  have h := bisectLoop_spec a x hs _ 0 a.length rfl (Nat.zero_le _) le_rfl
    (by intro i _ h; omega) (by intro i h h'; omega)
  obtain ⟨h1, h2, h3⟩ := h
  refine ⟨h1, fun i hi => ⟨h2 i hi, fun hlt => ?_⟩⟩
  by_contra hge
  exact absurd hlt (not_lt_of_ge (h3 i hi (by simpa [bisectLeft] using hge)))

end order

/-- Keeping the positions `lo ≤ i < hi` of a list is filtering by them. -/
theorem take_drop_eq_filter {β γ : Type} (bs : List γ) (l : List β) (p : γ → Bool) (lo hi : Nat)
    (hlen : l.length = bs.length)
    (hp : ∀ i (h : i < bs.length), p bs[i] = true ↔ (lo ≤ i ∧ i < hi)) :
    (l.take hi).drop lo = ((bs.zip l).filter fun q => p q.1).map Prod.snd := by
  induction bs generalizing l lo hi with
  | nil =>
    have : l = [] := List.length_eq_zero_iff.1 (by simpa using hlen)
    subst this
    simp
  | cons b bs ih =>
    cases l with
    | nil => simp at hlen
    | cons x l =>
      have h0 := hp 0 (by simp)
      have hlen' : l.length = bs.length := by simpa using hlen
      have hrec : ∀ i (h : i < bs.length), p bs[i] = true ↔ (lo - 1 ≤ i ∧ i < hi - 1) ∧ (lo ≤ i + 1 ∧ i + 1 < hi) := by
        intro i h
        have := hp (i + 1) (by simpa using h)
        simp only [List.getElem_cons_succ] at this
        rw [this]
        constructor
        · intro hh; exact ⟨by omega, hh⟩
        · intro hh; exact hh.2
      simp only [List.getElem_cons_zero] at h0
      have ih' := ih l (lo - 1) (hi - 1) hlen' (by
        intro i h
        rw [hrec i h]
        constructor
        · intro hh; exact hh.1
        · intro hh; exact ⟨hh, by omega⟩)
      rw [List.zip_cons_cons, List.filter_cons]
      dsimp only
      cases hi with
      | zero =>
        have hpb : p b = false := by
          cases hb : p b
          · rfl
          · have := h0.1 hb; omega
        simp only [hpb, Bool.false_eq_true, if_false]
        rw [← ih']
        simp
      | succ hi =>
        cases lo with
        | zero =>
          have hpb : p b = true := h0.2 ⟨by omega, by omega⟩
          simp only [hpb, if_true, List.map_cons]
          rw [← ih']
          simp
        | succ lo =>
          have hpb : p b = false := by
            cases hb : p b
            · rfl
            · have := h0.1 hb; omega
          simp only [hpb, Bool.false_eq_true, if_false]
          rw [← ih']
          simp

theorem sequence_ok {β : Type} (l : List (Except PyErr β)) (bs : List β) :
    sequence l = .ok bs ↔ l = bs.map .ok := by
  induction l generalizing bs with
  | nil => cases bs <;> simp [sequence]
  | cons x l ih =>
    cases x with
    | error e => cases bs <;> simp [sequence]
    | ok b =>
      simp only [sequence]
      cases h : sequence l with
      | error e =>
        cases bs with
        | nil => simp
        | cons c cs =>
          simp only [List.map_cons, List.cons.injEq]
          constructor
          · intro h'; cases h'
          · rintro ⟨_, h'⟩
            have := (ih cs).2 h'
            rw [h] at this; cases this
      | ok ds =>
        cases bs with
        | nil => simp
        | cons c cs =>
          have := ih cs
          rw [h] at this
          simp only [Except.ok.injEq, List.cons.injEq, List.map_cons] at this ⊢
          rw [this]

variable {α : Type} [Field α] [LinearOrder α] [IsStrictOrderedRing α]

/-- The `k`-th of `n` equal parts of a band. -/
def part (b : Band α) (n k : Nat) : Band α :=
  ⟨b.start + (k : α) * ((b.stop - b.start) / (n : α)),
   b.start + ((k : α) + 1) * ((b.stop - b.start) / (n : α))⟩

theorem linearBands_eq (b : Band α) (n : Nat) (h : b.start < b.stop) (hn : 2 ≤ n) :
    linearBands b n = .ok ((List.range n).map (part b n)) := by
  obtain ⟨m, rfl⟩ : ∃ m, n = m + 2 := ⟨n - 2, by omega⟩
  have hw : 0 < (b.stop - b.start) / ((m + 2 : Nat) : α) := by
    apply div_pos
    · linarith
    · exact_mod_cast Nat.succ_pos _
  unfold linearBands
  set w := (b.stop - b.start) / ((m + 2 : Nat) : α) with hwdef
  have hr : List.range (m + 2) = 0 :: 1 :: (List.range m).map (· + 2) := by
    rw [List.range_succ_eq_map, List.range_succ_eq_map]
    simp [Function.comp_def]
  have key : ∀ l : List Nat,
      sequence ((l.map fun k : Nat => b.start + (k : α) * w).map fun f => Band.new f (f + (b.start + ((1 : Nat) : α) * w - (b.start + ((0 : Nat) : α) * w))))
        = .ok (l.map (part b (m + 2))) := by
    intro l
    rw [sequence_ok]
    simp only [List.map_map]
    apply List.map_congr_left
    intro k _
    simp only [Function.comp, Band.new, part, ← hwdef]
    rw [if_neg]
    · congr 2
      push_cast
      ring
    · push_cast
      intro hle
      linarith
  have := key (List.range (m + 2))
  rw [hr] at this ⊢
  exact this

end Zounds.Freq
