import Verif.Model.Reservoir
import Mathlib.Tactic.Common
import Mathlib.Tactic.Ring
import Mathlib.Data.List.Nodup
import Mathlib.Data.List.Perm.Basic

/-!
# Properties C26 and C27: reservoirs
-/

namespace Zounds.Reservoir
open Zounds

/-! ## Lemmas on `assign` -/

theorem assign_length {α : Type} (is : List Nat) : ∀ (arr xs : List α), (assign arr is xs).length = arr.length := by
  induction is with
  | nil => intro arr xs; simp [assign]
  | cons i is ih =>
    intro arr xs
    cases xs with
    | nil => rfl
    | cons x xs => simp [assign, ih]

theorem assign_mem {α : Type} (is : List Nat) : ∀ (arr xs : List α) (y : α), y ∈ assign arr is xs → y ∈ arr ∨ y ∈ xs := by
  induction is with
  | nil => intro arr xs y h; simp [assign] at h; exact Or.inl h
  | cons i is ih =>
    intro arr xs y h
    cases xs with
    | nil => exact Or.inl h
    | cons x xs =>
      rcases ih _ _ _ h with h | h
      · rcases List.mem_or_eq_of_mem_set h with h | h
        · exact Or.inl h
        · exact Or.inr (by simp [h])
      · exact Or.inr (List.mem_cons_of_mem _ h)

theorem assign_map {α β : Type} (f : α → β) (is : List Nat) : ∀ (arr xs : List α),
    assign (arr.map f) is (xs.map f) = (assign arr is xs).map f := by
  induction is with
  | nil => intro arr xs; cases xs <;> rfl
  | cons i is ih =>
    intro arr xs
    cases xs with
    | nil => rfl
    | cons x xs => simp only [List.map_cons, assign, ← ih, List.map_set]

/-! ## C26: the reservoir sampler -/

/-- What the sampler holds after `seen` rows: the first rows exactly, as long as they fit; later only rows of the stream. -/
structure Holds {α : Type} (nsamples : Nat) (s : Sampler α) (seen : List α) : Prop where
  index_eq : s.index = seen.length
  capacity : s.r.length = nsamples
  prefix_eq : seen.length ≤ nsamples → s.r.take s.index = seen
  mem : nsamples ≤ seen.length → ∀ x ∈ s.r, x ∈ seen

theorem holds_init {α : Type} (n : Nat) (z : α) : Holds n (Sampler.init n z) [] := by
  refine ⟨rfl, by simp [Sampler.init], by simp [Sampler.init], ?_⟩
  intro h x hx
  have : n = 0 := by simpa using h
  subst this
  simp [Sampler.init] at hx

theorem holds_fill {α : Type} (n : Nat) (s : Sampler α) (seen data : List α) (h : Holds n s seen) :
    Holds n (fill n s data).1 (seen ++ data.take (n - seen.length)) ∧
    (fill n s data).2 = data.drop (n - seen.length) := by
  unfold fill
  have hi := h.index_eq
  have hc := h.capacity
  split
  · rename_i hlt
    rw [hi] at hlt
    have hp := h.prefix_eq (by omega)
    dsimp only
    refine ⟨⟨?_, ?_, ?_, ?_⟩, by rw [hi]⟩
    · simp [hi]
    · simp; omega
    · intro _
      have e : List.take (s.index + (List.take (n - s.index) data).length)
          (List.take s.index s.r ++ List.take (n - s.index) data ++ List.drop (s.index + (List.take (n - s.index) data).length) s.r)
          = List.take s.index s.r ++ List.take (n - s.index) data := by
        rw [List.take_append_of_le_length (by simp; omega)]
        apply List.take_of_length_le
        simp
      rw [e, hp, hi]
    · intro hge x hx
      simp only [List.length_append, List.length_take] at hge
      rw [List.mem_append, List.mem_append] at hx
      rw [hp] at hx
      rcases hx with (hx | hx) | hx
      · exact List.mem_append_left _ hx
      · rw [hi] at hx; exact List.mem_append_right _ hx
      · exfalso
        have : (List.drop (s.index + (List.take (n - s.index) data).length) s.r).length = 0 := by
          simp; omega
        rw [List.length_eq_zero_iff.1 this] at hx
        simp at hx
  · rename_i hge
    have : n - seen.length = 0 := by omega
    simp only [this, List.take_zero, List.append_nil, List.drop_zero, and_true]
    exact h

theorem holds_replace {α : Type} (n : Nat) (s : Sampler α) (seen rest : List α) (draw : Nat → Nat)
    (h : Holds n s seen) (hfull : rest ≠ [] → n ≤ seen.length) : Holds n (replace n s rest draw) (seen ++ rest) := by
  unfold replace
  split
  · rename_i h0
    rw [List.length_eq_zero_iff.1 h0, List.append_nil]
    exact h
  · rename_i h0
    have hf := hfull (by rintro rfl; simp at h0)
    dsimp only
    refine ⟨by simp [h.index_eq], by simp [assign_length, h.capacity], ?_, ?_⟩
    · intro hle
      simp only [List.length_append] at hle
      omega
    · intro _ x hx
      rcases assign_mem _ _ _ _ hx with hx | hx
      · exact List.mem_append_left _ (h.mem hf x hx)
      · exact List.mem_append_right _ (List.mem_of_mem_take hx)

theorem holds_enqueue {α : Type} (n : Nat) (s : Sampler α) (seen data : List α) (draw : Nat → Nat)
    (h : Holds n s seen) : Holds n (enqueue n s data draw) (seen ++ data) := by
  unfold enqueue
  obtain ⟨h1, h2⟩ := holds_fill n s seen data h
  have h3 := holds_replace n (fill n s data).1 _ (fill n s data).2 draw h1 (by
    rw [h2]
    intro hne
    have : n - seen.length < data.length := by
      by_contra hcon
      exact hne (List.drop_eq_nil_of_le (by omega))
    simp; omega)
  have e : seen ++ List.take (n - seen.length) data ++ (fill n s data).2 = seen ++ data := by
    rw [h2, List.append_assoc, List.take_append_drop]
  rw [e] at h3
  exact h3

theorem holds_feed {α : Type} (n : Nat) (cs : List (List α × (Nat → Nat))) : ∀ (s : Sampler α) (seen : List α),
    Holds n s seen → Holds n (feed n s cs) (seen ++ (cs.map (·.1)).flatten) := by
  induction cs with
  | nil => intro s seen h; simpa [feed] using h
  | cons c cs ih =>
    intro s seen h
    obtain ⟨c, d⟩ := c
    have := ih _ _ (holds_enqueue n s seen c d h)
    simpa [feed] using this

theorem feedOf_ok {α : Type} (units : Bool) (n : Nat) (cs : List (List α × (Nat → Nat))) : ∀ (s s' : Sampler α),
    feedOf units n s cs = .ok s' → s' = feed n s cs := by
  induction cs with
  | nil => intro s s' h; cases h; rfl
  | cons c cs ih =>
    intro s s' h
    obtain ⟨c, d⟩ := c
    simp only [feedOf, enqueueOf] at h
    split at h
    · cases h
    · rename_i e
      split at e
      · cases e
      · cases e
        exact ih _ _ h

theorem feedOf_plain {α : Type} (n : Nat) (cs : List (List α × (Nat → Nat))) : ∀ (s : Sampler α),
    feedOf false n s cs = .ok (feed n s cs) := by
  induction cs with
  | nil => intro s; rfl
  | cons c cs ih =>
    intro s
    obtain ⟨c, d⟩ := c
    simp [feedOf, enqueueOf, refused, feed, ih]

/-- **C26**: after any chunks and any random draws, the result has min(capacity, seen) rows; each of them is a row of the stream;
and while everything fits it is the stream itself, reordered.  For arrays without units there always is a result, if anything arrives. -/
theorem C26_samples {α : Type} (units : Bool) (n : Nat) (z : α) (cs : List (List α × (Nat → Nat))) (shuffle : List α → List α)
    (hs : ∀ l, (shuffle l).Perm l) :
    (∀ out, sample units n z cs shuffle = .ok out →
      out.length = min n (cs.map (·.1)).flatten.length ∧ (∀ x ∈ out, x ∈ (cs.map (·.1)).flatten) ∧
      ((cs.map (·.1)).flatten.length ≤ n → out.Perm (cs.map (·.1)).flatten)) ∧
    (cs ≠ [] → units = false → ∃ out, sample units n z cs shuffle = .ok out) ∧
    (cs = [] → sample units n z cs shuffle = .error .typeError) := by
  refine ⟨?_, ?_, ?_⟩
  · intro out ho
    simp only [sample] at ho
    split at ho
    · cases ho
    · split at ho
      · cases ho
      · rename_i s hf
        cases ho
        have h := holds_feed n cs _ _ (holds_init n z)
        rw [List.nil_append, ← feedOf_ok units n cs _ _ hf] at h
        generalize (cs.map (·.1)).flatten = stream at h
        have hi := h.index_eq
        unfold dequeue
        split
        · rename_i hle
          have hp := h.prefix_eq (by omega)
          rw [hp]
          refine ⟨?_, ?_, fun _ => hs _⟩
          · rw [(hs _).length_eq]; omega
          · intro x hx; exact (hs _).mem_iff.1 hx
        · refine ⟨by rw [h.capacity]; omega, h.mem (by omega), by omega⟩
  · rintro hc rfl
    refine ⟨dequeue n (feed n (Sampler.init n z) cs) shuffle, ?_⟩
    have : cs.isEmpty = false := by cases cs with | nil => exact absurd rfl hc | cons => rfl
    simp [sample, this, feedOf_plain]
  · rintro rfl; rfl

example := C26_samples true 2 0 [([7], fun _ => 0), ([8, 9], fun _ => 1)] List.reverse (fun l => List.reverse_perm l)

/-- **C26**: while it is not full, the sampler holds exactly the rows of the stream in order, however they were cut. -/
theorem C26_fill_exact {α : Type} (n : Nat) (z : α) (cs : List (List α × (Nat → Nat)))
    (h : (cs.map (·.1)).flatten.length ≤ n) :
    (feed n (Sampler.init n z) cs).r.take (feed n (Sampler.init n z) cs).index = (cs.map (·.1)).flatten := by
  have h1 := holds_feed n cs _ _ (holds_init n z)
  rw [List.nil_append] at h1
  exact h1.prefix_eq h

example := C26_fill_exact 4 0 [([7], fun _ => 0), ([8, 9], fun _ => 1)] (by decide)

/-- Three rows in two chunks with room for two; the draw for the last row is 1. -/
example : (feed 2 (Sampler.init 2 0) [([7], fun _ => 0), ([8, 9], fun _ => 1)]).r = [7, 9] := by decide

/-- One step of the textbook algorithm (Vitter's algorithm R): row number `t` (counting from zero) goes to slot `d`, a uniform number
in `0..t`, when that is a slot. -/
def algorithmR {α : Type} (n : Nat) (r : List α) (x : α) (d : Nat) : List α := if d < n then r.set d x else r

/-- **C26**: fed one row at a time, a full sampler does exactly algorithm R, drawing from `0..t` for row number `t`. -/
theorem C26_single_rows_algorithm_R {α : Type} (n : Nat) (s : Sampler α) (hfull : n ≤ s.index) (x : α) (draw : Nat → Nat) :
    enqueue n s [x] draw = ⟨algorithmR n s.r x (draw 0), s.index + 1⟩ := by
  have : ¬ s.index < n := by omega
  unfold enqueue fill replace algorithmR
  simp only [this, if_false, List.length_singleton, Nat.one_ne_zero]
  by_cases h : draw 0 < n <;> simp [h, assign]

example := C26_single_rows_algorithm_R 2 ⟨[7, 8], 5⟩ (by decide) 9 (fun _ => 1)

/-! ### Uniformity, row by row -/

/-- All sequences of draws for rows number `n, …, n+m-1`, the draw for row `t` being in `0..t` (latest first). -/
def draws (n : Nat) : Nat → List (List Nat)
  | 0 => [[]]
  | m + 1 => (draws n m).flatMap (fun ds => (List.range (n + m + 1)).map (· :: ds))

/-- The sampler's slots after `n + m` single rows numbered 0, 1, 2, …, with draws `ds` (latest first). -/
def slots (n : Nat) : List Nat → List Nat
  | [] => List.range n
  | d :: ds => algorithmR n (slots n ds) (n + ds.length) d

theorem slots_feed (n : Nat) (z : Nat) (ds : List Nat) :
    feed n (Sampler.init n z)
      ((List.range n, fun _ => 0) :: (List.range ds.length).map (fun t => ([n + t], fun _ => ds.reverse.getD t 0)))
      = ⟨slots n ds, n + ds.length⟩ := by
  have hfeed_append : ∀ (a b : List (List Nat × (Nat → Nat))) (s : Sampler Nat),
      feed n s (a ++ b) = feed n (feed n s a) b := by
    intro a
    induction a with
    | nil => intro b s; rfl
    | cons c a ih => intro b s; obtain ⟨c, d⟩ := c; simp [feed, ih]
  induction ds with
  | nil =>
    simp only [feed, List.length_nil, List.range_zero, List.map_nil, slots, Nat.add_zero]
    unfold enqueue fill replace Sampler.init
    by_cases h : 0 < n
    · simp [h]
    · have : n = 0 := by omega
      subst this; simp
  | cons d ds ih =>
    have e : (List.range (d :: ds).length).map (fun t => ([n + t], fun (_ : Nat) => (d :: ds).reverse.getD t 0))
        = (List.range ds.length).map (fun t => ([n + t], fun (_ : Nat) => ds.reverse.getD t 0)) ++ [([n + ds.length], fun _ => d)] := by
      rw [List.length_cons, List.range_succ, List.map_append, List.map_singleton]
      congr 1
      · apply List.map_congr_left
        intro t ht
        have ht : t < ds.length := List.mem_range.1 ht
        have : ∀ x : Nat, (d :: ds).reverse.getD t 0 = ds.reverse.getD t 0 := by
          intro _
          rw [List.reverse_cons, List.getD_eq_getElem?_getD, List.getElem?_append_left (by simpa using ht), List.getD_eq_getElem?_getD]
        simp only [this 0]
      · have : (d :: ds).reverse.getD ds.length 0 = d := by
          simp [List.getD_eq_getElem?_getD]
        simp only [this]
    rw [e, ← List.cons_append, hfeed_append, ih]
    simp only [feed]
    rw [C26_single_rows_algorithm_R n _ (by simp)]
    simp [slots, Nat.add_assoc]

theorem slots_ok (n : Nat) (ds : List Nat) :
    (slots n ds).Nodup ∧ (∀ i ∈ slots n ds, i < n + ds.length) ∧ (slots n ds).length = n := by
  induction ds with
  | nil => exact ⟨List.nodup_range, by intro i hi; simpa [slots] using hi, by simp [slots]⟩
  | cons d ds ih =>
    obtain ⟨h1, h2, h3⟩ := ih
    unfold slots algorithmR
    split
    · rename_i hd
      refine ⟨?_, ?_, by simp [h3]⟩
      · apply List.Nodup.set h1
        intro hcon
        have := h2 _ hcon
        omega
      · intro i hi
        rcases List.mem_or_eq_of_mem_set hi with hi | hi
        · have := h2 i hi; simp; omega
        · simp; omega
    · exact ⟨h1, by intro i hi; have := h2 i hi; simp; omega, h3⟩

theorem draws_length (n m : Nat) : ∀ ds ∈ draws n m, ds.length = m := by
  induction m with
  | zero => intro ds h; simp [draws] at h; simp [h]
  | succ m ih =>
    intro ds h
    simp only [draws, List.mem_flatMap, List.mem_map] at h
    obtain ⟨a, ha, d, _, rfl⟩ := h
    simp [ih a ha]

theorem countP_range_lt (k n : Nat) (h : n ≤ k) : (List.range k).countP (fun d => decide (d < n)) = n := by
  induction k with
  | zero => have : n = 0 := by omega
            subst this; rfl
  | succ k ih =>
    rw [List.range_succ, List.countP_append]
    by_cases hk : n ≤ k
    · rw [ih hk]; simp [hk]
    · have : n = k + 1 := by omega
      subst this
      have : (List.range k).countP (fun d => decide (d < k + 1)) = k := by
        rw [List.countP_eq_length.2]
        · simp
        · intro a ha; have := List.mem_range.1 ha; simp; omega
      rw [this]; simp

theorem countP_range_ne (k p : Nat) (h : p < k) : (List.range k).countP (fun d => decide (d ≠ p)) = k - 1 := by
  have h1 : (List.range k).countP (fun d => decide (d = p)) = 1 := by
    have := List.count_eq_one_of_mem (List.nodup_range (n := k)) (List.mem_range.2 h)
    rw [← this, List.count]
    apply List.countP_congr
    intro x _
    simp
  have h2 := List.length_eq_countP_add_countP (fun d => decide (d = p)) (l := List.range k)
  simp only [List.length_range, h1] at h2
  have h3 : (List.range k).countP (fun d => decide (d ≠ p)) = List.countP (fun a => decide ¬(decide (a = p)) = true) (List.range k) := by
    apply List.countP_congr
    intro x _
    simp
  rw [h3]; omega

/-- Draws of row `n+m` under which an item that is held at slot `p` stays. -/
theorem stays_count (n m : Nat) (ds : List Nat) (hl : ds.length = m) (i : Nat) (hi : i < n + m) (hmem : i ∈ slots n ds) :
    (List.range (n + m + 1)).countP (fun d => decide (i ∈ slots n (d :: ds))) = n + m := by
  obtain ⟨h1, h2, h3⟩ := slots_ok n ds
  obtain ⟨p, hp, hpe⟩ := List.mem_iff_getElem.1 hmem
  have key : ∀ d, i ∈ slots n (d :: ds) ↔ d ≠ p := by
    intro d
    unfold slots algorithmR
    constructor
    · rintro h rfl
      rw [h3] at hp
      rw [if_pos hp] at h
      obtain ⟨q, hq, hqe⟩ := List.mem_iff_getElem.1 h
      rw [List.getElem_set] at hqe
      split at hqe
      · omega
      · rename_i hne
        have hq' : q < (slots n ds).length := by simpa using hq
        have := (List.Nodup.getElem_inj_iff h1 (i := q) (j := d) (hi := hq') (hj := by omega)).1 (by rw [hqe, hpe])
        omega
    · intro hne
      split
      · rename_i hd
        refine List.mem_iff_getElem.2 ⟨p, by simpa using hp, ?_⟩
        rw [List.getElem_set_ne hne]; exact hpe
      · exact hmem
  have hp' : p < n + m + 1 := by omega
  have : (List.range (n + m + 1)).countP (fun d => decide (i ∈ slots n (d :: ds)))
      = (List.range (n + m + 1)).countP (fun d => decide (d ≠ p)) := by
    apply List.countP_congr
    intro x _
    simp [key x]
  rw [this, countP_range_ne _ _ hp']
  omega

/-- **C26**, uniformity: when the rows arrive one at a time, every row of a stream of `n + m` rows is held at the end under the same
share `n / (n + m)` of the equally likely draw sequences. -/
theorem C26_uniform_row_by_row (n m i : Nat) (hi : i < n + m) :
    ((draws n m).countP (fun ds => decide (i ∈ slots n ds))) * (n + m) = n * (draws n m).length := by
  induction m with
  | zero =>
    have : i ∈ slots n [] := by simpa [slots] using hi
    simp [draws, this]
  | succ m ih =>
    have hlen : (draws n (m + 1)).length = (draws n m).length * (n + m + 1) := by
      simp only [draws, List.length_flatMap, List.length_map, List.length_range]
      rw [List.map_const']
      simp
    have hstep : ∀ (L : List (List Nat)) (c : List Nat → Nat),
        (∀ ds ∈ L, (List.range (n + m + 1)).countP (fun d => decide (i ∈ slots n (d :: ds))) = c ds) →
        (L.flatMap (fun ds => (List.range (n + m + 1)).map (· :: ds))).countP (fun ds => decide (i ∈ slots n ds))
          = (L.map c).sum := by
      intro L c
      induction L with
      | nil => intro _; rfl
      | cons ds L ihL =>
        intro h
        rw [List.flatMap_cons, List.countP_append, List.map_cons, List.sum_cons, ← h ds (by simp),
          ihL (fun ds hds => h ds (by simp [hds])), List.countP_map]
        rfl
    by_cases hin : i < n + m
    · have hc := hstep (draws n m) (fun ds => if i ∈ slots n ds then n + m else 0) (by
        intro ds hds
        have hl := draws_length n m ds hds
        by_cases hmem : i ∈ slots n ds
        · simp only [hmem, if_true]
          exact stays_count n m ds hl i hin hmem
        · simp only [hmem, if_false]
          rw [List.countP_eq_zero]
          intro d _
          have : i ∉ slots n (d :: ds) := by
            unfold slots algorithmR
            split
            · intro hcon
              rcases List.mem_or_eq_of_mem_set hcon with h | h
              · exact hmem h
              · omega
            · exact hmem
          simpa using this)
      have hsum : ∀ (L : List (List Nat)), (L.map (fun ds => if i ∈ slots n ds then n + m else 0)).sum
          = L.countP (fun ds => decide (i ∈ slots n ds)) * (n + m) := by
        intro L
        induction L with
        | nil => simp
        | cons ds L ihL =>
          rw [List.map_cons, List.sum_cons, ihL, List.countP_cons]
          by_cases h : i ∈ slots n ds
          · simp [h]; ring
          · simp [h]
      have : (draws n (m + 1)).countP (fun ds => decide (i ∈ slots n ds))
          = (draws n m).countP (fun ds => decide (i ∈ slots n ds)) * (n + m) := by
        rw [← hsum, ← hc]; rfl
      rw [this, ih hin, hlen]
      ring
    · have hie : i = n + m := by omega
      have hc := hstep (draws n m) (fun _ => n) (by
        intro ds hds
        have hl := draws_length n m ds hds
        obtain ⟨h1, h2, h3⟩ := slots_ok n ds
        have : ∀ d, i ∈ slots n (d :: ds) ↔ d < n := by
          intro d
          unfold slots algorithmR
          rw [hl, ← hie]
          split
          · rename_i hd
            simp only [hd, iff_true]
            exact List.mem_iff_getElem.2 ⟨d, by simpa [h3] using hd, by simp⟩
          · rename_i hd
            simp only [hd, iff_false]
            intro hcon
            have := h2 _ hcon
            omega
        refine Eq.trans (List.countP_congr ?_) (countP_range_lt (n + m + 1) n (by omega))
        intro d _
        simp [this d])
      have : (draws n (m + 1)).countP (fun ds => decide (i ∈ slots n ds)) = (draws n m).length * n := by
        have : (draws n (m + 1)).countP (fun ds => decide (i ∈ slots n ds)) = ((draws n m).map (fun _ => n)).sum := by
          rw [← hc]; rfl
        rw [this, List.map_const']
        simp
      rw [this, hlen]
      ring

example := C26_uniform_row_by_row 1 2 2 (by decide)

/-- Room for 1, 3 rows: each row is held under 2 of the 6 sequences. -/
example : (draws 1 2).length = 6 ∧ ((draws 1 2).countP (fun ds => decide (2 ∈ slots 1 ds))) = 2 := by decide

/-- **C26**, what does not hold: in a chunk of several rows, a row is only ever written if more draws are accepted than there are rows
before it in the chunk: when at most `k` draws are accepted the rows from number `k` on have no influence. -/
theorem C26_late_rows_ignored {α : Type} (n : Nat) (s : Sampler α) (hfull : n ≤ s.index) (front back back' : List α)
    (hl : back.length = back'.length) (draw : Nat → Nat)
    (hacc : (((List.range (front.length + back.length)).map draw).filter (fun i => decide (i < n))).length ≤ front.length) :
    enqueue n s (front ++ back) draw = enqueue n s (front ++ back') draw := by
  have : ¬ s.index < n := by omega
  unfold enqueue fill replace
  simp only [this, if_false, List.length_append, ← hl]
  split
  · rfl
  · rw [List.take_append_of_le_length hacc, List.take_append_of_le_length hacc]

example := C26_late_rows_ignored 2 ⟨[7, 8], 5⟩ (by decide) [1, 2] [3] [4] rfl (fun i => i) (by decide)

/-- The final contents of a one-slot sampler given 1 row, then 2 rows in one chunk. -/
def pairChunk (d₀ d₁ : Nat) : List Nat :=
  (feed 1 (Sampler.init 1 9) [([0], fun _ => 0), ([1, 2], fun k => if k = 0 then d₀ else d₁)]).r

/-- **C26**, what does not hold: with two rows in one chunk the choice is not uniform.  Of the four equally likely draw pairs, one
keeps row 0, two keep row 1 and one keeps row 2 (and row by row it would be a third each). -/
theorem C26_batches_not_uniform :
    [pairChunk 0 0, pairChunk 0 1, pairChunk 1 0, pairChunk 1 1] = [[2], [1], [1], [0]] := by decide

/-! ### Arrays with units -/

/-- The rows of a chunk that do not fit any more, `seen` rows having arrived before it, all draw numbers that are not slots. -/
def AllRejected {α : Type} (n seen : Nat) (c : List α) (draw : Nat → Nat) : Prop :=
  0 < c.length - (n - seen) ∧ ∀ k < c.length - (n - seen), n ≤ draw k

theorem refused_iff {α : Type} (n : Nat) (s : Sampler α) (c : List α) (d : Nat → Nat) :
    refused true n (fill n s c).2.length d = true ↔ AllRejected n s.index c d := by
  have hl : (fill n s c).2.length = c.length - (n - s.index) := by
    unfold fill
    by_cases h : s.index < n
    · simp [h]
    · simp only [h, if_false]; omega
  rw [hl]
  unfold refused AllRejected
  simp only [Bool.true_and, Bool.and_eq_true, decide_eq_true_eq, List.isEmpty_iff, List.filter_eq_nil_iff, List.mem_map, List.mem_range,
    forall_exists_index, and_imp, forall_apply_eq_imp_iff₂]
  constructor
  · rintro ⟨h1, h2⟩
    exact ⟨by omega, fun k hk => by have := h2 k hk; omega⟩
  · rintro ⟨h1, h2⟩
    exact ⟨by omega, fun k hk => by have := h2 k hk; omega⟩

theorem feedOf_units {α : Type} (n : Nat) (cs : List (List α × (Nat → Nat))) : ∀ (s : Sampler α) (seen : List α), Holds n s seen →
    (feedOf true n s cs = .error .indexError ∧
      ∃ pre c d post, cs = pre ++ (c, d) :: post ∧ AllRejected n (seen ++ (pre.map (·.1)).flatten).length c d) ∨
    (feedOf true n s cs = .ok (feed n s cs) ∧
      ∀ pre c d post, cs = pre ++ (c, d) :: post → ¬ AllRejected n (seen ++ (pre.map (·.1)).flatten).length c d) := by
  induction cs with
  | nil => intro s seen _; exact Or.inr ⟨rfl, by intro pre c d post h; simp at h⟩
  | cons c cs ih =>
    intro s seen hold
    obtain ⟨c, d⟩ := c
    have hr := refused_iff n s c d
    rw [hold.index_eq] at hr
    by_cases hcase : AllRejected n seen.length c d
    · refine Or.inl ⟨?_, [], c, d, cs, rfl, by simpa using hcase⟩
      simp only [feedOf, enqueueOf, hr.2 hcase, if_true]
    · have hf : refused true n (fill n s c).2.length d = false := by
        cases h : refused true n (fill n s c).2.length d with
        | false => rfl
        | true => exact absurd (hr.1 h) hcase
      have hstep : feedOf true n s ((c, d) :: cs) = feedOf true n (enqueue n s c d) cs := by
        simp only [feedOf, enqueueOf, hf]; rfl
      have hfeed : feed n s ((c, d) :: cs) = feed n (enqueue n s c d) cs := rfl
      rw [hstep, hfeed]
      rcases ih _ _ (holds_enqueue n s seen c d hold) with ⟨h1, pre, c', d', post, e, ha⟩ | ⟨h1, h2⟩
      · refine Or.inl ⟨h1, (c, d) :: pre, c', d', post, by rw [e]; rfl, ?_⟩
        simpa using ha
      · refine Or.inr ⟨h1, ?_⟩
        intro pre c' d' post e
        cases pre with
        | nil =>
          simp only [List.nil_append, List.cons.injEq, Prod.mk.injEq] at e
          obtain ⟨⟨rfl, rfl⟩, _⟩ := e
          simpa using hcase
        | cons p pre =>
          simp only [List.cons_append, List.cons.injEq] at e
          obtain ⟨rfl, e⟩ := e
          have := h2 pre c' d' post e
          simpa using this

/-- **C298**: sampling arrays with units fails, with IndexError, exactly if for some chunk every draw for the rows that do not fit is rejected;
otherwise the result is what arrays without units give. -/
theorem C298_exact {α : Type} (n : Nat) (z : α) (cs : List (List α × (Nat → Nat))) (hc : cs ≠ []) (shuffle : List α → List α) :
    (sample true n z cs shuffle = .error .indexError ↔
      ∃ pre c d post, cs = pre ++ (c, d) :: post ∧ AllRejected n (pre.map (·.1)).flatten.length c d) ∧
    (sample true n z cs shuffle = .error .indexError ∨ sample true n z cs shuffle = sample false n z cs shuffle) := by
  have he : cs.isEmpty = false := by cases cs with | nil => exact absurd rfl hc | cons => rfl
  rcases feedOf_units n cs _ _ (holds_init n z) with ⟨h1, h2⟩ | ⟨h1, h2⟩
  · have : sample true n z cs shuffle = .error .indexError := by simp [sample, he, h1]
    refine ⟨⟨fun _ => by simpa using h2, fun _ => this⟩, Or.inl this⟩
  · have e : sample true n z cs shuffle = sample false n z cs shuffle := by simp [sample, he, h1, feedOf_plain]
    refine ⟨⟨fun h => ?_, fun ⟨pre, c, d, post, e', ha⟩ => absurd (by simpa using ha) (h2 pre c d post e')⟩, Or.inr e⟩
    simp [sample, he, h1] at h

/-- Rows one at a time, with their draws. -/
def singles {α : Type} (xs : List α) (ds : List Nat) : List (List α × (Nat → Nat)) := List.zipWith (fun x d => ([x], fun _ => d)) xs ds

/-- A full sampler of rows with units takes single rows if and only if every one of them is accepted. -/
theorem singles_ok {α : Type} (n : Nat) (ds : List Nat) : ∀ (xs : List α) (s : Sampler α), n ≤ s.index → xs.length = ds.length →
    ((∃ s', feedOf true n s (singles xs ds) = .ok s') ↔ ∀ d ∈ ds, d < n) := by
  induction ds with
  | nil => intro xs s _ h; cases xs with
    | nil => simp [singles, feedOf]
    | cons => simp at h
  | cons d ds ih =>
    intro xs s hf h
    cases xs with
    | nil => simp at h
    | cons x xs =>
      have hr := refused_iff n s [x] (fun _ => d)
      have h0 : n - s.index = 0 := by omega
      have ha : AllRejected n s.index [x] (fun _ => d) ↔ n ≤ d := by
        unfold AllRejected
        rw [h0]
        simp
      rw [ha] at hr
      have hidx : n ≤ (enqueue n s [x] (fun _ => d)).index := by
        rw [C26_single_rows_algorithm_R n s hf x]; simp; omega
      have ih' := ih xs (enqueue n s [x] fun _ => d) hidx (by simpa using h)
      simp only [singles, List.zipWith_cons_cons, feedOf, enqueueOf]
      by_cases hd : d < n
      · have : refused true n (fill n s [x]).2.length (fun _ => d) = false := by
          cases hh : refused true n (fill n s [x]).2.length (fun _ => d) with
          | false => rfl
          | true => have := hr.1 hh; omega
        simp only [this]
        simp only [singles] at ih'
        simpa [hd] using ih'
      · have : refused true n (fill n s [x]).2.length (fun _ => d) = true := hr.2 (by omega)
        simp [this, hd]

theorem draws_all (n : Nat) : ∀ m, (draws n m).countP (fun ds => ds.all fun d => decide (d < n)) = n ^ m
  | 0 => rfl
  | m + 1 => by
    have ih := draws_all n m
    have key : ∀ l : List (List Nat), (l.flatMap fun ds => (List.range (n + m + 1)).map (· :: ds)).countP (fun ds => ds.all fun d => decide (d < n)) =
        l.countP (fun ds => ds.all fun d => decide (d < n)) * n := by
      intro l
      induction l with
      | nil => simp
      | cons ds l ihl =>
        rw [List.flatMap_cons, List.countP_append, ihl, List.countP_map, List.countP_cons]
        by_cases hd : (ds.all fun d => decide (d < n)) = true
        · have : ((fun ds : List Nat => ds.all fun d => decide (d < n)) ∘ fun x => x :: ds) = fun x => decide (x < n) := by
            funext x; simp only [Function.comp, List.all_cons, hd, Bool.and_true]
          rw [this, countP_range_lt (n + m + 1) n (by omega), if_pos hd]
          ring
        · have : ((fun ds : List Nat => ds.all fun d => decide (d < n)) ∘ fun x => x :: ds) = fun _ => false := by
            funext x
            simp only [Function.comp, List.all_cons]
            rw [Bool.not_eq_true] at hd
            rw [hd, Bool.and_false]
          rw [this, if_neg hd]
          simp
    rw [draws, key, ih, pow_succ]

/-- **C298**: of all equally likely draws for `m` further rows, arriving one at a time at a full sampler of `n` rows, exactly `n ^ m` do not fail:
only those under which every one of the rows replaces another.  (There are `(n + 1) (n + 2) … (n + m)` draws.) -/
theorem C298_row_by_row {α : Type} (n : Nat) (s : Sampler α) (hs : n ≤ s.index) (xs : List α) :
    (draws n xs.length).countP (fun ds => (feedOf true n s (singles xs ds.reverse)).isOk) = n ^ xs.length := by
  rw [← draws_all n xs.length]
  refine List.countP_congr ?_
  intro ds hds
  have hlen : ds.length = xs.length := draws_length n xs.length ds hds
  have h := singles_ok n ds.reverse xs s hs (by simp [hlen])
  rw [List.all_eq_true]
  constructor
  · intro hok d hd
    have : ∃ s', feedOf true n s (singles xs ds.reverse) = .ok s' := by
      cases e : feedOf true n s (singles xs ds.reverse) with
      | error e' => rw [e] at hok; cases hok
      | ok s' => exact ⟨s', rfl⟩
    simpa using h.1 this d (by simpa using hd)
  · intro hall
    obtain ⟨s', e⟩ := h.2 (fun d hd => by simpa using hall d (by simpa using hd))
    rw [e]; rfl

example := C298_row_by_row 2 ⟨[7, 8], 5⟩ (by decide) [1, 2]

/-- Room for one row; the second row draws 1, which is not a slot. -/
example : sample true 1 0 [([7], fun _ => 0), ([8], fun _ => 1)] id = .error .indexError :=
  ((C298_exact 1 0 [([7], fun _ => 0), ([8], fun _ => 1)] (by simp) id).1).2
    ⟨[([7], fun _ => 0)], [8], fun _ => 1, [], rfl, by simp [AllRejected]⟩

/-- Without units the same stream gives its first row. -/
example : sample false 1 0 [([7], fun _ => 0), ([8], fun _ => 1)] id = .ok [7] := by decide

/-! ## C27: reservoirs and multiplexed reservoirs -/

theorem setUpdate_mem (is : List Int) : ∀ (s : List Int) (x : Int), x ∈ setUpdate s is ↔ x ∈ s ∨ x ∈ is := by
  induction is with
  | nil => intro s x; simp [setUpdate]
  | cons i is ih =>
    intro s x
    simp only [setUpdate, ih, List.mem_cons]
    split
    · constructor
      · rintro (h | h)
        · exact Or.inl h
        · exact Or.inr (Or.inr h)
      · rintro (h | rfl | h)
        · exact Or.inl h
        · exact Or.inl (by assumption)
        · exact Or.inr h
    · simp only [List.mem_append, List.mem_singleton]; tauto

theorem setUpdate_nodup (is : List Int) : ∀ (s : List Int), s.Nodup → (setUpdate s is).Nodup := by
  induction is with
  | nil => intro s h; exact h
  | cons i is ih =>
    intro s h
    simp only [setUpdate]
    split
    · exact ih s h
    · rename_i hn
      apply ih
      rw [List.nodup_append]
      refine ⟨h, by simp, ?_⟩
      intro a ha b hb
      simp only [List.mem_singleton] at hb
      subst hb
      rintro rfl
      exact hn ha

theorem normAll_range (n : Nat) (is : List Int) (h : ∀ i ∈ is, 0 ≤ i ∧ i < n) : normAll n is = some (is.map Int.toNat) := by
  induction is with
  | nil => rfl
  | cons i is ih =>
    have hi := h i (by simp)
    simp [normAll, ih (fun j hj => h j (by simp [hj])), normIndex, hi]

/-- A reservoir in a reachable state when only in-range, non-negative indices have been used (as the random choice does). -/
structure ResOk {α : Type} (r : Res α) : Prop where
  nodup : r.indices.Nodup
  range : ∀ i ∈ r.indices, 0 ≤ i ∧ i < r.nsamples
  len : ∀ a, r.arr = some a → a.length = r.nsamples

/-- **C27**: an add with in-range indices succeeds and is exactly an indexed write (the last of equal indices wins); the occupied
rows are those occupied before plus the ones written; a failed add of the wrong length changes no row. -/
theorem C27_add {α : Type} (z : α) (r : Res α) (hr : ResOk r) (samples : List α) (indices : List Int)
    (hi : ∀ i ∈ indices, 0 ≤ i ∧ i < r.nsamples) :
    let out := r.add z samples indices
    ResOk out.1 ∧ out.1.nsamples = r.nsamples ∧
    (indices.length = samples.length → out.2 = .ok () ∧
      out.1.arr = some (assign (r.arr.getD (List.replicate r.nsamples z)) (indices.map Int.toNat) samples) ∧
      (∀ x, x ∈ out.1.indices ↔ x ∈ r.indices ∨ x ∈ indices)) ∧
    (indices.length ≠ samples.length → out.2 = .error .valueError ∧ out.1.indices = r.indices ∧
      out.1.arr = some (r.arr.getD (List.replicate r.nsamples z))) := by
  dsimp only
  have hlen : (r.arr.getD (List.replicate r.nsamples z)).length = r.nsamples := by
    cases h : r.arr with
    | none => simp
    | some a => simpa using hr.len a h
  unfold Res.add
  by_cases hl : indices.length = samples.length
  · rw [if_neg (by simpa using hl), normAll_range _ _ hi]
    dsimp only
    refine ⟨⟨setUpdate_nodup _ _ hr.nodup, ?_, ?_⟩, rfl, ?_, fun h => absurd hl h⟩
    · intro i h
      rcases (setUpdate_mem _ _ _).1 h with h | h
      · exact hr.range i h
      · exact hi i h
    · intro a ha
      simp only [Option.some.injEq] at ha
      rw [← ha, assign_length, hlen]
    · intro _; exact ⟨rfl, rfl, fun x => setUpdate_mem _ _ _⟩
  · rw [if_pos hl]
    refine ⟨⟨hr.nodup, hr.range, ?_⟩, rfl, fun h => absurd h hl, fun _ => ⟨rfl, rfl, rfl⟩⟩
    intro a ha
    simp only [Option.some.injEq] at ha
    rw [← ha, hlen]

example := C27_add 0 (⟨3, some [7, 0, 0], [0]⟩ : Res Nat) ⟨by decide, by decide, by intro a h; cases h; rfl⟩ [5, 6] [0, 2] (by decide)

example : ResOk (⟨3, some [7, 0, 0], [0]⟩ : Res Nat) := ⟨by decide, by decide, by intro a h; cases h; rfl⟩

theorem nodup_bounded_length (l : List Int) (n : Nat) (h : l.Nodup) (hr : ∀ i ∈ l, 0 ≤ i ∧ i < n) : l.length ≤ n := by
  have h1 : (l.map Int.toNat).Nodup := by
    apply List.Nodup.map_on _ h
    intro x hx y hy e
    have := hr x hx
    have := hr y hy
    omega
  have h2 : (l.map Int.toNat) ⊆ List.range n := by
    intro x hx
    obtain ⟨i, hi, rfl⟩ := List.mem_map.1 hx
    have := hr i hi
    exact List.mem_range.2 (by omega)
  have := (List.subperm_of_subset h1 h2).length_le
  simpa using this

/-- **C27**: a reservoir never reports more rows than its capacity. -/
theorem C27_len_le_capacity {α : Type} (r : Res α) (hr : ResOk r) : r.len ≤ r.nsamples :=
  nodup_bounded_length _ _ hr.nodup hr.range

example := C27_len_le_capacity (⟨3, some [7, 0, 0], [0]⟩ : Res Nat) ⟨by decide, by decide, by intro a h; cases h; rfl⟩

/-- **C27**, what does not hold: explicit negative indices are accepted and counted apart from the row they stand for, so that two
writes to one row count as a full reservoir of two. -/
theorem C27_negative_index_counted_twice :
    let r0 : Res Nat := ⟨2, none, []⟩
    let r1 := (r0.add 0 [5, 6] [1, -1]).1
    r1.len = 2 ∧ r1.get = .ok [0, 6] := by decide

/-- `get_batch` errors: more than the capacity or more than is there. -/
theorem C27_get_batch_errors {α : Type} (r : Res α) (hr : ResOk r) (b : Nat) (choice : List Int) (h : r.len < b) :
    r.getBatch b choice = .error .valueError := by
  have := C27_len_le_capacity r hr
  unfold Res.getBatch
  unfold Res.len at h this
  split
  · rfl
  · rfl

example := C27_get_batch_errors (⟨3, some [7, 0, 0], [0]⟩ : Res Nat) ⟨by decide, by decide, by intro a h; cases h; rfl⟩ 2 [0, 1] (by decide)

theorem rowsAt_map {α β : Type} (f : α → β) (arr : List α) (ks : List Nat) :
    rowsAt (arr.map f) ks = (rowsAt arr ks).map f := by
  induction ks with
  | nil => rfl
  | cons k ks ih =>
    simp only [rowsAt, List.getElem?_map]
    cases arr[k]? <;> simp [ih]

theorem insertInt_mem (x y : Int) (l : List Int) : y ∈ insertInt x l ↔ y = x ∨ y ∈ l := by
  induction l with
  | nil => simp [insertInt]
  | cons a l ih =>
    unfold insertInt
    split
    · simp
    · simp only [List.mem_cons, ih]; tauto

theorem insertInt_sorted (x : Int) (l : List Int) (h : l.Pairwise (· < ·)) (hx : x ∉ l) : (insertInt x l).Pairwise (· < ·) := by
  induction l with
  | nil => simp [insertInt]
  | cons a l ih =>
    obtain ⟨h1, h2⟩ := List.pairwise_cons.1 h
    simp only [List.mem_cons, not_or] at hx
    unfold insertInt
    split
    · rw [List.pairwise_cons]
      refine ⟨?_, h⟩
      intro y hy
      rcases List.mem_cons.1 hy with rfl | hy
      · omega
      · have := h1 y hy; omega
    · rw [List.pairwise_cons]
      refine ⟨?_, ih h2 hx.2⟩
      intro y hy
      rcases (insertInt_mem _ _ _).1 hy with rfl | hy
      · omega
      · exact h1 y hy

theorem sortInt_spec (l : List Int) (h : l.Nodup) : (sortInt l).Pairwise (· < ·) ∧ ∀ x, x ∈ sortInt l ↔ x ∈ l := by
  induction l with
  | nil => simp [sortInt]
  | cons a l ih =>
    obtain ⟨h1, h2⟩ := List.nodup_cons.1 h
    obtain ⟨i1, i2⟩ := ih h2
    refine ⟨insertInt_sorted a _ i1 (fun hc => h1 ((i2 a).1 hc)), ?_⟩
    intro x
    show x ∈ insertInt a (sortInt l) ↔ _
    rw [insertInt_mem, i2, List.mem_cons]

theorem rowsAt_eq {α : Type} (a : List α) (ks : List Nat) (h : ∀ k ∈ ks, k < a.length) :
    (rowsAt a ks).map some = ks.map (fun k => a[k]?) := by
  induction ks with
  | nil => rfl
  | cons k ks ih =>
    have hk := h k (by simp)
    simp only [rowsAt, List.getElem?_eq_getElem hk, List.map_cons, ih (fun j hj => h j (by simp [hj]))]

/-- **C27**: `get` returns the occupied rows, each once, in row order (all rows when the reservoir is full). -/
theorem C27_get {α : Type} (r : Res α) (hr : ResOk r) (a : List α) (ha : r.arr = some a) :
    ∃ (ks : List Nat) (out : List α), r.get = .ok out ∧ ks.Pairwise (· < ·) ∧ (∀ k : Nat, k ∈ ks ↔ (k : Int) ∈ r.indices) ∧
      out.map some = ks.map (fun k => a[k]?) := by
  obtain ⟨s1, s2⟩ := sortInt_spec r.indices hr.nodup
  have hrange : ∀ i ∈ sortInt r.indices, 0 ≤ i ∧ i < r.nsamples := fun i hi => hr.range i ((s2 i).1 hi)
  have hal := hr.len a ha
  have hks : ((sortInt r.indices).map Int.toNat).Pairwise (· < ·) := by
    rw [List.pairwise_map]
    refine List.Pairwise.imp_of_mem ?_ s1
    intro x y hx hy hxy
    have := hrange x hx
    have := hrange y hy
    omega
  have hmem : ∀ k : Nat, k ∈ (sortInt r.indices).map Int.toNat ↔ (k : Int) ∈ r.indices := by
    intro k
    rw [List.mem_map]
    constructor
    · rintro ⟨i, hi, rfl⟩
      have := hrange i hi
      rw [Int.toNat_of_nonneg this.1]
      exact (s2 i).1 hi
    · intro h
      exact ⟨k, (s2 _).2 h, by simp⟩
  have hb : ∀ k ∈ (sortInt r.indices).map Int.toNat, k < a.length := by
    intro k hk
    have := hr.range _ ((hmem k).1 hk)
    omega
  unfold Res.get
  rw [ha]
  dsimp only
  split
  · rename_i hfull
    refine ⟨(sortInt r.indices).map Int.toNat, a, rfl, hks, hmem, ?_⟩
    -- the sorted occupied rows are all rows
    have hsub : ((sortInt r.indices).map Int.toNat) = List.range r.nsamples := by
      apply List.Perm.eq_of_pairwise (le := (· < ·)) (by intro x y _ _ h1 h2; omega) hks List.pairwise_lt_range
      have hnd : ((sortInt r.indices).map Int.toNat).Nodup := hks.imp (by intro x y h; omega)
      have hsubset : ((sortInt r.indices).map Int.toNat) ⊆ List.range r.nsamples := by
        intro k hk
        have := hb k hk
        exact List.mem_range.2 (by omega)
      have hlen : ((sortInt r.indices).map Int.toNat).length = r.nsamples := by
        have hp : (sortInt r.indices).Perm r.indices := by
          rw [List.perm_ext_iff_of_nodup (s1.imp (by intro x y h; omega)) hr.nodup]
          exact s2
        rw [List.length_map, hp.length_eq, hfull]
      exact (List.subperm_of_subset hnd hsubset).perm_of_length_le (by simp [hlen])
    rw [hsub]
    apply List.ext_getElem
    · simp [hal]
    · intro i h1 h2
      have : i < a.length := by simpa using h1
      simp [this]
  · rw [normAll_range _ _ hrange]
    exact ⟨(sortInt r.indices).map Int.toNat, _, rfl, hks, hmem, rowsAt_eq a _ hb⟩

example := C27_get (⟨4, some [7, 0, 9, 0], [2, 0]⟩ : Res Nat) ⟨by decide, by decide, by intro a h; cases h; rfl⟩ _ rfl

example : Res.get (⟨4, some [7, 0, 9, 0], [2, 0]⟩ : Res Nat) = .ok [7, 9] := by decide

/-- **C27**: `get_batch` returns the requested number of rows, all of them rows that were written. -/
theorem C27_get_batch {α : Type} (r : Res α) (hr : ResOk r) (a : List α) (ha : r.arr = some a) (b : Nat) (hb : b ≤ r.len)
    (choice : List Int) (hc : choice.length = b) (hm : ∀ i ∈ choice, i ∈ r.indices) :
    ∃ out, r.getBatch b choice = .ok out ∧ out.length = b ∧ out.map some = choice.map (fun i => a[i.toNat]?) := by
  have h1 := C27_len_le_capacity r hr
  have hal := hr.len a ha
  unfold Res.len at hb h1
  unfold Res.getBatch
  rw [if_neg (by omega), if_neg (by omega), ha]
  dsimp only
  have hrange : ∀ i ∈ choice, 0 ≤ i ∧ i < r.nsamples := fun i hi => hr.range i (hm i hi)
  rw [normAll_range _ _ hrange]
  have he := rowsAt_eq a (choice.map Int.toNat) (by
    intro k hk
    obtain ⟨i, hi, rfl⟩ := List.mem_map.1 hk
    have := hrange i hi
    omega)
  refine ⟨_, rfl, ?_, ?_⟩
  · have := congrArg List.length he
    simp only [List.length_map] at this
    rw [this, hc]
  · rw [he, List.map_map]; rfl

example := C27_get_batch (⟨4, some [7, 0, 9, 0], [2, 0]⟩ : Res Nat) ⟨by decide, by decide, by intro a h; cases h; rfl⟩ _ rfl 1 (by decide)
  [2] rfl (by decide)

/-! ### Alignment

Each input sample is a value of some type `τ`; the stream of key `k` carries `f k` of it.  A tagged reservoir that stores the samples
themselves is the reference. -/

/-- One `add` of a batch of samples to a reservoir of the samples themselves. -/
def tagAdd {τ : Type} (n : Nat) (slots : List (Option τ)) (indices : List Nat) (samples : List τ) : List (Option τ) :=
  assign (if slots = [] then List.replicate n none else slots) indices (samples.map some)

/-- The row of key `k` for a slot: that key's part of the sample, or zero when nothing was written yet. -/
def keyRow {κ τ α : Type} (z : α) (f : κ → τ → α) (k : κ) : Option τ → α
  | none => z
  | some t => f k t

/-- The random row numbers of one call: they come if as many are asked for as there are. -/
def drawn (idx : List Int) (n : Nat) : List Int := if n = idx.length then idx else []

/-- A sequence of adds: for each, the samples and the random row numbers. -/
def muxRun {κ τ α : Type} [DecidableEq κ] (z : α) (f : κ → τ → α) (keys : List κ) (m : Mux κ α) :
    List (List τ × List Int) → Mux κ α
  | [] => m
  | (samples, idx) :: rest =>
    muxRun z f keys (m.add z (keys.map (fun k => (k, samples.map (f k)))) (drawn idx)).1 rest

/-- The reference: one reservoir of whole samples. -/
def refRun {τ : Type} (n : Nat) : List (Option τ) → List (List τ × List Int) → List (Option τ)
  | slots, [] => slots
  | slots, (samples, idx) :: rest => refRun n (assign slots (idx.map Int.toNat) (samples.map some)) rest

/-- All the row numbers used by a history. -/
def usedRows : List (List τ × List Int) → List Int → List Int
  | [], s => s
  | (_, idx) :: rest, s => usedRows rest (setUpdate s idx)

theorem assign_keyRow {κ τ α : Type} (z : α) (f : κ → τ → α) (k : κ) (slots : List (Option τ)) (is : List Nat) (ts : List τ) :
    assign (slots.map (keyRow z f k)) is (ts.map (f k)) = (assign slots is (ts.map some)).map (keyRow z f k) := by
  rw [← assign_map]
  congr 1
  rw [List.map_map]; rfl

/-- state of a multiplexed reservoir that is aligned with reference slots -/
def alignedRes {κ τ α : Type} (z : α) (f : κ → τ → α) (n : Nat) (keys : List κ) (slots : List (Option τ)) (used : List Int) :
    List (κ × Res α) :=
  keys.map (fun k => (k, ⟨n, some (slots.map (keyRow z f k)), used⟩))

theorem muxAddOne_skip {κ α : Type} [DecidableEq κ] (z : α) (k : κ) (v : List α) (idx : List Int)
    (pre : List (κ × Res α)) (hpre : k ∉ pre.map (·.1)) (r : Res α) (post : List (κ × Res α)) :
    muxAddOne z k v idx (pre ++ (k, r) :: post) = (pre ++ (k, (r.add z v idx).1) :: post, (r.add z v idx).2) := by
  induction pre with
  | nil => simp [muxAddOne]
  | cons p pre ih =>
    obtain ⟨k', r'⟩ := p
    simp only [List.map_cons, List.mem_cons, not_or] at hpre
    simp [muxAddOne, hpre.1, ih hpre.2]

theorem muxAddAll_ok {κ α : Type} [DecidableEq κ] (z : α) (idx : List Int) (post : List κ) (v : κ → List α) (r r' : κ → Res α)
    (hok : ∀ k, (r k).add z (v k) idx = (r' k, .ok ())) : ∀ (pre : List κ), (pre ++ post).Nodup →
    muxAddAll z idx (post.map (fun k => (k, v k))) (pre.map (fun k => (k, r' k)) ++ post.map (fun k => (k, r k)))
      = ((pre ++ post).map (fun k => (k, r' k)), .ok ()) := by
  induction post with
  | nil => intro pre _; simp [muxAddAll]
  | cons k post ih =>
    intro pre hnd
    have hk : k ∉ pre := by
      intro hcon
      rw [List.nodup_append] at hnd
      exact hnd.2.2 k hcon k (by simp) rfl
    simp only [List.map_cons, muxAddAll]
    rw [muxAddOne_skip z k (v k) idx _ (by simpa using hk), hok k]
    have := ih (pre ++ [k]) (by simpa using hnd)
    simpa using this

theorem sameKeys_refl {κ : Type} [DecidableEq κ] (a : List κ) : sameKeys a a = true := by
  simp [sameKeys]

/-- **C27**: through any history of adds in which every key gets as many rows as there are samples, row `i` of every key is that key's
part of one and the same input sample — the one a single reservoir of whole samples would hold — and all keys report the same
occupied rows. -/
theorem C27_aligned {κ τ α : Type} [DecidableEq κ] (z : α) (f : κ → τ → α) (keys : List κ) (hk : keys ≠ []) (hnd : keys.Nodup)
    (n : Nat) (hist : List (List τ × List Int))
    (hh : ∀ h ∈ hist, h.2.length = h.1.length ∧ ∀ i ∈ h.2, 0 ≤ i ∧ i < n) (hne : hist ≠ []) :
    (muxRun z f keys ⟨n, none⟩ hist).reservoir
      = some (alignedRes z f n keys (refRun n (List.replicate n none) hist) (usedRows hist [])) := by
  have step : ∀ (slots : List (Option τ)) (used : List Int) (r : κ → Res α) (h : List τ × List Int),
      (∀ k, (r k).nsamples = n ∧ (r k).arr.getD (List.replicate n z) = slots.map (keyRow z f k) ∧ (r k).indices = used) →
      h.2.length = h.1.length → (∀ i ∈ h.2, 0 ≤ i ∧ i < n) →
      ∀ (m : Mux κ α), m.nsamples = n →
        m.reservoir.getD (keys.map (fun k => (k, (⟨n, none, []⟩ : Res α)))) = keys.map (fun k => (k, r k)) →
      (m.add z (keys.map (fun k => (k, h.1.map (f k)))) (drawn h.2)).1
        = ⟨n, some (alignedRes z f n keys (assign slots (h.2.map Int.toNat) (h.1.map some)) (setUpdate used h.2))⟩ := by
    intro slots used r h hr hl hi m hm hres
    unfold Mux.add
    have e : (keys.map (fun k => (k, h.1.map (f k)))).map (fun s => (s.1, (⟨m.nsamples, none, []⟩ : Res α)))
        = keys.map (fun k => (k, (⟨n, none, []⟩ : Res α))) := by
      rw [hm]; simp [Function.comp_def]
    have e2 : muxIndices (keys.map (fun k => (k, h.1.map (f k)))) (drawn h.2) = h.2 := by
      cases keys with
      | nil => exact absurd rfl hk
      | cons k ks => simp [muxIndices, drawn, hl]
    have e3 : sameKeys ((keys.map (fun k => (k, r k))).map (·.1)) ((keys.map (fun k => (k, h.1.map (f k)))).map (·.1)) = true := by
      simp [Function.comp_def, sameKeys_refl]
    dsimp only
    rw [e, hres, e3, if_pos rfl, e2]
    have hadd : ∀ k, (r k).add z (h.1.map (f k)) h.2
        = (⟨n, some ((assign slots (h.2.map Int.toNat) (h.1.map some)).map (keyRow z f k)), setUpdate used h.2⟩, .ok ()) := by
      intro k
      obtain ⟨h1, h2, h3⟩ := hr k
      unfold Res.add
      simp only [h1, h2, h3, List.length_map, hl, normAll_range n h.2 hi]
      simp [assign_keyRow]
    have := muxAddAll_ok z h.2 keys (fun k => h.1.map (f k)) r _ hadd [] (by simpa using hnd)
    simp only [List.map_nil, List.nil_append] at this
    rw [this, hm]
    rfl
  have run : ∀ (hist : List (List τ × List Int)) (slots : List (Option τ)) (used : List Int),
      (∀ h ∈ hist, h.2.length = h.1.length ∧ ∀ i ∈ h.2, 0 ≤ i ∧ i < n) →
      (muxRun z f keys ⟨n, some (alignedRes z f n keys slots used)⟩ hist).reservoir
        = some (alignedRes z f n keys (refRun n slots hist) (usedRows hist used)) := by
    intro hist
    induction hist with
    | nil => intro slots used _; rfl
    | cons h hist ih =>
      intro slots used hh
      obtain ⟨samples, idx⟩ := h
      have := hh (samples, idx) (by simp)
      simp only [muxRun, refRun, usedRows]
      rw [step slots used (fun k => ⟨n, some (slots.map (keyRow z f k)), used⟩) (samples, idx) (by intro k; simp)
        this.1 this.2 _ rfl (by simp [alignedRes])]
      exact ih _ _ (fun h hh' => hh h (by simp [hh']))
  cases hist with
  | nil => exact absurd rfl hne
  | cons h hist =>
    obtain ⟨samples, idx⟩ := h
    have := hh (samples, idx) (by simp)
    simp only [muxRun, refRun, usedRows]
    rw [step (List.replicate n none) [] (fun k => ⟨n, none, []⟩) (samples, idx) (by intro k; simp [keyRow])
      this.1 this.2 _ rfl (by simp)]
    exact run hist _ _ (fun h hh' => hh h (by simp [hh']))

example := C27_aligned 0 (fun (k : Nat) (t : Nat) => k * 10 + t) [1, 2] (by decide) (by decide) 2 [([3, 4], [0, 1]), ([5], [0])]
  (by decide) (by decide)

/-- Two keys, two adds, a row overwritten. -/
example : (muxRun 0 (fun (k : Nat) (t : Nat) => k * 10 + t) [1, 2] ⟨2, none⟩ [([3, 4], [0, 1]), ([5], [0])]).reservoir
    = some [(1, ⟨2, some [15, 14], [0, 1]⟩), (2, ⟨2, some [25, 24], [0, 1]⟩)] := by decide

/-- **C27**, what does not hold: an add that is refused because a later key has another number of rows has already written the earlier
keys, and the rows are no longer from the same sample. -/
theorem C27_refused_add_misaligns :
    let m0 : Mux Nat Nat := ⟨2, none⟩
    let m1 := (m0.add 0 [(1, [11, 12]), (2, [21, 22])] (fun _ => [0, 1])).1
    let out := m1.add 0 [(1, [13]), (2, [])] (fun _ => [0])
    out.2 = .error .valueError ∧
      out.1.reservoir = some [(1, ⟨2, some [13, 12], [0, 1]⟩), (2, ⟨2, some [21, 22], [0, 1]⟩)] := by decide

/-- **C27**: an add with other keys is refused and writes nothing. -/
theorem C27_wrong_keys_refused {κ α : Type} [DecidableEq κ] (z : α) (n : Nat) (rs : List (κ × Res α)) (samples : List (κ × List α))
    (draw : Nat → List Int) (h : ¬ (∀ k, k ∈ rs.map (·.1) ↔ k ∈ samples.map (·.1))) :
    Mux.add z ⟨n, some rs⟩ samples draw = (⟨n, some rs⟩, .error .valueError) := by
  have hs : sameKeys (rs.map (·.1)) (samples.map (·.1)) = false := by
    rw [Bool.eq_false_iff]
    intro hcon
    apply h
    simp only [sameKeys, Bool.and_eq_true, List.all_eq_true, decide_eq_true_eq] at hcon
    exact fun k => ⟨hcon.1 k, hcon.2 k⟩
  unfold Mux.add
  simp [hs]

example := C27_wrong_keys_refused (0 : Nat) 2 [(1, ⟨2, none, []⟩)] [(2, [5])] (fun _ => [0]) (by intro h; exact absurd ((h 1).1 (by simp)) (by simp))

/-- The hypothesis is met. -/
example : Mux.add (0 : Nat) ⟨2, some [(1, ⟨2, none, []⟩)]⟩ [(2, [5])] (fun _ => [0])
    = (⟨2, some [(1, ⟨2, none, []⟩)]⟩, .error .valueError) := by decide

/-- **C27**, what does not hold: two adds from two threads (as `InfiniteSampler(parallel=True)` makes them) interleave between keys;
here A writes key 1, B writes key 1 and 2, A writes key 2, all to row 0, and row 0 has key 1 of B and key 2 of A. -/
theorem C27_interleaved_adds_misalign :
    let rs0 : List (Nat × Res Nat) := [(1, ⟨1, none, []⟩), (2, ⟨1, none, []⟩)]
    let rs1 := (muxAddOne 0 1 [11] [0] rs0).1
    let rs2 := (muxAddOne 0 1 [12] [0] rs1).1
    let rs3 := (muxAddOne 0 2 [22] [0] rs2).1
    let rs4 := (muxAddOne 0 2 [21] [0] rs3).1
    rs4 = [(1, ⟨1, some [12], [0]⟩), (2, ⟨1, some [21], [0]⟩)] := by decide

/-! ## InfiniteSampler -/

/-- **C27**: in one pass every sound contributes at least one row, and the pass writes at most the capacity plus one row per sound. -/
theorem C27_contributions (n : Nat) (sizes : List Nat) (total : Nat) (ht : total = sizes.sum) (hpos : 0 < total) :
    (∀ s ∈ sizes, 1 ≤ contribution n s total) ∧
    (sizes.map (fun s => contribution n s total)).sum ≤ n + sizes.length := by
  refine ⟨fun s _ => by unfold contribution; omega, ?_⟩
  have h1 : ∀ (l : List Nat), (l.map (fun s => contribution n s total)).sum ≤ (l.map (fun s => n * s / total)).sum + l.length := by
    intro l
    induction l with
    | nil => simp
    | cons s l ih =>
      simp only [List.map_cons, List.sum_cons, List.length_cons]
      have : contribution n s total ≤ n * s / total + 1 := by
        unfold contribution; exact max_le (Nat.le_add_left _ _) (Nat.le_succ _)
      omega
  have h2 : ∀ (l : List Nat), (l.map (fun s => n * s / total)).sum * total ≤ n * l.sum := by
    intro l
    induction l with
    | nil => simp
    | cons s l ih =>
      simp only [List.map_cons, List.sum_cons]
      have := Nat.div_mul_le_self (n * s) total
      rw [Nat.add_mul, Nat.mul_add]
      omega
  have h3 : (sizes.map (fun s => n * s / total)).sum ≤ n := by
    have := h2 sizes
    rw [← ht] at this
    exact Nat.le_of_mul_le_mul_right this hpos
  have := h1 sizes
  omega

example := C27_contributions 2 [1, 0, 3] 4 rfl (by decide)

example : ([1, 0, 3].map (fun s => contribution 2 s 4)).sum = 3 := by decide

/-- **C26** (construction): a reservoir of any positive capacity can be made and is empty; other capacities are a ValueError. -/
theorem C26_new (α : Type) (n : Int) :
    (0 < n → ∃ r, Res.new α n = .ok r ∧ (r.nsamples : Int) = n ∧ r.len = 0) ∧ (n ≤ 0 → Res.new α n = .error .valueError) := by
  unfold Res.new
  constructor
  · intro h
    rw [if_neg (by omega)]
    exact ⟨_, rfl, by simp only; omega, rfl⟩
  · intro h; rw [if_pos h]

example : ∃ r, Res.new Nat 1 = .ok r ∧ (r.nsamples : Int) = 1 ∧ r.len = 0 := (C26_new Nat 1).1 (by decide)

/-- **C26** (explicit indices): an index outside the reservoir is an IndexError and nothing is written or counted; a wrong number of indices is a
ValueError. -/
theorem C26_bad_index {α : Type} (z : α) (r : Res α) (samples : List α) (indices : List Int) :
    (indices.length ≠ samples.length → (r.add z samples indices).2 = .error .valueError) ∧
    (indices.length = samples.length → (∃ i ∈ indices, i < -(r.nsamples : Int) ∨ (r.nsamples : Int) ≤ i) →
      (r.add z samples indices).2 = .error .indexError ∧ (r.add z samples indices).1.indices = r.indices ∧
      (r.add z samples indices).1.arr = some (r.arr.getD (List.replicate r.nsamples z))) := by
  constructor
  · intro h; unfold Res.add; simp [h]
  · intro h ⟨i, hi, hbad⟩
    have : normAll r.nsamples indices = none := by
      clear h
      induction indices with
      | nil => simp at hi
      | cons j js ih =>
        unfold normAll
        rcases List.mem_cons.1 hi with rfl | hi
        · have : normIndex r.nsamples i = none := by
            unfold normIndex; rw [if_neg (by omega), if_neg (by omega)]
          rw [this]
        · rw [ih hi]
          cases normIndex r.nsamples j <;> rfl
    unfold Res.add
    simp [h, this]

example := (C26_bad_index 0 (⟨2, none, []⟩ : Res Nat) [7, 8] [0]).1 (by decide)
example := (C26_bad_index 0 (⟨2, none, []⟩ : Res Nat) [7, 8] [0, 5]).2 rfl ⟨5, by simp, Or.inr (by decide)⟩

example : ∃ i ∈ [(0 : Int), 5], i < -(((⟨2, none, []⟩ : Res Nat).nsamples : Nat) : Int) ∨ (((⟨2, none, []⟩ : Res Nat).nsamples : Nat) : Int) ≤ i :=
  ⟨5, by simp, Or.inr (by decide)⟩

end Zounds.Reservoir
