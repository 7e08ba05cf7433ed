import Verif.Model.Memory
import Verif.Props.Windowed
import Verif.Lemmas.SlidingWindow
import Verif.Props.Growable
import Verif.Props.Sampler

/-!
# C377–C379: which results share memory with what they were made of
-/

namespace Zounds.Memory
open Zounds

/-! ## C377: windows -/

theorem fresh_old {α : Type} (m : Arr.Mem α) (xs : List α) (x : Nat) (h : x < m.next) : (fresh m xs).1.cells x = m.cells x := by
  simp only [fresh]
  rw [if_neg (by omega)]

theorem fresh_ge {α : Type} (m : Arr.Mem α) (xs : List α) : ∀ x ∈ (fresh m xs).2, m.next ≤ x ∧ x < (fresh m xs).1.next := by
  intro x hx
  simp only [fresh, List.mem_map, List.mem_range] at hx ⊢
  obtain ⟨i, hi, rfl⟩ := hx
  omega

theorem fresh_nodup {α : Type} (m : Arr.Mem α) (xs : List α) : (fresh m xs).2.Nodup := by
  simp only [fresh]
  exact List.Nodup.map_on (fun a _ b _ h => by omega) List.nodup_range

theorem fresh_read {α : Type} (m : Arr.Mem α) (xs : List α) : (fresh m xs).2.map (fresh m xs).1.cells = xs := by
  apply List.ext_getElem?
  intro i
  simp only [fresh, List.map_map, List.getElem?_map]
  by_cases h : i < xs.length
  · rw [List.getElem?_range h]
    simp [h]
  · rw [List.getElem?_eq_none (by simp; omega), List.getElem?_eq_none (by omega)]
    rfl

theorem fresh_length {α : Type} (m : Arr.Mem α) (xs : List α) : (fresh m xs).2.length = xs.length := by simp [fresh]

theorem fresh_next {α : Type} (m : Arr.Mem α) (xs : List α) : m.next ≤ (fresh m xs).1.next := by simp [fresh]

/-- An array in memory: its numbers are in different cells, which have been handed out. -/
def Stored {α : Type} (m : Arr.Mem α) (a : List Nat) : Prop := a.Nodup ∧ ∀ x ∈ a, x < m.next

/-- Where a step leads: the same array, or one in new cells. -/
structure Leads {α : Type} (m : Arr.Mem α) (a : List Nat) (same : Prop) (xs : List α) (q : Arr.Mem α × List Nat) : Prop where
  stored : Stored q.1 q.2
  here : same → q = (m, a)
  apart : ¬ same → (∀ x ∈ q.2, m.next ≤ x) ∧ ∀ x, x < m.next → q.1.cells x = m.cells x
  values : q.2.map q.1.cells = xs
  next : m.next ≤ q.1.next

theorem fresh_leads {α : Type} (m : Arr.Mem α) (a : List Nat) (xs : List α) : Leads m a False xs (fresh m xs) :=
  ⟨⟨fresh_nodup m xs, fun x hx => (fresh_ge m xs x hx).2⟩, False.elim, fun _ => ⟨fun x hx => (fresh_ge m xs x hx).1, fresh_old m xs⟩, fresh_read m xs, fresh_next m xs⟩

theorem settle_leads {α : Type} (m : Arr.Mem α) (a : List Nat) (ha : Stored m a) (c : Bool) : Leads m a (c = true) (a.map m.cells) (settle m a c) := by
  unfold settle
  cases c with
  | true => exact ⟨ha, fun _ => rfl, fun h => absurd rfl h, rfl, Nat.le_refl _⟩
  | false =>
    obtain ⟨h1, -, h3, h4, h5⟩ := fresh_leads m a (a.map m.cells)
    exact ⟨h1, fun h => by simp at h, fun _ => h3 id, h4, h5⟩

theorem padIn_leads {α : Type} (z : α) (m : Arr.Mem α) (a : List Nat) (ha : Stored m a) (d : Int) :
    Leads m a (d ≤ a.length) (Npx.pad z (a.map m.cells) d) (padIn z m a d) := by
  unfold padIn
  split
  · rename_i h
    refine ⟨ha, fun _ => rfl, fun hn => absurd h hn, ?_, Nat.le_refl _⟩
    unfold Npx.pad
    rw [if_pos (by simpa using h)]
  · rename_i h
    obtain ⟨h1, -, h3, h4, h5⟩ := fresh_leads m a (Npx.pad z (a.map m.cells) d)
    exact ⟨h1, fun hc => absurd hc h, fun _ => h3 id, h4, h5⟩

theorem leads_trans {α : Type} {m : Arr.Mem α} {a : List Nat} {P Q : Prop} {xs ys : List α} {p q : Arr.Mem α × List Nat} (h : Leads m a P xs p) (g : Leads p.1 p.2 Q ys q) :
    Leads m a (P ∧ Q) ys q := by
  refine ⟨g.stored, ?_, ?_, g.values, Nat.le_trans h.next g.next⟩
  · rintro ⟨h1, h2⟩
    rw [g.here h2, h.here h1]
  · intro hn
    by_cases h1 : P
    · have hq : ¬ Q := fun h2 => hn ⟨h1, h2⟩
      have e := h.here h1
      obtain ⟨g1, g2⟩ := g.apart hq
      rw [e] at g1 g2
      exact ⟨g1, g2⟩
    · obtain ⟨h2, h3⟩ := h.apart h1
      by_cases hq : Q
      · rw [g.here hq]
        exact ⟨h2, h3⟩
      · obtain ⟨g1, g2⟩ := g.apart hq
        refine ⟨fun x hx => Nat.le_trans h.next (g1 x hx), fun x hx => ?_⟩
        rw [g2 x (Nat.lt_of_lt_of_le hx h.next), h3 x hx]

/-- The windows of an array: its stretches of `w` numbers every `s`. -/
def stretches (a : List Nat) (w s n : Nat) : List (List Nat) := (List.range n).map fun i => (a.drop (i * s)).take w

theorem views_eq (a : List Nat) (w s : Nat) (hs : 1 ≤ s) (h : w ≤ a.length) (h0 : 0 < a.length) : views a w s = .ok (stretches a w s (1 + (a.length - w) / s)) := by
  unfold views stretches
  rw [if_neg (by omega)]
  have hn : (1 + ((a.length : Int) - w) / (s : Int)).toNat = 1 + (a.length - w) / s := by
    have : (a.length : Int) - w = ((a.length - w : Nat) : Int) := by omega
    rw [this, ← Int.natCast_ediv]
    generalize (a.length - w) / s = q
    omega
  rw [hn]
  apply Npx.mapM_readWindow
  intro i hi
  have h1 : i * s ≤ (a.length - w) / s * s := Nat.mul_le_mul_right s (by omega)
  have := Nat.div_mul_le_self (a.length - w) s
  omega

/-- Is the last window made of the array's own numbers? -/
theorem fits_iff (l w s : Nat) (hw : 2 ≤ w) (hs : 1 ≤ s) : (Npx.nPad l w s - 1) * s + w ≤ l ↔ Npx.wpad l w s ≤ l := by
  have hp := Npx.pad_wpad (0 : Nat) (List.replicate l 0) w s hs
  rw [List.length_replicate] at hp
  obtain ⟨hp, hle⟩ := hp
  have hn := Npx.nPad_padLen l w s hw hs
  have hlen := congrArg List.length hp
  unfold Npx.pad at hlen
  have hback : Npx.wpad l w s ≤ l ↔ Npx.padLen l w s = l := by
    split at hlen
    · rename_i h
      rw [List.length_replicate] at h
      constructor
      · intro _
        simp only [List.length_append, List.length_replicate] at hlen
        omega
      · intro _
        exact h
    · rename_i h
      rw [List.length_replicate] at h
      simp only [List.length_append, List.length_replicate] at hlen
      omega
  rw [hback]
  constructor
  · intro h
    have hd := Nat.div_mul_le_self (Npx.padLen l w s - w) s
    have e : (Npx.nPad l w s - 1) = (Npx.padLen l w s - w) / s := by rw [← hn.2, Nat.add_sub_cancel_left]
    unfold Npx.padLen Npx.nPad at *
    by_cases h1 : l ≤ w
    · simp only [if_pos h1] at *
      omega
    · simp only [if_neg h1] at *
      by_cases h2 : w = s
      · subst h2
        simp only [if_true] at *
        have h3 : 1 ≤ (l + w - 1) / w := by rw [Nat.le_div_iff_mul_le (by omega)]; omega
        have h4 : ((l + w - 1) / w - 1) * w + w = (l + w - 1) / w * w := by
          generalize (l + w - 1) / w = k at *
          obtain ⟨k, rfl⟩ : ∃ k', k = k' + 1 := ⟨k - 1, by omega⟩
          rw [Nat.add_mul]
          simp
        omega
      · simp only [if_neg h2] at *
        by_cases h3 : s < w ∧ l % s ≤ w - s
        · simp only [if_pos h3] at *
          have h4 : 1 ≤ l / s := by rw [Nat.le_div_iff_mul_le (by omega)]; omega
          have h5 : (l / s - 1) * s + s = l / s * s := by
            generalize l / s = k at *
            obtain ⟨k, rfl⟩ : ∃ k', k = k' + 1 := ⟨k - 1, by omega⟩
            rw [Nat.add_mul]
            simp
          omega
        · simp only [if_neg h3] at *
  · intro h
    rw [h] at hn
    have hd := Nat.div_mul_le_self (l - w) s
    have e : (Npx.nPad l w s - 1) = (l - w) / s := by rw [← hn.2, Nat.add_sub_cancel_left]
    rw [e]
    omega

/-- Everything about the result at once. -/
theorem windows_in {α : Type} (z : α) (m : Arr.Mem α) (a : List Nat) (ha : Stored m a) (c : Bool) (w s : Nat) (hw : 2 ≤ w) (hs : 1 ≤ s) (p : Bool) :
    ∃ (q : Arr.Mem α × List Nat) (left : List Nat) (n : Nat), windowedIn z m a c w s p = (q.1, .ok (left, stretches q.2 w s n)) ∧
      (∀ i, i < n → i * s + w ≤ q.2.length) ∧ left = (if p then [] else q.2.drop (n * s)) ∧
      Npx.windowed z (a.map m.cells) w (some (s : Int)) p = .ok (left.map q.1.cells, .wins ((stretches q.2 w s n).map fun v => v.map q.1.cells)) ∧
      ∃ xs, Leads m a (c = true ∧ (p = true → (n - 1) * s + w ≤ a.length)) xs q := by
  have h1 := settle_leads m a ha c
  obtain ⟨q1, hq1⟩ : ∃ q1, q1 = settle m a c := ⟨_, rfl⟩
  rw [← hq1] at h1
  have hlen : q1.2.length = a.length := by simpa using congrArg List.length h1.values
  unfold windowedIn
  rw [← hq1]
  have hmap : ∀ (f : Nat → α) (b : List Nat) (n : Nat), (stretches b w s n).map (fun v => v.map f) = (List.range n).map fun i => ((b.map f).drop (i * s)).take w := by
    intro f b n
    simp [stretches, List.map_map, Function.comp_def, List.map_take, List.map_drop]
  cases p with
  | false =>
    refine ⟨q1, q1.2.drop (Npx.nWin q1.2.length w s * s), Npx.nWin q1.2.length w s, ?_, ?_, ?_, ?_, a.map m.cells, ?_⟩
    · simp only [Bool.false_eq_true, if_false]
      rw [Npx.windowed_nopad 0 q1.2 w s hw hs]
      rfl
    · intro i hi
      exact Npx.nWin_fit hi
    · simp
    · rw [Npx.windowed_nopad z _ w s hw hs, hmap, h1.values, List.map_drop, h1.values, List.length_map, hlen]
    · have e : (c = true ∧ (false = true → (Npx.nWin q1.2.length w s - 1) * s + w ≤ a.length)) = (c = true) := by simp
      rw [e]
      exact h1
  | true =>
    have h2 := padIn_leads z q1.1 q1.2 h1.stored (Npx.wpad q1.2.length w s)
    obtain ⟨q2, hq2⟩ : ∃ q2, q2 = padIn z q1.1 q1.2 (Npx.wpad q1.2.length w s) := ⟨_, rfl⟩
    rw [← hq2] at h2
    obtain ⟨e1, e2⟩ := Npx.pad_wpad z (a.map m.cells) w s hs
    rw [List.length_map] at e1 e2
    have hv := h2.values
    rw [h1.values, hlen, e1] at hv
    have hl2 : q2.2.length = Npx.padLen a.length w s := by
      have := congrArg List.length hv
      simp only [List.length_map, List.length_append, List.length_replicate] at this
      omega
    obtain ⟨hp1, hp2⟩ := Npx.nPad_padLen a.length w s hw hs
    refine ⟨q2, [], Npx.nPad a.length w s, ?_, ?_, by simp, ?_, Npx.pad z (q1.2.map q1.1.cells) (Npx.wpad q1.2.length w s), ?_⟩
    · simp only [if_true]
      rw [← hq2, views_eq _ w s hs (by rw [hl2]; exact hp1) (by omega), hl2, hp2]
      rfl
    · intro i hi
      rw [hl2]
      have g1 : i * s ≤ (Npx.padLen a.length w s - w) / s * s := Nat.mul_le_mul_right s (by omega)
      have := Nat.div_mul_le_self (Npx.padLen a.length w s - w) s
      omega
    · rw [Npx.windowed_pad z _ w s hw hs, List.length_map, hmap, hv]
      congr 3
      apply List.map_congr_left
      intro i hi
      rw [List.mem_range] at hi
      have g1 : i * s ≤ (Npx.padLen a.length w s - w) / s * s := Nat.mul_le_mul_right s (by omega)
      have g2 := Nat.div_mul_le_self (Npx.padLen a.length w s - w) s
      symm
      apply Npx.padWindow_eq
      all_goals first | (simp; done) | (simp only [List.length_map]; omega) | omega
    · have e : (c = true ∧ (true = true → (Npx.nPad a.length w s - 1) * s + w ≤ a.length)) = (c = true ∧ Npx.wpad q1.2.length w s ≤ q1.2.length) := by
        rw [fits_iff a.length w s hw hs, hlen]
        simp
      rw [e]
      exact leads_trans h1 h2

/-- Number `j` of window `i`. -/
def At (ws : List (List Nat)) (i j ad : Nat) : Prop := ∃ v, ws[i]? = some v ∧ v[j]? = some ad

theorem at_stretch {b : List Nat} {w s n i j ad : Nat} (h : At (stretches b w s n) i j ad) : i < n ∧ j < w ∧ b[i * s + j]? = some ad := by
  obtain ⟨v, h1, h2⟩ := h
  unfold stretches at h1
  rw [List.getElem?_map] at h1
  by_cases hi : i < n
  · rw [List.getElem?_range hi] at h1
    simp only [Option.map_some, Option.some.injEq] at h1
    subst h1
    rw [List.getElem?_take] at h2
    split at h2
    · rename_i hj
      rw [List.getElem?_drop] at h2
      exact ⟨hi, hj, h2⟩
    · simp at h2
  · rw [List.getElem?_eq_none (by simp; omega)] at h1
    simp at h1

/-- What `windowed` returns in memory reads as `windowed` of the numbers (C01, C02), and making it has changed no number of the input. -/
theorem C377_values {α : Type} (z : α) (m : Arr.Mem α) (a : List Nat) (ha : Stored m a) (contiguous : Bool) (w s : Nat) (hw : 2 ≤ w) (hs : 1 ≤ s) (dopad : Bool) :
    ∃ m' left ws, windowedIn z m a contiguous w s dopad = (m', .ok (left, ws)) ∧
      Npx.windowed z (a.map m.cells) w (some (s : Int)) dopad = .ok (left.map m'.cells, .wins (ws.map fun v => v.map m'.cells)) ∧ a.map m'.cells = a.map m.cells := by
  obtain ⟨q, left, n, h1, -, -, h4, xs, h5⟩ := windows_in z m a ha contiguous w s hw hs dopad
  refine ⟨q.1, left, _, h1, h4, ?_⟩
  by_cases hp : contiguous = true ∧ (dopad = true → (n - 1) * s + w ≤ a.length)
  · rw [h5.here hp]
  · apply List.map_congr_left
    intro x hx
    exact (h5.apart hp).2 x (ha.2 x hx)

/-- **C377**: the windows of an array share memory with each other: a number stored at place `j` of window `i` is read at every place `j'` of a window `i'` with `i' s + j' = i s + j`, and
nowhere else in the windows. -/
theorem C377_each_other {α : Type} (z : α) (m m' : Arr.Mem α) (a : List Nat) (ha : Stored m a) (contiguous : Bool) (w s : Nat) (hw : 2 ≤ w) (hs : 1 ≤ s) (dopad : Bool) (left : List Nat)
    (ws : List (List Nat)) (h : windowedIn z m a contiguous w s dopad = (m', .ok (left, ws))) (i j ad : Nat) (hij : At ws i j ad) (x : α) (i' j' ad' : Nat) (hij' : At ws i' j' ad') :
    (m'.store ad x).cells ad' = if i' * s + j' = i * s + j then x else m'.cells ad' := by
  obtain ⟨q, left0, n, h1, h2, -, -, xs, h5⟩ := windows_in z m a ha contiguous w s hw hs dopad
  rw [h1] at h
  cases h
  obtain ⟨-, -, e1⟩ := at_stretch hij
  obtain ⟨-, -, e2⟩ := at_stretch hij'
  unfold Arr.Mem.store
  simp only
  by_cases he : i' * s + j' = i * s + j
  · rw [if_pos he]
    rw [he, e1] at e2
    rw [if_pos (Option.some.inj e2).symm]
  · rw [if_neg he, if_neg]
    intro hc
    apply he
    have g1 := (List.getElem?_eq_some_iff.1 e1)
    have g2 := (List.getElem?_eq_some_iff.1 e2)
    obtain ⟨l1, g1⟩ := g1
    obtain ⟨l2, g2⟩ := g2
    exact (List.Nodup.getElem_inj_iff h5.stored.1).1 (by rw [g1, g2, hc])

/-- Of an array that is contiguous, if no zeros had to be put behind it (that is, the last window ends in it), the windows are the array's own memory: a number stored at place `j` of window `i` is
number `i s + j` of the array from then on, and no other number of it changes. -/
theorem C377_input {α : Type} (z : α) (m m' : Arr.Mem α) (a : List Nat) (ha : Stored m a) (w s : Nat) (hw : 2 ≤ w) (hs : 1 ≤ s) (dopad : Bool) (left : List Nat)
    (ws : List (List Nat)) (h : windowedIn z m a true w s dopad = (m', .ok (left, ws))) (hin : dopad = true → (ws.length - 1) * s + w ≤ a.length)
    (i j ad : Nat) (hij : At ws i j ad) (x : α) : a.map (m'.store ad x).cells = (a.map m.cells).set (i * s + j) x := by
  obtain ⟨q, left0, n, h1, h2, -, -, xs, h5⟩ := windows_in z m a ha true w s hw hs dopad
  rw [h1] at h
  cases h
  have hn : (stretches q.2 w s n).length = n := by simp [stretches]
  rw [hn] at hin
  have hq := h5.here ⟨rfl, hin⟩
  obtain ⟨-, -, e1⟩ := at_stretch hij
  rw [hq] at e1 ⊢
  simp only at e1
  obtain ⟨l1, g1⟩ := List.getElem?_eq_some_iff.1 e1
  apply List.ext_getElem
  · simp
  · intro p hp1 hp2
    simp only [List.length_map] at hp1
    rw [List.getElem_set]
    simp only [List.getElem_map, Arr.Mem.store]
    by_cases he : i * s + j = p
    · subst he
      rw [if_pos rfl, if_pos g1]
    · rw [if_neg he, if_neg]
      intro hc
      exact he ((List.Nodup.getElem_inj_iff ha.1).1 (by rw [g1, hc]))

/-- Otherwise they are a copy: whatever is stored in the windows, the array stays as it was. -/
theorem C377_copy {α : Type} (z : α) (m m' : Arr.Mem α) (a : List Nat) (ha : Stored m a) (contiguous : Bool) (w s : Nat) (hw : 2 ≤ w) (hs : 1 ≤ s) (dopad : Bool) (left : List Nat)
    (ws : List (List Nat)) (h : windowedIn z m a contiguous w s dopad = (m', .ok (left, ws)))
    (hout : contiguous = false ∨ (dopad = true ∧ a.length < (ws.length - 1) * s + w)) (i j ad : Nat) (hij : At ws i j ad) (x : α) : a.map (m'.store ad x).cells = a.map m.cells := by
  obtain ⟨q, left0, n, h1, h2, -, -, xs, h5⟩ := windows_in z m a ha contiguous w s hw hs dopad
  rw [h1] at h
  cases h
  have hn : (stretches q.2 w s n).length = n := by simp [stretches]
  rw [hn] at hout
  obtain ⟨g1, g2⟩ := h5.apart (by
    rintro ⟨p1, p2⟩
    rcases hout with hc | ⟨hc, hd⟩
    · rw [p1] at hc; simp at hc
    · have := p2 hc
      omega)
  obtain ⟨-, -, e1⟩ := at_stretch hij
  have hge := g1 ad (List.mem_of_getElem? e1)
  apply List.map_congr_left
  intro y hy
  have hlt := ha.2 y hy
  simp only [Arr.Mem.store]
  rw [if_neg (by omega), g2 y hlt]

/-- Without padding the leftover shares the memory of the windows that reach into it: its number `k` is place `j` of window `i` exactly if `i s + j = ws.length s + k`. -/
theorem C377_leftover {α : Type} (z : α) (m m' : Arr.Mem α) (a : List Nat) (ha : Stored m a) (contiguous : Bool) (w s : Nat) (hw : 2 ≤ w) (hs : 1 ≤ s) (left : List Nat)
    (ws : List (List Nat)) (h : windowedIn z m a contiguous w s false = (m', .ok (left, ws))) (i j ad : Nat) (hij : At ws i j ad) (x : α) (k adk : Nat) (hk : left[k]? = some adk) :
    (m'.store ad x).cells adk = if ws.length * s + k = i * s + j then x else m'.cells adk := by
  obtain ⟨q, left0, n, h1, h2, h3, -, xs, h5⟩ := windows_in z m a ha contiguous w s hw hs false
  rw [h1] at h
  cases h
  have hn : (stretches q.2 w s n).length = n := by simp [stretches]
  rw [hn]
  simp only [Bool.false_eq_true, if_false] at h3
  subst h3
  rw [List.getElem?_drop] at hk
  obtain ⟨-, -, e1⟩ := at_stretch hij
  simp only [Arr.Mem.store]
  by_cases he : n * s + k = i * s + j
  · rw [he, e1] at hk
    rw [if_pos he, if_pos (Option.some.inj hk).symm]
  · rw [if_neg he, if_neg]
    intro hc
    obtain ⟨l1, g1⟩ := List.getElem?_eq_some_iff.1 e1
    obtain ⟨l2, g2⟩ := List.getElem?_eq_some_iff.1 hk
    exact he ((List.Nodup.getElem_inj_iff h5.stored.1).1 (by rw [g1, g2, hc]))

/-- Five numbers in memory. -/
def five : Arr.Mem Nat := ⟨fun i => 10 * i, 5⟩

theorem five_stored : Stored five [0, 1, 2, 3, 4] := ⟨by decide, by decide⟩

theorem five_windows : (windowedIn 0 five [0, 1, 2, 3, 4] true 3 1 false).2 = .ok ([3, 4], [[0, 1, 2], [1, 2, 3], [2, 3, 4]]) := by decide +kernel

theorem five_at : At [[0, 1, 2], [1, 2, 3], [2, 3, 4]] 0 2 2 := ⟨[0, 1, 2], rfl, rfl⟩

example := C377_values 0 five _ five_stored false 3 2 (by decide) (by decide) true
example := C377_each_other 0 five _ _ five_stored true 3 1 (by decide) (by decide) false _ _ (Prod.ext rfl five_windows) 0 2 2 five_at 7 1 1 2 ⟨[1, 2, 3], rfl, rfl⟩
example := C377_input 0 five _ _ five_stored 3 1 (by decide) (by decide) false _ _ (Prod.ext rfl five_windows) (by simp) 0 2 2 five_at 7
example := C377_copy 0 five _ _ five_stored false 3 1 (by decide) (by decide) false [8, 9] [[5, 6, 7], [6, 7, 8], [7, 8, 9]]
  (Prod.ext rfl (by decide +kernel : (windowedIn 0 five [0, 1, 2, 3, 4] false 3 1 false).2 = .ok ([8, 9], [[5, 6, 7], [6, 7, 8], [7, 8, 9]]))) (Or.inl rfl) 0 2 7 ⟨[5, 6, 7], rfl, rfl⟩ 70
example := C377_leftover 0 five _ _ five_stored true 3 1 (by decide) (by decide) _ _ (Prod.ext rfl five_windows) 2 2 4 ⟨[2, 3, 4], rfl, rfl⟩ 7 1 4 rfl

/-! ## C380: windows of a stream -/

/-- The samples a node has when a chunk has arrived: what it kept, and the chunk. -/
def samplesOf {α : Type} (m : Arr.Mem α) (cache : Option (List Nat)) (chunk : List Nat) : List α := ((cache.getD []) ++ chunk).map m.cells

theorem push_in {α : Type} (z : α) (m : Arr.Mem α) (cache : Option (List Nat)) (chunk : List Nat) (hc : Stored m chunk) (w s : Nat) (hw : 2 ≤ w) (hs : 1 ≤ s) :
    ∃ m' buf n, pushIn z w s m cache chunk = (m', .ok (buf.drop (n * s), stretches buf w s n)) ∧ buf.Nodup ∧ buf.map m'.cells = samplesOf m cache chunk ∧
      (∀ i, i < n → i * s + w ≤ buf.length) ∧ (cache = none → buf = chunk) := by
  obtain ⟨b, hb, hst, hval, hnone⟩ : ∃ b, joined m cache chunk = b ∧ Stored b.1 b.2 ∧
      b.2.map b.1.cells = samplesOf m cache chunk ∧ (cache = none → b.2 = chunk) := by
    cases cache with
    | none => exact ⟨_, rfl, hc, by simp [samplesOf, joined], fun _ => rfl⟩
    | some c =>
      have h := fresh_leads m ([] : List Nat) ((c ++ chunk).map m.cells)
      exact ⟨_, rfl, h.stored, h.values, fun h => by simp at h⟩
  obtain ⟨q, left, n, h1, h2, h3, -, xs, h5⟩ := windows_in z b.1 b.2 hst true w s hw hs false
  have hq := h5.here ⟨rfl, by simp⟩
  rw [hq] at h1 h2 h3
  simp only [Bool.false_eq_true, if_false] at h1 h2 h3
  unfold pushIn
  rw [hb]
  simp only [h1]
  refine ⟨b.1, b.2, n, ?_, hst.1, hval, h2, hnone⟩
  by_cases hn : n = 0
  · subst hn
    simp [stretches]
  · rw [if_neg (by simp [stretches, hn]), h3]

/-- **C380**: the windows a `SlidingWindow` node without a windowing function has handed on share memory with the samples it has kept for later windows: if a number of them is changed, at place `j` of window
`i`, all windows handed on later are those of a stream which had this number at that place. -/
theorem C380_later {α : Type} (z : α) (m m' : Arr.Mem α) (cache : Option (List Nat)) (chunk : List Nat) (hc : Stored m chunk) (w s : Nat) (hw : 2 ≤ w) (hs : 1 ≤ s) (hsw : s ≤ w)
    (left : List Nat) (ws : List (List Nat)) (h : pushIn z w s m cache chunk = (m', .ok (left, ws))) (i j ad : Nat) (hij : At ws i j ad) (x : α) (chunks : List (List α)) (hne : chunks ≠ []) :
    ∃ st out, SlidingWindow.feed z w s ⟨some (left.map (m'.store ad x).cells)⟩ chunks = .ok (st, out) ∧
      ∀ k (hk : k < out.length), out[k] = (((samplesOf m cache chunk).set (i * s + j) x ++ chunks.flatten).drop ((ws.length + k) * s)).take w := by
  obtain ⟨m1, buf, n, h1, h2, h3, h4, -⟩ := push_in z m cache chunk hc w s hw hs
  rw [h1] at h
  cases h
  obtain ⟨hi, hj, e1⟩ := at_stretch hij
  obtain ⟨l1, g1⟩ := List.getElem?_eq_some_iff.1 e1
  have hset : buf.map (m'.store ad x).cells = (samplesOf m cache chunk).set (i * s + j) x := by
    rw [← h3]
    apply List.ext_getElem
    · simp
    · intro p hp1 hp2
      simp only [List.length_map] at hp1
      rw [List.getElem_set]
      simp only [List.getElem_map, Arr.Mem.store]
      by_cases he : i * s + j = p
      · subst he
        rw [if_pos rfl, if_pos g1]
      · rw [if_neg he, if_neg]
        intro hcc
        exact he ((List.Nodup.getElem_inj_iff h2).1 (by rw [g1, hcc]))
  obtain ⟨k, -, -, -, f⟩ := SlidingWindow.feed_spec z w s hs hsw chunks ⟨some ((buf.drop (n * s)).map (m'.store ad x).cells)⟩ hne
  refine ⟨_, _, f, ?_⟩
  intro p hp
  simp only [List.length_map, List.length_range] at hp
  have hn : (stretches buf w s n).length = n := by simp [stretches]
  have hle : n * s ≤ buf.length := by
    have := h4 (n - 1) (by omega)
    have e : n * s = (n - 1) * s + s := by
      obtain ⟨k', rfl⟩ : ∃ k', n = k' + 1 := ⟨n - 1, by omega⟩
      simp [Nat.add_mul]
    omega
  have hd : ∀ A B : List α, n * s ≤ A.length → (A ++ B).drop ((n + p) * s) = (A.drop (n * s) ++ B).drop (p * s) := by
    intro A B hA
    rw [Nat.add_mul, ← List.drop_drop, List.drop_append_of_le_length hA]
  simp only [List.getElem_map, List.getElem_range, Option.getD_some, hn]
  rw [List.map_drop, hset, hd]
  rw [← h3]
  simpa using hle

/-- If windows do not overlap, no later window is changed. -/
theorem C380_no_overlap {α : Type} (z : α) (m m' : Arr.Mem α) (cache : Option (List Nat)) (chunk : List Nat) (hc : Stored m chunk) (w : Nat) (hw : 2 ≤ w)
    (left : List Nat) (ws : List (List Nat)) (h : pushIn z w w m cache chunk = (m', .ok (left, ws))) (i j ad : Nat) (hij : At ws i j ad) (x : α) :
    left.map (m'.store ad x).cells = left.map m'.cells := by
  obtain ⟨m1, buf, n, h1, h2, h3, h4, -⟩ := push_in z m cache chunk hc w w hw (by omega)
  rw [h1] at h
  cases h
  obtain ⟨hi, hj, e1⟩ := at_stretch hij
  obtain ⟨l1, g1⟩ := List.getElem?_eq_some_iff.1 e1
  apply List.map_congr_left
  intro y hy
  simp only [Arr.Mem.store]
  rw [if_neg]
  rintro rfl
  obtain ⟨p, hp⟩ := List.getElem?_of_mem hy
  rw [List.getElem?_drop] at hp
  obtain ⟨l2, g2⟩ := List.getElem?_eq_some_iff.1 hp
  have he := (List.Nodup.getElem_inj_iff h2).1 (g2.trans g1.symm)
  have : i * w + w ≤ n * w := by
    have := Nat.mul_le_mul_right w (show i + 1 ≤ n by omega)
    rw [Nat.add_mul] at this
    simpa using this
  omega

/-- The first chunk is not copied: it is changed as well. -/
theorem C380_first_chunk {α : Type} (z : α) (m m' : Arr.Mem α) (chunk : List Nat) (hc : Stored m chunk) (w s : Nat) (hw : 2 ≤ w) (hs : 1 ≤ s)
    (left : List Nat) (ws : List (List Nat)) (h : pushIn z w s m none chunk = (m', .ok (left, ws))) (i j ad : Nat) (hij : At ws i j ad) (x : α) :
    chunk[i * s + j]? = some ad ∧ (chunk.map (m'.store ad x).cells)[i * s + j]? = some x := by
  obtain ⟨m1, buf, n, h1, h2, h3, h4, h5⟩ := push_in z m none chunk hc w s hw hs
  rw [h1] at h
  cases h
  obtain ⟨hi, hj, e1⟩ := at_stretch hij
  rw [h5 rfl] at e1
  refine ⟨e1, ?_⟩
  rw [List.getElem?_map, e1]
  simp [Arr.Mem.store]

theorem five_pushed : (pushIn 0 3 1 five none [0, 1, 2, 3, 4]).2 = .ok ([3, 4], [[0, 1, 2], [1, 2, 3], [2, 3, 4]]) := by decide +kernel

example := C380_later 0 five _ none _ five_stored 3 1 (by decide) (by decide) (by decide) _ _ (Prod.ext rfl five_pushed) 2 2 4 ⟨[2, 3, 4], rfl, rfl⟩ 7 [[50, 60]] (by simp)
example := C380_no_overlap 0 five _ none _ five_stored 2 (by decide) [4] [[0, 1], [2, 3]]
  (Prod.ext rfl (by decide +kernel : (pushIn 0 2 2 five none [0, 1, 2, 3, 4]).2 = .ok ([4], [[0, 1], [2, 3]]))) 1 1 3 ⟨[2, 3], rfl, rfl⟩ 7
example := C380_first_chunk 0 five _ _ five_stored 3 1 (by decide) (by decide) _ _ (Prod.ext rfl five_pushed) 2 2 4 ⟨[2, 3, 4], rfl, rfl⟩ 7

/-! ## C378: a growing array -/

/-- The array is one of those made, and its rows in use are in it. -/
def Shared.Ok {α : Type} (g : Shared α) : Prop := g.block < g.heap.length ∧ g.position ≤ (g.heap.getD g.block []).length

/-- The view is of an array made so far, and of rows in use. -/
def Shared.Holds {α : Type} (g : Shared α) (v : View) : Prop := v.block < g.heap.length ∧ (v.block = g.block → v.size ≤ g.position)

theorem step_fits {α : Type} (g g' : Growable.G α) (h : g.position ≤ g.data.length) (o : Growable.Op α) (he : g.step o = .ok g') :
    g'.position ≤ g'.data.length ∧ g.position ≤ g'.position ∧ g'.data.take g.position = g.data.take g.position ∧ g'.rateNum = g.rateNum ∧ g'.rateDen = g.rateDen := by
  have hs : g.steps [o] = .ok g' := by simp [Growable.G.steps, he]
  obtain ⟨g1, e1, -, e3, e4⟩ := _root_.Zounds.Props.Growable.C10_growable_is_list [o] g h
  rw [hs] at e1
  cases e1
  have hp := _root_.Zounds.Props.Growable.C10_prefix_preserved [o] g g' h hs
  unfold Growable.G.logicalSize Growable.G.physicalSize at e4
  have hle := hp.length_le
  unfold Growable.G.logicalData at hp hle
  rw [List.length_take, List.length_take] at hle
  refine ⟨e4, by omega, ?_, ?_⟩
  · have := List.prefix_iff_eq_take.1 hp
    rw [List.length_take, Nat.min_eq_left h, List.take_take, Nat.min_eq_left (by omega)] at this
    exact this.symm
  · cases o with
    | append x =>
      simp only [Growable.G.step, Growable.G.append] at he
      split at he
      · cases he; exact ⟨rfl, rfl⟩
      · split at he
        · cases he; exact ⟨rfl, rfl⟩
        · cases he
      · cases he
    | extend xs =>
      simp only [Growable.G.step, Growable.G.extend] at he
      split at he
      · cases he
        simp only
        split <;> exact ⟨rfl, rfl⟩
      · cases he

theorem getD_set {α : Type} (l : List (List α)) (i : Nat) (x : List α) (h : i < l.length) (j : Nat) : (l.set i x).getD j [] = if j = i then x else l.getD j [] := by
  rw [List.getD_eq_getElem?_getD, List.getD_eq_getElem?_getD]
  by_cases hj : j = i
  · subst hj
    rw [if_pos rfl, List.getElem?_set_self h]
    rfl
  · rw [if_neg hj, List.getElem?_set_ne (Ne.symm hj)]

theorem getD_append {α : Type} (l : List (List α)) (x : List α) (j : Nat) (h : j ≤ l.length) : (l ++ [x]).getD j [] = if j = l.length then x else l.getD j [] := by
  rw [List.getD_eq_getElem?_getD, List.getD_eq_getElem?_getD]
  by_cases hj : j = l.length
  · subst hj
    simp
  · rw [if_neg hj, List.getElem?_append_left (by omega)]

theorem setRange_length {α : Type} {d d' : List (Option α)} {pos : Nat} {xs : List α} (h : Growable.setRange d pos xs = .ok d') : d.length ≤ d'.length := by
  unfold Growable.setRange at h
  simp only at h
  split at h
  · rename_i ht
    cases h
    simp only [List.length_drop, List.length_take] at ht
    simp only [List.length_append, List.length_take, List.length_map, List.length_drop]
    omega
  · cases h

/-- One operation. -/
theorem shared_step {α : Type} (g : Shared α) (hg : g.Ok) (o : Growable.Op α) :
    ∃ g', g.step o = .ok g' ∧ g.now.step o = .ok g'.now ∧ g'.Ok ∧ (∀ v, g.Holds v → g'.Holds v ∧ g'.read v = g.read v) ∧
      g.now.physicalSize ≤ g'.now.physicalSize ∧ (g'.block = g.block ↔ g'.now.physicalSize = g.now.physicalSize) ∧ g.block ≤ g'.block := by
  obtain ⟨hb, hpos⟩ := hg
  have hnow : g.now.position ≤ g.now.data.length := hpos
  obtain ⟨g1, e1, -⟩ := _root_.Zounds.Props.Growable.C10_growable_is_list [o] g.now hnow
  have e1 : g.now.step o = .ok g1 := by
    simp only [Growable.G.steps] at e1
    split at e1
    · rename_i g2 h2
      rw [h2]
      cases e1
      rfl
    · cases e1
  obtain ⟨f1, f2, f3, f4, f5⟩ := step_fits _ _ hnow o e1
  have hgrow : g.now.data.length ≤ g1.data.length := by
    cases o with
    | append x =>
      simp only [Growable.G.step, Growable.G.append] at e1
      split at e1
      · rename_i d hd
        unfold Growable.setCell at hd
        split at hd <;> cases hd
        cases e1
        simp
      · split at e1
        · rename_i d hd
          unfold Growable.setCell at hd
          split at hd <;> cases hd
          cases e1
          simp [Growable.G.grow]
        · cases e1
      · cases e1
    | extend xs =>
      simp only [Growable.G.step, Growable.G.extend] at e1
      split at e1
      · rename_i d hd
        have hlen := setRange_length hd
        cases e1
        simp only
        refine Nat.le_trans ?_ hlen
        split
        · simp [Growable.G.grow]
        · exact Nat.le_refl _
      · cases e1
  unfold Shared.step
  rw [e1]
  simp only
  by_cases hl : g1.data.length = (g.heap.getD g.block []).length
  · rw [if_pos hl]
    have hn : ({ g with heap := g.heap.set g.block g1.data, position := g1.position } : Shared α).now = g1 := by
      unfold Shared.now
      simp only
      rw [getD_set _ _ _ hb, if_pos rfl]
      cases g1
      simp only [Shared.now] at f4 f5
      simp only [f4, f5]
    refine ⟨_, rfl, by rw [hn], ?_, ?_, ?_, ?_, Nat.le_refl _⟩
    · refine ⟨by simpa using hb, ?_⟩
      simp only
      rw [getD_set _ _ _ hb, if_pos rfl]
      exact f1
    · rintro v ⟨v1, v2⟩
      refine ⟨⟨by simpa using v1, fun h => Nat.le_trans (v2 h) f2⟩, ?_⟩
      unfold Shared.read
      simp only
      rw [getD_set _ _ _ hb]
      by_cases hv : v.block = g.block
      · rw [if_pos hv, hv]
        have := congrArg (List.take v.size) f3
        have hmin : min v.size g.now.position = v.size := Nat.min_eq_left (v2 hv)
        rw [List.take_take, List.take_take, hmin] at this
        exact this
      · rw [if_neg hv]
    · rw [hn]; exact hgrow
    · rw [hn]
      simp only [true_iff]
      exact hl
  · rw [if_neg hl]
    have hn : ({ g with heap := g.heap ++ [g1.data], block := g.heap.length, position := g1.position } : Shared α).now = g1 := by
      unfold Shared.now
      simp only
      rw [getD_append _ _ _ (Nat.le_refl _), if_pos rfl]
      cases g1
      simp only [Shared.now] at f4 f5
      simp only [f4, f5]
    refine ⟨_, rfl, by rw [hn], ?_, ?_, ?_, ?_, Nat.le_of_lt hb⟩
    · refine ⟨by simp, ?_⟩
      simp only
      rw [getD_append _ _ _ (Nat.le_refl _), if_pos rfl]
      exact f1
    · rintro v ⟨v1, v2⟩
      refine ⟨⟨by simp; omega, fun h => by simp only at h; omega⟩, ?_⟩
      unfold Shared.read
      simp only
      rw [getD_append _ _ _ (Nat.le_of_lt v1), if_neg (by omega)]
    · rw [hn]; exact hgrow
    · rw [hn]
      constructor
      · intro h
        simp only at h
        omega
      · intro h
        exact absurd h hl

theorem shared_steps {α : Type} : ∀ (ops : List (Growable.Op α)) (g : Shared α), g.Ok →
    ∃ g', g.steps ops = .ok g' ∧ g.now.steps ops = .ok g'.now ∧ g'.Ok ∧ (∀ v, g.Holds v → g'.Holds v ∧ g'.read v = g.read v) ∧
      g.now.physicalSize ≤ g'.now.physicalSize ∧ (g'.block = g.block ↔ g'.now.physicalSize = g.now.physicalSize) ∧ g.block ≤ g'.block
  | [], g, hg => ⟨g, rfl, rfl, hg, fun v hv => ⟨hv, rfl⟩, Nat.le_refl _, by simp, Nat.le_refl _⟩
  | o :: ops, g, hg => by
    obtain ⟨g1, e1, e2, e3, e4, e5, e6, e7⟩ := shared_step g hg o
    obtain ⟨g2, f1, f2, f3, f4, f5, f6, f7⟩ := shared_steps ops g1 e3
    refine ⟨g2, ?_, ?_, f3, ?_, by omega, ?_, by omega⟩
    · unfold Shared.steps
      rw [e1]
      exact f1
    · unfold Growable.G.steps
      rw [e2]
      exact f2
    · intro v hv
      obtain ⟨a1, a2⟩ := e4 v hv
      obtain ⟨b1, b2⟩ := f4 v a1
      exact ⟨b1, b2.trans a2⟩
    · constructor
      · intro h
        have h1 : g1.block = g.block := by omega
        rw [f6.1 (by omega), e6.1 h1]
      · intro h
        have h1 := e6.2 (by omega)
        have h2 := f6.2 (by omega)
        omega

/-- **C378**: whatever is appended to a `Growable` later, an array taken from `logical_data` keeps reading what it read, whether or not the `Growable` has moved to more memory since; and the
`Growable` goes on like one nobody looks at (C10). -/
theorem C378_stable {α : Type} (g : Shared α) (hg : g.Ok) (ops : List (Growable.Op α)) :
    ∃ g', g.steps ops = .ok g' ∧ g.now.steps ops = .ok g'.now ∧ g'.read g.logicalData = g.now.logicalData := by
  obtain ⟨g', h1, h2, -, h4, -⟩ := shared_steps ops g hg
  exact ⟨g', h1, h2, (h4 g.logicalData ⟨hg.1, fun _ => Nat.le_refl _⟩).2⟩

/-- Behind the rows in use nothing can be stored through that array, at any later time: IndexError. -/
theorem C378_outside {α : Type} (g g' : Shared α) (k : Nat) (hk : g.position ≤ k) (x : α) : g'.write g.logicalData k x = .error .indexError := by
  unfold Shared.write
  rw [if_neg]
  rintro ⟨h, -⟩
  exact absurd h (by simpa [Shared.logicalData] using hk)

/-- A store through that array reaches the `Growable` exactly if its physical size has not changed since: then it is row `k` of it, otherwise the `Growable` stays as it is. -/
theorem C378_store {α : Type} (g g' : Shared α) (hg : g.Ok) (ops : List (Growable.Op α)) (h : g.steps ops = .ok g') (k : Nat) (hk : k < g.position) (x : α) :
    ∃ g'', g'.write g.logicalData k x = .ok g'' ∧ g''.read g.logicalData = g.now.logicalData.set k (some x) ∧
      (g'.now.physicalSize = g.now.physicalSize → g''.now.logicalData = g'.now.logicalData.set k (some x)) ∧
      (g'.now.physicalSize ≠ g.now.physicalSize → g''.now = g'.now) := by
  obtain ⟨g1, h1, h2, h3, h4, h5, h6, h7⟩ := shared_steps ops g hg
  rw [h] at h1
  cases h1
  obtain ⟨hv, hread⟩ := h4 g.logicalData ⟨hg.1, fun _ => Nat.le_refl _⟩
  have hvb : g.block < g'.heap.length := hv.1
  have hlen : k < (g'.heap.getD g.block []).length := by
    have := congrArg List.length hread
    unfold Shared.read Shared.logicalData at this
    simp only [List.length_take, Nat.min_eq_left hg.2] at this
    have := hg.2
    omega
  refine ⟨{ g' with heap := g'.heap.set g.block ((g'.heap.getD g.block []).set k (some x)) }, ?_, ?_, ?_, ?_⟩
  · unfold Shared.write Shared.logicalData
    simp only
    rw [if_pos ⟨hk, hlen⟩]
  · have hr : (g'.heap.getD g.block []).take g.position = g.now.logicalData := hread
    unfold Shared.read Shared.logicalData
    simp only
    rw [getD_set _ _ _ hvb, if_pos rfl, List.take_set, hr]
  · intro he
    have hb := h6.2 he
    unfold Growable.G.logicalData Shared.now
    simp only
    rw [hb, getD_set _ _ _ hvb, if_pos rfl, List.take_set]
  · intro he
    have hb : g'.block ≠ g.block := fun hc => he (h6.1 hc)
    unfold Shared.now
    simp only
    rw [getD_set _ _ _ hvb, if_neg hb]

/-- A `Growable` with two rows in use and room for one more. -/
def two : Shared Nat := ⟨[[some 1, some 2, none]], 0, 2, 1, 1⟩

theorem two_ok : two.Ok := ⟨by decide, by decide⟩

example := C378_stable two two_ok [.append 3, .extend [4, 5], .append 6]
example := C378_outside two two 2 (by decide) 9
example := C378_store two _ two_ok [.append 3] rfl 1 (by decide) 9
example := C378_store two _ two_ok [.append 3, .append 4] rfl 1 (by decide) 9
example : (match two.steps [.append 3, .append 4] with | .ok g => g.now.physicalSize | .error _ => 0) ≠ two.now.physicalSize := by decide +kernel

/-! ## C379: batches of a sampler that are kept -/

open Zounds.Sampler (Good AllDrawn passes onePass)

theorem keep {α : Type} (z : α) (docs : List (List α)) (hne : docs ≠ []) (hdocs : ∀ d ∈ docs, d ≠ []) : ∀ (draws : List (List Sampler.Draw)) (r : Reservoir.Res α),
    Good (fun x => ∃ doc ∈ docs, x ∈ doc) r → AllDrawn r.nsamples docs draws →
    ∃ bs rEnd, keepAll z docs r draws = .ok (bs, rEnd) ∧ rEnd.nsamples = r.nsamples ∧ r.indices.length ≤ rEnd.indices.length ∧ rEnd.indices.length ≤ r.nsamples ∧
      bs.length = draws.length ∧ (draws = [] → rEnd = r) ∧ (draws ≠ [] → ∃ last, (passes z docs r draws).1.getLast? = some last ∧ rEnd.get = .ok last) ∧
      ∀ (i : Nat) b o, bs[i]? = some b → (passes z docs r draws).1[i]? = some o →
        (o.length < r.nsamples → readBatch rEnd b = o) ∧ (o.length = r.nsamples → readBatch rEnd b = rEnd.arr.getD [] ∧ rEnd.indices.length = rEnd.nsamples)
  | [], r, hr, _ => by
    refine ⟨[], r, rfl, rfl, Nat.le_refl _, Reservoir.C27_len_le_capacity r hr.ok, rfl, fun _ => rfl, fun h => absurd rfl h, ?_⟩
    intro i b o hb
    simp at hb
  | ds :: rest, r, hr, hd => by
    obtain ⟨hlen, hdr⟩ := hd ds (by simp)
    have htot : (docs.map List.length).sum ≠ 0 := by
      obtain ⟨d, hm⟩ := List.exists_mem_of_ne_nil _ hne
      have h1 := Sampler.le_sum_of_mem' (docs.map List.length) d.length (List.mem_map_of_mem hm)
      have h2 := List.length_pos_of_ne_nil (hdocs d hm)
      omega
    obtain ⟨r1, e1, e2, e3, e4, e5⟩ := Sampler.pass_good (fun x => ∃ doc ∈ docs, x ∈ doc) z _ htot (docs.zip ds) r hr (by
      intro p hp
      have hm := (List.of_mem_zip hp).1
      exact ⟨hdocs _ hm, fun x hx => ⟨_, hm, hx⟩, hdr p hp⟩)
    have hz : docs.zip ds ≠ [] := by
      intro hc
      have := congrArg List.length hc
      simp only [List.length_zip, List.length_nil, hlen, Nat.min_self] at this
      exact hne (List.length_eq_zero_iff.1 this)
    obtain ⟨-, e6⟩ := e5 hz
    obtain ⟨out, f1, f2, f3⟩ := Sampler.get_good _ r1 e2 e6
    have hd' : AllDrawn r1.nsamples docs rest := by
      rw [e3]
      exact fun d h => hd d (by simp [h])
    obtain ⟨bs, rEnd, k1, k2, k3, k4, k5, k6, k7, k8⟩ := keep z docs hne hdocs rest r1 e2 hd'
    have hmono : r.indices.length ≤ r1.indices.length := (List.subperm_of_subset hr.ok.nodup e4).length_le
    have hp : passes z docs r (ds :: rest) = (out :: (passes z docs r1 rest).1, (passes z docs r1 rest).2) := by
      conv_lhs => unfold passes
      simp only [e1, f1]
    obtain ⟨b0, hb0, hbcase⟩ : ∃ b, handOut r1 = .ok b ∧ (if out.length = r1.nsamples then b = .own else b = .copy out) := by
      unfold handOut
      rw [f1, f2]
      by_cases h : r1.indices.length = r1.nsamples
      · simp [h]
      · simp [h]
    refine ⟨b0 :: bs, rEnd, ?_, k2.trans e3, by omega, by omega, by simp [k5], by simp, ?_, ?_⟩
    · conv_lhs => unfold keepAll
      simp only [e1, hb0, k1]
    · intro _
      rw [hp]
      simp only
      cases rest with
      | nil =>
        rw [k6 rfl]
        exact ⟨out, by simp [passes], f1⟩
      | cons d rest =>
        obtain ⟨last, l1, l2⟩ := k7 (by simp)
        refine ⟨last, ?_, l2⟩
        rw [List.getLast?_cons, l1]
        rfl
    · intro i b o hb ho
      rw [hp] at ho
      cases i with
      | zero =>
        simp only [List.getElem?_cons_zero, Option.some.injEq] at hb ho
        subst hb ho
        constructor
        · intro hlt
          rw [if_neg (by omega)] at hbcase
          rw [hbcase]
          rfl
        · intro he
          rw [if_pos (by omega)] at hbcase
          rw [hbcase]
          exact ⟨rfl, by omega⟩
      | succ i =>
        simp only [List.getElem?_cons_succ] at hb ho
        rw [← e3]
        exact k8 i b o hb ho

/-- **C379**: if the arrays an `InfiniteSampler` yields are kept, then after any number of passes every array that was yielded while the reservoir was not full reads what it read then, and every one yielded
since the reservoir has been full reads as the last one: they are all the same array. -/
theorem C379_kept {α : Type} (z : α) (n : Nat) (docs : List (List α)) (hne : docs ≠ []) (hdocs : ∀ d ∈ docs, d ≠ []) (draws : List (List Sampler.Draw)) (hd : AllDrawn n docs draws)
    (h0 : draws ≠ []) :
    ∃ bs rEnd last, keepAll z docs ⟨n, none, []⟩ draws = .ok (bs, rEnd) ∧ bs.length = draws.length ∧ (passes z docs ⟨n, none, []⟩ draws).1.getLast? = some last ∧
      ∀ (i : Nat) b yielded, bs[i]? = some b → (passes z docs ⟨n, none, []⟩ draws).1[i]? = some yielded →
        (yielded.length < n → readBatch rEnd b = yielded) ∧ (yielded.length = n → readBatch rEnd b = last) := by
  obtain ⟨bs, rEnd, k1, k2, k3, k4, k5, k6, k7, k8⟩ := keep z docs hne hdocs draws ⟨n, none, []⟩ ⟨⟨by simp, by simp, by simp⟩, by simp, by simp⟩ hd
  obtain ⟨last, l1, l2⟩ := k7 h0
  refine ⟨bs, rEnd, last, k1, k5, l1, ?_⟩
  intro i b o hb ho
  obtain ⟨a1, a2⟩ := k8 i b o hb ho
  refine ⟨a1, ?_⟩
  intro he
  obtain ⟨c1, c2⟩ := a2 he
  rw [c1]
  unfold Reservoir.Res.get at l2
  split at l2
  · cases l2
  · rename_i arr harr
    rw [if_pos c2] at l2
    cases l2
    rw [harr]
    rfl

/-- Refuted: that an array which was yielded keeps its rows: with room for one row, of a document with two, the first batch, which was row `a`, reads `b` after the second pass. -/
theorem C379_refuted {α : Type} (z a b : α) (hab : a ≠ b) :
    passes z [[a, b]] ⟨1, none, []⟩ [[⟨[0], [0]⟩], [⟨[1], [0]⟩]] = ([[a], [b]], none) ∧
    ∃ rEnd, keepAll z [[a, b]] ⟨1, none, []⟩ [[⟨[0], [0]⟩], [⟨[1], [0]⟩]] = .ok ([.own, .own], rEnd) ∧ readBatch rEnd (.own) = [b] ∧ [b] ≠ [a] := by
  refine ⟨rfl, ⟨1, some [b], [0]⟩, rfl, rfl, ?_⟩
  intro h
  cases h
  exact hab rfl

/-- Two passes over one document. -/
theorem passes_drawn : AllDrawn 1 [[10, 20]] [[⟨[0], [0]⟩], [⟨[1], [0]⟩]] := by
  intro ds hds
  simp only [List.mem_cons, List.not_mem_nil, or_false] at hds
  rcases hds with rfl | rfl
  all_goals
    refine ⟨rfl, ?_⟩
    intro p hp
    simp only [List.zip_cons_cons, List.zip_nil_right, List.mem_cons, List.not_mem_nil, or_false] at hp
    subst hp
    exact ⟨by decide, by decide, rfl, by decide⟩

example := C379_kept 0 1 [[10, 20]] (by decide) (by decide) _ passes_drawn (by simp)
example := C379_refuted 0 10 20 (by decide)

end Zounds.Memory
