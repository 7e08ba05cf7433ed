import Verif.Props.Windowed
import Verif.Props.Time
import Verif.Props.Growable

/-!
# Exactly when (C66 - C69): streams of windows, slices of times, growing arrays
-/

namespace Zounds.Props
open Zounds Zounds.Time Zounds.SlidingWindow

/-! ## C66 -/

/-- Every window that lies within a signal is emitted, as the same window, however the signal was cut into chunks. -/
def ChunkingIrrelevant (w s : Nat) : Prop :=
  ∀ (c₁ c₂ : List (List Nat)) (l₁ l₂ : List Nat), c₁.flatten ++ l₁ = c₂.flatten ++ l₂ →
    ∃ o₁ o₂, run 0 w s c₁ l₁ = .ok o₁ ∧ run 0 w s c₂ l₂ = .ok o₂ ∧
      ∀ i, i * s + w ≤ (c₁.flatten ++ l₁).length → i < o₁.length ∧ i < o₂.length ∧ o₁[i]? = o₂[i]?

theorem run_one (z : Nat) (w s : Nat) (last : List Nat) (hw : 2 ≤ w) (hs : 1 ≤ s) :
    run z w s [] last = .ok ((List.range (Npx.nPad last.length w s)).map (Npx.padWindow z last w s)) := by
  have hn : Npx.nPad last.length w s ≠ 0 := by
    rw [← (Npx.nPad_padLen last.length w s hw hs).2, Nat.add_comm]
    exact Nat.succ_ne_zero _
  simp [run, feed, push, dequeue, enqueue, slidingWindowWithLeftovers, Npx.windowed_pad z last w s hw hs, Npx.Out.windows, hn]

/-- One chunk, of which the windows reach past its end, and the rest. -/
theorem run_two (z : Nat) (w s : Nat) (c last : List Nat) (hw : 2 ≤ w) (hs : 1 ≤ s) (hc : w < c.length) (hout : c.length ≤ Npx.nWin c.length w s * s) :
    run z w s [c] last = .ok ((List.range (Npx.nWin c.length w s)).map (fun i => (c.drop (i * s)).take w) ++
      (List.range (Npx.nPad last.length w s)).map (Npx.padWindow z last w s)) := by
  have hn : Npx.nPad last.length w s ≠ 0 := by
    rw [← (Npx.nPad_padLen last.length w s hw hs).2, Nat.add_comm]
    exact Nat.succ_ne_zero _
  have hm : Npx.nWin c.length w s ≠ 0 := by
    unfold Npx.nWin
    rw [if_neg (by omega), Nat.add_comm]
    exact Nat.succ_ne_zero _
  have hd : c.drop (Npx.nWin c.length w s * s) = [] := List.drop_eq_nil_of_le hout
  simp [run, feed, push, dequeue, enqueue, slidingWindowWithLeftovers, Npx.windowed_pad z last w s hw hs, Npx.windowed_nopad z c w s hw hs, Npx.Out.windows, hn, hm, hd]

/-- **C66** (exactly when): the windows within a signal do not depend on the chunks it arrived in if and only if the step is at most the window. -/
theorem C66_exact (w s : Nat) (hw : 1 ≤ w) (hs : 1 ≤ s) : ChunkingIrrelevant w s ↔ s ≤ w := by
  constructor
  · intro h
    by_contra hsw
    by_cases hw1 : w = 1
    · subst hw1
      obtain ⟨o₁, o₂, e₁, e₂, ho⟩ := h [] [[0]] (List.range (s + 1)) ((List.range s).map (· + 1)) (by
        simp [List.range_succ_eq_map])
      have hone : ∀ l : List Nat, Npx.windowed 0 l 1 (some (s : Int)) true = .ok ([], .rows (everyNth s l)) ∧
          Npx.windowed 0 l 1 (some (s : Int)) false = .ok ([], .rows (everyNth s l)) := by
        intro l
        have h1 : ¬ (s : Int) < 1 := by omega
        have h2 : ¬ (s : Int) = 1 := by omega
        have h3 : (1 : Int) < s := by omega
        constructor <;> simp [Npx.windowed, h1, h2, h3]
      have n1 : everyNth s (List.range (s + 1)) = [0, s] := by
        have e : (s + 1 + s - 1) / s = 2 := by rw [show s + 1 + s - 1 = s * 2 by omega, Nat.mul_div_cancel_left _ (by omega)]
        unfold everyNth
        rw [List.length_range, e, show List.range 2 = [0, 1] from rfl]
        simp
      have n2 : everyNth s ((List.range s).map (· + 1)) = [1] := by
        have e : (s + s - 1) / s = 1 := by
          rw [show s + s - 1 = (s - 1) + 1 * s by omega, Nat.add_mul_div_right _ _ (by omega), Nat.div_eq_of_lt (by omega)]
        unfold everyNth
        rw [List.length_map, List.length_range, e, show List.range 1 = [0] from rfl]
        simp [show 0 < s by omega]
      have n3 : everyNth s [0] = [0] := by
        have e : (1 + s - 1) / s = 1 := by rw [show 1 + s - 1 = s by omega, Nat.div_self (by omega)]
        unfold everyNth
        rw [show [0].length = 1 from rfl, e, show List.range 1 = [0] from rfl]
        simp
      have r1 : run 0 1 s [] (List.range (s + 1)) = .ok [[0], [s]] := by
        simp [run, feed, push, dequeue, enqueue, slidingWindowWithLeftovers, hone, Npx.Out.windows, n1]
      have r2 : run 0 1 s [[0]] ((List.range s).map (· + 1)) = .ok [[0], [1]] := by
        simp [run, feed, push, dequeue, enqueue, slidingWindowWithLeftovers, hone, Npx.Out.windows, n2, n3]
      rw [Int.natCast_one, r1] at e₁
      rw [Int.natCast_one, r2] at e₂
      cases e₁
      cases e₂
      have := (ho 1 (by simp)).2.2
      simp at this
      omega
    · have hlw : w + s ≤ 2 * s + w := by omega
      obtain ⟨o₁, o₂, e₁, e₂, ho⟩ := h [] [(List.range (2 * s + w)).take (w + s)] (List.range (2 * s + w)) ((List.range (2 * s + w)).drop (w + s)) (by
        rw [List.flatten_nil, List.nil_append, List.flatten_cons, List.flatten_nil, List.append_nil, List.take_append_drop])
      rw [run_one _ _ _ _ (by omega) hs] at e₁
      have hcl : ((List.range (2 * s + w)).take (w + s)).length = w + s := by simp; omega
      have hnw : Npx.nWin (w + s) w s = 2 := by
        unfold Npx.nWin
        rw [if_neg (by omega), Nat.add_sub_cancel_left, Nat.div_self (by omega)]
      rw [run_two _ _ _ _ _ (by omega) hs (by rw [hcl]; omega) (by rw [hcl, hnw]; omega), hcl, hnw] at e₂
      cases e₁
      cases e₂
      obtain ⟨h1, h2, h3⟩ := ho 2 (by simp)
      rw [List.getElem?_append_right (by simp)] at h3
      simp only [List.length_append, List.length_map, List.length_range] at h1 h2 h3
      rw [List.getElem?_map, List.getElem?_range h1] at h3
      rw [List.getElem?_map, List.getElem?_range (by omega)] at h3
      simp only [Option.map_some, Option.some.injEq] at h3
      have := congrArg (fun l => l[0]?) h3
      simp [Npx.padWindow, List.getD_eq_getElem?_getD, show 0 < w by omega] at this
      rw [List.getElem?_range (by omega), Option.getD_some] at this
      omega
  · intro hsw c₁ c₂ l₁ l₂ he
    obtain ⟨o₁, e₁, w₁⟩ := C03_final_windows 0 w s hs hsw c₁ l₁
    obtain ⟨o₂, e₂, w₂⟩ := C03_final_windows 0 w s hs hsw c₂ l₂
    refine ⟨o₁, o₂, e₁, e₂, fun i hi => ?_⟩
    have g₁ := (C03_final_complete 0 w s hs hsw c₁ l₁ o₁ e₁).1 i hi
    have g₂ := (C03_final_complete 0 w s hs hsw c₂ l₂ o₂ e₂).1 i (by rw [← he]; exact hi)
    refine ⟨g₁, g₂, ?_⟩
    rw [List.getElem?_eq_getElem g₁, List.getElem?_eq_getElem g₂]
    congr 1
    obtain ⟨a₁, b₁⟩ := w₁ i g₁
    obtain ⟨a₂, b₂⟩ := w₂ i g₂
    apply List.ext_getElem?
    intro j
    by_cases hj : j < w
    · rw [b₁ j hj, b₂ j hj, he]
    · rw [List.getElem?_eq_none (by omega), List.getElem?_eq_none (by omega)]

/-- Windows of 4 every 2 samples, six samples in one piece or two. -/
example : ChunkingIrrelevant 4 2 ∧ ¬ ChunkingIrrelevant 2 4 :=
  ⟨(C66_exact 4 2 (by omega) (by omega)).2 (by omega), fun h => absurd ((C66_exact 2 4 (by omega) (by omega)).1 h) (by omega)⟩

/-! ## C67 -/

/-- **C67** (exactly): if the stop of `ts[a:b]` lies before the array, nothing is returned if it does so by less than 199/200 of a sample period; otherwise the
stop is counted from the end of the array once more: returned are the samples that reach past the start and begin (by more than 1/200 of a period) before the stop
shifted by the length of the array. -/
theorem C67_exact {α : Type u} (arr : List α) (td : Dim) (a b : Option Int) (hf : 0 < td.frequency) (hd : td.frequency ≤ td.duration)
    (hstop : instant (arr.length * td.frequency + (td.duration - td.frequency)) (arr.length * td.frequency + (td.duration - td.frequency)) b < 0) :
    let e := arr.length * td.frequency + (td.duration - td.frequency)
    getPySlice arr td a b =
      if td.frequency < 200 * (instant e e b + td.frequency) then []
      else pick arr (fun k => instant e 0 a < k * td.frequency + td.duration ∧
        td.frequency < 200 * (instant e e b + arr.length * td.frequency - k * td.frequency)) := by
  intro e
  have hra : (Dim.resolve { td with size := arr.length } a b).1 = instant e 0 a := by
    unfold Dim.resolve instant
    cases a <;> simp [Dim.end_, e]
  have he0 : 0 ≤ e := by
    have : 0 ≤ (arr.length : Int) * td.frequency := by positivity
    omega
  have hrb : (Dim.resolve { td with size := arr.length } a b).2 = instant e e b := by
    cases b with
    | none =>
      show (if e < 0 then e + e else e) = e
      rw [if_neg (by omega)]
    | some x => rfl
  have hstop' : instant e e b < 0 := hstop
  unfold getPySlice Dim.intSliceOfPySlice Dim.intSlice pick
  simp only
  rw [hra, hrb]
  have es : instant e 0 a + (instant e e b - instant e 0 a) = instant e e b := by omega
  rw [es]
  have key := fun i => stop_iff (instant e e b) td.frequency i hf
  generalize ceilDiv (roundHalfEven (100 * instant e e b) td.frequency) 100 = j at key
  have hj0 : j ≤ 0 := by
    by_contra h
    have := (key 0).1 (by omega)
    omega
  split
  · rename_i h
    have : (-1 : Int) < j := (key (-1)).2 (by linarith)
    obtain rfl : j = 0 := by omega
    rw [pySlice_toNat _ _ _ (Int.le_max_left _ _) (by omega)]
    simp
  · rename_i h
    have hjn : j < 0 := by
      by_contra hc
      have := (key (-1)).1 (by omega)
      exact h (by linarith)
    have e1 : pySlice arr (max 0 ((instant e 0 a - (td.duration - td.frequency)) / td.frequency)) j =
        pySlice arr (max 0 ((instant e 0 a - (td.duration - td.frequency)) / td.frequency)) (max 0 (j + arr.length)) := by
      unfold pySlice
      congr 2
      unfold pyBound
      rw [if_pos hjn, if_neg (by omega)]
      omega
    rw [e1]
    refine pySlice_eq_filter arr _ _ (Int.le_max_left _ _) (Int.le_max_left _ _)
      (fun k => instant e 0 a < k * td.frequency + td.duration ∧ td.frequency < 200 * (instant e e b + arr.length * td.frequency - k * td.frequency)) ?_
    intro k _
    rw [start_le_iff _ _ _ _ hf (by omega)]
    have h1 := key ((k : Int) - arr.length)
    have e2 : instant e e b - ((k : Int) - arr.length) * td.frequency = instant e e b + arr.length * td.frequency - k * td.frequency := by ring
    rw [e2] at h1
    rw [← h1]
    constructor
    · intro h; exact ⟨h.1, by omega⟩
    · intro h; exact ⟨h.1, by omega⟩

example : getPySlice [0,1,2,3,4,5,6,7,8,9] ⟨10^12, 10^12, 0⟩ (some (-20*10^12)) (some (-15*10^12)) = [0,1,2,3,4] ∧
    getPySlice [0,1,2,3,4,5,6,7,8,9] ⟨10^12, 10^12, 0⟩ (some (-20*10^12)) (some (-105*10^11)) = [] := by decide

/-! ## C68 -/

/-- **C68** (exactly when): the intersection of two slices with durations starts at the later of their starts if and only if that is zero; it always starts at zero. -/
theorem C68_exact (a b : TimeSlice) (da db : Dur) (ha : a.duration = some da) (hb : b.duration = some db) :
    ∃ r, a.and b = .ok r ∧ r.start.toPs = 0 ∧ (r.start.toPs = max a.start.toPs b.start.toPs ↔ max a.start.toPs b.start.toPs = 0) := by
  have hs : ∀ (x y z : TimeSlice), x.and y = .ok z → z.start = ⟨0, .ps⟩ := by
    intro x y z h
    unfold TimeSlice.and at h
    split at h
    · injection h with h; rw [← h]; rfl
    · cases h
    · cases h
  obtain ⟨r, d, h1, -, -, -⟩ := C06_and_duration a b da db ha hb
  have h0 : r.start.toPs = 0 := by rw [hs _ _ _ h1]; rfl
  exact ⟨r, h1, h0, by rw [h0]; exact eq_comm⟩

example := C68_exact ⟨⟨3, .s⟩, some ⟨5, .s⟩⟩ ⟨⟨4, .s⟩, some ⟨2, .s⟩⟩ _ _ rfl rfl
example := C67_exact [0, 1, 2, 3, 4, 5, 6, 7, 8, 9] ⟨10, 10, 0⟩ (some (-200)) (some (-150)) (by decide) (by decide) (by decide)

end Zounds.Props

namespace Zounds.Props.Growable
open Zounds Zounds.Growable
variable {α : Type u}

/-- The cells up to the logical size; those the array does not have yet are not initialised. -/
def held (g : G α) : List (Option α) := g.data.take g.position ++ List.replicate (g.position - g.data.length) none

/-- **C69** (exactly when): with any logical size, also beyond the array, `extend` succeeds, and `append` succeeds if and only if one growth makes room for the new
cell; both add their items after the cells up to the logical size. -/
theorem C69_exact (g : G α) :
    (∀ xs, ∃ g', g.extend xs = .ok g' ∧ g'.logicalData = held g ++ xs.map some) ∧
    (∀ x, (∃ g', g.append x = .ok g') ↔ g.position < g.data.length + max 1 (g.data.length * g.rateNum / g.rateDen)) ∧
    (∀ x g', g.append x = .ok g' → g'.logicalData = held g ++ [some x]) := by
  have ht : g.tmpSize = max 1 (g.data.length * g.rateNum / g.rateDen) := by
    unfold G.tmpSize; simp only
    generalize g.data.length * g.rateNum / g.rateDen = n
    split <;> omega
  have hpad : ∀ n, g.position ≤ g.data.length + n → (g.data ++ List.replicate n none).take g.position = held g := by
    intro n hn
    unfold held
    rw [List.take_append, List.take_replicate]
    congr 2
    omega
  have core : ∀ (d : List (Option α)) x, g.position < d.length →
      (d.set g.position (some x)).take (g.position + 1) = d.take g.position ++ [some x] := by
    intro d x hd
    rw [List.take_add_one, List.take_set_of_le (Nat.le_refl _)]
    simp [hd]
  refine ⟨?_, ?_, ?_⟩
  · intro xs
    have hfit : ∀ (g1 : G α) n, g1 = { g with data := g.data ++ List.replicate n none } → g.position + xs.length ≤ g.data.length + n →
        ∃ d, setRange g1.data g1.position xs = .ok d ∧ d.take (g.position + xs.length) = held g ++ xs.map some := by
      intro g1 n e1 hn
      subst e1
      simp only
      have e2 : (((g.data ++ List.replicate n none).take (g.position + xs.length)).drop g.position).length = xs.length := by
        simp; omega
      refine ⟨_, if_pos e2, ?_⟩
      rw [List.append_assoc, hpad n (by omega), ← List.append_assoc]
      have hl : (held g ++ xs.map some).length = g.position + xs.length := by
        unfold held; simp; omega
      rw [List.take_append_of_le_length (by omega), List.take_of_length_le (by omega)]
    unfold G.extend
    have q1 : g.logicalSize = g.position := rfl
    have q2 : g.physicalSize = g.data.length := rfl
    by_cases hb : xs.length + g.logicalSize > g.physicalSize
    · simp only [hb, if_true]
      obtain ⟨d, h1, h2⟩ := hfit
        (g.grow (some (if g.physicalSize + g.tmpSize < xs.length + g.logicalSize then xs.length + g.logicalSize - g.physicalSize else g.tmpSize)))
        (if g.physicalSize + g.tmpSize < xs.length + g.logicalSize then xs.length + g.logicalSize - g.physicalSize else g.tmpSize) rfl (by split <;> omega)
      simp only [h1]
      exact ⟨_, rfl, h2⟩
    · simp only [hb, if_false]
      obtain ⟨d, h1, h2⟩ := hfit g 0 (by simp) (by omega)
      simp only [h1]
      exact ⟨_, rfl, h2⟩
  · intro x
    unfold G.append setCell
    by_cases h : g.position < g.data.length
    · simp [h]; omega
    · rw [if_neg h]
      simp only [G.grow, Option.getD_none, List.length_append, List.length_replicate, ht]
      by_cases h2 : g.position < g.data.length + max 1 (g.data.length * g.rateNum / g.rateDen)
      · rw [if_pos h2]; exact ⟨fun _ => h2, fun _ => ⟨_, rfl⟩⟩
      · rw [if_neg h2]; exact ⟨fun ⟨_, h⟩ => (nomatch h), fun h => absurd h h2⟩
  · intro x g' hg
    unfold G.append at hg
    by_cases h : g.position < g.data.length
    · have e1 : setCell g.data g.position x = .ok (g.data.set g.position (some x)) := if_pos h
      simp only [e1, Except.ok.injEq] at hg
      subst hg
      show (g.data.set g.position (some x)).take (g.position + 1) = _
      rw [core _ _ h]
      congr 1
      have := hpad 0 (by omega)
      simpa using this
    · have e1 : setCell g.data g.position x = .error .indexError := if_neg h
      simp only [e1] at hg
      by_cases h2 : g.position < (g.data ++ List.replicate g.tmpSize none).length
      · have e2 : setCell (g.grow none).data (g.grow none).position x = .ok ((g.data ++ List.replicate g.tmpSize none).set g.position (some x)) := if_pos h2
        simp only [e2, Except.ok.injEq] at hg
        subst hg
        show ((g.data ++ List.replicate g.tmpSize none).set g.position (some x)).take (g.position + 1) = _
        rw [core _ _ h2, hpad _ (by simp at h2; omega)]
      · have e2 : setCell (g.grow none).data (g.grow none).position x = .error .indexError := if_neg h2
        simp only [e2] at hg
        cases hg

example : (∃ g', (G.mk [some 1] 1 1 1).append 5 = .ok g') ∧ ¬ ∃ g', (G.mk [some 1] 3 1 1).append 5 = .ok g' := by
  rw [(C69_exact _).2.1, (C69_exact _).2.1]
  simp

end Zounds.Props.Growable
