import Verif.Props.Weighting
import Verif.Props.Tones
import Verif.Props.Decompose
import Verif.Props.FaTransform

/-!
# Exact conditions for claims about weightings, band decompositions and ticks (C109, C113, C114, C115)
-/

namespace Zounds.Weighting
open Zounds

/-- **C109, exact, sliced bands**: weighting a band that was taken out of a frequency adaptive array, where it began at column `a`,
keeps its columns from number `a` on and turns all before into zeros. -/
theorem C109_band (c : ℝ) (a b : Nat) (hab : a ≤ b) (data : List Nat → ℝ) (rows : Nat) :
    ∃ x, times aWeights ⟨[.plain, .explicit [c] [(a, b)]], [rows, b - a], data⟩ = .ok x ∧
      ∀ row i, i < b - a → x.data [row, i] = if a ≤ i then data [row, i] else 0 := by
  have hw : aWeights [c] = .ok [1] := C63_slice_refuted.1 c
  obtain ⟨f, hx, hl, hf⟩ : ∃ f, explicitWeights [1] [(a, b)] = .ok f ∧ f.length = b - a ∧
      ∀ i, i < b - a → f.getD i 0 = if a ≤ i then 1 else 0 := by
    refine ⟨assign (List.replicate (b - a) 0) (a, b) 1, ?_, by rw [assign_length]; simp, ?_⟩
    · simp only [explicitWeights, List.head?_cons, List.getLast?_singleton]
      rw [if_neg (by omega)]
      rfl
    · intro i hi
      rw [List.getD_eq_getElem?_getD]
      simp only [assign, List.getElem?_mapIdx, List.getElem?_replicate_of_lt hi, Option.map_some, Option.getD_some]
      by_cases h : a ≤ i
      · rw [if_pos ⟨h, by omega⟩, if_pos h]
      · rw [if_neg (by omega), if_neg h]
  have e : getFactors aWeights 2 0 [.plain, .explicit [c] [(a, b)]] = .ok (1, f) := by
    simp only [getFactors, hw, hx]
  refine ⟨⟨[.plain, .explicit [c] [(a, b)]], [rows, b - a], fun idx => data idx * factorAt f (idx.getD 1 0)⟩, ?_, ?_⟩
  · unfold times apply
    simp only [List.length_cons, List.length_nil, e]
    rw [if_pos (by left; simp [hl])]
  · intro row i hi
    show data [row, i] * factorAt f i = _
    have : factorAt f i = f.getD i 0 := by
      unfold factorAt
      split
      · rename_i h1
        rw [hl] at h1
        obtain rfl : i = 0 := by omega
        rfl
      · rfl
    rw [this, hf i hi]
    split <;> ring

example := C109_band 1000 2 5 (by decide) (fun i => (i.sum : ℝ)) 3

/-- **C109, exact**: so weighting a band of at least one column has no effect on all of its data (as the weight of a lone band, one,
demands) exactly when it was the first band, the one that began at column zero. -/
theorem C109_first (c : ℝ) (a b : Nat) (hab : a < b) (rows : Nat) (hr : 0 < rows) :
    (∀ data : List Nat → ℝ, ∃ x, times aWeights ⟨[.plain, .explicit [c] [(a, b)]], [rows, b - a], data⟩ = .ok x ∧
      ∀ row i, row < rows → i < b - a → x.data [row, i] = data [row, i]) ↔ a = 0 := by
  constructor
  · intro h
    obtain ⟨x, h1, h2⟩ := h (fun _ => 1)
    obtain ⟨x', h1', h2'⟩ := C109_band c a b hab.le (fun _ => 1) rows
    rw [h1] at h1'
    cases h1'
    by_contra h0
    have e1 := h2 0 0 hr (by omega)
    rw [h2' 0 0 (by omega), if_neg (by omega)] at e1
    exact zero_ne_one e1
  · rintro rfl data
    obtain ⟨x, h1, h2⟩ := C109_band c 0 b (by omega) data rows
    exact ⟨x, h1, fun row i _ hi => by rw [h2 row i hi, if_pos (Nat.zero_le i)]⟩

example := C109_first 1000 2 5 (by decide) 3 (by decide)

/-- **C109, exact, parts of a scale**: when bands of a scale are taken as a scale of their own, a band keeps its A-weight exactly when
a band with the least A-weighting of the whole scale was taken too. -/
theorem C109_part (whole part : List ℝ) (hsub : ∀ c ∈ part, c ∈ whole) (ws ps : List ℝ) (hw : aWeights whole = .ok ws)
    (hp : aWeights part = .ok ps) (i j : Nat) (hi : i < whole.length) (hj : j < part.length) (hij : whole.getD i 0 = part.getD j 0) :
    ps.getD j 0 = ws.getD i 0 ↔ ∃ m ∈ part, ∀ c ∈ whole, aDecibels m ≤ aDecibels c := by
  obtain ⟨ws', e1, -, w0, hw0, hwmin, hwv⟩ := C63_a_weights whole (by rintro rfl; simp at hi)
  obtain ⟨ps', e2, -, p0, hp0, hpmin, hpv⟩ := C63_a_weights part (by rintro rfl; simp at hj)
  rw [hw] at e1; cases e1
  rw [hp] at e2; cases e2
  rw [hwv i hi, hpv j hj, hij]
  constructor
  · intro h
    refine ⟨p0, hp0, fun c hc => ?_⟩
    have := hwmin c hc
    linarith
  · rintro ⟨m, hm, hmin⟩
    have h1 := hmin w0 hw0
    have h2 := hpmin m hm
    have h3 := hwmin p0 (hsub p0 hp0)
    have : aDecibels p0 = aDecibels w0 := le_antisymm (h2.trans h1) h3
    rw [this]

example : ∃ ws ps, aWeights [500, 1000] = .ok ws ∧ aWeights [1000] = .ok ps ∧
    (ps.getD 0 0 = ws.getD 1 0 ↔ ∃ m ∈ [(1000 : ℝ)], ∀ c ∈ [(500 : ℝ), 1000], aDecibels m ≤ aDecibels c) := by
  obtain ⟨ws, hw⟩ : ∃ ws, aWeights [500, 1000] = .ok ws := ⟨_, rfl⟩
  obtain ⟨ps, hp⟩ : ∃ ps, aWeights [1000] = .ok ps := ⟨_, rfl⟩
  exact ⟨ws, ps, hw, hp, C109_part [500, 1000] [1000] (by simp) ws ps hw hp 1 0 (by simp) (by simp) rfl⟩

/-- **C109, exact, plain weights of an array**: a one for every band exactly when there are as many rows as bands. -/
theorem C109_plain (arr : Arr) (rows bands : Nat) (h : arr.shape = [rows, bands]) :
    weightsOfArray false ones arr = .ok (List.replicate bands 1) ↔ rows = bands := by
  rw [C63_plain_weights_refuted arr rows bands h]
  constructor
  · intro e
    have := congrArg List.length (Except.ok.inj e)
    simpa using this
  · rintro rfl; rfl

example := C109_plain ⟨[.plain, .plain], [3, 4], fun i => (i.sum : ℝ)⟩ 3 4 rfl

end Zounds.Weighting

namespace Zounds.Tones
open Zounds Zounds.Audio Zounds.Time Finset

/-- **C115, exact, time**: every tick `k` starts exactly at `k` times the tick frequency (in units of 10⁻¹² samples) exactly when
the tick frequency is a whole number of samples; otherwise the ticks after the first are early, ever more so. -/
theorem C115_time (sr tf : Int) :
    ((∀ k : Nat, (k : Int) * tickStep sr tf * 10 ^ 12 = k * (sr * tf)) ↔ (10 ^ 12 : Int) ∣ sr * tf) ∧
    (¬ (10 ^ 12 : Int) ∣ sr * tf → ∀ k : Nat, (k : Int) * tickStep sr tf * 10 ^ 12 + k ≤ k * (sr * tf)) := by
  unfold tickStep
  constructor
  · constructor
    · intro h
      have := h 1
      rw [Nat.cast_one, one_mul, one_mul] at this
      exact ⟨sr * tf / 10 ^ 12, by rw [Int.mul_comm (10 ^ 12)]; exact this.symm⟩
    · rintro h k
      rw [mul_assoc, Int.ediv_mul_cancel h]
  · intro h k
    have h0 : 0 < sr * tf % 10 ^ 12 := by
      rcases (Int.emod_nonneg (sr * tf) (by norm_num : (10 ^ 12 : Int) ≠ 0)).lt_or_eq with h' | h'
      · exact h'
      · exact absurd (Int.dvd_of_emod_eq_zero h'.symm) h
    have h1 := Int.mul_ediv_add_emod (sr * tf) (10 ^ 12)
    have h2 : sr * tf / 10 ^ 12 * 10 ^ 12 + 1 ≤ sr * tf := by linarith
    have hk : (0 : Int) ≤ k := Int.natCast_nonneg k
    calc (k : Int) * (sr * tf / 10 ^ 12) * 10 ^ 12 + k = k * (sr * tf / 10 ^ 12 * 10 ^ 12 + 1) := by ring
      _ ≤ _ := mul_le_mul_of_nonneg_left h2 hk

theorem tickSum_near (draws : Nat → ℝ) (m step t : Nat) (hpos : 0 < step) (hms : m ≤ step + 1) :
    tickSum draws m step t = if t % step < m then draws (t % step) * (1 - ((t % step : Nat) : ℝ) / ((m : ℝ) - 1)) else 0 := by
  unfold tickSum
  have hdm : step * (t / step) + t % step = t := Nat.div_add_mod t step
  have hq : t / step * step = t - t % step := by rw [Nat.mul_comm]; omega
  have hle := Nat.mod_lt t hpos
  have hmle := Nat.mod_le t step
  rw [Finset.sum_eq_single (t / step)]
  · rw [hq]
    have h1 : t - (t - t % step) = t % step := by omega
    rw [h1]
    by_cases h : t % step < m
    · rw [if_pos h, if_pos (by omega)]
    · rw [if_neg h, if_neg (by omega)]
  · intro k _ hk
    split
    · rename_i hh
      obtain ⟨h1, h2⟩ := hh
      by_cases h3 : t < (k + 1) * step
      · exfalso
        apply hk
        symm
        exact Nat.div_eq_of_lt_le h1 h3
      · have e : (k + 1) * step = k * step + step := by ring
        have hs : t - k * step = step := by omega
        have hm : m = step + 1 := by omega
        rw [hs, hm]
        have : (step : ℝ) ≠ 0 := by exact_mod_cast hpos.ne'
        push_cast
        rw [add_sub_cancel_right, div_self this]
        ring
    · rfl
  · intro h
    exfalso; apply h
    rw [Finset.mem_range]
    have := Nat.div_le_self t step
    omega

/-- **C115, exact, range**: whatever noise the ticks are made of, all samples stay between −1 and 1, exactly when the sound is over
before the second tick or ticks are no more than one sample closer together than they are long (a tenth of a second). -/
theorem C115_range (r : SampleRate) (d tf : Int) (n step : Nat) (hn : sampleCount r.samplesPerSecond d = n)
    (hs : tickStep r.samplesPerSecond tf = step) (hpos : 0 < step) :
    (∀ draws : Nat → ℝ, (∀ i, |draws i| ≤ 1) → ∃ xs, ticks ⟨r, true⟩ d tf draws = .ok ⟨r, .vec xs⟩ ∧ ∀ t, t < n → |xs.getD t 0| ≤ 1) ↔
      n ≤ step ∨ tickLength r.samplesPerSecond ≤ step + 1 := by
  set m := tickLength r.samplesPerSecond with hm
  have hone : ∀ (y : ℝ) (j : Nat), |y| ≤ 1 → j < m → |y * (1 - (j : ℝ) / ((m : ℝ) - 1))| ≤ 1 := by
    intro y j hy hj
    have hj' : (j : ℝ) ≤ (m : ℝ) - 1 := by
      have : (j : ℝ) + 1 ≤ m := by exact_mod_cast hj
      linarith
    have h0 : 0 ≤ (j : ℝ) / ((m : ℝ) - 1) := by
      apply div_nonneg (by positivity)
      have : (0 : ℝ) ≤ j := by positivity
      linarith
    have h1 : (j : ℝ) / ((m : ℝ) - 1) ≤ 1 := div_le_one_of_le₀ hj' (by
      have : (0 : ℝ) ≤ j := by positivity
      linarith)
    rw [abs_mul, abs_of_nonneg (by linarith : 0 ≤ 1 - (j : ℝ) / ((m : ℝ) - 1))]
    have := abs_nonneg y
    nlinarith
  constructor
  · intro h
    by_contra hcon
    rw [not_or, not_le, not_le] at hcon
    obtain ⟨h1, h2⟩ := hcon
    obtain ⟨xs, e, hb⟩ := h (fun _ => 1) (by intro i; simp)
    obtain ⟨xs', e', -, hv⟩ := C61_ticks r d tf (fun _ => (1 : ℝ)) n step hn hs hpos
    rw [e] at e'
    cases e'
    have h3 := hb step h1
    rw [hv step h1, ← hm] at h3
    have hsum : tickSum (fun _ => (1 : ℝ)) m step step = (1 - (step : ℝ) / ((m : ℝ) - 1)) + 1 := by
      unfold tickSum
      obtain ⟨s', rfl⟩ : ∃ s', step = s' + 1 := ⟨step - 1, by omega⟩
      rw [sum_range_succ', sum_range_succ', sum_eq_zero]
      · rw [if_pos (by constructor <;> omega), if_pos (by constructor <;> omega)]
        have e1 : s' + 1 - (0 + 1) * (s' + 1) = 0 := by omega
        have e2 : s' + 1 - 0 * (s' + 1) = s' + 1 := by omega
        rw [e1, e2]
        simp
        ring
      · intro k _
        rw [if_neg]
        rintro ⟨ha, -⟩
        have : (k + 1 + 1) * (s' + 1) = k * (s' + 1) + 2 * (s' + 1) := by ring
        omega
    rw [hsum] at h3
    have hlt : (step : ℝ) < (m : ℝ) - 1 := by
      have : (step : ℝ) + 1 < m := by exact_mod_cast h2
      linarith
    have hq : (step : ℝ) / ((m : ℝ) - 1) < 1 := by
      rw [div_lt_one (by have : (0 : ℝ) ≤ step := by positivity
                         linarith)]
      exact hlt
    rw [abs_of_pos (by linarith)] at h3
    linarith
  · intro hcase draws hd
    obtain ⟨xs, e, -, hv⟩ := C61_ticks r d tf draws n step hn hs hpos
    refine ⟨xs, e, ?_⟩
    intro t ht
    rw [hv t ht, ← hm]
    rcases hcase with h | h
    · unfold tickSum
      rw [sum_eq_single 0]
      · split
        · rename_i hh
          apply hone _ _ (hd _)
          omega
        · simp
      · intro k _ hk
        rw [if_neg]
        rintro ⟨ha, -⟩
        have : step ≤ k * step := Nat.le_mul_of_pos_left step (by omega)
        omega
      · intro hnot; simp at hnot
    · rw [tickSum_near _ _ _ _ hpos h]
      split
      · rename_i hh
        exact hone _ _ (hd _) hh
      · simp

example := C115_range sr11025 (3 * 10 ^ 12) (10 ^ 11) 33075 1102 (by decide +kernel) (by decide +kernel) (by decide)

/-- **C115, exact, silence**: silence of a duration that is not negative has as many samples as noise exactly when it does not hold
exactly one sample (then it is a ValueError) and counting in durations of one sample gives the same as multiplying by the number
of samples a second. -/
theorem C115_silence (r : SampleRate) (hf : 0 < r.frequency) (d : Int) (hd : 0 ≤ d) (hsr : 0 ≤ r.samplesPerSecond) (draws : Nat → ℝ) :
    (∃ x y, silent (α := ℝ) ⟨r, true⟩ d = .ok x ∧ noise ⟨r, true⟩ d draws = .ok y ∧ x.length = y.length) ↔
      d / r.frequency ≠ 1 ∧ d / r.frequency = r.samplesPerSecond * d / 10 ^ 12 := by
  have hq0 : 0 ≤ d / r.frequency := Int.ediv_nonneg hd hf.le
  have hp0 : 0 ≤ r.samplesPerSecond * d := mul_nonneg hsr hd
  have hc0 : 0 ≤ r.samplesPerSecond * d / 10 ^ 12 := Int.ediv_nonneg hp0 (by norm_num)
  have hcount : sampleCount r.samplesPerSecond d = ((r.samplesPerSecond * d / 10 ^ 12).toNat : Int) := by
    unfold sampleCount
    rw [Int.tdiv_eq_ediv_of_nonneg hp0, Int.toNat_of_nonneg hc0]
  obtain ⟨ys, hy, hyl, -⟩ := C61_noise r d draws _ hcount
  have hlow : d / r.frequency * r.frequency ≤ d := Int.ediv_mul_le d hf.ne'
  have hhigh : d < (d / r.frequency + 1) * r.frequency := Int.lt_ediv_add_one_mul_self d hf
  by_cases h1 : d / r.frequency = 1
  · constructor
    · rintro ⟨x, y, hx, -⟩
      have : silent (α := ℝ) ⟨r, true⟩ d = .error .valueError :=
        (C34_silence_one_refuted r d 1 (by rw [h1] at hlow; linarith) (by rw [h1] at hhigh; linarith)).1
      rw [this] at hx
      cases hx
    · rintro ⟨h, -⟩; exact absurd h1 h
  · have hx := C61_silence (α := ℝ) r (d / r.frequency).toNat d (by
      intro h; apply h1; have := Int.toNat_of_nonneg hq0; rw [h] at this; exact this.symm)
      (by rw [Int.toNat_of_nonneg hq0]; exact hlow) (by rw [Int.toNat_of_nonneg hq0]; exact hhigh)
    constructor
    · rintro ⟨x, y, hx', hy', hl⟩
      rw [hx] at hx'; cases hx'
      rw [hy] at hy'; cases hy'
      refine ⟨h1, ?_⟩
      have hl' : (List.replicate (d / r.frequency).toNat (0 : ℝ)).length = ys.length := hl
      rw [List.length_replicate, hyl] at hl'
      omega
    · rintro ⟨-, he⟩
      refine ⟨_, _, hx, hy, ?_⟩
      show (List.replicate (d / r.frequency).toNat (0 : ℝ)).length = ys.length
      rw [List.length_replicate, hyl, he]

example := C115_silence sr11025 (by decide) (3 * 10 ^ 12) (by decide) (by decide +kernel) (fun _ => 1)

end Zounds.Tones

namespace Zounds.Decompose
open Zounds Zounds.Freq Zounds.Props.FreqAdaptive

variable {β : Type} [AddCommGroup β]

theorem sumRows_range_succ (n i : Nat) (f : Nat → List β) (hf : ∀ j, (f j).length = n) :
    sumRows n ((List.range (i + 1)).map f) = addRow (sumRows n ((List.range i).map f)) (f i) := by
  apply getD_ext
  · rw [sumRows_length]
    unfold addRow
    rw [List.length_zipWith, sumRows_length, hf]; simp
  · intro k hk
    rw [sumRows_length] at hk
    rw [sumRows_getD _ _ _ hk]
    have : (addRow (sumRows n ((List.range i).map f)) (f i)).getD k 0 = (sumRows n ((List.range i).map f)).getD k 0 + (f i).getD k 0 := by
      have h1 : k < (sumRows n ((List.range i).map f)).length := by rw [sumRows_length]; exact hk
      have h2 : k < (f i).length := by rw [hf]; exact hk
      unfold addRow
      rw [List.getD_eq_getElem?_getD, List.getElem?_zipWith, List.getElem?_eq_getElem h1, List.getElem?_eq_getElem h2,
        List.getD_eq_getElem _ _ h1, List.getD_eq_getElem _ _ h2]
      rfl
    rw [this, sumRows_getD _ _ _ hk, List.range_succ, List.map_append, List.map_append, List.sum_append]
    simp

/-- **C113, exact**: whatever the requested sizes, adding up all bands gives a window back exactly when the band of the largest size,
brought back to the size of the window, is all that the bands below it have left of the window. -/
theorem C113_exact (X : NumExt Rat) (R : List β → Nat → List β) (hR : ∀ w m, (R w m).length = m) (ny : Rat) (hny : 0 < ny)
    (n : Nat) (hn : 0 < n) (rows : List (List β)) (hrows : ∀ r ∈ rows, r.length = n) (sizes : List Nat) (hne : sizes ≠ [])
    (hnd : sizes.Nodup) (h0 : 0 ∉ sizes) :
    ∃ fa out, frequencyDecomposition X R ny n rows sizes = .ok fa ∧ synthesize X R n fa none = .ok out ∧ out.length = rows.length ∧
      ∃ (bs : List (Band Rat)) (band : Nat → Nat → List β), fa.dim.scale = .explicit bs ∧ bs.length = sizes.length ∧
        (∀ i (h : i < bs.length), fa.getBand X bs[i] = .ok ((List.range rows.length).map (band i))) ∧
        ∀ t, t < rows.length → (out.getD t [] = rows.getD t [] ↔
          R (band (bs.length - 1) t) n = subRow (rows.getD t []) (sumRows n ((List.range (bs.length - 1)).map fun j => R (band j t) n))) := by
  obtain ⟨fa, ss, h1, hperm, -, hsc, band, hband⟩ := C59_bands X R hR ny hny n hn rows hrows sizes hne hnd h0
  have hbl : (edges ny n 0 ss).length = ss.length := edges_length ..
  have hpos : 0 < ss.length := by
    rw [hperm.length_eq]; exact List.length_pos_iff.2 hne
  have hrl : fa.rows.length = rows.length := by
    obtain ⟨fa', e, -, e2, -⟩ := decomposition_eq X R hR ny hny n hn rows hrows sizes hne hnd h0
    rw [h1] at e
    cases e
    exact e2
  have hsyn := C59_synthesis X R hR n fa none (edges ny n 0 ss) (by rw [hsc]; rfl) band (by
    intro i h
    rw [hrl]
    exact (hband i h).2.1)
  refine ⟨fa, _, h1, hsyn, by simp [hrl], edges ny n 0 ss, band, hsc, by rw [hbl, hperm.length_eq], fun i h => (hband i h).2.1, ?_⟩
  intro t ht
  have hall : ((List.range (edges ny n 0 ss).length).filter fun i => decide (Chosen none i)) = List.range (edges ny n 0 ss).length := by
    rw [List.filter_eq_self]
    intro i _
    simp [Chosen]
  have hrow : (rows.getD t []).length = n := by
    rw [List.getD_eq_getElem _ _ ht]; exact hrows _ (List.getElem_mem ht)
  rw [hall, hrl, List.getD_eq_getElem?_getD, List.getElem?_map, List.getElem?_range ht]
  simp only [Option.map_some, Option.getD_some]
  obtain ⟨i, hi⟩ : ∃ i, (edges ny n 0 ss).length = i + 1 := ⟨ss.length - 1, by omega⟩
  rw [hi, Nat.add_sub_cancel, sumRows_range_succ n i (fun j => R (band j t) n) (fun j => hR _ _)]
  set low := sumRows n ((List.range i).map fun j => R (band j t) n) with hlow
  have hll : low.length = n := sumRows_length _ _
  have htl : (R (band i t) n).length = n := hR _ _
  have hadd : ∀ k, k < n → (addRow low (R (band i t) n)).getD k 0 = low.getD k 0 + (R (band i t) n).getD k 0 := by
    intro k hk
    have a1 : k < low.length := by omega
    have a2 : k < (R (band i t) n).length := by omega
    unfold addRow
    rw [List.getD_eq_getElem?_getD, List.getElem?_zipWith, List.getElem?_eq_getElem a1, List.getElem?_eq_getElem a2,
      List.getD_eq_getElem _ _ a1, List.getD_eq_getElem _ _ a2]
    rfl
  constructor
  · intro h
    apply getD_ext
    · rw [htl, subRow_length _ _ n hrow hll]
    · intro k hk
      rw [htl] at hk
      rw [subRow_getD _ _ n hrow hll k hk, ← h, hadd k hk]
      abel
  · intro h
    apply getD_ext
    · unfold addRow
      rw [List.length_zipWith, hll, htl, hrow]; simp
    · intro k hk
      have hk' : k < n := by
        unfold addRow at hk
        rw [List.length_zipWith, hll, htl] at hk; simpa using hk
      rw [hadd k hk', h, subRow_getD _ _ n hrow hll k hk']
      abel

example := C113_exact Zounds.Props.Frequency.noExt cutOrFill cutOrFill_length 5512 (by norm_num) 4 (by decide) [[1, 2, 3, 4], [5, 6, 7, 8]] (by simp) [2, 4, 1]
  (by simp) (by decide) (by decide)

end Zounds.Decompose

namespace Zounds.FaTransform
open Zounds Zounds.Freq Zounds.Props.FreqAdaptive Zounds.Props.Frequency

variable {α : Type} [Field α] [LinearOrder α]

theorem rows_eq {γ : Type} [Zero γ] (res rows : List (List γ)) (n : Nat) (hl : res.length = rows.length) (h1 : ∀ r ∈ res, r.length = n)
    (h2 : ∀ r ∈ rows, r.length = n) (h : ∀ t, t < rows.length → ∀ k, k < n → (res.getD t []).getD k 0 = (rows.getD t []).getD k 0) :
    res = rows := by
  apply List.ext_getElem hl
  intro t a b
  have l1 := h1 _ (List.getElem_mem a)
  have l2 := h2 _ (List.getElem_mem b)
  apply List.ext_getElem (by rw [l1, l2])
  intro k c d
  have := h t b k (by omega)
  rw [List.getD_eq_getElem _ _ a, List.getD_eq_getElem _ _ b, List.getD_eq_getElem _ _ c, List.getD_eq_getElem _ _ d] at this
  exact this

/-- **C114, exact, DCT**: analysis and synthesis of all coefficients on a scale whose bands hold at least one each give the
coefficients back exactly when the weights of the bands add up to one at every coefficient. -/
theorem C114_dct (X : NumExt α) (window : Nat → List ℝ) (hw : ∀ n, (window n).length = n)
    (lin : Scale α) (hlin : Sliceable lin) (ls : List (Band α)) (hls : lin.bands X = .ok ls) (scale : Scale α) (bs : List (Band α))
    (hbs : ScaleOk X scale bs) (hbne : bs ≠ [])
    (hwide : ∀ b ∈ bs, (bandRun lin.alwaysEven ls b).1 < min (bandRun lin.alwaysEven ls b).2 lin.len) :
    (∀ rows : List (List ℝ), rows ≠ [] → (∀ r ∈ rows, r.length = lin.len) →
      ∃ fa, analyze X Spectral.scipyIdct window lin rows scale = .ok fa ∧ recover X Spectral.scipyDct lin scale fa = .ok rows) ↔
    ∀ k, k < lin.len → (bs.map fun b => weightAt window lin.len (bandRun lin.alwaysEven ls b) k).sum = 1 := by
  constructor
  · intro h k hk
    have hrow : ∀ r ∈ [List.replicate lin.len (1 : ℝ)], r.length = lin.len := by
      intro r hr; rw [List.mem_singleton.1 hr, List.length_replicate]
    obtain ⟨fa, e1, e2⟩ := h _ (by simp) hrow
    obtain ⟨fa', res, e1', e2', -, -, hv⟩ := C60_dct X window hw lin hlin ls hls _ (by simp) hrow scale bs hbs hbne hwide
    rw [e1] at e1'
    cases e1'
    rw [e2] at e2'
    cases e2'
    have := hv 0 (by simp) k hk
    have hg : (([List.replicate lin.len (1 : ℝ)] : List (List ℝ)).getD 0 []).getD k 0 = 1 := by
      rw [List.getD_cons_zero, List.getD_eq_getElem?_getD, List.getElem?_replicate_of_lt hk]; rfl
    rw [hg, mul_one] at this
    exact this.symm
  · intro h rows hne hrows
    obtain ⟨fa, res, e1, e2, hl, hr, hv⟩ := C60_dct X window hw lin hlin ls hls rows hne hrows scale bs hbs hbne hwide
    refine ⟨fa, e1, e2.trans ?_⟩
    rw [rows_eq res rows lin.len hl hr hrows (fun t ht k hk => by rw [hv t ht k hk, h k hk, one_mul])]

example := C114_dct noExt ones (by intro n; simp [ones]) (four true) (by intro b; simp [four]) fourBands (four_bands true) (.explicit [⟨0, 60⟩]) [⟨0, 60⟩]
  ⟨rfl, rfl, by decide +kernel⟩ (by simp) (by decide +kernel)

/-- **C114, exact, FFT**: analysis and synthesis of all coefficients on a scale whose bands hold at least two each give the
coefficients back exactly when at every coefficient the weights of the bands add up to one, and those of the bands that begin or end
there to zero. -/
theorem C114_fft (X : NumExt α) (w : Nat → List ℝ) (hw : ∀ n, (w n).length = n)
    (lin : Scale α) (hlin : Sliceable lin) (ls : List (Band α)) (hls : lin.bands X = .ok ls) (scale : Scale α) (bs : List (Band α))
    (hbs : ScaleOk X scale bs) (hbne : bs ≠ [])
    (hwide : ∀ b ∈ bs, (bandRun lin.alwaysEven ls b).1 + 2 ≤ min (bandRun lin.alwaysEven ls b).2 lin.len) :
    (∀ rows : List (List ℂ), rows ≠ [] → (∀ r ∈ rows, r.length = lin.len) →
      ∃ fa, analyze X Spectral.irfft (fun n => (w n).map fun x : ℝ => (x : ℂ)) lin rows scale = .ok fa ∧
        recover X Spectral.rfft lin scale fa = .ok rows) ↔
    ∀ k, k < lin.len → (bs.map fun b => weightAt w lin.len (bandRun lin.alwaysEven ls b) k).sum = 1 ∧
      (bs.map fun b => if k = (bandRun lin.alwaysEven ls b).1 ∨ k + 1 = min (bandRun lin.alwaysEven ls b).2 lin.len then
        weightAt w lin.len (bandRun lin.alwaysEven ls b) k else 0).sum = 0 := by
  -- the value in terms of the two sums
  have hval : ∀ (k : Nat) (z : ℂ), (bs.map fun b => (weightAt w lin.len (bandRun lin.alwaysEven ls b) k : ℂ) *
      if k = (bandRun lin.alwaysEven ls b).1 ∨ k + 1 = min (bandRun lin.alwaysEven ls b).2 lin.len then
        ((z.re : ℝ) : ℂ) else z).sum =
      (((bs.map fun b => weightAt w lin.len (bandRun lin.alwaysEven ls b) k).sum : ℝ) : ℂ) * z -
      (((bs.map fun b => if k = (bandRun lin.alwaysEven ls b).1 ∨ k + 1 = min (bandRun lin.alwaysEven ls b).2 lin.len then
        weightAt w lin.len (bandRun lin.alwaysEven ls b) k else 0).sum : ℝ) : ℂ) * (z.im * Complex.I) := by
    intro k z
    have hz := Complex.re_add_im z
    clear hwide hbs hbne
    induction bs with
    | nil => simp
    | cons b bs ih =>
      simp only [List.map_cons, List.sum_cons, Complex.ofReal_add]
      rw [ih]
      split
      · linear_combination (-(weightAt w lin.len (bandRun lin.alwaysEven ls b) k : ℂ)) * (-1 : ℂ) * hz
      · rw [Complex.ofReal_zero]; ring
  constructor
  · intro h k hk
    have key : ∀ z : ℂ, (((bs.map fun b => weightAt w lin.len (bandRun lin.alwaysEven ls b) k).sum : ℝ) : ℂ) * z -
      (((bs.map fun b => if k = (bandRun lin.alwaysEven ls b).1 ∨ k + 1 = min (bandRun lin.alwaysEven ls b).2 lin.len then
        weightAt w lin.len (bandRun lin.alwaysEven ls b) k else 0).sum : ℝ) : ℂ) * (z.im * Complex.I) = z := by
      intro z
      have hrow : ∀ r ∈ [List.replicate lin.len z], r.length = lin.len := by
        intro r hr; rw [List.mem_singleton.1 hr, List.length_replicate]
      obtain ⟨fa, e1, e2⟩ := h _ (by simp) hrow
      obtain ⟨fa', res, e1', e2', -, -, hv⟩ := C60_fft X w hw lin hlin ls hls _ (by simp) hrow scale bs hbs hbne hwide
      rw [e1] at e1'
      cases e1'
      rw [e2] at e2'
      cases e2'
      have := hv 0 (by simp) k hk
      have hg : (([List.replicate lin.len z] : List (List ℂ)).getD 0 []).getD k 0 = z := by
        rw [List.getD_cons_zero, List.getD_eq_getElem?_getD, List.getElem?_replicate_of_lt hk]; rfl
      rw [hg] at this
      rw [← hval k z]
      exact this.symm
    have k1 := key 1
    have k2 := key Complex.I
    simp only [Complex.one_im, Complex.ofReal_zero, zero_mul, mul_zero, sub_zero, mul_one] at k1
    rw [k1] at k2
    simp only [Complex.I_im, Complex.ofReal_one, one_mul] at k2
    refine ⟨by exact_mod_cast k1, ?_⟩
    have k3 : (((bs.map fun b => if k = (bandRun lin.alwaysEven ls b).1 ∨ k + 1 = min (bandRun lin.alwaysEven ls b).2 lin.len then
        weightAt w lin.len (bandRun lin.alwaysEven ls b) k else 0).sum : ℝ) : ℂ) * Complex.I = 0 := by linear_combination -k2
    rcases mul_eq_zero.1 k3 with h3 | h3
    · exact_mod_cast h3
    · exact absurd h3 Complex.I_ne_zero
  · intro h rows hne hrows
    obtain ⟨fa, res, e1, e2, hl, hr, hv⟩ := C60_fft X w hw lin hlin ls hls rows hne hrows scale bs hbs hbne hwide
    refine ⟨fa, e1, e2.trans ?_⟩
    rw [rows_eq res rows lin.len hl hr hrows (fun t ht k hk => by
      rw [hv t ht k hk, hval, (h k hk).1, (h k hk).2]; simp)]

example := C114_fft noExt ones (by intro n; simp [ones]) five (by intro b; simp [five]) fiveBands five_bands (.explicit [⟨0, 50⟩, ⟨70, 100⟩]) [⟨0, 50⟩, ⟨70, 100⟩]
  ⟨rfl, rfl, by decide +kernel⟩ (by simp) (by decide +kernel)

end Zounds.FaTransform
