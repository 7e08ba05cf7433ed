import Verif.Props.Resample
import Verif.Props.Conv
import Verif.Props.MetaData
import Verif.Props.Rainbow
import Verif.Props.Repl
import Verif.Props.Ops
import Mathlib.Data.List.GetD

/-!
# Exact conditions: C121, C123, C132, C133, C149, C166, C173-C175, C177, C188
-/

namespace Zounds.Resample
open Zounds.Audio (Raw RateArg Audio squeezed silence)
open Zounds.Time (SampleRate supportedRates)

/-- A stream of one channel: the chunks' samples at one rate, each with its end flag, contiguous in memory. -/
def cut {α : Type} (r : SampleRate) (s : List (List α × Bool)) : List (Chunk α × Bool) := s.map fun p => (⟨⟨r, .vec p.1⟩, p.1⟩, p.2)

theorem cut_lengths {σ α : Type} [Field α] (lib : Lib σ α) {target : RateArg} (hr : target.rate ∈ supportedRates) {r : SampleRate} (hs : r ∈ supportedRates) (hon : Honest lib 1)
    (hd : hz target.rate ≠ hz r) (s : List (List α × Bool)) {outs : List (Audio α)} {reqs : List (Request α)} (h : run lib target (cut r s) = .ok (outs, reqs)) :
    outs.map Audio.length = s.map fun p => roundDiv (p.1.length * hz target.rate) (hz r) := by
  cases s with
  | nil => simp only [cut, List.map_nil, run] at h; cases h; rfl
  | cons p ps =>
    have hf := C116_output lib hr (nch := 1) (by decide) rfl hon hd h
    have hb := (supported_pos hs).1
    have key : ∀ (l : List (List α × Bool)) (outs : List (Audio α)),
        List.Forall₂ (fun (p : Chunk α × Bool) a => a.rate = target.rate ∧ Shaped a 1 ∧ Nearest a.length (p.1.audio.length * hz target.rate) (hz r)) (cut r l) outs →
        outs.map Audio.length = l.map fun p => roundDiv (p.1.length * hz target.rate) (hz r) := by
      intro l
      induction l with
      | nil => intro outs h; cases h; rfl
      | cons q l ih =>
        intro outs h
        cases h with
        | cons h1 h2 =>
          rw [List.map_cons, List.map_cons, ih _ h2]
          congr 1
          exact nearest_unique hb h1.2.2 (roundDiv_nearest _ _ hb)
    exact key (p :: ps) outs hf

theorem roundDiv_mul (k b : Nat) (hb : 0 < b) : roundDiv (k * b) b = k := by
  apply nearest_unique hb (roundDiv_nearest _ _ hb)
  unfold Nearest
  generalize k * b = z
  omega

/-- **C121**: for one-channel streams at one rate, the number of resampled samples does not depend on how the samples are cut into chunks if and only if the target rate is a
multiple of the stream's rate.  For every library that keeps to its contract, does not fail and accepts the ratio. -/
theorem C121_exact {σ α : Type} [Field α] (lib : Lib σ α) {target : RateArg} (hr : target.rate ∈ supportedRates) (ha : target.isAudio = true) {r : SampleRate} (hs : r ∈ supportedRates)
    (hon : Honest lib 1) (hne : NoError lib) (hv : lib.validRatio (hz target.rate) (hz r) = true) (hd : hz target.rate ≠ hz r) :
    (∀ (s t : List (List α × Bool)), (s.map Prod.fst).flatten = (t.map Prod.fst).flatten → ∀ o q o' q', run lib target (cut r s) = .ok (o, q) → run lib target (cut r t) = .ok (o', q') →
      (o.map Audio.length).sum = (o'.map Audio.length).sum) ↔ hz r ∣ hz target.rate := by
  have hb := (supported_pos hs).1
  have hn := (supported_pos hr).1
  constructor
  · intro h
    by_contra hnd
    obtain ⟨a, haa⟩ : ∃ a, a = 1 + hz r * 2 := ⟨_, rfl⟩
    have hbig : 2 * hz r < a * hz target.rate := by
      have : hz r * 2 ≤ hz r * 2 * hz target.rate := Nat.le_mul_of_pos_right _ hn
      rw [haa, Nat.add_mul]; omega
    have hbig' : 2 * hz r < (hz r * a) * hz target.rate := by
      have : a * hz target.rate ≤ hz r * (a * hz target.rate) := Nat.le_mul_of_pos_left _ hb
      rw [Nat.mul_assoc]; omega
    have hno : ∀ m, 2 * hz r < m → ¬ Nearest 1 m (hz r) := by
      intro m hm hc
      have := hc.1
      omega
    have run1 : ∃ x, run lib target (cut r (List.replicate (hz r) (List.replicate a (0 : α), true))) = .ok x := by
      obtain ⟨k, hk⟩ : ∃ k, hz r = k + 1 := ⟨hz r - 1, by omega⟩
      rw [hk, List.replicate_succ]
      unfold cut
      rw [List.map_cons]
      refine C116_succeeds lib hr ha (nch := 1) (by decide) rfl hon hne hs hv hd ?_
      intro p hp
      have hp2 : p = (⟨⟨r, .vec (List.replicate a (0 : α))⟩, List.replicate a (0 : α)⟩, true) := by
        rcases List.mem_cons.mp hp with rfl | hp
        · rfl
        · obtain ⟨q, hq, rfl⟩ := List.mem_map.mp hp
          rw [(List.mem_replicate.mp hq).2]
      subst hp2
      have : (Audio.length (⟨r, .vec (List.replicate a (0 : α))⟩ : Audio α)) = a := by simp [Audio.length]
      simp only [this]
      exact hno _ hbig
    have run2 : ∃ x, run lib target (cut r [(List.replicate (hz r * a) (0 : α), true)]) = .ok x := by
      refine C116_succeeds lib hr ha (nch := 1) (by decide) rfl hon hne hs hv hd ?_
      intro p hp
      have hp2 : p = (⟨⟨r, .vec (List.replicate (hz r * a) (0 : α))⟩, List.replicate (hz r * a) (0 : α)⟩, true) := by
        rcases List.mem_cons.mp hp with rfl | hp
        · rfl
        · cases hp
      subst hp2
      have : (Audio.length (⟨r, .vec (List.replicate (hz r * a) (0 : α))⟩ : Audio α)) = hz r * a := by simp [Audio.length]
      simp only [this]
      exact hno _ hbig'
    obtain ⟨⟨o, q⟩, e1⟩ := run1
    obtain ⟨⟨o', q'⟩, e2⟩ := run2
    have hsum := h _ _ (by simp) o q o' q' e1 e2
    rw [cut_lengths lib hr hs hon hd _ e1, cut_lengths lib hr hs hon hd _ e2] at hsum
    simp only [List.map_replicate, List.length_replicate, List.sum_replicate, smul_eq_mul, List.map_cons, List.map_nil, List.sum_cons, List.sum_nil, Nat.add_zero] at hsum
    have e3 : hz r * a * hz target.rate = (a * hz target.rate) * hz r := by ring
    rw [e3, roundDiv_mul _ _ hb] at hsum
    apply hnd
    have hdv : hz r ∣ a * hz target.rate := ⟨_, hsum.symm⟩
    rw [haa, Nat.add_mul, Nat.one_mul, Nat.mul_assoc] at hdv
    exact (Nat.dvd_add_left (Nat.dvd_mul_right _ _)).mp hdv
  · rintro ⟨k, hk⟩ s t hst o q o' q' h1 h2
    rw [cut_lengths lib hr hs hon hd _ h1, cut_lengths lib hr hs hon hd _ h2]
    have e : ∀ l : List (List α × Bool), (l.map fun p => roundDiv (p.1.length * hz target.rate) (hz r)).sum = ((l.map Prod.fst).flatten).length * k := by
      intro l
      induction l with
      | nil => simp
      | cons p l ih =>
        rw [List.map_cons, List.sum_cons, ih, List.map_cons, List.flatten_cons, List.length_append, Nat.add_mul]
        congr 1
        have : p.1.length * hz target.rate = (p.1.length * k) * hz r := by rw [hk]; ring
        rw [this, roundDiv_mul _ _ hb]
    rw [e, e, hst]

example := C121_exact (nearestLib 1) (target := ⟨sr22, true⟩) (by decide) rfl (r := sr44) (by decide) (nearestLib_honest 1).1 (nearestLib_honest 1).2
  (by decide +kernel) (by decide)

/-- From 22050 Hz the number of samples at 44100 Hz depends on the length alone; not so in the other direction. -/
example : hz sr22 ∣ hz sr44 ∧ ¬ hz sr44 ∣ hz sr22 := by decide

/-- **C123**: the two-channel array that `stereo` makes of one channel is read frame after frame as it should be if and only if all samples are equal.  For every library, every
signal and every rate. -/
theorem C123_exact {σ α : Type} [Field α] (lib : Lib σ α) (hon : Honest lib 2) (target : RateArg) (hr : target.rate ∈ supportedRates)
    (a : Audio α) (hs : a.rate ∈ supportedRates) (xs : List α) (hx : a.data = .vec xs) (hd : hz target.rate ≠ hz a.rate) (fin : Bool) :
    ∃ st, a.stereo = .ok st ∧ frames st = xs.map (fun v => [v, v]) ∧
      ∀ outs reqs, run lib target [(⟨st, transposedMemory xs⟩, fin)] = .ok (outs, reqs) →
        ∃ r, reqs[1]? = some r ∧ (r.input = (frames st).flatten ↔ ∀ x ∈ xs, ∀ y ∈ xs, x = y) := by
  have hst : a.stereo = .ok ⟨a.rate, .mat 2 (xs.map fun v => [v, v])⟩ := by
    unfold Audio.stereo
    have hch : a.channels ≠ 2 := by simp [Audio.channels, hx]
    rw [if_neg hch, Audio.rewrap_supported hs]
    simp [hx, Audio.stackT, Audio.new]
  refine ⟨_, hst, rfl, ?_⟩
  intro outs reqs h
  obtain ⟨h1, -, -, -⟩ := run_spec lib hr (nch := 2) (by decide) rfl hon hd h
  refine ⟨_, by rw [h1]; rfl, ?_⟩
  have e1 : (requestFor 2 (hz target.rate) (hz a.rate) (⟨⟨a.rate, .mat 2 (xs.map fun v => [v, v])⟩, transposedMemory xs⟩ : Chunk α) fin).input = xs ++ xs := by
    unfold requestFor transposedMemory
    simp only [Audio.length, List.length_map]
    apply List.take_of_length_le
    rw [List.length_append]; omega
  have e2 : (frames (⟨a.rate, .mat 2 (xs.map fun v => [v, v])⟩ : Audio α)).flatten = (xs.map fun v => [v, v]).flatten := rfl
  refine Iff.trans (b := xs ++ xs = (xs.map fun v => [v, v]).flatten) (by rw [← e2, ← e1]) ?_
  have hget : ∀ (l : List α) (j : Nat), ((l.map fun v => [v, v]).flatten)[j]? = l[j / 2]? := by
    intro l
    induction l with
    | nil => simp
    | cons v l ih =>
      intro j
      match j with
      | 0 => rfl
      | 1 => rfl
      | j + 2 =>
        have : (j + 2) / 2 = j / 2 + 1 := by omega
        rw [this]
        simpa using ih j
  constructor
  · intro he
    have h0 : ∀ j, j < xs.length → xs[j]? = xs[0]? := by
      intro j
      induction j using Nat.strong_induction_on with
      | _ j ih =>
        intro hj
        by_cases hz0 : j = 0
        · rw [hz0]
        · have := congrArg (fun l : List α => l[j]?) he
          simp only [hget] at this
          rw [List.getElem?_append_left hj] at this
          rw [this]
          exact ih (j / 2) (by omega) (by omega)
    intro x hx y hy
    obtain ⟨i, hi, rfl⟩ := List.mem_iff_getElem.mp hx
    obtain ⟨j, hj, rfl⟩ := List.mem_iff_getElem.mp hy
    have := (h0 i hi).trans (h0 j hj).symm
    simpa [List.getElem?_eq_getElem hi, List.getElem?_eq_getElem hj] using this
  · intro hall
    apply List.ext_getElem?
    intro j
    rw [hget]
    by_cases hj : j < xs.length + xs.length
    · have hj2 : j / 2 < xs.length := by omega
      have hl : j < (xs ++ xs).length := by rw [List.length_append]; exact hj
      rw [List.getElem?_eq_getElem hl, List.getElem?_eq_getElem hj2]
      congr 1
      apply hall
      · rcases List.mem_append.mp (List.getElem_mem hl) with h | h <;> exact h
      · exact List.getElem_mem hj2
    · rw [List.getElem?_eq_none (by rw [List.length_append]; omega), List.getElem?_eq_none (by omega)]

example := C123_exact (nearestLib 2) (nearestLib_honest 2).1 ⟨sr22, true⟩ (by decide) ⟨sr44, .vec [1, 2, 3, 4]⟩ (by decide) [1, 2, 3, 4] rfl (by decide) true

/-- The run of that theorem exists. -/
example : ∃ st x, (⟨sr44, .vec [1, 2, 3, 4]⟩ : Audio ℚ).stereo = .ok st ∧
    run (nearestLib 2) ⟨sr22, true⟩ [(⟨st, transposedMemory [1, 2, 3, 4]⟩, true)] = .ok x := by
  have hst : (⟨sr44, .vec [1, 2, 3, 4]⟩ : Audio ℚ).stereo = .ok ⟨sr44, .mat 2 [[1, 1], [2, 2], [3, 3], [4, 4]]⟩ := by decide +kernel
  obtain ⟨x, hx⟩ := C116_succeeds (nearestLib 2) (target := ⟨sr22, true⟩) (by decide) rfl
    (c := ⟨⟨sr44, .mat 2 [[1, 1], [2, 2], [3, 3], [4, 4]]⟩, transposedMemory [1, 2, 3, 4]⟩) (fin := true) (rest := []) (nch := 2) (by decide) rfl (nearestLib_honest 2).1
    (nearestLib_honest 2).2 (by decide) (by decide +kernel) (by decide)
    (by
      intro p hp
      simp only [List.mem_cons, List.not_mem_nil, or_false] at hp
      subst hp
      unfold Nearest; decide)
  exact ⟨_, x, hst, hx⟩

end Zounds.Resample

namespace Zounds.Conv
open Finset

/-- **C132**: frame `t` of the pooling is labelled as the `k` samples from `t s` on.  It depends on them alone, for all signals, if and only if the kernel is one sample. -/
theorem C132_exact (k s : Nat) (hk : 0 < k) (hs : 0 < s) :
    (∀ (x x' y y' : List ℝ) (t : Nat), x.length = x'.length → temporalPooling k s x = .ok y → temporalPooling k s x' = .ok y' → t < y.length →
      (∀ i : Nat, t * s ≤ i → i < t * s + k → x.getD i 0 = x'.getD i 0) → y.getD t 0 = y'.getD t 0) ↔ k = 1 := by
  constructor
  · intro h
    by_contra hk1
    obtain ⟨t, ht⟩ : ∃ t, t = k / 2 := ⟨_, rfl⟩
    have hts : k / 2 ≤ t * s := by rw [ht]; exact Nat.le_mul_of_pos_right _ hs
    have hpos : 0 < t := by omega
    have hts0 : 0 < t * s := Nat.mul_pos hpos hs
    obtain ⟨x, hx⟩ : ∃ x : List ℝ, x = List.replicate (t * s + k) 0 := ⟨_, rfl⟩
    obtain ⟨x', hx'⟩ : ∃ x' : List ℝ, x' = (List.range (t * s + k)).map (fun i : Nat => if i = t * s - k / 2 then (1 : ℝ) else 0) := ⟨_, rfl⟩
    have hl : x.length = t * s + k := by rw [hx]; simp
    have hl' : x'.length = t * s + k := by rw [hx']; simp
    have g : ∀ i, x.getD i 0 = 0 := by
      intro i
      rw [hx]
      by_cases hi : i < (List.replicate (t * s + k) (0 : ℝ)).length
      · rw [List.getD_eq_getElem _ _ hi, List.getElem_replicate]
      · exact List.getD_eq_default _ _ (by omega)
    have g' : ∀ i, i < t * s + k → x'.getD i 0 = if i = t * s - k / 2 then (1 : ℝ) else 0 := by
      intro i hi
      rw [hx', List.getD_eq_getElem _ _ (by simpa using hi)]
      simp
    obtain ⟨y, hy1, hy2, hy3⟩ := C128_pooling k s hk hs x (by intro e; rw [e] at hl; simp at hl; omega)
    obtain ⟨y', hy1', hy2', hy3'⟩ := C128_pooling k s hk hs x' (by intro e; rw [e] at hl'; simp at hl'; omega)
    have hty : t < y.length := by
      rw [hy2, hl]
      have : t ≤ (t * s + k + 2 * (k / 2) - k) / s := by
        rw [Nat.le_div_iff_mul_le hs]; omega
      omega
    have hty' : t < y'.length := by rw [hy2', hl', ← hl, ← hy2]; exact hty
    have := h x x' y y' t (by rw [hl, hl']) hy1 hy1' hty (by
      intro i hi hi2
      rw [g, g' i (by omega), if_neg (by omega)])
    rw [hy3 t hty, hy3' t hty'] at this
    have z : ∑ j ∈ range k, at' x (((t * s : Nat) : Int) - (k / 2 : Nat) + j) = 0 := by
      apply Finset.sum_eq_zero
      intro j _
      unfold at'
      split_ifs
      · exact g _
      · rfl
    have z' : ∑ j ∈ range k, at' x' (((t * s : Nat) : Int) - (k / 2 : Nat) + j) = 1 := by
      rw [Finset.sum_eq_single 0]
      · unfold at'
        rw [if_pos (by push_cast; omega)]
        have e : (((t * s : Nat) : Int) - (k / 2 : Nat) + ((0 : Nat) : Int)).toNat = t * s - k / 2 := by omega
        rw [e, g' _ (by omega), if_pos rfl]
      · intro j hj hj0
        have hj := Finset.mem_range.mp hj
        unfold at'
        rw [if_pos (by omega)]
        have e : (((t * s : Nat) : Int) - (k / 2 : Nat) + (j : Int)).toNat = t * s - k / 2 + j := by omega
        rw [e, g' _ (by omega), if_neg (by omega)]
      · intro h0; exact absurd (Finset.mem_range.mpr hk) h0
    rw [z, z'] at this
    have hk0 : (k : ℝ) ≠ 0 := by exact_mod_cast (show k ≠ 0 by omega)
    rw [zero_div, eq_comm, div_eq_zero_iff] at this
    rcases this with h1 | h1
    · exact one_ne_zero h1
    · exact hk0 h1
  · rintro rfl x x' y y' t hl h1 h2 ht hag
    by_cases hx : x = []
    · have hx' : x' = [] := by rw [hx] at hl; exact List.length_eq_zero_iff.mp hl.symm
      rw [hx] at h1; rw [hx'] at h2
      rw [h1] at h2
      cases h2; rfl
    · have hx' : x' ≠ [] := by
        intro e; rw [e] at hl; exact hx (List.length_eq_zero_iff.mp hl)
      obtain ⟨z, hz1, hz2, hz3⟩ := C128_pooling 1 s hk hs x hx
      obtain ⟨z', hz1', hz2', hz3'⟩ := C128_pooling 1 s hk hs x' hx'
      rw [h1] at hz1; cases hz1
      rw [h2] at hz1'; cases hz1'
      rw [hz3 t ht, hz3' t (by rw [hz2', ← hl, ← hz2]; exact ht)]
      congr 1
      apply Finset.sum_congr rfl
      intro j hj
      have hj := Finset.mem_range.mp hj
      have hj0 : j = 0 := by omega
      subst hj0
      unfold at'
      have e : (((t * s : Nat) : Int) - ((1 / 2 : Nat) : Int) + ((0 : Nat) : Int)).toNat = t * s := by omega
      rw [e, hag (t * s) le_rfl (by omega)]

example := C132_exact 3 2 (by decide) (by decide)

/-- **C133**: the band of a fresh sinc layer for a band from `a` to `b` Hz (at `sr` samples per second) starts at `sr / a`, which is `a` exactly if `a` is the square root of the rate, and
stops at `2 sr / a - sr / b`, which is `b` exactly if `2 b sr = a b² + a sr`. -/
theorem C133_exact (sr a b : ℝ) (hsr : 0 < sr) (ha : 0 < a) (hab : a < b) :
    sincStart (sincInit sr a b) = sr / a ∧ (sincStart (sincInit sr a b) = a ↔ a ^ 2 = sr) ∧
    sincStop (sincInit sr a b) = 2 * (sr / a) - sr / b ∧ (sincStop (sincInit sr a b) = b ↔ 2 * b * sr = a * b ^ 2 + a * sr) := by
  have h1 : sincStart (sincInit sr a b) = sr / a := by
    unfold sincStart sincInit
    exact abs_of_pos (div_pos hsr ha)
  have h2 := (C133_sinc_stop_refuted sr a b hsr ha hab).1
  have hb : 0 < b := by linarith
  refine ⟨h1, ?_, h2, ?_⟩
  · rw [h1, div_eq_iff ha.ne', eq_comm, pow_two]
  · rw [h2]
    have e : 2 * (sr / a) - sr / b = (2 * b * sr - a * sr) / (a * b) := by field_simp
    rw [e, div_eq_iff (mul_pos ha hb).ne']
    constructor <;> intro h <;> nlinarith

example := C133_exact 44100 100 200 (by norm_num) (by norm_num) (by norm_num)

end Zounds.Conv

namespace Zounds.MetaData

/-- **C149**: a request is sent with the range it came with if and only if it has a header spelled `range` in lower case, or it asks for all bytes anyway. -/
theorem C149_exact (w : World) (r : Request) :
    ∃ r', process w (.uri (.request r)) = .ok ⟨.request r', .none, .none, .none, .none, .none, []⟩ ∧
      (sent r' hrange = sent r hrange ↔ hrange ∈ r.headers.map Prod.fst ∨ sent r hrange = some ['b', 'y', 't', 'e', 's', '=', '0', '-']) := by
  obtain ⟨r', h1, -, -, -, h2, h3, -⟩ := C148_request w r
  refine ⟨r', h1, ?_⟩
  by_cases h : hrange ∈ r.headers.map Prod.fst
  · rw [h2 h]; simp only [h, true_or]
  · rw [h3 h]
    simp only [h, false_or]
    exact eq_comm

end Zounds.MetaData

namespace Zounds.Rainbow

/-- **C166**: what `apply_scale` gives depends on the sizes of the real parts alone. -/
theorem C166_real_parts (X : Freq.NumExt ℝ) (scale other : Freq.Scale ℝ) (window : Nat → List ℝ) (c c' : List (List ℂ))
    (h : c.map (fun r => r.map fun z => |z.re|) = c'.map fun r => r.map fun z => |z.re|) :
    applyScale X scale other window c = applyScale X scale other window c' := by
  unfold applyScale
  rw [h]

example (X : Freq.NumExt ℝ) (scale other : Freq.Scale ℝ) (window : Nat → List ℝ) :=
  C166_real_parts X scale other window [[⟨1, 2⟩, ⟨-3, 4⟩]] [[⟨-1, 7⟩, ⟨3, 0⟩]] (by simp)

end Zounds.Rainbow

namespace Zounds.Repl
variable {A S Code V : Type}

/-- The statement is run a second time, with `exec`: a SyntaxError came out of its evaluation, or it evaluated and does not parse. -/
def RunAgain (P : Python S Code V A) (code : Code) (ended : Ended V) : Prop := (∃ v, ended = .value v ∧ P.parse code = none) ∨ ended = .syntaxError

/-- **C173**: a statement is evaluated once, and then executed once more exactly if `RunAgain`; nothing else touches the variables. -/
theorem C173_exact (P : Python S Code V A) (ser : Ctx A → Except SerErr (Response A)) (sio : Nat) (code : Code) (u : Nat) (w : World S A) (vars : S) (printed : List Char)
    (so : Option Nat) (ended : Ended V) (hev : P.eval code w.vars = (vars, printed, so, ended)) :
    (RunAgain P code ended → (post P ser sio code u w).1.vars = (P.exec code vars).1) ∧
    (¬ RunAgain P code ended → (post P ser sio code u w).1.vars = vars) := by
  have hx : ∀ (w' : World S A) b r, (runExec P code w' b r).1.vars = (P.exec code w'.vars).1 := by
    intro w' b r
    unfold runExec
    split <;> rename_i he <;> rw [he]
  constructor
  · rintro (⟨v, rfl, hp⟩ | rfl)
    · simp only [post, postBody, hev, hp, hx]
    · simp only [post, postBody, hev, hx]
  · intro hn
    cases ended with
    | syntaxError => exact absurd (Or.inr rfl) hn
    | raised => simp only [post, postBody, hev]
    | value v =>
      cases hp : P.parse code with
      | none => exact absurd (Or.inl ⟨v, rfl, hp⟩) hn
      | some m =>
        simp only [post, postBody, hev, hp, addUrl]
        split <;> rfl

example := C173_exact toy (serialize id id) 1 .count 41 toyWorld 1 [] none (.value 1) rfl

/-- **C174**: what an expression printed is in the answer if and only if it is part of the text of its value. -/
theorem C174_exact (P : Python S Code V A) (ser : Ctx A → Except SerErr (Response A)) (sio : Nat) (code : Code) (u : Nat) (w : World S A) (vars : S) (printed : List Char)
    (so : Option Nat) (v : V) (m : List Stmt) (hev : P.eval code w.vars = (vars, printed, so, .value v)) (hp : P.parse code = some m) :
    (∃ t, (post P ser sio code u w).2.result = some t ∧ printed <:+: t) ↔ printed <:+: P.str v := by
  rw [(C172_expression P ser sio code u w vars printed so v m hev hp).2.1]
  constructor
  · rintro ⟨t, ht, h⟩; cases ht; exact h
  · intro h; exact ⟨_, rfl, h⟩

example := C174_exact toy (serialize id id) 1 .say 41 toyWorld 0 ['h', 'i'] (some 99) 0 [.expr .other] rfl rfl

/-- **C175, in general**: an expression that evaluates and parses is answered with status 200 exactly if no serializer raises. -/
theorem C175_status (P : Python S Code V A) (ser : Ctx A → Except SerErr (Response A)) (sio : Nat) (code : Code) (u : Nat) (w : World S A) (vars : S) (printed : List Char)
    (so : Option Nat) (v : V) (m : List Stmt) (hev : P.eval code w.vars = (vars, printed, so, .value v)) (hp : P.parse code = some m) :
    (post P ser sio code u w).2.ok = true ↔
      ∀ e, ser ⟨((parseFeature (P.env vars) ⟨none, none⟩ m).2).1, ((parseFeature (P.env vars) ⟨none, none⟩ m).2).2, .bytes true, P.value v⟩ ≠ .error (.py e) := by
  simp only [post, postBody, hev, hp, addUrl]
  cases h : ser ⟨((parseFeature (P.env vars) ⟨none, none⟩ m).2).1, ((parseFeature (P.env vars) ⟨none, none⟩ m).2).2, .bytes true, P.value v⟩ with
  | ok r => simp
  | error e => cases e with
    | noMatching => simp
    | py e => simp

example := C175_status toy (serialize id id) 1 .count 41 toyWorld 1 [] none 1 [.expr .other] rfl rfl

/-- **C175, expressions that are no feature of a document**: answered with an error exactly if the value is a three-dimensional array without three or four entries in its last
dimension, audio of rate zero, or the results of a search. -/
theorem C175_exact (P : Python S Code V A) (ap vp : List Char → List Char) (sio : Nat) (code : Code) (u : Nat) (w : World S A) (vars : S) (printed : List Char)
    (so : Option Nat) (v : V) (m : List Stmt) (hev : P.eval code w.vars = (vars, printed, so, .value v)) (hp : P.parse code = some m)
    (hpf : (parseFeature (P.env vars) ⟨none, none⟩ m).2 = (none, none)) :
    (post P (serialize ap vp) sio code u w).2.ok = false ↔
      (∃ last, P.value v = .array 3 last ∧ last ≠ 3 ∧ last ≠ 4) ∨ (∃ x, P.value v = .audio 0 x) ∨ ∃ q l, P.value v = .results q l := by
  rw [← Bool.not_eq_true, C175_status P (serialize ap vp) sio code u w vars printed so v m hev hp, hpf]
  cases hv : P.value v with
  | none => simp [serialize, serializers, Ser.matches]
  | other => simp [serialize, serializers, Ser.matches]
  | slices l => simp [serialize, serializers, Ser.matches]
  | audio rate x =>
    by_cases h0 : rate = 0
    · simp [serialize, serializers, Ser.matches, Ser.serialize, audioWrites, h0]
    · simp [serialize, serializers, Ser.matches, Ser.serialize, audioWrites, h0]
  | results q l =>
    simp only [serialize, serializers, Ser.matches, Ser.serialize, List.find?_cons]
    refine ⟨fun _ => Or.inr (Or.inr ⟨q, l, rfl⟩), fun _ h => ?_⟩
    have hd : ∃ e, (listing .searchResults ap vp l [(['q', 'u', 'e', 'r', 'y'], .bytes q)] : Except PyErr (Response A)) = .error e := by
      unfold listing Json.dumps
      simp only [Json.dumps.allObj]
      cases (Json.arr (l.map (hitJson ap vp))).dumps with
      | error e => exact ⟨_, rfl⟩
      | ok _ =>
        simp only [Json.dumps]
        exact ⟨_, rfl⟩
    obtain ⟨e, he⟩ := hd
    simp only [he] at h
    exact h e rfl
  | array n last =>
    by_cases h1 : n = 1
    · simp [serialize, serializers, Ser.matches, Ser.serialize, generateImage, h1]
    · by_cases h2 : n = 2
      · simp [serialize, serializers, Ser.matches, Ser.serialize, generateImage, h2]
      · by_cases h3 : n = 3
        · subst h3
          by_cases hl : last = 3 ∨ last = 4
          · simp [serialize, serializers, Ser.matches, Ser.serialize, generateImage, hl]
            rcases hl with rfl | rfl <;> simp
          · have hl' := not_or.mp hl
            simp [serialize, serializers, Ser.matches, Ser.serialize, generateImage, hl'.1, hl'.2]
        · simp [serialize, serializers, Ser.matches, h1, h2, h3]

example := C175_exact toy id id 1 .count 41 toyWorld 1 [] none 1 [.expr .other] rfl rfl rfl

/-- **C177**: a parser that gave a document and a feature before gives, for the next expression, that expression's if it is a feature expression, and the earlier ones
otherwise. -/
theorem C177_exact {D : Type} (fs : List Char → Option Feat) (docs : List Char → Option D) (id a : List Char) (d : D) (f : Feat)
    (hd : docs id = some d) (hf : fs a = some f) (ha : a ≠ []) (e : Expr) (hne : ∀ inner, e ≠ .attr inner []) :
    let first := parseFeature ⟨some fs, docs⟩ ⟨none, none⟩ [.expr (.attr (.name id) a)]
    let next := (parseFeature ⟨some fs, docs⟩ first.1 [.expr e]).2
    (∀ id' a' d' f', e = .attr (.name id') a' → docs id' = some d' → fs a' = some f' → next = (some d', some f')) ∧
    ((¬ ∃ id a d f, e = .attr (.name id) a ∧ docs id = some d ∧ fs a = some f) → next = (some d, some f)) := by
  refine ⟨?_, fun h => C177_reuse_refuted fs docs id a d f hd hf ha e h⟩
  rintro id' a' d' f' rfl hd' hf'
  have ha' : a' ≠ [] := fun h => hne (.name id') (by rw [h])
  simp [parseFeature, visitStmts, visitStmt, visitExpr, Visitor.result, hd, hd', hf', ha']

example := C177_exact (fun n => if n = ['f', 'f', 't'] then some fftFeat else none) (fun n => if n = ['d'] then some 7 else none) ['d'] ['f', 'f', 't'] 7 fftFeat
  (by decide) rfl (by decide) (.attr (.name ['d']) ['f', 'f', 't']) (by simp)

end Zounds.Repl

namespace Zounds.Ops

/-- **C188**: two operations with parameters that are numbers or arrays have the same version if and only if their code and the bytes of their parameters, one after the other, are the same
bytes, whatever the names of the parameters, their number and where one ends; provided that the digests of these two texts do not collide. -/
theorem C188_exact {V R : Type} (H : List Nat → List Char) (kind : V → Kind) (op op' : Op V R) (ps ps' : List (List Nat))
    (h : op.kwargs.map (fun kv => kind kv.2) = ps.map fun b => .numbers b true) (h' : op'.kwargs.map (fun kv => kind kv.2) = ps'.map fun b => .numbers b true)
    (hH : H (op.code.bytes ++ ps.flatten) = H (op'.code.bytes ++ ps'.flatten) → op.code.bytes ++ ps.flatten = op'.code.bytes ++ ps'.flatten) :
    ∃ v v', opVersion H kind op = .ok v ∧ opVersion H kind op' = .ok v' ∧ (v = v' ↔ op.code.bytes ++ ps.flatten = op'.code.bytes ++ ps'.flatten) := by
  have hall : ∀ ps : List (List Nat), hashedAll (ps.map fun b => Kind.numbers b true) = .ok ps.flatten := by
    intro ps
    induction ps with
    | nil => rfl
    | cons b bs ih => rw [List.map_cons, hashedAll, ih]; rfl
  exact ⟨H (op.code.bytes ++ ps.flatten), H (op'.code.bytes ++ ps'.flatten), by unfold opVersion; rw [h, hall], by unfold opVersion; rw [h', hall],
    hH, fun e => by rw [e]⟩

example (body : (String → Option Nat) → Dict Nat → Dict Nat → Except Err Nat) :=
  C188_exact (fun b => b.map Char.ofNat) (fun n : Nat => .numbers [n] true) ⟨⟨[1, 2], [], false, [], body⟩, [("a", 5)]⟩ ⟨⟨[1], [], false, [], body⟩, [("a", 2), ("b", 5)]⟩
    [[5]] [[2], [5]] rfl rfl (fun _ => rfl)

end Zounds.Ops
