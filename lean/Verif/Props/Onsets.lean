import Verif.Model.Onsets
import Verif.Props.Onset
import Verif.Props.Windowed
import Verif.Props.Time
import Verif.Props.Merge
import Mathlib.Algebra.Order.BigOperators.Group.List

/-!
# C306: percussive onsets of a sound
-/

namespace Zounds.Onset
open Zounds Zounds.SlidingWindow Zounds.Props

/-! ## Specification -/

/-- The detection function of a spectrum at frame `k`: how much the high frequencies rise from the frame before; the first frame is compared to itself;
zero before and after the sound. -/
def detection (rows : List (List Rat)) (k : Int) : Rat :=
  if k < 0 then 0
  else match rows[k.toNat]? with
    | none => 0
    | some cur => mot (absRow (rows.getD (k.toNat - 1) [])) (absRow cur)

/-- The frames around `i` that decide about it. -/
def around (rows : List (List Rat)) (w : Nat) (i : Nat) : List Rat :=
  (List.range w).map fun (j : Nat) => detection rows ((i : Int) + (j : Int) - ((w / 2 : Nat) : Int))

/-- Frame `i` is reported: the frame before it is a peak of the detection function, and at `i` it is still one and a quarter times the aggregate around it. -/
def Reported (agg : List Rat → Rat) (rows : List (List Rat)) (w : Nat) (i : Nat) : Prop :=
  detection rows ((i : Int) - 2) < detection rows ((i : Int) - 1) ∧ detection rows i < detection rows ((i : Int) - 1) ∧
    agg (around rows w i) * (5 / 4) < detection rows i

instance (agg : List Rat → Rat) (rows : List (List Rat)) (w i : Nat) : Decidable (Reported agg rows w i) := by
  unfold Reported; infer_instance

/-! ## Batches of windows -/

/-- `run` from any state. -/
def runFrom {α : Type} (z : α) (w s : Int) (st : St α) (chunks : List (List α)) (last : List α) : Except PyErr (List (List α)) :=
  match feed z w s st chunks with
  | .error e => .error e
  | .ok (st, out) => match push z w s true st last with
    | .error e => .error e
    | .ok (_, out') => .ok (out ++ out')

theorem batches_feed {α : Type} (z : α) (w s : Int) (chunks : List (List α)) (last : List α) : ∀ st : St α,
    match batches z w s st (chunks ++ [last]), runFrom z w s st chunks last with
    | .ok bs, .ok o => bs.flatten = o
    | .error e, .error e' => e = e'
    | _, _ => False := by
  unfold runFrom
  induction chunks with
  | nil =>
    intro st
    simp only [List.nil_append, batches, feed, List.isEmpty_nil]
    cases push z w s true st last with
    | error e => rfl
    | ok r =>
      obtain ⟨st', out⟩ := r
      simp only [List.nil_append]
      cases out with
      | nil => rfl
      | cons a l => simp
  | cons c cs ih =>
    intro st
    have hne : (cs ++ [last]).isEmpty = false := by simp
    simp only [List.cons_append, batches, feed, hne]
    cases push z w s false st c with
    | error e => rfl
    | ok r =>
      obtain ⟨st', out⟩ := r
      have := ih st'
      simp only []
      cases hb : batches z w s st' (cs ++ [last]) with
      | error e =>
        rw [hb] at this
        cases hf : feed z w s st' cs with
        | error e' => rw [hf] at this; simpa using this
        | ok q =>
          obtain ⟨st'', out'⟩ := q
          rw [hf] at this
          simp only [] at this ⊢
          cases hp : push z w s true st'' last with
          | error e' => rw [hp] at this; simpa using this
          | ok q => rw [hp] at this; simp at this
      | ok bs =>
        rw [hb] at this
        cases hf : feed z w s st' cs with
        | error e' => rw [hf] at this; simp at this
        | ok q =>
          obtain ⟨st'', out'⟩ := q
          rw [hf] at this
          simp only [] at this ⊢
          cases hp : push z w s true st'' last with
          | error e' => rw [hp] at this; simp at this
          | ok q =>
            rw [hp] at this
            simp only [] at this ⊢
            cases out with
            | nil => simpa using this
            | cons a l => simp [this]

/-- The batches, put together, are what the node emits. -/
theorem batches_run {α : Type} (z : α) (p w s : Nat) (chunks : List (List α)) (last : List α) (out : List (List α))
    (h : runPadded z p w s chunks last = .ok out) : ∃ bs, batchesPadded z p w s (chunks ++ [last]) = .ok bs ∧ bs.flatten = out := by
  cases chunks with
  | nil =>
    have := batches_feed z w s [] (firstChunk z p last) {}
    have hr : runPadded z p w s [] last = run z w s [] (firstChunk z p last) := rfl
    have h' : runFrom z w s {} [] (firstChunk z p last) = .ok out := by rw [← h]; rfl
    rw [h'] at this
    show ∃ bs, batches z w s {} ([] ++ [firstChunk z p last]) = .ok bs ∧ bs.flatten = out
    cases hb : batches z w s {} ([] ++ [firstChunk z p last]) with
    | error e => rw [hb] at this; exact this.elim
    | ok bs => rw [hb] at this; exact ⟨bs, rfl, this⟩
  | cons c cs =>
    have := batches_feed z w s (firstChunk z p c :: cs) last {}
    have hr : runPadded z p w s (c :: cs) last = run z w s (firstChunk z p c :: cs) last := rfl
    have h' : runFrom z w s {} (firstChunk z p c :: cs) last = .ok out := by rw [← h]; rfl
    rw [h'] at this
    show ∃ bs, batches z w s {} (firstChunk z p c :: cs ++ [last]) = .ok bs ∧ bs.flatten = out
    cases hb : batches z w s {} (firstChunk z p c :: cs ++ [last]) with
    | error e => rw [hb] at this; exact this.elim
    | ok bs => rw [hb] at this; exact ⟨bs, rfl, this⟩

/-- How many windows a run with padding in front has. -/
theorem padded_count {α : Type} (z : α) (p w s : Nat) (hs : 1 ≤ s) (hsw : s ≤ w) (chunks : List (List α)) (last : List α) (out : List (List α))
    (h : runPadded z p w s chunks last = .ok out) :
    (∀ i, i * s + w ≤ p + (chunks.flatten ++ last).length → i < out.length) ∧ (∀ i, i < out.length → i * s ≤ p + (chunks.flatten ++ last).length) := by
  have hfc : ∀ d : List α, (firstChunk z p d).length = p + d.length := by
    intro d; unfold firstChunk; split
    · simp
    · have : p = 0 := by omega
      simp [this]
  cases chunks with
  | nil =>
    have hr : runPadded z p w s [] last = run z w s [] (firstChunk z p last) := rfl
    rw [hr] at h
    have := C03_final_complete z w s hs hsw [] (firstChunk z p last) out h
    simpa [hfc] using this
  | cons c cs =>
    have hr : runPadded z p w s (c :: cs) last = run z w s (firstChunk z p c :: cs) last := rfl
    rw [hr] at h
    have := C03_final_complete z w s hs hsw (firstChunk z p c :: cs) last out h
    simp only [List.flatten_cons, List.length_append, hfc] at this ⊢
    refine ⟨fun i hi => this.1 i (by omega), fun i hi => by have := this.2 i hi; omega⟩

/-! ## C306 -/

theorem mot_nonneg (a b : List Rat) : 0 ≤ mot a b := by
  have sq : ∀ l : List Rat, ∀ x ∈ magnitude l, 0 ≤ x := by
    intro l x hx
    obtain ⟨y, -, rfl⟩ := List.mem_map.1 hx
    positivity
  have he : ∀ l, 0 ≤ energy l := by
    intro l
    have := List.sum_nonneg (sq l)
    unfold energy
    simp only []
    split
    · norm_num
    · exact this
  have hw : ∀ (l : List Rat) (k : Nat), (∀ x ∈ l, 0 ≤ x) → 0 ≤ weighted k l := by
    intro l
    induction l with
    | nil => intro k _; exact le_refl _
    | cons x xs ih =>
      intro k h
      have h1 := ih (k + 1) (fun y hy => h y (by simp [hy]))
      have h2 := h x (by simp)
      simp only [weighted]
      positivity
  have hh : ∀ l, 0 ≤ hfc l := by
    intro l
    have := hw _ 3 (sq l)
    unfold hfc
    simp only []
    split
    · norm_num
    · exact this
  unfold mot
  exact mul_nonneg (div_nonneg (hh _) (hh _)) (div_nonneg (hh _) (he _))

theorem detection_nonneg (rows : List (List Rat)) (k : Int) : 0 ≤ detection rows k := by
  unfold detection
  split
  · exact le_refl _
  · split
    · exact le_refl _
    · exact mot_nonneg _ _

theorem motStream_length : ∀ (spectra : List (List (List Rat))) {cache : Option (List (List Rat))} {first : Bool} (out : List (List Rat)),
    motStream cache first spectra = .ok out → out.length = spectra.length := by
  intro spectra
  induction spectra with
  | nil => intro cache first out h; cases h; rfl
  | cons c cs ih =>
    intro cache first out h
    simp only [motStream] at h
    split at h
    · rename_i a b _ _
      cases hr : motStream (some [b]) false cs with
      | error e => rw [hr] at h; cases h
      | ok rest =>
        rw [hr] at h
        cases h
        simp [ih rest hr]
    · cases h

/-- The numbers `MeasureOfTransience` emits are the detection function. -/
theorem detection_stream (rows : List (List Rat)) (r : List Rat) (hr : rows.head? = some r) (k : Nat) :
    sampleOrZero 0 (List.zipWith mot ((r :: rows).map absRow) (rows.map absRow)) k = detection rows k := by
  unfold sampleOrZero detection
  rw [if_neg (by omega), Int.toNat_natCast, List.getElem?_zipWith]
  cases rows with
  | nil => simp at hr
  | cons x xs =>
    simp only [List.head?_cons, Option.some.injEq] at hr
    subst hr
    cases k with
    | zero => simp
    | succ k =>
      simp only [List.map_cons, List.getElem?_cons_succ, List.getElem?_map]
      cases h : xs[k]? with
      | none => simp
      | some cur =>
        have hk : k < xs.length := by
          by_contra hc
          rw [List.getElem?_eq_none (by omega)] at h; cases h
        cases k with
        | zero => simp
        | succ k =>
          simp only [Nat.add_sub_cancel, List.getElem?_cons_succ, List.getElem?_map, Option.map_some]
          rw [List.getElem?_eq_getElem (by omega)]
          simp [List.getD_eq_getElem?_getD, List.getElem?_eq_getElem (show k < xs.length by omega)]

theorem filter_whereFrom {α : Type} (p : α → Bool) (l : List α) (k : Nat) (q : Nat → Bool) (h : ∀ (i : Nat) (hi : i < l.length), p l[i] = q (k + i)) :
    whereFrom p k l = ((List.range l.length).map (k + ·)).filter q := by
  induction l generalizing k with
  | nil => rfl
  | cons x xs ih =>
    have h0 := h 0 (by simp)
    have ih' := ih (k + 1) (fun i hi => by
      have := h (i + 1) (by simpa using hi)
      simp only [List.getElem_cons_succ] at this
      rw [this]; congr 1; omega)
    have e : (List.range (xs.length + 1)).map (k + ·) = k :: (List.range xs.length).map (k + 1 + ·) := by
      rw [List.range_succ_eq_map]
      simp only [List.map_cons, List.map_map, Nat.add_zero, List.cons.injEq, true_and]
      apply List.map_congr_left
      intro a _
      simp only [Function.comp]
      omega
    simp only [List.getElem_cons_zero, Nat.add_zero] at h0
    simp only [whereFrom, List.length_cons, e, List.filter_cons, h0, ih']

theorem whole_count {α : Type} (z : α) (p w : Nat) (hw : 2 ≤ w) (last : List α) (out : List (List α)) (h : runPadded z p w (1 : Nat) [] last = .ok out) :
    out.length = if p + last.length ≤ w then 1 else p + last.length := by
  have hfc : (firstChunk z p last).length = p + last.length := by
    unfold firstChunk; split
    · simp
    · have : p = 0 := by omega
      simp [this]
  obtain ⟨st', hp⟩ := push_pad z w 1 (by omega) (by omega) {} (firstChunk z p last)
  have hr : runPadded z p w (1 : Nat) [] last = run z w (1 : Nat) [] (firstChunk z p last) := rfl
  rw [hr] at h
  simp only [run, feed, hp, List.nil_append, Except.ok.injEq] at h
  rw [← h]
  simp only [Option.getD_none, List.nil_append, List.length_map, List.length_range, nFinal, Npx.nPad, hfc]
  rw [if_neg (by omega)]
  split
  · rfl
  · rw [if_neg (by omega), if_pos ⟨by omega, by rw [Nat.mod_one]; omega⟩, Nat.div_one]

/-- **C306**, with the number of windows of a sound that arrives at once. -/
theorem onsets_core (freq : Int) (hf : 0 ≤ freq) (agg : List Rat → Rat) (w : Nat) (hw : 4 ≤ w) (spectra : List (List (List Rat))) (hs : spectra ≠ []) (hne : ∀ c ∈ spectra, c ≠ []) :
    ∃ n, percussive freq agg (w / 2) w spectra =
        .ok (between (0 :: (((List.range n).filter fun i => decide (Reported agg spectra.flatten w i)).map fun (i : Nat) => (i : Int) * freq) ++ [(n : Int) * freq])) ∧
      (∀ i, i + (w - w / 2) ≤ spectra.flatten.length → i < n) ∧ n ≤ spectra.flatten.length + w / 2 + 1 ∧
      (spectra.length = 1 → n = if w / 2 + spectra.flatten.length ≤ w then 1 else w / 2 + spectra.flatten.length) := by
  obtain ⟨rows, hrows⟩ : ∃ rows, rows = spectra.flatten := ⟨_, rfl⟩
  obtain ⟨c, hc⟩ : ∃ c, c = w / 2 := ⟨_, rfl⟩
  have hc2 : 2 ≤ c := by omega
  have hcw : c < w := by omega
  have hrne : ∃ r, rows.head? = some r := by
    cases spectra with
    | nil => exact absurd rfl hs
    | cons x xs =>
      cases x with
      | nil => exact absurd rfl (hne [] (by simp))
      | cons y ys => exact ⟨y, by rw [hrows]; rfl⟩
  obtain ⟨r, hr⟩ := hrne
  obtain ⟨det, hdet, hflat⟩ := C25_mot spectra hne r (by rw [← hrows]; exact hr)
  have hdl : det ≠ [] := by
    intro h0
    rw [h0] at hflat
    rw [← hrows] at hflat
    cases hx : rows with
    | nil => rw [hx] at hr; simp at hr
    | cons x xs => rw [hx] at hflat; simp at hflat
  obtain ⟨front, last, hfl⟩ : ∃ front last, det = front ++ [last] := ⟨_, _, (List.dropLast_append_getLast hdl).symm⟩
  obtain ⟨out, ho1, ho2⟩ := C03_padwith (0 : Rat) c w 1 (by omega) (by omega) front last
  have hcount := padded_count (0 : Rat) c w 1 (by omega) (by omega) front last out ho1
  obtain ⟨bs, hb1, hb2⟩ := batches_run (0 : Rat) c w 1 front last out ho1
  have hfl' : front.flatten ++ last = det.flatten := by rw [hfl]; simp
  rw [hfl'] at hcount
  have hlen : det.flatten.length = rows.length := by rw [hflat, ← hrows]; simp
  rw [hlen] at hcount
  refine ⟨out.length, ?_, ?_, ?_, ?_⟩
  · have hp : percussive freq agg (w / 2) w spectra = .ok (pick freq (movingAverageIndices agg c) Picker.init bs) := by
      unfold percussive
      rw [hdet]
      simp only []
      rw [← hc, hfl]
      have : batchesPadded (0 : Rat) c (w : Int) 1 (front ++ [last]) = .ok bs := hb1
      rw [this]
    rw [hp]
    congr 1
    unfold movingAverageIndices
    rw [C25_chunk_independent freq hf _ bs [out] (by simp [hb2])]
    rw [C25_slices freq hf _ (whereFrom_increasing _)]
    simp only [absOnsets, List.flatten_cons, List.flatten_nil, List.append_nil, List.map_map]
    congr 3
    rw [filter_whereFrom (movingAverageOnset agg c) out 0 (fun i => decide (Reported agg spectra.flatten w i))]
    · simp [Function.comp_def]
    · intro i hi
      rw [← hrows, Nat.zero_add]
      obtain ⟨hl, hv⟩ := ho2 i hi
      have hval : ∀ j (hj : j < w), out[i][j]'(by omega) = detection rows ((i : Int) + (j : Int) - (c : Int)) := by
        intro j hj
        have h1 := hv j hj
        rw [List.getElem?_eq_getElem (by omega), Option.some.injEq, Nat.mul_one] at h1
        rw [h1]
        by_cases hlt : i + j < c
        · rw [if_pos hlt]
          unfold detection
          rw [if_pos (by omega)]
        · rw [if_neg hlt, hfl', hflat, ← hrows, detection_stream rows r hr]
          congr 1
          omega
      have hrow : out[i] = around rows w i := by
        apply List.ext_getElem
        · simp [around, hl]
        · intro j h1 h2
          rw [hval j (by omega)]
          simp [around, ← hc]
      have hiff := C25_moving_average_rule agg c out[i] hc2 (by omega)
      rw [Bool.eq_iff_iff, hiff, decide_eq_true_eq]
      unfold Reported
      rw [hval _ (by omega), hval _ (by omega), hval _ hcw, ← hrow]
      have e1 : (i : Int) + ((c - 2 : Nat) : Int) - (c : Int) = (i : Int) - 2 := by omega
      have e2 : (i : Int) + ((c - 1 : Nat) : Int) - (c : Int) = (i : Int) - 1 := by omega
      have e3 : (i : Int) + (c : Int) - (c : Int) = (i : Int) := by omega
      rw [e1, e2, e3]
  · intro i hi
    rw [← hrows] at hi
    exact hcount.1 i (by omega)
  · rw [← hrows]
    by_contra hlt
    have := hcount.2 (rows.length + w / 2 + 1) (by omega)
    omega
  · intro h1
    have hd1 : det.length = 1 := by rw [← h1]; exact motStream_length spectra det hdet
    rw [hfl] at hd1
    have : front = [] := by
      cases front with
      | nil => rfl
      | cons a l => simp at hd1
    subst this
    have h2 := whole_count (0 : Rat) c w (by omega) last out ho1
    have h3 : last.length = rows.length := by rw [← hlen, hfl]; simp
    rw [h2, h3, ← hrows, hc]

/-- **C306.** However the spectra of a sound arrive: the slices are those between zero, the reported frames and the end of the last window that was seen.  Window `i` decides
about frame `i`.  Every frame with enough frames after it is decided about, and at most `w / 2` frames after the sound are. -/
theorem C306_onsets (freq : Int) (hf : 0 ≤ freq) (agg : List Rat → Rat) (w : Nat) (hw : 4 ≤ w) (spectra : List (List (List Rat))) (hs : spectra ≠ []) (hne : ∀ c ∈ spectra, c ≠ []) :
    ∃ n, percussive freq agg (w / 2) w spectra =
        .ok (between (0 :: (((List.range n).filter fun i => decide (Reported agg spectra.flatten w i)).map fun (i : Nat) => (i : Int) * freq) ++ [(n : Int) * freq])) ∧
      (∀ i, i + (w - w / 2) ≤ spectra.flatten.length → i < n) ∧ n ≤ spectra.flatten.length + w / 2 + 1 := by
  obtain ⟨n, h1, h2, h3, -⟩ := onsets_core freq hf agg w hw spectra hs hne
  exact ⟨n, h1, h2, h3⟩

theorem between_starts (l : List Int) (a b : Int) (t : Int) : t ∈ (between (a :: l ++ [b])).map (·.1) ↔ t = a ∨ t ∈ l := by
  induction l generalizing a with
  | nil => simp [between]
  | cons x xs ih =>
    have := ih x
    simp only [List.cons_append, between, List.map_cons, List.mem_cons] at this ⊢
    rw [this]

/-- **C306** (which frames start a slice): for every way the spectra arrive, a frame that has `w - w / 2` frames left in the sound (itself included) starts a slice exactly if it is
reported or the first; nothing else starts one but reported frames. -/
theorem C306_starts (freq : Int) (hf : 0 < freq) (agg : List Rat → Rat) (w : Nat) (hw : 4 ≤ w) (spectra : List (List (List Rat))) (hs : spectra ≠ []) (hne : ∀ c ∈ spectra, c ≠ []) :
    ∃ slices, percussive freq agg (w / 2) w spectra = .ok slices ∧
      (∀ i : Nat, i + (w - w / 2) ≤ spectra.flatten.length → ((i : Int) * freq ∈ slices.map (·.1) ↔ i = 0 ∨ Reported agg spectra.flatten w i)) ∧
      (∀ t ∈ slices.map (·.1), t = 0 ∨ ∃ i : Nat, t = (i : Int) * freq ∧ Reported agg spectra.flatten w i) := by
  obtain ⟨n, h1, h2, h3⟩ := C306_onsets freq (le_of_lt hf) agg w hw spectra hs hne
  refine ⟨_, h1, ?_, ?_⟩
  · intro i hi
    rw [between_starts]
    have hin := h2 i hi
    constructor
    · rintro (h | h)
      · left
        rcases Int.mul_eq_zero.1 h with h | h <;> omega
      · right
        obtain ⟨j, hj, he⟩ := List.mem_map.1 h
        have : j = i := by
          have := Int.eq_of_mul_eq_mul_right (by omega) he
          omega
        subst this
        simpa using (List.mem_filter.1 hj).2
    · rintro (rfl | h)
      · left; simp
      · right
        exact List.mem_map.2 ⟨i, List.mem_filter.2 ⟨List.mem_range.2 hin, by simpa using h⟩, rfl⟩
  · intro t ht
    rw [between_starts] at ht
    rcases ht with h | h
    · exact .inl h
    · right
      obtain ⟨j, hj, he⟩ := List.mem_map.1 h
      exact ⟨j, he.symm, by simpa using (List.mem_filter.1 hj).2⟩

/-- **C306** (nothing is heard after the end): with an aggregate that is not negative for numbers that are not (mean, median), reported frames are in the sound, not its first, and come
right after a peak. -/
theorem C306_in_sound (agg : List Rat → Rat) (hagg : ∀ l : List Rat, (∀ x ∈ l, 0 ≤ x) → 0 ≤ agg l) (rows : List (List Rat)) (w i : Nat) (h : Reported agg rows w i) :
    1 ≤ i ∧ i < rows.length := by
  obtain ⟨h1, h2, h3⟩ := h
  constructor
  · by_contra hc
    obtain rfl : i = 0 := by omega
    have e : ∀ k : Int, k < 0 → detection rows k = 0 := fun k hk => by unfold detection; rw [if_pos hk]
    rw [e _ (by omega), e _ (by omega)] at h1
    exact absurd h1 (lt_irrefl _)
  · by_contra hc
    have e : detection rows (i : Int) = 0 := by
      unfold detection
      rw [if_neg (by omega), Int.toNat_natCast, List.getElem?_eq_none (by omega)]
    rw [e] at h3
    have := hagg (around rows w i) (by
      intro x hx
      obtain ⟨j, -, rfl⟩ := List.mem_map.1 hx
      exact detection_nonneg _ _)
    linarith

/-- The mean is such an aggregate. -/
example : ∀ l : List Rat, (∀ x ∈ l, 0 ≤ x) → 0 ≤ mean l := by
  intro l h
  unfold mean
  exact div_nonneg (List.sum_nonneg h) (by positivity)

/-- **C306, refuted** (a sound that arrives at once): the last slice does not end with the sound.  It ends `w / 2` frames later, unless there are no more than `w - w / 2` frames; then
there is a single window, and the slices end after one frame. -/
theorem C306_at_once_refuted (freq : Int) (hf : 0 ≤ freq) (agg : List Rat → Rat) (w : Nat) (hw : 4 ≤ w) (rows : List (List Rat)) (h0 : rows ≠ []) :
    ∃ slices, percussive freq agg (w / 2) w [rows] = .ok slices ∧
      Tiles slices (if rows.length ≤ w - w / 2 then freq else ((rows.length + w / 2 : Nat) : Int) * freq) := by
  obtain ⟨n, h1, -, -, h4⟩ := onsets_core freq hf agg w hw [rows] (by simp) (by simpa using h0)
  have h5 := h4 rfl
  have hd : ∀ m : Nat, ∀ p : Nat → Bool, between (0 :: (((List.range m).filter p).map fun (i : Nat) => (i : Int) * freq) ++ [(m : Int) * freq]) =
      pick freq (whereFrom p 0) Picker.init [List.range m] := by
    intro m p
    rw [C25_slices freq hf _ (whereFrom_increasing _)]
    simp only [absOnsets, List.flatten_cons, List.flatten_nil, List.append_nil, List.map_map, List.length_range]
    rw [filter_whereFrom p (List.range m) 0 p (by intro i hi; simp)]
    simp [Function.comp_def]
  refine ⟨_, h1, ?_⟩
  rw [hd]
  have ht := C25_tiles freq hf (whereFrom (fun i => decide (Reported agg [rows].flatten w i)) 0) (whereFrom_increasing _) [List.range n]
  have e : (([List.range n].flatten.length : Nat) : Int) * freq = if rows.length ≤ w - w / 2 then freq else ((rows.length + w / 2 : Nat) : Int) * freq := by
    simp only [List.flatten_cons, List.flatten_nil, List.append_nil, List.length_range] at h5 ⊢
    by_cases hle : rows.length ≤ w - w / 2
    · rw [if_pos hle]
      rw [if_pos (by omega)] at h5
      rw [h5]; simp
    · rw [if_neg hle]
      rw [if_neg (by omega)] at h5
      rw [h5, Nat.add_comm]
  rw [e] at ht
  exact ht

/-- Seven frames of three coefficients; the last two get louder. -/
def clap : List (List Rat) := [[0, 0, 1], [0, 0, 1], [0, 0, 1], [0, 0, 1], [0, 0, 1], [0, 0, 3], [0, 0, 6]]

example : Reported mean clap 11 6 := by decide +kernel

/-- **C306, refuted**: the slices cover the sound, and do not depend on how it arrives.  The same eight frames: at once, the onset is found and the slices end five frames after the
sound; with the last frame on its own, the onset is missed and the only slice ends after three frames. -/
theorem C306_end_refuted :
    percussive 1 mean 5 11 [clap ++ [[0, 0, 6]]] = .ok [(0, 6), (6, 7)] ∧
    percussive 1 mean 5 11 [clap, [[0, 0, 6]]] = .ok [(0, 3)] := by
  constructor <;> decide +kernel

example := C306_onsets 1 (by decide) mean 11 (by decide) [clap, [[0, 0, 6]]] (by simp) (by simp [clap])
example := C306_starts 1 (by decide) mean 11 (by decide) [clap, [[0, 0, 6]]] (by simp) (by simp [clap])
theorem mean_nonneg (l : List Rat) (h : ∀ x ∈ l, 0 ≤ x) : 0 ≤ mean l := by
  unfold mean
  exact div_nonneg (List.sum_nonneg h) (by positivity)
example := C306_in_sound mean mean_nonneg clap 11 6 (by decide +kernel)

/-! ## C308: what is pooled over the slices -/

/-- **C308** (the frames of a slice): in a series whose frames come every `freq` and last `m` times that long, the frames of the time slice from frame `a` to frame `b` are those that
start before `b` and end after `a`. -/
theorem C308_frames {α : Type} (rows : List α) (freq : Int) (hf : 0 < freq) (m : Nat) (hm : 1 ≤ m) (size : Int) (a b : Nat) (hab : a < b) :
    Time.getTimeSlice rows ⟨freq, m * freq, size⟩ (a * freq) (some (((b : Int) - a) * freq)) = (rows.take b).drop (a + 1 - m) := by
  rw [C04_timeslice_exact rows ⟨freq, m * freq, size⟩ _ _ hf (by positivity) (by apply mul_nonneg <;> omega)]
  unfold Props.pick
  have := Time.filter_idx (a + 1 - m) b rows 0
  simp only [Nat.sub_zero] at this
  rw [← this]
  congr 1
  apply Time.filter_zipIdx_congr
  intro x k _
  rw [decide_eq_decide]
  have h1 : (a : Int) * freq < k * freq + m * freq ↔ a + 1 - m ≤ k := by
    rw [← add_mul, Int.mul_lt_mul_right hf]; omega
  have h2 : freq < 200 * ((a : Int) * freq + ((b : Int) - a) * freq - k * freq) ↔ k < b := by
    have e : 200 * ((a : Int) * freq + ((b : Int) - a) * freq - k * freq) = (200 * ((b : Int) - k)) * freq := by ring
    rw [e]
    constructor
    · intro h
      by_contra hk
      have : (200 * ((b : Int) - k)) * freq ≤ 0 := mul_nonpos_of_nonpos_of_nonneg (by omega) (le_of_lt hf)
      omega
    · intro h
      have : 2 * freq ≤ (200 * ((b : Int) - k)) * freq := mul_le_mul_of_nonneg_right (by omega) (le_of_lt hf)
      omega
  show (((a : Int) * freq < k * freq + m * freq ∧ _) ↔ _)
  rw [h1, h2]

example := C308_frames [10, 11, 12, 13, 14, 15, 16, 17] 1 (by decide) 2 (by decide) 8 2 6 (by decide)

/-- Neighbours in a list. -/
def steps : List Nat → List (Nat × Nat)
  | a :: b :: rest => (a, b) :: steps (b :: rest)
  | _ => []

theorem between_steps (freq : Int) : ∀ l : List Nat, between (l.map fun (i : Nat) => (i : Int) * freq) = (steps l).map fun c => ((c.1 : Int) * freq, ((c.2 : Int) - c.1) * freq)
  | [] => rfl
  | [a] => rfl
  | a :: b :: rest => by
    have := between_steps freq (b :: rest)
    simp only [List.map_cons, between, steps] at this ⊢
    rw [this, sub_mul]

theorem steps_lt : ∀ (l : List Nat), l.Pairwise (· < ·) → ∀ c ∈ steps l, c.1 < c.2 ∧ c.1 ∈ l.dropLast
  | [], _, c, h => by simp [steps] at h
  | [a], _, c, h => by simp [steps] at h
  | a :: b :: rest, hl, c, h => by
    simp only [steps, List.mem_cons] at h
    rcases h with rfl | h
    · exact ⟨(List.pairwise_cons.1 hl).1 b (by simp), by simp⟩
    · obtain ⟨h1, h2⟩ := steps_lt (b :: rest) (List.pairwise_cons.1 hl).2 c h
      refine ⟨h1, ?_⟩
      rw [List.dropLast_cons_of_ne_nil (by simp)]
      exact List.mem_cons_of_mem _ h2

/-- **C308** (pooling over the slices of a sound): take any series with a row for every frame of the sound, whose frames last `m` times the time between them, and let slices and rows arrive at a
`Pooled` node in any order.  There are frames `0 = c₀ < c₁ < …` (the reported ones, and where the windows end) such that the entry of the slice from `a` to `b` holds exactly the operation
applied to the rows `a + 1 - m, …, b - 1`; and that is never applied to no rows at all. -/
theorem C308_pooled {α γ : Type} (op : List α → γ) (freq : Int) (hf : 0 < freq) (agg : List Rat → Rat) (hagg : ∀ l : List Rat, (∀ x ∈ l, 0 ≤ x) → 0 ≤ agg l) (w : Nat) (hw : 4 ≤ w)
    (spectra : List (List (List Rat))) (hs : spectra ≠ []) (hne : ∀ c ∈ spectra, c ≠ []) (hlong : w - w / 2 ≤ spectra.flatten.length) (m : Nat) (hm : 1 ≤ m) (size : Int)
    (arrivals : List (Merge.Arrival α)) (hrows : (Merge.seriesOf arrivals).length = spectra.flatten.length) :
    ∃ slices cuts, percussive freq agg (w / 2) w spectra = .ok slices ∧
      cuts.Pairwise (· < ·) ∧ cuts.head? = some 0 ∧ (∀ a ∈ cuts.dropLast, a = 0 ∨ Reported agg spectra.flatten w a) ∧
      slices = (steps cuts).map (fun c => ((c.1 : Int) * freq, ((c.2 : Int) - c.1) * freq)) ∧
      (∀ c ∈ steps cuts, ((Merge.seriesOf arrivals).take c.2).drop (c.1 + 1 - m) ≠ []) ∧
      (Merge.slicesOf arrivals = slices.map (fun s => ⟨s.1, s.2, ()⟩) →
        ∃ out, Merge.pooled (fun rows s u => Time.getTimeSlice rows ⟨freq, m * freq, size⟩ s (some u)) op arrivals = .ok out ∧
          out.Perm ((steps cuts).map fun c => ⟨(c.1 : Int) * freq, ((c.2 : Int) - c.1) * freq, op (((Merge.seriesOf arrivals).take c.2).drop (c.1 + 1 - m))⟩)) := by
  obtain ⟨n, h1, h2, h3⟩ := C306_onsets freq (le_of_lt hf) agg w hw spectra hs hne
  have hn : 0 < n := h2 0 (by omega)
  obtain ⟨rows, hr⟩ : ∃ rows, rows = spectra.flatten := ⟨_, rfl⟩
  rw [← hr] at h1 hlong hrows ⊢
  have hN : 0 < rows.length := by omega
  obtain ⟨mid, hmid⟩ : ∃ mid, mid = (List.range n).filter fun i => decide (Reported agg rows w i) := ⟨_, rfl⟩
  have hin : ∀ i ∈ mid, 1 ≤ i ∧ i < n ∧ i < rows.length ∧ Reported agg rows w i := by
    intro i hi
    rw [hmid, List.mem_filter, List.mem_range, decide_eq_true_eq] at hi
    have := C306_in_sound agg hagg rows w i hi.2
    exact ⟨this.1, hi.1, this.2, hi.2⟩
  have hsorted : (0 :: mid ++ [n]).Pairwise (· < ·) := by
    rw [List.cons_append, List.pairwise_cons, List.pairwise_append]
    refine ⟨?_, ?_, by simp, ?_⟩
    · intro x hx
      rcases List.mem_append.1 hx with h | h
      · have := hin x h; omega
      · simp at h; omega
    · rw [hmid]; exact List.Pairwise.filter _ List.pairwise_lt_range
    · intro x hx y hy
      simp at hy
      have := hin x hx; omega
  have hdrop : (0 :: mid ++ [n]).dropLast = 0 :: mid := List.dropLast_concat
  have hstep := steps_lt _ hsorted
  rw [hdrop] at hstep
  have hlt : ∀ c ∈ steps (0 :: mid ++ [n]), c.1 < c.2 ∧ c.1 < rows.length := by
    intro c hc
    obtain ⟨h4, h5⟩ := hstep c hc
    refine ⟨h4, ?_⟩
    rcases List.mem_cons.1 h5 with h | h
    · omega
    · exact (hin _ h).2.2.1
  refine ⟨_, 0 :: mid ++ [n], h1, hsorted, rfl, ?_, ?_, ?_, ?_⟩
  · intro a ha
    rw [hdrop] at ha
    rcases List.mem_cons.1 ha with h | h
    · exact .inl h
    · exact .inr (hin _ h).2.2.2
  · rw [← between_steps, hmid]; simp
  · intro c hc h
    have := hlt c hc
    have h6 := congrArg List.length h
    simp only [List.length_drop, List.length_take, List.length_nil, hrows] at h6
    omega
  · intro hsl
    have hser : ∃ r, Merge.Arrival.series r ∈ arrivals := by
      by_contra hno
      have : ∀ l : List (Merge.Arrival α), (¬ ∃ r, Merge.Arrival.series r ∈ l) → Merge.seriesOf l = [] := by
        intro l
        induction l with
        | nil => intro _; rfl
        | cons x xs ih =>
          intro h
          cases x with
          | slices s => exact ih fun ⟨r, hr⟩ => h ⟨r, List.mem_cons_of_mem _ hr⟩
          | series r => exact absurd ⟨r, by simp⟩ h
      rw [this _ hno] at hrows
      simp at hrows; omega
    obtain ⟨out, h4, -, h5⟩ := Merge.C28_pooled (fun rows s u => Time.getTimeSlice rows ⟨freq, m * freq, size⟩ s (some u)) op arrivals hser
    refine ⟨out, h4, h5.trans (List.Perm.of_eq ?_)⟩
    have hb : between (0 :: (mid.map fun (i : Nat) => (i : Int) * freq) ++ [(n : Int) * freq]) = (steps (0 :: mid ++ [n])).map fun c => ((c.1 : Int) * freq, ((c.2 : Int) - c.1) * freq) := by
      rw [← between_steps]; simp
    rw [hsl, ← hmid, hb, List.map_map, List.map_map]
    apply List.map_congr_left
    intro c hc
    simp only [Function.comp]
    rw [C308_frames _ freq hf m hm size c.1 c.2 (hlt c hc).1]

example := C308_pooled List.length 1 (by decide) mean mean_nonneg 11 (by decide) [clap ++ [[0, 0, 6]]] (by simp) (by simp [clap]) (by decide) 2 (by decide) 8 [.series (clap ++ [[0, 0, 6]])] (by decide)

/-- The slices of the clap are those between frames 0, 6 and 13. -/
example : percussive 1 mean 5 11 [clap ++ [[0, 0, 6]]] = .ok ((steps [0, 6, 13]).map fun c => ((c.1 : Int) * 1, ((c.2 : Int) - c.1) * 1)) := by
  rw [C306_end_refuted.1]; decide +kernel

/-- **C308, refuted**: a slice is pooled from its own frames only.  With frames that overlap by half, which is what the short time Fourier transform gives, the frame before an onset is the
last one of the slice before the onset and the first one of the slice after it. -/
theorem C308_own_frames_refuted {α : Type} (rows : List α) (freq : Int) (hf : 0 < freq) (size : Int) (c a b : Nat) (hca : c < a) (hab : a < b) (ha : a ≤ rows.length) :
    ∃ x, rows[a - 1]? = some x ∧
      (Time.getTimeSlice rows ⟨freq, (2 : Nat) * freq, size⟩ (c * freq) (some (((a : Int) - c) * freq))).getLast? = some x ∧
      (Time.getTimeSlice rows ⟨freq, (2 : Nat) * freq, size⟩ (a * freq) (some (((b : Int) - a) * freq))).head? = some x := by
  rw [C308_frames rows freq hf 2 (by omega) size c a hca, C308_frames rows freq hf 2 (by omega) size a b hab]
  refine ⟨rows[a - 1]'(by omega), by simp, ?_, ?_⟩
  · rw [List.getLast?_drop, if_neg (by simp; omega), List.getLast?_eq_getElem?]
    have e : (rows.take a).length - 1 = a - 1 := by simp; omega
    rw [e, List.getElem?_take, if_pos (by omega), List.getElem?_eq_getElem]
  · rw [List.head?_drop]
    have e : a + 1 - 2 = a - 1 := by omega
    rw [e, List.getElem?_take, if_pos (by omega), List.getElem?_eq_getElem]

/-- Eight frames with an onset at frame 6: frame 5 is in both slices. -/
example : Time.getTimeSlice [10, 11, 12, 13, 14, 15, 16, 17] ⟨1, 2, 8⟩ 0 (some 6) = [10, 11, 12, 13, 14, 15] ∧
    Time.getTimeSlice [10, 11, 12, 13, 14, 15, 16, 17] ⟨1, 2, 8⟩ 6 (some 7) = [15, 16, 17] := by decide +kernel

/-- **C308** (frames that do not overlap): then no frame is in two slices, and every frame before the end of the last slice is in one. -/
theorem C308_partition {α : Type} (rows : List α) (cuts : List Nat) (hs : cuts.Pairwise (· < ·)) (h0 : cuts.head? = some 0) :
    ((steps cuts).map fun c => (rows.take c.2).drop (c.1 + 1 - 1)).flatten = rows.take (cuts.getLast?.getD 0) := by
  have key : ∀ (l : List Nat) (a : Nat), (a :: l).Pairwise (· < ·) →
      ((steps (a :: l)).map fun c => (rows.take c.2).drop (c.1 + 1 - 1)).flatten = (rows.take ((a :: l).getLast?.getD 0)).drop a := by
    intro l
    induction l with
    | nil => intro a _; simp [steps]
    | cons b l ih =>
      intro a h
      have hab : a < b := (List.pairwise_cons.1 h).1 b (by simp)
      have h' := (List.pairwise_cons.1 h).2
      have := ih b h'
      simp only [steps, List.map_cons, List.flatten_cons, Nat.add_sub_cancel] at this ⊢
      rw [this]
      have hg : (a :: b :: l).getLast?.getD 0 = (b :: l).getLast?.getD 0 := by simp [List.getLast?_cons_cons]
      rw [hg]
      obtain ⟨e, he⟩ : ∃ e, e = (b :: l).getLast?.getD 0 := ⟨_, rfl⟩
      rw [← he]
      have hbe : b ≤ e := by
        rw [he, List.getLast?_eq_some_getLast (by simp)]
        simp only [Option.getD_some]
        rcases List.mem_cons.1 (List.getLast_mem (l := b :: l) (by simp)) with h | h
        · omega
        · exact le_of_lt ((List.pairwise_cons.1 h').1 _ h)
      apply List.ext_getElem?
      intro i
      rw [List.getElem?_append]
      simp only [List.length_drop, List.length_take, List.getElem?_drop, List.getElem?_take]
      by_cases hi : i < min b rows.length - a
      · rw [if_pos hi, if_pos (by omega), if_pos (by omega)]
      · rw [if_neg hi]
        by_cases hb : b ≤ rows.length
        · have : b + (i - (min b rows.length - a)) = a + i := by omega
          rw [this]
        · rw [List.getElem?_eq_none (by omega), List.getElem?_eq_none (by omega)]
          simp
  cases cuts with
  | nil => simp at h0
  | cons a l =>
    simp at h0
    subst h0
    simpa using key l 0 hs

example := C308_partition [10, 11, 12, 13, 14, 15, 16, 17] [0, 6, 13] (by decide) rfl

example : ((steps [0, 6, 13]).map fun c => (([10, 11, 12, 13, 14, 15, 16, 17] : List Nat).take c.2).drop (c.1 + 1 - 1)).flatten = [10, 11, 12, 13, 14, 15, 16, 17] := by
  decide

end Zounds.Onset
