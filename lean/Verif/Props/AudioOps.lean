import Verif.Model.AudioOps
import Verif.Props.AudioIndex
import Verif.Props.ArrayOps
/-!
# C318: array methods on audio
-/

namespace Zounds.AudioOps
open Zounds Zounds.Arr Zounds.AudioIndex
open Zounds.Time (SampleRate findRate Dim)

variable {φ : Type} [Field φ] [LinearOrder φ] (X : Freq.NumExt φ)

/-! ## Reductions of arrays with two axes -/

theorem flatMap_hit {β : Type} (n i : Nat) (hi : i < n) (l : List β) : ((List.range n).flatMap fun k => if k = i then l else []) = l := by
  induction n with
  | zero => omega
  | succ n ih =>
    rw [List.range_succ, List.flatMap_append]
    by_cases h : i = n
    · subst h
      have : ((List.range i).flatMap fun k => if k = i then l else []) = [] := by
        rw [List.flatMap_eq_nil_iff]
        intro k hk
        rw [if_neg (by have := List.mem_range.1 hk; omega)]
      rw [this]; simp
    · rw [ih (by omega)]
      have : ¬ n = i := fun h' => h h'.symm
      simp [this]

theorem allIdx_one (n : Nat) : allIdx [n] = (List.range n).map fun i => [i] := by
  simp only [allIdx, List.map_cons, List.map_nil]
  induction n with
  | zero => rfl
  | succ m ih => rw [List.range_succ, List.flatMap_append, List.map_append, ih]; simp

theorem allIdx_two (n m : Nat) : allIdx [n, m] = (List.range n).flatMap fun i => (List.range m).map fun j => [i, j] := by
  simp only [allIdx, List.map_cons, List.map_nil]
  congr 1
  funext i
  rw [List.map_flatMap]
  simp only [List.map_cons, List.map_nil]
  induction m with
  | zero => rfl
  | succ m ih => rw [List.range_succ, List.flatMap_append, List.map_append, ih]; simp

/-- The entries that a reduction of the second axis brings together. -/
theorem second_axis (n m i : Nat) (hi : i < n) (p : List Nat → Bool) (hp : ∀ k j, p [k, j] = decide (k = i)) :
    (allIdx [n, m]).filter p = (List.range m).map fun j => [i, j] := by
  rw [allIdx_two, List.filter_flatMap]
  have : ∀ k, ((List.range m).map fun j => [k, j]).filter p = if k = i then (List.range m).map fun j => [i, j] else [] := by
    intro k
    by_cases hk : k = i
    · subst hk
      rw [if_pos rfl, List.filter_eq_self]
      intro x hx
      obtain ⟨j, -, rfl⟩ := List.mem_map.1 hx
      simp [hp]
    · rw [if_neg hk, List.filter_eq_nil_iff]
      intro x hx
      obtain ⟨j, -, rfl⟩ := List.mem_map.1 hx
      simp [hp, hk]
  simp only [this]
  exact flatMap_hit n i hi _

/-- The entries that a reduction of the first axis brings together. -/
theorem first_axis (n m c : Nat) (hc : c < m) (p : List Nat → Bool) (hp : ∀ k j, p [k, j] = decide (j = c)) :
    (allIdx [n, m]).filter p = (List.range n).map fun i => [i, c] := by
  rw [allIdx_two, List.filter_flatMap]
  have : ∀ k, ((List.range m).map fun j => [k, j]).filter p = [[k, c]] := by
    intro k
    rw [List.filter_map]
    have hf : (List.range m).filter (p ∘ fun j => [k, j]) = [c] := by
      have : (p ∘ fun j => [k, j]) = fun j => decide (j = c) := by funext j; simp [hp]
      rw [this]
      clear hp this
      induction m with
      | zero => omega
      | succ m ih =>
        rw [List.range_succ, List.filter_append]
        by_cases h : c = m
        · subst h
          have : (List.range c).filter (fun j => decide (j = c)) = [] := by
            rw [List.filter_eq_nil_iff]
            intro x hx
            have := List.mem_range.1 hx
            simp; omega
          rw [this]; simp
        · have h' : ¬ m = c := fun h'' => h h''.symm
          rw [ih (by omega)]; simp [h']
    rw [hf]; rfl
  simp only [this]
  induction n with
  | zero => rfl
  | succ n ih => rw [List.range_succ, List.flatMap_append, List.map_append, ih]; simp

/-- Reduction of frames to one number each. -/
theorem reduce_channels {α : Type} (red : List α → α) (a : Awu (LibDim φ) α) (r : SampleRate) (n ch : Nat) (h : IsAudio a r n [ch]) (x : Int) (hx : x = 1 ∨ x = -1) :
    ∃ g, a.reduce (libOps X) red [x] false = .ok ⟨[n], [.time r.frequency r.duration (some n)], g⟩ ∧
      ∀ i < n, g [i] = red ((List.range ch).map fun c => a.get [i, c]) := by
  have hs := h.shape
  have hd := h.dims
  refine ⟨fun idx => red (((allIdx [n, ch]).filter fun s => project (fun k => decide (k ∈ [1])) false 0 s = idx).map a.get), ?_, ?_⟩
  · unfold Awu.reduce
    rw [hs, hd]
    rcases hx with rfl | rfl <;> rfl
  · intro i hi
    show red _ = _
    rw [second_axis n ch i hi _ (by intro k j; simp [project]), List.map_map]
    rfl

theorem reduce_channels_kept {α : Type} (red : List α → α) (a : Awu (LibDim φ) α) (r : SampleRate) (n ch : Nat) (h : IsAudio a r n [ch]) :
    ∃ g, a.reduce (libOps X) red [1] true = .ok ⟨[n, 1], [.time r.frequency r.duration (some n), .identity], g⟩ ∧
      ∀ i < n, g [i, 0] = red ((List.range ch).map fun c => a.get [i, c]) := by
  have hs := h.shape
  have hd := h.dims
  refine ⟨fun idx => red (((allIdx [n, ch]).filter fun s => project (fun k => decide (k ∈ [1])) true 0 s = idx).map a.get), ?_, ?_⟩
  · unfold Awu.reduce
    rw [hs, hd]
    rfl
  · intro i hi
    show red _ = _
    rw [second_axis n ch i hi _ (by intro k j; simp [project]), List.map_map]
    rfl

theorem reduce_frames {α : Type} (red : List α → α) (a : Awu (LibDim φ) α) (r : SampleRate) (n ch : Nat) (h : IsAudio a r n [ch]) (x : Int) (hx : x = 0 ∨ x = -2) :
    ∃ g, a.reduce (libOps X) red [x] false = .ok ⟨[ch], [.identity], g⟩ ∧
      ∀ c < ch, g [c] = red ((List.range n).map fun i => a.get [i, c]) := by
  have hs := h.shape
  have hd := h.dims
  refine ⟨fun idx => red (((allIdx [n, ch]).filter fun s => project (fun k => decide (k ∈ [0])) false 0 s = idx).map a.get), ?_, ?_⟩
  · unfold Awu.reduce
    rw [hs, hd]
    rcases hx with rfl | rfl <;> rfl
  · intro c hc
    show red _ = _
    rw [first_axis n ch c hc _ (by intro k j; simp [project]), List.map_map]
    rfl

/-! ## C318 -/

/-- **C318, channels summed**: `samples.sum(axis=1)` of audio with channels is mono audio at the same rate, every sample the sum of the channels' (with `keepdims`, audio with one channel). -/
theorem C318_sum {α : Type} (add : List α → α) (a : Awu (LibDim φ) α) (r : SampleRate) (n ch : Nat) (h : IsAudio a r n [ch]) :
    (∃ b, sum X add a (.one 1) false = .ok (.audio b) ∧ IsAudio b r n [] ∧ ∀ i < n, b.get [i] = add ((List.range ch).map fun c => a.get [i, c])) ∧
    (∃ b, sum X add a (.one 1) true = .ok (.audio b) ∧ IsAudio b r n [1] ∧ ∀ i < n, b.get [i, 0] = add ((List.range ch).map fun c => a.get [i, c])) := by
  have hr := rateOf_audio h
  have hl : a.shape.length = 2 := by rw [h.shape]; rfl
  constructor
  · obtain ⟨g, h1, h2⟩ := reduce_channels X add a r n ch h 1 (Or.inl rfl)
    refine ⟨⟨[n], [.time r.frequency r.duration (some n)], g⟩, ?_, ⟨h.rate, rfl, rfl, by simp⟩, h2⟩
    unfold sum reduceWhole
    simp only [Axis.list, h1, hl, Axis.isOne, decide_true, and_self, if_true, hr, newAudio_ok X n [] (by simp)]
    rfl
  · obtain ⟨g, h1, h2⟩ := reduce_channels_kept X add a r n ch h
    refine ⟨⟨[n, 1], [.time r.frequency r.duration (some n), .identity], g⟩, ?_, ⟨h.rate, rfl, rfl, by simp⟩, h2⟩
    unfold sum reduceWhole
    simp only [Axis.list, h1, hl, Axis.isOne, decide_true, and_self, if_true, hr, newAudio_ok X n [1] (by simp)]
    rfl

/-- **C318, refuted for other ways to say it**: with the axis given as `-1` or `(1,)`, or the maximum instead of the sum, the same numbers come back as a plain array: it has the time dimension, but it is not
audio any more. -/
theorem C318_sum_last_refuted {α : Type} (add : List α → α) (a : Awu (LibDim φ) α) (r : SampleRate) (n ch : Nat) (h : IsAudio a r n [ch]) :
    ∃ b : Awu (LibDim φ) α, sum X add a (.one (-1)) false = .ok (.plain b) ∧ sum X add a (.many [1]) false = .ok (.plain b) ∧ max X add a (.one 1) false = .ok (.plain b) ∧
      b.shape = [n] ∧ b.dims = [.time r.frequency r.duration (some n)] ∧ ∀ i < n, b.get [i] = add ((List.range ch).map fun c => a.get [i, c]) := by
  have hs := h.shape
  have hd := h.dims
  refine ⟨⟨[n], [.time r.frequency r.duration (some n)], fun idx => add (((allIdx [n, ch]).filter fun s => project (fun k => decide (k ∈ [1])) false 0 s = idx).map a.get)⟩, ?_, ?_, ?_, rfl, rfl, ?_⟩
  · unfold sum reduceWhole Awu.reduce
    rw [hs, hd]
    rfl
  · unfold sum reduceWhole Awu.reduce
    rw [hs, hd]
    rfl
  · unfold max reduceWhole Awu.reduce
    rw [hs, hd]
    rfl
  · intro i hi
    show add _ = _
    rw [second_axis n ch i hi _ (by intro k j; simp [project]), List.map_map]
    rfl

/-- **C318, frames summed**: along the time axis one number for each channel remains, without units. -/
theorem C318_over_time {α : Type} (add : List α → α) (a : Awu (LibDim φ) α) (r : SampleRate) (n ch : Nat) (h : IsAudio a r n [ch]) (x : Int) (hx : x = 0 ∨ x = -2) :
    ∃ b : Awu (LibDim φ) α, sum X add a (.one x) false = .ok (.plain b) ∧ b.shape = [ch] ∧ b.dims = [.identity] ∧ ∀ c < ch, b.get [c] = add ((List.range n).map fun i => a.get [i, c]) := by
  obtain ⟨g, h1, h2⟩ := reduce_frames X add a r n ch h x hx
  refine ⟨⟨[ch], [.identity], g⟩, ?_, rfl, rfl, h2⟩
  unfold sum reduceWhole
  have : (Axis.one x).isOne = false := by rcases hx with rfl | rfl <;> rfl
  simp only [Axis.list, h1, this, Bool.false_eq_true, and_false, if_false]

/-- **C318, mono**: without an axis, the sum of audio is the sum of all its numbers; for mono audio `sum(axis=0)` and `max(axis=0)`, which numpy answers with the same number, are AttributeErrors. -/
theorem C318_mono {α : Type} (add : List α → α) (a : Awu (LibDim φ) α) (r : SampleRate) (n : Nat) (h : IsAudio a r n []) :
    sum X add a .all false = .ok (.number (add ((List.range n).map fun i => a.get [i]))) ∧
    (∀ x : Int, x = 0 ∨ x = -1 → sum X add a (.one x) false = .error .attributeError ∧ max X add a (.one x) false = .error .attributeError) := by
  have hs := h.shape
  have hd := h.dims
  constructor
  · unfold sum reduceWhole
    rw [hs]
    rw [allIdx_one, List.map_map]
    rfl
  · rintro x hx
    have : a.reduce (libOps X) add [x] false = .error .attributeError := by
      unfold Awu.reduce
      rw [hs, hd]
      rcases hx with rfl | rfl <;> rfl
    constructor
    · unfold sum reduceWhole
      simp only [Axis.list, this]
    · unfold max reduceWhole
      simp only [Axis.list, this]

/-- **C318, refuted for products**: `samples.dot(x)` is a ValueError for every `x`: the product is computed and then handed, with the dimensions, to a constructor that wants a sample rate. -/
theorem C318_dot_refuted {α : Type} (a : Awu (LibDim φ) α) (r : SampleRate) (n : Nat) (sh : List Nat) (h : IsAudio a r n sh) (bshape : List Nat) (get : List Nat → α) :
    dot a bshape get = .error .valueError := by
  unfold dot
  cases hd : dotShape a.shape bshape with
  | error e =>
    unfold dotShape at hd
    by_cases h0 : a.shape = [] ∨ bshape = []
    · rw [if_pos h0] at hd; cases hd
    · rw [if_neg h0] at hd
      simp only [] at hd
      obtain ⟨k, hk⟩ : ∃ k, k = if bshape.length = 1 then bshape.getLastD 0 else bshape.dropLast.getLastD 0 := ⟨_, rfl⟩
      rw [← hk] at hd
      by_cases h1 : a.shape.getLastD 0 ≠ k
      · rw [if_pos h1] at hd; cases hd; rfl
      · rw [if_neg h1] at hd; cases hd
  | ok s =>
    have hlen : a.dims.length ≤ 2 := by
      rw [h.dims, List.length_cons, List.length_map]
      have := h.few
      omega
    have hlt : ¬ 3 < (a.dims.take s.length).length := by
      rw [List.length_take]; omega
    simp only []
    match s with
    | [] => rfl
    | [x] => simp only [newWithDims, timeDimensionOf, if_neg hlt]
    | [x, y] => simp only [newWithDims, timeDimensionOf, if_neg hlt]
    | _ :: _ :: _ :: _ => rfl

/-- **C318, silence of the same kind**: `zeros_like()` is audio of the same rate, length and channels, all zero. -/
theorem C318_zeros_like {α : Type} (zero : α) (a : Awu (LibDim φ) α) (r : SampleRate) (n : Nat) (sh : List Nat) (h : IsAudio a r n sh) :
    ∃ b, zerosLike X zero a = .ok (.audio b) ∧ IsAudio b r n sh ∧ ∀ idx, b.get idx = zero := by
  refine ⟨⟨n :: sh, .time r.frequency r.duration (some n) :: sh.map fun _ => .identity, fun _ => zero⟩, ?_, ⟨h.rate, rfl, rfl, h.few⟩, fun _ => rfl⟩
  unfold zerosLike fromExample
  simp only [rateOf_audio h, h.shape, newAudio_ok X n sh h.few]

/-- **C318, transposing** gives a plain array, even for mono audio, whose transpose has the same numbers. -/
theorem C318_transpose_refuted {α : Type} (a : Awu (LibDim φ) α) (r : SampleRate) (n : Nat) (h : IsAudio a r n []) :
    ∃ b : Awu (LibDim φ) α, transpose X a = .ok (.plain b) ∧ b.shape = [n] ∧ b.dims = [.time r.frequency r.duration (some n)] ∧ ∀ i, b.get [i] = a.get [i] := by
  have hs := h.shape
  have hd := h.dims
  refine ⟨⟨[n], [.time r.frequency r.duration (some n)], fun idx => a.get idx.reverse⟩, ?_, rfl, rfl, fun _ => rfl⟩
  unfold transpose Awu.transpose
  rw [hs, hd]
  rfl

theorem new_audio_dims {α : Type} (r : SampleRate) (n c : Nat) (sh sh' : List Nat) (hl : sh'.length = sh.length) (get : List Nat → α) :
    Awu.new (libOps X) (c :: sh') get (.time r.frequency r.duration (some n) :: sh.map fun _ => .identity) =
      .ok ⟨c :: sh', .time r.frequency r.duration (some c) :: sh'.map fun _ => .identity, get⟩ := by
  have hin : ∀ (l l' : List Nat), l'.length = l.length → installAll (libOps X) (l.map fun _ => (.identity : LibDim φ)) l' = .ok (l'.map fun _ => .identity) := by
    intro l
    induction l with
    | nil => intro l' h; obtain rfl := List.length_eq_zero_iff.1 h; rfl
    | cons x l ih =>
      intro l' h
      cases l' with
      | nil => simp at h
      | cons y l' =>
        have := ih l' (by simpa using h)
        simp only [List.map_cons, installAll, this]
        rfl
  unfold Awu.new
  rw [if_neg (by simp [hl])]
  simp only [installAll, hin sh sh' hl]
  rfl

theorem concat_eq {α : Type} (a : Awu (LibDim φ) α) (r : SampleRate) (n : Nat) (sh : List Nat) (h : IsAudio a r n sh) (rest : List (Awu (LibDim φ) α)) (axis : Nat) :
    concat X (a :: rest) axis = (Arr.concat (libOps X) (a :: rest) axis).map Got.audio := by
  unfold concat Arr.concat joined
  simp only []
  cases allMatch (libOps X) a rest with
  | error e => rfl
  | ok u =>
    simp only []
    cases hc : npConcat ((a :: rest).map fun b => (b.shape, b.get)) axis with
    | error e => rfl
    | ok s =>
      simp only [fromExample, rateOf_audio h]
      have hsh : ∃ c sh', s.1 = c :: sh' ∧ sh'.length = sh.length := by
        simp only [List.map_cons, npConcat] at hc
        split at hc
        · cases hc
          rw [h.shape]
          cases axis with
          | zero => exact ⟨_, _, rfl, rfl⟩
          | succ k => exact ⟨_, _, rfl, by simp⟩
        · cases hc
      obtain ⟨c, sh', e1, e2⟩ := hsh
      rw [e1, h.dims, newAudio_ok X c sh' (by rw [e2]; exact h.few), new_audio_dims X r n c sh sh' e2]
      rfl

/-- Whether two pieces of audio have the same rate and the same channels (their lengths may differ). -/
theorem dimsEq_audio (r r' : SampleRate) (n n' : Nat) (sh sh' : List Nat) :
    dimsEq (libOps X) (.time r'.frequency r'.duration (some n') :: sh'.map fun _ => .identity) (.time r.frequency r.duration (some n) :: sh.map fun _ => .identity) =
      .ok (decide (r' = r ∧ sh'.length = sh.length)) := by
  have hid : ∀ l l' : List Nat, dimsEq (libOps X) (l.map fun _ => (.identity : LibDim φ)) (l'.map fun _ => .identity) = .ok (decide (l.length = l'.length)) := by
    intro l
    induction l with
    | nil => intro l'; cases l' <;> simp [dimsEq]
    | cons x l ih =>
      intro l'
      cases l' with
      | nil => simp [dimsEq]
      | cons y l' => simpa [dimsEq, libOps] using ih l'
  obtain ⟨f, u⟩ := r
  obtain ⟨f', u'⟩ := r'
  have heq : (libOps X).eq (.time f' u' (some n')) (.time f u (some n)) = .ok (decide (f' = f) && decide (u' = u)) := rfl
  simp only [dimsEq, heq, SampleRate.mk.injEq]
  by_cases h1 : f' = f
  · by_cases h2 : u' = u
    · simp only [h1, h2, decide_true, Bool.and_self, true_and]
      exact hid sh' sh
    · simp [h1, h2]
  · simp [h1]

/-- **C318, joining**: `AudioSamples.concat` of pieces of audio is audio of the first one's rate, the pieces one after the other, if all have the same rate and the same number of channels; otherwise it
is a ValueError. -/
theorem C318_concat {α : Type} (a : Awu (LibDim φ) α) (r : SampleRate) (n : Nat) (sh : List Nat) (h : IsAudio a r n sh) (rest : List (Awu (LibDim φ) α × SampleRate × Nat × List Nat))
    (hrest : ∀ x ∈ rest, IsAudio x.1 x.2.1 x.2.2.1 x.2.2.2) :
    ((∀ x ∈ rest, x.2.1 = r ∧ x.2.2.2 = sh) → ∃ b, concat X (a :: rest.map Prod.fst) 0 = .ok (.audio b) ∧ IsAudio b r (n + (rest.map fun x => x.2.2.1).sum) sh ∧
      (∀ i t, i < n → b.get (i :: t) = a.get (i :: t)) ∧
      ∀ k (hk : k < rest.length) i t, i < rest[k].2.2.1 → b.get ((n + ((rest.take k).map fun x => x.2.2.1).sum + i) :: t) = rest[k].1.get (i :: t)) ∧
    ((∃ x ∈ rest, x.2.1 ≠ r ∨ x.2.2.2 ≠ sh) → concat X (a :: rest.map Prod.fst) 0 = .error .valueError) := by
  have hgetD : ∀ x ∈ rest, x.1.shape.getD 0 0 = x.2.2.1 := by
    intro x hx; rw [(hrest x hx).shape]; rfl
  have hsum : ∀ l : List (Awu (LibDim φ) α × SampleRate × Nat × List Nat), (∀ x ∈ l, x ∈ rest) →
      ((l.map Prod.fst).map fun x => x.shape.getD 0 0).sum = (l.map fun x => x.2.2.1).sum := by
    intro l hl
    rw [List.map_map]
    congr 1
    apply List.map_congr_left
    intro x hx
    exact hgetD x (hl x hx)
  have hl : a.dims.length = a.shape.length := by rw [h.dims, h.shape]; simp
  rw [concat_eq X a r n sh h]
  constructor
  · intro hall
    have hforall : ∀ b ∈ rest.map Prod.fst, List.Forall₂ (fun y x => (libOps X).eq y x = .ok true) b.dims a.dims := by
      intro b hb
      obtain ⟨x, hx, rfl⟩ := List.mem_map.1 hb
      rw [(hrest x hx).dims, h.dims, (hall x hx).1, (hall x hx).2]
      refine .cons ?_ ?_
      · show Except.ok _ = _
        simp
      · have hid : ∀ l : List Nat, List.Forall₂ (fun y x => (libOps X).eq y x = .ok true) (l.map fun _ => (.identity : LibDim φ)) (l.map fun _ => .identity) := by
          intro l
          induction l with
          | nil => exact .nil
          | cons z l ih => exact .cons rfl ih
        exact hid sh
    have hsame : SameElsewhere a (rest.map Prod.fst) 0 := by
      unfold SameElsewhere
      refine ⟨by rw [h.shape]; simp, ?_⟩
      intro b hb
      obtain ⟨x, hx, rfl⟩ := List.mem_map.1 hb
      rw [(hrest x hx).shape, h.shape, (hall x hx).2]
      refine ⟨by simp, ?_⟩
      intro k hk
      cases k with
      | zero => exact absurd rfl hk
      | succ k => rfl
    have hok : ∃ q, Arr.concat (libOps X) (a :: rest.map Prod.fst) 0 = .ok q := by
      rw [C36_concat_ok (libOps X) a _ 0 hl]
      refine ⟨hforall, hsame, ?_⟩
      intro k hk
      have hd := h.dims
      have : ∀ (d : LibDim φ) m, d ∈ a.dims → ∃ d', (libOps X).install d m = .ok d' := by
        intro d m hm
        rw [hd] at hm
        rcases List.mem_cons.1 hm with rfl | hm
        · exact ⟨_, rfl⟩
        · obtain ⟨_, -, rfl⟩ := List.mem_map.1 hm
          exact ⟨_, rfl⟩
      exact this _ _ (List.getElem_mem hk)
    obtain ⟨q, hq⟩ := hok
    obtain ⟨-, -, q3, q4, q5, q6⟩ := C36_concat (libOps X) a _ 0 q hq
    have hshape : q.shape = (n + (rest.map fun x => x.2.2.1).sum) :: sh := by
      rw [q3, h.shape, List.map_cons, List.sum_cons, hsum rest (fun x hx => hx), h.shape]
      rfl
    rw [hq]
    refine ⟨q, rfl, ⟨h.rate, hshape, ?_, h.few⟩, ?_, ?_⟩
    · apply List.ext_getElem
      · rw [q4, h.dims]; simp
      · intro k h1 h2
        have hk : k < a.dims.length := by rw [← q4]; exact h1
        have hks : k < q.shape.length := by rw [hshape]; rw [h.dims] at hk; simpa using hk
        have := q5 k hk hks h1
        simp only [h.dims, hshape] at this
        cases k with
        | zero =>
          simp only [List.getElem_cons_zero] at this ⊢
          have e : (libOps X).install (.time r.frequency r.duration (some n)) (n + (rest.map fun x => x.2.2.1).sum) = .ok (.time r.frequency r.duration (some (n + (rest.map fun x => x.2.2.1).sum))) := rfl
          rw [e] at this
          exact (Except.ok.inj this).symm
        | succ k =>
          simp only [List.getElem_cons_succ, List.getElem_map] at this ⊢
          exact (Except.ok.inj this).symm
    · intro i t hi
      have := q6 0 (by simp) (i :: t) (by simp) (by simpa [h.shape] using hi)
      simpa using this
    · intro k hk i t hi
      have hmem : rest[k] ∈ rest := List.getElem_mem hk
      have := q6 (k + 1) (by simpa using hk) (i :: t) (by simp) (by
        simp only [List.getElem_cons_succ, List.getElem_map]
        rw [hgetD _ hmem]
        exact hi)
      simp only [List.getElem_cons_succ, List.getElem_map, List.take_succ_cons, List.map_cons, List.sum_cons] at this
      rw [← List.map_take, hsum (rest.take k) (fun x hx => List.mem_of_mem_take hx)] at this
      rw [h.shape] at this
      simpa using this
  · rintro ⟨x, hx, hne⟩
    have := (C36_concat_refused (libOps X) a (rest.map Prod.fst) 0 (by
      intro b hb
      obtain ⟨y, hy, rfl⟩ := List.mem_map.1 hb
      exact ⟨_, by rw [(hrest y hy).dims, h.dims]; exact dimsEq_audio X r y.2.1 n y.2.2.1 sh y.2.2.2⟩) (by
      by_cases hlen : x.2.1 = r ∧ x.2.2.2.length = sh.length
      · right
        intro hse
        unfold SameElsewhere at hse
        have := hse.2 x.1 (List.mem_map_of_mem hx)
        rw [(hrest x hx).shape, h.shape] at this
        simp at this
        rcases hne with hne | hne
        · exact hne hlen.1
        · apply hne
          apply List.ext_getElem?
          intro k
          simpa using this.2 (k + 1) (by omega)
      · left
        refine ⟨x.1, List.mem_map_of_mem hx, ?_⟩
        intro hf
        have e := dimsEq_audio X r x.2.1 n x.2.2.1 sh x.2.2.2
        rw [← (hrest x hx).dims, ← h.dims] at e
        have ht : ∀ (l l' : List (LibDim φ)), List.Forall₂ (fun y x => (libOps X).eq y x = .ok true) l l' → dimsEq (libOps X) l l' = .ok true := by
          intro l l' hh
          induction hh with
          | nil => rfl
          | cons h1 _ ih => simp only [dimsEq, h1]; exact ih
        rw [ht _ _ hf] at e
        simp [hlen] at e)).1
    rw [this]
    rfl

/-- Two frames of stereo audio at 44.1 kHz, and three. -/
def stereoExample (n : Nat) : Awu (LibDim φ) Nat := ⟨[n, 2], [.time 22675736 22675736 (some n), .identity], fun idx => 10 * idx.headD 0 + idx.tail.headD 0⟩

theorem stereoExample_audio (n : Nat) : IsAudio (φ := φ) (stereoExample n) ⟨22675736, 22675736⟩ n [2] := ⟨by decide, rfl, rfl, by simp⟩

example : ∃ b : Awu (LibDim φ) Nat, sum X List.sum (stereoExample 2) (.one 1) false = .ok (.audio b) ∧ b.get [1] = 21 := by
  obtain ⟨⟨b, h1, h2, h3⟩, -⟩ := C318_sum X List.sum (stereoExample 2) _ 2 2 (stereoExample_audio 2)
  exact ⟨b, h1, by rw [h3 1 (by omega)]; rfl⟩

example : ∃ b : Awu (LibDim φ) Nat, concat X [stereoExample 2, stereoExample 3] 0 = .ok (.audio b) ∧ b.shape = [5, 2] ∧ b.get [2, 1] = 1 := by
  obtain ⟨b, h1, h2, -, h4⟩ := (C318_concat X (stereoExample 2) _ 2 [2] (stereoExample_audio 2) [(stereoExample 3, ⟨22675736, 22675736⟩, 3, [2])]
    (by simpa using stereoExample_audio 3)).1 (by simp)
  exact ⟨b, h1, h2.shape, h4 0 (by simp) 0 [1] (by simp)⟩

example := C318_over_time (⟨fun _ _ _ => [], fun _ _ => [], fun _ _ => []⟩ : Freq.NumExt ℚ) List.sum (stereoExample 2) _ 2 2 (stereoExample_audio 2) (-2) (Or.inr rfl)
theorem monoExample_audio : IsAudio (⟨[3], [.time 22675736 22675736 (some 3)], fun idx => 10 * idx.headD 0⟩ : Awu (LibDim φ) Nat) ⟨22675736, 22675736⟩ 3 [] :=
  ⟨by decide, rfl, rfl, by simp⟩
example := C318_mono X List.sum (⟨[3], [.time 22675736 22675736 (some 3)], fun idx => 10 * idx.headD 0⟩ : Awu (LibDim φ) Nat) _ 3 monoExample_audio
example := C318_zeros_like X 0 (stereoExample 2 : Awu (LibDim φ) Nat) _ 2 [2] (stereoExample_audio 2)

end Zounds.AudioOps
