import Verif.Model.AudioIndex
import Verif.Props.ArrayWrite
import Verif.Props.Audio
import Verif.Props.Windowed
/-!
# Properties C243, C244: indexing and windowing audio
-/

namespace Zounds.AudioIndex
open Zounds Zounds.Arr
open Zounds.Time (SampleRate findRate Dim supportedRates)

/-! ## Specification -/

section
variable {φ : Type} [Field φ] [LinearOrder φ] (X : Freq.NumExt φ)

/-- Audio of `n` samples at a supported rate: mono (`sh = []`) or with channels (`sh = [channels]`). -/
structure IsAudio {α : Type} (a : Awu (LibDim φ) α) (r : SampleRate) (n : Nat) (sh : List Nat) : Prop where
  rate : r ∈ supportedRates
  shape : a.shape = n :: sh
  dims : a.dims = .time r.frequency r.duration (some n) :: sh.map fun _ => .identity
  few : sh.length ≤ 1

theorem rateOf_audio {α : Type} {a : Awu (LibDim φ) α} {r : SampleRate} {n : Nat} {sh : List Nat} (h : IsAudio a r n sh) :
    rateOf a = .ok r := by
  unfold rateOf
  rw [h.dims]
  exact Audio.findRate_supported h.rate

theorem newAudio_ok {α : Type} (c : Nat) (sh : List Nat) (hs : sh.length ≤ 1) (get : List Nat → α) (r : SampleRate) :
    newAudio X (c :: sh) get r = .ok ⟨c :: sh, .time r.frequency r.duration (some c) :: sh.map fun _ => .identity, get⟩ := by
  cases sh with
  | nil => rfl
  | cons x sh =>
    cases sh with
    | nil => rfl
    | cons _ _ => simp at hs

/-- **C243** (axes): audio has one axis or two; anything else is refused with ValueError. -/
theorem C243_axes {α : Type} (shape : List Nat) (get : List Nat → α) (r : SampleRate) :
    (∃ a, newAudio X shape get r = .ok a) ↔ shape.length = 1 ∨ shape.length = 2 := by
  constructor
  · rintro ⟨a, h⟩
    match shape, h with
    | [_], _ => simp
    | [_, _], _ => simp
  · intro h
    match shape, h with
    | [c], _ => exact ⟨_, newAudio_ok X c [] (by simp) get r⟩
    | [c, d], _ => exact ⟨_, newAudio_ok X c [d] (by simp) get r⟩

/-- **C243** (axes): the exception is ValueError. -/
theorem C243_axes_refused {α : Type} (shape : List Nat) (get : List Nat → α) (r : SampleRate) (h : shape.length ≠ 1 ∧ shape.length ≠ 2) :
    newAudio X shape get r = .error .valueError := by
  match shape, h with
  | [], _ => rfl
  | [_], h => simp at h
  | [_, _], h => simp at h
  | _ :: _ :: _ :: _, _ => rfl

theorem dimsEq_identities (sh : List Nat) : dimsEq (libOps X) (sh.map fun _ => .identity) (sh.map fun _ => .identity) = .ok true := by
  induction sh with
  | nil => rfl
  | cons x sh ih => simpa [dimsEq, libOps] using ih

/-- The slice a `cut` item of a one-item index becomes. -/
theorem getitem_cut {α : Type} {a : Awu (LibDim φ) α} {r : SampleRate} {n : Nat} {sh : List Nat} (h : IsAudio a r n sh)
    (it : Item (LibIdx φ)) (hit : entry it = .cut it) (hnp : Plain it) (s t : Int) (c : Nat)
    (hc : Cuts (libOps X) (.time r.frequency r.duration (some n)) it n s t c) :
    a.getitem (libOps X) [it] = .ok ⟨c :: sh, .time r.frequency r.duration (some c) :: sh.map fun _ => .identity,
      fun idx => a.get ((s + (idx.headD 0 : Int) * t).toNat :: walk (sh.map fun k => .run 0 1 k) 0 idx.tail)⟩ := by
  obtain ⟨x, y, st, hx, hr⟩ := hc
  have hcomp : computeIndices (libOps X) a.dims 1 0 [it] = .ok [.slice x y st] := by
    cases it with
    | ellipsis => exact absurd hnp id
    | _ =>
      simp only [computeIndices]
      split at hx
      · rename_i raw hraw
        cases hx
        simp [hraw]
      · rename_i hraw
        simp [hraw, h.dims, pyAt, hx]
  have hfull : ∀ (l : List Nat), pieces (List.replicate l.length (NpItem.slice none none none)) l = .ok (l.map fun k => .run 0 1 k) := by
    intro l
    induction l with
    | nil => rfl
    | cons k l ih => simp [List.replicate_succ, pieces, sliceRange, upFrom, upTo, ih]
  have hv : npIndex (n :: sh) [.slice x y st] = .ok ⟨c :: sh, fun idx => walk (.run s t c :: sh.map fun k => .run 0 1 k) 0 idx⟩ := by
    have hax : ∀ l : List Nat, (l.map fun k => Piece.run 0 1 k).filterMap Piece.axis = l := by
      intro l
      induction l with
      | nil => rfl
      | cons k l ih => simp [Piece.axis, ih]
    have hany : ∀ l : List Nat, (l.map fun k => Piece.run 0 1 k).any Piece.isPick = false := by
      intro l
      induction l with
      | nil => rfl
      | cons k l ih => simp [Piece.isPick]
    simp only [npIndex, expand]
    simp [NpItem.consumes, pieces, hr, hfull, view, Piece.isPick, hany, Piece.axis, hax]
  have hdims : newDims (libOps X) a.dims 1 (c :: sh) 0 0 [it] =
      .ok (.time r.frequency r.duration (some c) :: sh.map fun _ => .identity) := by
    cases it with
    | ellipsis => exact absurd hnp id
    | npInt i => exact absurd hnp id
    | newaxis => simp [entry] at hit
    | int i => simp [entry] at hit
    | list l => simp [entry] at hit
    | _ => simp [newDims, h.dims, metasliceOr, libOps]
  have hcount : [it].countP Item.counts = 1 := by
    cases it with
    | ellipsis => exact absurd hnp id
    | newaxis => simp [entry] at hit
    | _ => rfl
  unfold Awu.getitem
  rw [List.length_singleton, hcomp, hcount, h.shape]
  simp only [hv, hdims]
  have hinst : installAll (libOps X) (.time r.frequency r.duration (some c) :: sh.map fun _ => .identity) (c :: sh) =
      .ok (.time r.frequency r.duration (some c) :: sh.map fun _ => .identity) := by
    have : ∀ l : List Nat, installAll (libOps X) (l.map fun _ => .identity) l = .ok (l.map fun _ => .identity) := by
      intro l
      induction l with
      | nil => rfl
      | cons k l ih => simp only [List.map_cons, installAll, ih]; rfl
    simp only [installAll, this]
    simp [libOps]
  unfold Awu.new
  rw [if_neg (by simp), hinst]
  simp only [walk]

theorem walk_whole (sh : List Nat) : ∀ (rest : List Nat), rest.length = sh.length → walk (sh.map fun k => Piece.run 0 1 k) 0 rest = rest := by
  induction sh with
  | nil => intro rest h; cases rest with
    | nil => rfl
    | cons _ _ => simp at h
  | cons x sh ih =>
    intro rest h
    cases rest with
    | nil => simp at h
    | cons i rest =>
      simp only [List.map_cons, walk, List.headD_cons, List.tail_cons]
      rw [ih rest (by simpa using h)]
      simp

/-- **C243** (slices stay audio): indexing audio with a slice of positions, a slice of times or a `TimeSlice` gives audio of the same
sample rate and channels; sample `k` of the result is sample `s + k t` of the audio, `s`, `t` and the number of samples as the slice
says. -/
theorem C243_slice {α : Type} (a : Awu (LibDim φ) α) (r : SampleRate) (n : Nat) (sh : List Nat) (h : IsAudio a r n sh)
    (it : Item (LibIdx φ)) (hit : entry it = .cut it) (hnp : Plain it) (s t : Int) (c : Nat)
    (hc : Cuts (libOps X) (.time r.frequency r.duration (some n)) it n s t c) :
    ∃ b, getitem X a [it] = .ok (.audio b) ∧ IsAudio b r c sh ∧
      ∀ k rest, k < c → rest.length = sh.length → ∃ p : Nat, p < n ∧ (p : Int) = s + k * t ∧ b.get (k :: rest) = a.get (p :: rest) := by
  have hg := getitem_cut X h it hit hnp s t c hc
  obtain ⟨x, y, st, hx, hr⟩ := hc
  refine ⟨⟨c :: sh, .time r.frequency r.duration (some c) :: sh.map fun _ => .identity,
    fun idx => a.get ((s + (idx.headD 0 : Int) * t).toNat :: walk (sh.map fun k => .run 0 1 k) 0 idx.tail)⟩, ?_,
    ⟨h.rate, rfl, rfl, h.few⟩, ?_⟩
  · have : getitem X a [it] = match a.getitem (libOps X) [it] with
        | .error e => .error e
        | .ok r => rewrap X a r := by
      unfold getitem
      cases it with
      | int i => simp [entry] at hit
      | _ => rw [h.shape]; cases sh <;> rfl
    rw [this, hg]
    simp only
    unfold rewrap
    have he : dimsEq (libOps X) (.time r.frequency r.duration (some c) :: sh.map fun _ => .identity) a.dims = .ok true := by
      rw [h.dims]
      have e : (libOps X).eq (.time r.frequency r.duration (some c)) (.time r.frequency r.duration (some n)) = .ok true := by simp [libOps]
      simp only [dimsEq, e, dimsEq_identities X sh]
    simp only [asAudio, he, rateOf_audio h, newAudio_ok X c sh h.few]
  · intro k rest hk hrest
    have hb := C36_slice_in_bounds n x y st s t c hr k hk
    refine ⟨(s + k * t).toNat, by omega, by omega, ?_⟩
    simp only [List.headD_cons, List.tail_cons, walk_whole sh rest hrest]

/-- **C243** (one position): a Python int gives the sample of a mono signal as a number; of a signal with channels it gives the frame, an
array that is not audio. -/
theorem C243_position {α : Type} (a : Awu (LibDim φ) α) (r : SampleRate) (n : Nat) (sh : List Nat) (h : IsAudio a r n sh) (i : Nat)
    (hi : i < n) :
    (sh = [] → getitem X a [.int i] = .ok (.number (a.get [i]))) ∧
    (∀ ch, sh = [ch] → ∃ b, getitem X a [.int i] = .ok (.plain b) ∧ b.shape = [ch] ∧ b.dims = [.identity] ∧
      ∀ j < ch, b.get [j] = a.get [i, j]) := by
  have hnorm : normIndex n (i : Int) = .ok i := by
    unfold normIndex
    rw [if_neg (by omega), if_neg (by omega)]
    simp
  constructor
  · rintro rfl
    simp only [getitem, h.shape, Awu.getNumber, List.headD_cons, hnorm]
  · rintro ch rfl
    have hg : a.getitem (libOps X) [.int i] = .ok ⟨[ch], [.identity], fun idx => a.get [i, (0 + (idx.headD 0 : Int) * 1).toNat]⟩ := by
      have hv : npIndex [n, ch] [.int (i : Int)] = .ok ⟨[ch], fun idx => walk [.fixed i, .run 0 1 ch] 0 idx⟩ := by
        simp [npIndex, expand, NpItem.consumes, pieces, hnorm, view, Piece.isPick, sliceRange, upFrom, upTo]
        rfl
      unfold Awu.getitem
      simp only [computeIndices, Item.raw, h.shape, h.dims, hv, newDims]
      simp [Awu.new, installAll, libOps, walk]
    refine ⟨⟨[ch], [.identity], fun idx => a.get [i, (0 + (idx.headD 0 : Int) * 1).toNat]⟩, ?_, rfl, rfl, ?_⟩
    · simp only [getitem, h.shape, hg]
      unfold rewrap
      simp [asAudio, h.dims, dimsEq, libOps]
    · intro j _
      simp

/-- **C243**, a false expectation: one channel of a signal with channels is not audio any more (so it has no sample rate to ask for),
although it still has the time dimension of the audio. -/
theorem C243_channel_refuted {α : Type} (a : Awu (LibDim φ) α) (r : SampleRate) (n ch : Nat) (h : IsAudio a r n [ch]) (k : Nat)
    (hk : k < ch) :
    ∃ b, getitem X a [.slice none none none, .int k] = .ok (.plain b) ∧ b.shape = [n] ∧
      b.dims = [.time r.frequency r.duration (some n)] ∧ ∀ i < n, b.get [i] = a.get [i, k] := by
  have hnorm : normIndex ch (k : Int) = .ok k := by
    unfold normIndex
    rw [if_neg (by omega), if_neg (by omega)]
    simp
  have hg : a.getitem (libOps X) [.slice none none none, .int k] =
      .ok ⟨[n], [.time r.frequency r.duration (some n)], fun idx => a.get [(0 + (idx.headD 0 : Int) * 1).toNat, k]⟩ := by
    have hv : npIndex [n, ch] [.slice none none none, .int (k : Int)] = .ok ⟨[n], fun idx => walk [.run 0 1 n, .fixed k] 0 idx⟩ := by
      have hc : [NpItem.slice none none none, .int (k : Int)].countP NpItem.consumes = 2 := rfl
      simp [npIndex, expand, hc, pieces, hnorm, view, Piece.isPick, sliceRange, upFrom, upTo]
      rfl
    unfold Awu.getitem
    simp only [computeIndices, Item.raw, isIntSlice, h.shape, h.dims]
    simp only [reduceCtorEq, ne_eq, not_false_eq_true, decide_true, Bool.and_self, if_true, hv, newDims]
    simp [metasliceOr, Awu.new, installAll, libOps, walk]
  refine ⟨⟨[n], [.time r.frequency r.duration (some n)], fun idx => a.get [(0 + (idx.headD 0 : Int) * 1).toNat, k]⟩, ?_, rfl, rfl, ?_⟩
  · simp only [getitem, h.shape, hg]
    unfold rewrap
    simp [asAudio, h.dims, dimsEq, libOps]
  · intro i _
    simp

/-- **C243**, a false expectation: every `q`-th sample is still said to be audio at the full rate: sample `k` of `a[::q]` was at time
`q k` sample periods and is now at `k`. -/
theorem C243_step_refuted {α : Type} (a : Awu (LibDim φ) α) (r : SampleRate) (n : Nat) (sh : List Nat) (h : IsAudio a r n sh)
    (q : Nat) (hq : 2 ≤ q) :
    ∃ b c, getitem X a [.slice none none (some q)] = .ok (.audio b) ∧ IsAudio b r c sh ∧ c = (n + q - 1) / q ∧
      ∀ k rest, k < c → rest.length = sh.length → b.get (k :: rest) = a.get (q * k :: rest) := by
  have hc : Cuts (libOps X) (.time r.frequency r.duration (some n)) (.slice none none (some (q : Int))) n 0 q ((n + q - 1) / q) := by
    refine ⟨none, none, some q, by simp [Item.raw, isIntSlice], ?_⟩
    unfold sliceRange
    simp only [Option.getD_some, upFrom, upTo]
    rw [if_neg (by omega), if_pos (by omega)]
    have : ((n : Int) - 0 + q - 1) / q = ((n + q - 1) / q : Nat) := by
      rw [Int.natCast_div]
      congr 1
      omega
    rw [this]
    simp
    rfl
  obtain ⟨b, hb, hb1, hb2⟩ := C243_slice X a r n sh h (.slice none none (some (q : Int))) rfl trivial 0 q _ hc
  refine ⟨b, _, hb, hb1, rfl, ?_⟩
  intro k rest hk hrest
  obtain ⟨p, _, hp, he⟩ := hb2 k rest hk hrest
  rw [he]
  congr 2
  have : (p : Int) = ((q * k : Nat) : Int) := by rw [hp]; push_cast; ring
  exact_mod_cast this
end

/-- Two frames a picosecond clock apart: the hypotheses of C243 are met. -/
example : ∃ a : Awu (LibDim ℚ) Nat, ∃ r, IsAudio a r 4 [2] ∧
    Cuts (libOps noNum) (.time r.frequency r.duration (some 4)) (.slice (some 1) (some 3) none) 4 1 1 2 := by
  refine ⟨⟨[4, 2], [.time 22675736 22675736 (some 4), .identity], fun p => Nd.ravel [4, 2] p⟩, ⟨22675736, 22675736⟩, ⟨by decide, rfl, rfl, by decide⟩, ?_⟩
  exact ⟨some 1, some 3, none, rfl, rfl⟩

/-! ## C244 -/

theorem span_exact (f : Int) (hf : 0 < f) (n : Int) (k : Nat) : spanOf (Dim.mk f f n) (k * f) = k := by
  unfold spanOf Dim.intSlice
  simp only [sub_self, Int.zero_ediv, max_self, zero_add, sub_zero]
  rw [show (100 : Int) * (k * f) = (100 * k) * f by ring, Time.round_mul _ _ hf]
  unfold Time.ceilDiv
  omega

/-- **C244**: windowing audio (sample period `f`) at a rate of `s` samples per step and `w` samples per window, with padding: every
window is `w` samples, window `i` starts at sample `i s`, beyond the end there are zeros, and there is at least one window.  The first
axis has the step as its frequency and the window as its duration, the second the dimension of the audio. -/
theorem C244_padded {α : Type} (z : α) (xs : List α) (f : Int) (hf : 0 < f) (w s : Nat) (hw : 2 ≤ w) (hs : 1 ≤ s) :
    ∃ ws, slidingWindow z xs f f ⟨s * f, w * f⟩ true =
        .ok ⟨.wins ws, [(f * s, f * w, ws.length), (f, f, w)]⟩ ∧ ws ≠ [] ∧
      (∀ i (h : i < ws.length), ws[i].length = w ∧ ∀ j < w, ws[i][j]? = some ((xs[i * s + j]?).getD z)) ∧
      ((∀ j < xs.length, ∃ i < ws.length, i * s ≤ j ∧ j < i * s + w) ↔ (xs.length ≤ w ∨ w = s ∨ (s < w ∧ xs.length % s ≤ w - s))) := by
  obtain ⟨ws, h1, h2, h3⟩ := Props.C02_padded_windows z xs w s hw hs
  refine ⟨ws, ?_, h2, h3, Props.C02_all_samples_used_iff z xs w s hw hs ws h1⟩
  unfold slidingWindow
  simp only [span_exact f hf, h1]
  cases ws with
  | nil => exact absurd rfl h2
  | cons a ws => simp

/-- **C244** (no padding): the windows that lie within the audio, but only if it is longer than one window. -/
theorem C244_unpadded {α : Type} (z : α) (xs : List α) (f : Int) (hf : 0 < f) (w s : Nat) (hw : 2 ≤ w) (hs : 1 ≤ s) (hl : w < xs.length) :
    ∃ ws, slidingWindow z xs f f ⟨s * f, w * f⟩ false =
        .ok ⟨.wins ws, [(f * s, f * w, ws.length), (f, f, w)]⟩ ∧ ws.length = 1 + (xs.length - w) / s ∧
      ∀ i (h : i < ws.length), ws[i] = (xs.drop (i * s)).take w ∧ ws[i].length = w := by
  obtain ⟨left, ws, h1, h2, h3, _⟩ := Props.C01_windowed_exact z xs w s hw hs
  rw [if_neg (by omega)] at h2
  refine ⟨ws, ?_, h2, h3⟩
  unfold slidingWindow
  simp only [span_exact f hf, h1]
  cases ws with
  | nil => exact absurd h2 (by rw [List.length_nil, Nat.add_comm]; exact (Nat.succ_ne_zero _).symm)
  | cons a ws => simp

/-- **C244**, a false expectation: audio of exactly one window gives no window without padding. -/
theorem C244_one_window_refuted {α : Type} (z : α) (xs : List α) (f : Int) (hf : 0 < f) (s : Nat) (hs : 1 ≤ s) (hw : 2 ≤ xs.length) :
    slidingWindow z xs f f ⟨s * f, xs.length * f⟩ false = .ok ⟨.wins [], [(f, f, 0)]⟩ := by
  obtain ⟨left, ws, h1, h2, h3, _⟩ := Props.C01_windowed_exact z xs xs.length s hw hs
  rw [if_pos (le_refl _)] at h2
  obtain rfl := List.length_eq_zero_iff.1 h2
  unfold slidingWindow
  simp only [span_exact f hf, h1]

/-- **C244**, a false expectation: windows of one sample are refused, whatever the step (`s` of them), the audio's own rate included. -/
theorem C244_single_samples_refuted {α : Type} (z : α) (xs : List α) (f : Int) (hf : 0 < f) (s : Nat) (hs : 1 ≤ s) (hx : xs ≠ []) (p : Bool) :
    slidingWindow z xs f f ⟨s * f, f⟩ p = .error .valueError := by
  have h1 : spanOf (Dim.mk f f xs.length) f = 1 := by simpa using span_exact f hf xs.length 1
  unfold slidingWindow
  simp only [span_exact f hf, h1]
  unfold Npx.windowed
  simp only [Option.getD_some]
  rw [if_neg (by omega), if_neg (by omega)]
  by_cases h : s = 1
  · subst h
    rw [if_pos (by simp)]
    cases xs with
    | nil => exact absurd rfl hx
    | cons a xs => rfl
  · rw [if_neg (by simp; omega), if_pos (by simp; omega)]
    have hne : everyNth ((s : Int)).toNat xs ≠ [] := by
      cases xs with
      | nil => exact absurd rfl hx
      | cons a xs => simp only [Int.toNat_natCast]; cases s with
        | zero => omega
        | succ s =>
          intro he
          unfold everyNth at he
          rw [List.filterMap_eq_nil_iff] at he
          have h0 := he 0 (by
            rw [List.mem_range]
            apply Nat.div_pos
            · simp; omega
            · omega)
          simp at h0
    cases he : everyNth ((s : Int)).toNat xs with
    | nil => exact absurd he hne
    | cons a l => rfl

/-- **C244**: windows of one sample of no audio: no windows, the dimension of the audio with no samples. -/
theorem C244_nothing {α : Type} (z : α) (f : Int) (hf : 0 < f) (s : Nat) (hs : 1 ≤ s) (p : Bool) :
    slidingWindow z [] f f ⟨s * f, f⟩ p = .ok ⟨.rows [], [(f, f, 0)]⟩ := by
  have h1 : spanOf (Dim.mk f f (([] : List α).length)) f = 1 := by simpa using span_exact f hf (([] : List α).length) 1
  unfold slidingWindow
  simp only [span_exact f hf, h1]
  unfold Npx.windowed
  simp only [Option.getD_some]
  rw [if_neg (by omega), if_neg (by omega)]
  by_cases h : s = 1
  · subst h
    rw [if_pos (by simp)]
  · rw [if_neg (by simp; omega), if_pos (by simp; omega)]
    have he : everyNth ((s : Int)).toNat ([] : List α) = [] := by
      simp only [Int.toNat_natCast]
      cases s with
      | zero => omega
      | succ s => unfold everyNth; simp
    rw [he]

theorem mono_audio {φ : Type} : IsAudio (⟨[3], [.time 22675736 22675736 (some 3)], fun idx => 10 * idx.headD 0⟩ : Awu (LibDim φ) Nat) ⟨22675736, 22675736⟩ 3 [] :=
  ⟨by decide, rfl, rfl, by simp⟩
example := C243_axes_refused (⟨fun _ _ _ => [], fun _ _ => [], fun _ _ => []⟩ : Freq.NumExt ℚ) [3, 2, 4] (fun i => i) ⟨22675736, 22675736⟩ (by decide)
example := C243_slice (⟨fun _ _ _ => [], fun _ _ => [], fun _ _ => []⟩ : Freq.NumExt ℚ) _ _ 3 [] mono_audio (.slice (some 1) (some 3) none) rfl trivial 1 1 2 ⟨_, _, _, rfl, rfl⟩
example := C243_position (⟨fun _ _ _ => [], fun _ _ => [], fun _ _ => []⟩ : Freq.NumExt ℚ) _ _ 3 [] mono_audio 2 (by decide)
example := C244_padded (0 : ℚ) [1, 2, 3, 4, 5, 6, 7] 22675736 (by decide) 4 2 (by decide) (by decide)
example := C244_unpadded (0 : ℚ) [1, 2, 3, 4, 5, 6, 7] 22675736 (by decide) 4 2 (by decide) (by decide) (by decide)
example := C244_nothing (0 : ℚ) 22675736 (by decide) 2 (by decide) true

end Zounds.AudioIndex
