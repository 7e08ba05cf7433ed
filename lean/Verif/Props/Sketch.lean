import Verif.Model.Sketch
import Verif.Props.Codebook
import Verif.Props.Codes
import Verif.Props.Search
import Verif.Props.Windowed
import Verif.Props.Pipeline
import Mathlib.Data.Finset.SymmDiff
import Mathlib.Tactic.IntervalCases

/-!
# C348-C353: features made to be searched for
-/

namespace Zounds.Sketch
open Zounds Zounds.HammingDb Zounds.Codes Zounds.Props.Codes Zounds.Props.HammingDb

/-! ## Specification -/

/-- Codeword `j` is heard between frames `a` and `b`: one of these frames is nearer to it than to any codeword before it, and no codeword is nearer. -/
def Heard (codebook : List (List ℝ)) (frames : List (List ℝ)) (a b j : Nat) : Prop :=
  ∃ (i : Nat) (x : List ℝ), a ≤ i ∧ i < b ∧ frames[i]? = some x ∧ Codebook.Nearest codebook x j

/-- The number of positions at which two vectors of bits differ. -/
def differ (xs ys : List Bool) : Nat := ((List.range xs.length).filter fun j => xs.getD j false != ys.getD j false).length

/-- The codewords heard between two frames. -/
noncomputable def heard (codebook frames : List (List ℝ)) (a b : Nat) : Finset Nat := by
  classical exact (Finset.range codebook.length).filter fun j => Heard codebook frames a b j

/-- `q` is the code of some window of some stream of frames, in which the codewords `S` are heard. -/
def IsStretch (dim : Nat) (codebook : List (List ℝ)) (w s : Nat) (q : Codes.Feature) (S : Finset Nat) : Prop :=
  ∃ (chunks : List (List (List ℝ))) (last : List (List ℝ)) (out : List (List Nat)) (i : Nat) (code : List Nat),
    (∀ x ∈ chunks.flatten ++ last, x.length = dim) ∧ sketch dim codebook w s chunks last = .ok out ∧ out[i]? = some code ∧ q = feature code ∧
      S = heard codebook (chunks.flatten ++ last) (i * s) (i * s + w)

/-- An array that stands for a vector of bits: of booleans, of zeros and ones, or packed into words. -/
def Represents (q : Codes.Feature) (bits : List Bool) : Prop :=
  q = .bool bits ∨ q = .uint8 (asBits bits) ∨ ∃ ws, packWords bits = .ok ws ∧ q = .uint64 ws

/-! ## Distances -/

theorem byte_diff (x y : UInt8) :
    ((List.range 8).filter fun i => x.toNat.testBit i != y.toNat.testBit i).length =
      (List.zip (unpackByte x) (unpackByte y)).countP fun p => p.1 != p.2 := by
  rw [← List.countP_eq_length_filter]
  simp only [unpackByte, List.range, List.range.loop, List.map_cons, List.map_nil, List.zip_cons_cons, List.zip_nil_right, List.countP_cons, List.countP_nil]
  simp only [Nat.sub_zero, Nat.reduceSub]
  omega

theorem bitDistance_unpack : ∀ a b : Bytes, a.length = b.length →
    bitDistance a b = (List.zip (unpackbits a) (unpackbits b)).countP fun p => p.1 != p.2
  | [], [], _ => rfl
  | [], _ :: _, h => by simp at h
  | _ :: _, [], h => by simp at h
  | x :: xs, y :: ys, h => by
    have hl : (unpackByte x).length = (unpackByte y).length := by simp [unpackByte]
    simp only [bitDistance, unpackbits, List.flatMap_cons]
    rw [List.zip_append hl, List.countP_append, byte_diff, bitDistance_unpack xs ys (by simpa using h)]
    rfl

theorem zip_replicate_countP (n : Nat) : (List.zip (List.replicate n false) (List.replicate n false)).countP (fun p => p.1 != p.2) = 0 := by
  induction n with
  | zero => rfl
  | succ n ih => simp [List.replicate_succ]

theorem packbits_length (xs : List Bool) : (packbits xs).length = (xs.length + 7) / 8 := by
  obtain ⟨q, h1, _, h3⟩ := C14_decode_encode_bool xs
  simp only [encodeQuery, Except.ok.injEq] at h1
  rw [h1, h3]

theorem range_map (xs : List Bool) : xs = (List.range xs.length).map fun j => xs.getD j false := by
  apply List.ext_getElem (by simp)
  intro i h1 h2
  simp [List.getElem?_eq_getElem h1]

theorem bitDistance_packbits (xs ys : List Bool) (h : xs.length = ys.length) : bitDistance (packbits xs) (packbits ys) = differ xs ys := by
  rw [bitDistance_unpack _ _ (by rw [packbits_length, packbits_length, h]), unpack_packbits _ xs rfl, unpack_packbits _ ys rfl, List.zip_append h, List.countP_append, h,
    zip_replicate_countP, Nat.add_zero, differ, ← List.countP_eq_length_filter]
  conv_lhs => rw [range_map xs, range_map ys, ← h]
  rw [List.zip_map', List.countP_map]
  rfl


/-! ## Codes of stretches of frames -/

theorem encode_get (dim : Nat) (codebook d : List (List ℝ)) (codes : List (List Nat)) (hne : codebook ≠ []) (hd : ∀ x ∈ d, x.length = dim)
    (h : Codebook.encode dim codebook d = .ok codes) :
    codes.length = d.length ∧ ∀ (i : Nat) (x : List ℝ), d[i]? = some x → ∃ b c, codes[i]? = some c ∧ Codebook.Nearest codebook x b ∧ Codebook.OneHot codebook.length c b := by
  obtain ⟨codes', h1, h2, h3⟩ := Codebook.C179_encode dim codebook d hne hd
  rw [h] at h1
  cases h1
  refine ⟨h2, ?_⟩
  intro i x hx
  have hi : i < d.length := (List.getElem?_eq_some_iff.1 hx).1
  obtain ⟨b, hb1, hb2⟩ := h3 i hi
  refine ⟨b, codes[i]'(by omega), by simp [h2, hi], ?_, ?_⟩
  · rw [List.getD_eq_getElem?_getD, hx] at hb1; exact hb1
  · rw [List.getD_eq_getElem?_getD, List.getElem?_eq_getElem (by omega)] at hb2; exact hb2

theorem encode_append (dim : Nat) (codebook d d' : List (List ℝ)) (codes codes' : List (List Nat)) (h : Codebook.encode dim codebook d = .ok codes)
    (h' : Codebook.encode dim codebook d' = .ok codes') (hd : ∀ x ∈ d, x.length = dim) (hd' : ∀ x ∈ d', x.length = dim) :
    Codebook.encode dim codebook (d ++ d') = .ok (codes ++ codes') := by
  have hall : ∀ x ∈ d ++ d', x.length = dim := fun x hx => (List.mem_append.1 hx).elim (hd x) (hd' x)
  have f1 : ¬ ∃ x ∈ d, x.length ≠ dim := fun ⟨x, h1, h2⟩ => h2 (hd x h1)
  have f2 : ¬ ∃ x ∈ d', x.length ≠ dim := fun ⟨x, h1, h2⟩ => h2 (hd' x h1)
  have f3 : ¬ ∃ x ∈ d ++ d', x.length ≠ dim := fun ⟨x, h1, h2⟩ => h2 (hall x h1)
  unfold Codebook.encode at h h' ⊢
  rw [if_neg f1] at h
  rw [if_neg f2] at h'
  rw [if_neg f3, List.mapM_append, h, h']
  rfl

theorem encodeChunks_ok (dim : Nat) (codebook : List (List ℝ)) (hne : codebook ≠ []) : ∀ chunks : List (List (List ℝ)), (∀ c ∈ chunks, ∀ x ∈ c, x.length = dim) →
    ∃ cs, encodeChunks dim codebook chunks = .ok cs ∧ Codebook.encode dim codebook chunks.flatten = .ok cs.flatten
  | [], _ => ⟨[], rfl, by simp [Codebook.encode]; rfl⟩
  | c :: cs, h => by
    obtain ⟨r, h1, _⟩ := Codebook.C179_encode dim codebook c hne (h c List.mem_cons_self)
    obtain ⟨rs, h2, h3⟩ := encodeChunks_ok dim codebook hne cs fun c' hc' => h c' (List.mem_cons_of_mem _ hc')
    refine ⟨r :: rs, by simp only [encodeChunks, h1, h2], ?_⟩
    rw [List.flatten_cons, List.flatten_cons]
    refine encode_append dim codebook c cs.flatten r rs.flatten h1 h3 (h c List.mem_cons_self) ?_
    intro x hx
    obtain ⟨c', hc', hx'⟩ := List.mem_flatten.1 hx
    exact h c' (List.mem_cons_of_mem _ hc') x hx'

theorem foldl_max_le (l : List Nat) : ∀ a m, l.foldl max a ≤ m ↔ a ≤ m ∧ ∀ x ∈ l, x ≤ m := by
  induction l with
  | nil => intro a m; simp
  | cons b l ih => intro a m; rw [List.foldl_cons, ih]; simp; tauto

theorem foldl_max_bits (l : List Nat) (h : ∀ x ∈ l, x = 0 ∨ x = 1) (p : Prop) [Decidable p] (hp : p ↔ 1 ∈ l) : l.foldl max 0 = if p then 1 else 0 := by
  have hle := (foldl_max_le l 0 1).2 ⟨by omega, fun x hx => by rcases h x hx with h | h <;> omega⟩
  have h0 := foldl_max_le l 0 0
  split
  · rename_i hh
    have h1 := hp.1 hh
    by_contra hc
    have := (h0.1 (by omega)).2 1 h1
    omega
  · rename_i hh
    have h1 : 1 ∉ l := fun h1 => hh (hp.2 h1)
    have := h0.2 ⟨by omega, fun x hx => by
      rcases h x hx with h | h
      · omega
      · subst h; exact absurd hx h1⟩
    omega

open scoped Classical in
/-- **C348**: however a stream of frames arrives, every window of `w` frames that begins at a multiple of `s` frames and lies within the stream has a code, the code of window `i` has one number for
each codeword, and the number of codeword `j` is one if it is heard in the window - among the frames from `i * s` to `i * s + w`, as far as there are such - and zero otherwise. -/
theorem C348_code (dim : Nat) (codebook : List (List ℝ)) (hne : codebook ≠ []) (w s : Nat) (hs : 1 ≤ s) (hsw : s ≤ w) (chunks : List (List (List ℝ))) (last : List (List ℝ))
    (hd : ∀ x ∈ chunks.flatten ++ last, x.length = dim) :
    ∃ out, sketch dim codebook w s chunks last = .ok out ∧ (∀ i, i * s + w ≤ (chunks.flatten ++ last).length → i < out.length) ∧
      ∀ i code, out[i]? = some code → i * s ≤ (chunks.flatten ++ last).length ∧ code.length = codebook.length ∧
        ∀ j < codebook.length, code[j]? = some (if Heard codebook (chunks.flatten ++ last) (i * s) (i * s + w) j then 1 else 0) := by
  obtain ⟨cs, h1, h2⟩ := encodeChunks_ok dim codebook hne chunks (fun c hc x hx => hd x (List.mem_append_left _ (List.mem_flatten.2 ⟨c, hc, hx⟩)))
  have hfl : ∀ x ∈ chunks.flatten, x.length = dim := fun x hx => hd x (List.mem_append_left _ hx)
  have hla : ∀ x ∈ last, x.length = dim := fun x hx => hd x (List.mem_append_right _ hx)
  obtain ⟨l, h3, _⟩ := Codebook.C179_encode dim codebook last hne hla
  have hall := encode_append dim codebook _ _ _ _ h2 h3 hfl hla
  obtain ⟨hlen, hget⟩ := encode_get dim codebook _ _ hne hd hall
  obtain ⟨wins, h4, h5⟩ := Props.C03_final_windows (List.replicate codebook.length 0) w s hs hsw cs l
  have h6 := Props.C03_final_complete (List.replicate codebook.length 0) w s hs hsw cs l wins h4
  rw [hlen] at h6
  refine ⟨wins.map (maxRow codebook.length), by simp only [sketch, h1, h3, h4], by simpa using h6.1, ?_⟩
  intro i code hcode
  rw [List.getElem?_map] at hcode
  obtain ⟨win, hwin, rfl⟩ := Option.map_eq_some_iff.1 hcode
  obtain ⟨hi, hwin'⟩ := List.getElem?_eq_some_iff.1 hwin
  obtain ⟨hw, hs'⟩ := h5 i hi
  rw [hwin'] at hw hs'
  refine ⟨h6.2 i hi, by simp [maxRow], ?_⟩
  intro j hj
  rw [maxRow, List.getElem?_map, List.getElem?_range hj, Option.map_some]
  -- the numbers of column j
  have hrow : ∀ m, m < w → (∃ x b c, (chunks.flatten ++ last)[i * s + m]? = some x ∧ win[m]? = some c ∧ Codebook.Nearest codebook x b ∧ Codebook.OneHot codebook.length c b) ∨
      ((chunks.flatten ++ last)[i * s + m]? = none ∧ win[m]? = some (List.replicate codebook.length 0)) := by
    intro m hm
    have hg := hs' m hm
    unfold Props.sampleOrZero at hg
    cases hx : (chunks.flatten ++ last)[i * s + m]? with
    | none =>
      right
      refine ⟨rfl, ?_⟩
      have : (cs.flatten ++ l)[i * s + m]? = none := by
        rw [List.getElem?_eq_none_iff] at hx ⊢; omega
      rw [hg]
      rw [List.getElem?_eq_none_iff] at this
      simp [List.getD, List.getElem?_eq_none (by omega : (cs.flatten ++ l).length ≤ i * s + m)]
    | some x =>
      left
      obtain ⟨b, c, hc, hb, ho⟩ := hget _ x hx
      refine ⟨x, b, c, rfl, ?_, hb, ho⟩
      rw [hg]
      simp [List.getD, hc]
  congr 1
  refine foldl_max_bits _ ?_ _ ?_
  · intro v hv
    obtain ⟨row, hr, rfl⟩ := List.mem_map.1 hv
    obtain ⟨m, hm, hr'⟩ := List.mem_iff_getElem.1 hr
    rcases hrow m (by omega) with ⟨x, b, c, _, hc, _, ho⟩ | ⟨_, hc⟩
    · rw [List.getElem?_eq_getElem hm, hr', Option.some.injEq] at hc
      subst hc
      rw [ho.2.2 j hj]
      split <;> simp
    · rw [List.getElem?_eq_getElem hm, hr', Option.some.injEq] at hc
      subst hc
      left
      simp [List.getD, hj]
  · rw [List.mem_map]
    constructor
    · rintro ⟨n, x, ha, hb, hx, hnear⟩
      obtain ⟨m, rfl⟩ : ∃ m, n = i * s + m := ⟨n - i * s, by omega⟩
      rcases hrow m (by omega) with ⟨x', b, c, hx', hc, hb', ho⟩ | ⟨hx', _⟩
      · rw [hx, Option.some.injEq] at hx'
        subst hx'
        have := Codebook.nearest_unique codebook x _ _ hnear hb'
        subst this
        exact ⟨c, List.mem_of_getElem? hc, by rw [ho.2.2 _ hj]; simp⟩
      · rw [hx] at hx'; cases hx'
    · rintro ⟨row, hr, hv⟩
      obtain ⟨m, hm, hr'⟩ := List.mem_iff_getElem.1 hr
      rcases hrow m (by omega) with ⟨x, b, c, hx, hc, hb, ho⟩ | ⟨_, hc⟩
      · rw [List.getElem?_eq_getElem hm, hr', Option.some.injEq] at hc
        subst hc
        rw [ho.2.2 j hj] at hv
        have : j = b := by by_contra hjb; rw [if_neg hjb] at hv; cases hv
        subst this
        exact ⟨i * s + m, x, by omega, by omega, hx, hb⟩
      · rw [List.getElem?_eq_getElem hm, hr', Option.some.injEq] at hc
        subst hc
        simp [List.getD, hj] at hv


open scoped Classical in
/-- **C348** (only what is heard counts): two windows with the same frames, in any order and any number of times, of any streams, have the same code. -/
theorem C348_same (dim : Nat) (codebook : List (List ℝ)) (hne : codebook ≠ []) (w s : Nat) (hs : 1 ≤ s) (hsw : s ≤ w) (chunks chunks' : List (List (List ℝ))) (last last' : List (List ℝ))
    (hd : ∀ x ∈ chunks.flatten ++ last, x.length = dim) (hd' : ∀ x ∈ chunks'.flatten ++ last', x.length = dim) (out out' : List (List Nat))
    (h : sketch dim codebook w s chunks last = .ok out) (h' : sketch dim codebook w s chunks' last' = .ok out') (i i' : Nat) (code code' : List Nat)
    (hi : out[i]? = some code) (hi' : out'[i']? = some code')
    (hsame : ∀ x, (∃ n : Nat, i * s ≤ n ∧ n < i * s + w ∧ (chunks.flatten ++ last)[n]? = some x) ↔ ∃ n : Nat, i' * s ≤ n ∧ n < i' * s + w ∧ (chunks'.flatten ++ last')[n]? = some x) :
    code = code' := by
  obtain ⟨o, e1, _, e3⟩ := C348_code dim codebook hne w s hs hsw chunks last hd
  obtain ⟨o', e1', _, e3'⟩ := C348_code dim codebook hne w s hs hsw chunks' last' hd'
  rw [h] at e1; cases e1
  rw [h'] at e1'; cases e1'
  obtain ⟨_, l1, l2⟩ := e3 i code hi
  obtain ⟨_, l1', l2'⟩ := e3' i' code' hi'
  apply List.ext_getElem?
  intro j
  by_cases hj : j < codebook.length
  · rw [l2 j hj, l2' j hj]
    have : Heard codebook (chunks.flatten ++ last) (i * s) (i * s + w) j ↔ Heard codebook (chunks'.flatten ++ last') (i' * s) (i' * s + w) j := by
      constructor
      · rintro ⟨n, x, a1, a2, a3, a4⟩
        obtain ⟨n', b1, b2, b3⟩ := (hsame x).1 ⟨n, a1, a2, a3⟩
        exact ⟨n', x, b1, b2, b3, a4⟩
      · rintro ⟨n, x, a1, a2, a3, a4⟩
        obtain ⟨n', b1, b2, b3⟩ := (hsame x).2 ⟨n, a1, a2, a3⟩
        exact ⟨n', x, b1, b2, b3, a4⟩
    simp only [this]
  · rw [List.getElem?_eq_none (by omega), List.getElem?_eq_none (by omega)]

/-- **C348** (pooling over a slice): the same for the frames of a slice between onsets; a slice without frames is a ValueError. -/
theorem C348_pool (dim : Nat) (codebook : List (List ℝ)) (hne : codebook ≠ []) (d : List (List ℝ)) (hd : ∀ x ∈ d, x.length = dim) (codes : List (List Nat))
    (h : Codebook.encode dim codebook d = .ok codes) :
    (d = [] → poolMax codebook.length codes = .error .valueError) ∧
    (d ≠ [] → ∃ code, poolMax codebook.length codes = .ok code ∧ code.length = codebook.length ∧
      ∀ j, j < codebook.length → (code[j]? = some 1 ∨ code[j]? = some 0) ∧ (code[j]? = some 1 ↔ ∃ x ∈ d, Codebook.Nearest codebook x j)) := by
  obtain ⟨hlen, hget⟩ := encode_get dim codebook d codes hne hd h
  constructor
  · rintro rfl
    have : codes = [] := List.length_eq_zero_iff.1 hlen
    simp [poolMax, this]
  · intro hdne
    have hcne : codes ≠ [] := by
      intro hc; rw [hc] at hlen; exact hdne (List.length_eq_zero_iff.1 hlen.symm)
    refine ⟨maxRow codebook.length codes, by simp [poolMax, hcne], by simp [maxRow], ?_⟩
    intro j hj
    have hex : ∀ c ∈ codes, ∃ x ∈ d, ∃ b, Codebook.Nearest codebook x b ∧ Codebook.OneHot codebook.length c b := by
      intro c hc
      obtain ⟨i, hi, rfl⟩ := List.mem_iff_getElem.1 hc
      obtain ⟨b, c, h1, h2, h3⟩ := hget i (d[i]'(by omega)) (by simp)
      rw [List.getElem?_eq_getElem hi, Option.some.injEq] at h1
      exact ⟨_, List.getElem_mem _, b, h2, by rw [h1]; exact h3⟩
    classical
    have hval : (maxRow codebook.length codes)[j]? = some (if ∃ x ∈ d, Codebook.Nearest codebook x j then 1 else 0) := by
      rw [maxRow, List.getElem?_map, List.getElem?_range hj, Option.map_some]
      congr 1
      refine foldl_max_bits _ ?_ _ ?_
      · intro v hv
        obtain ⟨c, hc, rfl⟩ := List.mem_map.1 hv
        obtain ⟨x, _, b, _, ho⟩ := hex c hc
        rw [ho.2.2 j hj]
        split <;> simp
      · rw [List.mem_map]
        constructor
        · rintro ⟨x, hx, hn⟩
          obtain ⟨i, hi, rfl⟩ := List.mem_iff_getElem.1 hx
          obtain ⟨b, c, h1, h2, h3⟩ := hget i _ (List.getElem?_eq_getElem hi)
          have := Codebook.nearest_unique codebook _ _ _ hn h2
          subst this
          exact ⟨c, List.mem_of_getElem? h1, by rw [h3.2.2 _ hj]; simp⟩
        · rintro ⟨c, hc, hv⟩
          obtain ⟨x, hx, b, hb, ho⟩ := hex c hc
          rw [ho.2.2 j hj] at hv
          have : j = b := by by_contra hjb; rw [if_neg hjb] at hv; cases hv
          subst this
          exact ⟨x, hx, hb⟩
    rw [hval]
    split <;> simp_all

/-- **C348, refuted**: every code hears something.  Four frames that arrive before the stream ends without another one give three codes of two frames each, and the third is of no frame; the same
frames arriving at the end of the stream give two. -/
theorem C348_blank_refuted :
    sketch 1 [[0]] 2 2 [[[0], [0], [0], [0]]] [] = .ok [[1], [1], [0]] ∧ sketch 1 [[0]] 2 2 [] [[0], [0], [0], [0]] = .ok [[1], [1]] := by
  have h1 : Codebook.encode 1 [[0]] [[0], [0], [0], [0]] = .ok [[1], [1], [1], [1]] := by
    simp [Codebook.encode, List.mapM_cons, Codebook.encodeRow, Codebook.argmin, Codebook.argminFrom, List.range_succ]
    rfl
  have h2 : Codebook.encode 1 [[(0 : ℝ)]] [] = .ok [] := by simp [Codebook.encode]; rfl
  have h3 : SlidingWindow.run [0] (2 : Nat) (2 : Nat) [[[1], [1], [1], [1]]] [] = .ok [[[1], [1]], [[1], [1]], [[0], [0]]] := by decide +kernel
  have h4 : SlidingWindow.run [0] (2 : Nat) (2 : Nat) [] [[1], [1], [1], [1]] = .ok [[[1], [1]], [[1], [1]]] := by decide +kernel
  have h5 : List.replicate [[(0 : ℝ)]].length 0 = [0] := rfl
  constructor
  · simp only [sketch, encodeChunks, h1, h2]
    rw [h5, h3]
    rfl
  · simp only [sketch, encodeChunks, h1]
    rw [h5, h4]
    rfl

/-! ## Distances of codes -/

theorem wordBytes_of (b0 b1 b2 b3 b4 b5 b6 b7 : UInt8) :
    wordBytes (BitVec.ofNat 64 (leValue [b0, b1, b2, b3, b4, b5, b6, b7])) = [b0, b1, b2, b3, b4, b5, b6, b7] := by
  have h0 := b0.toNat_lt
  have h1 := b1.toNat_lt
  have h2 := b2.toNat_lt
  have h3 := b3.toNat_lt
  have h4 := b4.toNat_lt
  have h5 := b5.toNat_lt
  have h6 := b6.toNat_lt
  have h7 := b7.toNat_lt
  have e : ∀ (n : Nat) (b : UInt8), n % 256 = b.toNat → UInt8.ofNat (n % 256) = b := by
    intro n b h; rw [h]; simp
  unfold wordBytes
  simp only [List.range, List.range.loop, List.map_cons, List.map_nil, BitVec.toNat_ofNat, leValue, Nat.reducePow, Nat.mul_zero, Nat.add_zero]
  congr 1
  · apply e; omega
  congr 1
  · apply e; omega
  congr 1
  · apply e; omega
  congr 1
  · apply e; omega
  congr 1
  · apply e; omega
  congr 1
  · apply e; omega
  congr 1
  · apply e; omega
  congr 1
  apply e; omega

theorem words_bytes : ∀ (n : Nat) (q : Bytes), q.length = 8 * n → (toWords q).flatMap wordBytes = q
  | 0, q, h => by
    have : q = [] := List.length_eq_zero_iff.1 (by omega)
    subst this; rfl
  | n + 1, q, h => by
    match q, h with
    | b0 :: b1 :: b2 :: b3 :: b4 :: b5 :: b6 :: b7 :: r, h =>
      rw [toWords, List.flatMap_cons, wordBytes_of, words_bytes n r (by simp at h; omega)]
      rfl
    | [], h => simp at h
    | [_], h => simp at h; omega
    | [_, _], h => simp at h; omega
    | [_, _, _], h => simp at h; omega
    | [_, _, _, _], h => simp at h; omega
    | [_, _, _, _, _], h => simp at h; omega
    | [_, _, _, _, _, _], h => simp at h; omega
    | [_, _, _, _, _, _, _], h => simp at h; omega

/-- **C352**: bits can be packed exactly if they fill words once rounded up to bytes, and then the packed array has the same code in an index as the array of bits, of zeros and ones, or of
booleans. -/
theorem C352_packed (bits : List Bool) :
    ((∃ ws, packWords bits = .ok ws) ↔ (bits.length + 7) / 8 % 8 = 0) ∧
    (∀ e, packWords bits = .error e → e = .valueError) ∧
    ∀ ws, packWords bits = .ok ws → 8 * ws.length = (bits.length + 7) / 8 ∧ encodeQuery (.uint64 ws) = encodeQuery (.bool bits) ∧
      encodeQuery (.uint64 ws) = encodeQuery (.uint8 (asBits bits)) := by
  have hl := packbits_length bits
  have hiff : packWords bits = if (bits.length + 7) / 8 % 8 ≠ 0 then .error .valueError else .ok (toWords (packbits bits)) := by
    unfold packWords; rw [hl]
  by_cases h : (bits.length + 7) / 8 % 8 = 0
  · rw [hiff, if_neg (by simpa using h)]
    refine ⟨⟨fun _ => h, fun _ => ⟨_, rfl⟩⟩, fun e he => (nomatch he), ?_⟩
    rintro ws hws
    cases hws
    have hw : (toWords (packbits bits)).flatMap wordBytes = packbits bits := words_bytes ((bits.length + 7) / 8 / 8) _ (by omega)
    have e1 : encodeQuery (.uint64 (toWords (packbits bits))) = encodeQuery (.bool bits) := by simp only [encodeQuery, hw]
    refine ⟨?_, e1, by rw [e1, C14_uint8_same]⟩
    obtain ⟨q, h1, _, h3⟩ := C14_uint64_roundtrip (toWords (packbits bits))
    simp only [encodeQuery, hw, Except.ok.injEq] at h1
    rw [← h3, ← h1, hl]
  · rw [hiff, if_pos h]
    refine ⟨⟨fun ⟨ws, hws⟩ => (nomatch hws), fun h' => absurd h' h⟩, ?_, fun ws hws => (nomatch hws)⟩
    intro e he
    cases he
    rfl

theorem represents_code (q : Codes.Feature) (bits : List Bool) (h : Represents q bits) : encodeQuery q = .ok (packbits bits) := by
  rcases h with rfl | rfl | ⟨ws, hws, rfl⟩
  · rfl
  · rw [C14_uint8_same]; rfl
  · rw [((C352_packed bits).2.2 ws hws).2.1]; rfl

/-- **C349**: the distance an index sees between two arrays that stand for equally many bits, in any representation, is the number of bits in which they differ. -/
theorem C349_distance (q q' : Codes.Feature) (xs ys : List Bool) (h : Represents q xs) (h' : Represents q' ys) (hl : xs.length = ys.length) :
    ∃ c c', encodeQuery q = .ok c ∧ encodeQuery q' = .ok c' ∧ c.length = (xs.length + 7) / 8 ∧ c'.length = c.length ∧ bitDistance c c' = differ xs ys :=
  ⟨_, _, represents_code q xs h, represents_code q' ys h', packbits_length xs, by rw [packbits_length, packbits_length, hl], bitDistance_packbits xs ys hl⟩


/-! ## Searching for stretches -/

theorem stretch_bits (dim : Nat) (codebook : List (List ℝ)) (hne : codebook ≠ []) (w s : Nat) (hs : 1 ≤ s) (hsw : s ≤ w) (q : Codes.Feature) (S : Finset Nat)
    (h : IsStretch dim codebook w s q S) : S ⊆ Finset.range codebook.length ∧ Represents q ((List.range codebook.length).map fun j => decide (j ∈ S)) := by
  obtain ⟨chunks, last, out, i, code, hd, hok, hi, rfl, rfl⟩ := h
  obtain ⟨o, e1, _, e3⟩ := C348_code dim codebook hne w s hs hsw chunks last hd
  rw [hok] at e1; cases e1
  obtain ⟨_, l1, l2⟩ := e3 i code hi
  classical
  refine ⟨by unfold heard; exact Finset.filter_subset _ _, Or.inr (Or.inl ?_)⟩
  unfold feature asBits
  congr 1
  apply List.ext_getElem?
  intro j
  by_cases hj : j < codebook.length
  · rw [List.getElem?_map, l2 j hj, List.map_map, List.getElem?_map, List.getElem?_range hj]
    by_cases hh : Heard codebook (chunks.flatten ++ last) (i * s) (i * s + w) j
    · simp [heard, hh, hj]
    · simp [heard, hh]
  · rw [List.getElem?_eq_none (by simp; omega), List.getElem?_eq_none (by simp; omega)]

theorem differ_sets (k : Nat) (S T : Finset Nat) (hS : S ⊆ Finset.range k) (hT : T ⊆ Finset.range k) :
    differ ((List.range k).map fun j => decide (j ∈ S)) ((List.range k).map fun j => decide (j ∈ T)) = (symmDiff S T).card := by
  have h1 : symmDiff S T = (Finset.range k).filter fun j => (decide (j ∈ S) != decide (j ∈ T)) = true := by
    ext j
    rw [Finset.mem_symmDiff, Finset.mem_filter]
    constructor
    · rintro (⟨a, b⟩ | ⟨a, b⟩)
      · exact ⟨hS a, by simp [a, b]⟩
      · exact ⟨hT a, by simp [a, b]⟩
    · rintro ⟨_, h⟩
      by_cases a : j ∈ S <;> by_cases b : j ∈ T <;> simp_all
  rw [h1]
  unfold differ
  rw [List.length_map, List.length_range]
  have h2 : ((Finset.range k).filter fun j => (decide (j ∈ S) != decide (j ∈ T)) = true) =
      ((List.range k).filter fun j => decide (j ∈ S) != decide (j ∈ T)).toFinset := by
    ext j; simp
  rw [h2, List.toFinset_card_of_nodup (List.nodup_range.filter _)]
  congr 1
  apply List.filter_congr
  intro j hj
  rw [List.mem_range] at hj
  simp [hj]

/-- **C349** (stretches of sound): the distance an index sees between the codes of two windows is the number of codewords that are heard in one of them only. -/
theorem C349_stretches (dim : Nat) (codebook : List (List ℝ)) (hne : codebook ≠ []) (w s : Nat) (hs : 1 ≤ s) (hsw : s ≤ w) (q q' : Codes.Feature) (S T : Finset Nat)
    (h : IsStretch dim codebook w s q S) (h' : IsStretch dim codebook w s q' T) :
    ∃ c c', encodeQuery q = .ok c ∧ encodeQuery q' = .ok c' ∧ c.length = (codebook.length + 7) / 8 ∧ c'.length = c.length ∧ bitDistance c c' = (symmDiff S T).card := by
  obtain ⟨s1, r1⟩ := stretch_bits dim codebook hne w s hs hsw q S h
  obtain ⟨s2, r2⟩ := stretch_bits dim codebook hne w s hs hsw q' T h'
  obtain ⟨c, c', a1, a2, a3, a4, a5⟩ := C349_distance q q' _ _ r1 r2 (by simp)
  rw [differ_sets _ S T s1 s2] at a5
  exact ⟨c, c', a1, a2, by simpa using a3, a4, a5⟩

open Zounds.Search in
/-- Searching by bits. -/
theorem search_bits {X : Type} (np : Numpy) (hl : Legal np) (js : Json X) (hjs : RoundTrips js) (as : List (Act X)) (hids : (drawn as).Nodup)
    (k : Nat) (x : Index X) (hk : (acts np js {} as).indexes[k]? = some x) (hw : x.writeonly = false) (bits : Row X → List Bool) (m : Nat)
    (hrows : ∀ r ∈ (shelf [] {} as).rows, Represents r.seg.data (bits r) ∧ (bits r).length = m) (q : Codes.Feature) (qbits : List Bool) (hq : Represents q qbits) (hm : qbits.length = m)
    (htimes : ∀ r ∈ (shelf [] {} as).rows, Timed r.seg.ts) (hextra : x.extra ≠ none → ∀ r ∈ (shelf [] {} as).rows, r.extra ≠ none)
    (n : Nat) (hn : n < (shelf [] {} as).rows.length) (mt sort : Bool) :
    ∃ chosen rest results, (chosen ++ rest).Perm (shelf [] {} as).rows ∧ chosen.length = n ∧
      (act np js (acts np js {} as) (.search k q n mt sort)).2 = .ok results ∧ List.Forall₂ (Shows x) chosen results ∧
      (∀ a ∈ chosen, ∀ b ∈ rest, differ qbits (bits a) ≤ differ qbits (bits b)) ∧
      (sort = true → chosen.Pairwise fun a b => differ qbits (bits a) ≤ differ qbits (bits b)) := by
  have hc := represents_code q qbits hq
  have hcode : ∀ r ∈ (shelf [] {} as).rows, codeOf r.seg = packbits (bits r) := by
    intro r hr
    simp only [codeOf, represents_code _ _ (hrows r hr).1]
  have hrel := acts_rel np js as {} [] {} (start_rel np js) (by simpa using hids)
  have hsizes : ∀ b ∈ (shelf [] {} as).rows, (shelf [] {} as).size = some (codeOf b.seg).length := by
    intro b hb
    obtain ⟨ops, h1, h2, h3, h4, h5, h6⟩ := hrel.behind.hist
    have := history_exact np ops h1 h2 h3 (recOf js b) (by rw [h5]; exact List.mem_map_of_mem hb)
    rw [h4, hrel.behind.size] at this
    exact this
  obtain ⟨r0, hr0⟩ : ∃ r, r ∈ (shelf [] {} as).rows := List.exists_mem_of_length_pos (by omega)
  have hsize : (shelf [] {} as).size = some (packbits qbits).length := by
    rw [hsizes r0 hr0, hcode r0 hr0, packbits_length, packbits_length, hm, (hrows r0 hr0).2]
  obtain ⟨chosen, rest, results, e1, e2, e3, e4, e5, e6⟩ := C284_search np hl js hjs as hids k x hk hw q _ hc hsize htimes hextra n hn mt sort
  have hd : ∀ r ∈ chosen ++ rest, bitDistance (packbits qbits) (codeOf r.seg) = differ qbits (bits r) := by
    intro r hr
    have hr' := e1.mem_iff.1 hr
    rw [hcode r hr', bitDistance_packbits _ _ (by rw [hm, (hrows r hr').2])]
  refine ⟨chosen, rest, results, e1, e2, e3, e4, ?_, ?_⟩
  · intro a ha b hb
    rw [← hd a (List.mem_append_left _ ha), ← hd b (List.mem_append_right _ hb)]
    exact e5 a ha b hb
  · intro hs
    refine (e6 hs).imp_of_mem ?_
    intro a b ha hb hab
    rw [← hd a (List.mem_append_left _ ha), ← hd b (List.mem_append_left _ hb)]
    exact hab

open Zounds.Search in
/-- **C350**: in an index of codes of windows, searching with the code of a window - of any sound - for fewer windows than are indexed returns document and time of so many windows for which the
number of codewords that are heard in one of the two only is least, in order of this number if asked. -/
theorem C350_search {X : Type} (np : Numpy) (hl : Legal np) (js : Json X) (hjs : RoundTrips js) (as : List (Act X)) (hids : (drawn as).Nodup)
    (k : Nat) (x : Index X) (hk : (acts np js {} as).indexes[k]? = some x) (hw : x.writeonly = false)
    (dim : Nat) (codebook : List (List ℝ)) (hne : codebook ≠ []) (w s : Nat) (hs : 1 ≤ s) (hsw : s ≤ w) (S : Row X → Finset Nat)
    (hrows : ∀ r ∈ (shelf [] {} as).rows, IsStretch dim codebook w s r.seg.data (S r)) (q : Codes.Feature) (Q : Finset Nat) (hq : IsStretch dim codebook w s q Q)
    (htimes : ∀ r ∈ (shelf [] {} as).rows, Timed r.seg.ts) (hextra : x.extra ≠ none → ∀ r ∈ (shelf [] {} as).rows, r.extra ≠ none)
    (n : Nat) (hn : n < (shelf [] {} as).rows.length) (mt sort : Bool) :
    ∃ chosen rest results, (chosen ++ rest).Perm (shelf [] {} as).rows ∧ chosen.length = n ∧
      (act np js (acts np js {} as) (.search k q n mt sort)).2 = .ok results ∧ List.Forall₂ (Shows x) chosen results ∧
      (∀ a ∈ chosen, ∀ b ∈ rest, (symmDiff Q (S a)).card ≤ (symmDiff Q (S b)).card) ∧
      (sort = true → chosen.Pairwise fun a b => (symmDiff Q (S a)).card ≤ (symmDiff Q (S b)).card) := by
  obtain ⟨q1, q2⟩ := stretch_bits dim codebook hne w s hs hsw q Q hq
  obtain ⟨chosen, rest, results, e1, e2, e3, e4, e5, e6⟩ := search_bits np hl js hjs as hids k x hk hw
    (fun r => (List.range codebook.length).map fun j => decide (j ∈ S r)) codebook.length
    (fun r hr => ⟨(stretch_bits dim codebook hne w s hs hsw _ _ (hrows r hr)).2, by simp⟩) q _ q2 (by simp) htimes hextra n hn mt sort
  have hd : ∀ r ∈ chosen ++ rest, differ ((List.range codebook.length).map fun j => decide (j ∈ Q)) ((List.range codebook.length).map fun j => decide (j ∈ S r)) = (symmDiff Q (S r)).card :=
    fun r hr => differ_sets _ _ _ q1 (stretch_bits dim codebook hne w s hs hsw _ _ (hrows r (e1.mem_iff.1 hr))).1
  refine ⟨chosen, rest, results, e1, e2, e3, e4, ?_, ?_⟩
  · intro a ha b hb
    rw [← hd a (List.mem_append_left _ ha), ← hd b (List.mem_append_right _ hb)]
    exact e5 a ha b hb
  · intro hs
    refine (e6 hs).imp_of_mem ?_
    intro a b ha hb hab
    rw [← hd a (List.mem_append_left _ ha), ← hd b (List.mem_append_left _ hb)]
    exact hab


/-! ## Loud and quiet -/

theorem norm_gain (x : List ℝ) (c : ℝ) (hc : 0 < c) : Pipeline.norm (x.map (c * ·)) = c * Pipeline.norm x := by
  unfold Pipeline.norm
  have h : ((x.map (c * ·)).map fun v => v ^ 2).sum = c ^ 2 * (x.map fun v => v ^ 2).sum := by
    rw [List.map_map, ← List.sum_map_mul_left]
    congr 1
    apply List.map_congr_left
    intro v _
    simp only [Function.comp]
    ring
  rw [h, Real.sqrt_mul (by positivity), Real.sqrt_sq hc.le]

theorem unitRow_gain (junk junk' : Nat → ℝ) (x : List ℝ) (hx : Pipeline.norm x ≠ 0) (c : ℝ) (hc : 0 < c) : unitRow junk (x.map (c * ·)) = unitRow junk' x := by
  unfold unitRow Pipeline.divWhere
  rw [norm_gain x c hc, if_pos (mul_ne_zero hc.ne' hx), if_pos hx, List.map_map]
  apply List.map_congr_left
  intro v _
  simp only [Function.comp]
  rw [mul_div_mul_left _ _ hc.ne']

/-- `y` is the frame `x`, which is not silent, at some volume. -/
def Louder (x y : List ℝ) : Prop := Pipeline.norm x ≠ 0 ∧ ∃ c, 0 < c ∧ y = x.map (c * ·)

theorem unit_louder (junk junk' : Nat → ℝ) (l l' : List (List ℝ)) (h : List.Forall₂ Louder l l') : l.map (unitRow junk') = l'.map (unitRow junk) := by
  induction h with
  | nil => rfl
  | cons h _ ih =>
    obtain ⟨hx, c, hc, rfl⟩ := h
    simp only [List.map_cons, ih, unitRow_gain junk junk' _ hx c hc]

/-- **C351**: with unit norm before the codebook, the codes of a stream do not depend on the volume, not even if every frame is made louder or quieter by a factor of its own. -/
theorem C351_volume (junk junk' : Nat → ℝ) (dim : Nat) (codebook : List (List ℝ)) (w s : Nat) (chunks chunks' : List (List (List ℝ))) (last last' : List (List ℝ))
    (hc : List.Forall₂ (List.Forall₂ Louder) chunks chunks') (hl : List.Forall₂ Louder last last') :
    sketch dim codebook w s (chunks.map fun c => c.map (unitRow junk)) (last.map (unitRow junk)) =
      sketch dim codebook w s (chunks'.map fun c => c.map (unitRow junk')) (last'.map (unitRow junk')) := by
  have h1 : (chunks.map fun c => c.map (unitRow junk)) = chunks'.map fun c => c.map (unitRow junk') := by
    induction hc with
    | nil => rfl
    | cons h _ ih => rw [List.map_cons, List.map_cons, ih, unit_louder junk' junk _ _ h]
  rw [h1, unit_louder junk' junk _ _ hl]

/-- **C351, refuted** (without unit norm): a frame ten times as loud may have another code. -/
theorem C351_plain_refuted :
    Codebook.Nearest [[1], [10]] [1] 0 ∧ Codebook.Nearest [[1], [10]] [10 * 1] 1 := by
  have d : ∀ a b : ℝ, Codebook.dist [a] [b] = |a - b| := by
    intro a b
    simp [Codebook.dist, Real.sqrt_sq_eq_abs]
  constructor
  · refine ⟨by simp, ?_, by simp⟩
    intro j hj
    simp only [List.length_cons, List.length_nil] at hj
    interval_cases j <;> simp [d]
  · refine ⟨by simp, ?_, ?_⟩
    · intro j hj
      simp only [List.length_cons, List.length_nil] at hj
      interval_cases j <;> simp [d]
    · intro j hj
      interval_cases j
      simp [d]
      norm_num

/-- **C351, refuted** (silence): the code of a silent frame is well defined.  It is whatever the memory holds: every codeword that is not the repetition of an earlier one may be heard. -/
theorem C351_silence_refuted (dim : Nat) (codebook : List (List ℝ)) (hlen : ∀ c ∈ codebook, c.length = dim) (b : Nat) (hb : b < codebook.length)
    (hfirst : ∀ j < b, codebook.getD j [] ≠ codebook.getD b []) :
    ∃ junk, Codebook.Nearest codebook (unitRow junk (List.replicate dim 0)) b := by
  have hcl : (codebook.getD b []).length = dim := by
    apply hlen
    rw [List.getD_eq_getElem?_getD, List.getElem?_eq_getElem hb]
    exact List.getElem_mem hb
  refine ⟨fun i => (codebook.getD b []).getD i 0, ?_⟩
  have hz : Pipeline.norm (List.replicate dim 0) = 0 := by simp [Pipeline.norm]
  have hu : unitRow (fun i => (codebook.getD b []).getD i 0) (List.replicate dim 0) = codebook.getD b [] := by
    unfold unitRow Pipeline.divWhere
    rw [hz, if_neg (by simp), List.length_replicate, ← hcl]
    generalize codebook.getD b [] = l
    apply List.ext_getElem (by simp)
    intro i h1 h2
    simp [List.getElem?_eq_getElem h2]
  rw [hu]
  refine ⟨hb, ?_, ?_⟩
  · intro j _
    rw [Codebook.dist_self]
    exact Real.sqrt_nonneg _
  · intro j hj
    rw [Codebook.dist_self]
    have hjl : (codebook.getD j []).length = dim := by
      apply hlen
      rw [List.getD_eq_getElem?_getD, List.getElem?_eq_getElem (by omega)]
      exact List.getElem_mem _
    refine lt_of_le_of_ne (Real.sqrt_nonneg _) ?_
    intro h
    exact hfirst j hj (Codebook.dist_eq_zero _ _ (by rw [hjl, hcl]) h.symm).symm

/-! ## Similarity hashes -/

/-- The hyperplanes that separate two examples: one of them is on the positive side, the other is not. -/
noncomputable def separating (planes : List (List ℝ)) (x y : List ℝ) : Nat :=
  ((List.range planes.length).filter fun i => decide (0 < Pipeline.dot (planes.getD i []) x) != decide (0 < Pipeline.dot (planes.getD i []) y)).length

/-- What `SimHash` returns. -/
theorem simHash_spec (planes : List (List ℝ)) (pack : Bool) (x : List ℝ) (q : Codes.Feature) (h : simHash planes pack x = .ok q) :
    (∀ p ∈ planes, p.length = x.length) ∧ Represents q (planes.map fun p => decide (0 < Pipeline.dot p x)) := by
  unfold simHash Pipeline.simhash at h
  by_cases hp : planes.all (fun p => p.length = x.length) = true
  · rw [if_pos hp] at h
    refine ⟨by simpa using hp, ?_⟩
    simp only [] at h
    cases pack with
    | false =>
      simp only [Bool.false_eq_true, if_false, Except.ok.injEq] at h
      exact Or.inr (Or.inl h.symm)
    | true =>
      simp only [if_true] at h
      cases hw : packWords (planes.map fun p => decide (0 < Pipeline.dot p x)) with
      | error e => rw [hw] at h; cases h
      | ok ws =>
        rw [hw] at h
        simp only [Except.ok.injEq] at h
        exact Or.inr (Or.inr ⟨ws, hw, h.symm⟩)
  · rw [if_neg hp] at h
    cases h

/-- **C353** (when): with `packbits`, examples of the planes' dimension can be hashed exactly if the number of planes, rounded up to bytes, fills words; without, always. -/
theorem C353_when (planes : List (List ℝ)) (pack : Bool) (x : List ℝ) (h : ∀ p ∈ planes, p.length = x.length) :
    (∃ q, simHash planes pack x = .ok q) ↔ (pack = true → (planes.length + 7) / 8 % 8 = 0) := by
  have hs : Pipeline.simhash planes x = .ok (planes.map fun p => decide (0 < Pipeline.dot p x)) := by
    unfold Pipeline.simhash; rw [if_pos (by simpa using h)]
  have hp := (C352_packed (planes.map fun p => decide (0 < Pipeline.dot p x))).1
  rw [List.length_map] at hp
  unfold simHash
  rw [hs]
  cases pack with
  | false => simp
  | true =>
    simp only [if_true, forall_const]
    rw [← hp]
    constructor
    · rintro ⟨q, hq⟩
      cases hw : packWords (planes.map fun p => decide (0 < Pipeline.dot p x)) with
      | error e => rw [hw] at hq; cases hq
      | ok ws => exact ⟨ws, rfl⟩
    · rintro ⟨ws, hw⟩
      rw [hw]
      exact ⟨_, rfl⟩

theorem differ_planes (planes : List (List ℝ)) (x y : List ℝ) :
    differ (planes.map fun p => decide (0 < Pipeline.dot p x)) (planes.map fun p => decide (0 < Pipeline.dot p y)) = separating planes x y := by
  unfold differ separating
  rw [List.length_map]
  congr 1
  apply List.filter_congr
  intro j hj
  rw [List.mem_range] at hj
  simp [List.getD, hj]

/-- **C353** (distance): the distance an index sees between the hashes of two examples, packed or not, is the number of hyperplanes that separate them. -/
theorem C353_distance (planes : List (List ℝ)) (pack pack' : Bool) (x y : List ℝ) (q q' : Codes.Feature) (h : simHash planes pack x = .ok q) (h' : simHash planes pack' y = .ok q') :
    ∃ c c', encodeQuery q = .ok c ∧ encodeQuery q' = .ok c' ∧ bitDistance c c' = separating planes x y := by
  obtain ⟨c, c', a1, a2, _, _, a5⟩ := C349_distance q q' _ _ (simHash_spec planes pack x q h).2 (simHash_spec planes pack' y q' h').2 (by simp)
  exact ⟨c, c', a1, a2, by rw [a5, differ_planes]⟩

open Zounds.Search in
/-- **C353** (search): in an index of hashes, searching with the hash of an example for fewer examples than are indexed returns document and time of so many examples that the fewest hyperplanes
separate from it, in order of their number if asked; hashes may be packed or not, in the index and in the query. -/
theorem C353_search {X : Type} (np : Numpy) (hl : Legal np) (js : Json X) (hjs : RoundTrips js) (as : List (Act X)) (hids : (drawn as).Nodup)
    (k : Nat) (x : Index X) (hk : (acts np js {} as).indexes[k]? = some x) (hw : x.writeonly = false) (planes : List (List ℝ)) (example_ : Row X → List ℝ)
    (hrows : ∀ r ∈ (shelf [] {} as).rows, ∃ pack, simHash planes pack (example_ r) = .ok r.seg.data) (y : List ℝ) (pack : Bool) (q : Codes.Feature) (hq : simHash planes pack y = .ok q)
    (htimes : ∀ r ∈ (shelf [] {} as).rows, Timed r.seg.ts) (hextra : x.extra ≠ none → ∀ r ∈ (shelf [] {} as).rows, r.extra ≠ none)
    (n : Nat) (hn : n < (shelf [] {} as).rows.length) (mt sort : Bool) :
    ∃ chosen rest results, (chosen ++ rest).Perm (shelf [] {} as).rows ∧ chosen.length = n ∧
      (act np js (acts np js {} as) (.search k q n mt sort)).2 = .ok results ∧ List.Forall₂ (Shows x) chosen results ∧
      (∀ a ∈ chosen, ∀ b ∈ rest, separating planes y (example_ a) ≤ separating planes y (example_ b)) ∧
      (sort = true → chosen.Pairwise fun a b => separating planes y (example_ a) ≤ separating planes y (example_ b)) := by
  have := search_bits np hl js hjs as hids k x hk hw (fun r => planes.map fun p => decide (0 < Pipeline.dot p (example_ r))) planes.length
    (fun r hr => by
      obtain ⟨pk, hpk⟩ := hrows r hr
      exact ⟨(simHash_spec planes pk _ _ hpk).2, by simp⟩) q _ (simHash_spec planes pack y q hq).2 (by simp) htimes hextra n hn mt sort
  simpa only [differ_planes] using this


/-! ## The hypotheses are met -/

section demo
open Zounds.Search

/-- A document with two segments. -/
def twoSegments (q q' : Codes.Feature) : List (Act Nat) :=
  [.create false none, .add 0 ['a'] [(⟨⟨⟨0, .s⟩, some ⟨1, .s⟩⟩, q⟩, 7), (⟨⟨⟨1, .s⟩, some ⟨1, .s⟩⟩, q'⟩, 3)]]

theorem twoSegments_rows (q q' : Codes.Feature) (c c' : List UInt8) (h : encodeQuery q = .ok c) (h' : encodeQuery q' = .ok c') (hl : c.length = 8) (hl' : c'.length = 8) :
    (shelf [] {} (twoSegments q q')).rows = [⟨['a'], ⟨⟨⟨0, .s⟩, some ⟨1, .s⟩⟩, q⟩, none, 7⟩, ⟨['a'], ⟨⟨⟨1, .s⟩, some ⟨1, .s⟩⟩, q'⟩, none, 3⟩] := by
  simp [twoSegments, shelf, put, h, h', sizeOk, hl, hl']

theorem twoSegments_index (np : Numpy) (js : Json Nat) (q q' : Codes.Feature) : ∃ x, (acts np js {} (twoSegments q q')).indexes[0]? = some x ∧ x.writeonly = false ∧ x.extra = none := by
  have h0 : (act np js ({} : State Nat) (.create false none)).1.indexes = [⟨false, none, none⟩] := by rfl
  unfold twoSegments
  simp only [acts]
  obtain ⟨s, hs⟩ : ∃ s, s = (act np js ({} : State Nat) (.create false none)).1 := ⟨_, rfl⟩
  rw [← hs] at h0 ⊢
  have hx : s.indexes[0]? = some ⟨false, none, none⟩ := by rw [h0]; rfl
  have key : ∀ (segs : List (Segment × Nat)) (w : World) (x : Index Nat), x.writeonly = false → x.extra = none →
      (add np js w x ['a'] segs).2.1.writeonly = false ∧ (add np js w x ['a'] segs).2.1.extra = none := by
    intro segs
    induction segs with
    | nil => intro w x h1 h2; exact ⟨h1, h2⟩
    | cons sg segs ih =>
      intro w x h1 h2
      have hone : (addSegment np js w x ['a'] sg.1 sg.2).2.1.writeonly = false ∧ (addSegment np js w x ['a'] sg.1 sg.2).2.1.extra = none := by
        unfold addSegment
        split
        · exact ⟨h1, h2⟩
        · split
          · exact ⟨h1, h2⟩
          · split
            · exact ⟨h1, h2⟩
            · rename_i w' x' hi
              have hx' : x'.writeonly = false ∧ x'.extra = none := by
                unfold initDb at hi
                split at hi
                · cases hi; exact ⟨h1, h2⟩
                · split at hi
                  · cases hi; exact ⟨h1, h2⟩
                  · cases hi
              split <;> exact hx'
      unfold add
      split
      · rename_i w' x' he
        rw [he] at hone
        exact ih w' x' hone.1 hone.2
      · rename_i w' x' e he
        rw [he] at hone
        exact hone
  simp only [act, hx]
  split
  · rename_i w x' he
    refine ⟨x', by simp [h0], ?_⟩
    have h2 : x' = (add np js s.world ⟨false, none, none⟩ ['a'] [(⟨⟨⟨0, .s⟩, some ⟨1, .s⟩⟩, q⟩, 7), (⟨⟨⟨1, .s⟩, some ⟨1, .s⟩⟩, q'⟩, 3)]).2.1 := by rw [he]
    rw [h2]
    exact key _ s.world ⟨false, none, none⟩ rfl rfl
  · rename_i w x' e he
    refine ⟨x', by simp [h0], ?_⟩
    have h2 : x' = (add np js s.world ⟨false, none, none⟩ ['a'] [(⟨⟨⟨0, .s⟩, some ⟨1, .s⟩⟩, q⟩, 7), (⟨⟨⟨1, .s⟩, some ⟨1, .s⟩⟩, q'⟩, 3)]).2.1 := by rw [he]
    rw [h2]
    exact key _ s.world ⟨false, none, none⟩ rfl rfl

/-- A codebook of 64 different codewords, and the code of the first window of a stream of two frames. -/
noncomputable def ladder : List (List ℝ) := (List.range 64).map fun j => [(j : ℝ)]

theorem ladder_length : ladder.length = 64 := by simp [ladder]

theorem ladder_stretch (a b : ℝ) : ∃ q S c, IsStretch 1 ladder 2 2 q S ∧ encodeQuery q = .ok c ∧ c.length = 8 := by
  have hne : ladder ≠ [] := by intro h; have := congrArg List.length h; simp [ladder] at this
  have hd : ∀ x ∈ ([] : List (List (List ℝ))).flatten ++ [[a], [b]], x.length = 1 := by simp
  obtain ⟨out, h1, h2, h3⟩ := C348_code 1 ladder hne 2 2 (by decide) (by decide) [] [[a], [b]] hd
  have h0 : 0 < out.length := h2 0 (by simp)
  have hst : IsStretch 1 ladder 2 2 (feature out[0]) _ := ⟨[], [[a], [b]], out, 0, out[0], hd, h1, by simp, rfl, rfl⟩
  obtain ⟨c, _, e1, _, e3, _⟩ := C349_stretches 1 ladder hne 2 2 (by decide) (by decide) _ _ _ _ hst hst
  exact ⟨_, _, c, hst, e1, by rw [e3, ladder_length]⟩

theorem times_ok (q q' : Codes.Feature) (c c' : List UInt8) (h : encodeQuery q = .ok c) (h' : encodeQuery q' = .ok c') (hl : c.length = 8) (hl' : c'.length = 8) :
    ∀ r ∈ (shelf [] {} (twoSegments q q')).rows, Timed r.seg.ts := by
  rw [twoSegments_rows q q' c c' h h' hl hl']
  intro r hr
  simp only [List.mem_cons, List.not_mem_nil, or_false] at hr
  rcases hr with rfl | rfl
  · exact ⟨by unfold Zounds.Props.Persist.Int64Count; simp, by simp, fun d hd => by cases hd; exact ⟨by unfold Zounds.Props.Persist.Int64Count; decide, by decide⟩⟩
  · exact ⟨by unfold Zounds.Props.Persist.Int64Count; simp, by simp, fun d hd => by cases hd; exact ⟨by unfold Zounds.Props.Persist.Int64Count; decide, by decide⟩⟩

example : True := by
  have hne : ladder ≠ [] := by intro h; have := congrArg List.length h; simp [ladder] at this
  obtain ⟨js, hjs⟩ := json_exists
  obtain ⟨q, S, c, h1, h2, h3⟩ := ladder_stretch 3 5
  obtain ⟨q', S', c', h1', h2', h3'⟩ := ladder_stretch 3 60
  obtain ⟨x, hx, hw, he⟩ := twoSegments_index np0 js q q'
  have hrows := twoSegments_rows q q' c c' h2 h2' h3 h3'
  have := C350_search np0 np0_legal js hjs (twoSegments q q') (by simp [drawn, twoSegments]) 0 x hx hw 1 ladder hne 2 2 (by decide) (by decide)
    (fun r => if r.id = 7 then S else S') (by
      rw [hrows]
      intro r hr
      simp only [List.mem_cons, List.not_mem_nil, or_false] at hr
      rcases hr with rfl | rfl
      · exact h1
      · exact h1') q S h1 (times_ok q q' c c' h2 h2' h3 h3') (fun h => absurd he h) 1 (by rw [hrows]; simp) false true
  have := C349_stretches 1 ladder hne 2 2 (by decide) (by decide) q q' S S' h1 h1'
  trivial

example : True := by
  obtain ⟨planes, hp⟩ : ∃ planes : List (List ℝ), planes = List.replicate 64 [1, -1] := ⟨_, rfl⟩
  have hlen : planes.length = 64 := by rw [hp]; simp
  have hw2 : ∀ x : List ℝ, x.length = 2 → ∀ p ∈ planes, p.length = x.length := by
    intro x hx p hpm
    rw [hp] at hpm
    rw [List.eq_of_mem_replicate hpm, hx]
    rfl
  obtain ⟨q, hq⟩ := (C353_when planes true [1, 2] (hw2 _ rfl)).2 (fun _ => by rw [hlen])
  obtain ⟨q', hq'⟩ := (C353_when planes false [2, 1] (hw2 _ rfl)).2 (fun h => (nomatch h))
  obtain ⟨c, c', e1, e2, l1, l2, _⟩ := C349_distance q q' _ _ (simHash_spec planes true _ q hq).2 (simHash_spec planes false _ q' hq').2 (by simp)
  have l3 : c.length = 8 := by rw [l1]; simp [hlen]
  obtain ⟨js, hjs⟩ := json_exists
  obtain ⟨x, hx, hw, he⟩ := twoSegments_index np0 js q q'
  have hrows := twoSegments_rows q q' c c' e1 e2 l3 (by rw [l2, l3])
  have := C353_search np0 np0_legal js hjs (twoSegments q q') (by simp [drawn, twoSegments]) 0 x hx hw planes (fun r => if r.id = 7 then [1, 2] else [2, 1]) (by
      rw [hrows]
      intro r hr
      simp only [List.mem_cons, List.not_mem_nil, or_false] at hr
      rcases hr with rfl | rfl
      · exact ⟨true, hq⟩
      · exact ⟨false, hq'⟩) [1, 2] true q hq (times_ok q q' c c' e1 e2 l3 (by rw [l2, l3])) (fun h => absurd he h) 1 (by rw [hrows]; simp) false true
  have := C353_distance planes true false [1, 2] [2, 1] q q' hq hq'
  trivial

example := C348_same 1 [[(0 : ℝ)], [1]] (by simp) 2 2 (by decide) (by decide) [] [] [[0], [1]] [[1], [0]] (by simp) (by simp)

example := C348_pool 1 [[(0 : ℝ)], [1]] (by simp) [[0], [1]] (by simp)

example := C351_volume (fun _ => 0) (fun _ => 7) 1 [[(0 : ℝ)], [1]] 2 2 [] [] [[1], [3]] [[2], [30]] .nil
  (.cons ⟨by simp [Pipeline.norm], 2, by norm_num, by simp⟩ (.cons ⟨by simp [Pipeline.norm], 10, by norm_num, by norm_num⟩ .nil))

example := C351_silence_refuted 1 [[(0 : ℝ)], [1]] (by simp) 1 (by simp) (by simp)

example := (C352_packed (List.replicate 64 true)).1

end demo

end Zounds.Sketch
