import Verif.Model.Stored
import Verif.Props.DimCodec
import Verif.Props.Persist
import Verif.Props.FreqAdaptive
import Verif.Props.Audio
import Mathlib.Data.List.GetD

/-!
# Features stored and read back (C315, C316)
-/

namespace Zounds.Stored
open Zounds Zounds.Freq Zounds.Time Zounds.Persist Zounds.DimCodec Zounds.Props.Persist Zounds.Props.DimCodec Zounds.Props.FreqAdaptive

variable {α Meta : Type} [Field α] [LinearOrder α]

/-- Specification: a dimension of an array, and the array's size along it: a time dimension knows the size, a frequency dimension has that many bands. -/
def Fits : Dim α → Nat → Prop
  | .time _ _ size, n => size = some (n : Int)
  | .freq s, n => n = s.scale.len
  | .explicit _ sl _, _ => sl ≠ []
  | _, _ => True

/-- Specification: the dimensions of all axes fit. -/
def AllFit : List (Dim α) → List Nat → Prop
  | [], [] => True
  | d :: ds, n :: ns => Fits d n ∧ AllFit ds ns
  | _, _ => False

/-- Specification: all rows of a stream of pieces. -/
def allRows (cs : List (Piece α Meta)) : List Bytes := (cs.map Piece.rows).flatten

omit [Field α] [LinearOrder α] in
theorem install_fits [Field α] [LinearOrder α] (d : Dim α) (n : Nat) (h : Fits d n) : installDim d n = .ok d := by
  cases d with
  | identity => rfl
  | time f u s => simp only [Fits] at h; rw [h]; rfl
  | freq s => exact if_pos h
  | explicit s sl k => exact if_neg h
  | custom c => rfl

theorem installs_fit : ∀ (ds : List (Dim α)) (ns : List Nat), AllFit ds ns → ds.length = ns.length ∧ installDims ds ns = .ok ds
  | [], [], _ => ⟨rfl, rfl⟩
  | [], _ :: _, h => nomatch h
  | _ :: _, [], h => nomatch h
  | d :: ds, n :: ns, h => by
    obtain ⟨h1, h2⟩ := h
    obtain ⟨k1, k2⟩ := installs_fit ds ns h2
    refine ⟨by simp [k1], ?_⟩
    simp only [installDims, install_fits d n h1, k2]

/-- The pieces are written and the parts of the file come back. -/
theorem store_decode (X : NumExt α) (E : ExtCodec (List (Json α)) Meta) (c : Piece α Meta) (cs : List (Piece α Meta))
    (hst : ∀ d ∈ c.dims, Storable X d) (hE : ∀ js, encodeDims X c.dims = .ok js → LawfulAt E js c.header ∧ (E.dumps js).length < 2 ^ 32)
    (hsize : 0 < E.totalsize c.header) (hrows : ∀ k ∈ c :: cs, ∀ r ∈ k.rows, r.length = E.totalsize c.header) :
    ∃ bytes js, store X E (c :: cs) = .ok bytes ∧ decodeDims X js = .ok c.dims ∧ decodeArray E bytes = .ok (js, c.header, allRows (c :: cs)) := by
  obtain ⟨js, h1, h2⟩ := C19_list_roundtrip X c.dims hst
  obtain ⟨bytes, h3, h4⟩ := roundtrip_at E (⟨js, c.header, c.rows⟩ : Chunk (List (Json α)) Meta) (cs.map fun k => ⟨[], k.header, k.rows⟩) (hE js h1).1 (hE js h1).2 hsize
    (by
      intro k hk r hr
      rcases List.mem_cons.1 hk with rfl | hk
      · exact hrows c (by simp) r hr
      · obtain ⟨k', hk', rfl⟩ := List.mem_map.1 hk
        exact hrows k' (by simp [hk']) r hr)
  refine ⟨bytes, js, ?_, h2, ?_⟩
  · simp only [store, h1, h3]
  · rw [h4]
    simp only [List.map_cons, List.map_map, allRows]
    rfl

/-- **C315**: an array that arrives in pieces, whose first axis is time, is read back with the dimensions of the first piece, the first of which now spans all
rows, and with all rows of all pieces, whatever the sizes of the pieces. -/
theorem C315_read (X : NumExt α) (E : ExtCodec (List (Json α)) Meta) (shapeOf : Meta → List Nat) (c : Piece α Meta) (cs : List (Piece α Meta))
    (f u : Dur) (sz : Option Int) (ds : List (Dim α)) (hd : c.dims = .time f u sz :: ds) (hst : ∀ d ∈ c.dims, Storable X d)
    (hfit : AllFit ds (shapeOf c.header)) (hE : ∀ js, encodeDims X c.dims = .ok js → LawfulAt E js c.header ∧ (E.dumps js).length < 2 ^ 32)
    (hsize : 0 < E.totalsize c.header) (hrows : ∀ k ∈ c :: cs, ∀ r ∈ k.rows, r.length = E.totalsize c.header) :
    ∃ bytes, store X E (c :: cs) = .ok bytes ∧
      read X E shapeOf bytes = .ok ⟨.time f u (some ((allRows (c :: cs)).length : Int)) :: ds, c.header, allRows (c :: cs)⟩ := by
  obtain ⟨bytes, js, h1, h2, h3⟩ := store_decode X E c cs hst hE hsize hrows
  obtain ⟨k1, k2⟩ := installs_fit ds _ hfit
  refine ⟨bytes, h1, ?_⟩
  simp only [read, h3, h2, newArr]
  rw [if_neg (by rw [hd]; simp [k1])]
  simp only [hd, installDims, installDim, k2]

/-- **C315, frequency first**: an array whose first axis is a frequency dimension is read back only if all pieces together have as many rows as its scale has bands. -/
theorem C315_frequency_first (X : NumExt α) (E : ExtCodec (List (Json α)) Meta) (shapeOf : Meta → List Nat) (c : Piece α Meta) (cs : List (Piece α Meta))
    (s : ScaleObj α) (ds : List (Dim α)) (hd : c.dims = .freq s :: ds) (hst : ∀ d ∈ c.dims, Storable X d)
    (hfit : AllFit ds (shapeOf c.header)) (hE : ∀ js, encodeDims X c.dims = .ok js → LawfulAt E js c.header ∧ (E.dumps js).length < 2 ^ 32)
    (hsize : 0 < E.totalsize c.header) (hrows : ∀ k ∈ c :: cs, ∀ r ∈ k.rows, r.length = E.totalsize c.header) :
    ∃ bytes, store X E (c :: cs) = .ok bytes ∧
      read X E shapeOf bytes = if (allRows (c :: cs)).length = s.scale.len then .ok ⟨c.dims, c.header, allRows (c :: cs)⟩ else .error .valueError := by
  obtain ⟨bytes, js, h1, h2, h3⟩ := store_decode X E c cs hst hE hsize hrows
  obtain ⟨k1, k2⟩ := installs_fit ds _ hfit
  refine ⟨bytes, h1, ?_⟩
  simp only [read, h3, h2, newArr]
  rw [if_neg (by rw [hd]; simp [k1])]
  simp only [hd, installDims, installDim]
  by_cases h : (allRows (c :: cs)).length = s.scale.len
  · simp only [h, if_true, k2]
  · simp only [h, if_false]

/-- **C315, refuted in general**: such an array, stored in two pieces of which the first is complete and the second is not empty, cannot be read. -/
theorem C315_frequency_first_refuted (X : NumExt α) (E : ExtCodec (List (Json α)) Meta) (shapeOf : Meta → List Nat) (c c' : Piece α Meta)
    (s : ScaleObj α) (ds : List (Dim α)) (hd : c.dims = .freq s :: ds) (hst : ∀ d ∈ c.dims, Storable X d)
    (hfit : AllFit c.dims (c.rows.length :: shapeOf c.header)) (hE : ∀ js, encodeDims X c.dims = .ok js → LawfulAt E js c.header ∧ (E.dumps js).length < 2 ^ 32)
    (hsize : 0 < E.totalsize c.header) (hrows : ∀ k ∈ [c, c'], ∀ r ∈ k.rows, r.length = E.totalsize c.header) (hne : c'.rows ≠ []) :
    ∃ bytes, store X E [c, c'] = .ok bytes ∧ read X E shapeOf bytes = .error .valueError := by
  rw [hd] at hfit
  obtain ⟨hf, hfit⟩ := hfit
  obtain ⟨bytes, h1, h2⟩ := C315_frequency_first X E shapeOf c [c'] s ds hd hst hfit hE hsize hrows
  refine ⟨bytes, h1, ?_⟩
  rw [h2]
  simp only [Fits] at hf
  have hp : 0 < c'.rows.length := List.length_pos_of_ne_nil hne
  exact if_neg (by simp [allRows]; omega)

/-- The time dimension of audio: picoseconds. -/
def rateDim (r : SampleRate) (n : Int) : Dim α := .time ⟨r.frequency, .ps⟩ ⟨r.duration, .ps⟩ (some n)

/-- **C316, audio**: audio that arrives in pieces, one channel or several, is read back with its sample rate and all its samples. -/
theorem C316_audio (X : NumExt α) (E : ExtCodec (List (Json α)) Meta) (shapeOf : Meta → List Nat) (c : Piece α Meta) (cs : List (Piece α Meta))
    (r : SampleRate) (hr : r ∈ supportedRates)
    (hd : (c.dims = [rateDim r c.rows.length] ∧ shapeOf c.header = []) ∨ (c.dims = [rateDim r c.rows.length, .identity] ∧ ∃ ch, shapeOf c.header = [ch]))
    (hE : ∀ js, encodeDims X c.dims = .ok js → LawfulAt E js c.header ∧ (E.dumps js).length < 2 ^ 32)
    (hsize : 0 < E.totalsize c.header) (hrows : ∀ k ∈ c :: cs, ∀ b ∈ k.rows, b.length = E.totalsize c.header) :
    ∃ bytes, store X E (c :: cs) = .ok bytes ∧ readAudio X E shapeOf bytes = .ok (r, c.header, allRows (c :: cs)) := by
  have hrate : Storable X (rateDim r c.rows.length : Dim α) ∧ findRate ((10 ^ 12 : Int) / (⟨r.frequency, .ps⟩ : Dur).toPs) = .ok r := by
    clear hd
    have hx : (0 ≤ r.frequency ∧ r.frequency < 2 ^ 63 ∧ 0 < r.duration ∧ r.duration < 2 ^ 63) ∧ findRate ((10 ^ 12 : Int) / (⟨r.frequency, .ps⟩ : Dur).toPs) = .ok r := by
      revert r; decide
    exact hx
  obtain ⟨hst, hfind⟩ := hrate
  rcases hd with ⟨hd, hs⟩ | ⟨hd, ch, hs⟩
  · obtain ⟨bytes, h1, h2⟩ := C315_read X E shapeOf c cs _ _ _ [] hd (by rw [hd]; simpa using hst) (by rw [hs]; trivial) hE hsize hrows
    refine ⟨bytes, h1, ?_⟩
    simp only [readAudio, h2, perSecond, hfind, hs]
    simp
  · obtain ⟨bytes, h1, h2⟩ := C315_read X E shapeOf c cs _ _ _ [.identity] hd (by
      rw [hd]
      intro d hd'
      simp only [List.mem_cons, List.not_mem_nil, or_false] at hd'
      rcases hd' with rfl | rfl
      · exact hst
      · trivial) (by rw [hs]; exact ⟨trivial, trivial⟩) hE hsize hrows
    refine ⟨bytes, h1, ?_⟩
    simp only [readAudio, h2, perSecond, hfind, hs]
    simp

/-- **C316, other arrays**: an array over time whose rate is not one of the library's six is stored as an audio feature, but cannot be read as one. -/
theorem C316_other_rate_refuted (X : NumExt α) (E : ExtCodec (List (Json α)) Meta) (shapeOf : Meta → List Nat) (c : Piece α Meta) (cs : List (Piece α Meta))
    (f u : Dur) (sz : Option Int) (ds : List (Dim α)) (hd : c.dims = .time f u sz :: ds) (hst : ∀ d ∈ c.dims, Storable X d)
    (hfit : AllFit ds (shapeOf c.header)) (hE : ∀ js, encodeDims X c.dims = .ok js → LawfulAt E js c.header ∧ (E.dumps js).length < 2 ^ 32)
    (hsize : 0 < E.totalsize c.header) (hrows : ∀ k ∈ c :: cs, ∀ r ∈ k.rows, r.length = E.totalsize c.header)
    (hrate : (10 ^ 12 : Int) / f.toPs ∉ [96000, 48000, 44100, 22050, 16000, 11025]) :
    ∃ bytes, store X E (c :: cs) = .ok bytes ∧ readAudio X E shapeOf bytes = .error .valueError := by
  obtain ⟨bytes, h1, h2⟩ := C315_read X E shapeOf c cs f u sz ds hd hst hfit hE hsize hrows
  refine ⟨bytes, h1, ?_⟩
  simp only [readAudio, h2, perSecond, (Zounds.Props.C07_lookup _).2 hrate]

/-- **C316, more than two axes**: a feature at a supported sample rate whose rows have two axes or more is refused when it is read as audio. -/
theorem C316_axes_refused (X : NumExt α) (E : ExtCodec (List (Json α)) Meta) (shapeOf : Meta → List Nat) (c : Piece α Meta) (cs : List (Piece α Meta))
    (f u : Dur) (sz : Option Int) (ds : List (Dim α)) (hd : c.dims = .time f u sz :: ds) (hst : ∀ d ∈ c.dims, Storable X d)
    (hfit : AllFit ds (shapeOf c.header)) (hE : ∀ js, encodeDims X c.dims = .ok js → LawfulAt E js c.header ∧ (E.dumps js).length < 2 ^ 32)
    (hsize : 0 < E.totalsize c.header) (hrows : ∀ k ∈ c :: cs, ∀ r ∈ k.rows, r.length = E.totalsize c.header)
    (haxes : 2 ≤ (shapeOf c.header).length) :
    ∃ bytes, store X E (c :: cs) = .ok bytes ∧ readAudio X E shapeOf bytes = .error .valueError := by
  obtain ⟨bytes, h1, h2⟩ := C315_read X E shapeOf c cs f u sz ds hd hst hfit hE hsize hrows
  refine ⟨bytes, h1, ?_⟩
  simp only [readAudio, h2, perSecond]
  by_cases hr : (10 ^ 12 : Int) / f.toPs ∈ [96000, 48000, 44100, 22050, 16000, 11025]
  · cases hf : findRate ((10 ^ 12 : Int) / f.toPs) with
    | error e =>
      have := (Zounds.Props.C07_lookup ((10 ^ 12 : Int) / f.toPs)).1 hr
      rw [hf] at this
      obtain ⟨r, hx⟩ := this
      simp_all
    | ok r =>
      simp only []
      exact if_neg (by omega)
  · rw [(Zounds.Props.C07_lookup _).2 hr]

/-- **C316, a feature with one axis** cannot be read as a frequency-adaptive one: it has no second dimension. -/
theorem C316_adaptive_one_axis (X : NumExt α) (E : ExtCodec (List (Json α)) Meta) (shapeOf : Meta → List Nat) (item : Meta → Nat) (c : Piece α Meta) (cs : List (Piece α Meta))
    (f u : Dur) (sz : Option Int) (hd : c.dims = [.time f u sz]) (hst : ∀ d ∈ c.dims, Storable X d)
    (hshape : shapeOf c.header = []) (hE : ∀ js, encodeDims X c.dims = .ok js → LawfulAt E js c.header ∧ (E.dumps js).length < 2 ^ 32)
    (hsize : 0 < E.totalsize c.header) (hrows : ∀ k ∈ c :: cs, ∀ r ∈ k.rows, r.length = E.totalsize c.header) :
    ∃ bytes, store X E (c :: cs) = .ok bytes ∧ readAdaptive X E shapeOf item bytes = .error .indexError := by
  obtain ⟨bytes, h1, h2⟩ := C315_read X E shapeOf c cs f u sz [] hd hst (by rw [hshape]; trivial) hE hsize hrows
  refine ⟨bytes, h1, ?_⟩
  simp only [readAdaptive, h2]

/-- **C316, frequency-adaptive features**: the frames of a frequency-adaptive representation arrive in pieces; `arrs` has for every band its width and its coefficients in all frames,
`item` bytes each.  What is read is the representation built from them, whatever the sizes of the pieces. -/
theorem C316_adaptive (X : NumExt α) (E : ExtCodec (List (Json α)) Meta) (shapeOf : Meta → List Nat) (item : Meta → Nat)
    (c : Piece α Meta) (cs : List (Piece α Meta)) (f u : Dur) (sz : Option Int) (s : Scale α) (bs : List (Band α)) (hs : ScaleOk X s bs)
    (T : Nat) (arrs : List (Nat × List (List Bytes))) (ha : Bands T arrs) (hlen : bs.length = arrs.length)
    (hd : c.dims = [.time f u sz, .explicit ⟨s, none⟩ (cumSlices 0 (arrs.map Prod.fst)) true]) (hst : ∀ d ∈ c.dims, Storable X d)
    (hshape : shapeOf c.header = [(arrs.map Prod.fst).sum]) (hitem : 0 < item c.header)
    (hitems : ∀ a ∈ arrs, ∀ r ∈ a.2, ∀ x ∈ r, x.length = item c.header)
    (hbytes : allRows (c :: cs) = (List.range T).map fun t => ((arrs.map fun a => a.2.getD t []).flatten).flatten)
    (hE : ∀ js, encodeDims X c.dims = .ok js → LawfulAt E js c.header ∧ (E.dumps js).length < 2 ^ 32)
    (hsize : 0 < E.totalsize c.header) (hrows : ∀ k ∈ c :: cs, ∀ r ∈ k.rows, r.length = E.totalsize c.header) :
    ∃ bytes fa, store X E (c :: cs) = .ok bytes ∧ FreqAdaptive.new X arrs s = .ok fa ∧ readAdaptive X E shapeOf item bytes = .ok fa := by
  have hne : cumSlices 0 (arrs.map Prod.fst) ≠ [] := by
    intro h
    have h1 := congrArg List.length h
    rw [cumSlices_length, List.length_map, List.length_nil] at h1
    exact ha.nonempty (List.length_eq_zero_iff.1 h1)
  obtain ⟨bytes, h1, h2⟩ := C315_read X E shapeOf c cs f u sz _ hd hst (by rw [hshape]; exact ⟨hne, trivial⟩) hE hsize hrows
  obtain ⟨fa, k1, k2⟩ := C24_roundtrip X T arrs ha s bs hs hlen
  refine ⟨bytes, fa, h1, k1, ?_⟩
  have hnum : numbers (item c.header) (allRows (c :: cs)) = .ok ((List.range T).map fun t => (arrs.map fun a => a.2.getD t []).flatten) := by
    unfold numbers
    rw [sequence_ok, hbytes, List.map_map, List.map_map]
    apply List.map_congr_left
    intro t ht
    simp only [Function.comp]
    apply splitRows_flatten _ hitem
    intro x hx
    obtain ⟨l, hl, hx⟩ := List.mem_flatten.1 hx
    obtain ⟨a, hal, rfl⟩ := List.mem_map.1 hl
    have hT : t < a.2.length := by rw [ha.height a hal]; exact List.mem_range.1 ht
    rw [List.getD_eq_getElem _ _ hT] at hx
    exact hitems a hal _ (List.getElem_mem hT) x hx
  have hfa := new_eq X T arrs ha s bs hs hlen
  rw [k1] at hfa
  simp only [readAdaptive, h2, hnum, hshape]
  rw [show [(arrs.map Prod.fst).sum].sum = (arrs.map Prod.fst).sum by simp, ← k2, Except.ok.inj hfa]

/-! ## Examples: a codec whose text stands for one list of dimensions -/

/-- A codec for the examples: `json` knows one list of dimensions, the header is one byte. -/
def toy (js : List (Json ℚ)) : ExtCodec (List (Json ℚ)) Unit :=
  { dumps := fun _ => [1, 2, 3], loads := fun _ => .ok js, pack := fun _ => [7], unpack := fun b => .ok ((), b.drop 1), totalsize := fun _ => 2 }

theorem toy_lawful (X : NumExt ℚ) (ds : List (Dim ℚ)) (js : List (Json ℚ)) (hjs : encodeDims X ds = .ok js) :
    ∀ js', encodeDims X ds = .ok js' → LawfulAt (toy js) js' () ∧ ((toy js).dumps js').length < 2 ^ 32 := by
  intro js' h
  rw [hjs] at h
  cases h
  refine ⟨⟨rfl, fun rest => rfl⟩, by simp [toy]⟩

/-- Three samples of two bytes at 44.1 kHz arrive in two pieces. -/
example : ∃ E bytes, store Zounds.Props.Frequency.noExt E [⟨[rateDim ⟨22675736, 22675736⟩ 2], (), [[1, 2], [3, 4]]⟩, ⟨[], (), [[5, 6]]⟩] = .ok bytes ∧
    readAudio Zounds.Props.Frequency.noExt E (fun _ => []) bytes = .ok (⟨22675736, 22675736⟩, (), [[1, 2], [3, 4], [5, 6]]) := by
  obtain ⟨js, hjs⟩ : ∃ js, encodeDims Zounds.Props.Frequency.noExt ([rateDim ⟨22675736, 22675736⟩ 2] : List (Dim ℚ)) = .ok js := ⟨_, rfl⟩
  obtain ⟨bytes, h1, h2⟩ := C316_audio Zounds.Props.Frequency.noExt (toy js) (fun _ => []) ⟨[rateDim ⟨22675736, 22675736⟩ 2], (), [[1, 2], [3, 4]]⟩ [⟨[], (), [[5, 6]]⟩]
    ⟨22675736, 22675736⟩ (by decide) (Or.inl ⟨rfl, rfl⟩) (toy_lawful _ _ js hjs) (by simp [toy]) (by simp [toy])
  exact ⟨toy js, bytes, h1, h2⟩

/-- Windows of half a second are no audio. -/
example : ∃ E bytes, store Zounds.Props.Frequency.noExt E [⟨[.time ⟨500, .ms⟩ ⟨1, .s⟩ (some 1)], (), [[1, 2]]⟩] = .ok bytes ∧
    readAudio Zounds.Props.Frequency.noExt E (fun _ => []) bytes = .error .valueError := by
  obtain ⟨js, hjs⟩ : ∃ js, encodeDims Zounds.Props.Frequency.noExt ([.time ⟨500, .ms⟩ ⟨1, .s⟩ (some 1)] : List (Dim ℚ)) = .ok js := ⟨_, rfl⟩
  obtain ⟨bytes, h1, h2⟩ := C316_other_rate_refuted Zounds.Props.Frequency.noExt (toy js) (fun _ => []) ⟨[.time ⟨500, .ms⟩ ⟨1, .s⟩ (some 1)], (), [[1, 2]]⟩ []
    ⟨500, .ms⟩ ⟨1, .s⟩ (some 1) [] rfl (by intro d hd; simp only [List.mem_singleton] at hd; rw [hd]; exact ⟨by decide, by decide, by decide, by decide⟩)
    trivial (toy_lawful _ _ js hjs) (by simp [toy]) (by simp [toy]) (by decide)
  exact ⟨toy js, bytes, h1, h2⟩

/-- Two bands of one byte each, two frames that arrive one by one. -/
example : ∃ E bytes fa, store Zounds.Props.Frequency.noExt E
      [⟨[.time ⟨500, .ms⟩ ⟨1, .s⟩ (some 1), .explicit ⟨.explicit [⟨0, 50⟩, ⟨50, 100⟩], none⟩ (cumSlices 0 [1, 1]) true], (), [[1, 2]]⟩, ⟨[], (), [[3, 4]]⟩] = .ok bytes ∧
    FreqAdaptive.new Zounds.Props.Frequency.noExt [(1, [[[1]], [[3]]]), (1, [[[2]], [[4]]])] (.explicit [⟨0, 50⟩, ⟨50, 100⟩]) = .ok fa ∧
    readAdaptive Zounds.Props.Frequency.noExt E (fun _ => [2]) (fun _ => 1) bytes = .ok fa ∧ fa.rows = [[[1], [2]], [[3], [4]]] := by
  obtain ⟨js, hjs⟩ : ∃ js, encodeDims Zounds.Props.Frequency.noExt ([.time ⟨500, .ms⟩ ⟨1, .s⟩ (some 1),
    .explicit ⟨.explicit [⟨0, 50⟩, ⟨50, 100⟩], none⟩ (cumSlices 0 [1, 1]) true] : List (Dim ℚ)) = .ok js := ⟨_, rfl⟩
  obtain ⟨bytes, fa, h1, h2, h3⟩ := C316_adaptive Zounds.Props.Frequency.noExt (toy js) (fun _ => [2]) (fun _ => 1)
    ⟨[.time ⟨500, .ms⟩ ⟨1, .s⟩ (some 1), .explicit ⟨.explicit [⟨0, 50⟩, ⟨50, 100⟩], none⟩ (cumSlices 0 [1, 1]) true], (), [[1, 2]]⟩ [⟨[], (), [[3, 4]]⟩]
    ⟨500, .ms⟩ ⟨1, .s⟩ (some 1) (.explicit [⟨0, 50⟩, ⟨50, 100⟩]) [⟨0, 50⟩, ⟨50, 100⟩] ⟨rfl, rfl, by decide +kernel⟩ 2
    [(1, [[[1]], [[3]]]), (1, [[[2]], [[4]]])] ⟨by decide, by decide, by decide⟩ rfl rfl (by
      intro d hd
      simp only [List.mem_cons, List.not_mem_nil, or_false] at hd
      rcases hd with rfl | rfl
      · exact ⟨by decide, by decide, by decide, by decide⟩
      · refine ⟨rfl, ?_, rfl, by decide +kernel⟩
        simp only [Built]
        refine ⟨by decide +kernel, ?_⟩
        intro b hb
        simp only [List.mem_cons, List.not_mem_nil, or_false] at hb
        rcases hb with rfl | rfl <;> simp [Zounds.Props.Frequency.WF] <;> norm_num)
    rfl (by decide) (by decide) (by decide) (toy_lawful _ _ js hjs) (by simp [toy]) (by simp [toy])
  refine ⟨toy js, bytes, fa, h1, h2, h3, ?_⟩
  have : FreqAdaptive.new Zounds.Props.Frequency.noExt [(1, [[[1]], [[3]]]), (1, [[[2]], [[4]]])] (.explicit [⟨0, 50⟩, ⟨50, 100⟩] : Scale ℚ) =
    (.ok ⟨2, [[[1], [2]], [[3], [4]]], ⟨.explicit [⟨0, 50⟩, ⟨50, 100⟩], cumSlices 0 [1, 1], true⟩⟩ : Except PyErr (FreqAdaptive ℚ Bytes)) := rfl
  rw [this] at h2
  rw [← Except.ok.inj h2]

/-- A linear scale of two bands as the first axis, stored in two pieces. -/
example : ∃ E bytes, store Zounds.Props.Frequency.noExt E [⟨[.freq ⟨.linear ⟨0, 100⟩ 2 false, none⟩], (), [[1, 2], [3, 4]]⟩, ⟨[], (), [[5, 6]]⟩] = .ok bytes ∧
    read Zounds.Props.Frequency.noExt E (fun _ => []) bytes = .error .valueError := by
  obtain ⟨js, hjs⟩ : ∃ js, encodeDims Zounds.Props.Frequency.noExt ([.freq ⟨.linear ⟨0, 100⟩ 2 false, none⟩] : List (Dim ℚ)) = .ok js := ⟨_, rfl⟩
  obtain ⟨bytes, h1, h2⟩ := C315_frequency_first_refuted Zounds.Props.Frequency.noExt (toy js) (fun _ => []) ⟨[.freq ⟨.linear ⟨0, 100⟩ 2 false, none⟩], (), [[1, 2], [3, 4]]⟩
    ⟨[], (), [[5, 6]]⟩ ⟨.linear ⟨0, 100⟩ 2 false, none⟩ [] rfl (by
      intro d hd
      simp only [List.mem_singleton] at hd
      rw [hd]
      refine ⟨rfl, ?_⟩
      simp [Built, Zounds.Props.Frequency.WF])
    ⟨rfl, trivial⟩ (toy_lawful _ _ js hjs) (by simp [toy]) (by simp [toy]) (by simp)
  exact ⟨toy js, bytes, h1, h2⟩

/-- The same three samples, read as a frequency-adaptive representation. -/
example : ∃ E bytes, store Zounds.Props.Frequency.noExt E [⟨[rateDim ⟨22675736, 22675736⟩ 2], (), [[1, 2], [3, 4]]⟩, ⟨[], (), [[5, 6]]⟩] = .ok bytes ∧
    readAdaptive Zounds.Props.Frequency.noExt E (fun _ => []) (fun _ => 1) bytes = .error .indexError := by
  obtain ⟨js, hjs⟩ : ∃ js, encodeDims Zounds.Props.Frequency.noExt ([rateDim ⟨22675736, 22675736⟩ 2] : List (Dim ℚ)) = .ok js := ⟨_, rfl⟩
  obtain ⟨bytes, h1, h2⟩ := C316_adaptive_one_axis Zounds.Props.Frequency.noExt (toy js) (fun _ => []) (fun _ => 1) ⟨[rateDim ⟨22675736, 22675736⟩ 2], (), [[1, 2], [3, 4]]⟩ [⟨[], (), [[5, 6]]⟩]
    _ _ _ rfl (by
      intro d hd
      simp only [List.mem_singleton] at hd
      rw [hd]
      exact ⟨by decide, by decide, by decide, by decide⟩) rfl (toy_lawful _ _ js hjs) (by simp [toy]) (by simp [toy])
  exact ⟨toy js, bytes, h1, h2⟩

/-- Two frames of one row with two axes of one number each, at 44.1 kHz. -/
example : ∃ E bytes, store Zounds.Props.Frequency.noExt E [⟨[rateDim ⟨22675736, 22675736⟩ 2, .identity, .identity], (), [[1, 2], [3, 4]]⟩] = .ok bytes ∧
    readAudio Zounds.Props.Frequency.noExt E (fun _ => [1, 1]) bytes = .error .valueError := by
  obtain ⟨js, hjs⟩ : ∃ js, encodeDims Zounds.Props.Frequency.noExt ([rateDim ⟨22675736, 22675736⟩ 2, .identity, .identity] : List (Dim ℚ)) = .ok js := ⟨_, rfl⟩
  obtain ⟨bytes, h1, h2⟩ := C316_axes_refused Zounds.Props.Frequency.noExt (toy js) (fun _ => [1, 1]) ⟨[rateDim ⟨22675736, 22675736⟩ 2, .identity, .identity], (), [[1, 2], [3, 4]]⟩ []
    _ _ _ _ rfl (by
      intro d hd
      simp only [List.mem_cons, List.not_mem_nil, or_false, or_self] at hd
      rcases hd with rfl | rfl
      · exact ⟨by decide, by decide, by decide, by decide⟩
      · exact trivial) ⟨trivial, trivial, trivial⟩ (toy_lawful _ _ js hjs) (by simp [toy]) (by simp [toy]) (by decide)
  exact ⟨toy js, bytes, h1, h2⟩

/-- Two frames, then one more. -/
example : ∃ E bytes, store Zounds.Props.Frequency.noExt E [⟨[rateDim ⟨22675736, 22675736⟩ 2], (), [[1, 2], [3, 4]]⟩, ⟨[], (), [[5, 6]]⟩] = .ok bytes := by
  obtain ⟨js, hjs⟩ : ∃ js, encodeDims Zounds.Props.Frequency.noExt ([rateDim ⟨22675736, 22675736⟩ 2] : List (Dim ℚ)) = .ok js := ⟨_, rfl⟩
  obtain ⟨bytes, h1, h2⟩ := C315_read Zounds.Props.Frequency.noExt (toy js) (fun _ => []) ⟨[rateDim ⟨22675736, 22675736⟩ 2], (), [[1, 2], [3, 4]]⟩ [⟨[], (), [[5, 6]]⟩]
    _ _ _ [] rfl (by
      intro d hd
      simp only [List.mem_singleton] at hd
      rw [hd]
      exact ⟨by decide, by decide, by decide, by decide⟩) trivial (toy_lawful _ _ js hjs) (by simp [toy]) (by simp [toy])
  exact ⟨toy js, bytes, h1⟩

end Zounds.Stored
