import Verif.Model.DimCodec
import Verif.Props.Persist
import Verif.Props.Frequency
/-!
# Property C19: dimension metadata round trips
-/

set_option linter.unusedSectionVars false

namespace Zounds.Props.DimCodec
open Zounds Zounds.Time Zounds.Persist Zounds.Freq Zounds.DimCodec Zounds.Props.Frequency

variable {α : Type} [Field α] [LinearOrder α]

/-! ## Specification: what can be stored -/

/-- The scale could have been built by its constructor. -/
def Built (X : NumExt α) : Scale α → Prop
  | .linear b _ _ => WF b
  | .geometric a b r n ev => newGeometric X a b r n ev = .ok (.geometric a b r n ev)
  | .explicit bs => newExplicit bs = .ok (.explicit bs) ∧ ∀ b ∈ bs, WF b
  | .bark b _ => WF b
  | .mel b _ => WF b
  | .chroma b => WF b

/-- The dimensions of the library that can be stored: scales of the library's own classes,
non-negative 64-bit times, slices given as a list. -/
def Storable (X : NumExt α) : Dim α → Prop
  | .identity => True
  | .time f d _ => 0 ≤ f.count ∧ f.count < 2 ^ 63 ∧ 0 < d.count ∧ d.count < 2 ^ 63
  | .freq s => s.sub = none ∧ Built X s.scale
  | .explicit s sls isList => s.sub = none ∧ Built X s.scale ∧ isList = true ∧
      ExplicitDim.new X s.scale sls true = .ok ⟨s.scale, sls, true⟩
  | .custom _ => False

/-! ## Proofs -/

theorem encodeScale_eq (X : NumExt α) (s : ScaleObj α) : encodeScale X s =
    match s.scale with
    | .linear b n ev => .ok [("start_hz", .num b.start), ("stop_hz", .num b.stop), ("n_bands", .int n),
        ("name", .str s.clsName), ("always_even", .bool ev)]
    | .geometric a b r n ev => .ok [("start_center_hz", .num a), ("stop_center_hz", .num b),
        ("bandwidth_ratio", .num r), ("n_bands", .int n), ("name", .str "GeometricScale"), ("always_even", .bool ev)]
    | .explicit bs => .ok [("bands", .arr (bs.map fun b => .arr [.num b.start, .num b.stop])),
        ("name", .str "ExplicitScale")]
    | .bark .. => encodeGeneric X s
    | .mel .. => encodeGeneric X s
    | .chroma .. => encodeGeneric X s := by
  obtain ⟨sc, sub⟩ := s
  cases sc <;> rfl

theorem sequence_pairs (bs : List (Band α)) (h : ∀ b ∈ bs, WF b) :
    sequence ((bs.map fun b => Json.arr [.num b.start, .num b.stop]).map decodePair) = .ok bs := by
  rw [sequence_ok, List.map_map]
  apply List.map_congr_left
  intro b hb
  simp only [Function.comp, decodePair, Json.asNum]
  exact (C22_new _ _).1 (h b hb)

/-- Decoding reads only the keys of the scale, so more entries may follow. -/
theorem decode_encode_scale (X : NumExt α) (s : Scale α) (hb : Built X s) (extra : List (String × Json α)) :
    ∃ l, encodeScale X ⟨s, none⟩ = .ok l ∧ decodeScale X (.obj (l ++ extra)) = .ok ⟨s, none⟩ := by
  rw [encodeScale_eq]
  cases s with
  | linear b n ev =>
    refine ⟨_, rfl, ?_⟩
    have h : Band.new b.start b.stop = .ok b := (C22_new _ _).1 hb
    simp [decodeScale, Json.get, ScaleObj.clsName, baseName, strategies, Strategy.canDecode, Strategy.name,
      Strategy.decode, decodeBand, Json.asNum, Json.asNat, Json.asBool, bind, Except.bind, pure, Except.pure, h]
  | geometric a b r n ev =>
    refine ⟨_, rfl, ?_⟩
    simp only [Built] at hb
    simp [decodeScale, Json.get, strategies, Strategy.canDecode, Strategy.name,
      Strategy.decode, Json.asNum, Json.asNat, Json.asBool, bind, Except.bind, hb]
  | explicit bs =>
    refine ⟨_, rfl, ?_⟩
    obtain ⟨h1, h2⟩ := hb
    have h3 := sequence_pairs bs h2
    rw [List.map_map] at h3
    simp [decodeScale, Json.get, strategies, Strategy.canDecode, Strategy.name,
      Strategy.decode, Json.asArr, bind, Except.bind, h3, h1]
  | bark b n =>
    refine ⟨_, rfl, ?_⟩
    have h : Band.new b.start b.stop = .ok b := (C22_new _ _).1 hb
    simp [decodeScale, Json.get, ScaleObj.clsName, baseName, strategies, Strategy.canDecode, Strategy.name,
      Strategy.decode, decodeBand, Json.asNum, Json.asNat, bind, Except.bind, pure, Except.pure, h, Scale.len]
  | mel b n =>
    refine ⟨_, rfl, ?_⟩
    have h : Band.new b.start b.stop = .ok b := (C22_new _ _).1 hb
    simp [decodeScale, Json.get, ScaleObj.clsName, baseName, strategies, Strategy.canDecode, Strategy.name,
      Strategy.decode, decodeBand, Json.asNum, Json.asNat, bind, Except.bind, pure, Except.pure, h, Scale.len]
  | chroma b =>
    refine ⟨_, rfl, ?_⟩
    have h : Band.new b.start b.stop = .ok b := (C22_new _ _).1 hb
    simp [decodeScale, Json.get, ScaleObj.clsName, baseName, strategies, Strategy.canDecode, Strategy.name,
      Strategy.decode, decodeBand, Json.asNum, bind, Except.bind, pure, Except.pure, h]

theorem unitOf_unitName (u : TUnit) : unitOf (unitName u) = some u := by
  cases u <;> decide

theorem tdOfJson_tdJson (d : Dur) (h0 : 0 ≤ d.count) (h1 : d.count < 2 ^ 63) :
    tdOfJson (tdJson d unitName : Json α) = .ok d := by
  have := Zounds.Props.Persist.C17_timedelta_roundtrip d ⟨by omega, h1⟩ h0
  simp only [tdOfJson, tdJson]
  rw [show (encodeTimedelta d).2 = d.unit from rfl, unitOf_unitName]
  simp only [String.toList_ofList]
  exact this

theorem sequence_slices (sls : List (Int × Int)) :
    sequence ((sls.map fun p => (Json.arr [.int p.1, .int p.2] : Json α)).map slicePair) = .ok sls := by
  rw [sequence_ok, List.map_map]
  apply List.map_congr_left
  intro p _
  rfl

theorem get_slices (X : NumExt α) (s : ScaleObj α) (l : List (String × Json α)) (v : Json α)
    (h : encodeScale X s = .ok l) : (Json.obj (l ++ [("slices", v)])).get "slices" = .ok v := by
  rw [encodeScale_eq] at h
  obtain ⟨sc, sub⟩ := s
  cases sc with
  | linear b n ev => cases h; rfl
  | geometric a b r n ev => cases h; rfl
  | explicit bs => cases h; rfl
  | bark b n => cases h; rfl
  | mel b n => cases h; rfl
  | chroma b => cases h; rfl

/-- **C19 (partial: see `Storable`).** Every storable dimension decodes to the very same
dimension: same kind, same scale with all its attributes, same slices, same times in the
same units. -/
theorem C19_roundtrip (X : NumExt α) (d : Dim α) (h : Storable X d) :
    ∃ j, encodeDim X d = .ok j ∧ decodeDim X j = .ok d := by
  cases d with
  | identity => exact ⟨_, rfl, rfl⟩
  | time f du size =>
    obtain ⟨h1, h2, h3, h4⟩ := h
    refine ⟨_, rfl, ?_⟩
    have hf := tdOfJson_tdJson (α := α) f h1 h2
    have hd := tdOfJson_tdJson (α := α) du (by omega) h4
    have hz : ¬ du.count = 0 := by omega
    cases size <;>
    simp [decodeDim, Json.get, kinds, DimKind.name, DimKind.decode, decodeTime, bind, Except.bind, pure,
      Except.pure, hf, hd, hz]
  | freq s =>
    obtain ⟨sc, sub⟩ := s
    obtain ⟨h1, h2⟩ := h
    dsimp only at h1 h2
    subst h1
    obtain ⟨l, hl, hd⟩ := decode_encode_scale X sc h2 []
    rw [List.append_nil] at hd
    refine ⟨.obj [("type", .str "FrequencyDimension"), ("data", .obj l)], ?_, ?_⟩
    · simp [encodeDim, kinds, DimKind.encodes, DimKind.dict, hl, DimKind.name]
    · simp [decodeDim, Json.get, kinds, DimKind.name, DimKind.decode, hd]
  | explicit s sls k =>
    obtain ⟨sc, sub⟩ := s
    obtain ⟨h1, h2, h3, h4⟩ := h
    dsimp only at h1 h2 h4
    subst h1
    subst h3
    obtain ⟨l, hl, hd⟩ := decode_encode_scale X sc h2
      [("slices", .arr (sls.map fun p => .arr [.int p.1, .int p.2]))]
    refine ⟨.obj [("type", .str "ExplicitFrequencyDimension"),
      ("data", .obj (l ++ [("slices", .arr (sls.map fun p => .arr [.int p.1, .int p.2]))]))], ?_, ?_⟩
    · simp [encodeDim, kinds, DimKind.encodes, DimKind.dict, hl, DimKind.name]
    · have hs := get_slices X ⟨sc, none⟩ l (.arr (sls.map fun p => .arr [.int p.1, .int p.2])) hl
      have hq := sequence_slices (α := α) sls
      have e : decodeDim X (.obj [("type", .str "ExplicitFrequencyDimension"),
          ("data", .obj (l ++ [("slices", .arr (sls.map fun p => .arr [.int p.1, .int p.2]))]))]) =
          decodeExplicit X (.obj (l ++ [("slices", .arr (sls.map fun p => .arr [.int p.1, .int p.2]))])) := by
        simp [decodeDim, Json.get, kinds, DimKind.name, DimKind.decode]
      rw [e]
      unfold decodeExplicit
      simp only [bind, Except.bind, hd, hs, Json.asArr, hq, h4]
      rfl
  | custom n => exact absurd h id

/-- **C19.** The same for the whole list of dimensions of an array: as many dimensions come
back, each equal to the one stored, in the same order. -/
theorem C19_list_roundtrip (X : NumExt α) (ds : List (Dim α)) (h : ∀ d ∈ ds, Storable X d) :
    ∃ js, encodeDims X ds = .ok js ∧ decodeDims X js = .ok ds := by
  induction ds with
  | nil => exact ⟨[], rfl, rfl⟩
  | cons d ds ih =>
    obtain ⟨j, hj, hj'⟩ := C19_roundtrip X d (h d (by simp))
    obtain ⟨js, hjs, hjs'⟩ := ih (fun x hx => h x (by simp [hx]))
    refine ⟨j :: js, ?_, ?_⟩
    · unfold encodeDims at hjs ⊢
      simp [sequence, hj, hjs]
    · unfold decodeDims at hjs' ⊢
      simp [sequence, hj', hjs']

/-- **C19.** What comes back is equal under the library's own `==`, whenever comparing the
dimension with itself does not raise. -/
theorem C19_eq_self (X : NumExt α) (d : Dim α) (r : Bool) (hs : Storable X d) (h : d.eq X d = .ok r) :
    r = true := by
  have hscale : ∀ (s : ScaleObj α) (r : Bool), s.eq X s = .ok r → r = true := by
    intro s r h
    obtain ⟨sc, sub⟩ := s
    have hb : ∀ b : Band α, b.eq b = true := by intro b; simp [Band.eq]
    have hz : ∀ bs : List (Band α), zipAllEq bs bs = true := by
      intro bs; exact (zipAllEq_iff bs bs rfl).2 rfl
    cases sc with
    | linear b n ev => simp [ScaleObj.eq, Scale.eq, hb] at h; exact h
    | geometric a b q n ev =>
      simp only [ScaleObj.eq, if_true, Scale.eq] at h
      cases hband : (Scale.geometric a b q n ev).band X with
      | error e => rw [hband] at h; cases h
      | ok c => rw [hband] at h; simp [hb] at h; exact h
    | explicit bs => simp [ScaleObj.eq, Scale.eq, Scale.bands, hz] at h; exact h
    | bark b n => simp [ScaleObj.eq, Scale.eq, hb] at h; exact h
    | mel b n => simp [ScaleObj.eq, Scale.eq, hb] at h; exact h
    | chroma b => simp [ScaleObj.eq, Scale.eq, hb] at h; exact h
  cases d with
  | identity => cases h; rfl
  | time f du size =>
    simp [Dim.eq, Dur.eq] at h; exact h
  | freq s => exact hscale s r h
  | explicit s sls k =>
    simp only [Dim.eq] at h
    cases hq : s.eq X s with
    | error e => rw [hq] at h; cases h
    | ok b =>
      have := hscale s b hq
      subst this
      rw [hq] at h
      simp at h
      exact h
  | custom n => exact absurd hs id

/-- **C19.** A dimension of a class the library does not know is refused when encoding; it is
never dropped silently. -/
theorem C19_unknown_refused (X : NumExt α) (ds : List (Dim α)) (n : String) (h : Dim.custom n ∈ ds) :
    ∃ e, encodeDims X ds = .error e := by
  cases he : encodeDims X ds with
  | error e => exact ⟨e, rfl⟩
  | ok js =>
    unfold encodeDims at he
    rw [sequence_ok] at he
    have : encodeDim X (.custom n : Dim α) ∈ js.map Except.ok := by
      rw [← he]; exact List.mem_map_of_mem h
    obtain ⟨j, _, hj⟩ := List.mem_map.1 this
    cases hj

/-- **C19, refuted (1).** An instance of a user's subclass of `LinearScale` is encoded without
complaint and cannot be decoded. -/
theorem C19_scale_subclass_fails (X : NumExt α) (b : Band α) (n : Nat) (ev : Bool) (sub : String)
    (hsub : sub ∉ ["LinearScale", "GeometricScale", "ExplicitScale", "BarkScale", "MelScale", "ChromaScale"]) :
    ∃ j, encodeDim X (.freq ⟨.linear b n ev, some sub⟩) = .ok j ∧ decodeDim X j = .error .notImplemented := by
  refine ⟨_, rfl, ?_⟩
  simp only [List.mem_cons, List.not_mem_nil, or_false, not_or] at hsub
  obtain ⟨h1, h2, h3, h4, h5, h6⟩ := hsub
  have e1 : (sub == "LinearScale") = false := by simpa using h1
  have e2 : (sub == "GeometricScale") = false := by simpa using h2
  have e3 : (sub == "ExplicitScale") = false := by simpa using h3
  have e4 : (sub == "BarkScale") = false := by simpa using h4
  have e5 : (sub == "MelScale") = false := by simpa using h5
  have e6 : (sub == "ChromaScale") = false := by simpa using h6
  simp [decodeDim, Json.get, kinds, DimKind.name, DimKind.decode, decodeScale, ScaleObj.clsName,
    strategies, Strategy.canDecode, Strategy.name, e1, e2, e3, e4, e5, e6]

/-- **C19, refuted (2).** A subclass of `GeometricScale` comes back as a plain
`GeometricScale`, which compares unequal. -/
theorem C19_geometric_subclass_fails (X : NumExt α) (a b r : α) (n : Nat) (ev : Bool) (sub : String)
    (hsub : sub ≠ "GeometricScale") (hb : Built X (.geometric a b r n ev)) :
    ∃ j d, encodeDim X (.freq ⟨.geometric a b r n ev, some sub⟩) = .ok j ∧ decodeDim X j = .ok d ∧
      (Dim.freq ⟨.geometric a b r n ev, some sub⟩).eq X d = .ok false := by
  obtain ⟨j, h1, h2⟩ := C19_roundtrip X (.freq ⟨.geometric a b r n ev, none⟩) ⟨rfl, hb⟩
  refine ⟨j, _, ?_, h2, ?_⟩
  · rw [← h1]; rfl
  · simp [Dim.eq, ScaleObj.eq, ScaleObj.clsName, baseName, hsub]

/-- **C19, refuted (3).** An explicit dimension whose slices were given as a tuple comes back
with a list, and compares unequal to the original. -/
theorem C19_tuple_slices_fails (X : NumExt α) (s : Scale α) (sls : List (Int × Int)) (hb : Built X s)
    (hd : ExplicitDim.new X s sls true = .ok ⟨s, sls, true⟩) :
    ∃ j d, encodeDim X (.explicit ⟨s, none⟩ sls false) = .ok j ∧ decodeDim X j = .ok d ∧
      (Dim.explicit ⟨s, none⟩ sls false).eq X d ≠ .ok true := by
  obtain ⟨j, h1, h2⟩ := C19_roundtrip X (.explicit ⟨s, none⟩ sls true) ⟨rfl, hb, rfl, hd⟩
  refine ⟨j, _, ?_, h2, ?_⟩
  · rw [← h1]; rfl
  · simp only [Dim.eq]
    cases (ScaleObj.mk s none).eq X ⟨s, none⟩ with
    | error e => simp
    | ok b => cases b <;> simp

example : Storable noExt (.time ⟨22675737, .ps⟩ ⟨2, .s⟩ (some 4)) := by
  refine ⟨?_, ?_, ?_, ?_⟩ <;> decide
example : Storable noExt (.explicit ⟨.linear ⟨0, 100⟩ 2 true, none⟩ [(0, 3), (3, 5)] true) :=
  ⟨rfl, by simp [Built, WF], rfl, by decide +kernel⟩

theorem demo_time : Storable noExt (.time ⟨22675737, .ps⟩ ⟨2, .s⟩ (some 4)) := by
  refine ⟨?_, ?_, ?_, ?_⟩ <;> decide
theorem demo_explicit : Storable noExt (.explicit ⟨.linear ⟨0, 100⟩ 2 true, none⟩ [(0, 3), (3, 5)] true) :=
  ⟨rfl, by simp [Built, WF], rfl, by decide +kernel⟩
example := C19_roundtrip noExt _ demo_explicit
example := C19_list_roundtrip noExt [.time ⟨22675737, .ps⟩ ⟨2, .s⟩ (some 4), .explicit ⟨.linear ⟨0, 100⟩ 2 true, none⟩ [(0, 3), (3, 5)] true] (by
  intro d hd
  simp only [List.mem_cons, List.not_mem_nil, or_false] at hd
  rcases hd with rfl | rfl
  exacts [demo_time, demo_explicit])
example := C19_eq_self noExt _ true demo_time (by decide +kernel)
example := C19_unknown_refused noExt [.identity, .custom "MyDimension"] "MyDimension" (by simp)
example := C19_scale_subclass_fails noExt (⟨0, 100⟩ : Band ℚ) 5 true "MyScale" (by decide)
example := C19_tuple_slices_fails noExt (.linear ⟨0, 100⟩ 2 true) [(0, 3), (3, 5)] (by simp [Built, WF]) (by decide +kernel)

example := C19_geometric_subclass_fails (⟨fun _ _ _ => [10, 20], fun _ _ => [], fun _ _ => []⟩ : NumExt ℚ) 10 20 (1 / 2) 2 false "MyScale" (by decide) (by unfold Built; decide +kernel)

end Zounds.Props.DimCodec
