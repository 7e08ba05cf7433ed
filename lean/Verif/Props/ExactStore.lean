import Verif.Props.DimCodec

/-!
# Exactly when (C74, C76): what survives being stored
-/

set_option linter.unusedSectionVars false

namespace Zounds.Props.Persist
open Zounds Zounds.Time Zounds.Persist

/-- **C74** (exactly when): a time value comes back as it was if and only if it is not negative (`NaT` is the most negative count). -/
theorem C74_exact (d : Dur) (h : Int64Count d) : decodeTimedelta (encodeTimedelta d) = .ok d ↔ 0 ≤ d.count := by
  constructor
  · intro e
    by_contra h0
    rw [C17_negative_fails d h (by omega)] at e
    cases e
  · exact C17_timedelta_roundtrip d h

/-- **C74** (exactly when): a time slice can be stored and read back if and only if it has a duration and neither start nor duration is negative; then
it comes back with the same start and the same duration. -/
theorem C74_slice_exact (ts : TimeSlice) (h : Int64Count ts.start) (hd : ∀ d, ts.duration = some d → Int64Count d) :
    ((∃ p ts', encodeTimeSlice ts = .ok p ∧ decodeTimeSlice p = .ok ts') ↔ 0 ≤ ts.start.count ∧ ∃ d, ts.duration = some d ∧ 0 ≤ d.count) ∧
    ∀ p ts', encodeTimeSlice ts = .ok p → decodeTimeSlice p = .ok ts' → ts'.start.toPs = ts.start.toPs ∧ ts'.duration = ts.duration := by
  obtain ⟨s, du⟩ := ts
  cases du with
  | none => simp [encodeTimeSlice]
  | some d =>
    have hd' := hd d rfl
    simp only at h
    constructor
    · constructor
      · rintro ⟨p, ts', e1, e2⟩
        cases e1
        unfold decodeTimeSlice at e2
        simp only at e2
        by_cases h0 : 0 ≤ s.count
        · rw [C17_timedelta_roundtrip s h h0] at e2
          by_cases h1 : 0 ≤ d.count
          · exact ⟨h0, d, rfl, h1⟩
          · rw [C17_negative_fails d hd' (by omega)] at e2; cases e2
        · rw [C17_negative_fails s h (by omega)] at e2; cases e2
      · rintro ⟨h0, _, e, h1⟩
        cases e
        obtain ⟨p, ts', e1, e2, _⟩ := C17_timeslice_roundtrip ⟨s, some d⟩ d rfl h h0 hd' h1
        exact ⟨p, ts', e1, e2⟩
    · intro p ts' e1 e2
      have : 0 ≤ s.count ∧ 0 ≤ d.count := by
        cases e1
        unfold decodeTimeSlice at e2
        simp only at e2
        by_cases h0 : 0 ≤ s.count
        · rw [C17_timedelta_roundtrip s h h0] at e2
          by_cases h1 : 0 ≤ d.count
          · exact ⟨h0, h1⟩
          · rw [C17_negative_fails d hd' (by omega)] at e2; cases e2
        · rw [C17_negative_fails s h (by omega)] at e2; cases e2
      obtain ⟨p', ts'', g1, g2, g3, g4⟩ := C17_timeslice_roundtrip ⟨s, some d⟩ d rfl h this.1 hd' this.2
      rw [g1] at e1; cases e1
      rw [g2] at e2; cases e2
      exact ⟨g3, g4⟩

example : decodeTimedelta (encodeTimedelta ⟨44100, .ms⟩) = .ok ⟨44100, .ms⟩ ∧ decodeTimedelta (encodeTimedelta ⟨-1, .ms⟩) ≠ .ok ⟨-1, .ms⟩ := by
  constructor
  · exact (C74_exact _ ⟨by decide, by decide⟩).2 (by decide)
  · exact fun h => absurd ((C74_exact _ ⟨by decide, by decide⟩).1 h) (by decide)

end Zounds.Props.Persist

namespace Zounds.Props.DimCodec
open Zounds Zounds.Time Zounds.Persist Zounds.Freq Zounds.DimCodec Zounds.Props.Frequency

variable {α : Type} [Field α] [LinearOrder α]

/-- The dimensions that can be built: times of 64 bits with a duration other than zero (a duration of zero is replaced by the frequency), scales
accepted by their constructors, of the library's classes or of subclasses, slices as many as bands, in a list or a tuple, and dimensions of other
classes. -/
def Exists (X : NumExt α) : Dim α → Prop
  | .identity => True
  | .time f d _ => Persist.Int64Count f ∧ Persist.Int64Count d ∧ d.count ≠ 0
  | .freq s => Built X s.scale
  | .explicit s sls _ => Built X s.scale ∧ ∃ b, ExplicitDim.new X s.scale sls b = .ok ⟨s.scale, sls, b⟩
  | .custom _ => True

/-- What is lost: negative times, the class of a scale that is not one of the library's, tuples, dimensions of other classes. -/
def Kept : Dim α → Prop
  | .identity => True
  | .time f d _ => 0 ≤ f.count ∧ 0 ≤ d.count
  | .freq s => s.sub = none
  | .explicit s _ isList => s.sub = none ∧ isList = true
  | .custom _ => False

theorem decodeScale_sub (X : NumExt α) (j : Json α) (s : ScaleObj α) (h : decodeScale X j = .ok s) : s.sub = none := by
  unfold decodeScale at h
  split at h
  · cases h
  · split at h
    · cases h
    · split at h
      · cases h
      · cases h; rfl
  · cases h

theorem tdOfJson_neg (d : Dur) (h : Persist.Int64Count d) (h0 : d.count < 0) : tdOfJson (tdJson d unitName : Json α) = .error .overflowError := by
  have := Zounds.Props.Persist.C17_negative_fails d h h0
  simp only [tdOfJson, tdJson]
  rw [show (encodeTimedelta d).2 = d.unit from rfl, unitOf_unitName]
  simp only [String.toList_ofList]
  exact this

/-- **C76** (exactly when): a dimension that can be built comes back as it was if and only if its times are not negative, its scale is of one of the
library's own classes, its slices are a list, and it is itself of one of the library's classes. -/
theorem C76_exact (X : NumExt α) (d : Dim α) (h : Exists X d) : (∃ j, encodeDim X d = .ok j ∧ decodeDim X j = .ok d) ↔ Kept d := by
  constructor
  · rintro ⟨j, h1, h2⟩
    cases d with
    | identity => trivial
    | time f du size =>
      obtain ⟨a, b, c⟩ := h
      simp only [encodeDim, kinds, DimKind.encodes, DimKind.dict, List.find?_cons, DimKind.name] at h1
      cases h1
      by_contra hn
      have hf : ∀ x : Dim α, decodeTime (.obj [("frequency", tdJson f unitName), ("duration", tdJson du unitName),
          ("size", match size with | none => .null | some n => .int n)]) ≠ .ok x := by
        intro x e
        by_cases h0 : 0 ≤ f.count
        · have hf := tdOfJson_tdJson (α := α) f h0 a.2
          by_cases h3 : 0 ≤ du.count
          · exact hn ⟨h0, h3⟩
          · have hd := tdOfJson_neg (α := α) du b (by omega)
            simp [decodeTime, Json.get, bind, Except.bind, hf, hd] at e
        · have hd := tdOfJson_neg (α := α) f a (by omega)
          simp [decodeTime, Json.get, bind, Except.bind, hd] at e
      refine hf (.time f du size) ?_
      rw [← h2]
      cases size <;> simp [decodeDim, Json.get, kinds, DimKind.name, DimKind.decode]
    | freq s =>
      have hk : ∀ l : List (String × Json α), decodeDim X (.obj [("type", .str "FrequencyDimension"), ("data", .obj l)]) = .ok (.freq s) → s.sub = none := by
        intro l e
        simp only [decodeDim, Json.get, kinds, DimKind.name, List.find?_cons, DimKind.decode] at e
        simp at e
        cases hs : decodeScale X (.obj l) with
        | error x => rw [hs] at e; cases e
        | ok t => rw [hs] at e; cases e; exact decodeScale_sub X _ _ hs
      simp only [encodeDim, kinds, DimKind.encodes, DimKind.dict, List.find?_cons, DimKind.name] at h1
      cases hs : encodeScale X s with
      | error x => rw [hs] at h1; cases h1
      | ok l => rw [hs] at h1; cases h1; exact hk l h2
    | explicit s sls k =>
      have hk : ∀ l : List (String × Json α), decodeDim X (.obj [("type", .str "ExplicitFrequencyDimension"), ("data", .obj l)]) = .ok (.explicit s sls k) →
          s.sub = none ∧ k = true := by
        intro l e
        simp only [decodeDim, Json.get, kinds, DimKind.name, List.find?_cons, DimKind.decode] at e
        simp at e
        unfold decodeExplicit at e
        simp only [bind, Except.bind, pure, Except.pure] at e
        cases hs : decodeScale X (.obj l) with
        | error x => rw [hs] at e; cases e
        | ok t =>
          simp only [hs] at e
          split at e
          · cases e
          · split at e
            · cases e
            · split at e
              · cases e
              · split at e
                · cases e
                · cases e
                  exact ⟨decodeScale_sub X _ _ hs, rfl⟩
      simp only [encodeDim, kinds, DimKind.encodes, DimKind.dict, List.find?_cons, DimKind.name] at h1
      cases hs : encodeScale X s with
      | error x => rw [hs] at h1; cases h1
      | ok l => rw [hs] at h1; cases h1; exact hk _ h2
    | custom n => cases h1
  · intro hk
    refine C19_roundtrip X d ?_
    cases d with
    | identity => trivial
    | time f du size => exact ⟨hk.1, h.1.2, by have := h.2.2; have := hk.2; omega, h.2.1.2⟩
    | freq s => exact ⟨hk, h⟩
    | explicit s sls k =>
      obtain ⟨a, b⟩ := hk
      obtain ⟨c, e, g⟩ := h
      refine ⟨a, c, b, ?_⟩
      unfold ExplicitDim.new at g ⊢
      split at g
      · cases g
      · rename_i hn
        rw [if_neg hn]
        split at g
        · cases g
        · rfl
    | custom n => exact hk

/-- **C76** (what happens otherwise): the class of a scale that is not one of the library's is lost: subclasses of geometric and explicit scales come
back as plain ones, the others cannot be decoded at all, unless they have the name of one of the library's classes. -/
theorem C76_subclass (X : NumExt α) (s : Scale α) (hb : Built X s) (sub : String)
    (hsub : sub ∉ ["LinearScale", "GeometricScale", "ExplicitScale", "BarkScale", "MelScale", "ChromaScale"]) :
    ∃ j, encodeDim X (.freq ⟨s, some sub⟩) = .ok j ∧
      decodeDim X j = match s with
        | .geometric .. => .ok (.freq ⟨s, none⟩)
        | .explicit _ => .ok (.freq ⟨s, none⟩)
        | _ => .error .notImplemented := by
  have hname : strategies.find? (fun st => st.canDecode sub) = none := by
    simp only [List.mem_cons, List.not_mem_nil, or_false, not_or] at hsub
    simp [strategies, Strategy.canDecode, Strategy.name, hsub]
  have hk : ∀ l, encodeScale X ⟨s, some sub⟩ = .ok l → (Json.obj l).get "name" = .ok (.str sub) → decodeScale X (.obj l) = .error .notImplemented := by
    intro l _ hn
    unfold decodeScale
    rw [hn]
    simp only [hname]
  have hrun : ∀ l, encodeScale X ⟨s, some sub⟩ = .ok l →
      ∃ j, encodeDim X (.freq ⟨s, some sub⟩) = .ok j ∧ decodeDim X j = match decodeScale X (.obj l) with
        | .error e => .error e
        | .ok s => .ok (.freq s) := by
    intro l hl
    refine ⟨.obj [("type", .str "FrequencyDimension"), ("data", .obj l)], ?_, ?_⟩
    · simp [encodeDim, kinds, DimKind.encodes, DimKind.dict, hl, DimKind.name]
    · simp [decodeDim, Json.get, kinds, DimKind.name, DimKind.decode]
      rfl
  have hplain := decode_encode_scale X s hb []
  obtain ⟨l0, e0, d0⟩ := hplain
  rw [List.append_nil] at d0
  rw [encodeScale_eq] at e0
  cases s with
  | geometric a b r n ev =>
    obtain ⟨j, e1, e2⟩ := hrun l0 (by rw [encodeScale_eq]; exact e0)
    exact ⟨j, e1, by rw [e2, d0]⟩
  | explicit bs =>
    obtain ⟨j, e1, e2⟩ := hrun l0 (by rw [encodeScale_eq]; exact e0)
    exact ⟨j, e1, by rw [e2, d0]⟩
  | linear b n ev =>
    have hl : ∃ l, encodeScale X ⟨.linear b n ev, some sub⟩ = .ok l ∧ (Json.obj l).get "name" = .ok (.str sub) := by
      rw [encodeScale_eq]; exact ⟨_, rfl, rfl⟩
    obtain ⟨l, e, g⟩ := hl
    obtain ⟨j, e1, e2⟩ := hrun l e
    exact ⟨j, e1, by rw [e2, hk l e g]⟩
  | bark b n =>
    have hl : ∃ l, encodeScale X ⟨.bark b n, some sub⟩ = .ok l ∧ (Json.obj l).get "name" = .ok (.str sub) := by
      rw [encodeScale_eq]; exact ⟨_, rfl, rfl⟩
    obtain ⟨l, e, g⟩ := hl
    obtain ⟨j, e1, e2⟩ := hrun l e
    exact ⟨j, e1, by rw [e2, hk l e g]⟩
  | mel b n =>
    have hl : ∃ l, encodeScale X ⟨.mel b n, some sub⟩ = .ok l ∧ (Json.obj l).get "name" = .ok (.str sub) := by
      rw [encodeScale_eq]; exact ⟨_, rfl, rfl⟩
    obtain ⟨l, e, g⟩ := hl
    obtain ⟨j, e1, e2⟩ := hrun l e
    exact ⟨j, e1, by rw [e2, hk l e g]⟩
  | chroma b =>
    have hl : ∃ l, encodeScale X ⟨.chroma b, some sub⟩ = .ok l ∧ (Json.obj l).get "name" = .ok (.str sub) := by
      rw [encodeScale_eq]; exact ⟨_, rfl, rfl⟩
    obtain ⟨l, e, g⟩ := hl
    obtain ⟨j, e1, e2⟩ := hrun l e
    exact ⟨j, e1, by rw [e2, hk l e g]⟩

example := C76_exact noExt (.time ⟨22675737, .ps⟩ ⟨-2, .s⟩ (some 4) : Dim ℚ) ⟨by unfold Persist.Int64Count; decide, by unfold Persist.Int64Count; decide, by decide⟩
example := C76_subclass noExt (.linear ⟨0, 100⟩ 2 true : Scale ℚ) (by simp [Built, WF]) "MyScale" (by decide)
example := Zounds.Props.Persist.C74_slice_exact ⟨⟨-3, .s⟩, some ⟨5, .ms⟩⟩ (by unfold Persist.Int64Count; decide) (by rintro d ⟨⟩; unfold Persist.Int64Count; decide)

end Zounds.Props.DimCodec
