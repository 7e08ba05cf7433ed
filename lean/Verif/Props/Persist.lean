import Verif.Model.Persist
/-!
# Properties C17 (time values survive persistence) and C18 (array framing)
-/

namespace Zounds.Props.Persist
open Zounds Zounds.Time Zounds.Persist

theorem b64Val_char : ∀ n, n < 64 → b64Val (b64Char n) = some n := by
  intro n hn
  have : ∀ k : Fin 64, b64Val (b64Char k.val) = some k.val := by decide +kernel
  exact this ⟨n, hn⟩

theorem b64Char_ne_pad : ∀ n, n < 64 → b64Char n ≠ '=' := by
  intro n hn
  have : ∀ k : Fin 64, b64Char k.val ≠ '=' := by decide +kernel
  exact this ⟨n, hn⟩

theorem ofNat_eq (a : UInt8) (n : Nat) (h : n = a.toNat) : UInt8.ofNat n = a := by
  subst h; simp

theorem b64_roundtrip (bs : Bytes) : b64decode (b64encode bs) = .ok bs := by
  fun_induction b64encode bs with
  | case1 => rfl
  | case2 a =>
    have ha := UInt8.toNat_lt a
    unfold b64decode
    rw [b64Val_char _ (by omega), b64Val_char _ (by omega)]
    simp only [true_and, and_self, if_true]
    congr 2
    exact ofNat_eq _ _ (by omega)
  | case3 a b =>
    have ha := UInt8.toNat_lt a
    have hb := UInt8.toNat_lt b
    unfold b64decode
    rw [b64Val_char _ (by omega), b64Val_char _ (by omega), b64Val_char _ (by omega)]
    simp only [b64Char_ne_pad _ (show b.toNat % 16 * 4 < 64 by omega), false_and, if_false, true_and,
      and_self, if_true]
    congr 2
    · exact ofNat_eq _ _ (by omega)
    · congr 1
      exact ofNat_eq _ _ (by omega)
  | case4 a b c r ih =>
    have ha := UInt8.toNat_lt a
    have hb := UInt8.toNat_lt b
    have hc := UInt8.toNat_lt c
    unfold b64decode
    rw [b64Val_char _ (by omega), b64Val_char _ (by omega), b64Val_char _ (by omega),
      b64Val_char _ (by omega), ih]
    simp only [b64Char_ne_pad _ (show b.toNat % 16 * 4 + c.toNat / 64 < 64 by omega),
      b64Char_ne_pad _ (show c.toNat % 64 < 64 by omega), false_and, if_false]
    congr 2
    · exact ofNat_eq _ _ (by omega)
    · congr 1
      · exact ofNat_eq _ _ (by omega)
      · congr 1
        exact ofNat_eq _ _ (by omega)

theorem leBytes_length (k : Nat) : ∀ n, (leBytes n k).length = k := by
  induction k with
  | zero => intro n; rfl
  | succ k ih => intro n; simp [leBytes, ih]

theorem leNat_leBytes (k : Nat) : ∀ n, n < 256 ^ k → leNat (leBytes n k) = n := by
  induction k with
  | zero => intro n h; simp at h; subst h; rfl
  | succ k ih =>
    intro n h
    rw [Nat.pow_succ] at h
    simp only [leBytes, leNat]
    rw [ih (n / 256) (by omega)]
    simp only [UInt8.toNat_ofNat']
    omega

/-- A count that fits a signed 64-bit integer, which is what `np.timedelta64` holds. -/
def Int64Count (d : Dur) : Prop := -(2 ^ 63) ≤ d.count ∧ d.count < 2 ^ 63

theorem decode_encode (d : Dur) : decodeTimedelta (encodeTimedelta d) =
    if (d.count % 2 ^ 64).toNat < 2 ^ 63 then .ok ⟨(d.count % 2 ^ 64).toNat, d.unit⟩
    else .error .overflowError := by
  unfold decodeTimedelta encodeTimedelta
  dsimp only
  rw [b64_roundtrip]
  dsimp only
  have hl : (leBytes (d.count % 2 ^ 64).toNat 8).length = 8 := leBytes_length 8 _
  rw [if_neg (by rintro (h | h); · omega
                 · rw [h] at hl; simp at hl), List.take_of_length_le (by omega), leNat_leBytes 8 _ (by omega)]

/-- **C17.** Every non-negative time value, in every unit, survives encoding and
decoding unchanged: same count, same unit. -/
theorem C17_timedelta_roundtrip (d : Dur) (h : Int64Count d) (h0 : 0 ≤ d.count) :
    decodeTimedelta (encodeTimedelta d) = .ok d := by
  rw [decode_encode]
  obtain ⟨_, h2⟩ := h
  have e : d.count % 2 ^ 64 = d.count := Int.emod_eq_of_lt h0 (by omega)
  rw [e, if_pos (by omega)]
  congr 1
  cases d
  simp only [Dur.mk.injEq, and_true] at *
  omega

/-- **C17, the missing part.** No negative time value (nor `NaT`) can be read back. -/
theorem C17_negative_fails (d : Dur) (h : Int64Count d) (h0 : d.count < 0) :
    decodeTimedelta (encodeTimedelta d) = .error .overflowError := by
  rw [decode_encode]
  obtain ⟨h1, _⟩ := h
  rw [if_neg]
  have e : d.count % 2 ^ 64 = d.count + 2 ^ 64 := by
    rw [← Int.add_emod_right]
    exact Int.emod_eq_of_lt (by omega) (by omega)
  omega

example := C17_negative_fails ⟨-5, .ms⟩ (by unfold Int64Count; decide) (by decide)

/-- **C17.** The encoding of a time value is twelve characters of text whatever the value. -/
theorem C17_encoded_length (d : Dur) : (encodeTimedelta d).1.length = 12 := by
  unfold encodeTimedelta
  simp [leBytes, b64encode]

/-- **C17.** A time slice with a duration comes back as a slice with the same start
instant and the same duration. -/
theorem C17_timeslice_roundtrip (ts : TimeSlice) (d : Dur) (hd : ts.duration = some d)
    (h1 : Int64Count ts.start) (h2 : 0 ≤ ts.start.count) (h3 : Int64Count d) (h4 : 0 ≤ d.count) :
    ∃ p ts', encodeTimeSlice ts = .ok p ∧ decodeTimeSlice p = .ok ts' ∧
      ts'.start.toPs = ts.start.toPs ∧ ts'.duration = some d := by
  refine ⟨(encodeTimedelta ts.start, encodeTimedelta d), TimeSlice.mk' (some d) (some ts.start), ?_, ?_, ?_⟩
  · simp [encodeTimeSlice, hd]
  · simp [decodeTimeSlice, C17_timedelta_roundtrip _ h1 h2, C17_timedelta_roundtrip _ h3 h4]
  · unfold TimeSlice.mk'
    dsimp only
    refine ⟨?_, rfl⟩
    split
    · rename_i h; simp [Dur.toPs, h]
    · rfl

example := C17_timeslice_roundtrip ⟨⟨3, .s⟩, some ⟨500, .ms⟩⟩ ⟨500, .ms⟩ rfl (by unfold Int64Count; decide) (by decide) (by unfold Int64Count; decide) (by decide)

/-- **C17.** A slice without a duration cannot be encoded. -/
theorem C17_open_slice_fails (s : Dur) : encodeTimeSlice ⟨s, none⟩ = .error .attributeError := rfl

example : decodeTimedelta (encodeTimedelta ⟨22675737, .ps⟩) = .ok ⟨22675737, .ps⟩ :=
  C17_timedelta_roundtrip _ (by constructor <;> decide) (by decide)
example : (encodeTimedelta ⟨1, .s⟩).1 = "AQAAAAAAAAA=".toList := by decide +kernel

/-! ## C18 -/

/-- What is assumed of `json` and `NumpyMetaData`. -/
structure Lawful {Dims Meta : Type} (E : ExtCodec Dims Meta) : Prop where
  json : ∀ d, E.loads (E.dumps d) = .ok d
  header : ∀ m rest, E.unpack (E.pack m ++ rest) = .ok (m, rest)

theorem encodeAll_rest {Dims Meta : Type} (E : ExtCodec Dims Meta) (cs : List (Chunk Dims Meta)) :
    encodeAll E ⟨true, true⟩ cs = .ok ((cs.map fun c => c.rows.flatten).flatten) := by
  induction cs with
  | nil => rfl
  | cons c cs ih =>
    unfold encodeAll
    simp [encodeChunk, ih]

theorem flatten_length {size : Nat} (rows : List Bytes) (h : ∀ r ∈ rows, r.length = size) :
    rows.flatten.length = rows.length * size := by
  induction rows with
  | nil => simp
  | cons r rows ih =>
    have ih := ih (fun x hx => h x (by simp [hx]))
    have := h r (by simp)
    simp only [List.flatten_cons, List.length_append, ih, List.length_cons, Nat.add_mul, this]
    omega

theorem splitRows_flatten (size : Nat) (hs : 0 < size) (rows : List Bytes)
    (h : ∀ r ∈ rows, r.length = size) : splitRows size rows.flatten = .ok rows := by
  have hl := flatten_length rows h
  have hdiv : rows.flatten.length / size = rows.length := by
    rw [hl]; exact Nat.mul_div_cancel _ hs
  unfold splitRows
  rw [if_neg (by omega)]
  dsimp only
  rw [hdiv, if_neg (by omega)]
  congr 1
  clear hl hdiv
  induction rows with
  | nil => rfl
  | cons r rows ih =>
    have hr := h r (by simp)
    have ih := ih (fun x hx => h x (by simp [hx]))
    rw [List.length_cons, List.range_succ_eq_map, List.map_cons, List.map_map]
    have h0 : List.take size (List.drop (0 * size) (r :: rows).flatten) = r := by
      rw [Nat.zero_mul, List.drop_zero, List.flatten_cons, List.take_append_of_le_length (by omega),
        List.take_of_length_le (by omega)]
    have h1 : List.map ((fun k => List.take size (List.drop (k * size) (r :: rows).flatten)) ∘ Nat.succ)
        (List.range rows.length) =
        List.map (fun k => List.take size (List.drop (k * size) rows.flatten))
          (List.range rows.length) := by
      apply List.map_congr_left
      intro k _
      have e : Nat.succ k * size = r.length + k * size := by rw [hr, Nat.succ_mul]; omega
      simp only [Function.comp, List.flatten_cons]
      rw [e, List.drop_length_add_append]
    rw [h0, h1, ih]

/-- What is assumed of `json` and `NumpyMetaData` for one list of dimensions and one header. -/
structure LawfulAt {Dims Meta : Type} (E : ExtCodec Dims Meta) (d : Dims) (m : Meta) : Prop where
  json : E.loads (E.dumps d) = .ok d
  header : ∀ rest, E.unpack (E.pack m ++ rest) = .ok (m, rest)

theorem roundtrip_at {Dims Meta : Type} (E : ExtCodec Dims Meta) (c : Chunk Dims Meta) (cs : List (Chunk Dims Meta)) (hE : LawfulAt E c.dims c.header)
    (hjson : (E.dumps c.dims).length < 2 ^ 32)
    (hsize : 0 < E.totalsize c.header)
    (hrows : ∀ k ∈ c :: cs, ∀ r ∈ k.rows, r.length = E.totalsize c.header) :
    ∃ bytes, encodeAll E {} (c :: cs) = .ok bytes ∧
      decodeArray E bytes = .ok (c.dims, c.header, ((c :: cs).map Chunk.rows).flatten) := by
  refine ⟨leBytes (E.dumps c.dims).length 4 ++ E.dumps c.dims ++ E.pack c.header ++
    c.rows.flatten ++ (cs.map fun c => c.rows.flatten).flatten, ?_, ?_⟩
  · unfold encodeAll encodeChunk
    simp [hjson, encodeAll_rest]
  · unfold decodeArray
    have h4 : (leBytes (E.dumps c.dims).length 4).length = 4 := leBytes_length 4 _
    have hn : leNat (leBytes (E.dumps c.dims).length 4) = (E.dumps c.dims).length :=
      leNat_leBytes 4 _ (by simpa using hjson)
    simp only [List.append_assoc]
    have ht : ∀ rest : Bytes, (leBytes (E.dumps c.dims).length 4 ++ rest).take 4 =
        leBytes (E.dumps c.dims).length 4 := by
      intro rest
      rw [List.take_append_of_le_length (by omega), List.take_of_length_le (by omega)]
    have hd : ∀ rest : Bytes, (leBytes (E.dumps c.dims).length 4 ++ rest).drop 4 = rest := by
      intro rest
      rw [List.drop_append_of_le_length (by omega), List.drop_of_length_le (by omega), List.nil_append]
    rw [ht, hd, hn, if_neg (by omega)]
    simp only [List.take_left', List.drop_left', hE.json, hE.header]
    have hfl : c.rows.flatten ++ (cs.map fun c => c.rows.flatten).flatten =
        (((c :: cs).map Chunk.rows).flatten).flatten := by
      simp only [List.map_cons, List.flatten_cons, List.flatten_append]
      congr 1
      induction cs with
      | nil => rfl
      | cons k ks ih =>
        simp only [List.map_cons, List.flatten_cons, List.flatten_append]
        rw [ih]
        intro k' hk'
        exact hrows k' (by
          rcases List.mem_cons.1 hk' with h | h
          · simp [h]
          · simp [h])
    rw [hfl, splitRows_flatten _ hsize]
    intro r hr
    obtain ⟨l, hl, hr⟩ := List.mem_flatten.1 hr
    obtain ⟨k, hk, rfl⟩ := List.mem_map.1 hl
    exact hrows k hk r hr

/-- **C18.** However the rows of an array are distributed over chunks, decoding the
bytes written yields the dimensions, dtype and row shape of the stream and exactly
the concatenation of the chunks' rows. -/
theorem C18_roundtrip {Dims Meta : Type} (E : ExtCodec Dims Meta) (hE : Lawful E)
    (c : Chunk Dims Meta) (cs : List (Chunk Dims Meta))
    (hjson : (E.dumps c.dims).length < 2 ^ 32)
    (hsize : 0 < E.totalsize c.header)
    (hrows : ∀ k ∈ c :: cs, ∀ r ∈ k.rows, r.length = E.totalsize c.header) :
    ∃ bytes, encodeAll E {} (c :: cs) = .ok bytes ∧
      decodeArray E bytes = .ok (c.dims, c.header, ((c :: cs).map Chunk.rows).flatten) := by
  exact roundtrip_at E c cs ⟨hE.json _, hE.header _⟩ hjson hsize hrows

/-- A concrete codec: dimensions and headers are numbers, a header is one byte (the
row size) and the JSON text one byte.  It satisfies the laws, so `C18_roundtrip`
applies to it. -/
def sampleCodec : ExtCodec UInt8 UInt8 where
  dumps d := [d]
  loads b := match b with
    | [d] => .ok d
    | _ => .error .valueError
  pack m := [m]
  unpack b := match b with
    | m :: r => .ok (m, r)
    | [] => .error .valueError
  totalsize m := m.toNat

theorem sampleCodec_lawful : Lawful sampleCodec :=
  ⟨fun _ => rfl, fun _ _ => rfl⟩

example : encodeAll sampleCodec {} [⟨7, 2, [[1, 2], [3, 4]]⟩, ⟨7, 2, [[5, 6]]⟩] =
    .ok [1, 0, 0, 0, 7, 2, 1, 2, 3, 4, 5, 6] := by decide
example : ∃ bytes, encodeAll sampleCodec {} [⟨7, 2, [[1, 2], [3, 4]]⟩, ⟨7, 2, [[5, 6]]⟩] = .ok bytes ∧
    decodeArray sampleCodec bytes = .ok (7, 2, [[1, 2], [3, 4], [5, 6]]) :=
  C18_roundtrip sampleCodec sampleCodec_lawful ⟨7, 2, [[1, 2], [3, 4]]⟩ [⟨7, 2, [[5, 6]]⟩]
    (by decide) (by decide) (by decide)

/-- **C18.** How the rows are cut into chunks does not change a single stored byte
(as long as the first chunk carries the same dimensions and dtype). -/
theorem C18_chunking_invisible {Dims Meta : Type} (E : ExtCodec Dims Meta)
    (c c' : Chunk Dims Meta) (cs cs' : List (Chunk Dims Meta)) (hd : c.dims = c'.dims)
    (hm : c.header = c'.header)
    (hrows : ((c :: cs).map Chunk.rows).flatten = ((c' :: cs').map Chunk.rows).flatten) :
    encodeAll E {} (c :: cs) = encodeAll E {} (c' :: cs') := by
  have key : ∀ (k : Chunk Dims Meta) (ks : List (Chunk Dims Meta)), encodeAll E {} (k :: ks) =
      if (E.dumps k.dims).length < 2 ^ 32 then
        .ok (leBytes (E.dumps k.dims).length 4 ++ E.dumps k.dims ++ E.pack k.header ++
          (((k :: ks).map Chunk.rows).flatten).flatten)
      else .error .valueError := by
    intro k ks
    have hfl : (((k :: ks).map Chunk.rows).flatten).flatten =
        k.rows.flatten ++ (ks.map fun c => c.rows.flatten).flatten := by
      simp only [List.map_cons, List.flatten_cons, List.flatten_append]
      congr 1
      induction ks with
      | nil => rfl
      | cons j js ih => simp only [List.map_cons, List.flatten_cons, List.flatten_append, ih]
    rw [hfl]
    unfold encodeAll encodeChunk
    by_cases h : (E.dumps k.dims).length < 2 ^ 32
    · simp [h, encodeAll_rest]
    · simp [h]
  rw [key, key, hrows, hd, hm]

example := C18_chunking_invisible sampleCodec ⟨7, 2, [[1, 2], [3, 4]]⟩ ⟨7, 2, [[1, 2]]⟩ [⟨7, 2, [[5, 6]]⟩] [⟨7, 2, [[3, 4], [5, 6]]⟩] rfl rfl rfl

/-- **C18.** Dimension metadata of `2^32` bytes or more is refused when encoding. -/
theorem C18_oversized_metadata {Dims Meta : Type} (E : ExtCodec Dims Meta) (c : Chunk Dims Meta)
    (cs : List (Chunk Dims Meta)) (h : 2 ^ 32 ≤ (E.dumps c.dims).length) :
    encodeAll E {} (c :: cs) = .error .valueError := by
  unfold encodeAll encodeChunk
  simp [Nat.not_lt.2 h]

example := C18_oversized_metadata (⟨fun (_ : Unit) => List.replicate (2 ^ 32) 0, fun _ => .ok (), fun (_ : Unit) => [], fun b => .ok ((), b), fun _ => 1⟩ : ExtCodec Unit Unit)
  ⟨(), (), [[1]]⟩ [] (by rw [List.length_replicate]; exact Nat.le_refl _)

/-- **C18, the packed part is false (1).** No `PackedArrayWithUnitsFeature`, nor any
subclass of it that is not itself an `ArrayWithUnitsFeature`, can be declared. -/
theorem C18_packed_feature_unusable (subclasses : List String)
    (h : "ArrayWithUnitsFeature" ∉ subclasses) : packedFeatureInit subclasses = .error .typeError := by
  unfold packedFeatureInit pySuper
  rw [if_neg]
  simp only [List.mem_append, not_or]
  exact ⟨h, by decide⟩

example := C18_packed_feature_unusable ["MyFeature"] (by decide)

/-- The unpacked feature, for contrast, always passes the same check. -/
theorem C18_feature_usable (subclasses : List String) : featureInit subclasses = .ok () := by
  unfold featureInit pySuper
  rw [if_pos (by simp)]

/-- **C18, the packed part is false (2).** What is decoded from a packed stream is the
*packed* bytes of each row, beside the dimensions of the unpacked rows: the bits are
never expanded again. -/
theorem C18_packed_partial {Dims Meta : Type} (E : ExtCodec Dims Meta) (hE : Lawful E)
    (header : Meta) (c : BoolChunk Dims) (cs : List (BoolChunk Dims))
    (hjson : (E.dumps c.dims).length < 2 ^ 32) (hsize : 0 < E.totalsize header)
    (hrows : ∀ k ∈ c :: cs, ∀ r ∈ k.rows,
      ((r.map Codes.packbits).flatten).length = E.totalsize header) :
    ∃ bytes, encodeAll E {} ((c :: cs).map (packedChunk header)) = .ok bytes ∧
      decodeArray E bytes = .ok (c.dims, header,
        (((c :: cs).map BoolChunk.rows).flatten).map fun r => (r.map Codes.packbits).flatten) := by
  have h := C18_roundtrip E hE (packedChunk header c) (cs.map (packedChunk header)) hjson hsize (by
    intro k hk r hr
    rw [← List.map_cons, List.mem_map] at hk
    obtain ⟨b, hb, rfl⟩ := hk
    simp only [packedChunk, List.mem_map] at hr
    obtain ⟨r', hr', rfl⟩ := hr
    exact hrows b hb r' hr')
  obtain ⟨bytes, h1, h2⟩ := h
  refine ⟨bytes, by simpa using h1, ?_⟩
  rw [h2]
  have : (((packedChunk header c :: cs.map (packedChunk header))).map Chunk.rows).flatten =
      (((c :: cs).map BoolChunk.rows).flatten).map fun r => (r.map Codes.packbits).flatten := by
    rw [← List.map_cons, List.map_flatten, List.map_map, List.map_map]
    rfl
  rw [this]
  rfl

example := C18_packed_partial sampleCodec sampleCodec_lawful 1 ⟨7, [[[true, false, true]], [[false, false, true]]]⟩ [] (by decide) (by decide) (by decide +kernel)

end Zounds.Props.Persist
