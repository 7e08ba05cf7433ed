import Verif.Model.Codes
import Verif.Lemmas.HammingDbInv
/-!
# Property C14: binary codes round trip through the query encoding
-/

namespace Zounds.Props.Codes
open Zounds Zounds.HammingDb Zounds.Codes

/-- Zeros and ones of a bit vector. -/
def asBits (xs : List Bool) : List UInt8 := xs.map fun x => if x then 1 else 0

/-- The zeros needed to fill the last byte. -/
def padding (n : Nat) : List UInt8 := List.replicate ((8 - n % 8) % 8) 0

theorem packByte_unpack_full : ∀ b0 b1 b2 b3 b4 b5 b6 b7 : Bool,
    unpackByte (packByte [b0, b1, b2, b3, b4, b5, b6, b7]) = [b0, b1, b2, b3, b4, b5, b6, b7] := by
  decide +kernel

theorem packByte_append_false (bits : List Bool) (k : Nat) :
    packByte (bits ++ List.replicate k false) = packByte bits := by
  unfold packByte
  congr 1
  have : ∀ j, (bits ++ List.replicate k false).getD j false = bits.getD j false := by
    intro j
    simp only [List.getD_eq_getElem?_getD, List.getElem?_append, List.getElem?_replicate]
    by_cases h : j < bits.length
    · simp [h]
    · simp only [h, if_false]
      rw [List.getElem?_eq_none (by omega)]
      split <;> rfl
  simp only [this]

theorem packByte_unpack (bits : List Bool) (h : bits.length ≤ 8) :
    unpackByte (packByte bits) = bits ++ List.replicate (8 - bits.length) false := by
  rw [← packByte_append_false bits (8 - bits.length)]
  have hl : (bits ++ List.replicate (8 - bits.length) false).length = 8 := by simp; omega
  generalize bits ++ List.replicate (8 - bits.length) false = l at hl ⊢
  match l, hl with
  | [b0, b1, b2, b3, b4, b5, b6, b7], _ => exact packByte_unpack_full ..

theorem unpack_pack_byte : ∀ b : UInt8, packByte (unpackByte b) = b := by
  have : ∀ n : Fin 256, packByte (unpackByte (UInt8.ofNat n.val)) = UInt8.ofNat n.val := by
    decide +kernel
  intro b
  have h := this ⟨b.toNat, UInt8.toNat_lt b⟩
  simpa using h

theorem unpack_packbits : ∀ (n : Nat) (bits : List Bool), bits.length = n →
    unpackbits (packbits bits) = bits ++ List.replicate ((8 - bits.length % 8) % 8) false := by
  intro n
  induction n using Nat.strongRecOn with
  | _ n ih =>
    intro bits hn
    unfold packbits
    split
    · rename_i h; subst h; rfl
    · rename_i h
      have hpos : bits.length ≠ 0 := by simpa using h
      have hd := ih (bits.drop 8).length (by simp; omega) (bits.drop 8) rfl
      simp only [unpackbits, List.flatMap_cons] at hd ⊢
      rw [hd, packByte_unpack _ (by simp)]
      by_cases h8 : 8 ≤ bits.length
      · have e1 : (bits.take 8).length = 8 := by simp; omega
        rw [e1]
        simp only [Nat.sub_self, List.replicate_zero, List.append_nil, List.length_drop]
        rw [← List.append_assoc, List.take_append_drop]
        congr 2
        omega
      · have e2 : bits.drop 8 = [] := List.drop_of_length_le (by omega)
        have e3 : bits.take 8 = bits := List.take_of_length_le (by omega)
        rw [e2, e3]
        simp only [List.length_nil, List.nil_append]
        have : (8 - 0 % 8) % 8 = 0 := rfl
        rw [this]
        simp only [List.replicate_zero, List.append_nil]
        congr 2
        omega

theorem pack_unpackbits (bs : Bytes) : packbits (unpackbits bs) = bs := by
  induction bs with
  | nil => unfold packbits; simp [unpackbits]
  | cons b bs ih =>
    have hl : (unpackByte b).length = 8 := by simp [unpackByte]
    unfold packbits
    have hne : unpackbits (b :: bs) ≠ [] := by
      intro e
      have := congrArg List.length e
      simp [unpackbits, hl] at this
    rw [if_neg hne]
    simp only [unpackbits, List.flatMap_cons]
    rw [List.take_append_of_le_length (by omega), List.drop_append_of_le_length (by omega),
      List.take_of_length_le (by omega), List.drop_of_length_le (by omega), unpack_pack_byte]
    simp only [List.nil_append]
    congr 1

/-- **C14.** Decoding the encoding of a boolean feature gives its bits back, padded
with zeros to a whole number of bytes. -/
theorem C14_decode_encode_bool (xs : List Bool) :
    ∃ q, encodeQuery (.bool xs) = .ok q ∧ decodeQuery q = asBits xs ++ padding xs.length ∧
      q.length = (xs.length + 7) / 8 := by
  refine ⟨packbits xs, rfl, ?_, ?_⟩
  · unfold decodeQuery
    rw [unpack_packbits _ xs rfl, List.map_append]
    simp [asBits, padding]
  · have h := congrArg List.length (unpack_packbits _ xs rfl)
    have hu : ∀ bs : Bytes, (unpackbits bs).length = 8 * bs.length := by
      intro bs
      induction bs with
      | nil => rfl
      | cons b bs ih =>
        simp only [unpackbits, List.flatMap_cons, List.length_append] at ih ⊢
        rw [ih]
        simp [unpackByte]; omega
    rw [hu, List.length_append, List.length_replicate] at h
    omega

/-- **C14.** An "unpacked" `uint8` feature of zeros and ones is treated the same. -/
theorem C14_uint8_same (xs : List Bool) :
    encodeQuery (.uint8 (asBits xs)) = encodeQuery (.bool xs) := by
  simp only [encodeQuery, asBits, List.map_map]
  congr 2
  conv => rhs; rw [← List.map_id xs]
  apply List.map_congr_left
  intro x _
  cases x <;> rfl

/-- **C14.** Decoding any byte string and encoding the result gives the same string;
encoding never changes raw bytes. -/
theorem C14_encode_decode (q : Bytes) :
    encodeQuery (.uint8 (decodeQuery q)) = .ok q ∧ encodeQuery (.bytes q) = .ok q := by
  refine ⟨?_, rfl⟩
  have := C14_uint8_same (unpackbits q)
  unfold decodeQuery
  unfold asBits at this
  rw [this]
  simp [encodeQuery, pack_unpackbits]

theorem wordBytes_leValue (w : BitVec 64) : leValue (wordBytes w) = w.toNat := by
  have h := w.isLt
  rw [Zounds.Props.HammingDb.leValue_eq]
  unfold wordBytes
  simp only [List.range, List.range.loop, List.map_cons, List.map_nil, Zounds.PopCount.ofBytes,
    UInt8.toNat_ofNat', Nat.reducePow]
  omega

/-- **C14.** A packed `uint64` feature is stored as bytes from which the search reads
back exactly the same words. -/
theorem C14_uint64_roundtrip (ws : List (BitVec 64)) :
    ∃ q, encodeQuery (.uint64 ws) = .ok q ∧ toWords q = ws ∧ q.length = 8 * ws.length := by
  refine ⟨ws.flatMap wordBytes, rfl, ?_, ?_⟩
  · induction ws with
    | nil => rfl
    | cons w ws ih =>
      simp only [List.flatMap_cons]
      have : wordBytes w = [UInt8.ofNat (w.toNat / 256 ^ 0 % 256), UInt8.ofNat (w.toNat / 256 ^ 1 % 256),
        UInt8.ofNat (w.toNat / 256 ^ 2 % 256), UInt8.ofNat (w.toNat / 256 ^ 3 % 256),
        UInt8.ofNat (w.toNat / 256 ^ 4 % 256), UInt8.ofNat (w.toNat / 256 ^ 5 % 256),
        UInt8.ofNat (w.toNat / 256 ^ 6 % 256), UInt8.ofNat (w.toNat / 256 ^ 7 % 256)] := rfl
      rw [this]
      simp only [List.cons_append, List.nil_append, toWords, ih]
      rw [← this, wordBytes_leValue]
      simp
  · induction ws with
    | nil => rfl
    | cons w ws ih =>
      simp only [List.flatMap_cons, List.length_append, ih, List.length_cons]
      simp [wordBytes]; omega

/-- **C14.** Any other dtype is refused. -/
theorem C14_other_dtype : encodeQuery .other = .error .valueError := rfl

/-- **C14.** In a `uint8` feature every non-zero entry counts as one, not only the value 1. -/
theorem C14_uint8_nonzero_is_one (xs : List UInt8) :
    encodeQuery (.uint8 xs) = encodeQuery (.bool (xs.map (fun x => decide (x ≠ 0)))) := by
  simp only [encodeQuery]
  congr 2
  apply List.map_congr_left
  intro x _
  by_cases h : x = 0 <;> simp [h]

/-- 255 counts as one. -/
example : encodeQuery (.uint8 [255, 0, 2]) = encodeQuery (.bool [true, false, true]) :=
  C14_uint8_nonzero_is_one [255, 0, 2]

/-- **C14.** Different bit vectors of the same length get different queries. -/
theorem C14_injective (xs ys : List Bool) (hl : xs.length = ys.length)
    (h : encodeQuery (.bool xs) = encodeQuery (.bool ys)) : xs = ys := by
  obtain ⟨p, h1, h2, _⟩ := C14_decode_encode_bool xs
  obtain ⟨q, h3, h4, _⟩ := C14_decode_encode_bool ys
  rw [h1, h3] at h
  cases h
  rw [h2, hl] at h4
  have h5 := List.append_cancel_right h4
  unfold asBits at h5
  refine List.map_injective_iff.2 ?_ h5
  intro a b
  cases a <;> cases b <;> simp

example : encodeQuery (.bool [true, false, true]) ≠ encodeQuery (.bool [true, false, false]) := fun h => absurd (C14_injective [true, false, true] [true, false, false] rfl h) (by decide)

example : encodeQuery (.bool [true, false, true, false, false, false, false, false, true]) = .ok [160, 128] := by
  simp only [encodeQuery]
  rw [packbits, if_neg (by simp), packbits, if_neg (by simp), packbits]
  decide

end Zounds.Props.Codes
