import Verif.Model.HammingDb
/-!
# `HammingIndex.encode_query` / `decode_query` (`zounds/index/index.py:179-193`)
-/

namespace Zounds.Codes
open Zounds Zounds.HammingDb

/-- One byte from up to eight bits, first bit most significant; missing bits are
zero (`np.packbits`, default big-endian order). -/
def packByte (bits : List Bool) : UInt8 :=
  UInt8.ofNat ((List.range 8).foldl (fun acc k => 2 * acc + (if bits.getD k false then 1 else 0)) 0)

/-- `np.packbits(feature)` on a one-dimensional array (index.py:189): groups of
eight bits, the last one padded with zeros. -/
def packbits (bits : List Bool) : Bytes :=
  if bits = [] then [] else packByte (bits.take 8) :: packbits (bits.drop 8)
  termination_by bits.length
  decreasing_by
    simp only [List.length_drop]
    have : bits.length ≠ 0 := by simpa using ‹bits ≠ []›
    omega

/-- The eight bits of a byte, most significant first (`np.unpackbits`). -/
def unpackByte (b : UInt8) : List Bool := (List.range 8).map fun k => b.toNat.testBit (7 - k)

/-- `np.unpackbits(packed)` (index.py:181). -/
def unpackbits (bs : Bytes) : List Bool := bs.flatMap unpackByte

/-- The eight little-endian bytes of a `uint64`. -/
def wordBytes (w : BitVec 64) : Bytes := (List.range 8).map fun k => UInt8.ofNat (w.toNat / 256 ^ k % 256)

/-- The array dtypes that `encode_query` distinguishes. -/
inductive Feature where
  | bytes (b : Bytes)
  | uint64 (ws : List (BitVec 64))
  | uint8 (xs : List UInt8)
  | bool (xs : List Bool)
  | other
  deriving DecidableEq

/-- `encode_query` (index.py:183-193).  `np.packbits` of a `uint8` array treats
every non-zero entry as one. -/
def encodeQuery : Feature → Except PyErr Bytes
  | .bytes b => .ok b
  | .uint64 ws => .ok (ws.flatMap wordBytes)
  | .uint8 xs => .ok (packbits (xs.map (· != 0)))
  | .bool xs => .ok (packbits xs)
  | .other => .error .valueError

/-- `decode_query` (index.py:179-181): a `uint8` array of zeros and ones. -/
def decodeQuery (b : Bytes) : List UInt8 := (unpackbits b).map fun x => if x then 1 else 0

end Zounds.Codes
