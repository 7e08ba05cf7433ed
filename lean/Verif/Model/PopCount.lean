import Verif.Model.Base
/-!
# `zounds/nputil/countbits.pyx` and the Hamming distances of `npx.py`

`np.uint64` is `BitVec 64`: subtraction, addition, multiplication wrap modulo
`2^64`, `>>` is a logical shift.
-/

namespace Zounds.PopCount

/-- The loop body of `count_bits` (countbits.pyx:29-38) for one word. -/
def countBits (n : BitVec 64) : BitVec 64 :=
  let a : BitVec 64 := 0x5555555555555555#64
  let b : BitVec 64 := 0x3333333333333333#64
  let c : BitVec 64 := 0x0F0F0F0F0F0F0F0F#64
  let d : BitVec 64 := 0x0101010101010101#64
  let z := n
  let z := z - ((z >>> 1) &&& a)
  let z := (z &&& b) + ((z >>> 2) &&& b)
  (((z + (z >>> 4)) &&& c) * d) >>> 56

/-- `count_bits` (countbits.pyx:24-39) on an array. -/
def countBitsArr (n : List (BitVec 64)) : List (BitVec 64) := n.map countBits

/-- `__builtin_popcountl` (compiler builtin, countbits.pyx:19): external; its
documented contract is "the number of 1-bits". -/
def builtinPopcountl (x : BitVec 64) : Nat :=
  ((List.range 64).filter fun i => x.getLsbD i).length

/-- The inner loop of `count_packed_bits` (countbits.pyx:53-56): sum over the
words of one row.  Simplification: the accumulator is unbounded (a row would
need `2^58` words to overflow it). -/
def countPackedRow (row : List (BitVec 64)) : Nat :=
  row.foldl (fun z w => z + builtinPopcountl w) 0

/-- `hamming_distance` (npx.py:369-374): scalar `a` against an array `b`. -/
def hammingDistance (a : BitVec 64) (b : List (BitVec 64)) : List (BitVec 64) :=
  countBitsArr (b.map fun x => a ^^^ x)

/-- `packed_hamming_distance` (npx.py:377-386): packed scalar `a` against each
row of `b` (rows have as many words as `a`). -/
def packedDistance (a : List (BitVec 64)) (b : List (List (BitVec 64))) : List Nat :=
  b.map fun row => countPackedRow (List.zipWith (· ^^^ ·) a row)

end Zounds.PopCount
