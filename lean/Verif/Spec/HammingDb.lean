import Verif.Model.HammingDb
/-!
# Specification for properties C11, C12, C15 (HammingDb)
-/

namespace Zounds.Props.HammingDb
open Zounds Zounds.HammingDb

/-! ## Specification

The database is, to its users, the list of records whose `append` returned
without an exception. -/

/-- One record of the database. -/
structure Rec where
  id : Nat
  code : Bytes
  data : Bytes
  deriving DecidableEq, Repr, Inhabited

/-- The record added by an operation, given what the operation returned. -/
def newRec : Op → Out → List Rec
  | .append _ code data id _, .ok _ => [⟨id, code.encode, data.encode⟩]
  | _, _ => []

/-- The records of the appends that returned normally, in order. -/
def accepted (np : Numpy) (w : World) : List Op → List Rec
  | [] => []
  | op :: ops => newRec op (step np w op).2 ++ accepted np (step np w op).1 ops

/-- The random id drawn by an operation. -/
def newId? : Op → Option Nat
  | .append _ _ _ id _ => some id
  | _ => none

/-- Random ids do not collide. -/
def FreshIds (ops : List Op) : Prop := (ops.filterMap newId?).Nodup

/-- No write transaction fails at commit time. -/
def CommitsSucceed (ops : List Op) : Prop := ∀ k c d id, Op.append k c d id false ∉ ops

/-- A text every character of which takes one byte, or a byte string. -/
def Plain : PyText → Prop
  | .bytes _ => True
  | .str cs => ∀ c ∈ cs, c.toNat < 128

/-- All codes appended are byte strings or ASCII text. -/
def PlainCodes (ops : List Op) : Prop := ∀ k c d id b, Op.append k c d id b ∈ ops → Plain c

/-- Number of bit positions at which two byte strings differ. -/
def bitDistance : Bytes → Bytes → Nat
  | x :: xs, y :: ys =>
    ((List.range 8).filter fun i => x.toNat.testBit i != y.toNat.testBit i).length + bitDistance xs ys
  | _, _ => 0

/-- What numpy promises about `argpartition` and `argsort`: any such permutation
is legal. -/
structure Legal (np : Numpy) : Prop where
  part_perm : ∀ s k, k < s.length → (np.argpartition s k).Perm (List.range s.length)
  part_le : ∀ s k, k < s.length → ∀ a ∈ (np.argpartition s k).take k,
    ∀ b ∈ (np.argpartition s k).drop k, s.getD a 0 ≤ s.getD b 0
  sort_perm : ∀ s, (np.argsort s).Perm (List.range s.length)
  sort_le : ∀ s, (np.argsort s).Pairwise fun a b => s.getD a 0 ≤ s.getD b 0

/-- The code size that a history of operations fixes: the argument of the first
`open` that names a multiple of eight. -/
def firstSize : List Op → Option Nat
  | [] => none
  | .open (some a) _ :: ops => if a % 8 = 0 then some a else firstSize ops
  | _ :: ops => firstSize ops

end Zounds.Props.HammingDb
