import Verif.Spec.Bytes
import Verif.Spec.Games
import Verif.Spec.Shares

/-! # Specification: linear equations between bits of blocks and keys -/

namespace Hacspec.Spec

/-- Whether an odd number of bits are set. -/
def odd8 (x : BitVec 8) : Bool := (List.range 8).foldr (fun i b => x.getLsbD i ^^ b) false

/-- The sum of the bits of `s` that the mask `u` selects. -/
def dot (u s : List (BitVec 8)) : Bool := (List.zipWith (fun a b => odd8 (a &&& b)) u s).foldr Bool.xor false

/-- The bits of the first block selected by `u 0` and those of the block after `n` rounds selected by `u n` have the same sum as the
bits of the round keys selected by `u 1`, ..., `u n`. -/
def LinearHolds (round : List (BitVec 8) → List (BitVec 8) → M (List (BitVec 8))) (u : Nat → Bytes 16) {n : Nat} (k : Fin n → Bytes 16)
    (s : Bytes 16) : Prop :=
  ∃ a : Nat → List (BitVec 8), a 0 = s.1 ∧ (∀ i : Fin n, round (a i) (k i).1 = .ok (a (i + 1))) ∧
    (dot (u 0).1 (a 0) ^^ dot (u n).1 (a n)) = ((List.finRange n).map fun i : Fin n => dot (u (i + 1)).1 (k i).1).foldr Bool.xor false

end Hacspec.Spec
