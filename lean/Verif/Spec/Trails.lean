import Verif.Spec.Bytes
import Verif.Spec.Games
import Verif.Spec.Shares

/-! # Specification: differences of two blocks through the rounds of a cipher -/

namespace Hacspec.Spec

/-- The number of bytes that are not zero. -/
def weight (d : List (BitVec 8)) : Nat := (d.filter fun x => x != 0).length

/-- Two blocks, `s` and the one with difference `Δ 0` from it, have the differences `Δ 1`, `Δ 2`, ... after the rounds with the
keys `k 0`, `k 1`, ... -/
def Follows (round : List (BitVec 8) → List (BitVec 8) → M (List (BitVec 8))) (Δ : Nat → Bytes 16) {n : Nat} (k : Fin n → Bytes 16)
    (s : Bytes 16) : Prop :=
  ∃ a b : Nat → List (BitVec 8), a 0 = s.1 ∧ b 0 = xor s.1 (Δ 0).1 ∧ ∀ i : Fin n,
    round (a i) (k i).1 = .ok (a (i + 1)) ∧ round (b i) (k i).1 = .ok (b (i + 1)) ∧ xor (a (i + 1)) (b (i + 1)) = (Δ (i + 1)).1

end Hacspec.Spec
