import Mathlib.Data.List.Forall2

/-! # Specification: sums over affine spaces of states -/

namespace Hacspec.Spec.Fips202

/-- The exclusive or of two states of 25 lanes. -/
def xorLanes (s t : List (BitVec 64)) : List (BitVec 64) := List.zipWith (· ^^^ ·) s t

/-- The `2^n` states `s + c_1 v_1 + ... + c_n v_n` for bits `c_i`. -/
def space (s : List (BitVec 64)) : List (List (BitVec 64)) → List (List (BitVec 64))
  | [] => [s]
  | v :: vs => space s vs ++ space (xorLanes s v) vs

/-- The exclusive or of all states of a list. -/
def total (l : List (List (BitVec 64))) : List (BitVec 64) := l.foldr xorLanes (List.replicate 25 0)

end Hacspec.Spec.Fips202
