/-! # Counting differences

Specification side only: nothing here mentions the model. -/

namespace Spec

/-- The number of positions at which two equally long byte strings differ. -/
def diffBytes (a b : List (BitVec 8)) : Nat := ((a.zip b).filter fun p => p.1 != p.2).length

/-- The number of bytes `x` with `p x`. -/
def countBytes (p : BitVec 8 → Bool) : Nat := ((List.range 256).filter fun i => p (BitVec.ofNat 8 i)).length

end Spec
