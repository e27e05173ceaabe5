import Mathlib.Data.Finset.Fold
import Mathlib.Data.Fintype.Basic
import Verif.Spec.Bytes

/-! # Specification: the sum of the bytes that a function takes -/

namespace Hacspec.Spec

instance xorOver_comm : Std.Commutative (fun a b : BitVec 8 => a ^^^ b) := ⟨BitVec.xor_comm⟩
instance xorOver_assoc : Std.Associative (fun a b : BitVec 8 => a ^^^ b) := ⟨BitVec.xor_assoc⟩

/-- The exclusive or of all values of `f`. -/
def xorOver {Ω : Type} [Fintype Ω] (f : Ω → BitVec 8) : BitVec 8 := Finset.univ.fold (fun a b => a ^^^ b) 0 f

end Hacspec.Spec
