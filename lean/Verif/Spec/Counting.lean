import Mathlib.Data.Set.Finite.List
import Mathlib.Data.Fintype.EquivFin

/-! # Specification: counting byte strings -/

namespace Hacspec.Spec

theorem finite_byteStrings (n : Nat) : {l : List (BitVec 8) | l.length = n}.Finite :=
  haveI : Finite (BitVec 8) := Finite.of_injective BitVec.toFin fun _ _ h => BitVec.eq_of_toFin_eq h
  List.finite_length_eq (BitVec 8) n

/-- The strings of `n` bytes. -/
noncomputable def byteStrings (n : Nat) : Finset (List (BitVec 8)) := (finite_byteStrings n).toFinset

end Hacspec.Spec
