import Mathlib.Data.Fintype.Perm
import Mathlib.Data.Fintype.BigOperators
import Mathlib.Data.Fintype.Vector

/-! # Specification: attacks that ask questions

Whoever attacks is a program that asks questions, each of which may depend on the answers so far, and ends with a result. -/

namespace Hacspec.Spec

/-- A program that asks questions `Q`, gets answers `R` and returns an `O`. -/
inductive Prog (Q R O : Type)
  | ret (o : O)
  | ask (x : Q) (k : R → Prog Q R O)

namespace Prog

variable {Q R O : Type}

/-- The result if the questions are answered by `ev`. -/
def run (ev : Q → R) : Prog Q R O → O
  | ret o => o
  | ask x k => (k (ev x)).run ev

/-- At most `n` questions are asked, whatever the answers are. -/
def Within : Prog Q R O → Nat → Prop
  | ret _, _ => True
  | ask _ k, n => ∃ m, n = m + 1 ∧ ∀ r, (k r).Within m

end Prog

/-- Questions about block ciphers: encipher or decipher a block with a key. -/
inductive Dir (K X : Type)
  | fwd (k : K) (x : X)
  | bwd (k : K) (y : X)

/-- The answer of the block cipher `E`. -/
def Dir.answer {K X : Type} (E : K → Equiv.Perm X) : Dir K X → X
  | .fwd k x => E k x
  | .bwd k y => (E k).symm y

/-- The strings of `n` words of `w` bits, as a type. -/
abbrev Words (w n : Nat) : Type := {l : List (BitVec w) // l.length = n}

instance instFintypeBits (w : Nat) : Fintype (BitVec w) :=
  Fintype.ofEquiv (Fin (2 ^ w)) ⟨BitVec.ofFin, BitVec.toFin, fun _ => rfl, fun _ => rfl⟩

instance instFintypeWords (w n : Nat) : Fintype (Words w n) := inferInstanceAs (Fintype (List.Vector (BitVec w) n))

end Hacspec.Spec
