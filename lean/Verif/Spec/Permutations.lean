import Verif.Spec.Games
import Verif.Spec.Shares
import Mathlib.Algebra.Order.AbsoluteValue.Basic

/-! # Specification: attacks on a permutation that everybody can ask and on a function that is made from it -/

namespace Hacspec.Spec

/-- Answers to two kinds of questions. -/
def sideAnswer {D X J Y : Type} (g : D → X) (f : J → Y) : D ⊕ J → X ⊕ Y
  | .inl d => .inl (g d)
  | .inr j => .inr (f j)

/-- Answers of a permutation, in both directions, and of a function. -/
def bothAnswer {X J Y : Type} (π : Equiv.Perm X) (f : J → Y) : Dir Unit X ⊕ J → X ⊕ Y := sideAnswer (Dir.answer fun _ => π) f

/-- Whoever attacks asks the permutation, and for blocks by nonce and counter. -/
abbrev BlockAttack (O : Type) : Type :=
  Prog (Dir Unit (Words 32 16) ⊕ Bytes 12 × BitVec 32) (Words 32 16 ⊕ M (List (BitVec 8))) O

/-- For `q` questions to the permutation and `a` blocks: `q(1+a)/2²⁵⁶ + a(a-1)/2⁵¹³`. -/
def blockBound (q a : Nat) : ℚ := q * (1 + a) / 2 ^ 256 + a * (a - 1) / 2 ^ 513

end Hacspec.Spec
