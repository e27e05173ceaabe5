import Mathlib.Algebra.Order.Field.Rat
import Mathlib.Algebra.Field.Rat
import Verif.Spec.Oracles

/-! # Specification: how often an attack succeeds

Shares of all possibilities, and attacks that ask two kinds of questions. -/

namespace Hacspec.Spec

open Classical in
/-- The share of the possibilities for which `P` holds: the probability of `P` if all are equally likely. -/
noncomputable def share {Ω : Type} [Fintype Ω] (P : Ω → Prop) : ℚ := (Finset.univ.filter P).card / Fintype.card Ω

/-- At most `q` questions of the first kind and `n` of the second are asked, whatever the answers are. -/
def Prog.Counts {Q Q' R O : Type} : Prog (Q ⊕ Q') R O → Nat → Nat → Prop
  | .ret _, _, _ => True
  | .ask (.inl _) k, q, n => ∃ q', q = q' + 1 ∧ ∀ r, (k r).Counts q' n
  | .ask (.inr _) k, q, n => ∃ n', n = n' + 1 ∧ ∀ r, (k r).Counts q n'

end Hacspec.Spec
