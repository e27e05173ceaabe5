import Verif.Spec.Shares

/-! # Specification: a random function in place of a construction from a permutation

A construction from a permutation that everybody can ask is as good as a random function if somebody who knows only the random function
can answer the questions about the permutation, such that nobody sees a difference: the simulator. -/

namespace Hacspec.Spec

/-- Who answers questions about a permutation of `X`: from a state and a random `C` for each question, with questions to a function from
`Y` to `D`. -/
structure Simulator (C X Y D : Type) where
  State : Type
  start : State
  answer : State → C → Dir Unit X → Prog Y D (X × State)

/-- The result of an attack if the questions about the permutation are answered by the simulator, which asks `H`, and the others by
`ans`.  None if there are more questions about the permutation than random values. -/
def Simulator.run {C X Y D Z A O : Type} (sim : Simulator C X Y D) (H : Y → D) (ans : Z → A) :
    Prog (Dir Unit X ⊕ Z) (X ⊕ A) O → List C → sim.State → Option O
  | .ret o, _, _ => some o
  | .ask (.inl d) k, c :: cs, s => run sim H ans (k (.inl ((sim.answer s c d).run H).1)) cs ((sim.answer s c d).run H).2
  | .ask (.inl _) _, [], _ => none
  | .ask (.inr z) k, cs, s => run sim H ans (k (.inr (ans z))) cs s

end Hacspec.Spec
