import Verif.Spec.Simulator

/-! # The simulator of a sponge

It knows the random function and answers questions about the permutation: at random, except where the random function fixes the answer. -/

namespace Hacspec.Spec

/-- The parts of a sponge: blocks `B` are mixed into states `X`; a state has an output `D` and a rest `R`, and an inner part `I` that
blocks do not change; the outputs are those after the blocks of the points `Y`. -/
structure Sponge (B X I D R Y : Type) where
  mix : B → X → X
  /-- The block that leads from one state to another one with the same inner part. -/
  unmix : X → X → B
  inner : X → I
  start : X
  split : X ≃ D × R
  path : Y → List B

namespace Sponge

variable {B X I D R Y : Type} (S : Sponge B X I D R Y)

/-- The state after some blocks. -/
def walk (π : X → X) : X → List B → X
  | x, [] => x
  | x, b :: bs => walk π (π (S.mix b x)) bs

/-- The output at a point. -/
def value (π : X → X) (y : Y) : D := (S.split (S.walk π S.start (S.path y))).1

/-- A question that was answered: `π x = y`; and the blocks that lead from the start to `y`, if there are any. -/
structure Entry (B X : Type) where
  x : X
  y : X
  blocks : Option (List B)

variable [DecidableEq I] [DecidableEq X]

/-- The blocks that lead from the start to the image of `x`, if they are known: the inner part of `x` is that of the start, or of a
state to which known blocks lead. -/
def route (T : List (Entry B X)) (x : X) : Option (List B) :=
  if S.inner x = S.inner S.start then some [S.unmix S.start x]
  else (T.find? fun e => e.blocks.isSome && S.inner e.y = S.inner x).bind fun e => e.blocks.map (· ++ [S.unmix e.y x])

open Classical in
/-- The point with these blocks. -/
noncomputable def point (bs : List B) : Option Y := if h : ∃ y, S.path y = bs then some h.choose else none

/-- The simulator's answer to a new question: random, except for the output if the blocks are those of a point. -/
noncomputable def invent (H : Y → D) (T : List (Entry B X)) (x c : X) : X :=
  match (S.route T x).bind S.point with
  | some y => S.split.symm (H y, (S.split c).2)
  | none => c

/-- The simulator: it answers a question to the permutation from its table `T`, the random function `H` and a random state `c`. -/
noncomputable def simulate (H : Y → D) (T : List (Entry B X)) (c : X) : Dir Unit X → X × List (Entry B X)
  | .fwd _ x => match T.find? fun e => e.x = x with
    | some e => (e.y, T)
    | none => (S.invent H T x c, ⟨x, S.invent H T x c, S.route T x⟩ :: T)
  | .bwd _ y => match T.find? fun e => e.y = y with
    | some e => (e.x, T)
    | none => (c, ⟨c, y, none⟩ :: T)

variable {Z A O : Type}

/-- Whoever asks the simulator, and questions `Z` that are answered with the random function by `ans`; `cs` are the random states
(those after the end of the list are the start). -/
noncomputable def simulated (H : Y → D) (ans : Z → A) : Prog (Dir Unit X ⊕ Z) (X ⊕ A) O → List X → List (Entry B X) → O
  | .ret o, _, _ => o
  | .ask (.inl d) k, cs, T =>
    simulated H ans (k (.inl (S.simulate H T (cs.headD S.start) d).1)) cs.tail (S.simulate H T (cs.headD S.start) d).2
  | .ask (.inr z) k, cs, T => simulated H ans (k (.inr (ans z))) cs T

end Sponge

end Hacspec.Spec
