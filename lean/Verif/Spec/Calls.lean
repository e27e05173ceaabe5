import Verif.Basic

/-! # Specification: iterated compression functions

The calls that an iterated hash function makes of its compression function, and what it means that two computations collide.
Collisions of a compression function exist for counting reasons; the statements below therefore speak about the inputs that
occur in the two given computations. -/

namespace Hacspec.Spec

variable {B S : Type}

/-- The chaining value after the given blocks. -/
def chained (f : B → S → M S) : S → List B → M S
  | s, [] => .ok s
  | s, b :: bs => f b s >>= fun t => chained f t bs

/-- The inputs (block, chaining value) of the calls made on the way. -/
def callsFrom (f : B → S → M S) : S → List B → List (B × S)
  | _, [] => []
  | s, b :: bs => (b, s) :: match f b s with
    | .ok t => callsFrom f t bs
    | .error _ => []

/-- Two lists of calls contain two different inputs with the same result. -/
def Collide (f : B → S → M S) (l l' : List (B × S)) : Prop :=
  ∃ x ∈ l, ∃ y ∈ l', x ≠ y ∧ ∃ t, f x.1 x.2 = .ok t ∧ f y.1 y.2 = .ok t

/-- A list of calls contains an input that is mapped to `s`. -/
def Reaches (f : B → S → M S) (s : S) (l : List (B × S)) : Prop := ∃ x ∈ l, f x.1 x.2 = .ok s

/-- The full blocks of `n` elements of a string. -/
def fullBlocks {α : Type} (n : Nat) (l : List α) : List (List α) :=
  (List.range (l.length / n)).map fun i => (l.drop (n * i)).take n

end Hacspec.Spec
