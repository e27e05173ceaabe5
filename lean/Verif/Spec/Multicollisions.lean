import Verif.Spec.Games

/-! # Specification: many messages with one digest

Whoever can find two blocks with one digest after any given beginning uses this `t` times, and chooses one of two blocks each time. -/

namespace Hacspec.Spec

/-- `find` is used `t` times, each time after the first of the two blocks that were found last. -/
def pairsFrom {α : Type} (find : List α → List α × List α) : Nat → List α → List (List α × List α)
  | 0, _ => []
  | t + 1, m => find m :: pairsFrom find t (m ++ (find m).1)

/-- All messages that consist of one block of each pair. -/
def choices {α : Type} : List (List α × List α) → List (List α)
  | [] => [[]]
  | p :: ps => (choices ps).map (p.1 ++ ·) ++ (choices ps).map (p.2 ++ ·)

/-- After any beginning of whole blocks of `n` bytes, `find` finds two different blocks with one digest; messages are shorter than `N`. -/
def Finds {D : Type} (h : List (BitVec 8) → D) (n N : Nat) (find : List (BitVec 8) → List (BitVec 8) × List (BitVec 8)) : Prop :=
  ∀ m, m.length % n = 0 → m.length + n < N →
    (find m).1.length = n ∧ (find m).2.length = n ∧ (find m).1 ≠ (find m).2 ∧ h (m ++ (find m).1) = h (m ++ (find m).2)

end Hacspec.Spec
