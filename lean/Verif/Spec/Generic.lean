import Mathlib.Algebra.Group.Basic
import Mathlib.Algebra.Module.NatInt
import Verif.Spec.Shares

/-! # Specification: attacks that use nothing but the group

Whoever attacks computes with elements of a group without seeing them: they combine elements and learn whether two are equal. -/

namespace Hacspec.Spec

/-- A program that has a list of elements of a group, appends `c a + d b` for two elements `a` and `b` of the list, asks whether two
elements are equal, and ends with a result. -/
inductive GroupAttack (O : Type)
  | ret (o : O)
  | combine (c d : Int) (i j : Nat) (k : GroupAttack O)
  | compare (i j : Nat) (k : Bool → GroupAttack O)

namespace GroupAttack

variable {O G : Type} [AddCommGroup G]

open Classical in
/-- The result and all elements. -/
noncomputable def run : GroupAttack O → List G → O × List G
  | ret o, r => (o, r)
  | combine c d i j k, r => k.run (r ++ [c • r.getD i 0 + d • r.getD j 0])
  | compare i j k, r => (k (decide (r.getD i 0 = r.getD j 0))).run r

/-- At most `e` comparisons, whatever the answers are. -/
def Compares : GroupAttack O → Nat → Prop
  | ret _, _ => True
  | combine _ _ _ _ k, e => k.Compares e
  | compare _ _ k, e => ∃ e', e = e' + 1 ∧ ∀ b, (k b).Compares e'

end GroupAttack

end Hacspec.Spec
