import Mathlib.Algebra.Group.Basic
import Mathlib.Algebra.Module.NatInt
import Verif.Spec.AeadAttacks

/-! # Specification: attacks on sessions after a key exchange

As in `Verif.Spec.Generic`, whoever attacks computes with elements of a group without seeing them; but in between they can ask
questions `Q`. -/

namespace Hacspec.Spec

/-- A program that has a list of elements of a group, appends `c a + d b` for two elements `a` and `b` of the list, asks whether two
elements are equal, asks other questions, and ends with a result. -/
inductive ChannelAttack (Q R O : Type)
  | ret (o : O)
  | combine (c d : Int) (i j : Nat) (k : ChannelAttack Q R O)
  | compare (i j : Nat) (k : Bool → ChannelAttack Q R O)
  | ask (x : Q) (k : R → ChannelAttack Q R O)

namespace ChannelAttack

variable {Q R O G : Type} [AddCommGroup G]

open Classical in
/-- What is left for given elements: a program that asks the other questions. -/
noncomputable def play : ChannelAttack Q R O → List G → Prog Q R O
  | ret o, _ => .ret o
  | combine c d i j k, r => k.play (r ++ [c • r.getD i 0 + d • r.getD j 0])
  | compare i j k, r => (k (decide (r.getD i 0 = r.getD j 0))).play r
  | ask x k, r => .ask x fun y => (k y).play r

/-- At most `e` comparisons, whatever the answers are. -/
def Compares : ChannelAttack Q R O → Nat → Prop
  | ret _, _ => True
  | combine _ _ _ _ k, e => k.Compares e
  | compare _ _ k, e => ∃ e', e = e' + 1 ∧ ∀ b, (k b).Compares e'
  | ask _ k, e => ∀ y, (k y).Compares e

/-- What is left for some results of the comparisons, whether elements have them or not. -/
inductive Resolves : ChannelAttack Q R O → Prog Q R O → Prop
  | ret (o : O) : Resolves (.ret o) (.ret o)
  | combine {c d : Int} {i j : Nat} {k : ChannelAttack Q R O} {p : Prog Q R O} : Resolves k p → Resolves (.combine c d i j k) p
  | compare {i j : Nat} {k : Bool → ChannelAttack Q R O} (b : Bool) {p : Prog Q R O} : Resolves (k b) p → Resolves (.compare i j k) p
  | ask {x : Q} {k : R → ChannelAttack Q R O} {p : R → Prog Q R O} : (∀ y, Resolves (k y) (p y)) → Resolves (.ask x k) (.ask x p)

end ChannelAttack

end Hacspec.Spec
