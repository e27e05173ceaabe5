import Mathlib.Algebra.CharP.Defs
import Mathlib.Algebra.Field.Basic
import Mathlib.Tactic.Ring

/-! # Arithmetic modulo `q` on natural numbers, for evaluation by the kernel -/

namespace Hacspec.NatEval

/-- `f x`, with `x` evaluated first. -/
def force (x : Nat) (f : Nat → α) : α :=
  match x with
  | 0 => f 0
  | m + 1 => f (m + 1)

theorem force_eq (x : Nat) (f : Nat → α) : force x f = f x := by cases x <;> rfl

def sub (q a b : Nat) : Nat := (a + (q - b % q)) % q
def mul (q a b : Nat) : Nat := a * b % q

variable {K : Type} [Field K] {q : Nat} [CharP K q]

theorem cast_modq (a : Nat) : ((a % q : Nat) : K) = a := by
  conv_rhs => rw [← Nat.div_add_mod a q]
  rw [Nat.cast_add, Nat.cast_mul, CharP.cast_eq_zero K q, zero_mul, zero_add]

theorem cast_sub (hq : 0 < q) (a b : Nat) : ((sub q a b : Nat) : K) = a - b := by
  rw [sub, cast_modq, Nat.cast_add, Nat.cast_sub (Nat.mod_lt _ hq).le, cast_modq, CharP.cast_eq_zero K q]
  ring

theorem cast_mul (a b : Nat) : ((mul q a b : Nat) : K) = a * b := by
  rw [mul, cast_modq, Nat.cast_mul]

theorem mul_lt (hq : 0 < q) (a b : Nat) : mul q a b < q := Nat.mod_lt _ hq
theorem sub_lt (hq : 0 < q) (a b : Nat) : sub q a b < q := Nat.mod_lt _ hq

theorem eq_zero_of_cast {a : Nat} (ha : a < q) (h : (a : K) = 0) : a = 0 :=
  Nat.eq_zero_of_dvd_of_lt ((CharP.cast_eq_zero_iff K q a).mp h) ha

end Hacspec.NatEval
