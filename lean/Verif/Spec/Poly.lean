import Mathlib.Algebra.Polynomial.Basic
import Mathlib.Data.ZMod.Basic

/-! # Specification: the polynomial denoted by a coefficient sequence -/

namespace Hacspec.Spec

open Polynomial

/-- The polynomial `c₀ + c₁ X + c₂ X² + …` over a ring, for integer coefficients. -/
noncomputable def polyOf (R : Type) [CommRing R] : List Int → R[X]
  | [] => 0
  | c :: cs => C (c : R) + X * polyOf R cs

end Hacspec.Spec
