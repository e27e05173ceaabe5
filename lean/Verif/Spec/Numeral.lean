import Verif.Basic

/-! # Specification: numerals -/

namespace Hacspec.Spec

/-- The characters `0`–`9`, `a`–`f` as bytes. -/
def digitChar (d : Nat) : BitVec 8 := if d < 10 then BitVec.ofNat 8 (0x30 + d) else BitVec.ofNat 8 (0x61 + (d - 10))

/-- The number written with the given digits, the most significant one first. -/
def positional (b : Nat) (ds : List Nat) : Nat := ds.foldl (fun a d => b * a + d) 0

/-- `s` is the numeral of `n` in base `b`: digits below `b` without superfluous zeros in front. -/
def Denotes (b : Nat) (s : List (BitVec 8)) (n : Nat) : Prop :=
  ∃ ds : List Nat, s = ds.map digitChar ∧ (∀ d ∈ ds, d < b) ∧ positional b ds = n ∧ (∃ d es, ds = d :: es ∧ (d = 0 → es = []))

/-- `s` is the decimal numeral of the integer `x`. -/
def DenotesInt (s : List (BitVec 8)) (x : Int) : Prop :=
  (∃ n : Nat, Denotes 10 s n ∧ x = n) ∨ ∃ (t : List (BitVec 8)) (n : Nat), s = 0x2d#8 :: t ∧ Denotes 10 t n ∧ 0 < n ∧ x = -(n : Int)

end Hacspec.Spec
