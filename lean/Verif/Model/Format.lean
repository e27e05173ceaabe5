import Verif.Model.AbstractInt
import Verif.Model.Poly

/-!
# Printing: the `fmt` functions of all crates, for `{}`, `{:?}` and `{:x}` without flags

The conversion of machine integers, `BigInt` and slices to text is that of the Rust standard library and of the crate `num`
as documented (decimal or lower-case hexadecimal without leading zeros, `-` for negative numbers, `[a, b]` for slices); a
string is the list of its bytes.
-/

namespace Hacspec.Format

open SecretInt AbstractInt

/-- The digits of a number in base `b` (at least 2), the most significant one first. -/
def digits (b n : Nat) : List Nat := if h : n < b ∨ b < 2 then [n] else digits b (n / b) ++ [n % b]
  termination_by n
  decreasing_by exact Nat.div_lt_self (by omega) (by omega)

/-- `{}` of an unsigned integer or `BigUint`. -/
def decNat (n : Nat) : List U8 := (digits 10 n).map Hex.hexChar

/-- `{}` of a signed integer or `BigInt`. -/
def decInt (x : Int) : List U8 := if x < 0 then 45#8 :: decNat x.natAbs else decNat x.natAbs

/-- `secret-integers/src/lib.rs:293-304` `Display` and `Debug` of the unsigned types. -/
def fmtU {w : Nat} (x : BitVec w) : List U8 := decNat (declassify x).toNat

/-- `secret-integers/src/lib.rs:293-304` `Display` and `Debug` of the signed types. -/
def fmtI {w : Nat} (x : BitVec w) : List U8 := decInt (declassify x).toInt

/-- `secret-integers/src/lib.rs:305-310` `LowerHex`; signed integers are printed in two's complement. -/
def fmtHex {w : Nat} (x : BitVec w) : List U8 := (digits 16 (declassify x).toNat).map Hex.hexChar

/-- `abstract_int.rs:115-127` `Display` and `Debug` of the bounded integers; `nat_mod.rs:7-19` of the modular integers, whose
`into` is the identity on the canvas. -/
def fmtCanvas (c : Canvas) : List U8 := decInt (toBig c)

/-- `{:?}` of a slice, given the texts of the elements. -/
def fmtItems : List (List U8) → List U8
  | [] => [91#8, 93#8]
  | x :: xs => 91#8 :: (x ++ (xs.flatMap fun y => 44#8 :: 32#8 :: y) ++ [93#8])

/-- `array.rs:516-524` `Debug` of secret arrays (unsigned elements), `array.rs:496-504`, `623-628` of generic and public
arrays. -/
def fmtArrU {w : Nat} (a : List (BitVec w)) : List U8 := fmtItems ((a.map declassify).map fmtU)

/-- The same for signed elements. -/
def fmtArrI {w : Nat} (a : List (BitVec w)) : List U8 := fmtItems ((a.map declassify).map fmtI)

/-- `seq.rs:14`, `22` derived `Debug`: the name of the struct and its field `b`. -/
def fmtSeqU {w : Nat} (name : List U8) (a : List (BitVec w)) : List U8 :=
  name ++ ([32#8, 123#8, 32#8, 98#8, 58#8, 32#8] ++ (fmtItems (a.map fmtU) ++ [32#8, 125#8]))

/-- `{:?}` of a string without special characters: in quotes. -/
def quoted (s : List U8) : List U8 := 34#8 :: (s ++ [34#8])

/-- `"poly: "`. -/
def txtPoly : List U8 := [112#8, 111#8, 108#8, 121#8, 58#8, 32#8]
/-- `", irr: "`. -/
def txtIrr : List U8 := [44#8, 32#8, 105#8, 114#8, 114#8, 58#8, 32#8]
/-- `", n: "`. -/
def txtN : List U8 := [44#8, 32#8, 110#8, 58#8, 32#8]

/-- `poly.rs:449-459` `Debug` of a `poly!` type with unsigned coefficients: `fmt` on the string literals is that of `Debug`
(the only formatting trait in scope), which adds quotes. -/
def fmtPolyU {w : Nat} (poly irr : List (BitVec w)) (n : BitVec w) : List U8 :=
  quoted txtPoly ++ (fmtItems (poly.map fmtU) ++ (quoted txtIrr ++ (fmtItems (irr.map fmtU) ++ (quoted txtN ++ fmtU n))))

end Hacspec.Format
