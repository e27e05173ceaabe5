import Verif.Model.Hex

/-!
# Bounded big integers: `abstract-integers/src/abstract_int.rs`

A value of a type defined by `abstract_int!(name, bits, signed)` is its struct: the big-endian byte array
and the sign (`Canvas`).  `BigInt`/`BigUint` (crate `num`) are modelled by `Int`/`Nat` with the documented
mathematical meaning of their operations: `/` and `%` truncate, `modpow` is the floored residue of the
power, `>>` rounds down, `from_bytes_be(NoSign, _)` is zero.
-/

namespace Hacspec.AbstractInt

open SecretInt

/-- `num::bigint::Sign`. -/
inductive Sgn where
  | minus
  | noSign
  | plus
  deriving DecidableEq, Repr

/-- `abstract_int.rs:4-9` the struct; the field `signed` is a constant of the type. -/
structure Canvas where
  b : List U8
  sign : Sgn
  deriving DecidableEq, Repr

/-- `($bits + 7) / 8`. -/
def nb (bits : Nat) : Nat := (bits + 7) / 8

/-- Minimal little-endian bytes of a natural number, `[0]` for zero (`BigUint::to_bytes_le`). -/
def bytesLe (n : Nat) : List U8 := (List.range (n.log2 / 8 + 1)).map fun i => BitVec.ofNat 8 (n / 256 ^ i)

/-- `BigInt::to_bytes_be`/`sign` of a value. -/
def sgnOf (x : Int) : Sgn := if x < 0 then .minus else if x = 0 then .noSign else .plus

/-- `abstract_int.rs:12-14` `max()`. -/
def max (bits : Nat) : Int := 2 ^ bits - 1

/-- `abstract_int.rs:70-91` `From<BigInt>`. -/
def fromBig (bits : Nat) (signed : Bool) (x : Int) : M Canvas := do
  require (x < max bits)
  let sign := sgnOf x
  let repr := (bytesLe x.natAbs).reverse
  if sign = .minus ∧ signed = false then panic
  else if repr.length > nb bits then panic
  else .ok { b := List.replicate (nb bits - repr.length) 0#8 ++ repr, sign := sign }

/-- `abstract_int.rs:64-68` `From<BigUint>`. -/
def fromBigUint (bits : Nat) (signed : Bool) (x : Nat) : M Canvas := fromBig bits signed (x : Int)

/-- `abstract_int.rs:93-101` `default`. -/
def default (bits : Nat) : Canvas := { b := List.replicate (nb bits) 0#8, sign := .plus }

/-- `BigUint::from_bytes_be`. -/
def natOfBe (bytes : List U8) : Nat := leNat bytes.reverse

/-- `abstract_int.rs:103-107` `Into<BigInt>` (`BigInt::from_bytes_be(sign, bytes)`). -/
def toBig (c : Canvas) : Int :=
  match c.sign with
  | .minus => -(natOfBe c.b : Int)
  | .noSign => 0
  | .plus => natOfBe c.b

/-- `abstract_int.rs:109-113` `Into<BigUint>`: ignores the sign. -/
def toBigUint (c : Canvas) : Nat := natOfBe c.b

/-- `abstract_int.rs:26-32` `from_literal` (argument `u128`). -/
def fromLiteral (bits : Nat) (signed : Bool) (x : BitVec 128) : M Canvas := do
  let bigX : Int := x.toNat
  if bigX > max bits then panic else fromBig bits signed bigX

/-- `abstract_int.rs:35-41` `from_signed_literal`: `x as u128` reinterprets the bits. -/
def fromSignedLiteral (bits : Nat) (signed : Bool) (x : BitVec 128) : M Canvas := do
  let bigX : Int := x.toNat
  if bigX > max bits then panic else fromBig bits signed bigX

/-- `abstract_int.rs:45-47` `pow2`. -/
def pow2 (bits : Nat) (signed : Bool) (x : Nat) : M Canvas := fromBig bits signed (2 ^ x)

/-- `abstract_int.rs:51-61` `bit`. -/
def bit (c : Canvas) (i : Nat) : M Bool := do
  require (i < c.b.length * 8)
  .ok (decide ((toBig c >>> i) % 2 = 1))

/-! ## Arithmetic (`abstract_int.rs:131-310` public, `373-476` secret) -/

/-- `abstract_int.rs:164-174`, `387-397` `+`. -/
def add (bits : Nat) (signed : Bool) (x y : Canvas) : M Canvas := do
  let c := toBig x + toBig y
  if c > max bits then panic else fromBig bits signed c

/-- `abstract_int.rs:178-194`, `401-414` `-`; `BigInt::checked_sub` never fails, so both branches are the
difference. -/
def sub (bits : Nat) (signed : Bool) (x y : Canvas) : M Canvas := fromBig bits signed (toBig x - toBig y)

/-- `abstract_int.rs:198-211`, `418-431` `*`. -/
def mul (bits : Nat) (signed : Bool) (x y : Canvas) : M Canvas := do
  let c := toBig x * toBig y
  if c > max bits then panic else fromBig bits signed c

/-- `abstract_int.rs:215-225` `/` (public types). -/
def div (bits : Nat) (signed : Bool) (x y : Canvas) : M Canvas := do
  if toBig y = 0 then panic else fromBig bits signed ((toBig x).tdiv (toBig y))

/-- `abstract_int.rs:229-239, 376-384, 157-159` `%` (public), `rem` (secret), `rem` (public). -/
def rem (bits : Nat) (signed : Bool) (x y : Canvas) : M Canvas := do
  if toBig y = 0 then panic else fromBig bits signed ((toBig x).tmod (toBig y))

/-- `BigUint::modpow` for a positive modulus, by repeated squaring (`fuel` bits of the exponent). -/
def powModAux (m : Nat) : Nat → Nat → Nat → Nat
  | 0, _, _ => 1 % m
  | fuel + 1, a, e =>
    let r := powModAux m fuel (a * a % m) (e / 2)
    if e % 2 = 1 then a * r % m else r

/-- `BigUint::modpow`. -/
def powMod (a e m : Nat) : Nat := powModAux m (e.log2 + 1) a e

/-- `BigInt::modpow`: panics for a negative exponent or a zero modulus; the result has the sign of the
modulus (`num-bigint` 0.2 computes with absolute values and then fixes the sign). -/
def modpow (a e m : Int) : M Int := do
  require (0 ≤ e)
  require (m ≠ 0)
  let result := powMod a.natAbs e.natAbs m.natAbs
  if result = 0 then .ok 0
  else match decide (a < 0 ∧ e % 2 = 1), decide (m < 0) with
    | false, false => .ok result
    | true, false => .ok (m.natAbs - result : Int)
    | false, true => .ok (-(m.natAbs - result : Int))
    | true, true => .ok (-(result : Int))

/-- `abstract_int.rs:136-141` `inv`. -/
def inv (bits : Nat) (signed : Bool) (x modval : Canvas) : M Canvas := do
  let m := toBig modval
  let r ← modpow (toBig x) (m - 2) m
  fromBig bits signed r

/-- `abstract_int.rs:144-150` `pow_felem`. -/
def powFelem (bits : Nat) (signed : Bool) (x exp modval : Canvas) : M Canvas := do
  let r ← modpow (toBig x) (toBig exp) (toBig modval)
  fromBig bits signed r

/-- `abstract_int.rs:154-156` `pow` (exponent `u128`). -/
def pow (bits : Nat) (signed : Bool) (x : Canvas) (exp : BitVec 128) (modval : Canvas) : M Canvas := do
  let e ← fromBig bits signed (exp.toNat : Int)
  powFelem bits signed x e modval

/-- `abstract_int.rs:284-290` `==`. -/
def eq (x y : Canvas) : Bool := decide (toBig x = toBig y)

/-- `abstract_int.rs:294-308` `<` of the total order (`partial_cmp`, `cmp`). -/
def lt (x y : Canvas) : Bool := decide (toBig x < toBig y)

/-! ## Codecs -/

/-- `abstract_int.rs:317-319` `from_hex` of unsigned types. -/
def fromHex (bits : Nat) (s : List U8) : M Canvas := do
  let v ← Hex.hexStringToBytes s
  fromBig bits false (natOfBe v)

/-- `abstract_int.rs:322-324` `from_le_bytes`. -/
def fromLeBytes (bits : Nat) (v : List U8) : M Canvas := fromBig bits false (leNat v)

/-- `abstract_int.rs:327-329` `to_le_bytes`. -/
def toLeBytes (c : Canvas) : List U8 := bytesLe (toBig c).natAbs

/-- `abstract_int.rs:343-348` the sign argument of `from_hex`. -/
def parseSign (sign : List U8) : M Sgn :=
  if sign = [43#8] then .ok .plus
  else if sign = [45#8] then .ok .minus
  else if sign = [] then .ok .noSign
  else panic

/-- `abstract_int.rs:342-350` `from_hex` of signed types; `sign` is the string argument. -/
def fromHexSigned (bits : Nat) (sign : List U8) (s : List U8) : M Canvas := do
  let sg ← parseSign sign
  let v ← Hex.hexStringToBytes s
  fromBig bits true (toBig { b := v, sign := sg })

end Hacspec.AbstractInt
