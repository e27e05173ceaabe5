import Verif.Model.AbstractInt

/-!
# Modular integers: `abstract-integers/src/nat_mod.rs`, `hacspec/src/math_integers.rs`

A type defined by `abstract_nat_mod!(name, canvas, bits, n)` (or its public variant) wraps a canvas value.
The modulus literal is re-parsed by every operation (`$base::from_hex($n)`); here it is the canvas value
`maxC` computed from the number `n` (`NatTy.maxC`), which panics when `n` does not fit the canvas.
-/

namespace Hacspec.NatMod

open SecretInt AbstractInt

/-- A modular integer type: canvas width and modulus. -/
structure NatTy where
  bits : Nat
  n : Nat

/-- The value of `$base::from_hex($n)` (`nat_mod.rs:351, 359`). -/
def NatTy.maxC (T : NatTy) : M Canvas := fromBig T.bits false (T.n : Int)

/-- `nat_mod.rs:20-24` `From<$base>`: `x.rem($max)`.  (`nat_mod.rs:28-30` `into` and `nat_mod.rs:34-36` `max` are the
identity on the value and the constant `$max`.) -/
def fromCanvas (T : NatTy) (x : Canvas) : M Canvas := do
  let m ← T.maxC
  AbstractInt.rem T.bits false x m

/-- `BigUint → $base → $name` conversions used after every operation. -/
def fromNat (T : NatTy) (d : Nat) : M Canvas := do
  let d ← fromBigUint T.bits false d
  fromCanvas T d

/-- `nat_mod.rs:87-100`, `202-215` `+`. -/
def add (T : NatTy) (x y : Canvas) : M Canvas := do
  let c := toBigUint x + toBigUint y
  let m ← T.maxC
  require (toBigUint m ≠ 0)
  fromNat T (c % toBigUint m)

/-- `nat_mod.rs:111`, `226` `if b > a { max.clone() - b + a } else { a - b }`; `BigUint` subtraction panics on
underflow. -/
def subNat (m a b : Nat) : M Nat :=
  if b > a then do
    require (b ≤ m)
    .ok (m - b + a)
  else .ok (a - b)

/-- `nat_mod.rs:103-116`, `218-231` `-`. -/
def sub (T : NatTy) (x y : Canvas) : M Canvas := do
  let m ← T.maxC
  let c ← subNat (toBigUint m) (toBigUint x) (toBigUint y)
  require (toBigUint m ≠ 0)
  fromNat T (c % toBigUint m)

/-- `nat_mod.rs:119-132`, `234-247` `*`. -/
def mul (T : NatTy) (x y : Canvas) : M Canvas := do
  let c := toBigUint x * toBigUint y
  let m ← T.maxC
  require (toBigUint m ≠ 0)
  fromNat T (c % toBigUint m)

/-- `nat_mod.rs:250-263` `/` (public types). -/
def div (T : NatTy) (x y : Canvas) : M Canvas := do
  require (toBigUint y ≠ 0)
  let c := toBigUint x / toBigUint y
  let m ← T.maxC
  require (toBigUint m ≠ 0)
  fromNat T (c % toBigUint m)

/-- `nat_mod.rs:266-279` `%` (public types). -/
def rem (T : NatTy) (x y : Canvas) : M Canvas := do
  require (toBigUint y ≠ 0)
  let c := toBigUint x % toBigUint y
  let m ← T.maxC
  require (toBigUint m ≠ 0)
  fromNat T (c % toBigUint m)

/-- `nat_mod.rs:325-328` `inv` (public types). -/
def inv (T : NatTy) (x : Canvas) : M Canvas := do
  let m ← T.maxC
  let r ← AbstractInt.inv T.bits false x m
  fromCanvas T r

/-- `nat_mod.rs:331-334` `pow_felem`. -/
def powFelem (T : NatTy) (x exp : Canvas) : M Canvas := do
  let m ← T.maxC
  let r ← AbstractInt.powFelem T.bits false x exp m
  fromCanvas T r

/-- `nat_mod.rs:338-341` `pow`. -/
def pow (T : NatTy) (x : Canvas) (exp : BitVec 128) : M Canvas := do
  let m ← T.maxC
  let r ← AbstractInt.pow T.bits false x exp m
  fromCanvas T r

/-- `nat_mod.rs:60-66` `from_literal`: not reduced. -/
def fromLiteral (T : NatTy) (x : BitVec 128) : M Canvas := do
  let m ← T.maxC
  if x.toNat > toBigUint m then panic else fromBigUint T.bits false x.toNat

/-- `nat_mod.rs:69-75` `from_signed_literal`: the two's complement bits of the literal, not reduced. -/
def fromSignedLiteral (T : NatTy) (x : BitVec 128) : M Canvas := do
  let m ← T.maxC
  if x.toNat > toBigUint m then panic else fromBigUint T.bits false x.toNat

/-- `nat_mod.rs:39-41` `from_hex`. -/
def fromHex (T : NatTy) (s : List U8) : M Canvas := do
  let c ← AbstractInt.fromHex T.bits s
  fromCanvas T c

/-- `nat_mod.rs:44-46` `from_le_bytes`; `math_integers.rs:680-687` `from_byte_seq_le`. -/
def fromLeBytes (T : NatTy) (v : List U8) : M Canvas := do
  let c ← AbstractInt.fromLeBytes T.bits v
  fromCanvas T c

/-- `nat_mod.rs:49-51` `to_le_bytes`; `math_integers.rs:690-704` `to_byte_seq_le`,
`to_public_byte_seq_le`. -/
def toLeBytes (x : Canvas) : List U8 := AbstractInt.toLeBytes x

/-- `nat_mod.rs:55-57` `bit`. -/
def bit (x : Canvas) (i : Nat) : M Bool := AbstractInt.bit x i

/-- `nat_mod.rs:185-199` `==` and the order (public types). -/
def eq (x y : Canvas) : Bool := AbstractInt.eq x y

/-- `Default` (derived): the canvas default. -/
def default (T : NatTy) : Canvas := AbstractInt.default T.bits

end Hacspec.NatMod
