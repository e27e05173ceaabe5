import Verif.Model.NatMod

/-!
# X25519: `spec-examples/src/curve25519/curve25519.rs`

`FieldElement` and `Scalar` are types made by `public_nat_mod!`, so `pow`, `inv`, `bit`, `+`, `-`, `*` are the
operations of `Verif/Model/NatMod.lean` (`x.pow(2)` is the inherent method with a `u128` exponent).
`SerializedPoint` and `SerializedScalar` are 32-byte arrays, modelled by lists; functions that index them panic on
shorter lists.
-/

namespace Hacspec.Curve25519

open SecretInt Hacspec.Seq NatMod
open AbstractInt (Canvas)

/-- `curve25519.rs:4-9` `FieldElement`. -/
def F : NatTy := { bits := 256, n := 0x7fffffffffffffffffffffffffffffffffffffffffffffffffffffffffffffed }

/-- `curve25519.rs:10-15` `Scalar`. -/
def S : NatTy := { bits := 256, n := 0x8000000000000000000000000000000000000000000000000000000000000000 }

/-- `curve25519.rs:17` `Point`. -/
abbrev Point := Canvas × Canvas

/-- `curve25519.rs:21-27` `mask_scalar`. -/
def maskScalar (s : List U8) : M (List U8) := do
  let b ← idx s 0
  let k ← setIdx s 0 (b &&& 248)
  let b ← idx k 31
  let k ← setIdx k 31 (b &&& 127)
  let b ← idx k 31
  setIdx k 31 (b ||| 64)

/-- `curve25519.rs:30-33` `decode_scalar`. -/
def decodeScalar (s : List U8) : M Canvas := do
  let k ← maskScalar s
  fromLeBytes S k

/-- `curve25519.rs:35-42` `decode_point`. -/
def decodePoint (u : List U8) : M Point := do
  let b ← idx u 31
  let u ← setIdx u 31 (b &&& 127)
  let x ← fromLeBytes F u
  let one ← fromLiteral F 1
  .ok (x, one)

/-- `curve25519.rs:44-48` `encode_point`. -/
def encodePoint (p : Point) : M (List U8) := do
  let (x, y) := p
  let yi ← inv F y
  let b ← mul F x yi
  updateStart (new 32) (toLeBytes b)

/-- `curve25519.rs:50-70` `point_add_and_double`. -/
def pointAddAndDouble (q : Point) (acc : Point × Point) : M (Point × Point) := do
  let (x1, _) := q
  let ((x2, z2), (x3, z3)) := acc
  let a ← add F x2 z2
  let aa ← pow F a 2
  let b ← sub F x2 z2
  let bb ← mul F b b
  let e ← sub F aa bb
  let c ← add F x3 z3
  let d ← sub F x3 z3
  let da ← mul F d a
  let cb ← mul F c b
  let t ← add F da cb
  let x3 ← pow F t 2
  let t ← sub F da cb
  let t ← pow F t 2
  let z3 ← mul F x1 t
  let x2 ← mul F aa bb
  let e121665 ← fromLiteral F 121665
  let t ← mul F e121665 e
  let t ← add F aa t
  let z2 ← mul F e t
  .ok ((x2, z2), (x3, z3))

/-- `curve25519.rs:72-74` `swap`. -/
def swap (x : Point × Point) : Point × Point := (x.2, x.1)

/-- `curve25519.rs:80-88` body of the loop of `montgomery_ladder`. -/
def ladderStep (k : Canvas) (init : Point) (i : Nat) (acc : Point × Point) : M (Point × Point) := do
  let b ← NatMod.bit k (255 - i)
  if b then do
    let acc ← pointAddAndDouble init (swap acc)
    .ok (swap acc)
  else pointAddAndDouble init acc

/-- `curve25519.rs:76-90` `montgomery_ladder`. -/
def montgomeryLadder (k : Canvas) (init : Point) : M Point := do
  let one ← fromLiteral F 1
  let zero ← fromLiteral F 0
  let acc ← loop 256 (ladderStep k init) ((one, zero), init)
  .ok acc.1

/-- `curve25519.rs:92-97` `scalarmult`. -/
def scalarmult (s p : List U8) : M (List U8) := do
  let s ← decodeScalar s
  let p ← decodePoint p
  let r ← montgomeryLadder s p
  encodePoint r

/-- `curve25519.rs:99-102` `secret_to_public`; the string literal is the bytes of `"09"`. -/
def secretToPublic (s : List U8) : M (List U8) := do
  let base ← Hex.arrFromHex 32 [48, 57]
  scalarmult s base

end Hacspec.Curve25519
