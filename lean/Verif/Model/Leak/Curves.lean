import Verif.Model.Leak.Seq
import Verif.Model.Curve25519
import Verif.Model.P256

/-! # The scalar multiplications of `Verif/Model/Curve25519.lean` and `Verif/Model/P256.lean`, with the visible events

The arithmetic of the field elements counts as straight-line code (see `Poly1305.lean`). -/

namespace Hacspec.Leak.Curve25519

open SecretInt Leak.Seq NatMod
open Hacspec.Seq (new)
open AbstractInt (Canvas)
open Hacspec.Curve25519 (F S Point swap pointAddAndDouble)

/-- `curve25519.rs:21-27` `mask_scalar`. -/
def maskScalar (s : List U8) : L (List U8) := do
  let b ← idx s 0
  let k ← setIdx s 0 (b &&& 248)
  let b ← idx k 31
  let k ← setIdx k 31 (b &&& 127)
  let b ← idx k 31
  setIdx k 31 (b ||| 64)

/-- `curve25519.rs:30-33` `decode_scalar`. -/
def decodeScalar (s : List U8) : L Canvas := do
  let k ← maskScalar s
  lift (fromLeBytes S k)

/-- `curve25519.rs:35-42` `decode_point`. -/
def decodePoint (u : List U8) : L Point := do
  let b ← idx u 31
  let u ← setIdx u 31 (b &&& 127)
  let x ← lift (fromLeBytes F u)
  let one ← lift (fromLiteral F 1)
  .ok (x, one)

/-- `curve25519.rs:44-48` `encode_point`. -/
def encodePoint (p : Point) : L (List U8) := do
  let (x, y) := p
  let yi ← lift (inv F y)
  let b ← lift (mul F x yi)
  updateStart (new 32) (toLeBytes b)

/-- `curve25519.rs:80-88` body of the loop of `montgomery_ladder`. -/
def ladderStep (k : Canvas) (init : Point) (i : Nat) (acc : Point × Point) : L (Point × Point) := do
  let b ← lift (NatMod.bit k (255 - i))
  branch (b = true)
    (do
      let acc ← lift (pointAddAndDouble init (swap acc))
      .ok (swap acc))
    (lift (pointAddAndDouble init acc))

/-- `curve25519.rs:76-90` `montgomery_ladder`. -/
def montgomeryLadder (k : Canvas) (init : Point) : L Point := do
  let one ← lift (fromLiteral F 1)
  let zero ← lift (fromLiteral F 0)
  let acc ← loop 256 (ladderStep k init) ((one, zero), init)
  .ok acc.1

/-- `curve25519.rs:92-97` `scalarmult`. -/
def scalarmult (s p : List U8) : L (List U8) := do
  let s ← decodeScalar s
  let p ← decodePoint p
  let r ← montgomeryLadder s p
  encodePoint r

end Hacspec.Leak.Curve25519

namespace Hacspec.Leak.P256

open SecretInt NatMod
open AbstractInt (Canvas)
open Hacspec.P256 (F Jacobian Affine jacobianToAffine pointDouble addGeneral ascii gx gy)

/-- `p256.rs:45-47` `is_point_at_infinity`. -/
def isPointAtInfinity (p : Jacobian) : L Bool := do
  let zero ← lift (fromLiteral F 0)
  .ok (NatMod.eq p.z zero)

/-- `p256.rs:65-72` the case `u1 == u2` of `point_add`. -/
def addSameX (s1 s2 : Canvas) : L Jacobian := do
  require (NatMod.eq s1 s2 = false)
  let zero ← lift (fromLiteral F 0)
  let one ← lift (fromLiteral F 1)
  let zero' ← lift (fromLiteral F 0)
  .ok ⟨zero, one, zero'⟩

/-- `p256.rs:56-91` `point_add` after the tests for infinity. -/
def addFinite (p q : Jacobian) : L Jacobian := do
  let z1z1 ← lift (pow F p.z 2)
  let z2z2 ← lift (pow F q.z 2)
  let u1 ← lift (mul F p.x z2z2)
  let u2 ← lift (mul F q.x z1z1)
  let t ← lift (mul F p.y q.z)
  let s1 ← lift (mul F t z2z2)
  let t ← lift (mul F q.y p.z)
  let s2 ← lift (mul F t z1z1)
  branch (NatMod.eq u1 u2 = true) (addSameX s1 s2) (lift (addGeneral p.z q.z z1z1 z2z2 u1 u2 s1 s2))

/-- `p256.rs:49-91` `point_add`. -/
def pointAdd (p q : Jacobian) : L Jacobian := do
  let ip ← isPointAtInfinity p
  branch (ip = true)
    (.ok q)
    (do
      let iq ← isPointAtInfinity q
      branch (iq = true) (.ok p) (addFinite p q))

/-- `p256.rs:102-113` body of the loop of `montgomery_ladder`. -/
def ladderStep (k : Canvas) (i : Nat) (w : Jacobian × Jacobian) : L (Jacobian × Jacobian) := do
  let b ← lift (AbstractInt.bit k (255 - i))
  let w ← branch (b = true) (.ok (w.2, w.1)) (.ok w)
  let xx ← lift (pointDouble w.1)
  let xp1 ← pointAdd w.1 w.2
  let b ← lift (AbstractInt.bit k (255 - i))
  branch (b = true) (.ok (xp1, xx)) (.ok (xx, xp1))

/-- `p256.rs:93-115` `montgomery_ladder`. -/
def montgomeryLadder (k : Canvas) (init : Jacobian) : L Jacobian := do
  let zero ← lift (fromLiteral F 0)
  let one ← lift (fromLiteral F 1)
  let zero' ← lift (fromLiteral F 0)
  let w ← loop 256 (ladderStep k) (⟨zero, one, zero'⟩, init)
  .ok w.1

/-- `p256.rs:117-125` `point_mul`. -/
def pointMul (k : Canvas) : L Affine := do
  let x ← lift (fromHex F (ascii gx))
  let y ← lift (fromHex F (ascii gy))
  let one ← lift (fromLiteral F 1)
  let jac ← montgomeryLadder k ⟨x, y, one⟩
  lift (jacobianToAffine jac)

end Hacspec.Leak.P256
