import Verif.Model.NatMod

/-!
# P-256: `spec-examples/src/p256/p256.rs`

`FieldElement` is a type made by `public_nat_mod!`; `Scalar` is an unsigned public abstract integer of 256 bits.
`x.pow(2)` is the inherent method with a `u128` exponent.
-/

namespace Hacspec.P256

open SecretInt NatMod
open AbstractInt (Canvas)

/-- `p256.rs:4` `FieldElement`. -/
def F : NatTy := { bits := 256, n := 0xffffffff00000001000000000000000000000000ffffffffffffffffffffffff }

/-- `p256.rs:9` `Jacobian`. -/
structure Jacobian where
  x : Canvas
  y : Canvas
  z : Canvas

/-- `p256.rs:10` `Affine`. -/
abbrev Affine := Canvas × Canvas

/-- `p256.rs:12-21` `jacobian_to_affine`. -/
def jacobianToAffine (p : Jacobian) : M Affine := do
  let z2 ← pow F p.z 2
  let z2i ← inv F z2
  let z3 ← mul F p.z z2
  let z3i ← inv F z3
  let x ← mul F p.x z2i
  let y ← mul F p.y z3i
  .ok (x, y)

/-- `p256.rs:23-43` `point_double`. -/
def pointDouble (p : Jacobian) : M Jacobian := do
  let delta ← pow F p.z 2
  let gamma ← pow F p.y 2
  let beta ← mul F p.x gamma
  let alpha1 ← sub F p.x delta
  let alpha2 ← add F p.x delta
  let three ← fromLiteral F 3
  let t ← mul F alpha1 alpha2
  let alpha ← mul F three t
  let t ← pow F alpha 2
  let eight ← fromLiteral F 8
  let u ← mul F eight beta
  let x3 ← sub F t u
  let t ← add F p.y p.z
  let z3_ ← pow F t 2
  let t ← add F gamma delta
  let z3 ← sub F z3_ t
  let four ← fromLiteral F 4
  let t ← mul F four beta
  let y3_1 ← sub F t x3
  let eight ← fromLiteral F 8
  let t ← mul F gamma gamma
  let y3_2 ← mul F eight t
  let t ← mul F alpha y3_1
  let y3 ← sub F t y3_2
  .ok ⟨x3, y3, z3⟩

/-- `p256.rs:45-47` `is_point_at_infinity`. -/
def isPointAtInfinity (p : Jacobian) : M Bool := do
  let zero ← fromLiteral F 0
  .ok (NatMod.eq p.z zero)

/-- `p256.rs:65-72` the case `u1 == u2` of `point_add`. -/
def addSameX (s1 s2 : Canvas) : M Jacobian := do
  require (NatMod.eq s1 s2 = false)
  let zero ← fromLiteral F 0
  let one ← fromLiteral F 1
  let zero' ← fromLiteral F 0
  .ok ⟨zero, one, zero'⟩

/-- `p256.rs:74-90` the general case of `point_add`. -/
def addGeneral (z1 z2 z1z1 z2z2 u1 u2 s1 s2 : Canvas) : M Jacobian := do
  let h ← sub F u2 u1
  let two ← fromLiteral F 2
  let t ← mul F two h
  let i ← pow F t 2
  let j ← mul F h i
  let two ← fromLiteral F 2
  let t ← sub F s2 s1
  let r ← mul F two t
  let v ← mul F u1 i
  let two ← fromLiteral F 2
  let x3_1 ← mul F two v
  let t ← pow F r 2
  let x3_2 ← sub F t j
  let x3 ← sub F x3_2 x3_1
  let two ← fromLiteral F 2
  let t ← mul F two s1
  let y3_1 ← mul F t j
  let t ← sub F v x3
  let y3_2 ← mul F r t
  let y3 ← sub F y3_2 y3_1
  let t ← add F z1 z2
  let z3_ ← pow F t 2
  let t ← add F z1z1 z2z2
  let t ← sub F z3_ t
  let z3 ← mul F t h
  .ok ⟨x3, y3, z3⟩

/-- `p256.rs:56-91` `point_add` after the tests for infinity. -/
def addFinite (p q : Jacobian) : M Jacobian := do
  let z1z1 ← pow F p.z 2
  let z2z2 ← pow F q.z 2
  let u1 ← mul F p.x z2z2
  let u2 ← mul F q.x z1z1
  let t ← mul F p.y q.z
  let s1 ← mul F t z2z2
  let t ← mul F q.y p.z
  let s2 ← mul F t z1z1
  if NatMod.eq u1 u2 then addSameX s1 s2 else addGeneral p.z q.z z1z1 z2z2 u1 u2 s1 s2

/-- `p256.rs:49-91` `point_add`. -/
def pointAdd (p q : Jacobian) : M Jacobian := do
  let ip ← isPointAtInfinity p
  if ip then .ok q
  else do
    let iq ← isPointAtInfinity q
    if iq then .ok p else addFinite p q

/-- `p256.rs:102-113` body of the loop of `montgomery_ladder`. -/
def ladderStep (k : Canvas) (i : Nat) (w : Jacobian × Jacobian) : M (Jacobian × Jacobian) := do
  let b ← AbstractInt.bit k (255 - i)
  let w := if b then (w.2, w.1) else w
  let xx ← pointDouble w.1
  let xp1 ← pointAdd w.1 w.2
  let b ← AbstractInt.bit k (255 - i)
  .ok (if b then (xp1, xx) else (xx, xp1))

/-- `p256.rs:93-115` `montgomery_ladder`. -/
def montgomeryLadder (k : Canvas) (init : Jacobian) : M Jacobian := do
  let zero ← fromLiteral F 0
  let one ← fromLiteral F 1
  let zero' ← fromLiteral F 0
  let w ← loop 256 (ladderStep k) (⟨zero, one, zero'⟩, init)
  .ok w.1

/-- The literal of `p256.rs:119`. -/
def gx : String := "6B17D1F2E12C4247F8BCE6E563A440F277037D812DEB33A0F4A13945D898C296"
/-- The literal of `p256.rs:120`. -/
def gy : String := "4FE342E2FE1A7F9B8EE7EB4A7C0F9E162BCE33576B315ECECBB6406837BF51F5"

/-- The UTF-8 bytes of an ASCII string literal. -/
def ascii (s : String) : List U8 := s.toList.map fun c => BitVec.ofNat 8 c.toNat

/-- `p256.rs:117-125` `point_mul`. -/
def pointMul (k : Canvas) : M Affine := do
  let x ← fromHex F (ascii gx)
  let y ← fromHex F (ascii gy)
  let one ← fromLiteral F 1
  let jac ← montgomeryLadder k ⟨x, y, one⟩
  jacobianToAffine jac

end Hacspec.P256
