import Mathlib.AlgebraicGeometry.EllipticCurve.Affine.Point
import Verif.Spec.Bytes

/-!
# Specification: Curve25519 (RFC 7748) and P-256 (FIPS 186-4)

The group of a curve is the one of Mathlib: nonsingular affine points of a Weierstrass curve and the point at infinity,
with chord-and-tangent addition.
-/

namespace Hacspec.Spec

namespace X25519

/-- The prime of RFC 7748 §4.1. -/
def p : Nat := 2 ^ 255 - 19

/-- The curve `v^2 = u^3 + 486662 u^2 + u` over a field. -/
def curve (K : Type) [Field K] : WeierstrassCurve.Affine K := { a₁ := 0, a₂ := 486662, a₃ := 0, a₄ := 1, a₆ := 0 }

/-- The `u`-coordinate of a point, 0 for the point at infinity. -/
def u {K : Type} [Field K] : (curve K).Point → K
  | .zero => 0
  | .some x _ _ => x

/-- `decodeScalar25519` of RFC 7748 §5: bits 3 to 253 of the string, and bit 254 set. -/
def scalar (s : List (BitVec 8)) : Nat := 2 ^ 254 + 8 * (leVal s / 8 % 2 ^ 251)

/-- `decodeUCoordinate` of RFC 7748 §5: the top bit is ignored, and the number is taken modulo `p`. -/
def coord (s : List (BitVec 8)) : Nat := leVal s % 2 ^ 255 % p

/-- The order of the base point (RFC 7748 §4.1). -/
def order : Nat := 2 ^ 252 + 0x14def9dea2f79cd65812631a5cf5d3ed

/-- The prime factor of the order of the twist `2 v^2 = u^3 + 486662 u^2 + u`. -/
def twistOrder : Nat := 2 ^ 253 - 55484635554744707071703875581767296995

/-- The `u`-coordinates modulo `p` of the points of order 1, 2, 4 and 8 (https://cr.yp.to/ecdh.html). -/
def lowOrder : List Nat :=
  [0, 1, p - 1, 325606250916557431795983626356110631294008115727848805560023387167927233504,
    39382357235489614581723060781553021112529911719440698176882885853963445705823]

end X25519

namespace P256

/-- The prime of FIPS 186-4 §D.1.2.3. -/
def p : Nat := 2 ^ 256 - 2 ^ 224 + 2 ^ 192 + 2 ^ 96 - 1

/-- The coefficient `b`. -/
def b : Nat := 0x5ac635d8aa3a93e7b3ebbd55769886bc651d06b0cc53b0f63bce3c3e27d2604b

/-- The curve `y^2 = x^3 - 3 x + c` over a field. -/
def curveOf {K : Type} [Field K] (c : K) : WeierstrassCurve.Affine K := { a₁ := 0, a₂ := 0, a₃ := 0, a₄ := -3, a₆ := c }

/-- The curve `y^2 = x^3 - 3 x + b` over a field. -/
abbrev curve (K : Type) [Field K] : WeierstrassCurve.Affine K := curveOf (b : K)

/-- The coordinates of the base point. -/
def gx : Nat := 0x6b17d1f2e12c4247f8bce6e563a440f277037d812deb33a0f4a13945d898c296
def gy : Nat := 0x4fe342e2fe1a7f9b8ee7eb4a7c0f9e162bce33576b315ececbb6406837bf51f5

/-- The order of the base point. -/
def n : Nat := 0xffffffff00000000ffffffffffffffffbce6faada7179e84f3b9cac2fc632551

end P256

end Hacspec.Spec
