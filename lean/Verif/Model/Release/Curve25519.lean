import Verif.Model.Release.Seq
import Verif.Model.Curve25519

/-! # X25519 in a release build

The functions of `Verif/Model/` that reach a `debug_assert!`, a checked sum or product, or a shift; the others are the
same in both builds and used as they are.
`p256.rs` has no operation that differs between the builds. -/

namespace Hacspec.Release.Curve25519

open SecretInt hiding shl shrU shrS negS
open Release.Seq
open Hacspec.Seq (new)
open NatMod (NatTy fromLeBytes fromLiteral toLeBytes inv mul)
open AbstractInt (Canvas)
open Hacspec.Curve25519 (F Point decodeScalar decodePoint montgomeryLadder)

/-- `curve25519.rs:44-48` `encode_point`. -/
def encodePoint (p : Point) : M (List U8) := do
  let (x, y) := p
  let yi ← inv F y
  let b ← mul F x yi
  updateStart (new 32) (toLeBytes b)

/-- `curve25519.rs:92-97` `scalarmult`. -/
def scalarmult (s p : List U8) : M (List U8) := do
  let s ← decodeScalar s
  let p ← decodePoint p
  let r ← montgomeryLadder s p
  encodePoint r

/-- `curve25519.rs:99-102` `secret_to_public`; the string literal is the bytes of `"09"`. -/
def secretToPublic (s : List U8) : M (List U8) := do
  let base ← Hex.arrFromHex 32 [48, 57]
  scalarmult s base


end Hacspec.Release.Curve25519
