import Verif.Lemmas.Release.Seq
import Verif.Model.Release.Curve25519

/-! # X25519: the release build returns what the debug build returns -/

namespace Hacspec.Release.Curve25519

open Spec (Keeps)
open Release.Seq

theorem encodePoint_keeps {p : Hacspec.Curve25519.Point} :
    Keeps (Hacspec.Curve25519.encodePoint p) (encodePoint p) := by
  unfold Hacspec.Curve25519.encodePoint encodePoint
  kp

macro_rules | `(tactic| kp_leaf) => `(tactic| with_reducible exact encodePoint_keeps)

theorem scalarmult_keeps {s p : List U8} :
    Keeps (Hacspec.Curve25519.scalarmult s p) (scalarmult s p) := by
  unfold Hacspec.Curve25519.scalarmult scalarmult
  kp

macro_rules | `(tactic| kp_leaf) => `(tactic| with_reducible exact scalarmult_keeps)

theorem secretToPublic_keeps {s : List U8} :
    Keeps (Hacspec.Curve25519.secretToPublic s) (secretToPublic s) := by
  unfold Hacspec.Curve25519.secretToPublic secretToPublic
  kp

macro_rules | `(tactic| kp_leaf) => `(tactic| with_reducible exact secretToPublic_keeps)

end Hacspec.Release.Curve25519
