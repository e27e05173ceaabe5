import Verif.Spec.AeadAttacks
import Verif.Spec.Streams

/-! # Specification: authenticated encryption that answers with random strings and decrypts nothing -/

namespace Hacspec.Spec

/-- The answers: as many random bytes as the message has, from blocks with counters from `c` on; 16 random bytes for the tag, from the
block with the counter `t`, after the first `d` bytes; and nothing is decrypted.  Neither the message nor the data matter. -/
def randomSealed {n : Nat} (d : Nat) (t c : BitVec 32) (H : Bytes 12 × BitVec 32 → Bytes n) : Ask → Seen
  | .enc iv aad m => .enc iv aad (randomStream H (iv, c, m)) (((H (iv, t)).1.drop d).take 16)
  | .dec iv aad c t => .dec iv aad c t none
  | .stop => .stopped

/-- For ChaCha20-Poly1305, besides `blockBound`: `n(1+2²⁵Ln)/2¹²⁷ + 5n/2¹²⁸`. -/
def chachaSealed (L n : Nat) : ℚ := chachaForgery L n + 5 * n / 2 ^ 128

/-- For AES-GCM: `(nL(nL+1) + 2n(L+1))/2¹²⁹`. -/
def gcmSealed (L n : Nat) : ℚ := (n * L * (n * L + 1) + 2 * n * (L + 1)) / 2 ^ 129

end Hacspec.Spec
