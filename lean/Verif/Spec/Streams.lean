import Verif.Spec.Permutations

/-! # Specification: attacks on encryption without authentication

Messages are encrypted with blocks that are numbered by a nonce and a counter. -/

namespace Hacspec.Spec

/-- A question for encryption: a nonce, the first counter and a message. -/
abbrev StreamAsk : Type := Bytes 12 × BitVec 32 × List (BitVec 8)

/-- The blocks of `n` bytes for a message, by nonce and counter. -/
def StreamAsk.blocks (n : Nat) (x : StreamAsk) : List (Bytes 12 × BitVec 32) :=
  (List.range ((x.2.2.length + n - 1) / n)).map fun j => (x.1, x.2.1 + BitVec.ofNat 32 j)

/-- No block is used twice; `used` were used before. -/
def FreshBlocks {D Q R O J : Type} (f : Q → List J) : Prog (D ⊕ Q) R O → List J → Prop
  | .ret _, _ => True
  | .ask (.inl _) k, used => ∀ r, FreshBlocks f (k r) used
  | .ask (.inr x) k, used => (f x).Nodup ∧ (∀ j ∈ f x, j ∉ used) ∧ ∀ r, FreshBlocks f (k r) (used ++ f x)

/-- At most `q` questions of the first kind are asked, and those of the second kind are about at most `s` blocks, whatever the answers
are. -/
def Prog.Uses {D Q R O : Type} (w : Q → Nat) : Prog (D ⊕ Q) R O → Nat → Nat → Prop
  | .ret _, _, _ => True
  | .ask (.inl _) k, q, s => ∃ q', q = q' + 1 ∧ ∀ r, (k r).Uses w q' s
  | .ask (.inr x) k, q, s => ∃ s', s = s' + w x ∧ ∀ r, (k r).Uses w q s'

/-- As many bytes as the message has, from random blocks; the message does not matter. -/
def randomStream {n : Nat} (H : Bytes 12 × BitVec 32 → Bytes n) (x : StreamAsk) : List (BitVec 8) :=
  ((x.blocks n).flatMap fun j => (H j).1).take x.2.2.length

/-- For `q` questions to the block cipher with keys of `k` bytes and `s` blocks: `q/2⁸ᵏ + s(s-1)/2¹²⁹`. -/
def ctrBound (k q s : Nat) : ℚ := q / 2 ^ (8 * k) + s * (s - 1) / 2 ^ 129

end Hacspec.Spec
