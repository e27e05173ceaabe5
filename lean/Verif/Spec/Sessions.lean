import Verif.Spec.Macs
import Verif.Spec.Users

/-! # Specification: attacks on sessions whose keys are derived from one secret -/

namespace Hacspec.Spec

/-- Whoever attacks asks the block cipher inside SHA-256, what is inside the encryption (questions `D`), and `u` sessions. -/
abbrev SessionsAttack (D X : Type) (u : Nat) (Q O : Type) : Type :=
  Prog ((Dir (Bytes 64) (Words 32 8) ⊕ D) ⊕ Fin u × Q) ((Words 32 8 ⊕ X) ⊕ Seen) O

/-- The answer with a key that was computed; if there is no key, or one of another length, there is none. -/
def withKey {κ : Nat} (key : M (List (BitVec 8))) (answer : Bytes κ → Seen) : Seen :=
  match key with
  | .ok l => if h : l.length = κ then answer ⟨l, h⟩ else .failed
  | .error _ => .failed

/-- For `q` questions and `u` keys that are derived from a secret of which no value has more than the share `ε`, with strings of at most
`ℓ` blocks. -/
def sessionsBound (q u ℓ : Nat) (ε : ℚ) : ℚ := prfBound 32 (q + u * ℓ) u + extractBound (q + u * (ℓ + 3)) ε

end Hacspec.Spec
