import Verif.Spec.Macs

/-! # Specification: commitments

Whoever commits to a message draws a key and publishes the tag of the message; later they publish message and key. -/

namespace Hacspec.Spec

/-- An opening: a key and a message. -/
abbrev Opening (n : Nat) (whole : Bool) (ℓ : Nat) : Type := Bytes n × Texts whole ℓ

/-- Two different openings of one commitment. -/
def OpensTwice {n ℓ : Nat} {whole : Bool} (mac : List (BitVec 8) → List (BitVec 8) → M (List (BitVec 8))) (o : Opening n whole ℓ × Opening n whole ℓ) : Prop :=
  o.1 ≠ o.2 ∧ ∃ t, mac o.1.1.1 o.1.2.1 = .ok t ∧ mac o.2.1.1 o.2.2.1 = .ok t

/-- Whoever wants to look inside asks the block cipher and gives two messages, to one of which a commitment is made. -/
abbrev CommitAttack (whole : Bool) (ℓ : Nat) (O : Type) : Type :=
  Prog (Dir (Bytes 64) (Words 32 8) ⊕ Texts whole ℓ × Texts whole ℓ) (Words 32 8 ⊕ M (List (BitVec 8))) O

/-- For `s` questions: `s(s+1)/(2(2²⁵⁶-s))`. -/
def bindingBound (s : Nat) : ℚ := s * (s + 1) / (2 * (2 ^ 256 - s))

end Hacspec.Spec
