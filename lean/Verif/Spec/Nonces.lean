import Verif.Spec.AeadAttacks

/-! # Specification: attacks on encryption with random nonces

Whoever attacks chooses messages, but not the nonces of the encryptions. -/

namespace Hacspec.Spec

/-- Answers that a question can have. -/
def Ask.Fits : Ask → Seen → Prop
  | .enc iv aad _, .enc iv' aad' _ _ => iv' = iv ∧ aad' = aad
  | .dec iv aad c t, .dec iv' aad' c' t' _ => iv' = iv ∧ aad' = aad ∧ c' = c ∧ t' = t
  | .stop, .stopped => True
  | _, .failed => True
  | _, _ => False

/-- A question, or one for which a nonce is drawn. -/
abbrev Drawn (Q : Type) : Type := Q ⊕ (Bytes 12 → Q)

/-- The nonces are `ivs i`, `ivs (i + 1)`, … -/
def Prog.draw {D R Q O : Type} (ivs : Nat → Bytes 12) : Prog (D ⊕ Drawn Q) R O → Nat → Prog (D ⊕ Q) R O
  | .ret o, _ => .ret o
  | .ask (.inl d) k, i => .ask (.inl d) fun r => (k r).draw ivs i
  | .ask (.inr (.inl x)) k, i => .ask (.inr x) fun r => (k r).draw ivs i
  | .ask (.inr (.inr c)) k, i => .ask (.inr (c (ivs i))) fun r => (k r).draw ivs (i + 1)

/-- The rules: nonces are drawn for all encryptions, answers are not sent back for decryption, and the data have at most `L` blocks. -/
def ByRulesDrawn {D X Q O : Type} (f : Q → Ask) (L : Nat) : Prog (D ⊕ Drawn Q) (X ⊕ Seen) O → List Seen → Prop
  | .ret _, _ => True
  | .ask (.inl _) k, h => ∀ x, ByRulesDrawn f L (k (.inl x)) h
  | .ask (.inr (.inl x)) k, h => (∃ iv aad c t, f x = .dec iv aad c t ∧ Seen.enc iv aad c t.1 ∉ h ∧ blocks aad c ≤ L) ∧
      ∀ s, (f x).Fits s → ByRulesDrawn f L (k (.inr s)) (h ++ [s])
  | .ask (.inr (.inr c)) k, h => ∀ iv, (∃ aad m, f (c iv) = .enc iv aad m ∧ blocks aad m ≤ L) ∧
      ∀ s, (f (c iv)).Fits s → ByRulesDrawn f L (k (.inr s)) (h ++ [s])

/-- The first nonces, and then zeros. -/
def firstNonces {n : Nat} (v : Fin n → Bytes 12) (i : Nat) : Bytes 12 :=
  if h : i < n then v ⟨i, h⟩ else ⟨List.replicate 12 0, List.length_replicate⟩

/-- `n(n-1)/2⁹⁷`. -/
def noncesBound (n : Nat) : ℚ := n * (n - 1) / 2 ^ 97

end Hacspec.Spec
