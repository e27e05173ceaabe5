import Mathlib.Algebra.BigOperators.Group.Finset.Basic
import Verif.Spec.AeadAttacks

/-! # Specification: attacks on several users, each with their own key

Questions of the second kind name a user. -/

namespace Hacspec.Spec

/-- At most `m i` questions go to the user `i`, whatever the answers are. -/
def Prog.Each {D U Q R O : Type} [DecidableEq U] : Prog (D ⊕ U × Q) R O → (U → Nat) → Prop
  | .ret _, _ => True
  | .ask (.inl _) k, m => ∀ r, (k r).Each m
  | .ask (.inr x) k, m => ∃ c, m x.1 = c + 1 ∧ ∀ r, (k r).Each (Function.update m x.1 c)

/-- A program keeps the rules with each user; `h i` is what was asked of the user `i` before.  Nonces may be used again with other
users, and ciphertexts of one user may be sent to others. -/
def ByRulesEach {D X U Q O : Type} [DecidableEq U] (f : Q → Ask) (L : Nat) : Prog (D ⊕ U × Q) (X ⊕ Seen) O → (U → List Seen) → Prop
  | .ret _, _ => True
  | .ask (.inl _) k, h => ∀ x, ByRulesEach f L (k (.inl x)) h
  | .ask (.inr x) k, h => (f x.2).Allowed L (h x.1) ∧ ∀ s, ByRulesEach f L (k (.inr s)) (Function.update h x.1 (h x.1 ++ [s]))

/-- Whoever attacks asks the permutation, and for blocks of ChaCha20 by user, nonce and counter. -/
abbrev UsersBlockAttack (u : Nat) (O : Type) : Type :=
  Prog (Dir Unit (Words 32 16) ⊕ Fin u × (Bytes 12 × BitVec 32)) (Words 32 16 ⊕ M (List (BitVec 8))) O

/-- Attacks on ChaCha20-Poly1305 that can ask the permutation and `u` users. -/
abbrev UsersAttack (u : Nat) (Q O : Type) : Type := Prog (Dir Unit (Words 32 16) ⊕ Fin u × Q) (Words 32 16 ⊕ Seen) O

/-- For `u` users, `q` questions to the permutation and `a` blocks: `q(u+a)/2²⁵⁶ + a(a-1)/2⁵¹³ + u(u-1)/2²⁵⁷`. -/
def usersBound (u q a : Nat) : ℚ := q * (u + a) / 2 ^ 256 + a * (a - 1) / 2 ^ 513 + u * (u - 1) / 2 ^ 257

/-- Attacks on AES-GCM that can ask the block cipher, with keys of `k` bytes, and `u` users. -/
abbrev UsersGcmAttack (k u : Nat) (Q O : Type) : Type := Prog (Dir (Bytes k) (Bytes 16) ⊕ Fin u × Q) (Bytes 16 ⊕ Seen) O

/-- For `u` users with keys of `k` bytes and `q` questions to the block cipher: `(uq + u(u-1)/2)/2⁸ᵏ`. -/
def keysBound (k u q : Nat) : ℚ := (u * q + u * (u - 1) / 2) / 2 ^ (8 * k)

end Hacspec.Spec
