import Verif.Spec.Permutations

/-! # Specification: attacks on authenticated encryption that can ask for more

As in `Verif.Spec.Games`, but whoever attacks can also ask questions `D`, about the permutation or the block cipher. -/

namespace Hacspec.Spec

/-- The rules of `Proper`: what may be asked after `h`. -/
def Ask.Allowed (L : Nat) (h : List Seen) : Ask → Prop
  | .enc iv aad m => (∀ aad' c t, Seen.enc iv aad' c t ∉ h) ∧ blocks aad m ≤ L
  | .dec iv aad c t => Seen.enc iv aad c t.1 ∉ h ∧ blocks aad c ≤ L
  | .stop => True

/-- A program asks questions `Q`, each of which stands for the question `f x`, by the rules, after `h`. -/
def ByRules {D X Q O : Type} (f : Q → Ask) (L : Nat) : Prog (D ⊕ Q) (X ⊕ Seen) O → List Seen → Prop
  | .ret _, _ => True
  | .ask (.inl _) k, h => ∀ x, ByRules f L (k (.inl x)) h
  | .ask (.inr x) k, h => (f x).Allowed L h ∧ ∀ s, ByRules f L (k (.inr s)) (h ++ [s])

/-- All answers. -/
def Prog.answers {Q R O : Type} (ev : Q → R) : Prog Q R O → List R
  | .ret _ => []
  | .ask x k => ev x :: (k (ev x)).answers ev

/-- A ciphertext is decrypted. -/
def Decrypted {X : Type} (l : List (X ⊕ Seen)) : Prop := ∃ iv aad c t m, .inr (.dec iv aad c t (some m)) ∈ l

/-- Two questions that differ at most in the message to encrypt, but not in its length. -/
abbrev Pair : Type := {x : Ask × Ask // x.1.Similar x.2}

/-- The first questions. -/
def Pair.fst (x : Pair) : Ask := x.1.1

/-- The second questions. -/
def Pair.snd (x : Pair) : Ask := x.1.2

/-- Attacks on ChaCha20-Poly1305 that can ask the permutation. -/
abbrev ChaChaAttack (Q O : Type) : Type := Prog (Dir Unit (Words 32 16) ⊕ Q) (Words 32 16 ⊕ Seen) O

/-- With `n` questions of at most `L` blocks of 16 bytes: `n(1+2²⁵Ln)/2¹²⁷`. -/
def chachaForgery (L n : Nat) : ℚ := n * (1 + 2 ^ 25 * L * n) / 2 ^ 127

/-- Attacks on AES-GCM that can ask the block cipher, with keys of `k` bytes. -/
abbrev GcmAttack (k : Nat) (Q O : Type) : Type := Prog (Dir (Bytes k) (Bytes 16) ⊕ Q) (Bytes 16 ⊕ Seen) O

/-- `n(L+1)/2¹²⁷`. -/
def gcmForgery (L n : Nat) : ℚ := n * (L + 1) / 2 ^ 127

/-- `(nL(nL+1) + 4n(L+1))/2¹²⁸`. -/
def gcmPrivacy (L n : Nat) : ℚ := (n * L * (n * L + 1) + 4 * n * (L + 1)) / 2 ^ 128

end Hacspec.Spec
