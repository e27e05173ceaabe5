import Verif.Spec.Macs
import Verif.Spec.Streams

/-! # Specification: encryption and then authentication

A message is encrypted with one key, and nonce and ciphertext are authenticated with another one. -/

namespace Hacspec.Spec

/-- A nonce and a message or ciphertext; what is authenticated has at most `ℓ` blocks and is not whole blocks. -/
abbrev Plain (ℓ : Nat) : Type := Bytes 12 × {m : List (BitVec 8) // m.length + 21 ≤ 64 * ℓ ∧ (m.length + 12) % 64 ≠ 0}

/-- Encryption and then authentication. -/
def sealWith (enc : Bytes 12 → List (BitVec 8) → M (List (BitVec 8))) (mac : List (BitVec 8) → M (List (BitVec 8))) (iv : Bytes 12)
    (m : List (BitVec 8)) : M (List (BitVec 8) × List (BitVec 8)) := do
  let c ← enc iv m
  let t ← mac (iv.1 ++ c)
  .ok (c, t)

/-- The tag is compared, and only then is decrypted, which is the same as encryption. -/
def openWith (enc : Bytes 12 → List (BitVec 8) → M (List (BitVec 8))) (mac : List (BitVec 8) → M (List (BitVec 8))) (iv : Bytes 12)
    (c t : List (BitVec 8)) : M (Option (List (BitVec 8))) := do
  let t' ← mac (iv.1 ++ c)
  if t' = t then some <$> enc iv c else .ok none

/-- Whoever attacks asks the block cipher inside SHA-256, the primitive of the encryption, and for sealed messages. -/
abbrev ComposedAttack (D X : Type) (ℓ : Nat) (O : Type) : Type :=
  Prog ((Dir (Bytes 64) (Words 32 8) ⊕ D) ⊕ Plain ℓ) ((Words 32 8 ⊕ X) ⊕ M (List (BitVec 8) × List (BitVec 8))) O

/-- The answers. -/
def composedAnswer {D X : Type} {ℓ : Nat} (E : Bytes 64 → Equiv.Perm (Words 32 8)) (g : D → X)
    (enc : Bytes 12 → List (BitVec 8) → M (List (BitVec 8))) (mac : List (BitVec 8) → M (List (BitVec 8))) :
    (Dir (Bytes 64) (Words 32 8) ⊕ D) ⊕ Plain ℓ → (Words 32 8 ⊕ X) ⊕ M (List (BitVec 8) × List (BitVec 8)) :=
  sideAnswer (sideAnswer (Dir.answer E) g) fun x => sealWith enc mac x.1 x.2.1

/-- An attack ends with a nonce, a ciphertext and a tag that are opened, and the ciphertext was not received for that nonce, with
whichever tag. -/
def ForgesSealed {D X : Type} {ℓ : Nat} (E : Bytes 64 → Equiv.Perm (Words 32 8)) (g : D → X)
    (enc : Bytes 12 → List (BitVec 8) → M (List (BitVec 8))) (mac : List (BitVec 8) → M (List (BitVec 8)))
    (p : ComposedAttack D X ℓ (Plain ℓ × List (BitVec 8))) : Prop :=
  let o := p.run (composedAnswer E g enc mac)
  (∀ y : Plain ℓ, .inr y ∈ p.questions (composedAnswer E g enc mac) → y.1 = o.1.1 → ∀ t, sealWith enc mac y.1 y.2.1 ≠ .ok (o.1.2.1, t)) ∧
    ∃ m, openWith enc mac o.1.1 o.1.2.1 o.2 = .ok (some m)

/-- What is authenticated. -/
def sealedText {ℓ : Nat} (x : Plain ℓ) (c : List (BitVec 8)) (h : c.length = x.2.1.length) : Texts false ℓ :=
  ⟨x.1.1 ++ c, by
    have h1 := x.1.2
    have h2 := x.2.2
    rw [List.length_append, h1, h, Nat.add_comm 12]
    exact ⟨by omega, fun h => absurd h h2.2, fun h => by cases h⟩⟩

theorem length_randomStream {n : Nat} (hn : 0 < n) (H : Bytes 12 × BitVec 32 → Bytes n) (x : StreamAsk) :
    (randomStream H x).length = x.2.2.length := by
  have h : ∀ l : List (Bytes 12 × BitVec 32), (l.flatMap fun j => (H j).1).length = l.length * n := fun l => by
    induction l with
    | nil => simp
    | cons j l ih => rw [List.flatMap_cons, List.length_append, ih, (H j).2, List.length_cons, Nat.succ_mul, Nat.add_comm]
  have h2 := Nat.lt_mul_div_succ (x.2.2.length + n - 1) hn
  rw [Nat.mul_succ, Nat.mul_comm] at h2
  rw [randomStream, List.length_take, h, StreamAsk.blocks, List.length_map, List.length_range]
  omega

/-- Random strings as ciphertexts, and as tags a random function of nonce and ciphertext. -/
def randomSeal {ℓ n : Nat} (hn : 0 < n) (c : BitVec 32) (H : Bytes 12 × BitVec 32 → Bytes n) (R : Texts false ℓ → Bytes 32) (x : Plain ℓ) :
    M (List (BitVec 8) × List (BitVec 8)) :=
  .ok (randomStream H (x.1, c, x.2.1), (R (sealedText x (randomStream H (x.1, c, x.2.1)) (length_randomStream hn H _))).1)

end Hacspec.Spec
