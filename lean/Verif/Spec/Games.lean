import Mathlib.Data.Fintype.Pi
import Mathlib.Data.Fintype.Prod
import Verif.Basic
import Verif.Spec.Counting

/-! # Specification: attacks on authenticated encryption

Whoever attacks is a function that chooses the next question from what was asked and answered so far.  `Ω` is what they do not
know: the function that stands for the block cipher. -/

namespace Hacspec.Spec

/-- The strings of `n` bytes, as a type. -/
abbrev Bytes (n : Nat) : Type := {l : List (BitVec 8) // l.length = n}

noncomputable instance instFintypeBytes (n : Nat) : Fintype (Bytes n) :=
  Fintype.subtype (byteStrings n) (by intro x; rw [byteStrings, Set.Finite.mem_toFinset, Set.mem_ofPred_eq])

instance instFintypeWord : Fintype (BitVec 32) := Fintype.ofEquiv (Fin (2 ^ 32)) ⟨BitVec.ofFin, BitVec.toFin, fun _ => rfl, fun _ => rfl⟩

/-- Encryption and decryption with an unknown `F`. -/
structure Aead (Ω : Type) where
  enc : Ω → Bytes 12 → List (BitVec 8) → List (BitVec 8) → M (List (BitVec 8) × List (BitVec 8))
  dec : Ω → Bytes 12 → List (BitVec 8) → List (BitVec 8) → Bytes 16 → M (Option (List (BitVec 8)))

/-- A question: encrypt, or decrypt, or nothing. -/
inductive Ask
  | enc (iv : Bytes 12) (aad m : List (BitVec 8))
  | dec (iv : Bytes 12) (aad c : List (BitVec 8)) (t : Bytes 16)
  | stop

/-- A question with its answer, without the message; `failed` is a panic. -/
inductive Seen
  | enc (iv : Bytes 12) (aad c t : List (BitVec 8))
  | dec (iv : Bytes 12) (aad c : List (BitVec 8)) (t : Bytes 16) (answer : Option (List (BitVec 8)))
  | failed
  | stopped

/-- A question answered. -/
def Aead.answer {Ω : Type} (S : Aead Ω) (F : Ω) : Ask → Seen
  | .enc iv aad m => match S.enc F iv aad m with
    | .ok (c, t) => .enc iv aad c t
    | .error _ => .failed
  | .dec iv aad c t => match S.dec F iv aad c t with
    | .ok r => .dec iv aad c t r
    | .error _ => .failed
  | .stop => .stopped

/-- What was asked and answered after `k` questions of `A`. -/
def Aead.play {Ω : Type} (S : Aead Ω) (A : List Seen → Ask) (F : Ω) : Nat → List Seen
  | 0 => []
  | k + 1 => S.play A F k ++ [S.answer F (A (S.play A F k))]

/-- One of `q` questions is a ciphertext that is decrypted. -/
def Aead.Forges {Ω : Type} (S : Aead Ω) (A : List Seen → Ask) (q : Nat) (F : Ω) : Prop :=
  ∃ k, k < q ∧ ∃ iv aad c t p, S.answer F (A (S.play A F k)) = .dec iv aad c t (some p)

/-- Blocks of 16 bytes of the authenticated data, with the block of lengths. -/
def blocks (aad c : List (BitVec 8)) : Nat := (aad.length + 15) / 16 + (c.length + 15) / 16 + 1

/-- The rules: no nonce is used twice for encryption, answers are not sent back for decryption, and the data have at most `L`
blocks. -/
structure Proper (A : List Seen → Ask) (L : Nat) : Prop where
  once : ∀ h iv aad m, A h = .enc iv aad m → ∀ aad' c t, Seen.enc iv aad' c t ∉ h
  fresh : ∀ h iv aad c t, A h = .dec iv aad c t → Seen.enc iv aad c t.1 ∉ h
  encLength : ∀ h iv aad m, A h = .enc iv aad m → blocks aad m ≤ L
  decLength : ∀ h iv aad c t, A h = .dec iv aad c t → blocks aad c ≤ L

/-- Two questions that differ at most in the message to encrypt, but not in its length. -/
def Ask.Similar : Ask → Ask → Prop
  | .enc iv aad m, .enc iv' aad' m' => iv = iv' ∧ aad = aad' ∧ m.length = m'.length
  | .dec iv aad c t, .dec iv' aad' c' t' => iv = iv' ∧ aad = aad' ∧ c = c' ∧ t = t'
  | .stop, .stop => True
  | _, _ => False

end Hacspec.Spec
