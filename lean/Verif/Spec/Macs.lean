import Mathlib.Data.Set.Finite.List
import Mathlib.Algebra.Order.AbsoluteValue.Basic
import Verif.Spec.Games
import Verif.Spec.Shares

/-! # Specification: message authentication with a block cipher that can be asked -/

namespace Hacspec.Spec

/-- Messages that are, after a block for the key and with padding, at most `ℓ` blocks after that block; either only whole blocks or
none that are whole blocks. -/
abbrev Texts (whole : Bool) (ℓ : Nat) : Type := {m : List (BitVec 8) // m.length + 9 ≤ 64 * ℓ ∧ (m.length % 64 = 0 ↔ whole = true)}

instance instFiniteTexts (whole : Bool) (ℓ : Nat) : Finite (Texts whole ℓ) :=
  ((List.finite_length_lt (BitVec 8) (64 * ℓ)).subset fun m (h : m.length + 9 ≤ 64 * ℓ ∧ _) => by
    show m.length < 64 * ℓ
    omega).to_subtype

noncomputable instance instFintypeTexts (whole : Bool) (ℓ : Nat) : Fintype (Texts whole ℓ) := Fintype.ofFinite _

/-- Whoever attacks asks the block cipher and for authentication. -/
abbrev MacAttack (whole : Bool) (ℓ : Nat) (O : Type) : Type :=
  Prog (Dir (Bytes 64) (Words 32 8) ⊕ Texts whole ℓ) (Words 32 8 ⊕ M (List (BitVec 8))) O

/-- The answers. -/
def macAnswer {Z : Type} (E : Bytes 64 → Equiv.Perm (Words 32 8)) (mac : Z → M (List (BitVec 8))) :
    Dir (Bytes 64) (Words 32 8) ⊕ Z → Words 32 8 ⊕ M (List (BitVec 8))
  | .inl d => .inl (d.answer E)
  | .inr m => .inr (mac m)

/-- For `q` questions to the cipher and `a` for authentication of messages of at most `ℓ` blocks with keys of `n` bytes: with
`T = q + a·ℓ`, `2(T+a)/2⁸ⁿ + 2T/2²⁵⁶ + T(T+1)/(2(2²⁵⁶-T))`. -/
def prfBound (n T a : Nat) : ℚ :=
  2 * (T + a) / 2 ^ (8 * n) + 2 * T / 2 ^ 256 + T * (T + 1) / (2 * (2 ^ 256 - T))

/-- The questions that are asked. -/
def Prog.questions {Q R O : Type} (ev : Q → R) : Prog Q R O → List Q
  | .ret _ => []
  | .ask x k => x :: (k (ev x)).questions ev

/-- An attack ends with a message that was not asked for, and its tag. -/
def ForgesTag {D X Z : Type} (ev : D ⊕ Z → X ⊕ M (List (BitVec 8))) (p : Prog (D ⊕ Z) (X ⊕ M (List (BitVec 8))) (Z × List (BitVec 8))) : Prop :=
  .inr (p.run ev).1 ∉ p.questions ev ∧ ev (.inr (p.run ev).1) = .inr (.ok (p.run ev).2)

/-! ## Key derivation -/

/-- Strings for which no input of HMAC is whole blocks, with inputs of at most `ℓ` blocks. -/
abbrev Infos (ℓ : Nat) : Type := {m : List (BitVec 8) // m.length + 42 ≤ 64 * ℓ ∧ m.length % 32 ≠ 31}

instance instFiniteInfos (ℓ : Nat) : Finite (Infos ℓ) :=
  ((List.finite_length_lt (BitVec 8) (64 * ℓ)).subset fun m (h : m.length + 42 ≤ 64 * ℓ ∧ _) => by
    show m.length < 64 * ℓ
    omega).to_subtype

noncomputable instance instFintypeInfos (ℓ : Nat) : Fintype (Infos ℓ) := Fintype.ofFinite _

/-- A question to the key derivation: a string and a number of bytes, at most `32 N`. -/
abbrev Wanted (ℓ N : Nat) : Type := Infos ℓ × {l : Nat // l ≤ 32 * N}

/-- Whoever attacks asks the block cipher and for keys. -/
abbrev KdfAttack (ℓ N : Nat) (O : Type) : Type := Prog (Dir (Bytes 64) (Words 32 8) ⊕ Wanted ℓ N) (Words 32 8 ⊕ M (List (BitVec 8))) O

/-- The first bytes of `N` random blocks per string. -/
def randomBytes {ℓ N : Nat} (F : Infos ℓ × Fin N → Bytes 32) (x : Wanted ℓ N) : List (BitVec 8) :=
  ((List.finRange N).map fun i => (F (x.1, i)).1).flatten.take x.2.1

/-- A key is derived from `ikm` by `extract`, and others from it by `expand`. -/
def extractExpand (extract : List (BitVec 8) → List (BitVec 8) → M (List (BitVec 8))) (expand : List (BitVec 8) → List (BitVec 8) → Nat → M (List (BitVec 8)))
    (salt ikm info : List (BitVec 8)) (l : Nat) : M (List (BitVec 8)) := do
  let prk ← extract salt ikm
  expand prk info l

/-- For whoever asks the cipher `T` times, where no input has more than the share `ε`: `(T+1)ε + (T+3)/2²⁵⁶`. -/
def extractBound (T : Nat) (ε : ℚ) : ℚ := (T + 1) * ε + (T + 3) / 2 ^ 256

end Hacspec.Spec
