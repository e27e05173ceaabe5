import Verif.Spec.Sessions

/-! # Specification: chains of keys

From the key of the chain, a key is derived for use and the next key of the chain, and the old key of the chain is forgotten. -/

namespace Hacspec.Spec

/-- The keys of `κ` bytes of `r` steps, and the last key of the chain. -/
def ratchet (expand : List (BitVec 8) → List (BitVec 8) → Nat → M (List (BitVec 8))) (use next : List (BitVec 8)) (κ : Nat) :
    Nat → List (BitVec 8) → M (List (List (BitVec 8)) × List (BitVec 8))
  | 0, k => .ok ([], k)
  | r + 1, k => do
    let m ← expand k use κ
    let k' ← expand k next 32
    let x ← ratchet expand use next κ r k'
    .ok (m :: x.1, x.2)

/-- The key of one step. -/
def stepKey (x : M (List (List (BitVec 8)) × List (BitVec 8))) (i : Nat) : M (List (BitVec 8)) := do
  let x ← x
  match x.1[i]? with
  | some m => .ok m
  | none => .error .panic

/-- The last key of the chain, if there is one. -/
def lastKey : M (List (List (BitVec 8)) × List (BitVec 8)) → List (BitVec 8)
  | .ok x => x.2
  | .error _ => []

/-- For `q` questions and `r` steps with strings of at most `ℓ` blocks. -/
def ratchetBound (q ℓ : Nat) : Nat → ℚ
  | 0 => 0
  | r + 1 => ratchetBound q ℓ r + prfBound 32 (q + r * (2 * (ℓ + 3)) + 2 * ℓ) 2

end Hacspec.Spec
