import Verif.Model.IdealAead
import Verif.Spec.Permutations

/-! # ChaCha20 with a permutation in place of the rounds -/

namespace Hacspec.ChaCha

open SecretInt Hacspec.Seq VecInt

/-- `chacha20.rs:70-80` `block_inner`; `perm` stands for the rounds of L73-75. -/
def blockInnerWith (perm : List U32 → M (List U32)) (key : List U8) (ctr : U32) (iv : List U8) : M (List U32) := do
  let st ← blockInit key ctr iv
  let state ← perm st
  loop 16 (fun i s => do
    let x ← idx s i
    let y ← idx st i
    setIdx s i (SecretInt.add x y)) state

/-- `chacha20.rs:82-85` `block`. -/
def blockWith (perm : List U32 → M (List U32)) (key : List U8) (ctr : U32) (iv : List U8) : M (List U8) := do
  let state ← blockInnerWith perm key ctr iv
  stateToBytes state

theorem block_instance : blockWith rounds = block := rfl

end Hacspec.ChaCha

namespace Hacspec.Ideal

open Spec

/-- A permutation in place of the rounds; they are only called with states of 16 words. -/
def chachaPerm (π : Equiv.Perm (Words 32 16)) (s : List U32) : M (List U32) :=
  if h : s.length = 16 then .ok (π ⟨s, h⟩).1 else .error .panic

/-- `chacha20.rs:82-85` `block` with a permutation in place of the rounds. -/
def chachaBlockOf (π : Equiv.Perm (Words 32 16)) (key : Bytes 32) (j : Bytes 12 × U32) : M (List U8) :=
  ChaCha.blockWith (chachaPerm π) key.1 j.2 j.1.1

/-- `chacha20poly1305.rs:29-66` with a permutation in place of the rounds; unknown are the permutation and the key. -/
def chachaPolyOf : Aead (Equiv.Perm (Words 32 16) × Bytes 32) where
  enc ω iv aad m := ChaChaPoly.encryptWith (fun iv ctr => ChaCha.blockWith (chachaPerm ω.1) ω.2.1 ctr iv) iv.1 aad m
  dec ω iv aad c t := ChaChaPoly.decryptWith (fun iv ctr => ChaCha.blockWith (chachaPerm ω.1) ω.2.1 ctr iv) iv.1 aad c t.1

end Hacspec.Ideal
