import Verif.Model.IdealHash
import Verif.Spec.Games
import Verif.Spec.Oracles

/-! # SHA-256 with a block cipher in place of the shuffled schedule, Keccak with a permutation in place of Keccak-f -/

namespace Hacspec.Ideal

open Spec

/-- A block cipher with keys of 64 bytes in place of `shuffle(schedule(block), h_in)` (`sha2.rs:156-157`); the types of Rust leave
only blocks of 64 bytes and states of eight words. -/
def shaCipher (E : Bytes 64 → Equiv.Perm (Words 32 8)) (block : List U8) (h : List U32) : M (List U32) :=
  if hl : block.length = 64 ∧ h.length = 8 then .ok (E ⟨block, hl.1⟩ ⟨h, hl.2⟩).1 else .error .panic

/-- `sha2.rs:164-193` `hash` with such a cipher. -/
def sha (E : Bytes 64 → Equiv.Perm (Words 32 8)) (m : List U8) : M (List U8) := Sha2.hashWith (Sha2.compressWith (shaCipher E)) m

/-- A permutation in place of `keccakf1600` (`fips202.rs:104-113`). -/
def keccakPerm (π : Equiv.Perm (Words 64 25)) (s : List U64) : M (List U64) :=
  if hl : s.length = 25 then .ok (π ⟨s, hl⟩).1 else .error .panic

/-- `fips202.rs:139-158` `keccak` with such a permutation. -/
def sponge (π : Equiv.Perm (Words 64 25)) (rate : Nat) (m : List U8) (p : U8) (n : Nat) : M (List U8) :=
  Fips202.keccakWith (keccakPerm π) rate m p n

end Hacspec.Ideal
