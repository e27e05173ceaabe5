import Verif.Lemmas.Leak.CostFns

/-! # C94: how many steps the cryptographic functions take

A step is a memory access, a branch or an iteration of a loop (`Spec.steps`).  The bounds hold for all inputs, also for
those on which the function panics; where the type of an argument fixes its length this is a hypothesis. -/

namespace Hacspec.Props

open Spec Leak

/-- A bound of the cost is one of the number of steps. -/
theorem steps_of_costs {α : Type} {k : Nat} {P : α → Prop} {c : L α} (h : Costs k P c) : steps c.trace ≤ k :=
  steps_eq c.trace ▸ h.1

/-- **C94.**  ChaCha20: at most 4250 steps for every block of 64 bytes, complete or not. -/
theorem C94_chacha (k iv m : List U8) (hk : k.length = 32) (hi : iv.length = 12) :
    steps (Leak.ChaCha.chacha k iv m).trace ≤ 3 + 4250 * ((m.length + 63) / 64) :=
  steps_of_costs (Leak.ChaCha.chacha_costs hk hi)

/-- The bound is nearly attained. -/
example : steps (Leak.ChaCha.chacha (List.replicate 32 0) (List.replicate 12 0) (List.replicate 64 0)).trace = 4251 := by
  decide +kernel

/-- **C94.**  SHA-256: at most 23782 steps for every block of 64 bytes, complete or not (the last one may need two
compressions). -/
theorem C94_sha256 (m : List U8) : steps (Leak.Sha2.hash m).trace ≤ 238 + 23782 * ((m.length + 63) / 64) :=
  steps_of_costs Leak.Sha2.hash_costs

/-- A short message. -/
example : steps (Leak.Sha2.hash [1, 2, 3]).trace ≤ 24020 := C94_sha256 _

/-- **C94.**  HMAC. -/
theorem C94_hmac (k t : List U8) :
    steps (Leak.Hmac.hmac k t).trace ≤
      73644 + 23782 * ((k.length + 63) / 64) + 23782 * ((t.length + 63) / 64) + 3 * t.length :=
  steps_of_costs Leak.Hmac.hmac_costs

/-- **C94.**  HKDF: extraction is linear in the lengths of the salt and the input.  Expansion takes at most 254 HMACs,
whatever length is asked for. -/
theorem C94_hkdf (salt ikm prk info : List U8) (l : Nat) (hp : prk.length = 32) :
    steps (Leak.Hkdf.extract salt ikm).trace ≤
      97524 + 23782 * ((salt.length + 63) / 64) + 23782 * ((ikm.length + 63) / 64) + 3 * salt.length + 3 * ikm.length ∧
    steps (Leak.Hkdf.expand prk info l).trace ≤
      3 + 254 * (121604 + 23782 * ((info.length + 63) / 64) + 6 * info.length) + 3 * l :=
  ⟨steps_of_costs Leak.Hkdf.extract_costs, steps_of_costs (Leak.Hkdf.expand_costs hp)⟩

/-- **C94.**  The sponge: one permutation (12816 steps) for every block of input, complete or not, one for the padded
block, and one for every complete block of output. -/
theorem C94_keccak (rate : Nat) (m : List U8) (p : U8) (n : Nat) :
    steps (Leak.Fips202.keccak rate m p n).trace ≤
      12822 + 4 * rate + (12822 + 7 * rate) * ((m.length + rate - 1) / rate) + 4 * n + 12816 * (n / rate) :=
  steps_of_costs Leak.Fips202.keccak_costs

/-- **C94.**  SHA3-256 and SHAKE128 in numbers. -/
theorem C94_sha3 (m : List U8) (n : Nat) :
    steps (Leak.Fips202.sha3256 m).trace ≤ 13591 + 13774 * ((m.length + 135) / 136) ∧
    steps (Leak.Fips202.shake128 m n).trace ≤ 13494 + 13998 * ((m.length + 167) / 168) + 4 * n + 12816 * (n / 168) := by
  refine ⟨steps_of_costs (P := Leak.HasLen 32) ?_, steps_of_costs (Leak.Fips202.keccak_costs.le (by omega))⟩
  unfold Leak.Fips202.sha3256
  refine Costs.step (13494 + 13774 * ((m.length + 135) / 136)) Leak.Fips202.keccak_costs (by omega) fun t _ => ?_
  exact Leak.Seq.arrFromSeq_costs.le (by omega)

example : steps (Leak.Fips202.sha3256 [1, 2, 3]).trace ≤ 27365 := (C94_sha3 _ 0).1

/-- **C94.**  BLAKE2b: at most 4495 steps for every block of 128 bytes, complete or not. -/
theorem C94_blake2b (m : List U8) : steps (Leak.Blake2.blake2b m).trace ≤ 2062 + 4495 * ((m.length + 127) / 128) :=
  steps_of_costs Leak.Blake2.blake2b_costs

example : steps (Leak.Blake2.blake2b [1, 2, 3]).trace ≤ 6557 := C94_blake2b _

/-- **C94.**  AES in counter mode, AES-GCM: the key schedule runs again for every block, but no work is done twice in the
length of the message. -/
theorem C94_aes (key n m : List U8) (c : U32) (alg : Hacspec.Aes.Variant) :
    steps (Leak.Aes.encryptKey key n c m alg).trace ≤
      3 + 3 * key.length + (9077 + 3 * key.length + 3 * n.length) * ((m.length + 15) / 16) :=
  steps_of_costs Leak.Aes.encryptKey_costs

example : steps (Leak.Aes.encryptKey (List.replicate 16 0) (List.replicate 12 0) 0 [1, 2, 3] .aes128).trace ≤ 9212 :=
  C94_aes _ _ _ _ _

/-- **C94.**  AES-GCM, both directions; the bound for decryption covers a rejected tag as well. -/
theorem C94_gcm (key iv aad m tag : List U8) (alg : Hacspec.Aes.Variant) :
    steps (Leak.AesGcm.encryptKey key iv aad m alg).trace ≤
      20441 + 9 * key.length + 3 * iv.length + (9077 + 3 * key.length + 3 * iv.length) * ((m.length + 15) / 16) +
        37 * aad.length + 37 * m.length ∧
    steps (Leak.AesGcm.decryptKey key iv aad m tag alg).trace ≤
      20441 + 9 * key.length + 3 * iv.length + (9077 + 3 * key.length + 3 * iv.length) * ((m.length + 15) / 16) +
        37 * aad.length + 37 * m.length :=
  ⟨steps_of_costs Leak.AesGcm.encryptKey_costs, steps_of_costs Leak.AesGcm.decryptKey_costs⟩

/-- **C94.**  Poly1305 with the key derived by ChaCha20. -/
theorem C94_poly1305 (m key iv : List U8) (hk : key.length = 32) (hi : iv.length = 12) :
    steps (Leak.Poly1305.polyMac m key iv).trace ≤ 3518 + 104 * ((m.length + 15) / 16) :=
  steps_of_costs (Leak.Poly1305.polyMac_costs hk hi)

/-- **C94.**  ChaCha20-Poly1305, both directions. -/
theorem C94_aead (key iv aad m tag : List U8) (hk : key.length = 32) (hi : iv.length = 12) :
    steps (Leak.ChaChaPoly.encrypt key iv aad m).trace ≤
      4050 + 4250 * ((m.length + 63) / 64) + 10 * aad.length + 10 * m.length ∧
    steps (Leak.ChaChaPoly.decrypt key iv aad m tag).trace ≤
      4050 + 4250 * ((m.length + 63) / 64) + 10 * aad.length + 10 * m.length :=
  ⟨steps_of_costs (Leak.ChaChaPoly.encrypt_costs hk hi), steps_of_costs (Leak.ChaChaPoly.decrypt_costs hk hi)⟩

example : steps (Leak.ChaChaPoly.decrypt (List.replicate 32 0) (List.replicate 12 0) [] [1, 2, 3] [4]).trace ≤ 8330 :=
  (C94_aead _ _ _ _ _ (by simp) (by simp)).2

/-- **C94.**  The scalar multiplications: a constant number of steps, each field operation counting as none. -/
theorem C94_curves (s p : List U8) (k : AbstractInt.Canvas) :
    steps (Leak.Curve25519.scalarmult s p).trace ≤ 618 ∧ steps (Leak.P256.pointMul k).trace ≤ 1792 :=
  ⟨steps_of_costs Leak.Curve25519.scalarmult_costs, steps_of_costs Leak.P256.pointMul_costs⟩

end Hacspec.Props
