import Verif.Model.Ideal
import Verif.Spec.Games

/-! # The AEADs with a random function in place of the block function -/

namespace Hacspec.Ideal

open Spec

/-- A function in place of `block` (`chacha20.rs:82-85`) with a key; the types of Rust leave only nonces of 12 bytes. -/
def chachaBlock (F : Bytes 12 × U32 → Bytes 64) (iv : List U8) (ctr : U32) : M (List U8) :=
  if h : iv.length = 12 then .ok (F (⟨iv, h⟩, ctr)).1 else .error .panic

/-- `chacha20poly1305.rs:29-66` with such a function. -/
def chachaPoly : Aead (Bytes 12 × U32 → Bytes 64) where
  enc F iv aad m := ChaChaPoly.encryptWith (chachaBlock F) iv.1 aad m
  dec F iv aad c t := ChaChaPoly.decryptWith (chachaBlock F) iv.1 aad c t.1

/-- A function in place of `aes_encrypt_block` (`aes.rs:206-209`) with a key. -/
def aesBlock (F : Bytes 16 → Bytes 16) (x : List U8) : M (List U8) :=
  if h : x.length = 16 then .ok (F ⟨x, h⟩).1 else .error .panic

/-- `aesgcm.rs:38-98` with such a function. -/
def aesGcm : Aead (Bytes 16 → Bytes 16) where
  enc F iv aad m := AesGcm.encryptWith (aesBlock F) iv.1 aad m
  dec F iv aad c t := AesGcm.decryptWith (aesBlock F) iv.1 aad c t.1

/-- `aesgcm.rs:38-98` with a block cipher in place of AES; unknown are the block cipher and the key, of `k` bytes. -/
def aesGcmOf (k : Nat) : Aead ((Bytes k → Equiv.Perm (Bytes 16)) × Bytes k) where
  enc ω iv aad m := AesGcm.encryptWith (aesBlock (ω.1 ω.2)) iv.1 aad m
  dec ω iv aad c t := AesGcm.decryptWith (aesBlock (ω.1 ω.2)) iv.1 aad c t.1

end Hacspec.Ideal
