import Verif.Lemmas.Release.Seq
import Verif.Model.Release.Aes

/-! # AES and AES-GCM: the release build returns what the debug build returns -/

namespace Hacspec.Release.Aes

open Spec (Keeps)
open Release.Seq

theorem xtime_keeps {x : U8} :
    Keeps (Hacspec.Aes.xtime x) (xtime x) := by
  unfold Hacspec.Aes.xtime xtime
  kp

macro_rules | `(tactic| kp_leaf) => `(tactic| with_reducible exact xtime_keeps)

theorem mixColumn_keeps {c : Nat} {state : List U8} :
    Keeps (Hacspec.Aes.mixColumn c state) (mixColumn c state) := by
  unfold Hacspec.Aes.mixColumn mixColumn
  kp

macro_rules | `(tactic| kp_leaf) => `(tactic| with_reducible exact mixColumn_keeps)

theorem mixColumns_keeps {state : List U8} :
    Keeps (Hacspec.Aes.mixColumns state) (mixColumns state) := by
  unfold Hacspec.Aes.mixColumns mixColumns
  kp

macro_rules | `(tactic| kp_leaf) => `(tactic| with_reducible exact mixColumns_keeps)

theorem aesEnc_keeps {state roundKey : List U8} :
    Keeps (Hacspec.Aes.aesEnc state roundKey) (aesEnc state roundKey) := by
  unfold Hacspec.Aes.aesEnc aesEnc
  kp

macro_rules | `(tactic| kp_leaf) => `(tactic| with_reducible exact aesEnc_keeps)

theorem roundsAes_keeps {state key : List U8} :
    Keeps (Hacspec.Aes.roundsAes state key) (roundsAes state key) := by
  unfold Hacspec.Aes.roundsAes roundsAes
  refine Keeps.bind numChunks_keeps fun n hn => ?_
  have hl := numChunks_lt hn
  kp

macro_rules | `(tactic| kp_leaf) => `(tactic| with_reducible exact roundsAes_keeps)

theorem blockCipher_keeps {input key : List U8} {nr : Nat} :
    Keeps (Hacspec.Aes.blockCipher input key nr) (blockCipher input key nr) := by
  unfold Hacspec.Aes.blockCipher blockCipher
  kp

macro_rules | `(tactic| kp_leaf) => `(tactic| with_reducible exact blockCipher_keeps)

theorem expansionStep_keeps {nk nr : Nat} {alg : Hacspec.Aes.Variant} {j : Nat} {keyEx : List U8} :
    Keeps (Hacspec.Aes.expansionStep nk nr alg j keyEx) (expansionStep nk nr alg j keyEx) := by
  unfold Hacspec.Aes.expansionStep expansionStep
  kp

macro_rules | `(tactic| kp_leaf) => `(tactic| with_reducible exact expansionStep_keeps)

theorem keyExpansion_keeps {key : List U8} {nk nr : Nat} {alg : Hacspec.Aes.Variant} :
    Keeps (Hacspec.Aes.keyExpansion key nk nr alg) (keyExpansion key nk nr alg) := by
  unfold Hacspec.Aes.keyExpansion keyExpansion
  kp

macro_rules | `(tactic| kp_leaf) => `(tactic| with_reducible exact keyExpansion_keeps)

theorem encryptBlock_keeps {k input : List U8} {nk nr : Nat} {alg : Hacspec.Aes.Variant} :
    Keeps (Hacspec.Aes.encryptBlock k input nk nr alg) (encryptBlock k input nk nr alg) := by
  unfold Hacspec.Aes.encryptBlock encryptBlock
  kp

macro_rules | `(tactic| kp_leaf) => `(tactic| with_reducible exact encryptBlock_keeps)

theorem aes128EncryptBlock_keeps {k input : List U8} {nk nr : Nat} :
    Keeps (Hacspec.Aes.aes128EncryptBlock k input nk nr) (aes128EncryptBlock k input nk nr) := by
  unfold Hacspec.Aes.aes128EncryptBlock aes128EncryptBlock
  kp

macro_rules | `(tactic| kp_leaf) => `(tactic| with_reducible exact aes128EncryptBlock_keeps)

theorem aes256EncryptBlock_keeps {k input : List U8} {nk nr : Nat} :
    Keeps (Hacspec.Aes.aes256EncryptBlock k input nk nr) (aes256EncryptBlock k input nk nr) := by
  unfold Hacspec.Aes.aes256EncryptBlock aes256EncryptBlock
  kp

macro_rules | `(tactic| kp_leaf) => `(tactic| with_reducible exact aes256EncryptBlock_keeps)

theorem ctrKeyblock_keeps {k n : List U8} {c : U32} {nk nr : Nat} {alg : Hacspec.Aes.Variant} :
    Keeps (Hacspec.Aes.ctrKeyblock k n c nk nr alg) (ctrKeyblock k n c nk nr alg) := by
  unfold Hacspec.Aes.ctrKeyblock ctrKeyblock
  kp

macro_rules | `(tactic| kp_leaf) => `(tactic| with_reducible exact ctrKeyblock_keeps)

theorem ctrBranch_keeps {blockLen : Nat} {msgBlock keyBlock : List U8} {i : Nat} {st : U32 × List U8} (hl : st.2.length + 16 < 2 ^ 64) :
    Keeps (Hacspec.Aes.ctrBranch blockLen msgBlock keyBlock i st) (ctrBranch blockLen msgBlock keyBlock i st) := by
  unfold Hacspec.Aes.ctrBranch ctrBranch
  kp

macro_rules | `(tactic| kp_leaf) => `(tactic| with_reducible exact ctrBranch_keeps ‹_›)

theorem ctrStep_keeps {key nonce msg : List U8} {nk nr : Nat} {alg : Hacspec.Aes.Variant} {i : Nat} {st : U32 × List U8} (hl : msg.length + 16 < 2 ^ 64) (ho : st.2.length = msg.length) :
    Keeps (Hacspec.Aes.ctrStep key nonce msg nk nr alg i st) (ctrStep key nonce msg nk nr alg i st) := by
  unfold Hacspec.Aes.ctrStep ctrStep
  have ho' : st.2.length + 16 < 2 ^ 64 := by omega
  kp

theorem ctrStep_length {key nonce msg : List U8} {nk nr : Nat} {alg : Hacspec.Aes.Variant} {i : Nat} {st r : U32 × List U8}
    (h : Hacspec.Aes.ctrStep key nonce msg nk nr alg i st = .ok r) : r.2.length = st.2.length := by
  unfold Hacspec.Aes.ctrStep at h
  obtain ⟨_, _, h⟩ := bind_eq_ok.1 h
  obtain ⟨_, _, h⟩ := bind_eq_ok.1 h
  unfold Hacspec.Aes.ctrBranch at h
  split at h
  · obtain ⟨_, _, h⟩ := bind_eq_ok.1 h
    obtain ⟨_, _, h⟩ := bind_eq_ok.1 h
    obtain ⟨o, ho, h⟩ := bind_eq_ok.1 h
    cases h
    exact setChunk_length ho
  · obtain ⟨_, _, h⟩ := bind_eq_ok.1 h
    obtain ⟨_, _, h⟩ := bind_eq_ok.1 h
    obtain ⟨_, _, h⟩ := bind_eq_ok.1 h
    obtain ⟨o, ho, h⟩ := bind_eq_ok.1 h
    cases h
    exact setChunk_length ho

theorem counterMode_keeps {key nonce : List U8} {counter : U32} {msg : List U8} {nk nr : Nat} {alg : Hacspec.Aes.Variant} :
    Keeps (Hacspec.Aes.counterMode key nonce counter msg nk nr alg) (counterMode key nonce counter msg nk nr alg) := by
  unfold Hacspec.Aes.counterMode counterMode
  refine Keeps.bind numChunks_keeps fun n hn => ?_
  have hl := numChunks_lt hn
  refine Keeps.bind (Keeps.loop_inv (fun st => st.2.length = msg.length) (by simp [Hacspec.Seq.new])
    (fun i _ t ht => ctrStep_keeps hl ht) fun i _ t ht u hu => (ctrStep_length hu).trans ht) fun _ _ => Keeps.refl

macro_rules | `(tactic| kp_leaf) => `(tactic| with_reducible exact counterMode_keeps)

theorem encrypt_keeps {key nonce : List U8} {counter : U32} {msg : List U8} {alg : Hacspec.Aes.Variant} :
    Keeps (Hacspec.Aes.encrypt key nonce counter msg alg) (encrypt key nonce counter msg alg) := by
  unfold Hacspec.Aes.encrypt encrypt
  kp

macro_rules | `(tactic| kp_leaf) => `(tactic| with_reducible exact encrypt_keeps)

theorem encryptKey_keeps {key nonce : List U8} {counter : U32} {msg : List U8} {alg : Hacspec.Aes.Variant} :
    Keeps (Hacspec.Aes.encryptKey key nonce counter msg alg) (encryptKey key nonce counter msg alg) := by
  unfold Hacspec.Aes.encryptKey encryptKey
  kp

macro_rules | `(tactic| kp_leaf) => `(tactic| with_reducible exact encryptKey_keeps)

end Hacspec.Release.Aes

namespace Hacspec.Release.Gf128

open Spec (Keeps)
open Release.Seq hiding update_keeps

theorem fmulStep_keeps {y : U128} {i : Nat} {st : U128 × U128} :
    Keeps (Hacspec.Gf128.fmulStep y i st) (fmulStep y i st) := by
  unfold Hacspec.Gf128.fmulStep fmulStep
  kp

macro_rules | `(tactic| kp_leaf) => `(tactic| with_reducible exact fmulStep_keeps)

theorem fmul_keeps {x y : U128} :
    Keeps (Hacspec.Gf128.fmul x y) (fmul x y) := by
  unfold Hacspec.Gf128.fmul fmul
  kp

macro_rules | `(tactic| kp_leaf) => `(tactic| with_reducible exact fmul_keeps)

theorem encode_keeps {block : List U8} :
    Keeps (Hacspec.Gf128.encode block) (encode block) := by
  unfold Hacspec.Gf128.encode encode
  kp

macro_rules | `(tactic| kp_leaf) => `(tactic| with_reducible exact encode_keeps)

theorem decode_keeps {e : U128} :
    Keeps (Hacspec.Gf128.decode e) (decode e) := by
  unfold Hacspec.Gf128.decode decode
  kp

macro_rules | `(tactic| kp_leaf) => `(tactic| with_reducible exact decode_keeps)

theorem update_keeps {r : U128} {block : List U8} {acc : U128} :
    Keeps (Hacspec.Gf128.update r block acc) (update r block acc) := by
  unfold Hacspec.Gf128.update update
  kp

macro_rules | `(tactic| kp_leaf) => `(tactic| with_reducible exact update_keeps)

theorem polyStep_keeps {msg : List U8} {r : U128} {i : Nat} {acc : U128} :
    Keeps (Hacspec.Gf128.polyStep msg r i acc) (polyStep msg r i acc) := by
  unfold Hacspec.Gf128.polyStep polyStep
  kp

macro_rules | `(tactic| kp_leaf) => `(tactic| with_reducible exact polyStep_keeps)

theorem polyLast_keeps {msg : List U8} {r : U128} {acc : U128} :
    Keeps (Hacspec.Gf128.polyLast msg r acc) (polyLast msg r acc) := by
  unfold Hacspec.Gf128.polyLast polyLast
  kp

macro_rules | `(tactic| kp_leaf) => `(tactic| with_reducible exact polyLast_keeps)

theorem poly_keeps {msg : List U8} {r : U128} :
    Keeps (Hacspec.Gf128.poly msg r) (poly msg r) := by
  unfold Hacspec.Gf128.poly poly
  kp

macro_rules | `(tactic| kp_leaf) => `(tactic| with_reducible exact poly_keeps)

theorem gmac_keeps {text k : List U8} :
    Keeps (Hacspec.Gf128.gmac text k) (gmac text k) := by
  unfold Hacspec.Gf128.gmac gmac
  kp

macro_rules | `(tactic| kp_leaf) => `(tactic| with_reducible exact gmac_keeps)

end Hacspec.Release.Gf128

namespace Hacspec.Release.AesGcm

open Spec (Keeps)
open Release.Seq

theorem padAadMsg_keeps {aad msg : List U8} :
    Keeps (Hacspec.AesGcm.padAadMsg aad msg) (padAadMsg aad msg) := by
  unfold Hacspec.AesGcm.padAadMsg padAadMsg
  kp

macro_rules | `(tactic| kp_leaf) => `(tactic| with_reducible exact padAadMsg_keeps)

theorem encrypt_keeps {key iv aad msg : List U8} {alg : Hacspec.Aes.Variant} :
    Keeps (Hacspec.AesGcm.encrypt key iv aad msg alg) (encrypt key iv aad msg alg) := by
  unfold Hacspec.AesGcm.encrypt encrypt
  kp

macro_rules | `(tactic| kp_leaf) => `(tactic| with_reducible exact encrypt_keeps)

theorem encryptKey_keeps {key iv aad msg : List U8} {alg : Hacspec.Aes.Variant} :
    Keeps (Hacspec.AesGcm.encryptKey key iv aad msg alg) (encryptKey key iv aad msg alg) := by
  unfold Hacspec.AesGcm.encryptKey encryptKey
  kp

macro_rules | `(tactic| kp_leaf) => `(tactic| with_reducible exact encryptKey_keeps)

theorem decrypt_keeps {key iv aad cipherText tag : List U8} {alg : Hacspec.Aes.Variant} :
    Keeps (Hacspec.AesGcm.decrypt key iv aad cipherText tag alg) (decrypt key iv aad cipherText tag alg) := by
  unfold Hacspec.AesGcm.decrypt decrypt
  kp

macro_rules | `(tactic| kp_leaf) => `(tactic| with_reducible exact decrypt_keeps)

theorem decryptKey_keeps {key iv aad cipherText tag : List U8} {alg : Hacspec.Aes.Variant} :
    Keeps (Hacspec.AesGcm.decryptKey key iv aad cipherText tag alg) (decryptKey key iv aad cipherText tag alg) := by
  unfold Hacspec.AesGcm.decryptKey decryptKey
  kp

macro_rules | `(tactic| kp_leaf) => `(tactic| with_reducible exact decryptKey_keeps)

end Hacspec.Release.AesGcm
