import Verif.Lemmas.Release.Seq
import Verif.Model.Release.ChaCha

/-! # ChaCha20, Poly1305 and their AEAD: the release build returns what the debug build returns -/

namespace Hacspec.Release.ChaCha

open Spec (Keeps)
open Release.Seq

theorem stateToBytesStep_keeps {x : List U32} {i : Nat} {r : List U8} :
    Keeps (Hacspec.ChaCha.stateToBytesStep x i r) (stateToBytesStep x i r) := by
  unfold Hacspec.ChaCha.stateToBytesStep stateToBytesStep
  kp

macro_rules | `(tactic| kp_leaf) => `(tactic| with_reducible exact stateToBytesStep_keeps)

theorem stateToBytes_keeps {x : List U32} :
    Keeps (Hacspec.ChaCha.stateToBytes x) (stateToBytes x) := by
  unfold Hacspec.ChaCha.stateToBytes stateToBytes
  kp

macro_rules | `(tactic| kp_leaf) => `(tactic| with_reducible exact stateToBytes_keeps)

theorem leWordAt_keeps {key : List U8} {a b : Nat} :
    Keeps (Hacspec.ChaCha.leWordAt key a b) (leWordAt key a b) := by
  unfold Hacspec.ChaCha.leWordAt leWordAt
  kp

macro_rules | `(tactic| kp_leaf) => `(tactic| with_reducible exact leWordAt_keeps)

theorem blockInit_keeps {key : List U8} {ctr : U32} {iv : List U8} :
    Keeps (Hacspec.ChaCha.blockInit key ctr iv) (blockInit key ctr iv) := by
  unfold Hacspec.ChaCha.blockInit blockInit
  kp

macro_rules | `(tactic| kp_leaf) => `(tactic| with_reducible exact blockInit_keeps)

theorem blockInner_keeps {key : List U8} {ctr : U32} {iv : List U8} :
    Keeps (Hacspec.ChaCha.blockInner key ctr iv) (blockInner key ctr iv) := by
  unfold Hacspec.ChaCha.blockInner blockInner
  kp

macro_rules | `(tactic| kp_leaf) => `(tactic| with_reducible exact blockInner_keeps)

theorem block_keeps {key : List U8} {ctr : U32} {iv : List U8} :
    Keeps (Hacspec.ChaCha.block key ctr iv) (block key ctr iv) := by
  unfold Hacspec.ChaCha.block block
  kp

macro_rules | `(tactic| kp_leaf) => `(tactic| with_reducible exact block_keeps)

theorem chachaStep_keeps {key iv m : List U8} {i : Nat} {st : U32 × List U8} (hl : m.length + 64 < 2 ^ 64) (ho : st.2.length = m.length) :
    Keeps (Hacspec.ChaCha.chachaStep key iv m i st) (chachaStep key iv m i st) := by
  unfold Hacspec.ChaCha.chachaStep chachaStep
  have ho' : st.2.length + 64 < 2 ^ 64 := by omega
  kp

theorem chachaStep_length {key iv m : List U8} {i : Nat} {st r : U32 × List U8}
    (h : Hacspec.ChaCha.chachaStep key iv m i st = .ok r) : r.2.length = st.2.length := by
  unfold Hacspec.ChaCha.chachaStep at h
  obtain ⟨_, _, h⟩ := bind_eq_ok.1 h
  obtain ⟨_, _, h⟩ := bind_eq_ok.1 h
  obtain ⟨_, _, h⟩ := bind_eq_ok.1 h
  obtain ⟨_, _, h⟩ := bind_eq_ok.1 h
  obtain ⟨_, _, h⟩ := bind_eq_ok.1 h
  obtain ⟨o, ho, h⟩ := bind_eq_ok.1 h
  cases h
  exact setChunk_length ho

theorem chacha_keeps {key iv m : List U8} :
    Keeps (Hacspec.ChaCha.chacha key iv m) (chacha key iv m) := by
  unfold Hacspec.ChaCha.chacha chacha
  refine Keeps.bind numChunks_keeps fun n hn => ?_
  have hl := numChunks_lt hn
  refine Keeps.bind (Keeps.loop_inv (fun st => st.2.length = m.length) (by simp [Hacspec.Seq.new])
    (fun i _ t ht => chachaStep_keeps hl ht) fun i _ t ht u hu => (chachaStep_length hu).trans ht) fun _ _ => Keeps.refl

macro_rules | `(tactic| kp_leaf) => `(tactic| with_reducible exact chacha_keeps)

end Hacspec.Release.ChaCha

namespace Hacspec.Release.Poly1305

open Spec (Keeps)
open Release.Seq

theorem keyGen_keeps {key iv : List U8} :
    Keeps (Hacspec.Poly1305.keyGen key iv) (keyGen key iv) := by
  unfold Hacspec.Poly1305.keyGen keyGen
  kp

macro_rules | `(tactic| kp_leaf) => `(tactic| with_reducible exact keyGen_keeps)

theorem encodeR_keeps {r : List U8} :
    Keeps (Hacspec.Poly1305.encodeR r) (encodeR r) := by
  unfold Hacspec.Poly1305.encodeR encodeR
  kp

macro_rules | `(tactic| kp_leaf) => `(tactic| with_reducible exact encodeR_keeps)

theorem encode_keeps {block : List U8} :
    Keeps (Hacspec.Poly1305.encode block) (encode block) := by
  unfold Hacspec.Poly1305.encode encode
  kp

macro_rules | `(tactic| kp_leaf) => `(tactic| with_reducible exact encode_keeps)

theorem polyStep_keeps {m : List U8} {r : AbstractInt.Canvas} {k : Nat} {acc : AbstractInt.Canvas} :
    Keeps (Hacspec.Poly1305.polyStep m r k acc) (polyStep m r k acc) := by
  unfold Hacspec.Poly1305.polyStep polyStep
  kp

macro_rules | `(tactic| kp_leaf) => `(tactic| with_reducible exact polyStep_keeps)

theorem polyInner_keeps {m : List U8} {r : AbstractInt.Canvas} :
    Keeps (Hacspec.Poly1305.polyInner m r) (polyInner m r) := by
  unfold Hacspec.Poly1305.polyInner polyInner
  kp

macro_rules | `(tactic| kp_leaf) => `(tactic| with_reducible exact polyInner_keeps)

theorem poly_keeps {m key : List U8} :
    Keeps (Hacspec.Poly1305.poly m key) (poly m key) := by
  unfold Hacspec.Poly1305.poly poly
  kp

macro_rules | `(tactic| kp_leaf) => `(tactic| with_reducible exact poly_keeps)

theorem polyMac_keeps {m key iv : List U8} :
    Keeps (Hacspec.Poly1305.polyMac m key iv) (polyMac m key iv) := by
  unfold Hacspec.Poly1305.polyMac polyMac
  kp

macro_rules | `(tactic| kp_leaf) => `(tactic| with_reducible exact polyMac_keeps)

end Hacspec.Release.Poly1305

namespace Hacspec.Release.ChaChaPoly

open Spec (Keeps)
open Release.Seq

theorem padAadMsg_keeps {aad msg : List U8} :
    Keeps (Hacspec.ChaChaPoly.padAadMsg aad msg) (padAadMsg aad msg) := by
  unfold Hacspec.ChaChaPoly.padAadMsg padAadMsg
  kp

macro_rules | `(tactic| kp_leaf) => `(tactic| with_reducible exact padAadMsg_keeps)

theorem encrypt_keeps {key iv aad msg : List U8} :
    Keeps (Hacspec.ChaChaPoly.encrypt key iv aad msg) (encrypt key iv aad msg) := by
  unfold Hacspec.ChaChaPoly.encrypt encrypt
  kp

macro_rules | `(tactic| kp_leaf) => `(tactic| with_reducible exact encrypt_keeps)

theorem decrypt_keeps {key iv aad cipherText tag : List U8} :
    Keeps (Hacspec.ChaChaPoly.decrypt key iv aad cipherText tag) (decrypt key iv aad cipherText tag) := by
  unfold Hacspec.ChaChaPoly.decrypt decrypt
  kp

macro_rules | `(tactic| kp_leaf) => `(tactic| with_reducible exact decrypt_keeps)

end Hacspec.Release.ChaChaPoly
