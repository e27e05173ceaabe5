import Verif.Lemmas.Release.Seq
import Verif.Model.Release.Sha2

/-! # SHA-256, HMAC and HKDF: the release build returns what the debug build returns -/

namespace Hacspec.Release.Sha2

open Spec (Keeps)
open Release.Seq

theorem sigmaTmp_keeps {x : U32} {t : U8} {op : Nat} :
    Keeps (Hacspec.Sha2.sigmaTmp x t op) (sigmaTmp x t op) := by
  unfold Hacspec.Sha2.sigmaTmp sigmaTmp
  kp

macro_rules | `(tactic| kp_leaf) => `(tactic| with_reducible exact sigmaTmp_keeps)

theorem sigma_keeps {x : U32} {i op : Nat} :
    Keeps (Hacspec.Sha2.sigma x i op) (sigma x i op) := by
  unfold Hacspec.Sha2.sigma sigma
  kp

macro_rules | `(tactic| kp_leaf) => `(tactic| with_reducible exact sigma_keeps)

theorem scheduleStep_keeps {b : List U32} {i : Nat} {s : List U32} :
    Keeps (Hacspec.Sha2.scheduleStep b i s) (scheduleStep b i s) := by
  unfold Hacspec.Sha2.scheduleStep scheduleStep
  kp

macro_rules | `(tactic| kp_leaf) => `(tactic| with_reducible exact scheduleStep_keeps)

theorem schedule_keeps {block : List U8} :
    Keeps (Hacspec.Sha2.schedule block) (schedule block) := by
  unfold Hacspec.Sha2.schedule schedule
  kp

macro_rules | `(tactic| kp_leaf) => `(tactic| with_reducible exact schedule_keeps)

theorem shuffleStep_keeps {k ws : List U32} {i : Nat} {h : List U32} :
    Keeps (Hacspec.Sha2.shuffleStep k ws i h) (shuffleStep k ws i h) := by
  unfold Hacspec.Sha2.shuffleStep shuffleStep
  kp

macro_rules | `(tactic| kp_leaf) => `(tactic| with_reducible exact shuffleStep_keeps)

theorem shuffle_keeps {ws hashi : List U32} :
    Keeps (Hacspec.Sha2.shuffle ws hashi) (shuffle ws hashi) := by
  unfold Hacspec.Sha2.shuffle shuffle
  kp

macro_rules | `(tactic| kp_leaf) => `(tactic| with_reducible exact shuffle_keeps)

theorem compress_keeps {block : List U8} {hIn : List U32} :
    Keeps (Hacspec.Sha2.compress block hIn) (compress block hIn) := by
  unfold Hacspec.Sha2.compress compress
  kp

macro_rules | `(tactic| kp_leaf) => `(tactic| with_reducible exact compress_keeps)

theorem lastBlock_keeps {msgLen blockLen : Nat} {block : List U8} {h : List U32} :
    Keeps (Hacspec.Sha2.lastBlock msgLen blockLen block h) (lastBlock msgLen blockLen block h) := by
  unfold Hacspec.Sha2.lastBlock lastBlock
  refine Keeps.bind updateStart_keeps fun b _ => Keeps.bind update_keeps fun c _ => Keeps.bind Keeps.refl fun d _ => ?_
  refine Keeps.require fun _ => ?_
  kp

macro_rules | `(tactic| kp_leaf) => `(tactic| with_reducible exact lastBlock_keeps)

theorem hashStep_keeps {msg : List U8} {i : Nat} {h : List U32} (hl : msg.length + 64 < 2 ^ 64) :
    Keeps (Hacspec.Sha2.hashStep msg i h) (hashStep msg i h) := by
  unfold Hacspec.Sha2.hashStep hashStep
  kp

macro_rules | `(tactic| kp_leaf) => `(tactic| with_reducible exact hashStep_keeps ‹_›)

theorem hash_keeps {msg : List U8} :
    Keeps (Hacspec.Sha2.hash msg) (hash msg) := by
  unfold Hacspec.Sha2.hash hash
  refine Keeps.bind arrFromPublicSlice_keeps fun h _ => Keeps.bind numChunks_keeps fun n hn => ?_
  have hl := numChunks_lt hn
  kp

macro_rules | `(tactic| kp_leaf) => `(tactic| with_reducible exact hash_keeps)

end Hacspec.Release.Sha2

namespace Hacspec.Release.Hmac

open Spec (Keeps)
open Release.Seq

theorem keyBlock_keeps {k : List U8} :
    Keeps (Hacspec.Hmac.keyBlock k) (keyBlock k) := by
  unfold Hacspec.Hmac.keyBlock keyBlock
  kp

macro_rules | `(tactic| kp_leaf) => `(tactic| with_reducible exact keyBlock_keeps)

theorem blockThen_keeps {b txt : List U8} :
    Keeps (Hacspec.Hmac.blockThen b txt) (blockThen b txt) := by
  unfold Hacspec.Hmac.blockThen blockThen
  kp

macro_rules | `(tactic| kp_leaf) => `(tactic| with_reducible exact blockThen_keeps)

theorem hmac_keeps {k txt : List U8} :
    Keeps (Hacspec.Hmac.hmac k txt) (hmac k txt) := by
  unfold Hacspec.Hmac.hmac hmac
  kp

macro_rules | `(tactic| kp_leaf) => `(tactic| with_reducible exact hmac_keeps)

end Hacspec.Release.Hmac

namespace Hacspec.Release.Hkdf

open Spec (Keeps)
open Release.Seq

theorem extract_keeps {salt ikm : List U8} :
    Keeps (Hacspec.Hkdf.extract salt ikm) (extract salt ikm) := by
  unfold Hacspec.Hkdf.extract extract
  kp

macro_rules | `(tactic| kp_leaf) => `(tactic| with_reducible exact extract_keeps)

theorem buildHmacTxt_keeps {t info : List U8} {iteration : U8} :
    Keeps (Hacspec.Hkdf.buildHmacTxt t info iteration) (buildHmacTxt t info iteration) := by
  unfold Hacspec.Hkdf.buildHmacTxt buildHmacTxt
  kp

macro_rules | `(tactic| kp_leaf) => `(tactic| with_reducible exact buildHmacTxt_keeps)

theorem hmacTxtIn_keeps {info tI : List U8} {i : Nat} :
    Keeps (Hacspec.Hkdf.hmacTxtIn info tI i) (hmacTxtIn info tI i) := by
  unfold Hacspec.Hkdf.hmacTxtIn hmacTxtIn
  kp

macro_rules | `(tactic| kp_leaf) => `(tactic| with_reducible exact hmacTxtIn_keeps)

theorem expandStep_keeps {prk info : List U8} {i : Nat} {st : List U8 × List U8} :
    Keeps (Hacspec.Hkdf.expandStep prk info i st) (expandStep prk info i st) := by
  unfold Hacspec.Hkdf.expandStep expandStep
  kp

macro_rules | `(tactic| kp_leaf) => `(tactic| with_reducible exact expandStep_keeps)

theorem expand_keeps {prk info : List U8} {l : Nat} :
    Keeps (Hacspec.Hkdf.expand prk info l) (expand prk info l) := by
  refine Keeps.require (c := Hacspec.Hkdf.divCeil32 l < 255) fun h => ?_
  unfold expand
  rw [Nat.mod_eq_of_lt (by omega)]
  kp

macro_rules | `(tactic| kp_leaf) => `(tactic| with_reducible exact expand_keeps)

end Hacspec.Release.Hkdf
