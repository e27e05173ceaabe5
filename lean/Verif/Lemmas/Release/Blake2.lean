import Verif.Lemmas.Release.Seq
import Verif.Model.Release.Blake2

/-! # BLAKE2b: the release build returns what the debug build returns -/

namespace Hacspec.Release.Blake2

open Spec (Keeps)
open Release.Seq

variable {w : Nat}

theorem rotStep_keeps {v : List (BitVec w)} {d a n : Nat} :
    Keeps (Hacspec.Blake2.rotStep v d a n) (rotStep v d a n) := by
  unfold Hacspec.Blake2.rotStep rotStep
  kp

macro_rules | `(tactic| kp_leaf) => `(tactic| with_reducible exact rotStep_keeps)

theorem mix_keeps {v : List (BitVec w)} {a b c d : Nat} {x y : BitVec w} :
    Keeps (Hacspec.Blake2.mix v a b c d x y) (mix v a b c d x y) := by
  unfold Hacspec.Blake2.mix mix
  kp

macro_rules | `(tactic| kp_leaf) => `(tactic| with_reducible exact mix_keeps)

theorem incHigh_keeps {t : List (BitVec w)} {newVal x : BitVec w} {result : List (BitVec w)} :
    Keeps (Hacspec.Blake2.incHigh t newVal x result) (incHigh t newVal x result) := by
  unfold Hacspec.Blake2.incHigh incHigh
  refine Keeps.ite (fun _ => Keeps.bind Keeps.refl fun a _ => Keeps.bind addU_keeps fun _ _ => Keeps.refl) fun _ => Keeps.refl

macro_rules | `(tactic| kp_leaf) => `(tactic| with_reducible exact incHigh_keeps)

theorem incCounter_keeps {t : List (BitVec w)} {x : BitVec w} :
    Keeps (Hacspec.Blake2.incCounter t x) (incCounter t x) := by
  unfold Hacspec.Blake2.incCounter incCounter
  refine Keeps.bind Keeps.refl fun a _ => Keeps.bind addU_keeps fun _ _ => ?_
  kp

macro_rules | `(tactic| kp_leaf) => `(tactic| with_reducible exact incCounter_keeps)

theorem makeArray_keeps {w : Nat} {h : List U8} (hw : w ≤ 64) :
    Keeps (Hacspec.Blake2.makeArray w h) (makeArray w h) := by
  unfold Hacspec.Blake2.makeArray makeArray
  refine Keeps.bind Keeps.refl fun u hu => ?_
  have h16 : h.length / (w / 8) = 16 := require_eq_ok.1 hu
  have hl : h.length + w / 8 < 2 ^ 64 := by
    have hp : 0 < w / 8 := by
      rcases Nat.eq_zero_or_pos (w / 8) with h0 | h0
      · rw [h0, Nat.div_zero] at h16; omega
      · exact h0
    have := (Nat.div_lt_iff_lt_mul hp).1 (show h.length / (w / 8) < 17 by omega)
    omega
  kp

macro_rules | `(tactic| kp_leaf) => `(tactic| with_reducible exact makeArray_keeps ‹_›)

theorem mixAt_keeps {m : List (BitVec w)} {i k a b c d : Nat} {v : List (BitVec w)} :
    Keeps (Hacspec.Blake2.mixAt m i k a b c d v) (mixAt m i k a b c d v) := by
  unfold Hacspec.Blake2.mixAt mixAt
  kp

macro_rules | `(tactic| kp_leaf) => `(tactic| with_reducible exact mixAt_keeps)

theorem roundStep_keeps {m : List (BitVec w)} {i : Nat} {v : List (BitVec w)} :
    Keeps (Hacspec.Blake2.roundStep m i v) (roundStep m i v) := by
  unfold Hacspec.Blake2.roundStep roundStep
  kp

macro_rules | `(tactic| kp_leaf) => `(tactic| with_reducible exact roundStep_keeps)

theorem initV_keeps {iv h t : List (BitVec w)} {last : Bool} :
    Keeps (Hacspec.Blake2.initV iv h t last) (initV iv h t last) := by
  unfold Hacspec.Blake2.initV initV
  kp

macro_rules | `(tactic| kp_leaf) => `(tactic| with_reducible exact initV_keeps)

theorem compress_keeps {iv h : List (BitVec w)} {m : List U8} {t : List (BitVec w)} {last : Bool} {alg : Hacspec.Blake2.Variant} (hw : w ≤ 64) :
    Keeps (Hacspec.Blake2.compress iv h m t last alg) (compress iv h m t last alg) := by
  unfold Hacspec.Blake2.compress compress
  kp

macro_rules | `(tactic| kp_leaf) => `(tactic| with_reducible exact compress_keeps ‹_›)

theorem getByte_keeps {x : BitVec w} {i : Nat} :
    Keeps (Hacspec.Blake2.getByte x i) (getByte x i) := by
  unfold Hacspec.Blake2.getByte getByte
  kp

macro_rules | `(tactic| kp_leaf) => `(tactic| with_reducible exact getByte_keeps)

theorem blockBranch_keeps {iv : List (BitVec w)} {alg : Hacspec.Blake2.Variant} {blockLen : Nat} {blk : List U8} {st : List (BitVec w) × List (BitVec w)} (hw : w ≤ 64) :
    Keeps (Hacspec.Blake2.blockBranch iv alg blockLen blk st) (blockBranch iv alg blockLen blk st) := by
  unfold Hacspec.Blake2.blockBranch blockBranch
  kp

macro_rules | `(tactic| kp_leaf) => `(tactic| with_reducible exact blockBranch_keeps ‹_›)

theorem blockStep_keeps {iv : List (BitVec w)} {alg : Hacspec.Blake2.Variant} {data : List U8} {i : Nat} {st : List (BitVec w) × List (BitVec w)} (hw : w ≤ 64) (hl : data.length + 128 < 2 ^ 64) :
    Keeps (Hacspec.Blake2.blockStep iv alg data i st) (blockStep iv alg data i st) := by
  unfold Hacspec.Blake2.blockStep blockStep
  kp

macro_rules | `(tactic| kp_leaf) => `(tactic| with_reducible exact blockStep_keeps ‹_› ‹_›)

theorem blake2_keeps {iv : List (BitVec w)} {data : List U8} {alg : Hacspec.Blake2.Variant} (hw : w ≤ 64) :
    Keeps (Hacspec.Blake2.blake2 iv data alg) (blake2 iv data alg) := by
  unfold Hacspec.Blake2.blake2 blake2
  refine Keeps.bind Keeps.refl fun _ _ => Keeps.bind Keeps.refl fun _ _ => Keeps.bind numChunks_keeps fun n hn => ?_
  have hl := numChunks_lt hn
  kp

macro_rules | `(tactic| kp_leaf) => `(tactic| with_reducible exact blake2_keeps (by decide))

theorem blake2b_keeps {data : List U8} :
    Keeps (Hacspec.Blake2.blake2b data) (blake2b data) := by
  unfold Hacspec.Blake2.blake2b blake2b
  kp

macro_rules | `(tactic| kp_leaf) => `(tactic| with_reducible exact blake2b_keeps)

end Hacspec.Release.Blake2
