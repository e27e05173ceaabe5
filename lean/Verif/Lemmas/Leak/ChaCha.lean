import Verif.Lemmas.Leak.Seq
import Verif.Model.Leak.ChaCha

/-! # ChaCha20: the events depend on lengths only -/

namespace Hacspec.Leak.ChaCha

open Leak.Seq Leak.VecInt

theorem stateToBytesStep_same {x x' : List U32} {r r' : List U8} {i : Nat} (h : Len x x') (hr : Len r r') :
    Same Len (stateToBytesStep x i r) (stateToBytesStep x' i r') := by
  unfold stateToBytesStep
  ct

@[simp] theorem res_stateToBytesStep (x : List U32) (i : Nat) (r : List U8) :
    (stateToBytesStep x i r).res = Hacspec.ChaCha.stateToBytesStep x i r := by
  simp [stateToBytesStep, Hacspec.ChaCha.stateToBytesStep]

macro_rules | `(tactic| ct_leaf) => `(tactic| with_reducible refine stateToBytesStep_same ?_ ?_)

theorem stateToBytes_same {x x' : List U32} (h : Len x x') : Same Len (stateToBytes x) (stateToBytes x') := by
  unfold stateToBytes
  ct

@[simp] theorem res_stateToBytes (x : List U32) : (stateToBytes x).res = Hacspec.ChaCha.stateToBytes x := by
  simp [stateToBytes, Hacspec.ChaCha.stateToBytes]

theorem line_same {a b d s : Nat} {m m' : List U32} (h : Len m m') : Same Len (line a b d s m) (line a b d s m') := by
  unfold line
  ct

@[simp] theorem res_line (a b d s : Nat) (m : List U32) : (line a b d s m).res = Hacspec.ChaCha.line a b d s m := by
  simp [line, Hacspec.ChaCha.line]

macro_rules | `(tactic| ct_leaf) => `(tactic| with_reducible refine stateToBytes_same ?_)
macro_rules | `(tactic| ct_leaf) => `(tactic| with_reducible refine line_same ?_)

theorem quarterRound_same {a b c d : Nat} {m m' : List U32} (h : Len m m') :
    Same Len (quarterRound a b c d m) (quarterRound a b c d m') := by
  unfold quarterRound
  ct

@[simp] theorem res_quarterRound (a b c d : Nat) (m : List U32) :
    (quarterRound a b c d m).res = Hacspec.ChaCha.quarterRound a b c d m := by
  simp [quarterRound, Hacspec.ChaCha.quarterRound]

macro_rules | `(tactic| ct_leaf) => `(tactic| with_reducible refine quarterRound_same ?_)

theorem doubleRound_same {m m' : List U32} (h : Len m m') : Same Len (doubleRound m) (doubleRound m') := by
  unfold doubleRound
  ct

@[simp] theorem res_doubleRound (m : List U32) : (doubleRound m).res = Hacspec.ChaCha.doubleRound m := by
  simp [doubleRound, Hacspec.ChaCha.doubleRound]

theorem leWordAt_same {k k' : List U8} {a b : Nat} (h : Len k k') : Same Any (leWordAt k a b) (leWordAt k' a b) := by
  unfold leWordAt
  ct

@[simp] theorem res_leWordAt (k : List U8) (a b : Nat) : (leWordAt k a b).res = Hacspec.ChaCha.leWordAt k a b := by
  simp [leWordAt, Hacspec.ChaCha.leWordAt]

macro_rules | `(tactic| ct_leaf) => `(tactic| with_reducible refine doubleRound_same ?_)
macro_rules | `(tactic| ct_leaf) => `(tactic| with_reducible refine leWordAt_same ?_)

theorem blockInit_same {k k' iv iv' : List U8} {c c' : U32} (hk : Len k k') (hi : Len iv iv') :
    Same Len (blockInit k c iv) (blockInit k' c' iv') := by
  unfold blockInit
  ct

@[simp] theorem res_blockInit (k : List U8) (c : U32) (iv : List U8) :
    (blockInit k c iv).res = Hacspec.ChaCha.blockInit k c iv := by
  simp [blockInit, Hacspec.ChaCha.blockInit]

theorem rounds_same {m m' : List U32} (h : Len m m') : Same Len (rounds m) (rounds m') := by
  unfold rounds
  ct

@[simp] theorem res_rounds (m : List U32) : (rounds m).res = Hacspec.ChaCha.rounds m := by
  simp [rounds, Hacspec.ChaCha.rounds]

macro_rules | `(tactic| ct_leaf) => `(tactic| with_reducible refine blockInit_same ?_ ?_)
macro_rules | `(tactic| ct_leaf) => `(tactic| with_reducible refine rounds_same ?_)

theorem blockInner_same {k k' iv iv' : List U8} {c c' : U32} (hk : Len k k') (hi : Len iv iv') :
    Same Len (blockInner k c iv) (blockInner k' c' iv') := by
  unfold blockInner
  ct

@[simp] theorem res_blockInner (k : List U8) (c : U32) (iv : List U8) :
    (blockInner k c iv).res = Hacspec.ChaCha.blockInner k c iv := by
  simp [blockInner, Hacspec.ChaCha.blockInner]

macro_rules | `(tactic| ct_leaf) => `(tactic| with_reducible refine blockInner_same ?_ ?_)

theorem block_same {k k' iv iv' : List U8} {c c' : U32} (hk : Len k k') (hi : Len iv iv') :
    Same Len (block k c iv) (block k' c' iv') := by
  unfold block
  ct

@[simp] theorem res_block (k : List U8) (c : U32) (iv : List U8) :
    (block k c iv).res = Hacspec.ChaCha.block k c iv := by
  simp [block, Hacspec.ChaCha.block]

macro_rules | `(tactic| ct_leaf) => `(tactic| with_reducible refine block_same ?_ ?_)

theorem chachaStep_same {k k' iv iv' m m' : List U8} {i : Nat} {s s' : U32 × List U8} (hk : Len k k') (hi : Len iv iv')
    (hm : Len m m') (hs : Both Any Len s s') :
    Same (Both Any Len) (chachaStep k iv m i s) (chachaStep k' iv' m' i s') := by
  unfold chachaStep
  ct

@[simp] theorem res_chachaStep (k iv m : List U8) (i : Nat) (s : U32 × List U8) :
    (chachaStep k iv m i s).res = Hacspec.ChaCha.chachaStep k iv m i s := by
  simp [chachaStep, Hacspec.ChaCha.chachaStep]

theorem chacha_same {k k' iv iv' m m' : List U8} (hk : Len k k') (hi : Len iv iv') (hm : Len m m') :
    Same Len (chacha k iv m) (chacha k' iv' m') := by
  unfold chacha
  refine Same.bind (numChunks_same hm rfl) ?_
  rintro n _ rfl
  refine Same.bind (Same.loop (R := Both Any Len) rfl ⟨True.intro, ?_⟩
    fun i _ s s' hs => chachaStep_same hk hi hm hs) fun s s' hs => Same.ok hs.2
  ct

@[simp] theorem res_chacha (k iv m : List U8) : (chacha k iv m).res = Hacspec.ChaCha.chacha k iv m := by
  simp [chacha, Hacspec.ChaCha.chacha]

end Hacspec.Leak.ChaCha
