import Verif.Lemmas.Leak.Seq
import Verif.Model.Leak.Blake2

/-! # BLAKE2b: the events depend on the length only -/

namespace Hacspec.Leak.Blake2

open Leak.Seq

variable {w : Nat}

theorem shrU_rel {x y : BitVec w} {n : Nat} : ResRel Any (SecretInt.shrU x n) (SecretInt.shrU y n) := by
  unfold SecretInt.shrU
  by_cases h : n < w <;> simp [h, ResRel, Any, Hacspec.panic]

theorem shl_rel {x y : BitVec w} {n : Nat} : ResRel Any (SecretInt.shl x n) (SecretInt.shl y n) := by
  unfold SecretInt.shl
  by_cases h : n < w <;> simp [h, ResRel, Any, Hacspec.panic]

theorem rotateRight_same {x y : BitVec w} {n : Nat} :
    Same Any (lift (MachineInt.rotateRight MachineInt.secU x n)) (lift (MachineInt.rotateRight MachineInt.secU y n)) := by
  refine Same.lift ?_
  unfold MachineInt.rotateRight
  refine ResRel.bind (R := Eq) ResRel.refl ?_
  intro _ _ _
  refine ResRel.bind (R := Any) shrU_rel ?_
  intro _ _ _
  refine ResRel.bind (R := Any) shl_rel ?_
  intro _ _ _
  exact True.intro

macro_rules | `(tactic| ct_leaf) => `(tactic| with_reducible refine rotateRight_same)

theorem addStep_same {v v' : List (BitVec w)} {a : Nat} {b : Nat} {x x' : BitVec w} (hv : Len v v') :
    Same Len (addStep v a b x) (addStep v' a b x') := by
  unfold addStep
  ct

@[simp] theorem res_addStep (v : List (BitVec w)) (a : Nat) (b : Nat) (x : BitVec w) :
    (addStep v a b x).res = Hacspec.Blake2.addStep v a b x := by
  simp [addStep, Hacspec.Blake2.addStep]

macro_rules | `(tactic| ct_leaf) => `(tactic| with_reducible refine addStep_same ?_)

theorem addStep2_same {v v' : List (BitVec w)} {c : Nat} {d : Nat} (hv : Len v v') :
    Same Len (addStep2 v c d) (addStep2 v' c d) := by
  unfold addStep2
  ct

@[simp] theorem res_addStep2 (v : List (BitVec w)) (c : Nat) (d : Nat) :
    (addStep2 v c d).res = Hacspec.Blake2.addStep2 v c d := by
  simp [addStep2, Hacspec.Blake2.addStep2]

macro_rules | `(tactic| ct_leaf) => `(tactic| with_reducible refine addStep2_same ?_)

theorem rotStep_same {v v' : List (BitVec w)} {d : Nat} {a : Nat} {n : Nat} (hv : Len v v') :
    Same Len (rotStep v d a n) (rotStep v' d a n) := by
  unfold rotStep
  ct

@[simp] theorem res_rotStep (v : List (BitVec w)) (d : Nat) (a : Nat) (n : Nat) :
    (rotStep v d a n).res = Hacspec.Blake2.rotStep v d a n := by
  simp [rotStep, Hacspec.Blake2.rotStep]

macro_rules | `(tactic| ct_leaf) => `(tactic| with_reducible refine rotStep_same ?_)

theorem mix_same {v v' : List (BitVec w)} {a : Nat} {b : Nat} {c : Nat} {d : Nat} {x x' : BitVec w} {y y' : BitVec w} (hv : Len v v') :
    Same Len (mix v a b c d x y) (mix v' a b c d x' y') := by
  unfold mix
  ct

@[simp] theorem res_mix (v : List (BitVec w)) (a : Nat) (b : Nat) (c : Nat) (d : Nat) (x : BitVec w) (y : BitVec w) :
    (mix v a b c d x y).res = Hacspec.Blake2.mix v a b c d x y := by
  simp [mix, Hacspec.Blake2.mix]

macro_rules | `(tactic| ct_leaf) => `(tactic| with_reducible refine mix_same ?_)

theorem makeArray_same {w : Nat} {h h' : List U8} (hh : Len h h') :
    Same Len (makeArray w h) (makeArray w h') := by
  have hl : h.length = h'.length := hh
  unfold makeArray
  rw [hl]
  ct

@[simp] theorem res_makeArray (w : Nat) (h : List U8) :
    (makeArray w h).res = Hacspec.Blake2.makeArray w h := by
  simp [makeArray, Hacspec.Blake2.makeArray]

macro_rules | `(tactic| ct_leaf) => `(tactic| with_reducible refine makeArray_same ?_)

theorem mixAt_same {m m' : List (BitVec w)} {i : Nat} {k : Nat} {a : Nat} {b : Nat} {c : Nat} {d : Nat} {v v' : List (BitVec w)} (hm : Len m m') (hv : Len v v') :
    Same Len (mixAt m i k a b c d v) (mixAt m' i k a b c d v') := by
  unfold mixAt
  refine Same.bind (R := Eq) Same.refl ?_
  rintro s _ rfl
  refine Same.bind (R := Any) (Same.idx hm rfl) ?_
  intro _ _ _
  refine Same.bind (R := Eq) Same.refl ?_
  rintro s _ rfl
  ct

@[simp] theorem res_mixAt (m : List (BitVec w)) (i : Nat) (k : Nat) (a : Nat) (b : Nat) (c : Nat) (d : Nat) (v : List (BitVec w)) :
    (mixAt m i k a b c d v).res = Hacspec.Blake2.mixAt m i k a b c d v := by
  simp [mixAt, Hacspec.Blake2.mixAt]

macro_rules | `(tactic| ct_leaf) => `(tactic| with_reducible refine mixAt_same ?_ ?_)

theorem roundStep_same {m m' : List (BitVec w)} {i : Nat} {v v' : List (BitVec w)} (hm : Len m m') (hv : Len v v') :
    Same Len (roundStep m i v) (roundStep m' i v') := by
  unfold roundStep
  ct

@[simp] theorem res_roundStep (m : List (BitVec w)) (i : Nat) (v : List (BitVec w)) :
    (roundStep m i v).res = Hacspec.Blake2.roundStep m i v := by
  simp [roundStep, Hacspec.Blake2.roundStep]

macro_rules | `(tactic| ct_leaf) => `(tactic| with_reducible refine roundStep_same ?_ ?_)

theorem setLast_same {l : Bool} {v v' : List (BitVec w)} (hv : Len v v') :
    Same Len (setLast l v) (setLast l v') := by
  unfold setLast
  ct

@[simp] theorem res_setLast (l : Bool) (v : List (BitVec w)) :
    (setLast l v).res = Hacspec.Blake2.setLast l v := by
  simp [setLast, Hacspec.Blake2.setLast]

macro_rules | `(tactic| ct_leaf) => `(tactic| with_reducible refine setLast_same ?_)

theorem initV_same {iv iv' : List (BitVec w)} {h h' : List (BitVec w)} {t t' : List (BitVec w)} {last : Bool} (hiv : Len iv iv') (hh : Len h h') (ht : Len t t') :
    Same Len (initV iv h t last) (initV iv' h' t' last) := by
  unfold initV
  ct

@[simp] theorem res_initV (iv : List (BitVec w)) (h : List (BitVec w)) (t : List (BitVec w)) (last : Bool) :
    (initV iv h t last).res = Hacspec.Blake2.initV iv h t last := by
  simp [initV, Hacspec.Blake2.initV]

macro_rules | `(tactic| ct_leaf) => `(tactic| with_reducible refine initV_same ?_ ?_ ?_)

theorem compress_same {iv iv' : List (BitVec w)} {h h' : List (BitVec w)} {m m' : List U8} {t t' : List (BitVec w)} {last : Bool} {alg : Blake2.Variant} (hiv : Len iv iv') (hh : Len h h') (hm : Len m m') (ht : Len t t') :
    Same Len (compress iv h m t last alg) (compress iv' h' m' t' last alg) := by
  unfold compress
  ct

@[simp] theorem res_compress (iv : List (BitVec w)) (h : List (BitVec w)) (m : List U8) (t : List (BitVec w)) (last : Bool) (alg : Blake2.Variant) :
    (compress iv h m t last alg).res = Hacspec.Blake2.compress iv h m t last alg := by
  simp [compress, Hacspec.Blake2.compress]

macro_rules | `(tactic| ct_leaf) => `(tactic| with_reducible refine compress_same ?_ ?_ ?_ ?_)

theorem getByte_same {x x' : BitVec w} {i : Nat} :
    Same Any (getByte x i) (getByte x' i) := by
  unfold getByte
  refine Same.bind (R := Any) (Same.lift ?_) ?_
  · unfold MachineInt.getByte
    refine ResRel.bind (R := Eq) ResRel.refl ?_
    intro _ _ _
    refine ResRel.bind (R := Any) shrU_rel ?_
    intro _ _ _
    refine ResRel.bind (R := Any) shl_rel ?_
    intro _ _ _
    exact True.intro
  · intro _ _ _
    ct

@[simp] theorem res_getByte (x : BitVec w) (i : Nat) :
    (getByte x i).res = Hacspec.Blake2.getByte x i := by
  simp [getByte, Hacspec.Blake2.getByte]

macro_rules | `(tactic| ct_leaf) => `(tactic| with_reducible refine getByte_same)

theorem incHigh_same {t : List (BitVec w)} {newVal : BitVec w} {x : BitVec w} {r : List (BitVec w)} :
    Same Eq (incHigh t newVal x r) (incHigh t newVal x r) := by
  exact Same.refl

@[simp] theorem res_incHigh (t : List (BitVec w)) (newVal : BitVec w) (x : BitVec w) (r : List (BitVec w)) :
    (incHigh t newVal x r).res = Hacspec.Blake2.incHigh t newVal x r := by
  unfold incHigh Hacspec.Blake2.incHigh
  rw [res_branch]
  split <;> simp_all

macro_rules | `(tactic| ct_leaf) => `(tactic| with_reducible refine incHigh_same)

theorem incCounter_same {t : List (BitVec w)} {x : BitVec w} :
    Same Eq (incCounter t x) (incCounter t x) := by
  exact Same.refl

@[simp] theorem res_incCounter (t : List (BitVec w)) (x : BitVec w) :
    (incCounter t x).res = Hacspec.Blake2.incCounter t x := by
  simp [incCounter, Hacspec.Blake2.incCounter]

macro_rules | `(tactic| ct_leaf) => `(tactic| with_reducible refine incCounter_same)

theorem blockBranch_same {iv iv' : List (BitVec w)} {alg : Blake2.Variant} {n : Nat} {b b' : List U8} {st st' : List (BitVec w) × List (BitVec w)} (hiv : Len iv iv') (hb : Len b b') (hst : Both Len Eq st st') :
    Same (Both Len Eq) (blockBranch iv alg n b st) (blockBranch iv' alg n b' st') := by
  obtain ⟨s1, s2⟩ := st
  obtain ⟨t1, t2⟩ := st'
  obtain ⟨h1, h2⟩ := hst
  simp only at h1 h2
  subst h2
  unfold blockBranch
  refine Same.branch Iff.rfl (fun _ => ?_) fun _ => ?_
  · refine Same.bind (R := Eq) Same.refl ?_
    rintro t _ rfl
    refine Same.bind (R := Len) (fromSeq_same hb) ?_
    intro c d hcd
    refine Same.bind (R := Len) (compress_same hiv h1 hcd rfl) ?_
    intro e f hef
    exact Same.ok ⟨hef, rfl⟩
  · refine Same.bind (R := Eq) Same.refl ?_
    rintro t _ rfl
    refine Same.bind (R := Len) (updateStart_same rfl hb) ?_
    intro c d hcd
    refine Same.bind (R := Len) (compress_same hiv h1 hcd rfl) ?_
    intro e f hef
    exact Same.ok ⟨hef, rfl⟩

@[simp] theorem res_blockBranch (iv : List (BitVec w)) (alg : Blake2.Variant) (n : Nat) (b : List U8) (st : List (BitVec w) × List (BitVec w)) :
    (blockBranch iv alg n b st).res = Hacspec.Blake2.blockBranch iv alg n b st := by
  simp [blockBranch, Hacspec.Blake2.blockBranch]

macro_rules | `(tactic| ct_leaf) => `(tactic| with_reducible refine blockBranch_same ?_ ?_ ?_)

theorem blockStep_same {iv iv' : List (BitVec w)} {alg : Blake2.Variant} {d d' : List U8} {i : Nat} {st st' : List (BitVec w) × List (BitVec w)} (hiv : Len iv iv') (hd : Len d d') (hst : Both Len Eq st st') :
    Same (Both Len Eq) (blockStep iv alg d i st) (blockStep iv' alg d' i st') := by
  unfold blockStep
  refine Same.bind (R := Both Eq Len) (getChunk_same hd rfl rfl) ?_
  rintro ⟨a, x⟩ ⟨b, y⟩ ⟨h1, h2⟩
  simp only at h1 h2 ⊢
  subst h1
  exact blockBranch_same hiv h2 hst

@[simp] theorem res_blockStep (iv : List (BitVec w)) (alg : Blake2.Variant) (d : List U8) (i : Nat) (st : List (BitVec w) × List (BitVec w)) :
    (blockStep iv alg d i st).res = Hacspec.Blake2.blockStep iv alg d i st := by
  simp [blockStep, Hacspec.Blake2.blockStep]

macro_rules | `(tactic| ct_leaf) => `(tactic| with_reducible refine blockStep_same ?_ ?_ ?_)

theorem blake2_same {iv iv' : List (BitVec w)} {d d' : List U8} {alg : Blake2.Variant} (hiv : Len iv iv') (hd : Len d d') :
    Same Len (blake2 iv d alg) (blake2 iv' d' alg) := by
  unfold blake2
  refine Same.bind (R := Any) (Same.idx hiv rfl) ?_
  intro _ _ _
  refine Same.bind (R := Len) (Same.setIdx hiv rfl) ?_
  intro h h' hh
  refine Same.bind (R := Eq) (numChunks_same hd rfl) ?_
  rintro n _ rfl
  refine Same.bind (R := Both Len Eq) (Same.loop rfl ⟨hh, rfl⟩ ?_) ?_
  · intro i _ t t' h
    exact blockStep_same hiv hd h
  · rintro ⟨a, b⟩ ⟨c, d⟩ ⟨h, _⟩
    refine Same.loop rfl rfl fun i _ t t' ht => ?_
    refine Same.loop rfl ht fun j _ u u' hu => ?_
    refine Same.bind (R := Any) (Same.idx h rfl) ?_
    intro _ _ _
    refine Same.bind (R := Any) getByte_same ?_
    intro _ _ _
    exact Same.setIdx hu rfl

@[simp] theorem res_blake2 (iv : List (BitVec w)) (d : List U8) (alg : Blake2.Variant) :
    (blake2 iv d alg).res = Hacspec.Blake2.blake2 iv d alg := by
  simp [blake2, Hacspec.Blake2.blake2]

macro_rules | `(tactic| ct_leaf) => `(tactic| with_reducible refine blake2_same ?_ ?_)

theorem blake2b_same {d d' : List U8} (hd : Len d d') :
    Same Len (blake2b d) (blake2b d') := by
  unfold blake2b
  exact Same.bind (R := Len) (blake2_same rfl hd) fun _ _ h => arrFromSeq_same h

@[simp] theorem res_blake2b (d : List U8) :
    (blake2b d).res = Hacspec.Blake2.blake2b d := by
  simp [blake2b, Hacspec.Blake2.blake2b]

macro_rules | `(tactic| ct_leaf) => `(tactic| with_reducible refine blake2b_same ?_)

end Hacspec.Leak.Blake2
