import Verif.Lemmas.Leak.Base

/-! # The events of the sequence functions depend on lengths only -/

set_option linter.unusedSectionVars false

namespace Hacspec.Leak

/-- Extensible: side conditions. -/
syntax "ct_side" : tactic
macro_rules | `(tactic| ct_side) => `(tactic| omega)
macro_rules | `(tactic| ct_side) => `(tactic| (simp only [Len, Hacspec.Seq.new, List.length_replicate, List.length_map] at *; done))
macro_rules | `(tactic| ct_side) => `(tactic| (simp only [Len, Hacspec.Seq.new, List.length_replicate, List.length_map] at *; omega))
macro_rules | `(tactic| ct_side) => `(tactic| with_reducible assumption)
macro_rules | `(tactic| ct_side) => `(tactic| with_reducible rfl)
macro_rules | `(tactic| ct_side) => `(tactic| exact Both.eq (by with_reducible assumption))
macro_rules | `(tactic| ct_side) => `(tactic| exact Both.len (by with_reducible assumption))
macro_rules | `(tactic| ct_side) => `(tactic| exact Both.len' (by with_reducible assumption))
macro_rules | `(tactic| ct_side) => `(tactic| with_reducible exact Len.nil)
macro_rules | `(tactic| ct_side) => `(tactic| exact True.intro)

/-- Extensible: a known function. -/
syntax "ct_leaf" : tactic
macro_rules | `(tactic| ct_leaf) => `(tactic| with_reducible refine Same.refl)
macro_rules | `(tactic| ct_leaf) => `(tactic| with_reducible refine Same.ok ?_)
macro_rules | `(tactic| ct_leaf) => `(tactic| with_reducible refine Same.require ?_)
macro_rules | `(tactic| ct_leaf) => `(tactic| with_reducible refine Same.count ?_)
macro_rules | `(tactic| ct_leaf) => `(tactic| with_reducible refine Same.idx ?_ ?_)
macro_rules | `(tactic| ct_leaf) => `(tactic| with_reducible refine Same.setIdx ?_ ?_)

/-- Proves that two computations cause the same events. -/
macro "ct" : tactic => `(tactic| repeat' first
  | ct_side
  | (with_reducible apply Same.bind)
  | (with_reducible refine Same.branch ?_ ?_ ?_)
  | (with_reducible refine Same.loop (R := Len) ?_ ?_ ?_)
  | (with_reducible refine Len.cons ?_)
  | (with_reducible refine Both.mk ?_ ?_)
  | ct_leaf
  | intro _)

namespace Seq

variable {α : Type} [Inhabited α]

theorem updateSub_same {s s' : List α} {o o' : Nat} {v v' : List α} {i i' n n' : Nat} (h : Len s s') (hv : Len v v')
    (ho : o = o') (hi : i = i') (hn : n = n') : Same Len (updateSub s o v i n) (updateSub s' o' v' i' n') := by
  subst ho hi hn
  unfold updateSub
  ct

@[simp] theorem res_updateSub (s : List α) (o : Nat) (v : List α) (i n : Nat) :
    (updateSub s o v i n).res = Hacspec.Seq.updateSub s o v i n := by
  simp [updateSub, Hacspec.Seq.updateSub]

macro_rules | `(tactic| ct_leaf) => `(tactic| with_reducible refine updateSub_same ?_ ?_ ?_ ?_ ?_)

theorem update_same {s s' : List α} {o o' : Nat} {v v' : List α} (h : Len s s') (hv : Len v v') (ho : o = o') :
    Same Len (update s o v) (update s' o' v') := by
  unfold update
  ct

@[simp] theorem res_update (s : List α) (o : Nat) (v : List α) : (update s o v).res = Hacspec.Seq.update s o v := by
  simp [update, Hacspec.Seq.update]

theorem updateStart_same {s s' v v' : List α} (h : Len s s') (hv : Len v v') :
    Same Len (updateStart s v) (updateStart s' v') := by
  unfold updateStart
  ct

@[simp] theorem res_updateStart (s v : List α) : (updateStart s v).res = Hacspec.Seq.updateStart s v := by
  simp [updateStart, Hacspec.Seq.updateStart]

macro_rules | `(tactic| ct_leaf) => `(tactic| with_reducible refine update_same ?_ ?_ ?_)
macro_rules | `(tactic| ct_leaf) => `(tactic| with_reducible refine updateStart_same ?_ ?_)

theorem fromSub_same {v v' : List α} {i i' n n' : Nat} (hv : Len v v') (hi : i = i') (hn : n = n') :
    Same Len (fromSub v i n) (fromSub v' i' n') := by
  subst hn
  unfold fromSub
  ct

@[simp] theorem res_fromSub (v : List α) (i n : Nat) : (fromSub v i n).res = Hacspec.Seq.fromSub v i n := by
  simp [fromSub, Hacspec.Seq.fromSub]

macro_rules | `(tactic| ct_leaf) => `(tactic| with_reducible refine fromSub_same ?_ ?_ ?_)

theorem fromSubRange_same {v v' : List α} {i i' n n' : Nat} (hv : Len v v') (hi : i = i') (hn : n = n') :
    Same Len (fromSubRange v i n) (fromSubRange v' i' n') := by
  subst hi hn
  unfold fromSubRange
  ct

@[simp] theorem res_fromSubRange (v : List α) (i n : Nat) :
    (fromSubRange v i n).res = Hacspec.Seq.fromSubRange v i n := by
  simp [fromSubRange, Hacspec.Seq.fromSubRange]

theorem sub_same {v v' : List α} {i i' n n' : Nat} (hv : Len v v') (hi : i = i') (hn : n = n') :
    Same Len (sub v i n) (sub v' i' n') := fromSub_same hv hi hn

@[simp] theorem res_sub (v : List α) (i n : Nat) : (sub v i n).res = Hacspec.Seq.sub v i n := by
  simp [sub, Hacspec.Seq.sub]

macro_rules | `(tactic| ct_leaf) => `(tactic| with_reducible refine fromSubRange_same ?_ ?_ ?_)
macro_rules | `(tactic| ct_leaf) => `(tactic| with_reducible refine sub_same ?_ ?_ ?_)

theorem subr_same {v v' : List α} {i i' n n' : Nat} (hv : Len v v') (hi : i = i') (hn : n = n') :
    Same Len (subr v i n) (subr v' i' n') := by
  subst hi hn
  unfold subr
  ct

@[simp] theorem res_subr (v : List α) (i n : Nat) : (subr v i n).res = Hacspec.Seq.subr v i n := by
  simp [subr, Hacspec.Seq.subr]

theorem numChunks_same {v v' : List α} {n n' : Nat} (hv : Len v v') (hn : n = n') :
    Same Eq (numChunks v n) (numChunks v' n') := by
  subst hn
  unfold numChunks
  ct
  unfold Len at hv
  rw [hv]

@[simp] theorem res_numChunks (v : List α) (n : Nat) : (numChunks v n).res = Hacspec.Seq.numChunks v n := by
  simp [numChunks, Hacspec.Seq.numChunks]

theorem getChunkLen_same {v v' : List α} {c c' n n' : Nat} (hv : Len v v') (hc : c = c') (hn : n = n') :
    Same Eq (getChunkLen v c n) (getChunkLen v' c' n') := by
  subst hc hn
  unfold getChunkLen
  ct

@[simp] theorem res_getChunkLen (v : List α) (c n : Nat) :
    (getChunkLen v c n).res = Hacspec.Seq.getChunkLen v c n := by
  simp [getChunkLen, Hacspec.Seq.getChunkLen]

macro_rules | `(tactic| ct_leaf) => `(tactic| with_reducible refine subr_same ?_ ?_ ?_)
macro_rules | `(tactic| ct_leaf) => `(tactic| with_reducible refine numChunks_same ?_ ?_)
macro_rules | `(tactic| ct_leaf) => `(tactic| with_reducible refine getChunkLen_same ?_ ?_ ?_)

theorem getChunk_same {v v' : List α} {c c' n n' : Nat} (hv : Len v v') (hc : c = c') (hn : n = n') :
    Same (Both Eq Len) (getChunk v c n) (getChunk v' c' n') := by
  subst hc hn
  unfold getChunk
  ct

@[simp] theorem res_getChunk (v : List α) (c n : Nat) : (getChunk v c n).res = Hacspec.Seq.getChunk v c n := by
  simp [getChunk, Hacspec.Seq.getChunk]

theorem setChunk_same {s s' v v' : List α} {c c' n n' : Nat} (h : Len s s') (hv : Len v v') (hc : c = c')
    (hn : n = n') : Same Len (setChunk s c n v) (setChunk s' c' n' v') := by
  subst hc hn
  unfold setChunk
  ct

@[simp] theorem res_setChunk (s v : List α) (c n : Nat) : (setChunk s c n v).res = Hacspec.Seq.setChunk s c n v := by
  simp [setChunk, Hacspec.Seq.setChunk]

macro_rules | `(tactic| ct_leaf) => `(tactic| with_reducible refine getChunk_same ?_ ?_ ?_)
macro_rules | `(tactic| ct_leaf) => `(tactic| with_reducible refine setChunk_same ?_ ?_ ?_ ?_)

theorem copyStep_same {x x' t t' : List α} {i i' : Nat} (hx : Len x x') (ht : Len t t') (hi : i = i') :
    Same Len (copyStep x i t) (copyStep x' i' t') := by
  subst hi
  unfold copyStep
  ct

@[simp] theorem res_copyStep (x t : List α) (i : Nat) : (copyStep x i t).res = Hacspec.Seq.copyStep x i t := by
  simp [copyStep, Hacspec.Seq.copyStep]

macro_rules | `(tactic| ct_leaf) => `(tactic| with_reducible refine copyStep_same ?_ ?_ ?_)

theorem fromSeq_same {x x' : List α} (hx : Len x x') : Same Len (fromSeq x) (fromSeq x') := by
  unfold fromSeq
  ct

@[simp] theorem res_fromSeq (x : List α) : (fromSeq x).res = Hacspec.Seq.fromSeq x := by
  simp [fromSeq, Hacspec.Seq.fromSeq]

theorem arrFromSlice_same {l : Nat} {x x' : List α} (hx : Len x x') :
    Same Len (arrFromSlice l x) (arrFromSlice l x') := by
  unfold arrFromSlice
  ct

@[simp] theorem res_arrFromSlice (l : Nat) (x : List α) : (arrFromSlice l x).res = Hacspec.Seq.arrFromSlice l x := by
  simp [arrFromSlice, Hacspec.Seq.arrFromSlice]

theorem arrFromSub_same {l : Nat} {v v' : List α} {i i' n n' : Nat} (hv : Len v v') (hi : i = i') (hn : n = n') :
    Same Len (arrFromSub l v i n) (arrFromSub l v' i' n') := by
  subst hn
  unfold arrFromSub
  ct

@[simp] theorem res_arrFromSub (l : Nat) (v : List α) (i n : Nat) :
    (arrFromSub l v i n).res = Hacspec.Seq.arrFromSub l v i n := by
  simp [arrFromSub, Hacspec.Seq.arrFromSub]

macro_rules | `(tactic| ct_leaf) => `(tactic| with_reducible refine fromSeq_same ?_)
macro_rules | `(tactic| ct_leaf) => `(tactic| with_reducible refine arrFromSlice_same ?_)
macro_rules | `(tactic| ct_leaf) => `(tactic| with_reducible refine arrFromSub_same ?_ ?_ ?_)

theorem arrFromSubRange_same {l : Nat} {v v' : List α} {i i' n n' : Nat} (hv : Len v v') (hi : i = i') (hn : n = n') :
    Same Len (arrFromSubRange l v i n) (arrFromSubRange l v' i' n') := by
  subst hi hn
  unfold arrFromSubRange
  ct

@[simp] theorem res_arrFromSubRange (l : Nat) (v : List α) (i n : Nat) :
    (arrFromSubRange l v i n).res = Hacspec.Seq.arrFromSubRange l v i n := by
  simp [arrFromSubRange, Hacspec.Seq.arrFromSubRange]

theorem arrFromVec_same {l : Nat} {x x' : List α} (hx : Len x x') :
    Same Len (arrFromVec l x) (arrFromVec l x') := by
  unfold arrFromVec
  ct

@[simp] theorem res_arrFromVec (l : Nat) (x : List α) : (arrFromVec l x).res = Hacspec.Seq.arrFromVec l x := by
  simp [arrFromVec, Hacspec.Seq.arrFromVec]

theorem arrFromSeq_same {l : Nat} {x x' : List α} (hx : Len x x') :
    Same Len (arrFromSeq l x) (arrFromSeq l x') := by
  unfold arrFromSeq
  ct

@[simp] theorem res_arrFromSeq (l : Nat) (x : List α) : (arrFromSeq l x).res = Hacspec.Seq.arrFromSeq l x := by
  simp [arrFromSeq, Hacspec.Seq.arrFromSeq]

macro_rules | `(tactic| ct_leaf) => `(tactic| with_reducible refine arrFromSubRange_same ?_ ?_ ?_)
macro_rules | `(tactic| ct_leaf) => `(tactic| with_reducible refine arrFromVec_same ?_)
macro_rules | `(tactic| ct_leaf) => `(tactic| with_reducible refine arrFromSeq_same ?_)

variable {w : Nat}

@[simp] theorem res_arrFromPublicSlice (l : Nat) (v : List (BitVec w)) :
    (arrFromPublicSlice l v).res = Hacspec.Seq.arrFromPublicSlice l v := by
  simp [arrFromPublicSlice, Hacspec.Seq.arrFromPublicSlice]

theorem arrFromPublicSlice_same {l : Nat} {v v' : List (BitVec w)} (h : Len v v') :
    Same Len (arrFromPublicSlice l v) (arrFromPublicSlice l v') := by
  unfold arrFromPublicSlice
  ct

theorem len_leOfWord (x y : BitVec w) : (SecretInt.leOfWord x).length = (SecretInt.leOfWord y).length := by
  simp [SecretInt.leOfWord]

theorem len_toLeBytes (x y : BitVec w) : Len (SecretInt.toLeBytes [x]) (SecretInt.toLeBytes [y]) := by
  simp [Len, SecretInt.toLeBytes, len_leOfWord x y]

theorem len_toBeBytes (x y : BitVec w) : Len (SecretInt.toBeBytes [x]) (SecretInt.toBeBytes [y]) := by
  simp [Len, SecretInt.toBeBytes, SecretInt.beOfWord, len_leOfWord x y]

macro_rules | `(tactic| ct_side) => `(tactic| with_reducible exact len_toLeBytes _ _)
macro_rules | `(tactic| ct_side) => `(tactic| with_reducible exact len_toBeBytes _ _)

theorem wordToLeBytes_same {x x' : BitVec w} : Same Len (wordToLeBytes x) (wordToLeBytes x') := by
  unfold wordToLeBytes
  ct

@[simp] theorem res_wordToLeBytes (x : BitVec w) : (wordToLeBytes x).res = Hacspec.Seq.wordToLeBytes x := by
  simp [wordToLeBytes, Hacspec.Seq.wordToLeBytes]

theorem wordToBeBytes_same {x x' : BitVec w} : Same Len (wordToBeBytes x) (wordToBeBytes x') := by
  unfold wordToBeBytes
  ct

@[simp] theorem res_wordToBeBytes (x : BitVec w) : (wordToBeBytes x).res = Hacspec.Seq.wordToBeBytes x := by
  simp [wordToBeBytes, Hacspec.Seq.wordToBeBytes]

theorem len_chunks {n : Nat} {s s' : List α} (h : Len s s') : Len (SecretInt.chunks n s) (SecretInt.chunks n s') := by
  unfold Len at h
  simp [Len, SecretInt.chunks, h]

theorem len_map {β γ : Type} {f : β → γ} {l l' : List β} (h : Len l l') : Len (l.map f) (l'.map f) := by
  unfold Len at *
  simp [h]

macro_rules | `(tactic| ct_side) => `(tactic| exact len_chunks (by assumption))

theorem fromLeBytes_same {s s' : List U8} (h : Len s s') : Same Len (fromLeBytes w s) (fromLeBytes w s') := by
  unfold fromLeBytes
  ct
  · have h : s.length = s'.length := h
    rw [h]
  · exact len_map (len_chunks h)

@[simp] theorem res_fromLeBytes (s : List U8) : (fromLeBytes w s).res = SecretInt.fromLeBytes w s := by
  simp [fromLeBytes, SecretInt.fromLeBytes]

theorem fromBeBytes_same {s s' : List U8} (h : Len s s') : Same Len (fromBeBytes w s) (fromBeBytes w s') := by
  unfold fromBeBytes
  ct
  · have h : s.length = s'.length := h
    rw [h]
  · exact len_map (len_chunks h)

@[simp] theorem res_fromBeBytes (s : List U8) : (fromBeBytes w s).res = SecretInt.fromBeBytes w s := by
  simp [fromBeBytes, SecretInt.fromBeBytes]

macro_rules | `(tactic| ct_leaf) => `(tactic| with_reducible refine arrFromPublicSlice_same ?_)
macro_rules | `(tactic| ct_leaf) => `(tactic| with_reducible refine wordToLeBytes_same)
macro_rules | `(tactic| ct_leaf) => `(tactic| with_reducible refine wordToBeBytes_same)
macro_rules | `(tactic| ct_leaf) => `(tactic| with_reducible refine fromLeBytes_same ?_)
macro_rules | `(tactic| ct_leaf) => `(tactic| with_reducible refine fromBeBytes_same ?_)

theorem wordFromLeBytes_same {s s' : List U8} (h : Len s s') :
    Same Any (wordFromLeBytes w s) (wordFromLeBytes w s') := by
  unfold wordFromLeBytes
  ct

@[simp] theorem res_wordFromLeBytes (s : List U8) : (wordFromLeBytes w s).res = Hacspec.Seq.wordFromLeBytes w s := by
  simp [wordFromLeBytes, Hacspec.Seq.wordFromLeBytes]

theorem wordFromBeBytes_same {s s' : List U8} (h : Len s s') :
    Same Any (wordFromBeBytes w s) (wordFromBeBytes w s') := by
  unfold wordFromBeBytes
  ct

@[simp] theorem res_wordFromBeBytes (s : List U8) : (wordFromBeBytes w s).res = Hacspec.Seq.wordFromBeBytes w s := by
  simp [wordFromBeBytes, Hacspec.Seq.wordFromBeBytes]

macro_rules | `(tactic| ct_leaf) => `(tactic| with_reducible refine wordFromLeBytes_same ?_)
macro_rules | `(tactic| ct_leaf) => `(tactic| with_reducible refine wordFromBeBytes_same ?_)

theorem arrToBeBytes_same {l : Nat} {s s' : List (BitVec w)} (h : Len s s') :
    Same Len (arrToBeBytes l s) (arrToBeBytes l s') := by
  unfold arrToBeBytes arrToBytes
  ct

@[simp] theorem res_arrToBeBytes (l : Nat) (s : List (BitVec w)) :
    (arrToBeBytes l s).res = Hacspec.Seq.arrToBeBytes l s := by
  simp [arrToBeBytes, arrToBytes, Hacspec.Seq.arrToBeBytes, Hacspec.Seq.arrToBytes]

/-- The pieces of two sequences of the same length have the same lengths. -/
theorem idx_chunks_same {n i : Nat} {s s' : List α} (h : Len s s') :
    Same Len (idx (SecretInt.chunks n s) i) (idx (SecretInt.chunks n s') i) := by
  have hl : (SecretInt.chunks n s).length = (SecretInt.chunks n s').length := len_chunks h
  unfold Len at h
  refine ⟨rfl, ?_⟩
  rw [res_idx, res_idx]
  by_cases hi : i < (SecretInt.chunks n s).length
  · rw [Hacspec.idx_ok hi, Hacspec.idx_ok (by omega)]
    show List.length _ = List.length _
    simp [SecretInt.chunks, h]
  · rw [Hacspec.idx_panic (by omega), Hacspec.idx_panic (by omega)]; exact rfl

macro_rules | `(tactic| ct_leaf) => `(tactic| with_reducible refine arrToBeBytes_same ?_)
macro_rules | `(tactic| ct_leaf) => `(tactic| with_reducible refine idx_chunks_same ?_)

theorem arrToBeWords_same {l : Nat} {s s' : List U8} (h : Len s s') :
    Same Len (arrToBeWords w l s) (arrToBeWords w l s') := by
  unfold arrToBeWords arrToWords
  ct

@[simp] theorem res_arrToBeWords (l : Nat) (s : List U8) :
    (arrToBeWords w l s).res = Hacspec.Seq.arrToBeWords w l s := by
  simp [arrToBeWords, arrToWords, Hacspec.Seq.arrToBeWords, Hacspec.Seq.arrToWords]

macro_rules | `(tactic| ct_leaf) => `(tactic| with_reducible refine arrToBeWords_same ?_)

theorem arrToLeBytes_same {l : Nat} {s s' : List (BitVec w)} (h : Len s s') :
    Same Len (arrToLeBytes l s) (arrToLeBytes l s') := by
  unfold arrToLeBytes arrToBytes
  ct

@[simp] theorem res_arrToLeBytes (l : Nat) (s : List (BitVec w)) :
    (arrToLeBytes l s).res = Hacspec.Seq.arrToLeBytes l s := by
  simp [arrToLeBytes, arrToBytes, Hacspec.Seq.arrToLeBytes, Hacspec.Seq.arrToBytes]

theorem arrToLeWords_same {l : Nat} {s s' : List U8} (h : Len s s') :
    Same Len (arrToLeWords w l s) (arrToLeWords w l s') := by
  unfold arrToLeWords arrToWords
  ct

@[simp] theorem res_arrToLeWords (l : Nat) (s : List U8) :
    (arrToLeWords w l s).res = Hacspec.Seq.arrToLeWords w l s := by
  simp [arrToLeWords, arrToWords, Hacspec.Seq.arrToLeWords, Hacspec.Seq.arrToWords]

theorem arrToPubWords_same {l : Nat} {de : List U8 → BitVec w} {s s' : List U8} (h : Len s s') :
    Same Len (arrToPubWords l de s) (arrToPubWords l de s') := by
  unfold arrToPubWords
  ct

@[simp] theorem res_arrToPubWords (l : Nat) (de : List U8 → BitVec w) (s : List U8) :
    (arrToPubWords l de s).res = Hacspec.Seq.arrToPubWords l de s := by
  simp [arrToPubWords, Hacspec.Seq.arrToPubWords]

theorem arrFromOther_same {l : Nat} {s s' : List (BitVec w)} (h : Len s s') :
    Same Len (arrFromOther l s) (arrFromOther l s') := by
  unfold arrFromOther
  ct

@[simp] theorem res_arrFromOther (l : Nat) (s : List (BitVec w)) :
    (arrFromOther l s).res = Hacspec.Seq.arrFromOther l s := by
  simp [arrFromOther, Hacspec.Seq.arrFromOther]

end Seq

namespace VecInt

variable {w : Nat}

theorem arrXorSecret_same {l : Nat} {a a' b b' : List (BitVec w)} (h : Len a a') (h' : Len b b') :
    Same Len (arrXorSecret l a b) (arrXorSecret l a' b') := by
  unfold arrXorSecret zipLoop
  refine Same.loop (R := Len) h rfl fun i _ t t' ht => ?_
  refine Same.bind (Same.idx h rfl) fun _ _ _ => Same.bind (Same.idx h' rfl) fun _ _ _ => ?_
  exact Same.bind (Same.ok (R := Any) True.intro) fun _ _ _ => Same.setIdx ht rfl

@[simp] theorem res_arrXorSecret (l : Nat) (a b : List (BitVec w)) :
    (arrXorSecret l a b).res = Hacspec.VecInt.arrXorSecret l a b := by
  simp [arrXorSecret, zipLoop, Hacspec.VecInt.arrXorSecret, Hacspec.VecInt.zipLoop]

macro_rules | `(tactic| ct_leaf) => `(tactic| with_reducible refine arrXorSecret_same ?_ ?_)

/-- A straight-line operation on all elements. -/
theorem zipLoop_same {f : BitVec w → BitVec w → BitVec w} {a a' b b' o o' : List (BitVec w)} (h : Len a a')
    (h' : Len b b') (ho : Len o o') :
    Same Len (zipLoop (fun x y => .ok (f x y)) a b o) (zipLoop (fun x y => .ok (f x y)) a' b' o') := by
  unfold zipLoop
  refine Same.loop (R := Len) h ho fun i _ t t' ht => ?_
  refine Same.bind (Same.idx h rfl) fun _ _ _ => Same.bind (Same.idx h' rfl) fun _ _ _ => ?_
  exact Same.bind (Same.ok (R := Any) True.intro) fun _ _ _ => Same.setIdx ht rfl

/-- The same after the test of the lengths. -/
theorem checked_same {f : BitVec w → BitVec w → BitVec w} {l : Nat} {a a' b b' : List (BitVec w)} (h : Len a a')
    (h' : Len b b') :
    Same Len (do require (a.length = b.length); zipLoop (fun x y => .ok (f x y)) a b (Hacspec.Seq.new l))
      (do require (a'.length = b'.length); zipLoop (fun x y => .ok (f x y)) a' b' (Hacspec.Seq.new l)) := by
  refine Same.bind (Same.require ?_) fun _ _ _ => zipLoop_same h h' rfl
  unfold Len at h h'
  omega

theorem arrAdd_same {l : Nat} {a a' b b' : List (BitVec w)} (h : Len a a') (h' : Len b b') :
    Same Len (arrAdd l a b) (arrAdd l a' b') := checked_same h h'
theorem arrSub_same {l : Nat} {a a' b b' : List (BitVec w)} (h : Len a a') (h' : Len b b') :
    Same Len (arrSub l a b) (arrSub l a' b') := checked_same h h'
theorem arrMulSecret_same {l : Nat} {a a' b b' : List (BitVec w)} (h : Len a a') (h' : Len b b') :
    Same Len (arrMulSecret l a b) (arrMulSecret l a' b') := checked_same h h'
theorem arrXorPublic_same {l : Nat} {a a' b b' : List (BitVec w)} (h : Len a a') (h' : Len b b') :
    Same Len (arrXorPublic l a b) (arrXorPublic l a' b') := checked_same h h'

@[simp] theorem res_arrAdd (l : Nat) (a b : List (BitVec w)) : (arrAdd l a b).res = Hacspec.VecInt.arrAdd l a b := by
  simp [arrAdd, zipLoop, Hacspec.VecInt.arrAdd, Hacspec.VecInt.zipLoop]
@[simp] theorem res_arrSub (l : Nat) (a b : List (BitVec w)) : (arrSub l a b).res = Hacspec.VecInt.arrSub l a b := by
  simp [arrSub, zipLoop, Hacspec.VecInt.arrSub, Hacspec.VecInt.zipLoop]
@[simp] theorem res_arrMulSecret (l : Nat) (a b : List (BitVec w)) :
    (arrMulSecret l a b).res = Hacspec.VecInt.arrMulSecret l a b := by
  simp [arrMulSecret, zipLoop, Hacspec.VecInt.arrMulSecret, Hacspec.VecInt.zipLoop]
@[simp] theorem res_arrXorPublic (l : Nat) (a b : List (BitVec w)) :
    (arrXorPublic l a b).res = Hacspec.VecInt.arrXorPublic l a b := by
  simp [arrXorPublic, zipLoop, Hacspec.VecInt.arrXorPublic, Hacspec.VecInt.zipLoop]

end VecInt
end Hacspec.Leak
