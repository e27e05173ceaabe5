import Verif.Spec.Builds
import Verif.Model.Release.Seq
import Verif.Lemmas.Seq
import Verif.Lemmas.Chunk

/-! # The release build returns what the debug build returns: combinators, sequences and arrays -/

namespace Hacspec.Release

open Spec (Keeps)

variable {α β σ : Type}

theorem Keeps.refl {x : M α} : Keeps x x := fun _ h => h

theorem Keeps.of_eq {x y : M α} (h : x = y) : Keeps x y := h ▸ Keeps.refl

theorem Keeps.trans {x y z : M α} (h : Keeps x y) (h' : Keeps y z) : Keeps x z := fun a ha => h' a (h a ha)

theorem Keeps.panic {y : M α} : Keeps Hacspec.panic y := fun _ h => by simp at h

theorem Keeps.bind {x y : M α} {f g : α → M β} (h : Keeps x y) (h' : ∀ a, x = .ok a → Keeps (f a) (g a)) :
    Keeps (x >>= f) (y >>= g) := by
  intro b hb
  obtain ⟨a, ha, hf⟩ := bind_eq_ok.1 hb
  rw [h a ha, bind_ok]
  exact h' a ha b hf

/-- A check that only the debug build makes. -/
theorem Keeps.require {c : Prop} [Decidable c] {f : Unit → M α} {y : M α} (h : c → Keeps (f ()) y) :
    Keeps (Hacspec.require c >>= f) y := by
  by_cases hc : c
  · rw [require_true hc, bind_ok]; exact h hc
  · rw [require_false hc]; exact Keeps.panic

theorem Keeps.ite {c : Prop} [Decidable c] {x x' y y' : M α} (h : c → Keeps x y) (h' : ¬ c → Keeps x' y') :
    Keeps (if c then x else x') (if c then y else y') := by
  by_cases hc : c
  · rw [if_pos hc, if_pos hc]; exact h hc
  · rw [if_neg hc, if_neg hc]; exact h' hc

/-- Loops, with an invariant of the debug build. -/
theorem Keeps.loop_inv {n : Nat} {b c : Nat → σ → M σ} {s : σ} (P : σ → Prop) (h0 : P s)
    (h : ∀ i, i < n → ∀ t, P t → Keeps (b i t) (c i t))
    (hP : ∀ i, i < n → ∀ t, P t → ∀ u, b i t = .ok u → P u) : Keeps (loop n b s) (loop n c s) := by
  suffices H : Keeps (loop n b s) (loop n c s) ∧ ∀ t, loop n b s = .ok t → P t from H.1
  induction n with
  | zero => exact ⟨Keeps.refl, fun t ht => by cases ht; exact h0⟩
  | succ k ih =>
    obtain ⟨h1, h2⟩ := ih (fun i hi => h i (Nat.lt_succ_of_lt hi)) (fun i hi => hP i (Nat.lt_succ_of_lt hi))
    refine ⟨Keeps.bind h1 fun t ht => h k (Nat.lt_succ_self k) t (h2 t ht), fun t ht => ?_⟩
    obtain ⟨u, hu, hv⟩ := bind_eq_ok.1 ht
    exact hP k (Nat.lt_succ_self k) u (h2 u hu) t hv

theorem Keeps.loop {n : Nat} {b c : Nat → σ → M σ} {s : σ} (h : ∀ i, i < n → ∀ t, Keeps (b i t) (c i t)) :
    Keeps (loop n b s) (Hacspec.loop n c s) :=
  Keeps.loop_inv (fun _ => True) trivial (fun i hi t _ => h i hi t) fun _ _ _ _ _ _ => trivial

/-! ## The tactic -/

/-- One step for a call of a function with a lemma of its own. -/
syntax "kp_leaf" : tactic
macro_rules | `(tactic| kp_leaf) => `(tactic| with_reducible exact Keeps.refl)

/-- Compares two programs of the same shape. -/
macro "kp" : tactic => `(tactic| repeat' first
  | kp_leaf
  | assumption
  | (with_reducible refine Keeps.bind ?_ ?_)
  | (with_reducible refine Keeps.ite ?_ ?_)
  | (with_reducible refine Keeps.loop ?_)
  | intro _)

/-! ## Operators -/

section
variable {w : Nat}

theorem shl_keeps {x : BitVec w} {n : Nat} : Keeps (SecretInt.shl x n) (shl x n) := by
  intro a h
  unfold SecretInt.shl at h
  by_cases hn : n < w
  · rw [if_pos hn] at h; rw [← h, shl, Nat.mod_eq_of_lt hn]
  · simp [hn] at h

theorem shrU_keeps {x : BitVec w} {n : Nat} : Keeps (SecretInt.shrU x n) (shrU x n) := by
  intro a h
  unfold SecretInt.shrU at h
  by_cases hn : n < w
  · rw [if_pos hn] at h; rw [← h, shrU, Nat.mod_eq_of_lt hn]
  · simp [hn] at h

theorem shrS_keeps {x : BitVec w} {n : Nat} : Keeps (SecretInt.shrS x n) (shrS x n) := by
  intro a h
  unfold SecretInt.shrS at h
  by_cases hn : n < w
  · rw [if_pos hn] at h; rw [← h, shrS, Nat.mod_eq_of_lt hn]
  · simp [hn] at h

theorem negS_keeps {x : BitVec w} : Keeps (SecretInt.negS x) (negS x) := by
  intro a h
  unfold SecretInt.negS at h
  split at h
  · rw [← h, negS]
  · simp at h

theorem addU_keeps {x y : BitVec w} : Keeps (MachineInt.addU x y) (addP x y) := by
  intro a h
  unfold MachineInt.addU SecretInt.checkedAddU at h
  split at h
  · rw [← h, addP]
  · simp at h

theorem subU_keeps {x y : BitVec w} : Keeps (MachineInt.subU x y) (subP x y) := by
  intro a h
  unfold MachineInt.subU SecretInt.checkedSubU at h
  split at h
  · rw [← h, subP]
  · simp at h

theorem mulU_keeps {x y : BitVec w} : Keeps (MachineInt.mulU x y) (mulP x y) := by
  intro a h
  unfold MachineInt.mulU SecretInt.checkedMulU at h
  split at h
  · rw [← h, mulP]
  · simp at h

theorem addS_keeps {x y : BitVec w} : Keeps (MachineInt.addS x y) (addP x y) := by
  intro a h
  unfold MachineInt.addS SecretInt.checkedAddS at h
  split at h
  · rw [← h, addP]
  · simp at h

theorem subS_keeps {x y : BitVec w} : Keeps (MachineInt.subS x y) (subP x y) := by
  intro a h
  unfold MachineInt.subS SecretInt.checkedSubS at h
  split at h
  · rw [← h, subP]
  · simp at h

theorem mulS_keeps {x y : BitVec w} : Keeps (MachineInt.mulS x y) (mulP x y) := by
  intro a h
  unfold MachineInt.mulS SecretInt.checkedMulS at h
  split at h
  · rw [← h, mulP]
  · simp at h

macro_rules | `(tactic| kp_leaf) => `(tactic| with_reducible exact shl_keeps)
macro_rules | `(tactic| kp_leaf) => `(tactic| with_reducible exact shrU_keeps)
macro_rules | `(tactic| kp_leaf) => `(tactic| with_reducible exact shrS_keeps)
macro_rules | `(tactic| kp_leaf) => `(tactic| with_reducible exact addU_keeps)
macro_rules | `(tactic| kp_leaf) => `(tactic| with_reducible exact subU_keeps)
macro_rules | `(tactic| kp_leaf) => `(tactic| with_reducible exact mulU_keeps)
macro_rules | `(tactic| kp_leaf) => `(tactic| with_reducible exact addS_keeps)
macro_rules | `(tactic| kp_leaf) => `(tactic| with_reducible exact subS_keeps)
macro_rules | `(tactic| kp_leaf) => `(tactic| with_reducible exact mulS_keeps)

theorem rotateRight_keeps {x : BitVec w} {n : Nat} :
    Keeps (MachineInt.rotateRight MachineInt.secU x n) (rotateRight x n) := by
  unfold MachineInt.rotateRight rotateRight MachineInt.secU
  kp

theorem getByte_keeps {x : BitVec w} {i : Nat} : Keeps (MachineInt.getByte x i) (getByte x i) := by
  unfold MachineInt.getByte getByte
  refine Keeps.require fun h => ?_
  rw [Nat.mod_eq_of_lt h]
  kp

macro_rules | `(tactic| kp_leaf) => `(tactic| with_reducible exact rotateRight_keeps)
macro_rules | `(tactic| kp_leaf) => `(tactic| with_reducible exact getByte_keeps)

end

/-! ## Sequences and arrays -/

namespace Seq

variable [Inhabited α]


/-- Index sums that wrap are never reached: the loop panics at the first index that is out of bounds. -/
theorem updateSubUsize_eq {self v : List α} {so si len : Nat} (h1 : self.length < 2 ^ 64) (h2 : v.length < 2 ^ 64)
    (ho : so < 2 ^ 64) (hi : si < 2 ^ 64) : updateSubUsize self so v si len = updateSub self so v si len := by
  unfold updateSubUsize updateSub
  suffices H : (∀ t, loop len (fun i s => do
        let x ← idx v (si + i)
        setIdx s (so + i) x) self = .ok t → t.length = self.length ∧ (0 < len → so + len ≤ self.length ∧ si + len ≤ v.length)) ∧
      loop len (fun i s => do
        let x ← idx v (usize (si + i))
        setIdx s (usize (so + i)) x) self = loop len (fun i s => do
        let x ← idx v (si + i)
        setIdx s (so + i) x) self from H.2
  induction len with
  | zero => exact ⟨fun t ht => by cases ht; simp, rfl⟩
  | succ k ih =>
    obtain ⟨ih1, ih2⟩ := ih
    rw [loop_succ, loop_succ, ih2]
    cases hk : loop k (fun i s => do
        let x ← idx v (si + i)
        setIdx s (so + i) x) self with
    | error e => exact ⟨fun t ht => by simp at ht, rfl⟩
    | ok u =>
      obtain ⟨hu, hb⟩ := ih1 u hk
      have e1 : usize (si + k) = si + k := Nat.mod_eq_of_lt (by omega)
      have e2 : usize (so + k) = so + k := Nat.mod_eq_of_lt (by omega)
      simp only [bind_ok, e1, e2]
      refine ⟨fun t ht => ?_, trivial⟩
      obtain ⟨x, hx, hs⟩ := bind_eq_ok.1 ht
      have hv : si + k < v.length := by
        rcases Nat.lt_or_ge (si + k) v.length with h | h
        · exact h
        · rw [idx_panic h] at hx; simp at hx
      rcases Nat.lt_or_ge (so + k) u.length with h | h
      · rw [setIdx_ok h] at hs
        cases hs
        simp
        omega
      · rw [setIdx_panic h] at hs; simp at hs

omit [Inhabited α] in
theorem updateSub_keeps {self v : List α} {so si len : Nat} :
    Keeps (Hacspec.Seq.updateSub self so v si len) (updateSub self so v si len) := by
  unfold Hacspec.Seq.updateSub updateSub
  exact Keeps.require fun h3 => Keeps.require fun h4 => Keeps.refl

macro_rules | `(tactic| kp_leaf) => `(tactic| with_reducible exact updateSub_keeps)

theorem update_keeps {self v : List α} {so : Nat} : Keeps (Hacspec.Seq.update self so v) (update self so v) :=
  updateSub_keeps

theorem updateStart_keeps {self v : List α} : Keeps (Hacspec.Seq.updateStart self v) (updateStart self v) :=
  updateSub_keeps

theorem fromSub_keeps {v : List α} {s len : Nat} : Keeps (Hacspec.Seq.fromSub v s len) (fromSub v s len) :=
  updateSub_keeps

theorem fromSubRange_keeps {v : List α} {a b : Nat} : Keeps (Hacspec.Seq.fromSubRange v a b) (fromSubRange v a b) := by
  refine Keeps.require fun h => ?_
  unfold fromSubRange
  rw [usizeSub, if_pos h]
  exact fromSub_keeps

theorem sub_keeps {v : List α} {s len : Nat} : Keeps (Hacspec.Seq.sub v s len) (sub v s len) := fromSub_keeps

theorem subr_keeps {v : List α} {a b : Nat} : Keeps (Hacspec.Seq.subr v a b) (subr v a b) := by
  refine Keeps.require fun h => ?_
  unfold subr
  rw [usizeSub, if_pos h]
  exact fromSub_keeps

theorem numChunks_keeps {v : List α} {cs : Nat} : Keeps (Hacspec.Seq.numChunks v cs) (numChunks v cs) := by
  refine Keeps.require fun h1 => Keeps.require fun h2 => ?_
  unfold numChunks
  refine Keeps.bind Keeps.refl fun _ _ => Keeps.of_eq ?_
  rw [usizeSub, usize, Nat.mod_eq_of_lt h1, if_pos h2]

theorem numChunks_lt {v : List α} {cs n : Nat} (h : Hacspec.Seq.numChunks v cs = .ok n) : v.length + cs < 2 ^ 64 := by
  refine Classical.byContradiction fun hc => ?_
  rw [Hacspec.Seq.numChunks, require_false hc] at h
  simp at h

theorem getChunkLen_eq {v : List α} {cs cn len : Nat} (hl : v.length + cs < 2 ^ 64)
    (h : Hacspec.Seq.getChunkLen v cs cn = .ok len) : usize (cs * cn) = cs * cn ∧ getChunkLen v cs cn = len := by
  unfold Hacspec.Seq.getChunkLen at h
  have h0 : cs * cn ≤ v.length := by
    refine Classical.byContradiction fun hc => ?_
    rw [if_pos (by omega), require_false hc] at h
    simp at h
  have e : usize (cs * cn) = cs * cn := Nat.mod_eq_of_lt (by omega)
  have e' : usize (cs * cn + cs) = cs * cn + cs := Nat.mod_eq_of_lt (by omega)
  refine ⟨e, ?_⟩
  simp only [getChunkLen, e, e']
  by_cases hc : cs * cn + cs > v.length
  · rw [if_pos hc, require_true h0, bind_ok] at h
    rw [if_pos hc, usizeSub, if_pos h0]
    exact Except.ok.inj h
  · rw [if_neg hc] at h ⊢
    exact Except.ok.inj h

theorem getChunk_keeps {v : List α} {cs cn : Nat} (hl : v.length + cs < 2 ^ 64) :
    Keeps (Hacspec.Seq.getChunk v cs cn) (getChunk v cs cn) := by
  intro r hr
  obtain ⟨len, h1, h2⟩ := bind_eq_ok.1 hr
  obtain ⟨e1, e2⟩ := getChunkLen_eq hl h1
  simp only [getChunk, e1, e2]
  exact Keeps.bind sub_keeps (fun _ _ => Keeps.refl) r h2

theorem setChunk_keeps {v x : List α} {cs cn : Nat} (hl : v.length + cs < 2 ^ 64) :
    Keeps (Hacspec.Seq.setChunk v cs cn x) (setChunk v cs cn x) := by
  intro r hr
  obtain ⟨len, h1, h2⟩ := bind_eq_ok.1 hr
  obtain ⟨e1, e2⟩ := getChunkLen_eq hl h1
  simp only [setChunk, e1, e2]
  exact Keeps.require (fun _ => updateSub_keeps) r h2

theorem updateSub_length {v x r : List α} {so si len : Nat} (h : Hacspec.Seq.updateSub v so x si len = .ok r) :
    r.length = v.length := by
  by_cases hc : so + len ≤ v.length ∧ si + len ≤ x.length
  · rw [Hacspec.Seq.updateSub_ok hc.1 hc.2] at h
    cases h
    simp
    omega
  · rw [Hacspec.Seq.updateSub_panic hc] at h
    simp at h

theorem setChunk_length {v x r : List α} {cs cn : Nat} (h : Hacspec.Seq.setChunk v cs cn x = .ok r) :
    r.length = v.length := by
  obtain ⟨len, _, h2⟩ := bind_eq_ok.1 h
  obtain ⟨_, _, h3⟩ := bind_eq_ok.1 h2
  exact updateSub_length h3

theorem arrFromSlice_keeps {l : Nat} {v : List α} : Keeps (Hacspec.Seq.arrFromSlice l v) (arrFromSlice l v) :=
  Keeps.require fun _ => Keeps.refl

theorem arrFromSub_keeps {l : Nat} {v : List α} {s len : Nat} :
    Keeps (Hacspec.Seq.arrFromSub l v s len) (arrFromSub l v s len) :=
  Keeps.require fun _ => updateSub_keeps

theorem arrFromSubRange_keeps {l : Nat} {v : List α} {a b : Nat} :
    Keeps (Hacspec.Seq.arrFromSubRange l v a b) (arrFromSubRange l v a b) := by
  refine Keeps.require fun h => ?_
  unfold arrFromSubRange
  rw [usizeSub, if_pos h]
  exact arrFromSub_keeps

theorem arrFromVec_keeps {l : Nat} {v : List α} : Keeps (Hacspec.Seq.arrFromVec l v) (arrFromVec l v) :=
  Keeps.require fun _ => Keeps.refl

theorem arrFromSeq_keeps {l : Nat} {v : List α} : Keeps (Hacspec.Seq.arrFromSeq l v) (arrFromSeq l v) :=
  Keeps.require fun _ => Keeps.refl

theorem arrFromPublicSlice_keeps {w l : Nat} {v : List (BitVec w)} :
    Keeps (Hacspec.Seq.arrFromPublicSlice l v) (arrFromPublicSlice l v) :=
  Keeps.require fun _ => arrFromVec_keeps

theorem arrFromOther_keeps {w l : Nat} {v : List (BitVec w)} :
    Keeps (Hacspec.Seq.arrFromOther l v) (arrFromOther l v) := arrFromVec_keeps

theorem wordToLeBytes_keeps {w : Nat} {x : BitVec w} : Keeps (Hacspec.Seq.wordToLeBytes x) (wordToLeBytes x) :=
  arrFromVec_keeps

theorem wordToBeBytes_keeps {w : Nat} {x : BitVec w} : Keeps (Hacspec.Seq.wordToBeBytes x) (wordToBeBytes x) :=
  arrFromVec_keeps

theorem arrFromHex_keeps {l : Nat} {s : List U8} : Keeps (Hex.arrFromHex l s) (arrFromHex l s) :=
  Keeps.bind Keeps.refl fun _ _ => Keeps.require fun _ => Keeps.refl

macro_rules | `(tactic| kp_leaf) => `(tactic| with_reducible exact update_keeps)
macro_rules | `(tactic| kp_leaf) => `(tactic| with_reducible exact updateStart_keeps)
macro_rules | `(tactic| kp_leaf) => `(tactic| with_reducible exact fromSub_keeps)
macro_rules | `(tactic| kp_leaf) => `(tactic| with_reducible exact fromSubRange_keeps)
macro_rules | `(tactic| kp_leaf) => `(tactic| with_reducible exact sub_keeps)
macro_rules | `(tactic| kp_leaf) => `(tactic| with_reducible exact subr_keeps)
macro_rules | `(tactic| kp_leaf) => `(tactic| with_reducible exact numChunks_keeps)
macro_rules | `(tactic| kp_leaf) => `(tactic| with_reducible exact arrFromSlice_keeps)
macro_rules | `(tactic| kp_leaf) => `(tactic| with_reducible exact arrFromSub_keeps)
macro_rules | `(tactic| kp_leaf) => `(tactic| with_reducible exact arrFromSubRange_keeps)
macro_rules | `(tactic| kp_leaf) => `(tactic| with_reducible exact arrFromVec_keeps)
macro_rules | `(tactic| kp_leaf) => `(tactic| with_reducible exact arrFromSeq_keeps)
macro_rules | `(tactic| kp_leaf) => `(tactic| with_reducible exact arrFromPublicSlice_keeps)
macro_rules | `(tactic| kp_leaf) => `(tactic| with_reducible exact arrFromOther_keeps)
macro_rules | `(tactic| kp_leaf) => `(tactic| with_reducible exact wordToLeBytes_keeps)
macro_rules | `(tactic| kp_leaf) => `(tactic| with_reducible exact wordToBeBytes_keeps)
macro_rules | `(tactic| kp_leaf) => `(tactic| with_reducible exact arrFromHex_keeps)

macro_rules | `(tactic| kp_leaf) => `(tactic| with_reducible exact getChunk_keeps ‹_›)
macro_rules | `(tactic| kp_leaf) => `(tactic| with_reducible exact setChunk_keeps ‹_›)

theorem arrToWords_keeps {w l : Nat} {de : List U8 → M (List (BitVec w))} {v : List U8} :
    Keeps (Hacspec.Seq.arrToWords l de v) (arrToWords l de v) := by
  unfold Hacspec.Seq.arrToWords arrToWords
  refine Keeps.loop fun i _ t => Keeps.bind Keeps.refl fun b _ => Keeps.require fun _ => ?_
  kp

theorem arrToBeWords_keeps {w l : Nat} {v : List U8} :
    Keeps (Hacspec.Seq.arrToBeWords w l v) (arrToBeWords w l v) := arrToWords_keeps

theorem arrToLeWords_keeps {w l : Nat} {v : List U8} :
    Keeps (Hacspec.Seq.arrToLeWords w l v) (arrToLeWords w l v) := arrToWords_keeps

macro_rules | `(tactic| kp_leaf) => `(tactic| with_reducible exact arrToBeWords_keeps)
macro_rules | `(tactic| kp_leaf) => `(tactic| with_reducible exact arrToLeWords_keeps)

end Seq

namespace VecInt

variable {w l : Nat} {x y : List (BitVec w)}

theorem arrAdd_keeps : Keeps (Hacspec.VecInt.arrAdd l x y) (arrAdd l x y) := Keeps.require fun _ => Keeps.refl
theorem arrSub_keeps : Keeps (Hacspec.VecInt.arrSub l x y) (arrSub l x y) := Keeps.require fun _ => Keeps.refl
theorem arrMulSecret_keeps : Keeps (Hacspec.VecInt.arrMulSecret l x y) (arrMulSecret l x y) :=
  Keeps.require fun _ => Keeps.refl
theorem arrDiv_keeps : Keeps (Hacspec.VecInt.arrDiv l x y) (arrDiv l x y) := Keeps.require fun _ => Keeps.refl
theorem arrXorPublic_keeps : Keeps (Hacspec.VecInt.arrXorPublic l x y) (arrXorPublic l x y) :=
  Keeps.require fun _ => Keeps.refl

end VecInt
end Hacspec.Release
