import Verif.Model.Release.MachineInt
import Verif.Lemmas.Release.Seq

/-! # The release build returns what the debug build returns: machine integers and polynomials -/

namespace Hacspec.Release

open Spec (Keeps)

variable {σ : Type}

theorem Keeps.whileM {fuel : Nat} {c : σ → Bool} {f g : σ → M σ} {s : σ} (h : ∀ t, Keeps (f t) (g t)) :
    Keeps (Hacspec.whileM fuel c f s) (Hacspec.whileM fuel c g s) := by
  induction fuel generalizing s with
  | zero => exact Keeps.refl
  | succ k ih =>
    rw [Hacspec.whileM, Hacspec.whileM]
    by_cases hc : c s
    · rw [if_pos hc, if_pos hc]; exact Keeps.bind (h s) fun t _ => ih
    · rw [if_neg hc, if_neg hc]; exact Keeps.refl

/-- A check that both builds make. -/
theorem Keeps.assert {α : Type} {c : Prop} [Decidable c] {f g : Unit → M α} (h : c → Keeps (f ()) (g ())) :
    Keeps (Hacspec.require c >>= f) (Hacspec.require c >>= g) := by
  by_cases hc : c
  · rw [require_true hc, bind_ok, bind_ok]; exact h hc
  · rw [require_false hc]; exact Keeps.panic

theorem Keeps.forEach {α : Type} {l : List α} {f g : α → σ → M σ} {s : σ} (h : ∀ a t, Keeps (f a t) (g a t)) :
    Keeps (Hacspec.Poly.forEach l f s) (Hacspec.Poly.forEach l g s) := by
  induction l generalizing s with
  | nil => exact Keeps.refl
  | cons a as ih => exact Keeps.bind (h a s) fun t _ => ih

macro_rules
  | `(tactic| kp_leaf) => `(tactic| with_reducible first
    | exact shl_keeps | exact shrU_keeps | exact shrS_keeps
    | exact addU_keeps | exact subU_keeps | exact mulU_keeps)

end Hacspec.Release

namespace Hacspec.Release.MachineInt

open Spec (Keeps)
open SecretInt hiding shl shrU shrS negS
open Hacspec.MachineInt (IntOps)

variable {w : Nat}

/-- The operations of a release build return what those of the debug build return. -/
structure OpsKeep (O O' : IntOps w) : Prop where
  add : ∀ x y, Keeps (O.add x y) (O'.add x y)
  sub : ∀ x y, Keeps (O.sub x y) (O'.sub x y)
  mul : ∀ x y, Keeps (O.mul x y) (O'.mul x y)
  div : ∀ x y, Keeps (O.div x y) (O'.div x y)
  lt : O.lt = O'.lt
  shr : ∀ x n, Keeps (O.shr x n) (O'.shr x n)
  gteBm : ∀ x y, Keeps (O.gteBm x y) (O'.gteBm x y)

theorem pubU_keep : OpsKeep (Hacspec.MachineInt.pubU (w := w)) pubU :=
  ⟨fun _ _ => addU_keeps, fun _ _ => subU_keeps, fun _ _ => mulU_keeps, fun _ _ => Keeps.refl, rfl,
    fun _ _ => shrU_keeps, fun _ _ => Keeps.refl⟩

theorem pubS_keep : OpsKeep (Hacspec.MachineInt.pubS (w := w)) pubS :=
  ⟨fun _ _ => addS_keeps, fun _ _ => subS_keeps, fun _ _ => mulS_keeps, fun _ _ => Keeps.refl, rfl,
    fun _ _ => shrS_keeps, fun _ _ => Keeps.refl⟩

theorem secU_keep : OpsKeep (Hacspec.MachineInt.secU (w := w)) secU :=
  ⟨fun _ _ => Keeps.refl, fun _ _ => Keeps.refl, fun _ _ => Keeps.refl, fun _ _ => Keeps.refl, rfl,
    fun _ _ => shrU_keeps, fun _ _ => Keeps.refl⟩

theorem secS_keep : OpsKeep (Hacspec.MachineInt.secS (w := w)) secS :=
  ⟨fun _ _ => Keeps.refl, fun _ _ => Keeps.refl, fun _ _ => Keeps.refl, fun _ _ => Keeps.refl, rfl,
    fun _ _ => shrS_keeps, fun _ _ => Keeps.refl⟩

variable {O O' : IntOps w}

theorem getBit_keeps (h : OpsKeep O O') {x : BitVec w} {i : Nat} :
    Keeps (Hacspec.MachineInt.getBit O x i) (Hacspec.MachineInt.getBit O' x i) :=
  Keeps.bind (h.shr x i) fun _ _ => Keeps.refl

theorem setBit_keeps {x b : BitVec w} {i : Nat} :
    Keeps (Hacspec.MachineInt.setBit x b i) (setBit x b i) :=
  Keeps.require fun _ => Keeps.bind shl_keeps fun _ _ => Keeps.bind shl_keeps fun _ _ => Keeps.refl

theorem set_keeps (h : OpsKeep O O') {x y : BitVec w} {i j : Nat} :
    Keeps (Hacspec.MachineInt.set O x i y j) (set O' x i y j) :=
  Keeps.bind (getBit_keeps h) fun _ _ => setBit_keeps

theorem rotateLeft_keeps (h : OpsKeep O O') {x : BitVec w} {n : Nat} :
    Keeps (Hacspec.MachineInt.rotateLeft O x n) (rotateLeft O' x n) :=
  Keeps.assert fun _ => Keeps.bind shl_keeps fun _ _ => Keeps.bind (h.shr _ _) fun _ _ => Keeps.refl

theorem rotateRight_keeps (h : OpsKeep O O') {x : BitVec w} {n : Nat} :
    Keeps (Hacspec.MachineInt.rotateRight O x n) (rotateRight O' x n) :=
  Keeps.assert fun _ => Keeps.bind (h.shr _ _) fun _ _ => Keeps.bind shl_keeps fun _ _ => Keeps.refl

theorem addModU_keeps {x y n : BitVec w} : Keeps (Hacspec.MachineInt.addModU x y n) (addModU x y n) :=
  Keeps.bind addU_keeps fun _ _ => Keeps.refl

theorem mulModU_keeps {x y n : BitVec w} : Keeps (Hacspec.MachineInt.mulModU x y n) (mulModU x y n) :=
  Keeps.bind mulU_keeps fun _ _ => Keeps.refl

theorem subModU_keeps {x y n : BitVec w} : Keeps (Hacspec.MachineInt.subModU x y n) (subModU x y n) :=
  Keeps.bind (Keeps.whileM fun _ => addU_keeps) fun _ _ => Keeps.bind subU_keeps fun _ _ => Keeps.refl

theorem i128_of_fits {z : Int} (h : fitsS 128 z) : i128 z = .ok z := by
  rw [i128, BitVec.toInt_ofInt, Int.bmod_eq_of_le]
  · have := h.1; omega
  · have := h.2; omega

theorem i128_keeps {z : Int} : Keeps (Hacspec.MachineInt.i128 z) (i128 z) := by
  intro a ha
  rw [Hacspec.MachineInt.i128] at ha
  split at ha
  · rw [i128_of_fits ‹_›]; exact ha
  · simp at ha

theorem signedMod_keeps {x n : Int} : Keeps (Hacspec.MachineInt.signedMod x n) (signedMod x n) :=
  Keeps.assert fun _ => Keeps.bind Keeps.refl fun _ _ => Keeps.whileM fun _ => i128_keeps

theorem subModS_keeps {x y n : BitVec w} : Keeps (Hacspec.MachineInt.subModS x y n) (subModS x y n) :=
  Keeps.bind i128_keeps fun _ _ => Keeps.bind signedMod_keeps fun _ _ => Keeps.refl

theorem addModS_keeps {x y n : BitVec w} : Keeps (Hacspec.MachineInt.addModS x y n) (addModS x y n) :=
  Keeps.bind i128_keeps fun _ _ => Keeps.bind signedMod_keeps fun _ _ => Keeps.refl

theorem mulModS_keeps {x y n : BitVec w} : Keeps (Hacspec.MachineInt.mulModS x y n) (mulModS x y n) :=
  Keeps.bind i128_keeps fun _ _ => Keeps.bind signedMod_keeps fun _ _ => Keeps.refl

theorem moduloS_keeps {x n : BitVec w} : Keeps (Hacspec.MachineInt.moduloS x n) (moduloS x n) :=
  Keeps.bind signedMod_keeps fun _ _ => Keeps.refl

theorem subAdd_keeps (h : OpsKeep O O') {n s p : BitVec w} :
    Keeps (Hacspec.MachineInt.subAdd O n s p) (Hacspec.MachineInt.subAdd O' n s p) := by
  unfold Hacspec.MachineInt.subAdd
  rw [h.lt]
  exact Keeps.bind (Keeps.whileM fun _ => h.add _ _) fun _ _ => h.sub _ _

theorem euclidInvert_keeps (h : OpsKeep O O') {x n : BitVec w} :
    Keeps (Hacspec.MachineInt.euclidInvert O x n) (Hacspec.MachineInt.euclidInvert O' x n) := by
  unfold Hacspec.MachineInt.euclidInvert
  rw [h.lt]
  refine Keeps.bind (Keeps.whileM fun s => ?_) fun s _ => Keeps.ite (fun _ => Keeps.refl) fun _ =>
    Keeps.ite (fun _ => h.add _ _) fun _ => Keeps.refl
  exact Keeps.bind (h.div _ _) fun _ _ => Keeps.bind (h.mul _ _) fun _ _ => Keeps.bind (subAdd_keeps h) fun _ _ =>
    Keeps.bind (h.mul _ _) fun _ _ => Keeps.bind (subAdd_keeps h) fun _ _ => Keeps.refl

theorem csetBit_keeps {x b c : BitVec w} {i : Nat} :
    Keeps (Hacspec.MachineInt.csetBit x b i c) (csetBit x b i c) :=
  Keeps.bind setBit_keeps fun _ _ => Keeps.refl

theorem ctDiv_keeps (h : OpsKeep O O') {a d : BitVec w} :
    Keeps (Hacspec.MachineInt.ctDiv O a d) (ctDiv O' a d) :=
  Keeps.loop fun _ _ _ => Keeps.bind shl_keeps fun _ _ => Keeps.bind (set_keeps h) fun _ _ =>
    Keeps.bind (h.gteBm _ _) fun _ _ => Keeps.bind csetBit_keeps fun _ _ => Keeps.refl

end Hacspec.Release.MachineInt

namespace Hacspec.Release.Poly

open Spec (Keeps)
open Hacspec.Poly (NumOps PolyTy)
open Hacspec.Poly hiding numPubU numPubS numSecU numSecS extendedEuclid pInv
open Release.MachineInt (OpsKeep)

variable {w : Nat}

/-- The operations of a release build return what those of the debug build return. -/
structure NumKeep (N N' : NumOps w) : Prop extends OpsKeep N.toIntOps N'.toIntOps where
  addMod : ∀ x y n, Keeps (N.addMod x y n) (N'.addMod x y n)
  subMod : ∀ x y n, Keeps (N.subMod x y n) (N'.subMod x y n)
  mulMod : ∀ x y n, Keeps (N.mulMod x y n) (N'.mulMod x y n)

theorem numPubU_keep : NumKeep (Hacspec.Poly.numPubU (w := w)) numPubU :=
  ⟨MachineInt.pubU_keep, fun _ _ _ => MachineInt.addModU_keeps, fun _ _ _ => MachineInt.subModU_keeps,
    fun _ _ _ => MachineInt.mulModU_keeps⟩

theorem numPubS_keep : NumKeep (Hacspec.Poly.numPubS (w := w)) numPubS :=
  ⟨MachineInt.pubS_keep, fun _ _ _ => MachineInt.addModS_keeps, fun _ _ _ => MachineInt.subModS_keeps,
    fun _ _ _ => MachineInt.mulModS_keeps⟩

theorem numSecU_keep : NumKeep (Hacspec.Poly.numSecU (w := w)) numSecU :=
  ⟨MachineInt.secU_keep, fun _ _ _ => MachineInt.addModU_keeps, fun _ _ _ => MachineInt.subModU_keeps,
    fun _ _ _ => MachineInt.mulModU_keeps⟩

theorem numSecS_keep : NumKeep (Hacspec.Poly.numSecS (w := w)) numSecS :=
  ⟨MachineInt.secS_keep, fun _ _ _ => MachineInt.addModS_keeps, fun _ _ _ => MachineInt.subModS_keeps,
    fun _ _ _ => MachineInt.mulModS_keeps⟩

variable {N N' : NumOps w}

theorem zipM_keeps {f g : BitVec w → BitVec w → M (BitVec w)} (h : ∀ a b, Keeps (f a b) (g a b)) :
    ∀ {x y : List (BitVec w)}, Keeps (zipM f x y) (zipM g x y)
  | [], _ => Keeps.refl
  | _ :: _, [] => Keeps.refl
  | a :: x, b :: y => Keeps.bind (h a b) fun _ _ => Keeps.bind (zipM_keeps h) fun _ _ => Keeps.refl

theorem polySub_keeps (h : NumKeep N N') {x y : List (BitVec w)} {n : BitVec w} :
    Keeps (polySub N x y n) (polySub N' x y n) :=
  Keeps.assert fun _ => zipM_keeps fun _ _ => Keeps.ite (fun _ => h.sub _ _) fun _ => h.subMod _ _ _

theorem polyAdd_keeps (h : NumKeep N N') {x y : List (BitVec w)} {n : BitVec w} :
    Keeps (polyAdd N x y n) (polyAdd N' x y n) :=
  Keeps.assert fun _ => zipM_keeps fun _ _ => Keeps.ite (fun _ => h.add _ _) fun _ => h.addMod _ _ _

theorem polyMulPlain_keeps (h : NumKeep N N') {x y : List (BitVec w)} :
    Keeps (polyMulPlain N x y) (polyMulPlain N' x y) :=
  Keeps.loop fun _ _ _ => Keeps.loop fun _ _ _ => Keeps.bind Keeps.refl fun _ _ => Keeps.bind Keeps.refl fun _ _ =>
    Keeps.bind Keeps.refl fun _ _ => Keeps.bind (h.mul _ _) fun _ _ => Keeps.bind (h.add _ _) fun _ _ => Keeps.refl

theorem polyMulOpScanning_keeps (h : NumKeep N N') {x y : List (BitVec w)} {n : BitVec w} :
    Keeps (polyMulOpScanning N x y n) (polyMulOpScanning N' x y n) :=
  Keeps.loop fun _ _ _ => Keeps.loop fun _ _ _ => Keeps.bind Keeps.refl fun _ _ => Keeps.bind Keeps.refl fun _ _ =>
    Keeps.bind Keeps.refl fun _ _ => Keeps.bind (h.mulMod _ _ _) fun _ _ => Keeps.bind (h.addMod _ _ _) fun _ _ =>
      Keeps.refl

theorem polyMul_keeps (h : NumKeep N N') {x y : List (BitVec w)} {n : BitVec w} :
    Keeps (polyMul N x y n) (polyMul N' x y n) :=
  Keeps.forEach fun _ _ => Keeps.forEach fun _ _ => Keeps.bind Keeps.refl fun _ _ => Keeps.bind (h.mulMod _ _ _) fun _ _ =>
    Keeps.bind (h.addMod _ _ _) fun _ _ => Keeps.refl

theorem polyDiv_keeps (h : NumKeep N N') {x y : List (BitVec w)} {n : BitVec w} :
    Keeps (polyDiv N x y n) (polyDiv N' x y n) := by
  refine Keeps.bind (Keeps.loop fun i _ s => ?_) fun _ _ => Keeps.refl
  refine Keeps.bind Keeps.refl fun r _ => Keeps.bind ?_ fun t _ => Keeps.assert fun _ => Keeps.bind Keeps.refl fun _ _ =>
    Keeps.bind (polyMul_keeps h) fun _ _ => Keeps.bind (polyAdd_keeps h) fun _ _ => Keeps.bind (polySub_keeps h) fun _ _ =>
      Keeps.refl
  exact Keeps.ite (fun _ => h.div _ _) fun _ =>
    Keeps.bind (MachineInt.euclidInvert_keeps h.toOpsKeep) fun _ _ => h.mul _ _

theorem mapM_keeps {α β : Type} {f g : α → M β} (h : ∀ a, Keeps (f a) (g a)) :
    ∀ {l : List α}, Keeps (l.mapM f) (l.mapM g)
  | [] => by simp only [List.mapM_nil]; exact Keeps.refl
  | a :: l => by
    simp only [List.mapM_cons]
    exact Keeps.bind (h a) fun _ _ => Keeps.bind (mapM_keeps h) fun _ _ => Keeps.refl

theorem polyZInv_keeps (h : NumKeep N N') {v : List (BitVec w)} {n : BitVec w} :
    Keeps (polyZInv N v n) (polyZInv N' v n) := mapM_keeps fun _ => MachineInt.euclidInvert_keeps h.toOpsKeep

theorem quotSub_keeps (h : NumKeep N N') {a b : List (BitVec w)} {i j : Nat} {n : BitVec w} :
    Keeps (quotSub N a i b j n) (quotSub N' a i b j n) :=
  Keeps.bind Keeps.refl fun _ _ => Keeps.bind (Keeps.loop fun _ _ _ => polyMul_keeps h) fun _ _ =>
    Keeps.bind (Keeps.loop fun _ _ _ => polyMul_keeps h) fun _ _ => Keeps.bind (polySub_keeps h) fun _ _ => Keeps.refl

theorem divstepElim_keeps (h : NumKeep N N') {n : BitVec w} {s : DivState w} :
    Keeps (divstepElim N n s) (divstepElim N' n s) :=
  Keeps.bind Keeps.refl fun _ _ => Keeps.bind Keeps.refl fun _ _ => Keeps.bind Keeps.refl fun _ _ =>
    Keeps.bind Keeps.refl fun _ _ => Keeps.bind (polyMul_keeps h) fun _ _ => Keeps.bind (polyMul_keeps h) fun _ _ =>
      Keeps.bind (polySub_keeps h) fun _ _ => Keeps.bind Keeps.refl fun _ _ => Keeps.bind (polyMul_keeps h) fun _ _ =>
        Keeps.bind (polyMul_keeps h) fun _ _ => Keeps.bind (quotSub_keeps h) fun _ _ => Keeps.bind (polyMul_keeps h) fun _ _ =>
          Keeps.bind (polyMul_keeps h) fun _ _ => Keeps.bind (quotSub_keeps h) fun _ _ => Keeps.refl

theorem divstepsx_keeps (h : NumKeep N N') {nn t : Nat} {f g : List (BitVec w)} {n : BitVec w} :
    Keeps (divstepsx N nn t f g n) (divstepsx N' nn t f g n) :=
  Keeps.assert fun _ => Keeps.loop fun _ _ _ => Keeps.bind Keeps.refl fun _ _ => divstepElim_keeps h

theorem extendedEuclid_keeps (h : NumKeep N N') {x y : List (BitVec w)} {n : BitVec w} :
    Keeps (Hacspec.Poly.extendedEuclid N x y n) (extendedEuclid N' x y n) :=
  Keeps.require fun _ => Keeps.assert fun _ => Keeps.bind (divstepsx_keeps h) fun _ _ =>
    Keeps.ite (fun _ => Keeps.refl) fun _ => Keeps.bind Keeps.refl fun _ _ =>
      Keeps.bind (MachineInt.euclidInvert_keeps h.toOpsKeep) fun _ _ => Keeps.assert fun _ =>
        Keeps.bind Keeps.refl fun _ _ => Keeps.bind (polyMul_keeps h) fun _ _ => Keeps.refl

variable {T : PolyTy w}

theorem pAdd_keeps (h : NumKeep N N') {a b : List (BitVec w)} : Keeps (pAdd N T a b) (pAdd N' T a b) :=
  Keeps.bind (polyAdd_keeps h) fun _ _ => Keeps.refl

theorem pSub_keeps (h : NumKeep N N') {a b : List (BitVec w)} : Keeps (pSub N T a b) (pSub N' T a b) :=
  Keeps.bind (polySub_keeps h) fun _ _ => Keeps.refl

theorem pMul_keeps (h : NumKeep N N') {a b : List (BitVec w)} : Keeps (pMul N T a b) (pMul N' T a b) :=
  Keeps.bind (polyMul_keeps h) fun _ _ => Keeps.bind Keeps.refl fun _ _ => Keeps.bind (polyDiv_keeps h) fun _ _ => Keeps.refl

theorem pDiv_keeps (h : NumKeep N N') {a b : List (BitVec w)} : Keeps (pDiv N T a b) (pDiv N' T a b) :=
  Keeps.bind (polyDiv_keeps h) fun _ _ => Keeps.refl

theorem pInv_keeps (h : NumKeep N N') {a : List (BitVec w)} : Keeps (Hacspec.Poly.pInv N T a) (pInv N' T a) :=
  Keeps.bind Keeps.refl fun _ _ => Keeps.bind (extendedEuclid_keeps h) fun r _ => by
    cases r <;> exact Keeps.refl

end Hacspec.Release.Poly

namespace Hacspec.Release.VecInt

open Spec (Keeps)

variable {w : Nat}

theorem zipLoop_keeps {f g : BitVec w → BitVec w → M (BitVec w)} (h : ∀ a b, Keeps (f a b) (g a b))
    {x y o : List (BitVec w)} : Keeps (Hacspec.VecInt.zipLoop f x y o) (Hacspec.VecInt.zipLoop g x y o) :=
  Keeps.loop fun _ _ _ => Keeps.bind Keeps.refl fun _ _ => Keeps.bind Keeps.refl fun _ _ => Keeps.bind (h _ _) fun _ _ =>
    Keeps.refl

theorem vecPoly_keeps {f g : BitVec w → BitVec w → BitVec w → M (BitVec w)} (h : ∀ a b n, Keeps (f a b n) (g a b n))
    {o : BitVec w → BitVec w → BitVec w} {x y : List (BitVec w)} {n : BitVec w} :
    Keeps (Hacspec.VecInt.vecPoly f o x y n) (vecPoly g o x y n) :=
  Keeps.require fun _ => zipLoop_keeps fun _ _ => Keeps.ite (fun _ => h _ _ _) fun _ => Keeps.refl

end Hacspec.Release.VecInt
