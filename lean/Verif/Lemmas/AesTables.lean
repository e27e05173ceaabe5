import Verif.Basic
import Verif.Model.Aes
import Verif.Spec.Aes

/-! # AES: facts about single bytes, by evaluation of the complete table of 256 bytes -/

namespace Hacspec.Aes

open Spec.Aes

theorem subByte_ok : ∀ x : U8, subByte x = .ok (sub x) := by decide +kernel
theorem inv_isInv : ∀ x : U8, IsInv x (inv x) := by decide +kernel
theorem inv_inv : ∀ x : U8, inv (inv x) = x := by decide +kernel
theorem affineInv_affine : ∀ x : U8, affineInv (affine x) = x := by decide +kernel
theorem affine_affineInv : ∀ x : U8, affine (affineInv x) = x := by decide +kernel
theorem invSub_sub (x : U8) : invSub (sub x) = x := by rw [invSub, sub, affineInv_affine, inv_inv]
theorem sub_invSub (x : U8) : sub (invSub x) = x := by rw [invSub, sub, inv_inv, affine_affineInv]
theorem xtime_ok : ∀ x : U8, xtime x = .ok (gmul 2 x) := by decide +kernel
theorem gmul2_eq : ∀ x : U8, gmul 2 x = (x <<< 1) ^^^ (if x.msb then 0x1b#8 else 0#8) := by decide +kernel
theorem gmul1 : ∀ x : U8, gmul 1 x = x := by decide +kernel
theorem gmul3 : ∀ x : U8, gmul 3 x = gmul 2 x ^^^ x := by decide +kernel
theorem gmul9 : ∀ x : U8, gmul 0x09 x = gmul 2 (gmul 2 (gmul 2 x)) ^^^ x := by decide +kernel
theorem gmulb : ∀ x : U8, gmul 0x0b x = gmul 2 (gmul 2 (gmul 2 x)) ^^^ (gmul 2 x ^^^ x) := by decide +kernel
theorem gmuld : ∀ x : U8, gmul 0x0d x = gmul 2 (gmul 2 (gmul 2 x)) ^^^ (gmul 2 (gmul 2 x) ^^^ x) := by
  decide +kernel
theorem gmule : ∀ x : U8, gmul 0x0e x = gmul 2 (gmul 2 (gmul 2 x)) ^^^ (gmul 2 (gmul 2 x) ^^^ gmul 2 x) := by
  decide +kernel

theorem xor_left_comm {w : Nat} (a b c : BitVec w) : a ^^^ (b ^^^ c) = b ^^^ (a ^^^ c) := by
  rw [← BitVec.xor_assoc, BitVec.xor_comm a, BitVec.xor_assoc]

theorem xor_cancel {w : Nat} (a b : BitVec w) : a ^^^ (a ^^^ b) = b := by
  rw [← BitVec.xor_assoc, BitVec.xor_self, BitVec.zero_xor]

theorem gmul2_xor (x y : U8) : gmul 2 (x ^^^ y) = gmul 2 x ^^^ gmul 2 y := by
  rw [gmul2_eq, gmul2_eq, gmul2_eq, BitVec.shiftLeft_xor_distrib, BitVec.msb_xor]
  cases x.msb <;> cases y.msb <;> simp [BitVec.xor_assoc, BitVec.xor_comm, xor_left_comm]

end Hacspec.Aes
