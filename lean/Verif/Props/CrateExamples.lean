import Verif.Lemmas.Dalek
import Verif.Lemmas.ChaChaExample
import Verif.Props.ChaChas

/-! # C56, C57: the examples of the `secret-integers` crate -/

namespace Hacspec.Props

open SecretInt Spec

/-! ## C56 -/

/-- Specification: the integer represented by five limbs in radix `2^51`. -/
def limbValue (a : Dalek.Limbs) : Nat :=
  a.l0.toNat + 2 ^ 51 * a.l1.toNat + 2 ^ 102 * a.l2.toNat + 2 ^ 153 * a.l3.toNat + 2 ^ 204 * a.l4.toNat

/-- Specification: all limbs below a bound. -/
def LimbsBelow (n : Nat) (a : Dalek.Limbs) : Prop :=
  a.l0.toNat < n ∧ a.l1.toNat < n ∧ a.l2.toNat < n ∧ a.l3.toNat < n ∧ a.l4.toNat < n

/-- Operations that panic when a result does not fit: additions and multiplications whose mathematical result is not below
`2^64` or `2^128`, and casts to 64 bits of larger values. -/
def checkedOps : Dalek.Ops where
  add64 x y := if x.toNat + y.toNat < 2 ^ 64 then .ok (x + y) else panic
  mul64 x y := if x.toNat * y.toNat < 2 ^ 64 then .ok (x * y) else panic
  add128 x y := if x.toNat + y.toNat < 2 ^ 128 then .ok (x + y) else panic
  mul128 x y := if x.toNat * y.toNat < 2 ^ 128 then .ok (x * y) else panic
  narrow x := if x.toNat < 2 ^ 64 then .ok (x.setWidth 64) else panic

theorem exact_checked : Dalek.Exact checkedOps where
  add64 h := ⟨_, if_pos h, by rw [BitVec.toNat_add, Nat.mod_eq_of_lt h]⟩
  mul64 h := ⟨_, if_pos h, by rw [BitVec.toNat_mul, Nat.mod_eq_of_lt h]⟩
  add128 h := ⟨_, if_pos h, by rw [BitVec.toNat_add, Nat.mod_eq_of_lt h]⟩
  mul128 h := ⟨_, if_pos h, by rw [BitVec.toNat_mul, Nat.mod_eq_of_lt h]⟩
  narrow h := ⟨_, if_pos h, by rw [BitVec.toNat_setWidth, Nat.mod_eq_of_lt h]⟩

/-- **C56.**  For limbs below `2^54` the multiplication does not panic and returns the product modulo `2^255 - 19`; the
output limbs are below `2^51 + 2^13`, so valid inputs again. -/
theorem C56_mul (a b : Dalek.Limbs) (ha : LimbsBelow (2 ^ 54) a) (hb : LimbsBelow (2 ^ 54) b) :
    ∃ r, Dalek.mul a b = .ok r ∧ limbValue r % (2 ^ 255 - 19) = limbValue a * limbValue b % (2 ^ 255 - 19) ∧
      r.l0.toNat < 2 ^ 51 ∧ r.l1.toNat < 2 ^ 51 + 2 ^ 13 ∧ r.l2.toNat < 2 ^ 51 ∧ r.l3.toNat < 2 ^ 51 ∧ r.l4.toNat < 2 ^ 51 := by
  obtain ⟨r, hr, hn⟩ := Dalek.mulWith_ok Dalek.exact_wrapping ha hb
  obtain ⟨g0, g1, g2, g3, g4⟩ := Dalek.coeffs_lt ha hb
  obtain ⟨o0, o1, o2, o3, o4⟩ := Dalek.out_lt g0 g1 g2 g3 g4
  obtain ⟨k, hk⟩ := Dalek.value_coeffs a b
  obtain ⟨k', hk'⟩ := Dalek.value_out (Dalek.coeffsNat a b)
  rw [← hn] at o0 o1 o2 o3 o4 hk'
  refine ⟨r, hr, ?_, o0, o1, o2, o3, o4⟩
  have e : limbValue a * limbValue b = limbValue r + (2 ^ 255 - 19) * (k' + k) := by
    have : limbValue a * limbValue b = Dalek.value (Dalek.nats r) + (2 ^ 255 - 19) * k' + (2 ^ 255 - 19) * k := by
      rw [← hk', ← hk]; rfl
    rw [this, Nat.mul_add, Nat.add_assoc]; rfl
  rw [e, Nat.add_mul_mod_self_left]

/-- **C56.**  Nothing wraps: the code over the operations that panic when a result does not fit gives the same result. -/
theorem C56_no_wrap (a b : Dalek.Limbs) (ha : LimbsBelow (2 ^ 54) a) (hb : LimbsBelow (2 ^ 54) b) :
    ∃ r, Dalek.mulWith checkedOps a b = .ok r ∧ Dalek.mul a b = .ok r := by
  obtain ⟨r, hr, hn⟩ := Dalek.mulWith_ok Dalek.exact_wrapping ha hb
  obtain ⟨r', hr', hn'⟩ := Dalek.mulWith_ok exact_checked ha hb
  have : r' = r := Dalek.nats_inj (hn'.trans hn.symm)
  exact ⟨r, this ▸ hr', hr⟩

/-- **C56.**  The multiplication panics exactly when a limb of an operand is `2^54` or larger. -/
theorem C56_panic (a b : Dalek.Limbs) :
    Dalek.mul a b = panic ↔ ¬ (LimbsBelow (2 ^ 54) a ∧ LimbsBelow (2 ^ 54) b) := by
  constructor
  · intro h ⟨ha, hb⟩
    obtain ⟨r, hr, _⟩ := C56_mul a b ha hb
    rw [hr] at h
    simp at h
  · exact fun h => Dalek.mul_panic h

/-- **C56.**  Products can be multiplied again, any number of times. -/
theorem C56_closed (a b r : Dalek.Limbs) (h : Dalek.mul a b = .ok r) : LimbsBelow (2 ^ 52) r ∧ LimbsBelow (2 ^ 54) r := by
  by_cases hb : LimbsBelow (2 ^ 54) a ∧ LimbsBelow (2 ^ 54) b
  · obtain ⟨r', hr, _, h0, h1, h2, h3, h4⟩ := C56_mul a b hb.1 hb.2
    rw [h] at hr
    cases hr
    exact ⟨⟨by omega, by omega, by omega, by omega, by omega⟩, ⟨by omega, by omega, by omega, by omega, by omega⟩⟩
  · rw [(C56_panic a b).mpr hb] at h
    simp at h

/-- The largest limbs allowed. -/
example : LimbsBelow (2 ^ 54) ⟨0x3fffffffffffff, 0x3fffffffffffff, 0x3fffffffffffff, 0x3fffffffffffff, 0x3fffffffffffff⟩ := by
  unfold LimbsBelow; decide

/-- `2^204 · 2^51 = 19`. -/
example : Dalek.mul ⟨0, 0, 0, 0, 1⟩ ⟨0, 1, 0, 0, 0⟩ = .ok ⟨19, 0, 0, 0, 0⟩ := by decide +kernel

/-! ## C57 -/

/-- **C57.**  The example encrypts as RFC 8439 with the given initial counter, for all keys of 32 bytes, nonces of 12 bytes
and non-empty messages; in all other cases (the empty message included) it panics. -/
theorem C57_encrypt (key : List U8) (ctr : U32) (nonce msg : List U8) :
    ChaChaExample.encrypt key ctr nonce msg =
      if key.length = 32 ∧ nonce.length = 12 ∧ msg ≠ [] then .ok (ChaCha.encrypt key ctr nonce msg) else panic := by
  split
  · next h => exact ChaChaExample.counterMode_ok h.1 h.2.1 h.2.2
  · next h => exact ChaChaExample.counterMode_panic h

/-- **C57.**  With counter 1 the example agrees with `chacha` of the specification crate. -/
theorem C57_agrees (key nonce msg : List U8) (hk : key.length = 32) (hn : nonce.length = 12) (hm : msg ≠ [])
    (hl : msg.length < 2 ^ 63) :
    ChaChaExample.encrypt key 1 nonce msg = Hacspec.ChaCha.chacha key nonce msg := by
  rw [C57_encrypt, if_pos ⟨hk, hn, hm⟩, C35_chacha key nonce msg hk hn hl]

/-- **C57.**  Decryption inverts encryption. -/
theorem C57_decrypt (key : List U8) (ctr : U32) (nonce msg c : List U8)
    (h : ChaChaExample.encrypt key ctr nonce msg = .ok c) :
    c.length = msg.length ∧ ChaChaExample.decrypt key ctr nonce c = .ok msg := by
  rw [C57_encrypt] at h
  split at h
  · next hc =>
    obtain ⟨hk, hn, hm⟩ := hc
    cases h
    have hl := encrypt_length (m := msg) (c := ctr) hk hn
    refine ⟨hl, ?_⟩
    have hd : ChaChaExample.decrypt key ctr nonce (ChaCha.encrypt key ctr nonce msg) =
      ChaChaExample.encrypt key ctr nonce (ChaCha.encrypt key ctr nonce msg) := rfl
    rw [hd, C57_encrypt, if_pos, encrypt_encrypt hk hn]
    refine ⟨hk, hn, fun h0 => hm ?_⟩
    rw [h0] at hl
    exact List.length_eq_zero_iff.mp hl.symm
  · simp at h

/-- Hypotheses can be met; a message of two blocks, the second incomplete. -/
example : ∃ c, ChaChaExample.encrypt (List.replicate 32 1) 7 (List.replicate 12 2) (List.replicate 100 3) = .ok c := by
  rw [C57_encrypt, if_pos (by simp)]
  exact ⟨_, rfl⟩

end Hacspec.Props
