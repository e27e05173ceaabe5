import Verif.Lemmas.ChaCha
import Verif.Lemmas.AbstractInt

/-! # Poly1305 and the AEAD construction -/

namespace Hacspec.Spec

open SecretInt

theorem leNat_eq_leVal (l : List U8) : leNat l = leVal l := by
  induction l with
  | nil => rfl
  | cons b l ih => rw [leNat, leVal, ih]

theorem leVal_append (a b : List U8) : leVal (a ++ b) = leVal a + 256 ^ a.length * leVal b := by
  rw [← leNat_eq_leVal, ← leNat_eq_leVal, ← leNat_eq_leVal, AbstractInt.leNat_append]

theorem leVal_zeros (k : Nat) : leVal (List.replicate k 0) = 0 := by
  rw [← leNat_eq_leVal]; exact AbstractInt.leNat_replicate_zero k

theorem leVal_lt (l : List U8) : leVal l < 256 ^ l.length := by
  induction l with
  | nil => decide
  | cons b l ih =>
    have := b.isLt
    rw [leVal, List.length_cons, Nat.pow_succ]; omega

theorem leBytes_eq (n x : Nat) : leBytes n x = (List.range n).map fun i => BitVec.ofNat 8 (x / 256 ^ i) := by
  induction n generalizing x with
  | zero => rfl
  | succ n ih =>
    rw [leBytes, ih, List.range_succ_eq_map, List.map_cons, List.map_map]
    congr 1
    · simp
    · apply List.map_congr_left
      intro i _
      simp only [Function.comp_apply, Nat.succ_eq_add_one, Nat.pow_succ', Nat.div_div_eq_div_mul]

theorem length_leBytes (n x : Nat) : (leBytes n x).length = n := by simp [leBytes_eq]

theorem leVal_leBytes (n x : Nat) : leVal (leBytes n x) = x % 256 ^ n := by
  induction n generalizing x with
  | zero => simp [leBytes, leVal, Nat.mod_one]
  | succ n ih =>
    rw [leBytes, leVal, ih, BitVec.toNat_ofNat, Nat.pow_succ' (n := n), Nat.mod_mul (a := 256)]

theorem leBytes_mod (n x : Nat) : leBytes n (x % 256 ^ n) = leBytes n x := by
  rw [leBytes_eq, leBytes_eq]
  apply List.map_congr_left
  intro i hi
  rw [List.mem_range] at hi
  apply BitVec.eq_of_toNat_eq
  rw [BitVec.toNat_ofNat, BitVec.toNat_ofNat]
  have : 256 ^ n = 256 ^ i * 256 ^ (n - i) := by rw [← Nat.pow_add]; congr 1; omega
  rw [this, Nat.mod_mul_right_div_self]
  apply Nat.mod_mod_of_dvd
  obtain ⟨k, hk⟩ : ∃ k, n - i = k + 1 := ⟨n - i - 1, by omega⟩
  rw [hk, Nat.pow_succ]
  exact Nat.dvd_mul_left _ _

theorem leBytes_inj {n x y : Nat} (h : leBytes n x = leBytes n y) : x % 256 ^ n = y % 256 ^ n := by
  have := congrArg leVal h
  rwa [leVal_leBytes, leVal_leBytes] at this

end Hacspec.Spec

namespace Hacspec.Poly1305

open SecretInt Hacspec.Seq Spec NatMod
open Hacspec.ChaCha (arrFromSubRange_ok length_block)

theorem T_WF : T.WF := by decide +kernel
theorem T_n : T.n = Poly1305.p := by decide +kernel

theorem wordFromLeBytes128 {b : List U8} (h : b.length = 16) :
    wordFromLeBytes 128 b = .ok (BitVec.ofNat 128 (leVal b)) := by
  rw [wordFromLeBytes_ok (by decide) (by simpa using h), wordOfLe, leNat_eq_leVal]

theorem toNat_leVal {b : List U8} (h : b.length ≤ 16) : (BitVec.ofNat 128 (leVal b)).toNat = leVal b := by
  have := leVal_lt b
  rw [BitVec.toNat_ofNat, Nat.mod_eq_of_lt]
  exact Nat.lt_of_lt_of_le this (by
    rw [show 2 ^ 128 = 256 ^ 16 by decide]; exact Nat.pow_le_pow_right (by decide) h)

theorem p128 : 2 ^ 128 ≤ T.n := by decide +kernel

theorem fromLiteral_ok (x : BitVec 128) : fromLiteral T x = .ok (T.enc x.toNat) :=
  fromLiteral_enc T_WF x (by have := p128; have := x.isLt; omega)

theorem encode_ok {b : List U8} (h : b.length ≤ 16) :
    encode b = .ok (T.enc (leVal (b ++ [1]) % Poly1305.p)) := by
  have hb : min 16 b.length = b.length := by omega
  rw [encode, hb, updateSub_ok (by rw [length_new]; omega) (by omega), bind_ok]
  simp only [List.take_zero, List.nil_append, List.drop_zero, Nat.zero_add, List.take_length]
  rw [show List.drop b.length (new 16) = List.replicate (16 - b.length) (0 : U8) by rw [new, List.drop_replicate]; rfl]
  rw [wordFromLeBytes128 (by simp; omega), bind_ok, leVal_append, leVal_zeros, Nat.mul_zero, Nat.add_zero,
    fromLiteral_ok, bind_ok, toNat_leVal h, AbstractInt.pow2]
  have hp : (2 : Int) ^ (8 * b.length) = ((2 ^ (8 * b.length) : Nat) : Int) := by
    rw [AbstractInt.cast_two_pow]
  have hle : 2 ^ (8 * b.length) ≤ 2 ^ 128 := Nat.pow_le_pow_right (by decide) (by omega)
  rw [hp, AbstractInt.fromBig_ok (inRange_nat (Nat.lt_of_le_of_lt (Nat.succ_le_succ hle) (by decide +kernel))), bind_ok]
  have := fromCanvas_enc T_WF (2 ^ (8 * b.length))
  rw [show AbstractInt.enc 272 = AbstractInt.enc T.bits from rfl, this, bind_ok]
  have := add_enc T_WF (leVal b) (2 ^ (8 * b.length) % T.n)
  rw [show AbstractInt.enc T.bits (((2 ^ (8 * b.length) % T.n : Nat)) : Int) = T.enc (2 ^ (8 * b.length) % T.n) from rfl,
    this, leVal_append, T_n, Nat.add_mod_mod, Nat.pow_mul]
  simp [leVal]

theorem encodeR_ok {b : List U8} (h : b.length = 16) :
    encodeR b = .ok (T.enc (leVal b &&& 0x0ffffffc0ffffffc0ffffffc0fffffff)) := by
  rw [encodeR, updateSub_ok (by rw [length_new]; omega) (by omega), bind_ok]
  simp only [List.take_zero, List.nil_append, List.drop_zero, Nat.zero_add, ← h, List.take_length]
  rw [List.drop_of_length_le (by rw [length_new]; omega), List.append_nil, wordFromLeBytes128 h, bind_ok,
    fromLiteral_ok, BitVec.toNat_and, toNat_leVal (by omega)]
  rfl

theorem polyStep_ok {m : List U8} {r a k : Nat} (hk : 16 * k ≤ m.length) :
    polyStep m (T.enc r) k (T.enc a) =
      .ok (T.enc ((a + leVal (Spec.block 16 m k ++ [1])) * r % Poly1305.p)) := by
  have hl := length_block (n := 16) (i := k) (m := m)
  rw [polyStep, updateSub_ok (by rw [length_new]; omega) (by omega), bind_ok]
  simp only [List.take_zero, List.nil_append, Nat.zero_add]
  rw [List.drop_of_length_le (l := new _) (by rw [length_new]; omega), List.append_nil]
  have : (m.drop (16 * k)).take (min 16 (m.length - 16 * k)) = Spec.block 16 m k := by
    rw [Spec.block]
    by_cases hc : 16 ≤ m.length - 16 * k
    · rw [Nat.min_eq_left hc]
    · rw [Nat.min_eq_right (by omega), List.take_of_length_le (by simp), List.take_of_length_le (by simp; omega)]
  rw [this, encode_ok (by omega), bind_ok, add_enc T_WF, bind_ok, mul_enc T_WF, T_n, Nat.add_mod_mod, Nat.mod_mul_mod]

theorem polyInner_ok {m : List U8} {r : Nat} :
    polyInner m (T.enc r) = .ok (T.enc (Poly1305.acc r m)) := by
  rw [polyInner, fromLiteral_ok, bind_ok]
  exact loop_foldl T.enc (fun i a => (a + leVal (Spec.block 16 m i ++ [1])) * r % Poly1305.p) 0
    (fun i hi a => polyStep_ok (by omega))

theorem tagLoop_ok (n : Nat) :
    loop (min 16 (AbstractInt.bytesLe n).length) (fun i tag => do
      let x ← idx (AbstractInt.bytesLe n) i
      setIdx tag i x) (new 16) = .ok (leBytes 16 n) := by
  have hlog := AbstractInt.lt_pow_log2 n
  have hlen := AbstractInt.length_bytesLe n
  rw [fill_loop (o := 0) (fun i => (AbstractInt.bytesLe n).getD i 0)]
  · congr 1
    simp only [List.take_zero, List.nil_append, Nat.zero_add, leBytes_eq]
    apply ChaCha.ext_getD 0
    · simp [new]; omega
    · intro j hj
      have hj16 : j < 16 := by simp [new] at hj; omega
      by_cases h : j < min 16 (AbstractInt.bytesLe n).length
      · rw [getD_append_lt (by simpa using h)]
        simp only [List.getD_eq_getElem?_getD]
        rw [List.getElem?_map, List.getElem?_range h, List.getElem?_map, List.getElem?_range hj16]
        simp only [AbstractInt.bytesLe, List.getElem?_map, Option.map_some]
        rw [List.getElem?_range (by omega)]; rfl
      · have hb : (AbstractInt.bytesLe n).length ≤ j := by omega
        rw [List.getD_eq_getElem?_getD, List.getElem?_append_right (by simp; omega), new, List.drop_replicate,
          List.getD_eq_getElem?_getD, List.getElem?_map, List.getElem?_range hj16]
        have : n / 256 ^ j = 0 := Nat.div_eq_of_lt (Nat.lt_of_lt_of_le hlog (Nat.pow_le_pow_right (by decide) (by omega)))
        simp only [Option.map_some, this, List.getElem?_replicate]
        split <;> rfl
  · intro i hi t ht
    rw [idx_getD 0 (by omega), bind_ok, Nat.zero_add, setIdx_ok (by omega)]
  · rw [length_new]; omega

/-- Exactly what `poly` computes: the sum is reduced modulo `2^130 - 5` before it is truncated. -/
theorem poly_ok {m key : List U8} (hk : key.length = 32) :
    poly m key = .ok (leBytes 16 ((Poly1305.acc (Poly1305.clampR key) m + Poly1305.keyS key) % Poly1305.p)) := by
  rw [poly, arrFromSub, require_true (by omega), bind_ok, updateSub_ok (by rw [length_new]; omega) (by omega)]
  simp only [bind_ok, List.take_zero, List.nil_append, Nat.zero_add]
  rw [List.drop_of_length_le (l := new 16) (by rw [length_new]; omega), List.append_nil,
    wordFromLeBytes128 (by simp; omega), bind_ok, fromLiteral_ok, bind_ok, toNat_leVal (by simp; omega),
    arrFromSubRange_ok (by omega) (by omega) (by omega), bind_ok, List.drop_zero, encodeR_ok (by simp; omega), bind_ok,
    polyInner_ok, bind_ok, add_enc T_WF, bind_ok, toLeBytes_enc, tagLoop_ok, T_n]
  rfl

theorem length_mac (key m : List U8) : (Poly1305.mac key m).length = 16 := length_leBytes _ _

end Hacspec.Poly1305

namespace Hacspec.ChaChaPoly

open SecretInt Hacspec.Seq Spec

theorem padLen_eq (l : Nat) : padLen l = l + (16 - l % 16) % 16 := by
  rw [padLen, Nat.shiftRight_eq_div_pow]
  split <;> omega

theorem update_append {a z v : List U8} {i : Nat} (ha : a.length = i) (h : v.length ≤ z.length) :
    update (a ++ z) i v = .ok (a ++ v ++ z.drop v.length) := by
  rw [update_ok (by simp; omega), List.take_left' ha, ← List.drop_drop, List.drop_left' ha]

theorem padAadMsg_ok (aad msg : List U8) : padAadMsg aad msg = .ok (Poly1305.macData aad msg) := by
  have hz : (new (padLen aad.length + padLen msg.length + 16) : List U8) =
      [] ++ List.replicate (padLen aad.length + padLen msg.length + 16) 0 := rfl
  have h1 := padLen_eq aad.length
  have h2 := padLen_eq msg.length
  rw [padAadMsg, hz, update_append (a := []) (i := 0) rfl (by simp; omega), bind_ok, List.drop_replicate, List.nil_append]
  have e1 : List.replicate (padLen aad.length + padLen msg.length + 16 - aad.length) (0 : U8) =
      pad16 aad ++ List.replicate (padLen msg.length + 16) 0 := by
    rw [pad16, List.replicate_append_replicate]; congr 1; omega
  rw [e1, ← List.append_assoc, update_append (by simp [pad16]; omega) (by simp; omega), bind_ok, List.drop_replicate]
  have e2 : List.replicate (padLen msg.length + 16 - msg.length) (0 : U8) =
      pad16 msg ++ List.replicate 16 0 := by
    rw [pad16, List.replicate_append_replicate]; congr 1; omega
  rw [e2, ← List.append_assoc, wordToLeBytes_ok, bind_ok, leOfWord64,
    update_append (by simp [pad16]; omega) (by simp [bytesLe64]), bind_ok, wordToLeBytes_ok, bind_ok, leOfWord64,
    update_append (by simp [pad16, bytesLe64]; omega) (by simp [bytesLe64])]
  rw [Poly1305.macData]
  simp [bytesLe64]

end Hacspec.ChaChaPoly
