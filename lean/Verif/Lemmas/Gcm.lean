import Verif.Lemmas.Gf128

/-! # GHASH and GCM -/

namespace Hacspec.Gf128

open SecretInt Hacspec.Seq Polynomial
open Spec.Gcm (P bitAt blockPoly polyBlock)

theorem testBit_leNat (l : List U8) (j : Nat) : (leNat l).testBit j = (l.getD (j / 8) 0).getLsbD (j % 8) := by
  induction l generalizing j with
  | nil => simp [leNat]
  | cons b l ih =>
    rw [leNat, Nat.add_comm, show (256 : Nat) = 2 ^ 8 from rfl, Nat.testBit_two_pow_mul_add _ b.isLt]
    by_cases h : j < 8
    · rw [if_pos h, show j / 8 = 0 by omega, show j % 8 = j by omega]; rfl
    · rw [if_neg h, ih, show j / 8 = (j - 8) / 8 + 1 by omega, show (j - 8) % 8 = j % 8 by omega]; rfl

theorem toPoly_wordOfBe {b : List U8} (h : b.length = 16) : toPoly (wordOfBe 128 b) = blockPoly b := by
  show sumPoly _ = sumPoly (bitAt b)
  apply sumPoly_congr
  intro i hi
  rw [wordOfBe, BitVec.getLsbD_ofNat, testBit_leNat, bitAt, decide_eq_true (show 127 - i < 128 by omega), Bool.true_and]
  rw [List.getD_eq_getElem?_getD, List.getElem?_reverse (by omega), ← List.getD_eq_getElem?_getD, h,
    show 16 - 1 - (127 - i) / 8 = i / 8 by omega, show (127 - i) % 8 = 7 - i % 8 by omega]

theorem blockPoly_pad (b : List U8) (n : Nat) : blockPoly (b ++ List.replicate n 0) = blockPoly b := by
  show sumPoly _ = sumPoly (bitAt b)
  apply sumPoly_congr
  intro i hi
  rw [bitAt, bitAt]
  congr 1
  simp only [List.getD_eq_getElem?_getD, List.getElem?_append, List.getElem?_replicate]
  by_cases h : i / 8 < b.length
  · rw [if_pos h]
  · rw [if_neg h, List.getElem?_eq_none (by omega)]
    split <;> rfl

theorem encode_ok {b : List U8} (h : b.length = 16) : encode b = .ok (wordOfBe 128 b) := by
  rw [encode, arrFromSeq_ok h, bind_ok, wordFromBeBytes_ok (by decide) (by simpa using h)]

theorem length_be (e : U128) : (beOfWord e).length = 16 := by simp [beOfWord, leOfWord]

theorem decode_ok (e : U128) : decode e = .ok (beOfWord e) := by
  rw [decode, wordToBeBytes_ok, bind_ok, arrFromSeq_ok (length_be e)]

theorem foldl_bits (c : Nat → Prop) [DecidablePred c] (n : Nat) {i : Nat} (hi : i < 8) :
    ((List.range n).foldl (fun (r : U8) j => if c j then r ||| (1#8 <<< j) else r) 0).getLsbD i =
      decide (i < n ∧ c i) := by
  induction n with
  | zero => simp
  | succ n ih =>
    rw [List.range_succ, List.foldl_append]
    simp only [List.foldl_cons, List.foldl_nil]
    by_cases hc : c n
    · rw [if_pos hc, BitVec.getLsbD_or, ih, BitVec.getLsbD_shiftLeft, BitVec.getLsbD_one]
      by_cases h1 : i < n
      · simp [h1, show i < n + 1 by omega]
      · by_cases h2 : i = n
        · subst h2; simp [hc, hi]
        · simp [h1, show ¬ i < n + 1 by omega, show ¬ i - n = 0 by omega]
    · rw [if_neg hc, ih]
      by_cases h2 : i = n
      · subst h2; simp [hc]
      · simp [show i < n + 1 ↔ i < n by omega]

theorem polyBlock_toPoly (e : U128) : polyBlock (toPoly e) = beOfWord e := by
  apply List.ext_getElem
  · rw [length_be]; simp [polyBlock]
  · intro k h1 h2
    rw [length_be] at h2
    simp only [polyBlock, List.getElem_map, List.getElem_range, beOfWord, List.getElem_reverse, leOfWord,
      List.length_map, List.length_range]
    apply BitVec.eq_of_getLsbD_eq
    intro j hj
    rw [foldl_bits _ _ hj, toPoly, coeff_sumPoly, BitVec.getLsbD_extractLsb', show (128 / 8 - 1 - k) = 15 - k from rfl,
      show 127 - (8 * k + (7 - j)) = 8 * (15 - k) + j by omega]
    cases e.getLsbD (8 * (15 - k) + j) <;> simp [hj]
    omega

theorem be_wordOfBe {b : List U8} (h : b.length = 16) : beOfWord (wordOfBe 128 b) = b := by
  exact beOfWord_wordOfBe (by decide) b h

theorem wordOfBe_be (e : U128) : wordOfBe 128 (beOfWord e) = e := by
  exact wordOfBe_beOfWord (by decide) e

theorem blockPoly_be (e : U128) : blockPoly (beOfWord e) = toPoly e := by
  rw [← toPoly_wordOfBe (length_be e), wordOfBe_be]

theorem polyBlock_blockPoly {b : List U8} (h : b.length = 16) : polyBlock (blockPoly b) = b := by
  rw [← toPoly_wordOfBe h, polyBlock_toPoly, be_wordOfBe h]

theorem toPoly_one : toPoly (1#128 <<< 127) = 1 := by
  have h : ∀ i, i < 128 → (1#128 <<< 127).getLsbD (127 - i) = decide (i = 0) := by decide +kernel
  rw [toPoly, sumPoly_congr h]
  apply Polynomial.ext
  intro j
  rw [coeff_sumPoly, coeff_one]
  by_cases hj : j = 0
  · subst hj; simp
  · simp [hj]

/-- The accumulator after `n` blocks. -/
def acc (r : U128) (m : List U8) : Nat → U128
  | 0 => 0
  | i + 1 => mulF (wordOfBe 128 (Spec.block 16 m i ++ List.replicate (16 - (Spec.block 16 m i).length) 0) ^^^ acc r m i) r

theorem update_ok' {r : U128} {b : List U8} (h : b.length = 16) (a : U128) :
    update r b a = .ok (mulF (wordOfBe 128 b ^^^ a) r) := by
  rw [update, encode_ok h, bind_ok, fmul_ok]; rfl

theorem poly_ok (m : List U8) (r : U128) : poly m r = .ok (acc r m ((m.length + 15) / 16)) := by
  rw [poly, show (0#128 : U128) = acc r m 0 from rfl, loop_eq (acc r m) (fun i hi => ?_), bind_ok]
  · rw [polyLast]
    by_cases h : m.length % 16 = 0
    · rw [if_neg (by simpa using h), show (m.length + 15) / 16 = m.length / 16 by omega]
    · have hb := ChaCha.length_block (n := 16) (i := m.length / 16) (m := m)
      rw [if_pos h, updateSub_ok (by rw [length_new]; omega) (by omega), bind_ok, List.take_zero, List.nil_append,
        Nat.zero_add]
      have e : (m.drop (m.length / 16 * 16)).take (m.length % 16) = Spec.block 16 m (m.length / 16) := by
        rw [Spec.block, Nat.mul_comm, List.take_of_length_le (by rw [List.length_drop]; omega),
          List.take_of_length_le (by rw [List.length_drop]; omega)]
      have z : (new 16 : List U8).drop (m.length % 16) =
          List.replicate (16 - (Spec.block 16 m (m.length / 16)).length) 0 := by
        rw [show (new 16 : List U8) = List.replicate 16 0 from rfl, List.drop_replicate, hb]
        congr 1; omega
      rw [e, z, update_ok' (by rw [List.length_append, List.length_replicate]; omega),
        show (m.length + 15) / 16 = m.length / 16 + 1 by omega]
      rfl
  · have hb := ChaCha.length_block (n := 16) (i := i) (m := m)
    rw [polyStep, subr, require_true (by omega), bind_ok, sub_ok (by omega), bind_ok, Nat.add_sub_cancel_left, Nat.mul_comm,
      show (m.drop (16 * i)).take 16 = Spec.block 16 m i from rfl, updateStart_new (by omega), bind_ok,
      update_ok' (by rw [List.length_append, List.length_replicate]; omega)]
    rfl

theorem φ_acc (r : U128) (m : List U8) (n : Nat) : φ (toPoly (acc r m n)) =
    ∑ i ∈ Finset.range n, φ (blockPoly (Spec.block 16 m i)) * φ (toPoly r) ^ (n - i) := by
  induction n with
  | zero => rw [acc, show (0 : U128) = 0#128 from rfl, toPoly_zero]; simp
  | succ n ih =>
    have hb := ChaCha.length_block (n := 16) (i := n) (m := m)
    rw [acc, φ_mulF, toPoly_xor, map_add, ih, toPoly_wordOfBe (by rw [List.length_append, List.length_replicate]; omega),
      blockPoly_pad, Finset.sum_range_succ, add_mul, add_comm, Finset.sum_mul]
    refine congrArg₂ (· + ·) ?_ ?_
    · apply Finset.sum_congr rfl
      intro i hi
      rw [Finset.mem_range] at hi
      rw [show n + 1 - i = (n - i) + 1 by omega, pow_succ, mul_assoc]
    · rw [show n + 1 - n = 1 by omega, pow_one]

theorem polyBlock_acc {k : List U8} (hk : k.length = 16) (m : List U8) :
    beOfWord (acc (wordOfBe 128 k) m ((m.length + 15) / 16)) = Spec.Gcm.ghash k m := by
  rw [Spec.Gcm.ghash, ← polyBlock_toPoly, ← toPoly_mod]
  refine congrArg polyBlock ?_
  apply mod_eq_of_φ
  rw [φ_acc, map_sum]
  apply Finset.sum_congr rfl
  intro i _
  rw [map_mul, map_pow, toPoly_wordOfBe hk]

theorem gmac_ok {m k : List U8} (hk : k.length = 16) : gmac m k = .ok (Spec.Gcm.ghash k m) := by
  have hz : wordOfBe 128 (new 16 : List U8) = 0#128 := by decide +kernel
  rw [gmac]
  rw [arrFromSeq_ok hk, bind_ok, encode_ok hk, bind_ok, poly_ok, bind_ok, encode_ok (length_new 16), bind_ok, hz, fadd,
    BitVec.xor_zero, decode_ok, bind_ok, arrFromSeq_ok (length_be _), polyBlock_acc hk]

theorem length_ghash {k : List U8} (m : List U8) : (Spec.Gcm.ghash k m).length = 16 := by
  simp [Spec.Gcm.ghash, polyBlock]

end Hacspec.Gf128

namespace Hacspec.AesGcm

open SecretInt Hacspec.Seq
open Spec (bytesBe64)

theorem padLen_eq (l : Nat) : padLen l = l + (16 - l % 16) % 16 := by
  rw [padLen]
  split <;> omega

theorem mul8 (n : Nat) : SecretInt.mul (BitVec.ofNat 64 n) 8#64 = BitVec.ofNat 64 (8 * n) := by
  show BitVec.ofNat 64 n * 8#64 = _
  apply BitVec.eq_of_toNat_eq
  simp [Nat.mul_comm]

theorem padAadMsg_ok (aad msg : List U8) : padAadMsg aad msg = .ok (Spec.Gcm.macData aad msg) := by
  have hz : (new (padLen aad.length + padLen msg.length + 16) : List U8) =
      [] ++ List.replicate (padLen aad.length + padLen msg.length + 16) 0 := rfl
  have h1 := padLen_eq aad.length
  have h2 := padLen_eq msg.length
  have e1 : aad ++ List.replicate (padLen aad.length + padLen msg.length + 16 - aad.length) 0 =
      (aad ++ Spec.pad16 aad) ++ List.replicate (padLen msg.length + 16) 0 := by
    rw [Spec.pad16, List.append_assoc, List.replicate_append_replicate]
    congr 2; omega
  have e2 : (aad ++ Spec.pad16 aad) ++ msg ++ List.replicate (padLen msg.length + 16 - msg.length) 0 =
      (aad ++ Spec.pad16 aad ++ msg ++ Spec.pad16 msg) ++ List.replicate 16 0 := by
    rw [Spec.pad16, Spec.pad16, List.append_assoc (aad ++ _ ++ msg), List.replicate_append_replicate]
    congr 2; omega
  have l1 : (aad ++ Spec.pad16 aad).length = padLen aad.length := by simp [Spec.pad16]; omega
  have l2 : (aad ++ Spec.pad16 aad ++ msg ++ Spec.pad16 msg).length = padLen aad.length + padLen msg.length := by
    simp [Spec.pad16]; omega
  rw [padAadMsg]
  simp only [hz]
  rw [ChaChaPoly.update_append (i := 0) rfl (by simp; omega), bind_ok, List.nil_append, List.drop_replicate, e1,
    ChaChaPoly.update_append l1 (by simp; omega), bind_ok, List.drop_replicate, e2, wordToBeBytes_ok, bind_ok, mul8,
    beOfWord64, ChaChaPoly.update_append l2 (by simp [bytesBe64]), bind_ok, wordToBeBytes_ok, bind_ok, mul8, beOfWord64,
    ChaChaPoly.update_append (by rw [List.length_append, l2]; rfl) (by simp [bytesBe64])]
  simp [Spec.Gcm.macData, bytesBe64]

end Hacspec.AesGcm
