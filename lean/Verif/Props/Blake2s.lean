import Verif.Lemmas.Blake2
import Verif.Spec.Perm

/-! # C46–C47: BLAKE2 -/

namespace Hacspec.Props

open SecretInt Spec Hacspec.Seq

/-! ## C46 -/

/-- **C46.**  `blake2b` is BLAKE2b-512 of RFC 7693 for every message whose length is not a multiple of 128. -/
theorem C46_blake2b_partial (d : List U8) (hd : d.length < 2 ^ 63) (h : d.length % 128 ≠ 0) :
    Hacspec.Blake2.blake2b d = .ok (Spec.Blake2.blake2b d) := by
  rw [Hacspec.Blake2.blake2b_ok hd, Hacspec.Blake2.final, if_neg h, Spec.Blake2.blake2b, if_neg (by omega),
    show (d.length + 127) / 128 - 1 = d.length / 128 by omega, Hacspec.Blake2.chainN_12]

/-- RFC 7693, Appendix A. -/
example : Spec.Blake2.blake2b [0x61, 0x62, 0x63] = [
    0xba, 0x80, 0xa5, 0x3f, 0x98, 0x1c, 0x4d, 0x0d, 0x6a, 0x27, 0x97, 0xb6, 0x9f, 0x12, 0xf6, 0xe9,
    0x4c, 0x21, 0x2f, 0x14, 0x68, 0x5a, 0xc4, 0xb7, 0x4b, 0x12, 0xbb, 0x6f, 0xdb, 0xff, 0xa2, 0xd1,
    0x7d, 0x87, 0xc5, 0x39, 0x2a, 0xab, 0x79, 0x2d, 0xc2, 0x52, 0xd5, 0xde, 0x45, 0x33, 0xcc, 0x95,
    0x18, 0xd3, 0x8a, 0xa8, 0xdb, 0xf1, 0x92, 0x5a, 0xb9, 0x23, 0x86, 0xed, 0xd4, 0x00, 0x99, 0x23] := by
  decide +kernel

example := C46_blake2b_partial (List.replicate 300 7) (by rw [List.length_replicate]; decide) (by rw [List.length_replicate]; decide)

/-- **C46.**  For a length that is a multiple of 128 (0 included) the code outputs the chaining value after the last block,
computed without the final block flag. -/
theorem C46_whole_blocks (d : List U8) (hd : d.length < 2 ^ 63) (h : d.length % 128 = 0) :
    Hacspec.Blake2.blake2b d = .ok ((Spec.Blake2.chain d (d.length / 128)).flatMap bytesLe64) := by
  rw [Hacspec.Blake2.blake2b_ok hd, Hacspec.Blake2.final, if_pos h, Hacspec.Blake2.chainN_12]

/-- **C46, refuted**: the empty message, and a message of one block. -/
theorem C46_blake2b_refuted :
    Hacspec.Blake2.blake2b [] ≠ .ok (Spec.Blake2.blake2b []) ∧
    Hacspec.Blake2.blake2b (List.replicate 128 0) ≠ .ok (Spec.Blake2.blake2b (List.replicate 128 0)) := by
  constructor
  · rw [C46_whole_blocks [] (by simp) rfl]; decide +kernel
  · rw [C46_whole_blocks _ (by rw [List.length_replicate]; decide) (by rw [List.length_replicate])]; decide +kernel

/-- **C46.**  `blake2b` never panics and returns 64 bytes. -/
theorem C46_total (d : List U8) (hd : d.length < 2 ^ 63) :
    ∃ t, Hacspec.Blake2.blake2b d = .ok t ∧ t.length = 64 := by
  refine ⟨_, Hacspec.Blake2.blake2b_ok hd, ?_⟩
  have := Hacspec.Blake2.length_final 12 d
  match Hacspec.Blake2.final 12 d, this with
  | [_, _, _, _, _, _, _, _], _ => rfl

/-- **C46.**  The mixing function is the one of the RFC, for all words and all distinct positions. -/
theorem C46_mix (v : List U64) (a b c d : Nat) (x y : U64) (hv : v.length = 16) (ha : a < 16) (hb : b < 16) (hc : c < 16)
    (hd : d < 16) (hab : a ≠ b) (hac : a ≠ c) (had : a ≠ d) (hbc : b ≠ c) (hbd : b ≠ d) (hcd : c ≠ d) :
    Hacspec.Blake2.mix v a b c d x y = .ok (Spec.Blake2.mix a b c d x y v) :=
  Hacspec.Blake2.mix_ok (by omega) (by omega) (by omega) (by omega) hab hac had hbc hbd hcd

example := C46_mix (List.replicate 16 3) 2 7 8 13 5 6 (by simp) (by decide) (by decide) (by decide) (by decide) (by decide)
  (by decide) (by decide) (by decide) (by decide) (by decide)

/-- **C46.**  The compression function is the RFC's (12 rounds), for every state, block, offset and flag. -/
theorem C46_compress (h : List U64) (b : List U8) (t : Nat) (last : Bool) (hh : h.length = 8) (hb : b.length = 128)
    (ht : t < 2 ^ 64) :
    Hacspec.Blake2.compress Hacspec.Blake2.ivb h b [BitVec.ofNat 64 t, 0] last .blake2b =
      .ok (Spec.Blake2.F 12 h (words64le b) t last) := Hacspec.Blake2.compress_ok hh hb ht last .blake2b

example := C46_compress (List.replicate 8 3) (List.replicate 128 4) 1000 true (by simp) (by simp) (by simp)

/-- The initialization vector consists of the fractional parts of the square roots of the first eight primes: for the
`i`-th prime `p`, with `k` the integer part, `k 2^64 + iv_i = floor (sqrt p * 2^64)`. -/
theorem C46_iv : ∀ pk ∈ [(2, 1), (3, 1), (5, 2), (7, 2), (11, 3), (13, 3), (17, 4), (19, 4)].zip Spec.Blake2.iv,
    (pk.1.2 * 2 ^ 64 + pk.2.toNat) ^ 2 ≤ pk.1.1 * 2 ^ 128 ∧ pk.1.1 * 2 ^ 128 < (pk.1.2 * 2 ^ 64 + pk.2.toNat + 1) ^ 2 := by
  decide +kernel

/-! ## C47 -/

theorem compress32_panic (h : List U32) (b : List U8) (t : List U32) (last : Bool) (alg : Hacspec.Blake2.Variant)
    (hb : b.length = 128) : Hacspec.Blake2.compress Hacspec.Blake2.ivs h b t last alg = panic := by
  rw [Hacspec.Blake2.compress, Hacspec.Blake2.makeArray, require_false (by rw [hb]; decide), bind_panic, bind_panic]

theorem blockStep32_panic {d : List U8} {h : List U32} {alg : Hacspec.Blake2.Variant} (hd : 0 < d.length) :
    Hacspec.Blake2.blockStep Hacspec.Blake2.ivs alg d 0 (h, new 2) = panic := by
  have hb := Hacspec.ChaCha.length_block (n := 128) (i := 0) (m := d)
  have hi : ∀ x : U32, ∃ t, Hacspec.Blake2.incCounter (new 2) x = .ok t := by
    intro x
    have e : (MachineInt.pubU : MachineInt.IntOps 32).add 0 x = .ok x := by
      show checkedAddU _ _ = _
      rw [checkedAddU, if_pos, show (0 : U32) + x = x from BitVec.zero_add x]
      have := x.isLt
      simpa using this
    refine ⟨[x, 0], ?_⟩
    rw [Hacspec.Blake2.incCounter, show idx (new 2 : List U32) 0 = .ok 0 from rfl, bind_ok, e, bind_ok,
      show setIdx (new 2) 0 x = .ok [x, 0] from rfl, bind_ok, Hacspec.Blake2.incHigh, if_neg]
    show ¬ decide (x.toNat < x.toNat) = true
    simp
  rw [Hacspec.Blake2.blockStep, getChunk_ok (by omega), bind_ok, Hacspec.Blake2.blockBranch]
  by_cases hl : 128 ≤ d.length
  · obtain ⟨t, ht⟩ := hi (BitVec.ofNat 32 128)
    rw [if_pos (by simp; omega), ht, bind_ok, fromSeq_ok, bind_ok, compress32_panic, bind_panic]
    rw [show (d.drop (128 * 0)).take 128 = Spec.block 128 d 0 from rfl, hb]; omega
  · obtain ⟨t, ht⟩ := hi (BitVec.ofNat 32 (min 128 (d.length - 128 * 0)))
    rw [if_neg (by simp; omega), ht, bind_ok, updateStart_new (by simp), bind_ok, compress32_panic, bind_panic]
    simp

/-- **C47, refuted**: with 32-bit words the code panics for every input, whatever the variant. -/
theorem C47_blake2s_refuted (d : List U8) (alg : Hacspec.Blake2.Variant) :
    Hacspec.Blake2.blake2 Hacspec.Blake2.ivs d alg = panic := by
  rw [Hacspec.Blake2.blake2, show idx Hacspec.Blake2.ivs 0 = .ok 0x6A09E667 from rfl, bind_ok,
    setIdx_ok (by decide), bind_ok]
  by_cases hn : d.length + 128 < 2 ^ 64
  · rw [numChunks_ok (by omega) hn, bind_ok]
    by_cases hd : d.length = 0
    · obtain rfl := List.eq_nil_of_length_eq_zero hd
      cases alg <;> decide +kernel
    · rw [loop_panic (k := 0) (by omega) (loop_zero _ _) (blockStep32_panic (by omega)), bind_panic]
  · rw [numChunks, require_false hn, bind_panic, bind_panic]

/-- **C47, refuted**: with 64-bit words and the `Blake2S` variant the code panics as well: the digest has room for 32 bytes
but 64 are written. -/
theorem C47_blake2s64_refuted (d : List U8) (hd : d.length < 2 ^ 63) :
    Hacspec.Blake2.blake2 Hacspec.Blake2.ivb d .blake2s = panic := by
  rw [Hacspec.Blake2.blake2_start hd]
  have hf := Hacspec.Blake2.length_final (Hacspec.Blake2.Variant.blake2s).rounds d
  generalize Hacspec.Blake2.final _ d = h at hf
  have h4 := loop_eq (n := 4)
    (fun k => ((List.range k).flatMap fun i => bytesLe64 (h.getD i 0)) ++ List.replicate (32 - k * 8) (0 : U8))
    (fun i hi => Hacspec.Blake2.out_step hf (by omega) (by omega))
  refine loop_panic (k := 4) (by decide) h4 (loop_panic (k := 0) (by decide) (loop_zero _ _) ?_)
  rw [idx_getD 0 (by omega), bind_ok, Hacspec.Blake2.getByte_ok _ (by decide), bind_ok, setIdx_panic]
  rw [List.length_append, Hacspec.Blake2.length_flatMap64]
  simp

end Hacspec.Props
