import Verif.Lemmas.Sha2

/-! # C31, C32: SHA-256 -/

namespace Hacspec.Props

open SecretInt Spec

/-- **C31 (partial).**  On every message whose length in bytes is not a multiple of 64 (and below the FIPS limit of
`2^61` bytes) the code computes SHA-256 as FIPS 180-4 defines it.
Full statement: the same for *every* message below the limit; it is refuted by `C31_sha256_refuted`. -/
theorem C31_sha256_partial (m : List U8) (h : m.length % 64 ≠ 0) (hn : m.length < 2 ^ 61) :
    Sha2.hash m = .ok (Sha256.sha256 m) := Sha2.hash_partial_block h hn

example : Sha2.hash [0x61, 0x62, 0x63] = .ok (Sha256.sha256 [0x61, 0x62, 0x63]) :=
  C31_sha256_partial _ (by decide) (by decide)

/-- The specification gives the published value for `"abc"` (FIPS 180-4 example). -/
example : Sha256.sha256 [0x61, 0x62, 0x63] =
    [0xba, 0x78, 0x16, 0xbf, 0x8f, 0x01, 0xcf, 0xea, 0x41, 0x41, 0x40, 0xde, 0x5d, 0xae, 0x22, 0x23,
     0xb0, 0x03, 0x61, 0xa3, 0x96, 0x17, 0x7a, 0x9c, 0xb4, 0x10, 0xff, 0x61, 0xf2, 0x00, 0x15, 0xad] := by
  decide +kernel

/-- What the code computes on the remaining messages: the blocks are iterated without any padding. -/
theorem C31_whole_blocks (m : List U8) (h : m.length % 64 = 0) (hn : m.length < 2 ^ 63) :
    Sha2.hash m = .ok (Sha256.digest (Sha256.iterate Sha256.initial m)) := Sha2.hash_blocks h hn

example : Sha2.hash (List.replicate 64 0) =
    .ok (Sha256.digest (Sha256.compress Sha256.initial (List.replicate 64 0))) := by
  rw [C31_whole_blocks _ (by decide) (by decide), Sha2.iterate_one _ (by decide)]

/-- **C31 refuted** on the empty message and on a message of one full block. -/
theorem C31_sha256_refuted :
    Sha2.hash [] ≠ .ok (Sha256.sha256 []) ∧
    Sha2.hash (List.replicate 64 0) ≠ .ok (Sha256.sha256 (List.replicate 64 0)) := by
  constructor
  · rw [C31_whole_blocks [] (by decide) (by decide)]; decide +kernel
  · rw [C31_whole_blocks _ (by decide) (by decide)]; decide +kernel

/-- The empty message is mapped to the initial hash value of FIPS 180-4 §5.3.3. -/
theorem C31_empty : Sha2.hash [] = .ok (Sha256.digest Sha256.initial) :=
  C31_whole_blocks [] (by decide) (by decide)

/-- Beyond the FIPS limit the code panics (`msg.len() * 8` overflows) instead of wrapping. -/
theorem C31_too_long (m : List U8) (h : m.length % 64 ≠ 0) (hn : 2 ^ 61 ≤ m.length) (hu : m.length < 2 ^ 63) :
    Sha2.hash m = panic := Sha2.hash_too_long h hn hu

example : ∃ m : List U8, m.length % 64 ≠ 0 ∧ 2 ^ 61 ≤ m.length ∧ m.length < 2 ^ 63 :=
  ⟨List.replicate (2 ^ 61 + 1) 0, by rw [List.length_replicate]; decide, by rw [List.length_replicate]; decide,
    by rw [List.length_replicate]; decide⟩

/-- **C32 refuted**: every message that is not a whole number of blocks has the same digest as its padded form, a
different message. -/
theorem C32_collision_refuted (m : List U8) (h : m.length % 64 ≠ 0) (hn : m.length < 2 ^ 61) :
    Sha256.pad m ≠ m ∧ ∃ d, Sha2.hash m = .ok d ∧ Sha2.hash (Sha256.pad m) = .ok d := by
  refine ⟨fun e => ?_, _, C31_sha256_partial m h hn, ?_⟩
  · have := Sha2.length_pad m
    rw [e] at this; exact h this
  · rw [C31_whole_blocks _ (Sha2.length_pad m)]
    · rfl
    · simp only [Sha256.pad, bytesBe64, List.length_append, List.length_cons, List.length_nil, List.length_replicate]
      omega

example : ∃ d, Sha2.hash [0x61] = .ok d ∧
    Sha2.hash ([0x61, 0x80] ++ List.replicate 61 0 ++ [8]) = .ok d :=
  (C32_collision_refuted [0x61] (by decide) (by decide)).2

/-- **C32 (partial).**  The padding that the standard prescribes, and that the code applies to messages that are not
whole numbers of blocks, is injective.
Full statement: the function from messages to the sequence of blocks that the code feeds to the compression function is
injective; refuted by `C32_collision_refuted`. -/
theorem C32_pad_injective_partial (m n : List U8) (hm : m.length < 2 ^ 61) (hn : n.length < 2 ^ 61)
    (h : Sha256.pad m = Sha256.pad n) : m = n := by
  have hl : bytesBe64 (BitVec.ofNat 64 (8 * m.length)) = bytesBe64 (BitVec.ofNat 64 (8 * n.length)) :=
    (List.append_inj' h rfl).2
  have hlen : m.length = n.length := by
    have e := congrArg (fun l => leNat l.reverse) hl
    simp only [← beOfWord64] at e
    have hx : ∀ x : U64, leNat (beOfWord x).reverse = x.toNat := by
      intro x
      simp only [beOfWord64, bytesBe64, List.reverse_cons, List.reverse_nil, List.nil_append, List.cons_append,
        leNat, BitVec.extractLsb'_toNat, Nat.shiftRight_eq_div_pow]
      have := x.isLt
      omega
    rw [hx, hx, BitVec.toNat_ofNat, BitVec.toNat_ofNat] at e
    omega
  have := congrArg (List.take m.length) h
  rw [Sha256.pad, Sha256.pad, List.append_assoc, List.append_assoc, List.take_left, hlen, List.append_assoc,
    List.append_assoc, List.take_left] at this
  exact this

example : Sha256.pad [1] ≠ Sha256.pad [1, 0x80] := fun h => by
  have := C32_pad_injective_partial [1] [1, 0x80] (by decide) (by decide) h
  simp at this

end Hacspec.Props
