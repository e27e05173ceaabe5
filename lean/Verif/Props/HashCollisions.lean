import Verif.Lemmas.Calls
import Verif.Props.HashStructure

/-! # C80: collisions of the hash functions are collisions of their compression functions -/

namespace Hacspec.Props

open SecretInt Spec Hacspec.Seq HashStructure

/-! ## SHA-256 -/

/-- The blocks that `sha256::hash` feeds to `compress`: those of the message if its last block is full, otherwise those of
the padded message. -/
def shaBlocks (m : List U8) : List (List U8) := fullBlocks 64 (if m.length % 64 = 0 then m else Sha256.pad m)

/-- The inputs at which `sha256::hash` calls `compress` for a message. -/
def shaCalls (m : List U8) : List (List U8 × List U32) := callsFrom Sha2.compress Sha2.initial (shaBlocks m)

theorem sha_chain (v : Sha256.Vars) (m : List U8) (k : Nat) (hk : 64 * k ≤ m.length) :
    chained Sha2.compress (Sha2.enc v) ((List.range k).map fun i => (m.drop (64 * i)).take 64) =
      .ok (Sha2.enc ((List.range k).foldl (fun s i => Sha256.compress s (block 64 m i)) v)) := by
  induction k with
  | zero => rfl
  | succ k ih =>
    have hb : ((m.drop (64 * k)).take 64).length = 64 := by simp; omega
    rw [List.range_succ, List.map_append, List.foldl_append, chained_append, ih (by omega), bind_ok, List.map_singleton,
      chained, Sha2.compress_ok hb, bind_ok]
    rfl

theorem sha_chain_iterate (m : List U8) :
    chained Sha2.compress Sha2.initial (fullBlocks 64 m) = .ok (Sha2.enc (Sha256.iterate Sha256.initial m)) := by
  rw [Sha2.initial_eq, fullBlocks, sha_chain _ _ _ (by omega)]
  rfl

/-- **C80.**  `shaBlocks` are the blocks of the computation: `sha256::hash` is `compress` iterated over them from the initial
value, followed by the conversion to bytes. -/
theorem C80_sha256_chain (m : List U8) (hm : m.length < 2 ^ 61) :
    Sha2.hash m = (do
      let s ← chained Sha2.compress Sha2.initial (shaBlocks m)
      let d ← Hacspec.Seq.arrToBeBytes 8 s
      arrFromSeq 32 d) := by
  rw [shaBlocks, sha_chain_iterate, bind_ok, Sha2.digest_ok]
  by_cases h : m.length % 64 = 0
  · rw [if_pos h, Sha2.hash_blocks h (by omega)]
  · rw [if_neg h, Sha2.hash_partial_block h hm, Sha256.sha256]

theorem sha_final {m m' : List U8} (hm : m.length < 2 ^ 61) (hm' : m'.length < 2 ^ 61) (h : Sha2.hash m = Sha2.hash m') :
    ∃ s, chained Sha2.compress Sha2.initial (shaBlocks m) = .ok s ∧
      chained Sha2.compress Sha2.initial (shaBlocks m') = .ok s := by
  have e : ∀ m : List U8, m.length < 2 ^ 61 →
      Sha2.hash m = .ok (Sha256.digest (Sha256.iterate Sha256.initial (if m.length % 64 = 0 then m else Sha256.pad m))) := by
    intro m hm
    rw [C80_sha256_chain m hm, shaBlocks, sha_chain_iterate, bind_ok, Sha2.digest_ok]
  rw [e m hm, e m' hm'] at h
  injection h with h
  have := congrArg varsOf h
  rw [varsOf_digest, varsOf_digest] at this
  exact ⟨_, by rw [shaBlocks, sha_chain_iterate], by rw [shaBlocks, sha_chain_iterate, this]⟩

theorem shaBlocks_eq {m m' : List U8} (h : shaBlocks m = shaBlocks m') :
    (if m.length % 64 = 0 then m else Sha256.pad m) = if m'.length % 64 = 0 then m' else Sha256.pad m' := by
  have hl : ∀ m : List U8, (if m.length % 64 = 0 then m else Sha256.pad m).length % 64 = 0 := by
    intro m
    split
    · assumption
    · exact Sha2.length_pad m
  have := congrArg List.flatten h
  rwa [shaBlocks, shaBlocks, flatten_fullBlocks _ _ (hl m), flatten_fullBlocks _ _ (hl m')] at this

/-- **C80.**  All collisions of `sha256::hash`: one message is the padding of the other, or the two computations call
`compress` at different inputs with the same result, or one of them calls it with the initial value as result. -/
theorem C80_sha256 (m m' : List U8) (hm : m.length < 2 ^ 61) (hm' : m'.length < 2 ^ 61) (hne : m ≠ m')
    (h : Sha2.hash m = Sha2.hash m') :
    (m.length % 64 ≠ 0 ∧ m' = Sha256.pad m) ∨ (m'.length % 64 ≠ 0 ∧ m = Sha256.pad m') ∨
      Collide Sha2.compress (shaCalls m) (shaCalls m') ∨
      Reaches Sha2.compress Sha2.initial (shaCalls m) ∨ Reaches Sha2.compress Sha2.initial (shaCalls m') := by
  obtain ⟨s, h1, h2⟩ := sha_final hm hm' h
  rcases collide_or _ _ h1 h2 with e | hc | ⟨-, hr⟩
  · have e := shaBlocks_eq e
    by_cases c : m.length % 64 = 0 <;> by_cases c' : m'.length % 64 = 0
    · rw [if_pos c, if_pos c'] at e; exact absurd e hne
    · rw [if_pos c, if_neg c'] at e; exact .inr (.inl ⟨c', e⟩)
    · rw [if_neg c, if_pos c'] at e; exact .inl ⟨c, e.symm⟩
    · rw [if_neg c, if_neg c'] at e; exact absurd (C32_pad_injective_partial m m' hm hm' e) hne
  · exact .inr (.inr (.inl hc))
  · exact .inr (.inr (.inr hr))

/-- The last eight bytes of a padded message. -/
theorem shaBlocks_last {m : List U8} (h : m.length % 64 ≠ 0) :
    ∃ as b, shaBlocks m = as ++ [b] ∧ b.drop 56 = bytesBe64 (BitVec.ofNat 64 (8 * m.length)) := by
  have hl := Sha2.length_pad m
  have h0 : 64 ≤ (Sha256.pad m).length := by
    simp only [Sha256.pad, bytesBe64, List.length_append, List.length_cons, List.length_nil, List.length_replicate] at hl ⊢
    omega
  obtain ⟨k, hk⟩ : ∃ k, (Sha256.pad m).length = 64 * (k + 1) := ⟨(Sha256.pad m).length / 64 - 1, by omega⟩
  refine ⟨(List.range k).map fun i => ((Sha256.pad m).drop (64 * i)).take 64, ((Sha256.pad m).drop (64 * k)).take 64, ?_, ?_⟩
  · rw [shaBlocks, if_neg h, fullBlocks, hk, Nat.mul_div_cancel_left _ (by decide), List.range_succ, List.map_append]
    rfl
  · rw [List.take_of_length_le (by rw [List.length_drop]; omega), List.drop_drop, Sha256.pad, List.drop_left']
    rw [Sha256.pad, List.length_append, show (bytesBe64 (BitVec.ofNat 64 (8 * m.length))).length = 8 from rfl] at hk
    omega

theorem shaLength_inj {x y : U64} (h : bytesBe64 x = bytesBe64 y) : x = y := by
  simp only [bytesBe64, List.cons.injEq, and_true] at h
  obtain ⟨h0, h1, h2, h3, h4, h5, h6, h7⟩ := h
  apply BitVec.eq_of_toNat_eq
  have e : ∀ {k : Nat}, x.extractLsb' k 8 = y.extractLsb' k 8 → x.toNat / 2 ^ k % 256 = y.toNat / 2 ^ k % 256 := by
    intro k hk
    have := congrArg BitVec.toNat hk
    simpa [BitVec.extractLsb'_toNat, Nat.shiftRight_eq_div_pow] using this
  have h0 := e h0; have h1 := e h1; have h2 := e h2; have h3 := e h3
  have h4 := e h4; have h5 := e h5; have h6 := e h6; have h7 := e h7
  have := x.isLt; have := y.isLt
  omega

/-- **C80.**  Messages whose last block is not full (where the code is SHA-256): every collision is a collision of
`compress`, found in the two computations. -/
theorem C80_sha256_padded (m m' : List U8) (hm : m.length < 2 ^ 61) (hm' : m'.length < 2 ^ 61) (h64 : m.length % 64 ≠ 0)
    (h64' : m'.length % 64 ≠ 0) (hne : m ≠ m') (h : Sha2.hash m = Sha2.hash m') :
    Collide Sha2.compress (shaCalls m) (shaCalls m') := by
  obtain ⟨s, h1, h2⟩ := sha_final hm hm' h
  by_cases hl : m.length = m'.length
  · rcases collide_or _ _ h1 h2 with e | hc | ⟨hr, -⟩
    · have e := shaBlocks_eq e
      rw [if_neg h64, if_neg h64'] at e
      exact absurd (C32_pad_injective_partial m m' hm hm' e) hne
    · exact hc
    · refine absurd ?_ hr
      rw [shaBlocks, shaBlocks, if_neg h64, if_neg h64', length_fullBlocks, length_fullBlocks, Sha256.pad, Sha256.pad]
      simp [hl, bytesBe64]
  · obtain ⟨as, b, e, hb⟩ := shaBlocks_last h64
    obtain ⟨as', b', e', hb'⟩ := shaBlocks_last h64'
    rw [shaCalls, shaCalls, e, e']
    rw [e] at h1
    rw [e'] at h2
    refine collide_last h1 h2 fun ebb => hl ?_
    rw [ebb, hb'] at hb
    have := congrArg BitVec.toNat (shaLength_inj hb)
    simp only [BitVec.toNat_ofNat] at this
    omega

/-- **C80.**  Messages of one length, whatever it is: every collision is a collision of `compress`. -/
theorem C80_sha256_same_length (m m' : List U8) (hm : m.length < 2 ^ 61) (hl : m.length = m'.length) (hne : m ≠ m')
    (h : Sha2.hash m = Sha2.hash m') : Collide Sha2.compress (shaCalls m) (shaCalls m') := by
  by_cases h64 : m.length % 64 = 0
  · obtain ⟨s, h1, h2⟩ := sha_final hm (by omega) h
    rcases collide_or _ _ h1 h2 with e | hc | ⟨hr, -⟩
    · have e := shaBlocks_eq e
      rw [if_pos h64, if_pos (by omega)] at e
      exact absurd e hne
    · exact hc
    · refine absurd ?_ hr
      rw [shaBlocks, shaBlocks, if_pos h64, if_pos (by omega), length_fullBlocks, length_fullBlocks, hl]
  · exact C80_sha256_padded m m' hm (by omega) h64 (by omega) hne h

/-- The hypotheses can be met: the messages `[0]` and `[1]` are told apart, or `compress` has been called at
two different inputs with one result. -/
example : Sha2.hash [0] ≠ Sha2.hash [1] ∨ Collide Sha2.compress (shaCalls [0]) (shaCalls [1]) := by
  by_cases h : Sha2.hash [0] = Sha2.hash [1]
  · exact .inr (C80_sha256_same_length _ _ (by decide) rfl (by decide) h)
  · exact .inl h

/-- **C80, refuted** in general: the first alternative of `C80_sha256` occurs, without a collision of `compress`. -/
theorem C80_sha256_refuted : ∃ m m' : List U8, m ≠ m' ∧ Sha2.hash m = Sha2.hash m' ∧ (∃ d, Sha2.hash m = .ok d) ∧
    ¬ Collide Sha2.compress (shaCalls m) (shaCalls m') := by
  obtain ⟨d, h1, h2⟩ := (C32_collision_refuted [1] (by decide) (by decide)).2
  refine ⟨[1], Sha256.pad [1], by decide, by rw [h1, h2], ⟨d, h1⟩, ?_⟩
  have e : shaBlocks (Sha256.pad [1]) = shaBlocks [1] := by decide
  have e' : shaBlocks [1] = [Sha256.pad [1]] := by decide
  have c : shaCalls [1] = [(Sha256.pad [1], Sha2.initial)] := by
    rw [shaCalls, e', callsFrom]
    split <;> rfl
  have c' : shaCalls (Sha256.pad [1]) = [(Sha256.pad [1], Sha2.initial)] := by
    rw [shaCalls, e, e', callsFrom]
    split <;> rfl
  rw [c, c']
  rintro ⟨x, hx, y, hy, hne, -⟩
  rw [List.mem_singleton] at hx hy
  exact hne (hx.trans hy.symm)

/-! ## HMAC -/

/-- **C80.**  A collision of `hmac` under one key is a collision of `compress` in the inner or in the outer hash: for messages
of one length, or whose last blocks are not full. -/
theorem C80_hmac (k m m' : List U8) (hk : k.length < 2 ^ 61) (hm : 64 + m.length < 2 ^ 61) (hm' : 64 + m'.length < 2 ^ 61)
    (hl : m.length = m'.length ∨ (m.length % 64 ≠ 0 ∧ m'.length % 64 ≠ 0)) (hne : m ≠ m')
    (h : Hmac.hmac k m = Hmac.hmac k m') :
    ∃ b d d', Hmac.keyBlock k = .ok b ∧ b.length = 64 ∧
      Sha2.hash (b.map (· ^^^ 0x36#8) ++ m) = .ok d ∧ Sha2.hash (b.map (· ^^^ 0x36#8) ++ m') = .ok d' ∧
      (Collide Sha2.compress (shaCalls (b.map (· ^^^ 0x36#8) ++ m)) (shaCalls (b.map (· ^^^ 0x36#8) ++ m')) ∨
        Collide Sha2.compress (shaCalls (b.map (· ^^^ 0x5c#8) ++ d)) (shaCalls (b.map (· ^^^ 0x5c#8) ++ d'))) := by
  have hb := Hmac.length_hmacKey usedHash_hash hk
  have h1 : ∀ m : List U8, 64 + m.length < 2 ^ 61 → (((hmacKey usedHash k).map (· ^^^ 0x36#8)) ++ m).length < 2 ^ 61 := by
    intro m hm; rw [List.length_append, List.length_map, hb]; exact hm
  refine ⟨_, _, _, Hmac.keyBlock_ok usedHash_hash hk, hb, usedHash_hash.hash _ (h1 m hm), usedHash_hash.hash _ (h1 m' hm'), ?_⟩
  rw [Hmac.hmac_ok usedHash_hash hk hm, Hmac.hmac_ok usedHash_hash hk hm'] at h
  injection h with h
  rw [Spec.hmac, Spec.hmac] at h
  have hne' : (hmacKey usedHash k).map (· ^^^ 0x36#8) ++ m ≠ (hmacKey usedHash k).map (· ^^^ 0x36#8) ++ m' :=
    fun e => hne (List.append_cancel_left e)
  have l1 := usedHash_hash.length (h1 m hm)
  have l2 := usedHash_hash.length (h1 m' hm')
  by_cases e : usedHash ((hmacKey usedHash k).map (· ^^^ 0x36#8) ++ m) = usedHash ((hmacKey usedHash k).map (· ^^^ 0x36#8) ++ m')
  · left
    have e' : Sha2.hash ((hmacKey usedHash k).map (· ^^^ 0x36#8) ++ m) =
        Sha2.hash ((hmacKey usedHash k).map (· ^^^ 0x36#8) ++ m') := by
      rw [usedHash_hash.hash _ (h1 m hm), usedHash_hash.hash _ (h1 m' hm'), e]
    rcases hl with hl | ⟨hl, hl'⟩
    · exact C80_sha256_same_length _ _ (h1 m hm) (by simp [hl]) hne' e'
    · exact C80_sha256_padded _ _ (h1 m hm) (h1 m' hm') (by rw [List.length_append, List.length_map, hb]; omega)
        (by rw [List.length_append, List.length_map, hb]; omega) hne' e'
  · right
    refine C80_sha256_same_length _ _ (by rw [List.length_append, List.length_map, hb, l1]; decide)
      (by rw [List.length_append, List.length_append, l1, l2]) (fun c => e (List.append_cancel_left c)) ?_
    rw [usedHash_hash.hash _ (by rw [List.length_append, List.length_map, hb, l1]; decide),
      usedHash_hash.hash _ (by rw [List.length_append, List.length_map, hb, l2]; decide), h]

example (h : Hmac.hmac [7] [0] = Hmac.hmac [7] [1]) :=
  C80_hmac [7] [0] [1] (by decide) (by decide) (by decide) (.inl rfl) (by decide) h

/-! ## BLAKE2b -/

/-- One block of `blake2b`: the bytes, the counter and the flag of the last block. -/
abbrev BlakeBlock := List U8 × List U64 × Bool

/-- The compression function of `blake2b` on such a block. -/
def blakeCompress (b : BlakeBlock) (h : List U64) : M (List U64) :=
  Hacspec.Blake2.compress Hacspec.Blake2.ivb h b.1 b.2.1 b.2.2 .blake2b

/-- The blocks that `blake2b` feeds to `compress`: the full ones, not flagged as last, and the rest with zeros, if there is
one, flagged as last; the counter is the number of bytes so far. -/
def blakeBlocks (m : List U8) : List BlakeBlock :=
  ((List.range (m.length / 128)).map fun i => ((m.drop (128 * i)).take 128, [BitVec.ofNat 64 ((i + 1) * 128), 0], false)) ++
    if m.length % 128 = 0 then []
    else [(m.drop (128 * (m.length / 128)) ++ List.replicate (128 - m.length % 128) 0, [BitVec.ofNat 64 m.length, 0], true)]

/-- The initial chaining value: the parameter block for 64 bytes of output without key. -/
def blakeInitial : List U64 := Hacspec.Blake2.ivb.set 0 (0x6a09e667f3bcc908#64 ^^^ 0x01010040#64)

/-- The inputs at which `blake2b` calls `compress` for a message. -/
def blakeCalls (m : List U8) : List (BlakeBlock × List U64) := callsFrom blakeCompress blakeInitial (blakeBlocks m)

theorem blake_chain (m : List U8) (hm : m.length < 2 ^ 63) (k : Nat) (hk : 128 * k ≤ m.length) :
    chained blakeCompress blakeInitial ((List.range k).map fun i =>
      ((m.drop (128 * i)).take 128, [BitVec.ofNat 64 ((i + 1) * 128), 0], false)) = .ok (Hacspec.Blake2.chainN 12 m k) := by
  induction k with
  | zero => rfl
  | succ k ih =>
    have hb : ((m.drop (128 * k)).take 128).length = 128 := by simp; omega
    rw [List.range_succ, List.map_append, chained_append, ih (by omega), bind_ok, List.map_singleton, chained, blakeCompress]
    simp only []
    rw [show [BitVec.ofNat 64 ((k + 1) * 128), 0] = Hacspec.Blake2.ctr ((k + 1) * 128) from rfl,
      Hacspec.Blake2.compress_ok (Hacspec.Blake2.length_chainN _ _ _) hb (by omega), bind_ok, Hacspec.Blake2.chainN,
      Spec.Blake2.blockWords, block, hb, Nat.sub_self, List.replicate_zero, List.append_nil]
    rfl

theorem blake_chain_final (m : List U8) (hm : m.length < 2 ^ 63) :
    chained blakeCompress blakeInitial (blakeBlocks m) = .ok (Hacspec.Blake2.final 12 m) := by
  rw [blakeBlocks, chained_append, blake_chain m hm _ (by omega), bind_ok, Hacspec.Blake2.final]
  by_cases h : m.length % 128 = 0
  · rw [if_pos h, if_pos h]; rfl
  · have hl : (m.drop (128 * (m.length / 128))).length = m.length % 128 := by rw [List.length_drop]; omega
    rw [if_neg h, if_neg h, chained, blakeCompress]
    simp only []
    rw [show [BitVec.ofNat 64 m.length, 0] = Hacspec.Blake2.ctr m.length from rfl,
      Hacspec.Blake2.compress_ok (Hacspec.Blake2.length_chainN _ _ _) (by rw [List.length_append, hl, List.length_replicate]; omega)
        (by omega), bind_ok, Spec.Blake2.blockWords, block, List.take_of_length_le (by omega), hl]
    rfl

/-- **C80.**  `blakeBlocks` are the blocks of the computation: the digest of `blake2b` is the chaining value after them. -/
theorem C80_blake2b_chain (m : List U8) (hm : m.length < 2 ^ 63) :
    ∃ s, chained blakeCompress blakeInitial (blakeBlocks m) = .ok s ∧
      Hacspec.Blake2.blake2b m = .ok (s.flatMap bytesLe64) :=
  ⟨_, blake_chain_final m hm, Hacspec.Blake2.blake2b_ok hm⟩

theorem blakeBlocks_last {m : List U8} (h : m ≠ []) : ∃ as b, blakeBlocks m = as ++ [b] ∧ b.2.1 = [BitVec.ofNat 64 m.length, 0] := by
  have h0 : 0 < m.length := List.length_pos_iff.mpr h
  rw [blakeBlocks]
  by_cases h1 : m.length % 128 = 0
  · rw [if_pos h1]
    obtain ⟨k, hk⟩ : ∃ k, m.length / 128 = k + 1 := ⟨m.length / 128 - 1, by omega⟩
    rw [hk, List.range_succ, List.map_append, List.append_nil]
    refine ⟨_, _, rfl, ?_⟩
    simp only []
    congr 2
    omega
  · rw [if_neg h1]
    exact ⟨_, _, rfl, rfl⟩

theorem take_of_blocks {m m' : List U8} (hl : m.length = m'.length) (h : blakeBlocks m = blakeBlocks m') : m = m' := by
  rw [blakeBlocks, blakeBlocks, hl] at h
  have := List.append_inj h (by simp)
  have e1 : m.take (128 * (m.length / 128)) = m'.take (128 * (m'.length / 128)) := by
    have f : ∀ m : List U8, m.take (128 * (m.length / 128)) =
        (((List.range (m.length / 128)).map fun i =>
          (((m.drop (128 * i)).take 128, [BitVec.ofNat 64 ((i + 1) * 128), 0], false) : BlakeBlock)).map Prod.fst).flatten := by
      intro m
      have : ∀ k, 128 * k ≤ m.length → m.take (128 * k) = (((List.range k).map fun i =>
          (((m.drop (128 * i)).take 128, [BitVec.ofNat 64 ((i + 1) * 128), 0], false) : BlakeBlock)).map Prod.fst).flatten := by
        intro k hk
        induction k with
        | zero => simp
        | succ k ih =>
          rw [List.range_succ, List.map_append, List.map_append, List.flatten_append, ← ih (by omega), Nat.mul_succ,
            List.take_add]
          simp
      exact this _ (by omega)
    rw [f, f, hl, this.1]
  have e2 : m.drop (128 * (m.length / 128)) = m'.drop (128 * (m'.length / 128)) := by
    have h2 := this.2
    by_cases c : m'.length % 128 = 0
    · rw [List.drop_of_length_le (by omega), List.drop_of_length_le (by omega)]
    · rw [if_neg c, if_neg c] at h2
      injection h2 with h2
      injection h2 with h2
      rw [hl]
      exact (List.append_inj' h2 rfl).1
  rw [← List.take_append_drop (128 * (m.length / 128)) m, e1, e2, List.take_append_drop]

theorem blake_final {m m' : List U8} (hm : m.length < 2 ^ 63) (hm' : m'.length < 2 ^ 63)
    (h : Hacspec.Blake2.blake2b m = Hacspec.Blake2.blake2b m') :
    ∃ s, chained blakeCompress blakeInitial (blakeBlocks m) = .ok s ∧
      chained blakeCompress blakeInitial (blakeBlocks m') = .ok s := by
  rw [Hacspec.Blake2.blake2b_ok hm, Hacspec.Blake2.blake2b_ok hm'] at h
  injection h with h
  have := congrArg words64le h
  rw [words64le_flatMap, words64le_flatMap] at this
  exact ⟨_, blake_chain_final m hm, by rw [this, blake_chain_final m' hm']⟩

/-- **C80.**  Every collision of `blake2b` between messages that are not empty is a collision of `compress`, found in the two
computations. -/
theorem C80_blake2b (m m' : List U8) (hm : m.length < 2 ^ 63) (hm' : m'.length < 2 ^ 63) (h0 : m ≠ []) (h0' : m' ≠ [])
    (hne : m ≠ m') (h : Hacspec.Blake2.blake2b m = Hacspec.Blake2.blake2b m') :
    Collide blakeCompress (blakeCalls m) (blakeCalls m') := by
  obtain ⟨s, h1, h2⟩ := blake_final hm hm' h
  by_cases hl : m.length = m'.length
  · rcases collide_or _ _ h1 h2 with e | hc | ⟨hr, -⟩
    · exact absurd (take_of_blocks hl e) hne
    · exact hc
    · refine absurd ?_ hr
      rw [blakeBlocks, blakeBlocks, hl]
      split <;> simp
  · obtain ⟨as, b, e, hb⟩ := blakeBlocks_last h0
    obtain ⟨as', b', e', hb'⟩ := blakeBlocks_last h0'
    rw [blakeCalls, blakeCalls, e, e']
    rw [e] at h1
    rw [e'] at h2
    refine collide_last h1 h2 fun ebb => hl ?_
    rw [ebb, hb'] at hb
    injection hb with hb
    have := congrArg BitVec.toNat hb
    simp only [BitVec.toNat_ofNat] at this
    omega

/-- **C80.**  A collision with the empty message is a call of `compress` that returns the initial value: the code does not
call it at all for the empty message. -/
theorem C80_blake2b_empty (m : List U8) (hm : m.length < 2 ^ 63) (h0 : m ≠ [])
    (h : Hacspec.Blake2.blake2b m = Hacspec.Blake2.blake2b []) : Reaches blakeCompress blakeInitial (blakeCalls m) := by
  obtain ⟨s, h1, h2⟩ := blake_final hm (by decide) h
  obtain ⟨as, b, e, hb⟩ := blakeBlocks_last h0
  rw [show blakeBlocks [] = [] from rfl, chained] at h2
  injection h2 with h2
  subst h2
  rw [e] at h1
  obtain ⟨t, -, h4, h5⟩ := chained_concat h1
  refine ⟨(b, t), ?_, h4⟩
  rw [blakeCalls, e, h5]
  simp

example (h : Hacspec.Blake2.blake2b (List.replicate 128 0) = Hacspec.Blake2.blake2b (List.replicate 129 0)) :=
  C80_blake2b _ _ (by simp) (by simp) (by simp) (by simp) (fun e => by simpa using congrArg List.length e) h

/-- The chaining inputs are those of the computation: two calls for a message of 129 bytes. -/
example : (blakeBlocks (List.replicate 129 7)).length = 2 ∧ (blakeCalls (List.replicate 129 7)).length = 2 := by
  constructor <;> decide +kernel

end Hacspec.Props
