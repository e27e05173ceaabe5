import Verif.Lemmas.Ideal.Keccak
import Verif.Model.IdealBlake
import Verif.Props.HashCollisions

/-! # BLAKE2b with any block cipher -/

namespace Hacspec.Ideal

open Spec Hacspec.Seq Hacspec.Blake2 Hacspec.Props Finset

variable {comp : List U64 → List U8 → List U64 → Bool → M (List U64)}

/-- The compression function on a block with counter and flag. -/
def blakeWith (comp : List U64 → List U8 → List U64 → Bool → M (List U64)) (b : BlakeBlock) (h : List U64) : M (List U64) :=
  comp h b.1 b.2.1 b.2.2

theorem blockStepsWith (d : List U8) (hd : d.length < 2 ^ 63) (h : List U64) {n : Nat} (hn : n ≤ d.length / 128) :
    loop n (blockStepWith comp d) (h, ctr 0) = chained (blakeWith comp) h
      ((List.range n).map fun i => ((d.drop (128 * i)).take 128, [BitVec.ofNat 64 ((i + 1) * 128), 0], false)) >>=
        fun s => .ok (s, ctr (n * 128)) := by
  induction n with
  | zero => rfl
  | succ n ih =>
    rw [loop_succ, ih (by omega), List.range_succ, List.map_append, chained_append]
    cases chained (blakeWith comp) h
      ((List.range n).map fun i => ((d.drop (128 * i)).take 128, [BitVec.ofNat 64 ((i + 1) * 128), 0], false)) with
    | error e => rfl
    | ok s =>
      rw [bind_ok, bind_ok, bind_ok, blockStepWith, getChunk_ok (by omega), bind_ok, blockBranchWith]
      simp only
      rw [if_pos (by omega), incCounter_ok (by omega), bind_ok, fromSeq_ok, bind_ok, List.map_singleton, chained_one, blakeWith,
        show n * 128 + 128 = (n + 1) * 128 by omega]
      rfl

/-- `blake2b` is the iteration of its compression function. -/
theorem blake2bWith_chain (d : List U8) (hd : d.length < 2 ^ 63) :
    blake2bWith comp d = chained (blakeWith comp) blakeInitial (blakeBlocks d) >>= fun s => (do
      let o ← outBytes s
      arrFromSeq 64 o) := by
  have hfull := blockStepsWith (comp := comp) d hd blakeInitial (Nat.le_refl _)
  have hstart : setIdx ivb 0 (0x6a09e667f3bcc908 ^^^ BitVec.ofNat 64 0x01010000 ^^^ BitVec.ofNat 64 64) = .ok blakeInitial := rfl
  rw [blake2bWith, show idx ivb 0 = .ok 0x6a09e667f3bcc908 from rfl, bind_ok, hstart, bind_ok, numChunks_ok (by omega) (by omega),
    bind_ok, show (new 2 : List U64) = ctr 0 from rfl, show d.length + 128 - 1 = d.length + 127 by omega, blakeBlocks, chained_append]
  by_cases h : d.length % 128 = 0
  · rw [show (d.length + 127) / 128 = d.length / 128 by omega, hfull, if_pos h]
    cases chained (blakeWith comp) blakeInitial
      ((List.range (d.length / 128)).map fun i => ((d.drop (128 * i)).take 128, [BitVec.ofNat 64 ((i + 1) * 128), 0], false)) <;> rfl
  · have hl : (d.drop (128 * (d.length / 128))).length = d.length % 128 := by rw [List.length_drop]; omega
    rw [show (d.length + 127) / 128 = d.length / 128 + 1 by omega, loop_succ, hfull, if_neg h]
    cases chained (blakeWith comp) blakeInitial
      ((List.range (d.length / 128)).map fun i => ((d.drop (128 * i)).take 128, [BitVec.ofNat 64 ((i + 1) * 128), 0], false)) with
    | error e => rfl
    | ok s =>
      rw [bind_ok, bind_ok, bind_ok, blockStepWith, getChunk_ok (by omega), bind_ok, blockBranchWith]
      simp only
      rw [if_neg (by omega), Nat.min_eq_right (by omega), incCounter_ok (by omega), bind_ok, List.take_of_length_le (by omega),
        updateStart_new (by omega), bind_ok, hl, chained_one, blakeWith,
        show d.length / 128 * 128 + (d.length - 128 * (d.length / 128)) = d.length by omega]
      cases hc : comp s (d.drop (128 * (d.length / 128)) ++ List.replicate (128 - d.length % 128) default) (ctr d.length) true with
      | error e =>
        have hc' : comp s (d.drop (128 * (d.length / 128)) ++ List.replicate (128 - d.length % 128) 0) [BitVec.ofNat 64 d.length, 0] true =
          .error e := hc
        rw [hc']
        rfl
      | ok t =>
        have hc' : comp s (d.drop (128 * (d.length / 128)) ++ List.replicate (128 - d.length % 128) 0) [BitVec.ofNat 64 d.length, 0] true =
          .ok t := hc
        rw [hc']
        rfl

/-! ## The compression function from the cipher -/

theorem flatMap_words64le {l : List U8} (h : l.length % 8 = 0) : (words64le l).flatMap bytesLe64 = l := by
  induction l using words64le.induct with
  | case1 a b c d e f g i l ih =>
    rw [words64le, List.flatMap_cons, ih (by simp at h; omega)]
    have : bytesLe64 (le64 a b c d e f g i) = [a, b, c, d, e, f, g, i] := by
      rw [← wordOfLe64, ← leOfWord64]
      exact SecretInt.leOfWord_wordOfLe (by decide) _ rfl
    rw [this]
    rfl
  | case2 l hl =>
    have : l = [] := by
      match l, h, hl with
      | [], _, _ => rfl
      | [_], h, _ => simp at h
      | [_, _], h, _ => simp at h
      | [_, _, _], h, _ => simp at h
      | [_, _, _, _], h, _ => simp at h
      | [_, _, _, _, _], h, _ => simp at h
      | [_, _, _, _, _, _], h, _ => simp at h
      | [_, _, _, _, _, _, _], h, _ => simp at h
      | a :: b :: c :: d :: e :: f :: g :: i :: l, _, hl => exact absurd rfl (hl a b c d e f g i l)
    subst this
    rfl

/-- A block, the number of bytes up to its end, and whether it is flagged as last. -/
abbrev BlakeIn : Type := Bytes 128 × U64 × Bool

/-- The key: the words of the block. -/
def keyB (b : BlakeIn) : Words 64 16 := ⟨words64le b.1.1, length_words64le b.1.2⟩

/-- The input of the cipher. -/
def iniB (b : BlakeIn) (s : Words 64 8) : Words 64 16 :=
  ⟨let v := s.1 ++ Spec.Blake2.iv
    let v := v.set 12 (v.getD 12 0 ^^^ b.2.1)
    let v := v.set 13 (v.getD 13 0 ^^^ 0)
    if b.2.2 then v.set 14 (v.getD 14 0 ^^^ 0xFFFFFFFFFFFFFFFF#64) else v, by
    have := s.2
    cases b.2.2 <;> simp [Spec.Blake2.iv, this]⟩

/-- The output from the input `x` and the output `y` of the cipher. -/
def outB (y x : Words 64 16) : Words 64 8 :=
  ⟨(List.range 8).map fun i => x.1.getD i 0 ^^^ y.1.getD i 0 ^^^ y.1.getD (i + 8) 0, by simp⟩

/-- The block as the code passes it. -/
def embB (b : BlakeIn) : BlakeBlock := (b.1.1, [b.2.1, 0], b.2.2)

theorem getD_iniB (b : BlakeIn) (s : Words 64 8) {i : Nat} (hi : i < 8) : (iniB b s).1.getD i 0 = s.1.getD i 0 := by
  obtain ⟨b, c, f⟩ := b
  obtain ⟨s, hs⟩ := s
  have e : ∀ v : List U64, v.length = 16 → ∀ j x, 12 ≤ j → (v.set j x).getD i 0 = v.getD i 0 := by
    intro v _ j x hj
    rw [ChaCha.getD_set, if_neg (fun h => by omega)]
  cases f
  · simp only [iniB, Bool.false_eq_true, if_false]
    rw [e _ (by simp [hs, Spec.Blake2.iv]) _ _ (by omega), e _ (by simp [hs, Spec.Blake2.iv]) _ _ (by omega),
      getD_append_lt (by omega)]
  · simp only [iniB, if_true]
    rw [e _ (by simp [hs, Spec.Blake2.iv]) _ _ (by omega), e _ (by simp [hs, Spec.Blake2.iv]) _ _ (by omega),
      e _ (by simp [hs, Spec.Blake2.iv]) _ _ (by omega), getD_append_lt (by omega)]

theorem initV_iniB (b : BlakeIn) (s : Words 64 8) : initV ivb s.1 [b.2.1, 0] b.2.2 = .ok (iniB b s).1 := by
  have h := initV_ok s.2 (t := b.2.1.toNat) b.2.1.isLt b.2.2
  rw [ctr, BitVec.ofNat_toNat, BitVec.setWidth_eq, Nat.div_eq_of_lt b.2.1.isLt] at h
  exact h

theorem blakeCompress_ok (E : Words 64 16 → Equiv.Perm (Words 64 16)) (b : BlakeIn) (s : Words 64 8) :
    blakeWith (compressWith (blakeCipher E)) (embB b) s.1 = .ok (outB (E (keyB b) (iniB b s)) (iniB b s)).1 := by
  have hs := s.2
  have hy := (E (keyB b) (iniB b s)).2
  rw [blakeWith, embB, compressWith]
  simp only
  rw [makeArray_ok b.1.2, bind_ok, initV_iniB, bind_ok, blakeCipher, dif_pos ⟨length_words64le b.1.2, (iniB b s).2⟩, bind_ok]
  rw [fill_loop (o := 0) (fun i => (iniB b s).1.getD i 0 ^^^ (E (keyB b) (iniB b s)).1.getD i 0 ^^^ (E (keyB b) (iniB b s)).1.getD (i + 8) 0) _
    (by simp [length_new])]
  · rw [List.take_zero, List.nil_append, List.drop_of_length_le (by simp [length_new]), List.append_nil]
    rfl
  · intro i hi u hu
    rw [idx_getD 0 (by omega), bind_ok, show (E ⟨words64le b.1.1, _⟩ ⟨(iniB b s).1, _⟩) = E (keyB b) (iniB b s) from rfl,
      idx_getD 0 (by omega), bind_ok, idx_getD 0 (by omega), bind_ok, Nat.zero_add, getD_iniB b s hi]
    exact setIdx_ok (by simpa using hu)

theorem chained_blake (E : Words 64 16 → Equiv.Perm (Words 64 16)) (bs : List BlakeIn) (s : Words 64 8) :
    ∃ t, chained (cstep keyB iniB outB E) s bs = .ok t ∧
      chained (blakeWith (compressWith (blakeCipher E))) s.1 (bs.map embB) = .ok t.1 := by
  induction bs generalizing s with
  | nil => exact ⟨s, rfl, rfl⟩
  | cons b bs ih =>
    obtain ⟨t, h1, h2⟩ := ih (outB (E (keyB b) (iniB b s)) (iniB b s))
    refine ⟨t, ?_, ?_⟩
    · rw [chained, cstep, bind_ok, h1]
    · rw [List.map_cons, chained, blakeCompress_ok, bind_ok]
      exact h2

theorem iniB_inj (b b' : BlakeIn) (s s' : Words 64 8) (hk : keyB b = keyB b') (h : iniB b s = iniB b' s') : b = b' ∧ s = s' := by
  have hs : s = s' := by
    refine Subtype.ext (ChaCha.ext_getD 0 (by rw [s.2, s'.2]) fun i hi => ?_)
    rw [s.2] at hi
    rw [← getD_iniB b s hi, ← getD_iniB b' s' hi, h]
  refine ⟨?_, hs⟩
  obtain ⟨m, c, f⟩ := b
  obtain ⟨m', c', f'⟩ := b'
  have h12 : (iniB (m, c, f) s).1.getD 12 0 = (iniB (m', c', f') s').1.getD 12 0 := by rw [h]
  have h14 : (iniB (m, c, f) s).1.getD 14 0 = (iniB (m', c', f') s').1.getD 14 0 := by rw [h]
  have hw : ∀ (m : Bytes 128) (c : U64) (f : Bool) (s : Words 64 8), (iniB (m, c, f) s).1.getD 12 0 = 0x510E527FADE682D1#64 ^^^ c ∧
      (iniB (m, c, f) s).1.getD 14 0 = if f then 0x1F83D9ABFB41BD6B#64 ^^^ 0xFFFFFFFFFFFFFFFF#64 else 0x1F83D9ABFB41BD6B#64 := by
    intro m c f s
    have hs := s.2
    obtain ⟨s, -⟩ := s
    match s, hs with
    | [a0, a1, a2, a3, a4, a5, a6, a7], _ => cases f <;> exact ⟨rfl, rfl⟩
  rw [(hw m c f s).1, (hw m' c' f' s').1] at h12
  rw [(hw m c f s).2, (hw m' c' f' s').2] at h14
  have hc : c = c' := by
    have := congrArg (0x510E527FADE682D1#64 ^^^ ·) h12
    simpa only [← BitVec.xor_assoc, BitVec.xor_self, BitVec.zero_xor] using this
  have hf : f = f' := by
    revert h14
    cases f <;> cases f' <;> decide
  have hm : m = m' := by
    have : words64le m.1 = words64le m'.1 := congrArg Subtype.val hk
    have := congrArg (List.flatMap bytesLe64) this
    rw [flatMap_words64le (by rw [m.2]), flatMap_words64le (by rw [m'.2])] at this
    exact Subtype.ext this
  rw [hm, hc, hf]

/-! ## Counting -/

open Classical in
theorem card_outB (x : Words 64 16) (d : Words 64 8) : (univ.filter fun y => outB y x = d).card ≤ (2 ^ 64) ^ 8 := by
  rw [← card_words 64 8]
  refine card_le_of_inj (fun y : Words 64 16 => outB y x = d) (fun y => (⟨y.1.drop 8, by rw [List.length_drop, y.2]⟩ : Words 64 8))
    fun y y' hy hy' e => ?_
  have e : y.1.drop 8 = y'.1.drop 8 := congrArg Subtype.val e
  have hw : ∀ i, i < 8 → y.1.getD (i + 8) 0 = y'.1.getD (i + 8) 0 := by
    intro i hi
    have := congrArg (fun l => l.getD i 0) e
    simpa only [List.getD_eq_getElem?_getD, List.getElem?_drop, Nat.add_comm 8 i] using this
  refine Subtype.ext (ChaCha.ext_getD 0 (by rw [y.2, y'.2]) fun i hi => ?_)
  rw [y.2] at hi
  by_cases h : i < 8
  · have e2 : outB y x = outB y' x := hy.trans hy'.symm
    have e3 := congrArg (fun w : Words 64 8 => w.1.getD i 0) e2
    simp only [outB, List.getD_eq_getElem?_getD, List.getElem?_map, List.getElem?_range h, Option.map_some, Option.getD_some] at e3
    simp only [← List.getD_eq_getElem?_getD] at e3
    rw [hw i h] at e3
    have e4 := congrArg (· ^^^ y'.1.getD (i + 8) 0) e3
    simp only [BitVec.xor_assoc, BitVec.xor_self, BitVec.xor_zero] at e4
    have e5 := congrArg (x.1.getD i 0 ^^^ ·) e4
    simpa only [← BitVec.xor_assoc, BitVec.xor_self, BitVec.zero_xor] using e5
  · have := hw (i - 8) (by omega)
    rwa [show i - 8 + 8 = i by omega] at this

open Classical in
theorem card_outB' (y : Words 64 16) (d : Words 64 8) : (univ.filter fun x => outB y x = d).card ≤ (2 ^ 64) ^ 8 := by
  rw [← card_words 64 8]
  refine card_le_of_inj (fun x : Words 64 16 => outB y x = d) (fun x => (⟨x.1.drop 8, by rw [List.length_drop, x.2]⟩ : Words 64 8))
    fun x x' hx hx' e => ?_
  have e : x.1.drop 8 = x'.1.drop 8 := congrArg Subtype.val e
  refine Subtype.ext (ChaCha.ext_getD 0 (by rw [x.2, x'.2]) fun i hi => ?_)
  rw [x.2] at hi
  by_cases h : i < 8
  · have e2 : outB y x = outB y x' := hx.trans hx'.symm
    have e3 := congrArg (fun w : Words 64 8 => w.1.getD i 0) e2
    simp only [outB, List.getD_eq_getElem?_getD, List.getElem?_map, List.getElem?_range h, Option.map_some, Option.getD_some] at e3
    simp only [← List.getD_eq_getElem?_getD] at e3
    have e4 := congrArg (· ^^^ y.1.getD (i + 8) 0) e3
    simp only [BitVec.xor_assoc, BitVec.xor_self, BitVec.xor_zero] at e4
    have e5 := congrArg (· ^^^ y.1.getD i 0) e4
    simpa only [BitVec.xor_assoc, BitVec.xor_self, BitVec.xor_zero] using e5
  · have := congrArg (fun l => l.getD (i - 8) 0) e
    simpa only [List.getD_eq_getElem?_getD, List.getElem?_drop, show 8 + (i - 8) = i by omega] using this

/-! ## The blocks -/

theorem blakeBlocks_mem {m : List U8} {b : BlakeBlock} (h : b ∈ blakeBlocks m) : b.1.length = 128 ∧ b.2.1 = [b.2.1.getD 0 0, 0] := by
  rw [blakeBlocks] at h
  rcases List.mem_append.mp h with h | h
  · obtain ⟨i, hi, rfl⟩ := List.mem_map.mp h
    rw [List.mem_range] at hi
    refine ⟨?_, rfl⟩
    simp only [List.length_take, List.length_drop]
    omega
  · split at h
    · exact absurd h List.not_mem_nil
    · rw [List.mem_singleton.mp h]
      refine ⟨?_, rfl⟩
      simp only [List.length_append, List.length_drop, List.length_replicate]
      omega

/-- The blocks with their length. -/
def blakeKeys (m : List U8) : List BlakeIn :=
  (blakeBlocks m).pmap (fun b h => (⟨b.1, h⟩, b.2.1.getD 0 0, b.2.2)) fun _ hb => (blakeBlocks_mem hb).1

theorem map_blakeKeys (m : List U8) : (blakeKeys m).map embB = blakeBlocks m := by
  rw [blakeKeys, List.map_pmap]
  conv => rhs; rw [← List.map_id (blakeBlocks m)]
  rw [← List.pmap_eq_map (H := fun _ hb => (blakeBlocks_mem hb).1)]
  refine List.pmap_congr_left _ fun b hb h1 h2 => ?_
  exact Prod.ext rfl (Prod.ext (blakeBlocks_mem hb).2.symm rfl)

theorem length_blakeKeys {m : List U8} {ℓ : Nat} (h : m.length ≤ 128 * ℓ) : (blakeKeys m).length ≤ ℓ := by
  rw [← List.length_map (f := embB), map_blakeKeys, blakeBlocks, List.length_append, List.length_map, List.length_range]
  split
  · simp; omega
  · simp; omega

theorem blakeKeys_inj {m m' : List U8} (hm : m.length < 2 ^ 63) (hm' : m'.length < 2 ^ 63) (h : blakeKeys m = blakeKeys m') : m = m' := by
  have h := congrArg (List.map embB) h
  rw [map_blakeKeys, map_blakeKeys] at h
  have hne : ∀ m : List U8, m ≠ [] → blakeBlocks m ≠ [] := by
    intro m hm e
    obtain ⟨as, b, e', -⟩ := blakeBlocks_last hm
    rw [e] at e'
    simp at e'
  by_cases h0 : m = []
  · by_cases h0' : m' = []
    · rw [h0, h0']
    · rw [h0, show blakeBlocks [] = [] from rfl] at h
      exact absurd h.symm (hne m' h0')
  · by_cases h0' : m' = []
    · rw [h0', show blakeBlocks [] = [] from rfl] at h
      exact absurd h (hne m h0)
    · obtain ⟨as, b, e, hb⟩ := blakeBlocks_last h0
      obtain ⟨as', b', e', hb'⟩ := blakeBlocks_last h0'
      refine take_of_blocks ?_ h
      rw [e, e'] at h
      obtain ⟨-, h⟩ := List.append_inj' h rfl
      injection h with h
      rw [h, hb'] at hb
      injection hb with hb
      have := congrArg BitVec.toNat hb
      simp only [BitVec.toNat_ofNat] at this
      omega

/-! ## The hash function -/

/-- The initial value. -/
def blakeStart : Words 64 8 := ⟨blakeInitial, rfl⟩

theorem outBytes_ok (s : Words 64 8) : (do let o ← outBytes s.1; arrFromSeq 64 o) = .ok (s.1.flatMap bytesLe64) := by
  have hl : (s.1.flatMap bytesLe64).length = 64 := by
    have hs := s.2
    match s.1, hs with
    | [_, _, _, _, _, _, _, _], _ => rfl
  rw [outBytes, out_ok s.2, bind_ok, arrFromSeq_ok hl]

/-- The hash value from the last state. -/
theorem blake_ok (E : Words 64 16 → Equiv.Perm (Words 64 16)) {m : List U8} (hm : m.length < 2 ^ 63) :
    ∃ t, chained (cstep keyB iniB outB E) blakeStart (blakeKeys m) = .ok t ∧ blake E m = .ok (t.1.flatMap bytesLe64) := by
  obtain ⟨t, h1, h2⟩ := chained_blake E (blakeKeys m) blakeStart
  rw [map_blakeKeys] at h2
  refine ⟨t, h1, ?_⟩
  rw [blake, blake2bWith_chain m hm, show blakeInitial = blakeStart.1 from rfl, h2, bind_ok, outBytes_ok]

theorem flat_inj {s t : Words 64 8} (h : s.1.flatMap bytesLe64 = t.1.flatMap bytesLe64) : s = t := by
  have := congrArg words64le h
  rw [HashStructure.words64le_flatMap, HashStructure.words64le_flatMap] at this
  exact Subtype.ext this

end Hacspec.Ideal
