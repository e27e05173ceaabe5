import Verif.Lemmas.Blake2
import Verif.Lemmas.Hmac
import Verif.Spec.Perm

/-! # Lemmas for C74–C76: extension of digests, the BLAKE2 permutation, equivalent HMAC keys -/

namespace Hacspec.HashStructure

open SecretInt Spec

/-! ## Words and bytes -/

theorem le64_bytes (x : U64) : le64 (x.extractLsb' 0 8) (x.extractLsb' 8 8) (x.extractLsb' 16 8) (x.extractLsb' 24 8)
    (x.extractLsb' 32 8) (x.extractLsb' 40 8) (x.extractLsb' 48 8) (x.extractLsb' 56 8) = x := by
  apply BitVec.eq_of_getLsbD_eq
  intro i hi
  simp only [le64, BitVec.getLsbD_append, BitVec.getLsbD_extractLsb']
  repeat' split
  all_goals first | (simp; congr 1; omega) | (simp; omega) | skip
  all_goals (rw [show decide (_ < 8) = true by simp; omega, Bool.true_and]; congr 1; omega)

theorem be32_bytes (x : U32) : be32 (x.extractLsb' 24 8) (x.extractLsb' 16 8) (x.extractLsb' 8 8) (x.extractLsb' 0 8) = x := by
  apply BitVec.eq_of_getLsbD_eq
  intro i hi
  simp only [be32, BitVec.getLsbD_append, BitVec.getLsbD_extractLsb']
  repeat' split
  all_goals first | (simp; congr 1; omega) | (simp; omega) | skip
  all_goals (rw [show decide (_ < 8) = true by simp; omega, Bool.true_and]; congr 1; omega)

theorem words64le_flatMap (h : List U64) : words64le (h.flatMap bytesLe64) = h := by
  induction h with
  | nil => rfl
  | cons x h ih =>
    rw [List.flatMap_cons, bytesLe64]
    show le64 _ _ _ _ _ _ _ _ :: words64le (h.flatMap bytesLe64) = _
    rw [le64_bytes, ih]

/-! ## BLAKE2b -/

theorem block_append_left {m x : List U8} {n i : Nat} (h : n * (i + 1) ≤ m.length) : block n (m ++ x) i = block n m i := by
  rw [Nat.mul_add, Nat.mul_one] at h
  rw [block, block, List.drop_append_of_le_length (by omega), List.take_append_of_le_length (by simp; omega)]

theorem block_append_right {m x : List U8} {n q j : Nat} (h : m.length = n * q) : block n (m ++ x) (q + j) = block n x j := by
  rw [block, block, List.drop_append, List.drop_of_length_le (by rw [h, Nat.mul_add]; omega), List.nil_append,
    h, Nat.mul_add, Nat.add_sub_cancel_left]

/-- The state after `j` more blocks of `x`, from the state `h` reached after `q` blocks. -/
def chainFrom (h : List U64) (q : Nat) (x : List U8) : Nat → List U64
  | 0 => h
  | j + 1 => Spec.Blake2.F 12 (chainFrom h q x j) (Spec.Blake2.blockWords x j) ((q + j + 1) * 128) false

theorem chain_append_left {m x : List U8} (q : Nat) (h : 128 * q ≤ m.length) :
    Spec.Blake2.chain (m ++ x) q = Spec.Blake2.chain m q := by
  induction q with
  | zero => rfl
  | succ q ih =>
    rw [Spec.Blake2.chain, Spec.Blake2.chain, ih (by omega), Spec.Blake2.blockWords, Spec.Blake2.blockWords,
      block_append_left h]

theorem chain_append_right {m x : List U8} {q : Nat} (h : m.length = 128 * q) (j : Nat) :
    Spec.Blake2.chain (m ++ x) (q + j) = chainFrom (Spec.Blake2.chain m q) q x j := by
  induction j with
  | zero => exact chain_append_left q (by omega)
  | succ j ih =>
    rw [← Nat.add_assoc, Spec.Blake2.chain, ih, chainFrom, Spec.Blake2.blockWords, Spec.Blake2.blockWords,
      block_append_right h]

/-- What an attacker computes from the digest of `m`, the length of `m` and the extension `x`. -/
def extendBlake (d : List U8) (n : Nat) (x : List U8) : List U8 :=
  (if x.length % 128 = 0 then chainFrom (words64le d) (n / 128) x (x.length / 128)
   else Spec.Blake2.F 12 (chainFrom (words64le d) (n / 128) x (x.length / 128))
    (Spec.Blake2.blockWords x (x.length / 128)) (n + x.length) true).flatMap bytesLe64

theorem blake2b_append {m x : List U8} (hm : m.length % 128 = 0) (hl : (m ++ x).length < 2 ^ 63) :
    ∃ d, Hacspec.Blake2.blake2b m = .ok d ∧ Hacspec.Blake2.blake2b (m ++ x) = .ok (extendBlake d m.length x) := by
  rw [List.length_append] at hl
  obtain ⟨q, hq⟩ : ∃ q, m.length = 128 * q := ⟨m.length / 128, by omega⟩
  refine ⟨_, Hacspec.Blake2.blake2b_ok (by omega), ?_⟩
  rw [Hacspec.Blake2.blake2b_ok (by rw [List.length_append]; omega)]
  congr 1
  rw [Hacspec.Blake2.final, Hacspec.Blake2.final, if_pos hm, extendBlake, words64le_flatMap]
  congr 1
  simp only [Hacspec.Blake2.chainN_12]
  rw [List.length_append, show (m.length + x.length) / 128 = q + x.length / 128 by omega,
    show (m.length + x.length) % 128 = x.length % 128 by omega, show m.length / 128 = q by omega, chain_append_right hq,
    Spec.Blake2.blockWords, Spec.Blake2.blockWords, block_append_right hq]

/-! ## SHA-256 -/

/-- The chaining value in a digest. -/
def varsOf (d : List U8) : Sha256.Vars :=
  let w := words32be d
  { a := w.getD 0 0, b := w.getD 1 0, c := w.getD 2 0, d := w.getD 3 0,
    e := w.getD 4 0, f := w.getD 5 0, g := w.getD 6 0, h := w.getD 7 0 }

theorem varsOf_digest (v : Sha256.Vars) : varsOf (Sha256.digest v) = v := by
  have : words32be (Sha256.digest v) = [v.a, v.b, v.c, v.d, v.e, v.f, v.g, v.h] := by
    show [be32 _ _ _ _, be32 _ _ _ _, be32 _ _ _ _, be32 _ _ _ _, be32 _ _ _ _, be32 _ _ _ _, be32 _ _ _ _,
      be32 _ _ _ _] = _
    simp only [be32_bytes]
  rw [varsOf, this]; rfl

/-- What an attacker computes from the digest of `m`, the length of `m` and the extension `x`. -/
def extendSha (d : List U8) (n : Nat) (x : List U8) : List U8 :=
  Sha256.digest (Sha256.iterate (varsOf d)
    (if x.length % 64 = 0 then x
     else x ++ [0x80] ++ List.replicate ((119 - x.length % 64) % 64) 0 ++ bytesBe64 (BitVec.ofNat 64 (8 * (n + x.length)))))

theorem sha2_append {m x : List U8} (hm : m.length % 64 = 0) (hl : (m ++ x).length < 2 ^ 61) :
    ∃ d, Sha2.hash m = .ok d ∧ Sha2.hash (m ++ x) = .ok (extendSha d m.length x) := by
  rw [List.length_append] at hl
  refine ⟨_, Sha2.hash_blocks hm (by omega), ?_⟩
  rw [extendSha, varsOf_digest]
  by_cases hx : x.length % 64 = 0
  · rw [if_pos hx, Sha2.hash_blocks (by rw [List.length_append]; omega) (by rw [List.length_append]; omega),
      Sha2.iterate_append _ hm]
  · rw [if_neg hx, Sha2.hash_partial_block (by rw [List.length_append]; omega) (by rw [List.length_append]; omega),
      Sha256.sha256, Sha256.pad, List.length_append, show (m.length + x.length) % 64 = x.length % 64 by omega]
    simp only [List.append_assoc]
    rw [Sha2.iterate_append _ hm]

/-! ## The BLAKE2 rounds -/

/-- Updating one word by a bijection that depends on the other words only permutes the states. -/
theorem permutes_set {n a : Nat} (ha : a < n) (g g' : List U64 → U64 → U64) (f : List U64 → M (List U64))
    (hf : ∀ v, v.length = n → f v = .ok (v.set a (g v (v.getD a 0))))
    (hg : ∀ v z, g (v.set a z) = g v) (hg' : ∀ v z, g' (v.set a z) = g' v)
    (h1 : ∀ v z, g' v (g v z) = z) (h2 : ∀ v z, g v (g' v z) = z) : Permutes n f := by
  have hset : ∀ v : List U64, v.length = n → ∀ z w, ((v.set a z).set a w) = v.set a w := by simp
  have hget : ∀ v : List U64, v.length = n → ∀ z, (v.set a z).getD a 0 = z := by
    intro v hv z
    rw [ChaCha.getD_set, if_pos ⟨rfl, by omega⟩]
  have hself : ∀ v : List U64, v.length = n → v.set a (v.getD a 0) = v := by
    intro v hv
    rw [List.getD_eq_getElem?_getD, List.getElem?_eq_getElem (by omega), Option.getD_some, List.set_getElem_self]
  refine ⟨fun s hs => ⟨_, hf s hs, by simp [hs]⟩, fun t ht => ⟨t.set a (g' t (t.getD a 0)), by simp [ht], ?_, ?_⟩⟩
  · rw [hf _ (by simp [ht]), hg, hget t ht, h2, hset t ht, hself t ht]
  · intro s hs h
    rw [hf s hs] at h
    injection h with h
    subst h
    rw [hget s hs, hg', h1, hset s hs, hself s hs]

theorem rotl_rotr64 (x : U64) (s : Nat) : (x.rotateLeft s).rotateRight s = x := by
  apply BitVec.eq_of_getLsbD_eq
  intro i hi
  have hs : s % 64 < 64 := Nat.mod_lt _ (by omega)
  rw [BitVec.getLsbD_rotateRight, BitVec.getLsbD_rotateLeft, BitVec.getLsbD_rotateLeft]
  by_cases h : i < 64 - s % 64
  · simp only [h, decide_true, cond_true, show ¬ (s % 64 + i < s % 64) by omega, decide_false, cond_false,
      show s % 64 + i < 64 by omega, Bool.true_and, Nat.add_sub_cancel_left]
  · simp only [h, decide_false, cond_false, hi, decide_true, Bool.true_and, show i - (64 - s % 64) < s % 64 by omega,
      cond_true, show 64 - s % 64 + (i - (64 - s % 64)) = i by omega]

theorem rotr_rotl64 (x : U64) (s : Nat) : (x.rotateRight s).rotateLeft s = x := by
  apply BitVec.eq_of_getLsbD_eq
  intro i hi
  have hs : s % 64 < 64 := Nat.mod_lt _ (by omega)
  rw [BitVec.getLsbD_rotateLeft, BitVec.getLsbD_rotateRight, BitVec.getLsbD_rotateRight]
  by_cases h : i < s % 64
  · simp only [h, decide_true, cond_true, show ¬ (64 - s % 64 + i < 64 - s % 64) by omega, decide_false, cond_false,
      show 64 - s % 64 + i < 64 by omega, Bool.true_and, Nat.add_sub_cancel_left]
  · simp only [h, decide_false, cond_false, hi, decide_true, Bool.true_and, show i - s % 64 < 64 - s % 64 by omega,
      cond_true, show s % 64 + (i - s % 64) = i by omega]

theorem getD_set_ne {v : List U64} {a b : Nat} (z : U64) (h : a ≠ b) : (v.set a z).getD b 0 = v.getD b 0 := by
  rw [ChaCha.getD_set, if_neg (fun e => h e.1)]

theorem permutes_add {a b : Nat} (x : U64) (ha : a < 16) (hb : b < 16) (hab : a ≠ b) :
    Permutes 16 (fun v => Hacspec.Blake2.addStep v a b x) := by
  refine permutes_set ha (fun v z => z + v.getD b 0 + x) (fun v z => z - v.getD b 0 - x) _
    (fun v hv => Hacspec.Blake2.addStep_ok (by omega) (by omega)) ?_ ?_ ?_ ?_
  · intro v z; simp only [getD_set_ne z hab]
  · intro v z; simp only [getD_set_ne z hab]
  · intro v z
    show z + v.getD b 0 + x - v.getD b 0 - x = z
    generalize v.getD b 0 = y
    rw [BitVec.add_assoc, BitVec.add_comm y x, ← BitVec.add_assoc, BitVec.add_sub_cancel, BitVec.add_sub_cancel]
  · intro v z
    show z - v.getD b 0 - x + v.getD b 0 + x = z
    generalize v.getD b 0 = y
    rw [BitVec.add_assoc, BitVec.add_comm y x, ← BitVec.add_assoc, BitVec.sub_add_cancel, BitVec.sub_add_cancel]

theorem permutes_add2 {a b : Nat} (ha : a < 16) (hb : b < 16) (hab : a ≠ b) :
    Permutes 16 (fun v : List U64 => Hacspec.Blake2.addStep2 v a b) := by
  refine permutes_set ha (fun v z => z + v.getD b 0) (fun v z => z - v.getD b 0) _
    (fun v hv => Hacspec.Blake2.addStep2_ok (by omega) (by omega)) ?_ ?_ ?_ ?_
  · intro v z; simp only [getD_set_ne z hab]
  · intro v z; simp only [getD_set_ne z hab]
  · intro v z; exact BitVec.add_sub_cancel _ _
  · intro v z; exact BitVec.sub_add_cancel _ _

theorem permutes_rot {a b n : Nat} (ha : a < 16) (hb : b < 16) (hab : a ≠ b) (hn : n < 64) :
    Permutes 16 (fun v : List U64 => Hacspec.Blake2.rotStep v a b n) := by
  refine permutes_set ha (fun v z => (z ^^^ v.getD b 0).rotateRight n) (fun v z => z.rotateLeft n ^^^ v.getD b 0) _
    (fun v hv => Hacspec.Blake2.rotStep_ok (by omega) (by omega) hn) ?_ ?_ ?_ ?_
  · intro v z; simp only [getD_set_ne z hab]
  · intro v z; simp only [getD_set_ne z hab]
  · intro v z
    show ((z ^^^ v.getD b 0).rotateRight n).rotateLeft n ^^^ v.getD b 0 = z
    rw [rotr_rotl64, BitVec.xor_assoc, BitVec.xor_self, BitVec.xor_zero]
  · intro v z
    show ((z.rotateLeft n ^^^ v.getD b 0) ^^^ v.getD b 0).rotateRight n = z
    rw [BitVec.xor_assoc, BitVec.xor_self, BitVec.xor_zero, rotl_rotr64]

theorem permutes_id {α : Type} (n : Nat) : Permutes n (fun s : List α => .ok s) :=
  ⟨fun s hs => ⟨s, rfl, hs⟩, fun t ht => ⟨t, ht, rfl, fun s' _ h => by injection h⟩⟩

theorem permutes_loop {α : Type} {n : Nat} {f : Nat → List α → M (List α)} (k : Nat) (h : ∀ i, i < k → Permutes n (f i)) :
    Permutes n (loop k f) := by
  induction k with
  | zero => exact permutes_id n
  | succ k ih =>
    have := (ih fun i hi => h i (by omega)).bind (h k (by omega))
    exact this

theorem permutes_mix {a b c d : Nat} (x y : U64) (ha : a < 16) (hb : b < 16) (hc : c < 16) (hd : d < 16) (hab : a ≠ b)
    (had : a ≠ d) (hbc : b ≠ c) (hcd : c ≠ d) : Permutes 16 (fun v => Hacspec.Blake2.mix v a b c d x y) :=
  (permutes_add x ha hb hab).bind ((permutes_rot hd ha (Ne.symm had) (by decide)).bind ((permutes_add2 hc hd hcd).bind
    ((permutes_rot hb hc hbc (by decide)).bind ((permutes_add y ha hb hab).bind
      ((permutes_rot hd ha (Ne.symm had) (by decide)).bind ((permutes_add2 hc hd hcd).bind
        (permutes_rot hb hc hbc (by decide))))))))

theorem permutes_mixAt {m : List U64} (hm : m.length = 16) {i k a b c d : Nat} (hi : i < 12) (hk : k + 1 < 16)
    (ha : a < 16) (hb : b < 16) (hc : c < 16) (hd : d < 16) (hab : a ≠ b)
    (had : a ≠ d) (hbc : b ≠ c) (hcd : c ≠ d) : Permutes 16 (Hacspec.Blake2.mixAt m i k a b c d) := by
  obtain ⟨h1, h2⟩ := Hacspec.Blake2.sigma_ok i hi k (by omega)
  obtain ⟨h3, h4⟩ := Hacspec.Blake2.sigma_ok i hi (k + 1) hk
  have : Hacspec.Blake2.mixAt m i k a b c d = fun v => Hacspec.Blake2.mix v a b c d
      (m.getD (Hacspec.Blake2.sched i k) 0) (m.getD (Hacspec.Blake2.sched i (k + 1)) 0) := by
    funext v
    rw [Hacspec.Blake2.mixAt, h1, bind_ok, idx_getD 0 (by omega), bind_ok, h3, bind_ok, idx_getD 0 (by omega), bind_ok]
  rw [this]
  exact permutes_mix _ _ ha hb hc hd hab had hbc hcd

theorem permutes_round {m : List U64} (hm : m.length = 16) {i : Nat} (hi : i < 12) :
    Permutes 16 (Hacspec.Blake2.roundStep m i) := by
  have q : ∀ k a b c d, k + 1 < 16 → a < 16 → b < 16 → c < 16 → d < 16 → a ≠ b → a ≠ d → b ≠ c → c ≠ d →
      Permutes 16 (Hacspec.Blake2.mixAt m i k a b c d) := fun k a b c d hk => permutes_mixAt hm hi hk
  refine (q 0 0 4 8 12 ?_ ?_ ?_ ?_ ?_ ?_ ?_ ?_ ?_).bind ((q 2 1 5 9 13 ?_ ?_ ?_ ?_ ?_ ?_ ?_ ?_ ?_).bind
    ((q 4 2 6 10 14 ?_ ?_ ?_ ?_ ?_ ?_ ?_ ?_ ?_).bind ((q 6 3 7 11 15 ?_ ?_ ?_ ?_ ?_ ?_ ?_ ?_ ?_).bind
    ((q 8 0 5 10 15 ?_ ?_ ?_ ?_ ?_ ?_ ?_ ?_ ?_).bind ((q 10 1 6 11 12 ?_ ?_ ?_ ?_ ?_ ?_ ?_ ?_ ?_).bind
    ((q 12 2 7 8 13 ?_ ?_ ?_ ?_ ?_ ?_ ?_ ?_ ?_).bind (q 14 3 4 9 14 ?_ ?_ ?_ ?_ ?_ ?_ ?_ ?_ ?_))))))) <;> decide

end Hacspec.HashStructure
