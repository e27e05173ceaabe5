import Verif.Lemmas.ChaCha
import Verif.Lemmas.Chunk
import Verif.Props.Ints
import Verif.Model.Blake2
import Verif.Spec.Blake2

/-! # BLAKE2b: the model refines RFC 7693 -/

namespace Hacspec.Blake2

open SecretInt Hacspec.Seq MachineInt
open Hacspec.ChaCha (getD_set ext_getD)

theorem rotr64 (x : U64) {n : Nat} (hn : n < 64) : rotateRight secU x n = .ok (x.rotateRight n) :=
  ((Props.C04_trait_rotate (k := 6) (by decide) secU (Or.inr rfl) x n).1 hn).2

/-- What the steps of `mix` do. -/
def addF (a b : Nat) (x : U64) (v : List U64) : List U64 := v.set a (v.getD a 0 + v.getD b 0 + x)
def add2F (c d : Nat) (v : List U64) : List U64 := v.set c (v.getD c 0 + v.getD d 0)
def rotF (d a n : Nat) (v : List U64) : List U64 := v.set d ((v.getD d 0 ^^^ v.getD a 0).rotateRight n)

theorem length_addF (a b : Nat) (x : U64) (v : List U64) : (addF a b x v).length = v.length := by simp [addF]
theorem length_add2F (c d : Nat) (v : List U64) : (add2F c d v).length = v.length := by simp [add2F]
theorem length_rotF (d a n : Nat) (v : List U64) : (rotF d a n v).length = v.length := by simp [rotF]

theorem addStep_ok {a b : Nat} {x : U64} {v : List U64} (ha : a < v.length) (hb : b < v.length) :
    addStep v a b x = .ok (addF a b x v) := by
  rw [addStep, idx_getD 0 ha, bind_ok, idx_getD 0 hb, bind_ok, setIdx_ok ha]; rfl

theorem addStep2_ok {c d : Nat} {v : List U64} (hc : c < v.length) (hd : d < v.length) :
    addStep2 v c d = .ok (add2F c d v) := by
  rw [addStep2, idx_getD 0 hc, bind_ok, idx_getD 0 hd, bind_ok, setIdx_ok hc]; rfl

theorem rotStep_ok {d a n : Nat} {v : List U64} (hd : d < v.length) (ha : a < v.length) (hn : n < 64) :
    rotStep v d a n = .ok (rotF d a n v) := by
  rw [rotStep, idx_getD 0 hd, bind_ok, idx_getD 0 ha, bind_ok, rotr64 _ hn, bind_ok, setIdx_ok hd]; rfl

theorem getD_addF {a b j : Nat} {x : U64} {v : List U64} (ha : a < v.length) :
    (addF a b x v).getD j 0 = if a = j then v.getD a 0 + v.getD b 0 + x else v.getD j 0 := by
  rw [addF, getD_set]; simp only [ha, and_true]

theorem getD_add2F {c d j : Nat} {v : List U64} (hc : c < v.length) :
    (add2F c d v).getD j 0 = if c = j then v.getD c 0 + v.getD d 0 else v.getD j 0 := by
  rw [add2F, getD_set]; simp only [hc, and_true]

theorem getD_rotF {d a n j : Nat} {v : List U64} (hd : d < v.length) :
    (rotF d a n v).getD j 0 = if d = j then (v.getD d 0 ^^^ v.getD a 0).rotateRight n else v.getD j 0 := by
  rw [rotF, getD_set]; simp only [hd, and_true]

theorem mix_ok {a b c d : Nat} {x y : U64} {v : List U64} (ha : a < v.length) (hb : b < v.length) (hc : c < v.length)
    (hd : d < v.length) (hab : a ≠ b) (hac : a ≠ c) (had : a ≠ d) (hbc : b ≠ c) (hbd : b ≠ d) (hcd : c ≠ d) :
    mix v a b c d x y = .ok (Spec.Blake2.mix a b c d x y v) := by
  rw [mix, addStep_ok ha hb, bind_ok]
  rw [rotStep_ok (by simpa [length_addF]) (by simpa [length_addF]) (by decide), bind_ok,
    addStep2_ok (by simpa [length_addF, length_rotF]) (by simpa [length_addF, length_rotF]), bind_ok,
    rotStep_ok (by simpa [length_addF, length_rotF, length_add2F]) (by simpa [length_addF, length_rotF, length_add2F])
      (by decide), bind_ok,
    addStep_ok (by simpa [length_addF, length_rotF, length_add2F]) (by simpa [length_addF, length_rotF, length_add2F]),
    bind_ok,
    rotStep_ok (by simpa [length_addF, length_rotF, length_add2F]) (by simpa [length_addF, length_rotF, length_add2F])
      (by decide), bind_ok,
    addStep2_ok (by simpa [length_addF, length_rotF, length_add2F]) (by simpa [length_addF, length_rotF, length_add2F]),
    bind_ok,
    rotStep_ok (by simpa [length_addF, length_rotF, length_add2F]) (by simpa [length_addF, length_rotF, length_add2F])
      (by decide)]
  congr 1
  apply ext_getD 0
  · simp [length_addF, length_add2F, length_rotF, Spec.Blake2.mix]
  · intro j hj
    have hne := Ne.symm hab
    have hne2 := Ne.symm hac
    have hne3 := Ne.symm had
    have hne4 := Ne.symm hbc
    have hne5 := Ne.symm hbd
    have hne6 := Ne.symm hcd
    simp only [Spec.Blake2.mix, getD_set, List.length_set, ha, hb, hc, hd, and_true]
    simp only [getD_addF, getD_add2F, getD_rotF, length_addF, length_add2F, length_rotF, ha, hb, hc, hd]
    by_cases h1 : d = j
    · subst h1
      simp only [if_neg, if_pos, *, not_false_eq_true]
      rfl
    by_cases h2 : c = j
    · subst h2
      simp only [if_neg, if_pos, *, not_false_eq_true]
      rfl
    by_cases h3 : b = j
    · subst h3
      simp only [if_neg, if_pos, *, not_false_eq_true]
      rfl
    by_cases h4 : a = j
    · subst h4
      simp only [if_neg, if_pos, *, not_false_eq_true]
      rfl
    simp only [if_neg, *, not_false_eq_true]

theorem length_mix (a b c d : Nat) (x y : U64) (v : List U64) : (Spec.Blake2.mix a b c d x y v).length = v.length := by
  simp [Spec.Blake2.mix]

/-- Word `k` of the schedule of round `i`. -/
def sched (i k : Nat) : Nat := (Spec.Blake2.sigma.getD (i % 10) []).getD k 0

theorem sigma_ok : ∀ i, i < 12 → ∀ k, k < 16 → idx sigma (i * 16 + k) = .ok (sched i k) ∧ sched i k < 16 := by
  decide +kernel

theorem mixAt_ok {m : List U64} (hm : m.length = 16) {i k a b c d : Nat} (hi : i < 12) (hk : k + 1 < 16) {v : List U64}
    (hv : v.length = 16) (ha : a < 16) (hb : b < 16) (hc : c < 16) (hd : d < 16) (hab : a ≠ b) (hac : a ≠ c) (had : a ≠ d)
    (hbc : b ≠ c) (hbd : b ≠ d) (hcd : c ≠ d) :
    mixAt m i k a b c d v =
      .ok (Spec.Blake2.mix a b c d (m.getD (sched i k) 0) (m.getD (sched i (k + 1)) 0) v) := by
  obtain ⟨h1, h2⟩ := sigma_ok i hi k (by omega)
  obtain ⟨h3, h4⟩ := sigma_ok i hi (k + 1) hk
  rw [mixAt, h1, bind_ok, idx_getD 0 (by omega), bind_ok, h3, bind_ok, idx_getD 0 (by omega), bind_ok,
    mix_ok (by omega) (by omega) (by omega) (by omega) hab hac had hbc hbd hcd]

theorem roundStep_ok {m : List U64} (hm : m.length = 16) {i : Nat} (hi : i < 12) {v : List U64} (hv : v.length = 16) :
    roundStep m i v = .ok (Spec.Blake2.round m i v) := by
  rw [roundStep]
  iterate 7
    rw [mixAt_ok hm hi (by decide) (by simp only [length_mix, hv]) (by decide) (by decide) (by decide) (by decide)
      (by decide) (by decide) (by decide) (by decide) (by decide) (by decide), bind_ok]
  rw [mixAt_ok hm hi (by decide) (by simp only [length_mix, hv]) (by decide) (by decide) (by decide) (by decide)
      (by decide) (by decide) (by decide) (by decide) (by decide) (by decide)]
  rfl

theorem length_round (m : List U64) (i : Nat) (v : List U64) : (Spec.Blake2.round m i v).length = v.length := by
  simp only [Spec.Blake2.round, length_mix]

theorem length_rounds (m : List U64) (n : Nat) (v : List U64) : (Spec.Blake2.rounds m n v).length = v.length := by
  induction n with
  | zero => rfl
  | succ n ih => rw [Spec.Blake2.rounds, length_round, ih]

theorem makeArray_ok {b : List U8} (hb : b.length = 128) : makeArray 64 b = .ok (Spec.words64le b) := by
  rw [makeArray, require_true (by rw [hb]), bind_ok,
    fill_loop (o := 0) (fun i => wordOfLe 64 ((b.drop (8 * i)).take 8)) _ (by simp [length_new])]
  · rw [List.take_zero, List.nil_append, List.drop_of_length_le (by simp [length_new]), List.append_nil,
      ← words64le_chunks b (by omega)]
    simp [chunks, hb]
  · intro i hi t ht
    simp only [show (64 : Nat) / 8 = 8 from rfl]
    rw [getChunk_ok (by omega), bind_ok, arrFromSeq_ok (by simp; omega), bind_ok,
      wordFromLeBytes_ok (by decide) (by simp; omega), bind_ok, Nat.zero_add]
    exact setIdx_ok (by simpa using ht) 

theorem length_words64le {b : List U8} (hb : b.length = 128) : (Spec.words64le b).length = 16 := by
  rw [← words64le_chunks b (by omega)]; simp [chunks, hb]

/-- The counter words of an offset. -/
def ctr (t : Nat) : List U64 := [BitVec.ofNat 64 t, 0]

theorem initV_ok {h : List U64} (hh : h.length = 8) {t : Nat} (ht : t < 2 ^ 64) (last : Bool) :
    initV ivb h (ctr t) last = .ok (
      let v := h ++ Spec.Blake2.iv
      let v := v.set 12 (v.getD 12 0 ^^^ BitVec.ofNat 64 t)
      let v := v.set 13 (v.getD 13 0 ^^^ BitVec.ofNat 64 (t / 2 ^ 64))
      if last then v.set 14 (v.getD 14 0 ^^^ 0xFFFFFFFFFFFFFFFF#64) else v) := by
  rw [Nat.div_eq_of_lt ht]
  match h, hh with
  | [a0, a1, a2, a3, a4, a5, a6, a7], _ =>
    rw [initV, updateSub_ok (by simp [length_new]) (by simp), bind_ok, updateSub_ok (by simp [length_new]) (by simp [ivb]),
      bind_ok]
    cases last
    · rfl
    · rw [if_pos rfl]
      have : ∀ x : U64, ~~~ x = x ^^^ 0xFFFFFFFFFFFFFFFF#64 := fun x => by
        rw [show (0xFFFFFFFFFFFFFFFF#64 : U64) = BitVec.allOnes 64 from rfl, BitVec.xor_allOnes]
      simp only [← this]
      rfl

theorem compress_ok {h : List U64} (hh : h.length = 8) {b : List U8} (hb : b.length = 128) {t : Nat} (ht : t < 2 ^ 64)
    (last : Bool) (alg : Variant) :
    compress ivb h b (ctr t) last alg = .ok (Spec.Blake2.F alg.rounds h (Spec.words64le b) t last) := by
  have hl : ∀ v : List U64, v.length = 16 → (v.set 12 (v.getD 12 0 ^^^ BitVec.ofNat 64 t)).length = 16 := by simp
  rw [compress, makeArray_ok hb, bind_ok, initV_ok hh ht, bind_ok]
  have hv : (let v := h ++ Spec.Blake2.iv
      let v := v.set 12 (v.getD 12 0 ^^^ BitVec.ofNat 64 t)
      let v := v.set 13 (v.getD 13 0 ^^^ BitVec.ofNat 64 (t / 2 ^ 64))
      if last then v.set 14 (v.getD 14 0 ^^^ 0xFFFFFFFFFFFFFFFF#64) else v).length = 16 := by
    cases last <;> simp [Spec.Blake2.iv, hh]
  rw [Spec.Blake2.F]
  generalize (let v := h ++ Spec.Blake2.iv
      let v := v.set 12 (v.getD 12 0 ^^^ BitVec.ofNat 64 t)
      let v := v.set 13 (v.getD 13 0 ^^^ BitVec.ofNat 64 (t / 2 ^ 64))
      if last then v.set 14 (v.getD 14 0 ^^^ 0xFFFFFFFFFFFFFFFF#64) else v) = v at hv ⊢
  have hr : alg.rounds ≤ 12 := by cases alg <;> decide
  rw [show v = Spec.Blake2.rounds (Spec.words64le b) 0 v from rfl,
    loop_eq (fun i => Spec.Blake2.rounds (Spec.words64le b) i v) (fun i hi =>
      roundStep_ok (length_words64le hb) (by omega) (by rw [length_rounds, hv])), bind_ok,
    show Spec.Blake2.rounds (Spec.words64le b) 0 v = v from rfl]
  have hlr := length_rounds (Spec.words64le b) alg.rounds v
  rw [fill_loop (o := 0) (fun i => h.getD i 0 ^^^ (Spec.Blake2.rounds (Spec.words64le b) alg.rounds v).getD i 0 ^^^
    (Spec.Blake2.rounds (Spec.words64le b) alg.rounds v).getD (i + 8) 0) _ (by simp [length_new])]
  · rw [List.take_zero, List.nil_append, List.drop_of_length_le (by simp [length_new]), List.append_nil]
  · intro i hi s hs
    rw [idx_getD 0 (by omega), bind_ok, idx_getD 0 (by omega), bind_ok, idx_getD 0 (by omega), bind_ok, Nat.zero_add]
    exact setIdx_ok (by simpa using hs)

theorem length_F (r : Nat) (h m : List U64) (t : Nat) (f : Bool) : (Spec.Blake2.F r h m t f).length = 8 := by
  simp [Spec.Blake2.F]

theorem incCounter_ok {t x : Nat} (h : t + x < 2 ^ 64) :
    incCounter (ctr t) (BitVec.ofNat 64 x) = .ok (ctr (t + x)) := by
  have e : (pubU : IntOps 64).add (BitVec.ofNat 64 t) (BitVec.ofNat 64 x) = .ok (BitVec.ofNat 64 (t + x)) := by
    show checkedAddU _ _ = _
    rw [checkedAddU, if_pos, BitVec.ofNat_add]
    rw [BitVec.toNat_ofNat, BitVec.toNat_ofNat, Nat.mod_eq_of_lt (by omega), Nat.mod_eq_of_lt (by omega)]
    exact h
  rw [incCounter, show idx (ctr t) 0 = .ok (BitVec.ofNat 64 t) from rfl, bind_ok, e, bind_ok,
    show setIdx (new 2) 0 (BitVec.ofNat 64 (t + x)) = .ok (ctr (t + x)) from rfl, bind_ok, incHigh, if_neg]
  show ¬ decide ((BitVec.ofNat 64 (t + x)).toNat < (BitVec.ofNat 64 x).toNat) = true
  rw [BitVec.toNat_ofNat, BitVec.toNat_ofNat, Nat.mod_eq_of_lt h, Nat.mod_eq_of_lt (by omega)]
  simp

/-- The state of the code after `n` blocks of which none is short. -/
def chainN (r : Nat) (d : List U8) : Nat → List U64
  | 0 => Spec.Blake2.chain d 0
  | i + 1 => Spec.Blake2.F r (chainN r d i) (Spec.Blake2.blockWords d i) ((i + 1) * 128) false

theorem chainN_12 (d : List U8) (n : Nat) : chainN 12 d n = Spec.Blake2.chain d n := by
  induction n with
  | zero => rfl
  | succ n ih => rw [chainN, ih, Spec.Blake2.chain]

theorem length_chainN (r : Nat) (d : List U8) (n : Nat) : (chainN r d n).length = 8 := by
  cases n with
  | zero => rfl
  | succ n => exact length_F _ _ _ _ _

theorem blockStep_full {d : List U8} (hd : d.length < 2 ^ 63) {i : Nat} (h : 128 * (i + 1) ≤ d.length) (alg : Variant) :
    blockStep ivb alg d i (chainN alg.rounds d i, ctr (i * 128)) =
      .ok (chainN alg.rounds d (i + 1), ctr ((i + 1) * 128)) := by
  have hb := ChaCha.length_block (n := 128) (i := i) (m := d)
  rw [Nat.min_eq_left (by omega)] at hb
  rw [blockStep, getChunk_ok (by omega), bind_ok, blockBranch]
  simp only []
  rw [if_pos (by omega), incCounter_ok (by omega), bind_ok, fromSeq_ok, bind_ok,
    show (d.drop (128 * i)).take 128 = Spec.block 128 d i from rfl, show i * 128 + 128 = (i + 1) * 128 by omega,
    compress_ok (length_chainN _ _ _) hb (by omega), bind_ok, chainN, Spec.Blake2.blockWords, hb, Nat.sub_self,
    List.replicate_zero, List.append_nil]

theorem blockStep_last {d : List U8} (hd : d.length < 2 ^ 63) {i : Nat} (h1 : 128 * i < d.length)
    (h2 : d.length < 128 * (i + 1)) (alg : Variant) :
    blockStep ivb alg d i (chainN alg.rounds d i, ctr (i * 128)) =
      .ok (Spec.Blake2.F alg.rounds (chainN alg.rounds d i) (Spec.Blake2.blockWords d i) d.length true,
        ctr d.length) := by
  have hb := ChaCha.length_block (n := 128) (i := i) (m := d)
  rw [Nat.min_eq_right (by omega)] at hb
  rw [blockStep, getChunk_ok (by omega), bind_ok, blockBranch]
  simp only []
  rw [if_neg (by omega), Nat.min_eq_right (by omega), incCounter_ok (by omega), bind_ok,
    show (d.drop (128 * i)).take 128 = Spec.block 128 d i from rfl, updateStart_new (by omega), bind_ok,
    show i * 128 + (d.length - 128 * i) = d.length by omega,
    compress_ok (length_chainN _ _ _) (by rw [List.length_append, List.length_replicate]; omega) (by omega), bind_ok]
  rfl

/-- The state whose bytes are output. -/
def final (r : Nat) (d : List U8) : List U64 :=
  if d.length % 128 = 0 then chainN r d (d.length / 128)
  else Spec.Blake2.F r (chainN r d (d.length / 128)) (Spec.Blake2.blockWords d (d.length / 128)) d.length true

theorem length_final (r : Nat) (d : List U8) : (final r d).length = 8 := by
  rw [final]; split
  · exact length_chainN _ _ _
  · exact length_F _ _ _ _ _

theorem blocks_ok {d : List U8} (hd : d.length < 2 ^ 63) (alg : Variant) :
    loop ((d.length + 127) / 128) (blockStep ivb alg d) (chainN alg.rounds d 0, ctr 0) =
      .ok (final alg.rounds d, ctr d.length) := by
  have hfull : loop (d.length / 128) (blockStep ivb alg d) (chainN alg.rounds d 0, ctr (0 * 128)) =
      .ok (chainN alg.rounds d (d.length / 128), ctr (d.length / 128 * 128)) :=
    loop_eq (fun i => (chainN alg.rounds d i, ctr (i * 128))) (fun i hi => blockStep_full hd (by omega) alg)
  rw [final]
  by_cases h : d.length % 128 = 0
  · rw [if_pos h, show (d.length + 127) / 128 = d.length / 128 by omega]
    rw [Nat.zero_mul] at hfull
    rw [hfull, show d.length / 128 * 128 = d.length by omega]
  · rw [if_neg h, show (d.length + 127) / 128 = d.length / 128 + 1 by omega, loop_succ]
    rw [Nat.zero_mul] at hfull
    rw [hfull, bind_ok, blockStep_last hd (by omega) (by omega)]

theorem getByte_ok (x : U64) {j : Nat} (hj : j < 8) : getByte x j = .ok (x.extractLsb' (8 * j) 8) := by
  have hg : MachineInt.getByte x j = .ok ((x >>> (j * 8)) &&& 255#64) := by
    rw [MachineInt.getByte, require_true (by omega), bind_ok, shrU, if_pos (by omega), bind_ok]; rfl
  rw [getByte, hg, bind_ok, wordToLeBytes_ok, bind_ok, leOfWord64]
  show Except.ok _ = _
  congr 1
  apply BitVec.eq_of_getLsbD_eq
  intro i hi
  have : (255#64).getLsbD i = true := by
    revert i; decide
  simp [hi, this, show i < 64 by omega, Nat.mul_comm]

theorem out_inner {h : List U64} (hh : h.length = 8) {i : Nat} (hi : i < 8) {d : List U8} (hd : i * 8 + 8 ≤ d.length) :
    loop 8 (fun j d => do
      let x ← idx h i
      let b ← getByte x j
      setIdx d (i * 8 + j) b) d =
      .ok (d.take (i * 8) ++ Spec.bytesLe64 (h.getD i 0) ++ d.drop (i * 8 + 8)) := by
  rw [fill_loop (o := i * 8) (fun j => (h.getD i 0).extractLsb' (8 * j) 8) _ hd]
  · rfl
  · intro j hj t ht
    rw [idx_getD 0 (by omega), bind_ok, getByte_ok _ hj, bind_ok, setIdx_ok ht]

theorem range_getD {h : List U64} {n : Nat} (hh : h.length = n) : (List.range n).map (fun i => h.getD i 0) = h := by
  subst hh
  apply List.ext_getElem (by simp)
  intro i h1 h2
  simp [List.getD_eq_getElem?_getD, List.getElem?_eq_getElem h2]

theorem length_flatMap64 (h : List U64) (k : Nat) :
    ((List.range k).flatMap fun i => Spec.bytesLe64 (h.getD i 0)).length = k * 8 := by
  induction k with
  | zero => rfl
  | succ k ih => rw [List.range_succ, List.flatMap_append, List.length_append, ih]; simp [Spec.bytesLe64]; omega

theorem out_step {h : List U64} (hh : h.length = 8) {i N : Nat} (hi : i < 8) (hN : (i + 1) * 8 ≤ N) :
    loop 8 (fun j d => do
      let x ← idx h i
      let b ← getByte x j
      setIdx d (i * 8 + j) b)
      (((List.range i).flatMap fun i => Spec.bytesLe64 (h.getD i 0)) ++ List.replicate (N - i * 8) (0 : U8)) =
      .ok (((List.range (i + 1)).flatMap fun i => Spec.bytesLe64 (h.getD i 0)) ++
        List.replicate (N - (i + 1) * 8) (0 : U8)) := by
  have hl := length_flatMap64 h i
  rw [out_inner hh hi (by rw [List.length_append, hl, List.length_replicate]; omega), List.take_left' hl, List.drop_append,
    hl, List.drop_of_length_le (by omega), List.nil_append, List.drop_replicate, List.range_succ, List.flatMap_append]
  simp only [List.flatMap_cons, List.flatMap_nil, List.append_nil]
  rw [show N - i * 8 - (i * 8 + 8 - i * 8) = N - (i + 1) * 8 by omega]

theorem out_ok {h : List U64} (hh : h.length = 8) :
    loop 8 (fun i d => loop 8 (fun j d => do
      let x ← idx h i
      let b ← getByte x j
      setIdx d (i * 8 + j) b) d) (new 64) = .ok (h.flatMap Spec.bytesLe64) := by
  have := loop_eq (n := 8)
    (fun k => ((List.range k).flatMap fun i => Spec.bytesLe64 (h.getD i 0)) ++ List.replicate (64 - k * 8) (0 : U8))
    (fun i hi => out_step hh hi (by omega))
  rw [show (new 64 : List U8) = ((List.range 0).flatMap fun i => Spec.bytesLe64 (h.getD i 0)) ++
    List.replicate (64 - 0 * 8) (0 : U8) from rfl, this, show 64 - 8 * 8 = 0 from rfl, List.replicate_zero, List.append_nil]
  conv => rhs; rw [← range_getD hh, List.flatMap_map]

theorem blake2_start {d : List U8} (hd : d.length < 2 ^ 63) (alg : Variant) :
    blake2 ivb d alg = loop 8 (fun i o => loop 8 (fun j o => do
      let x ← idx (final alg.rounds d) i
      let b ← getByte x j
      setIdx o (i * 8 + j) b) o) (new alg.digest) := by
  rw [blake2, show idx ivb 0 = .ok 0x6a09e667f3bcc908 from rfl, bind_ok,
    show setIdx ivb 0 (0x6a09e667f3bcc908 ^^^ BitVec.ofNat 64 0x01010000 ^^^ BitVec.ofNat 64 64) =
      .ok (chainN alg.rounds d 0) from rfl, bind_ok, numChunks_ok (by omega) (by omega), bind_ok,
    show (new 2 : List U64) = ctr 0 from rfl, show d.length + 128 - 1 = d.length + 127 by omega, blocks_ok hd, bind_ok]

theorem blake2b_ok {d : List U8} (hd : d.length < 2 ^ 63) :
    blake2b d = .ok ((final 12 d).flatMap Spec.bytesLe64) := by
  have hl : ((final 12 d).flatMap Spec.bytesLe64).length = 64 := by
    have := length_final 12 d
    match final 12 d, this with
    | [_, _, _, _, _, _, _, _], _ => rfl
  rw [blake2b, blake2_start hd]
  show (do let d ← loop 8 (fun i o => loop 8 (fun j o => do
      let x ← idx (final 12 d) i
      let b ← getByte x j
      setIdx o (i * 8 + j) b) o) (new 64); arrFromSeq 64 d) = _
  rw [out_ok (length_final _ _), bind_ok, arrFromSeq_ok hl]

end Hacspec.Blake2
