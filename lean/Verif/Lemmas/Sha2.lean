import Verif.Lemmas.Bytes
import Verif.Model.Sha2
import Verif.Spec.Sha256

/-! # SHA-256: the model refines FIPS 180-4 -/

namespace Hacspec.Sha2

open SecretInt Hacspec.Seq Spec
open Spec.Sha256 (Vars)

/-- Working variables as a hash state of the code. -/
def enc (v : Vars) : List U32 := [v.a, v.b, v.c, v.d, v.e, v.f, v.g, v.h]

theorem kTable_eq : kTable = Spec.Sha256.K := by decide +kernel
theorem initial_eq : initial = enc Spec.Sha256.initial := by decide +kernel

theorem optable_ok : arrFromPublicSlice 12 opTable = .ok opTable := arrFromPublicSlice_ok rfl

theorem sigma_01 (x : U32) : sigma x 0 1 = .ok (Spec.Sha256.Sigma0 x) := rfl
theorem sigma_11 (x : U32) : sigma x 1 1 = .ok (Spec.Sha256.Sigma1 x) := rfl
theorem sigma_20 (x : U32) : sigma x 2 0 = .ok (Spec.Sha256.sigma0 x) := rfl
theorem sigma_30 (x : U32) : sigma x 3 0 = .ok (Spec.Sha256.sigma1 x) := rfl

theorem maj_eq (x y z : U32) : maj x y z = Spec.Sha256.Maj x y z := by
  simp only [maj, Spec.Sha256.Maj, BitVec.xor_assoc]

/-! ## message schedule -/

theorem length_extendW (n : Nat) (w : List U32) : (Spec.Sha256.extendW n w).length = w.length + n := by
  induction n generalizing w with
  | zero => rfl
  | succ n ih => rw [Spec.Sha256.extendW, ih]; simp; omega

theorem extendW_add (m n : Nat) (w : List U32) :
    Spec.Sha256.extendW (m + n) w = Spec.Sha256.extendW n (Spec.Sha256.extendW m w) := by
  induction m generalizing w with
  | zero => rw [Nat.zero_add]; rfl
  | succ m ih => rw [Nat.succ_add, Spec.Sha256.extendW, ih]; rfl

theorem extendW_succ (n : Nat) (w : List U32) :
    Spec.Sha256.extendW (n + 1) w =
      Spec.Sha256.extendW n w ++ [Spec.Sha256.nextW (Spec.Sha256.extendW n w)] := by
  rw [extendW_add]; rfl

theorem schedule_ok {b : List U8} (hb : b.length = 64) :
    schedule b = .ok (Spec.Sha256.schedule (words32be b)) := by
  rw [schedule, arrToBeWords32 hb (by decide), bind_ok]
  have hw : (words32be b).length = 16 := by rw [length_words32be, hb]
  generalize words32be b = w at hw
  have h16 := loop_eq (n := 16) (body := scheduleStep w)
    (fun i => w.take i ++ List.replicate (64 - i) 0#32) (by
      intro i hi
      have hi' : i < w.length := by omega
      show scheduleStep w i _ = _
      rw [scheduleStep, if_pos hi, idx_ok hi', bind_ok, setIdx_ok (by simp; omega)]
      congr 1
      have : 64 - i = (64 - (i + 1)) + 1 := by omega
      rw [this, List.replicate_succ, set_append_ge (by simp; omega)]
      rw [List.take_add_one, List.getElem?_eq_getElem hi', List.length_take, Nat.min_eq_left (Nat.le_of_lt hi'),
        Nat.sub_self, List.set_cons_zero, List.append_assoc]
      rfl)
  have h48 := loop_eq (n := 48) (body := fun i => scheduleStep w (16 + i))
    (fun i => Spec.Sha256.extendW i w ++ List.replicate (48 - i) 0#32) (by
      intro i hi
      have hl := length_extendW i w
      rw [hw] at hl
      show scheduleStep w (16 + i) _ = _
      rw [scheduleStep, if_neg (by omega), extendW_succ]
      generalize Spec.Sha256.extendW i w = e at hl
      have hg : ∀ k, k < 16 + i → idx (e ++ List.replicate (48 - i) 0#32) k = .ok (e.getD k 0) := by
        intro k hk
        rw [idx_getD 0#32 (by simp; omega)]
        rw [getD_append_lt (by omega)]
        rfl
      rw [hg _ (by omega), bind_ok, hg _ (by omega), bind_ok, hg _ (by omega), bind_ok, hg _ (by omega), bind_ok,
        sigma_30, bind_ok, sigma_20, bind_ok, setIdx_ok (by simp; omega)]
      congr 1
      have : 48 - i = (48 - (i + 1)) + 1 := by omega
      rw [this, List.replicate_succ, set_append_ge (by omega), Spec.Sha256.nextW, hl]
      simp [SecretInt.add])
  have h0 : loop 16 (scheduleStep w) (new 64) = .ok (w ++ List.replicate 48 0#32) := by
    refine h16.trans ?_
    simp only [List.take_of_length_le (Nat.le_of_eq hw)]
  have := loop_add 16 48 (scheduleStep w) (new 64)
  rw [h0, bind_ok] at this
  refine this.trans (h48.trans ?_)
  simp [Spec.Sha256.schedule]

/-! ## compression -/

theorem shuffleStep_ok {w : List U32} (hw : w.length = 64) {i : Nat} (hi : i < 64) (v : Vars) :
    shuffleStep kTable w i (enc v) =
      .ok (enc (Spec.Sha256.round (Spec.Sha256.K.getD i 0) (w.getD i 0) v)) := by
  rw [shuffleStep]
  simp only [enc, idx, setIdx, List.getElem?_cons_zero, List.getElem?_cons_succ, bind_ok, sigma_11, sigma_01]
  have hk : kTable[i]? = some (kTable.getD i 0) := by
    rw [List.getD_eq_getElem?_getD, List.getElem?_eq_getElem (show i < kTable.length from hi)]; rfl
  have hwi : w[i]? = some (w.getD i 0) := by
    rw [List.getD_eq_getElem?_getD, List.getElem?_eq_getElem (by omega)]; rfl
  simp only [hk, hwi, bind_ok, ← kTable_eq, maj_eq]
  rfl

theorem compress_ok {b : List U8} (hb : b.length = 64) (v : Vars) :
    compress b (enc v) = .ok (enc (Spec.Sha256.compress v b)) := by
  rw [compress, schedule_ok hb, bind_ok, shuffle, arrFromPublicSlice_ok (by rfl), bind_ok]
  have hw : (Spec.Sha256.schedule (words32be b)).length = 64 := by
    rw [Spec.Sha256.schedule, length_extendW, length_words32be, hb]
  rw [loop_foldl enc (fun i => Spec.Sha256.round (Spec.Sha256.K.getD i 0)
    ((Spec.Sha256.schedule (words32be b)).getD i 0)) v (fun i hi t => shuffleStep_ok hw hi t), bind_ok]
  rw [Spec.Sha256.compress]
  rfl

/-! ## padding -/

theorem iterate_append {a b : List U8} (v : Vars) (h : a.length % 64 = 0) :
    Spec.Sha256.iterate v (a ++ b) = Spec.Sha256.iterate (Spec.Sha256.iterate v a) b := by
  have hl : (a ++ b).length / 64 = a.length / 64 + b.length / 64 := by rw [List.length_append]; omega
  have ha : a.length = 64 * (a.length / 64) := by omega
  simp only [Spec.Sha256.iterate]
  rw [hl, List.range_add, List.foldl_append, List.foldl_map]
  have h1 : (List.range (a.length / 64)).foldl (fun s i => Spec.Sha256.compress s (block 64 (a ++ b) i)) v =
      (List.range (a.length / 64)).foldl (fun s i => Spec.Sha256.compress s (block 64 a i)) v := by
    apply foldl_range_congr
    intro s i hi
    rw [block, block, List.drop_append_of_le_length (by omega), List.take_append_of_le_length (by simp; omega)]
  rw [h1]
  apply foldl_range_congr
  intro s i hi
  rw [block, block, show 64 * (a.length / 64 + i) = a.length + 64 * i by omega, ← List.drop_drop,
    List.drop_left]

theorem iterate_one {a : List U8} (v : Vars) (h : a.length = 64) :
    Spec.Sha256.iterate v a = Spec.Sha256.compress v a := by
  rw [Spec.Sha256.iterate, h]
  simp [block, List.take_of_length_le (Nat.le_of_eq h)]

/-- The full blocks. -/
theorem hash_full {m : List U8} (v : Vars) {q : Nat} (h : 64 * q ≤ m.length) :
    loop q (hashStep m) (enc v) = .ok (enc (Spec.Sha256.iterate v (m.take (64 * q)))) := by
  rw [loop_foldl enc (fun i s => Spec.Sha256.compress s (block 64 m i)) v]
  · refine congrArg (fun x => Except.ok (enc x)) ?_
    rw [Spec.Sha256.iterate]
    have : (m.take (64 * q)).length / 64 = q := by simp; omega
    rw [this]
    apply foldl_range_congr
    intro s i hi
    rw [block, block, List.drop_take, List.take_take, Nat.min_eq_left (by omega)]
  · intro i hi t
    have hb : ((m.drop (64 * i)).take 64).length = 64 := by simp; omega
    rw [hashStep, getChunk_ok (by omega), bind_ok]
    have hm : min 64 (m.length - 64 * i) = 64 := by omega
    simp only [hm]
    rw [if_neg (by omega), updateStart_new (by omega), bind_ok]
    rw [hb, Nat.sub_self, List.replicate_zero, List.append_nil, compress_ok hb]
    rfl

theorem lastBlock_ok {n : Nat} {b : List U8} (v : Vars) (hb : b.length < 64) (hn : n * 8 < 2 ^ 64) :
    lastBlock n b.length b (enc v) =
      .ok (enc (Spec.Sha256.iterate v (b ++ [0x80#8] ++ List.replicate ((119 - b.length) % 64) 0 ++
        bytesBe64 (BitVec.ofNat 64 (8 * n))))) := by
  rw [lastBlock, updateStart_new (by omega), bind_ok]
  have hz : (b ++ List.replicate (64 - b.length) (default : U8)).length = 64 := by simp; omega
  rw [update_ok (by rw [hz, length_new]; omega), bind_ok, hz]
  simp only [Nat.zero_add, List.take_zero, List.nil_append]
  rw [List.drop_of_length_le (by rw [length_new]; omega), List.append_nil]
  rw [setIdx_ok (by omega), bind_ok, require_true hn, bind_ok, wordToBeBytes_ok]
  rw [set_append_ge (by omega), show 64 - b.length = (63 - b.length) + 1 by omega, Nat.sub_self,
    List.replicate_succ, List.set_cons_zero, beOfWord64, Nat.mul_comm n 8]
  generalize hL : bytesBe64 (BitVec.ofNat 64 (8 * n)) = L
  have hL8 : L.length = 8 := by rw [← hL]; rfl
  have hd : (default : U8) = 0 := rfl
  by_cases h56 : b.length < 56
  · rw [if_pos h56, bind_ok, update_ok (by simp; omega), bind_ok]
    have : List.take (64 - 8) (b ++ 0x80#8 :: List.replicate (63 - b.length) default) ++ L ++
        List.drop (64 - 8 + L.length) (b ++ 0x80#8 :: List.replicate (63 - b.length) default) =
        b ++ [0x80#8] ++ List.replicate ((119 - b.length) % 64) 0 ++ L := by
      rw [List.drop_of_length_le (by simp; omega), List.append_nil, List.take_append,
        List.take_of_length_le (by omega), show 64 - 8 - b.length = (55 - b.length) + 1 by omega,
        List.take_succ_cons, List.take_replicate, hd, show min (55 - b.length) (63 - b.length) =
          (119 - b.length) % 64 by omega]
      simp
    rw [this, compress_ok (by simp; omega), iterate_one _ (by simp; omega)]
  · rw [if_neg h56, bind_ok, update_ok (by rw [length_new]; omega), bind_ok]
    rw [compress_ok (by simp; omega), bind_ok]
    have : List.take (64 - 8) (new 64) ++ L ++ List.drop (64 - 8 + L.length) (new 64) =
        List.replicate 56 (0 : U8) ++ L := by
      rw [List.drop_of_length_le (by rw [length_new]; omega)]
      simp [new, hd]
    rw [this, compress_ok (by simp; omega)]
    have e : b ++ [0x80#8] ++ List.replicate ((119 - b.length) % 64) 0 ++ L =
        (b ++ 0x80#8 :: List.replicate (63 - b.length) 0) ++ (List.replicate 56 0 ++ L) := by
      rw [show (119 - b.length) % 64 = (63 - b.length) + 56 by omega, ← List.replicate_append_replicate]
      simp
    rw [e, iterate_append _ (by simp; omega), iterate_one _ (by simp; omega), iterate_one _ (by simp; omega), hd]

theorem digest_ok (v : Vars) :
    (do let d ← arrToBeBytes 8 (enc v); arrFromSeq 32 d) = .ok (Spec.Sha256.digest v) := by
  rw [arrToBeBytes_ok (by rfl), bind_ok, arrFromSeq_ok (by rfl)]
  rfl

/-- A whole number of blocks: no padding. -/
theorem hash_blocks {m : List U8} (h : m.length % 64 = 0) (hn : m.length < 2 ^ 63) :
    hash m = .ok (Spec.Sha256.digest (Spec.Sha256.iterate Spec.Sha256.initial m)) := by
  rw [hash, arrFromPublicSlice_ok (by rfl), bind_ok, numChunks_ok (by omega) (by omega), bind_ok]
  rw [show (m.length + 64 - 1) / 64 = m.length / 64 by omega, initial_eq, hash_full _ (by omega), bind_ok,
    List.take_of_length_le (by omega), digest_ok]

theorem hash_partial_block {m : List U8} (h : m.length % 64 ≠ 0) (hn : m.length < 2 ^ 61) :
    hash m = .ok (Spec.Sha256.sha256 m) := by
  rw [hash, arrFromPublicSlice_ok (by rfl), bind_ok, numChunks_ok (by omega) (by omega), bind_ok]
  rw [show (m.length + 64 - 1) / 64 = m.length / 64 + 1 by omega, initial_eq, loop_succ, hash_full _ (by omega),
    bind_ok, hashStep, getChunk_ok (by omega), bind_ok]
  have hb : ((m.drop (64 * (m.length / 64))).take 64).length = m.length % 64 := by simp; omega
  have hm : min 64 (m.length - 64 * (m.length / 64)) = ((m.drop (64 * (m.length / 64))).take 64).length := by
    rw [hb]; omega
  simp only [hm]
  rw [if_pos (by omega), lastBlock_ok _ (by omega) (by omega), bind_ok, digest_ok, ← iterate_append _ (by simp; omega),
    Spec.Sha256.sha256, Spec.Sha256.pad, hb]
  congr 3
  have : m.take (64 * (m.length / 64)) ++ (m.drop (64 * (m.length / 64))).take 64 = m := by
    rw [List.take_of_length_le (l := m.drop _) (by rw [List.length_drop]; omega), List.take_append_drop]
  simp only [← List.append_assoc]
  rw [this]
  rfl

theorem hash_too_long {m : List U8} (h : m.length % 64 ≠ 0) (hn : 2 ^ 61 ≤ m.length) (hu : m.length < 2 ^ 63) : hash m = panic := by
  rw [hash, arrFromPublicSlice_ok (by rfl), bind_ok, numChunks_ok (by omega) (by omega), bind_ok]
  rw [show (m.length + 64 - 1) / 64 = m.length / 64 + 1 by omega, initial_eq, loop_succ, hash_full _ (by omega),
    bind_ok, hashStep, getChunk_ok (by omega), bind_ok]
  have hb : ((m.drop (64 * (m.length / 64))).take 64).length = m.length % 64 := by simp; omega
  have hm : min 64 (m.length - 64 * (m.length / 64)) = ((m.drop (64 * (m.length / 64))).take 64).length := by
    rw [hb]; omega
  simp only [hm]
  rw [if_pos (by omega), lastBlock, updateStart_new (by omega), bind_ok]
  generalize (m.drop (64 * (m.length / 64))).take 64 = b at hb
  have hz : (b ++ List.replicate (64 - b.length) (default : U8)).length = 64 := by simp; omega
  rw [update_ok (by rw [hz, length_new]; omega), bind_ok, hz]
  simp only [Nat.zero_add, List.take_zero, List.nil_append]
  rw [List.drop_of_length_le (by rw [length_new]; omega), List.append_nil]
  rw [setIdx_ok (by omega), bind_ok, require_false (by omega)]
  rfl

theorem length_pad (m : List U8) : (Spec.Sha256.pad m).length % 64 = 0 := by
  simp only [Spec.Sha256.pad, bytesBe64, List.length_append, List.length_cons, List.length_nil, List.length_replicate]
  omega

end Hacspec.Sha2
