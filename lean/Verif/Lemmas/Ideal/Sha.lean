import Verif.Lemmas.Ideal.DaviesMeyer
import Verif.Lemmas.Ideal.ChaCha
import Verif.Lemmas.Sha2Structure
import Verif.Props.HashCollisions
import Verif.Model.IdealSha

/-! # SHA-256 with any compression function -/

namespace Hacspec.Ideal

open Spec Hacspec.Seq Hacspec.Sha2 Hacspec.Props

variable {c : List U8 → List U32 → M (List U32)}

theorem fullBlocks_one {b : List U8} (hb : b.length = 64) : fullBlocks 64 b = [b] := by
  rw [fullBlocks, hb]
  simp [List.take_of_length_le (Nat.le_of_eq hb)]

theorem fullBlocks_app {l k : List U8} (hl : l.length % 64 = 0) : fullBlocks 64 (l ++ k) = fullBlocks 64 l ++ fullBlocks 64 k := by
  have hm : 64 * (l.length / 64) = l.length := by omega
  have e : (l ++ k).length / 64 = l.length / 64 + k.length / 64 := by rw [List.length_append]; omega
  rw [fullBlocks, fullBlocks, fullBlocks, e, List.range_add, List.map_append, List.map_map]
  congr 1
  · apply List.map_congr_left
    intro i hi
    rw [List.mem_range] at hi
    rw [List.drop_append_of_le_length (by omega), List.take_append_of_le_length (by simp; omega)]
  · apply List.map_congr_left
    intro i hi
    rw [Function.comp, Nat.mul_add, hm, List.drop_append, List.drop_of_length_le (by omega), List.nil_append,
      Nat.add_sub_cancel_left]

theorem chained_single (s : List U32) (b : List U8) : chained c s [b] = c b s := by
  rw [chained]
  cases c b s <;> rfl

theorem chained_pair (s : List U32) (b b' : List U8) : chained c s [b, b'] = c b s >>= c b' := by
  rw [chained]
  cases c b s with
  | error e => rfl
  | ok t => exact chained_single t b'

theorem lastBlockWith_ok {n : Nat} {b : List U8} (s : List U32) (hb : b.length < 64) (hn : n * 8 < 2 ^ 64) :
    lastBlockWith c n b.length b s =
      chained c s (fullBlocks 64 (b ++ [0x80#8] ++ List.replicate ((119 - b.length) % 64) 0 ++
        bytesBe64 (BitVec.ofNat 64 (8 * n)))) := by
  rw [lastBlockWith, updateStart_new (by omega), bind_ok]
  have hz : (b ++ List.replicate (64 - b.length) (default : U8)).length = 64 := by simp; omega
  rw [update_ok (by rw [hz, length_new]), bind_ok, hz]
  simp only [Nat.zero_add, List.take_zero, List.nil_append]
  rw [List.drop_of_length_le (by rw [length_new]), List.append_nil]
  rw [setIdx_ok (by omega), bind_ok, require_true hn, bind_ok, wordToBeBytes_ok]
  rw [set_append_ge (by omega), show 64 - b.length = (63 - b.length) + 1 by omega, Nat.sub_self,
    List.replicate_succ, List.set_cons_zero, beOfWord64, Nat.mul_comm n 8]
  generalize hL : bytesBe64 (BitVec.ofNat 64 (8 * n)) = L
  have hL8 : L.length = 8 := by rw [← hL]; rfl
  have hd : (default : U8) = 0 := rfl
  by_cases h56 : b.length < 56
  · rw [if_pos h56, bind_ok, update_ok (by simp; omega), bind_ok]
    have : List.take (64 - 8) (b ++ 0x80#8 :: List.replicate (63 - b.length) default) ++ L ++
        List.drop (64 - 8 + L.length) (b ++ 0x80#8 :: List.replicate (63 - b.length) default) =
        b ++ [0x80#8] ++ List.replicate ((119 - b.length) % 64) 0 ++ L := by
      rw [List.drop_of_length_le (by simp; omega), List.append_nil, List.take_append,
        List.take_of_length_le (by omega), show 64 - 8 - b.length = (55 - b.length) + 1 by omega,
        List.take_succ_cons, List.take_replicate, hd, show min (55 - b.length) (63 - b.length) =
          (119 - b.length) % 64 by omega]
      simp
    rw [this, fullBlocks_one (by simp; omega), chained_single]
  · rw [if_neg h56, bind_ok, update_ok (by rw [length_new]; omega), bind_ok]
    have : List.take (64 - 8) (new 64) ++ L ++ List.drop (64 - 8 + L.length) (new 64) =
        List.replicate 56 (0 : U8) ++ L := by
      rw [List.drop_of_length_le (by rw [length_new]; omega)]
      simp [new, hd]
    rw [this]
    have e : b ++ [0x80#8] ++ List.replicate ((119 - b.length) % 64) 0 ++ L =
        (b ++ 0x80#8 :: List.replicate (63 - b.length) 0) ++ (List.replicate 56 0 ++ L) := by
      rw [show (119 - b.length) % 64 = (63 - b.length) + 56 by omega, ← List.replicate_append_replicate]
      simp
    rw [e, fullBlocks_app (by simp; omega), fullBlocks_one (by simp; omega), fullBlocks_one (by simp; omega),
      List.singleton_append, chained_pair, hd]

theorem hashWith_full {m : List U8} (s : List U32) {q : Nat} (h : 64 * q ≤ m.length) :
    loop q (hashStepWith c m) s = chained c s (fullBlocks 64 (m.take (64 * q))) := by
  have hq : (m.take (64 * q)).length / 64 = q := by simp; omega
  rw [fullBlocks, hq]
  have key : ∀ k, k ≤ q → loop k (hashStepWith c m) s =
      chained c s ((List.range k).map fun i => ((m.take (64 * q)).drop (64 * i)).take 64) := by
    intro k hk
    induction k with
    | zero => rfl
    | succ k ih =>
      rw [loop_succ, ih (by omega), List.range_succ, List.map_append, chained_append]
      congr 1
      funext t
      have hb : ((m.drop (64 * k)).take 64).length = 64 := by simp; omega
      rw [List.map_singleton, chained_single, hashStepWith, getChunk_ok (by omega), bind_ok]
      have hm : min 64 (m.length - 64 * k) = 64 := by omega
      simp only [hm]
      rw [if_neg (by omega), updateStart_new (by omega), bind_ok]
      rw [hb, Nat.sub_self, List.replicate_zero, List.append_nil, List.drop_take, List.take_take, Nat.min_eq_left (by omega)]
  exact key q (Nat.le_refl q)

/-- `hash` iterates its compression function over the blocks of C80, whatever the compression function is. -/
theorem hashWith_chain (m : List U8) (hm : m.length < 2 ^ 61) :
    hashWith c m = (do
      let s ← chained c initial (shaBlocks m)
      let d ← arrToBeBytes 8 s
      arrFromSeq 32 d) := by
  rw [hashWith, arrFromPublicSlice_ok (by rfl), bind_ok, numChunks_ok (by omega) (by omega), bind_ok, shaBlocks]
  by_cases h : m.length % 64 = 0
  · rw [if_pos h, show (m.length + 64 - 1) / 64 = m.length / 64 by omega, hashWith_full _ (by omega),
      List.take_of_length_le (by omega)]
  · rw [if_neg h, show (m.length + 64 - 1) / 64 = m.length / 64 + 1 by omega, loop_succ, hashWith_full _ (by omega)]
    have hb : ((m.drop (64 * (m.length / 64))).take 64).length = m.length % 64 := by simp; omega
    have hm' : min 64 (m.length - 64 * (m.length / 64)) = ((m.drop (64 * (m.length / 64))).take 64).length := by
      rw [hb]; omega
    have hstep : ∀ s, hashStepWith c m (m.length / 64) s = chained c s (fullBlocks 64
        ((m.drop (64 * (m.length / 64))).take 64 ++ [0x80#8] ++
          List.replicate ((119 - ((m.drop (64 * (m.length / 64))).take 64).length) % 64) 0 ++
          bytesBe64 (BitVec.ofNat 64 (8 * m.length)))) := by
      intro s
      rw [hashStepWith, getChunk_ok (by omega), bind_ok]
      simp only [hm']
      rw [if_pos (by omega), lastBlockWith_ok _ (by omega) (by omega)]
    have hs : Sha256.pad m = m.take (64 * (m.length / 64)) ++ ((m.drop (64 * (m.length / 64))).take 64 ++ [0x80#8] ++
          List.replicate ((119 - ((m.drop (64 * (m.length / 64))).take 64).length) % 64) 0 ++
          bytesBe64 (BitVec.ofNat 64 (8 * m.length))) := by
      have : m.take (64 * (m.length / 64)) ++ (m.drop (64 * (m.length / 64))).take 64 = m := by
        rw [List.take_of_length_le (l := m.drop _) (by rw [List.length_drop]; omega), List.take_append_drop]
      simp only [← List.append_assoc]
      rw [this, hb]
      rfl
    rw [hs, fullBlocks_app (by simp; omega), chained_append]
    congr 1
    exact congrArg _ (funext hstep)

/-! ## The block cipher -/

/-- Addition of states. -/
def addWords (a b : Words 32 8) : Words 32 8 := ⟨addState a.1 b.1, by
  rw [addState, List.length_zipWith, a.2, b.2]; rfl⟩

theorem compressWith_ok (E : Bytes 64 → Equiv.Perm (Words 32 8)) (b : Bytes 64) (s : Words 32 8) :
    compressWith (shaCipher E) b.1 s.1 = .ok (addWords (E b s) s).1 := by
  rw [compressWith, shaCipher, dif_pos ⟨b.2, s.2⟩, bind_ok]
  generalize E b s = r
  obtain ⟨v, hv⟩ := exists_enc s.2
  obtain ⟨u, hu⟩ := exists_enc r.2
  show loop 8 _ r.1 = .ok (addState r.1 s.1)
  rw [hv, hu]
  rfl

theorem zipWith_add_left {a b b' : List U32} (l : a.length = b.length) (l' : a.length = b'.length)
    (h : List.zipWith (· + ·) a b = List.zipWith (· + ·) a b') : b = b' := by
  induction a generalizing b b' with
  | nil => rw [List.eq_nil_of_length_eq_zero l.symm, List.eq_nil_of_length_eq_zero l'.symm]
  | cons x a ih =>
    match b, b' with
    | y :: b, y' :: b' =>
      rw [List.zipWith_cons_cons, List.zipWith_cons_cons] at h
      injection h with h1 h2
      rw [ih (Nat.succ.inj l) (Nat.succ.inj l') h2]
      rw [(BitVec.add_right_inj x).mp h1]

theorem addWords_left (x y y' : Words 32 8) (h : addWords x y = addWords x y') : y = y' :=
  Subtype.ext (zipWith_add_left (by rw [x.2, y.2]) (by rw [x.2, y'.2]) (congrArg Subtype.val h))

theorem addWords_comm (x y : Words 32 8) : addWords x y = addWords y x :=
  Subtype.ext (List.zipWith_comm_of_comm (fun a b => BitVec.add_comm a b))

theorem addWords_right (x y y' : Words 32 8) (h : addWords y x = addWords y' x) : y = y' := by
  rw [addWords_comm y, addWords_comm y'] at h
  exact addWords_left x y y' h

/-- The initial value. -/
def shaStart : Words 32 8 := ⟨initial, rfl⟩

theorem chained_sha (E : Bytes 64 → Equiv.Perm (Words 32 8)) (ks : List (Bytes 64)) (s : Words 32 8) :
    ∃ t, chained (dm addWords E) s ks = .ok t ∧ chained (compressWith (shaCipher E)) s.1 (ks.map Subtype.val) = .ok t.1 := by
  induction ks generalizing s with
  | nil => exact ⟨s, rfl, rfl⟩
  | cons k ks ih =>
    obtain ⟨t, h1, h2⟩ := ih (addWords (E k s) s)
    refine ⟨t, ?_, ?_⟩
    · rw [chained, dm, bind_ok, h1]
    · rw [List.map_cons, chained, compressWith_ok, bind_ok, h2]

theorem length_of_mem_shaBlocks {m b : List U8} (h : b ∈ shaBlocks m) : b.length = 64 := by
  rw [shaBlocks, fullBlocks, List.mem_map] at h
  obtain ⟨i, hi, rfl⟩ := h
  rw [List.mem_range] at hi
  rw [List.length_take, List.length_drop]
  omega

/-- The blocks, with their length. -/
def shaKeys (m : List U8) : List (Bytes 64) := (shaBlocks m).pmap Subtype.mk fun _ => length_of_mem_shaBlocks

theorem map_shaKeys (m : List U8) : (shaKeys m).map Subtype.val = shaBlocks m := by
  rw [shaKeys, List.map_pmap, List.pmap_eq_map, List.map_id']

theorem length_shaKeys {m : List U8} {ℓ : Nat} (h : m.length + 9 ≤ 64 * ℓ) : (shaKeys m).length ≤ ℓ := by
  rw [← List.length_map (f := Subtype.val), map_shaKeys, shaBlocks, length_fullBlocks]
  split
  · omega
  · simp only [Sha256.pad, bytesBe64, List.length_append, List.length_cons, List.length_nil, List.length_replicate]
    omega

theorem digest_inj {s t : Words 32 8} {d : List U8} (h : (do let x ← arrToBeBytes 8 s.1; arrFromSeq 32 x) = .ok d)
    (h' : (do let x ← arrToBeBytes 8 t.1; arrFromSeq 32 x) = .ok d) : s = t := by
  obtain ⟨v, hv⟩ := exists_enc s.2
  obtain ⟨u, hu⟩ := exists_enc t.2
  rw [hv, digest_ok] at h
  rw [hu, digest_ok] at h'
  have := congrArg HashStructure.varsOf (Except.ok.inj (h.trans h'.symm))
  rw [HashStructure.varsOf_digest, HashStructure.varsOf_digest] at this
  exact Subtype.ext (by rw [hv, hu, this])

/-- `hash` from its last state. -/
theorem sha_ok (E : Bytes 64 → Equiv.Perm (Words 32 8)) {m d : List U8} (hm : m.length < 2 ^ 61) (h : sha E m = .ok d) :
    ∃ t, chained (dm addWords E) shaStart (shaKeys m) = .ok t ∧ (do let x ← arrToBeBytes 8 t.1; arrFromSeq 32 x) = .ok d := by
  obtain ⟨t, h1, h2⟩ := chained_sha E (shaKeys m) shaStart
  rw [map_shaKeys] at h2
  rw [sha, hashWith_chain m hm, show initial = shaStart.1 from rfl, h2, bind_ok] at h
  exact ⟨t, h1, h⟩

theorem card_words (w n : Nat) : Fintype.card (Words w n) = (2 ^ w) ^ n := by
  have h1 : Fintype.card (BitVec w) = 2 ^ w := by
    rw [Fintype.ofEquiv_card, Fintype.card_fin]
  rw [← h1]
  exact card_vector n

end Hacspec.Ideal
