import Verif.Lemmas.Leak.Aes
import Verif.Lemmas.Leak.Tells
import Verif.Lemmas.AesCipher

/-! # What the events of AES tell about the key -/

namespace Hacspec.Leak.Aes

open Leak.Seq
open Hacspec.Aes (Uniform roundKey_eq length_roundKey length_rounds length_flatten_uniform nk nr)

theorem subByte_tells {x y : U8} : Tells (fun _ _ => x = y) (subByte x) (subByte y) :=
  Tells.idx.mono fun _ _ h => BitVec.eq_of_toNat_eq h

/-- The events of `sub_bytes` tell the whole state. -/
theorem subBytes_tells {s s' : List U8} (hs : s.length = 16) (hs' : s'.length = 16) :
    Tells (fun a b => s = s' ∧ Len a b) (subBytes s) (subBytes s') := by
  unfold subBytes
  refine Tells.mono (Tells.loop (fun i t t' => Len t t' ∧ ∀ j, j < i → s[j]? = s'[j]?)
    ⟨hs.trans hs'.symm, fun j hj => absurd hj (by omega)⟩ ?_) ?_
  · rintro i hi t t' ⟨ht, hj⟩
    refine Tells.bind (R := fun _ _ => True) (Tells.idx.mono fun _ _ _ => trivial) ?_
    intro a b ha hb _
    refine Tells.bind subByte_tells ?_
    intro c d _ _ hab
    refine Tells.mono (Same.setIdx ht rfl).tells ?_
    intro e f hef
    refine ⟨hef, fun j hj' => ?_⟩
    rcases Nat.lt_or_ge j i with h | h
    · exact hj j h
    · have hji : j = i := by omega
      subst hji
      rw [res_idx, Hacspec.idx_ok (by omega)] at ha hb
      rw [List.getElem?_eq_getElem (by omega), List.getElem?_eq_getElem (by omega)]
      cases ha
      cases hb
      rw [hab]
  · rintro a b ⟨h1, h2⟩
    refine ⟨List.ext_getElem? fun j => ?_, h1⟩
    rcases Nat.lt_or_ge j 16 with h | h
    · exact h2 j h
    · rw [List.getElem?_eq_none (by omega), List.getElem?_eq_none (by omega)]

theorem aesEnc_tells {s s' k k' : List U8} (hs : s.length = 16) (hs' : s'.length = 16) (hk : Len k k') :
    Tells (fun _ _ => s = s') (aesEnc s k) (aesEnc s' k') := by
  unfold aesEnc
  refine Tells.bind (subBytes_tells hs hs') ?_
  rintro a b _ _ ⟨h1, h2⟩
  refine Tells.bind (shiftRows_same h2).tells ?_
  intro c d _ _ h3
  refine Tells.bind (mixColumns_same h3).tells ?_
  intro e f _ _ h4
  exact (addRoundKey_same h4 hk).tells.mono fun _ _ _ => h1

theorem aesEncLast_tells {s s' k k' : List U8} (hs : s.length = 16) (hs' : s'.length = 16) (hk : Len k k') :
    Tells (fun _ _ => s = s') (aesEncLast s k) (aesEncLast s' k') := by
  unfold aesEncLast
  refine Tells.bind (subBytes_tells hs hs') ?_
  rintro a b _ _ ⟨h1, h2⟩
  refine Tells.bind (shiftRows_same h2).tells ?_
  intro c d _ _ h3
  exact (addRoundKey_same h3 hk).tells.mono fun _ _ _ => h1

/-- One iteration of `rounds_aes`. -/
theorem round_ok {ws : List (List U8)} (h : Uniform 4 ws) {nr' : Nat} (hl : ws.length = 4 * (nr' + 1)) {s : List U8}
    (hs : s.length = 16) {i : Nat} (hi : i < nr' - 1) :
    (do
      let kb ← Hacspec.Seq.getChunk ((ws.flatten.drop 16).take (nr' * 16 - 16)) 16 i
      let rk ← Hacspec.Seq.arrFromSeq 16 kb.2
      Hacspec.Aes.aesEnc (Spec.Aes.rounds ws i s) rk) = .ok (Spec.Aes.rounds ws (i + 1) s) := by
  have hf := length_flatten_uniform h
  have hk : ((ws.flatten.drop 16).take (nr' * 16 - 16)).length = (nr' - 1) * 16 := by
    rw [List.length_take, List.length_drop]; omega
  rw [Hacspec.Seq.getChunk_ok (by rw [hk]; omega), bind_ok]
  have e : (((ws.flatten.drop 16).take (nr' * 16 - 16)).drop (16 * i)).take 16 = Spec.Aes.roundKey ws (i + 1) := by
    rw [roundKey_eq h, List.drop_take, List.take_take, List.drop_drop, Nat.min_eq_left (by omega)]
    congr 2; omega
  simp only [e]
  rw [Hacspec.Seq.arrFromSeq_ok (length_roundKey h hl (by omega)), bind_ok,
    Hacspec.Aes.aesEnc_ok (length_rounds h hl (by omega) hs) (length_roundKey h hl (by omega))]
  rfl

theorem roundsAes_tells {ws ws' : List (List U8)} (h : Uniform 4 ws) (h' : Uniform 4 ws') {nr' : Nat}
    (hl : ws.length = 4 * (nr' + 1)) (hl' : ws'.length = 4 * (nr' + 1)) (hn : 1 ≤ nr') (hb : nr' < 2 ^ 32)
    {s s' : List U8} (hs : s.length = 16) (hs' : s'.length = 16) :
    Tells (fun a b => a = Spec.Aes.rounds ws (nr' - 1) s ∧ b = Spec.Aes.rounds ws' (nr' - 1) s' ∧
        ∀ j, j < nr' - 1 → Spec.Aes.rounds ws j s = Spec.Aes.rounds ws' j s')
      (roundsAes (Spec.Aes.rounds ws 0 s) ((ws.flatten.drop 16).take (nr' * 16 - 16)))
      (roundsAes (Spec.Aes.rounds ws' 0 s') ((ws'.flatten.drop 16).take (nr' * 16 - 16))) := by
  have hf := length_flatten_uniform h
  have hf' := length_flatten_uniform h'
  have hk : ((ws.flatten.drop 16).take (nr' * 16 - 16)).length = (nr' - 1) * 16 := by
    rw [List.length_take, List.length_drop]; omega
  have hk' : ((ws'.flatten.drop 16).take (nr' * 16 - 16)).length = (nr' - 1) * 16 := by
    rw [List.length_take, List.length_drop]; omega
  have hkk : Len ((ws.flatten.drop 16).take (nr' * 16 - 16)) ((ws'.flatten.drop 16).take (nr' * 16 - 16)) :=
    hk.trans hk'.symm
  unfold roundsAes
  refine Tells.bind (numChunks_same hkk rfl).tells ?_
  rintro n n' hnn - rfl
  have hn' : n = nr' - 1 := by
    rw [res_numChunks, Hacspec.Seq.numChunks_ok (by omega) (by omega), hk] at hnn
    cases hnn
    omega
  subst hn'
  refine Tells.loop (fun i t t' => t = Spec.Aes.rounds ws i s ∧ t' = Spec.Aes.rounds ws' i s' ∧
    ∀ j, j < i → Spec.Aes.rounds ws j s = Spec.Aes.rounds ws' j s') ⟨rfl, rfl, fun j hj => absurd hj (by omega)⟩ ?_
  rintro i hi t t' ⟨rfl, rfl, hj⟩
  refine Tells.mono' (R := fun _ _ => Spec.Aes.rounds ws i s = Spec.Aes.rounds ws' i s') ?_ ?_
  · refine Tells.bind (getChunk_same hkk rfl rfl).tells ?_
    intro a b _ _ hab
    refine Tells.bind (arrFromSeq_same hab.2).tells ?_
    intro c d _ _ hcd
    exact aesEnc_tells (length_rounds h hl (by omega) hs) (length_rounds h' hl' (by omega) hs') hcd
  · intro a b ha hb hab
    simp only [res_bind, res_getChunk, res_arrFromSeq, res_aesEnc] at ha hb
    rw [round_ok h hl hs hi] at ha
    rw [round_ok h' hl' hs' hi] at hb
    cases ha
    cases hb
    refine ⟨rfl, rfl, fun j hj' => ?_⟩
    rcases Nat.lt_or_ge j i with hji | hji
    · exact hj j hji
    · rw [show j = i by omega]; exact hab

/-- The events of `block_cipher_aes` tell the state before every round. -/
theorem blockCipher_tells {ws ws' : List (List U8)} (h : Uniform 4 ws) (h' : Uniform 4 ws') {nr' : Nat}
    (hl : ws.length = 4 * (nr' + 1)) (hl' : ws'.length = 4 * (nr' + 1)) (hn : 1 ≤ nr') (hb : nr' < 2 ^ 32)
    {s s' : List U8} (hs : s.length = 16) (hs' : s'.length = 16) :
    Tells (fun _ _ => ∀ j, j < nr' → Spec.Aes.rounds ws j s = Spec.Aes.rounds ws' j s')
      (blockCipher s ws.flatten nr') (blockCipher s' ws'.flatten nr') := by
  have hf := length_flatten_uniform h
  have hf' := length_flatten_uniform h'
  have hff : Len ws.flatten ws'.flatten := by show _ = _; rw [hf, hf', hl, hl']
  unfold blockCipher
  refine Tells.bind (arrFromSubRange_same hff rfl rfl).tells ?_
  intro k0 k0' e0 e0' _
  refine Tells.bind (fromSubRange_same hff rfl rfl).tells ?_
  intro k k' e e' _
  refine Tells.bind (arrFromSub_same hff rfl rfl).tells ?_
  intro kn kn' _ _ hkn
  rw [res_arrFromSubRange, ChaCha.arrFromSubRange_ok (by omega) (by omega) (by omega)] at e0 e0'
  rw [res_fromSubRange, Hacspec.Seq.fromSubRange, Hacspec.require_true (by omega), bind_ok,
    Hacspec.Seq.fromSub_ok (by omega)] at e e'
  have r0 : ws.flatten.take 16 = Spec.Aes.roundKey ws 0 := by rw [roundKey_eq h, Nat.mul_zero, List.drop_zero]
  have r0' : ws'.flatten.take 16 = Spec.Aes.roundKey ws' 0 := by rw [roundKey_eq h', Nat.mul_zero, List.drop_zero]
  simp only [List.drop_zero, Nat.sub_zero] at e0 e0'
  cases e0; cases e0'; cases e; cases e'
  refine Tells.bind (addRoundKey_same (hs.trans hs'.symm) ?_).tells ?_
  · show _ = _; simp only [List.length_take, List.length_drop]; omega
  intro x x' ex ex' _
  rw [res_addRoundKey, r0, Hacspec.Aes.addRoundKey_ok hs (length_roundKey h hl (by omega))] at ex
  rw [res_addRoundKey, r0', Hacspec.Aes.addRoundKey_ok hs' (length_roundKey h' hl' (by omega))] at ex'
  cases ex; cases ex'
  refine Tells.bind (roundsAes_tells h h' hl hl' hn hb hs hs') ?_
  rintro y y' - - ⟨rfl, rfl, hj⟩
  refine Tells.mono (aesEncLast_tells (length_rounds h hl (by omega) hs) (length_rounds h' hl' (by omega) hs') hkn) ?_
  intro _ _ hlast j hj'
  rcases Nat.lt_or_ge j (nr' - 1) with hji | hji
  · exact hj j hji
  · rw [show j = nr' - 1 by omega]; exact hlast

/-! ## The key schedule -/

theorem subWord_tells {w w' : List U8} : Tells Len (subWord w) (subWord w') := by
  unfold subWord
  refine Tells.bind (R := fun _ _ => True) (Tells.idx.mono fun _ _ _ => trivial) fun _ _ _ _ _ => ?_
  refine Tells.bind subByte_tells fun _ _ _ _ _ => ?_
  refine Tells.bind (R := fun _ _ => True) (Tells.idx.mono fun _ _ _ => trivial) fun _ _ _ _ _ => ?_
  refine Tells.bind subByte_tells fun _ _ _ _ _ => ?_
  refine Tells.bind (R := fun _ _ => True) (Tells.idx.mono fun _ _ _ => trivial) fun _ _ _ _ _ => ?_
  refine Tells.bind subByte_tells fun _ _ _ _ _ => ?_
  refine Tells.bind (R := fun _ _ => True) (Tells.idx.mono fun _ _ _ => trivial) fun _ _ _ _ _ => ?_
  refine Tells.bind subByte_tells fun _ _ _ _ _ => ?_
  exact Tells.ok rfl

theorem rotateWord_same {w w' : List U8} (h : Len w w') : Same Len (rotateWord w) (rotateWord w') := by
  unfold rotateWord
  ct

theorem keygenAssist_tells {w w' : List U8} {c : U8} (h : Len w w') :
    Tells Len (keygenAssist w c) (keygenAssist w' c) := by
  unfold keygenAssist
  refine Tells.bind (rotateWord_same h).tells fun _ _ _ _ _ => ?_
  refine Tells.bind subWord_tells fun _ _ _ _ h => ?_
  refine Tells.bind (Same.idx h rfl).tells fun _ _ _ _ _ => ?_
  exact (Same.setIdx h rfl).tells

theorem expansionCore_tells {w w' : List U8} {i nk : Nat} (h : Len w w') :
    Tells Len (expansionCore w i nk) (expansionCore w' i nk) := by
  unfold expansionCore
  refine Tells.bind Tells.require fun _ _ _ _ _ => ?_
  refine Tells.branch (fun _ _ => ?_) fun _ _ => ?_
  · refine Tells.bind Same.refl.tells ?_
    rintro c _ - - rfl
    exact keygenAssist_tells h
  · exact Tells.branch (fun _ _ => subWord_tells) fun _ _ => Tells.ok h

theorem expansionWord_tells {w w' v v' : List U8} {i nk nr : Nat} (hv : Len v v') (h : Len w w') :
    Tells Len (expansionWord v w i nk nr) (expansionWord v' w' i nk nr) := by
  unfold expansionWord
  refine Tells.bind Tells.require fun _ _ _ _ _ => ?_
  refine Tells.bind (expansionCore_tells h) fun _ _ _ _ hk => ?_
  refine Same.tells ?_
  ct

theorem expansionStep_tells {nk nr : Nat} {alg : Hacspec.Aes.Variant} {j : Nat} {k k' : List U8} (h : Len k k') :
    Tells Len (expansionStep nk nr alg j k) (expansionStep nk nr alg j k') := by
  unfold expansionStep
  refine Tells.bind (arrFromSub_same h rfl rfl).tells fun _ _ _ _ h0 => ?_
  refine Tells.bind (arrFromSub_same h rfl rfl).tells fun _ _ _ _ h1 => ?_
  refine Tells.bind (expansionWord_tells h0 h1) fun _ _ _ _ h2 => ?_
  exact (update_same h h2 rfl).tells

theorem keyExpansion_tells {k k' : List U8} {nk nr : Nat} {alg : Hacspec.Aes.Variant} (h : Len k k') :
    Tells Len (keyExpansion k nk nr alg) (keyExpansion k' nk nr alg) := by
  unfold keyExpansion
  refine Tells.bind (updateStart_same rfl h).tells fun _ _ _ _ h0 => ?_
  exact Tells.loop (fun _ => Len) h0 fun i _ t t' ht => expansionStep_tells ht

/-! ## The key -/

theorem xor_cancel {x k k' : List U8} (h : x.length = 16) (hk : k.length = 16) (hk' : k'.length = 16)
    (e : Spec.xor x k = Spec.xor x k') : k = k' := by
  have hx : ∀ m : List U8, m.length = 16 → Spec.xor x (Spec.xor x m) = m := by
    intro m hm
    refine List.ext_getElem (by simp [Spec.xor]; omega) fun i h1 h2 => ?_
    simp only [Spec.xor, List.getElem_zipWith]
    rw [← BitVec.xor_assoc, BitVec.xor_self, BitVec.zero_xor]
  rw [← hx k hk, e, hx k' hk']

theorem roundKeys_eq {ws ws' : List (List U8)} (h : Uniform 4 ws) (h' : Uniform 4 ws') {nr' : Nat}
    (hl : ws.length = 4 * (nr' + 1)) (hl' : ws'.length = 4 * (nr' + 1)) {s : List U8} (hs : s.length = 16)
    (e : ∀ j, j < nr' → Spec.Aes.rounds ws j s = Spec.Aes.rounds ws' j s) {j : Nat} (hj : j < nr') :
    Spec.Aes.roundKey ws j = Spec.Aes.roundKey ws' j := by
  cases j with
  | zero => exact xor_cancel hs (length_roundKey h hl (by omega)) (length_roundKey h' hl' (by omega)) (e 0 hj)
  | succ j =>
    have := e (j + 1) hj
    rw [Spec.Aes.rounds, Spec.Aes.rounds, e j (by omega)] at this
    exact xor_cancel (Hacspec.Aes.length_mixColumns _) (length_roundKey h hl (by omega))
      (length_roundKey h' hl' (by omega)) this

/-- The key is the beginning of the schedule. -/
theorem take_schedule {alg : Hacspec.Aes.Variant} {key : List U8} (hk : key.length = 4 * nk alg) :
    (Spec.Aes.schedule (nk alg) (nr alg) key).flatten.take (4 * nk alg) = key := by
  have : ∀ n ws, ∃ r, Spec.Aes.expand (nk alg) n ws = ws ++ r := by
    intro n ws
    induction n with
    | zero => exact ⟨[], (List.append_nil _).symm⟩
    | succ n ih =>
      obtain ⟨r, hr⟩ := ih
      exact ⟨r ++ [Spec.Aes.nextWord (nk alg) (ws ++ r)], by rw [Spec.Aes.expand, hr, List.append_assoc]⟩
  obtain ⟨r, hr⟩ := this (4 * (nr alg + 1) - nk alg) ((List.range (nk alg)).map (Spec.block 4 key))
  rw [Spec.Aes.schedule, hr, List.flatten_append, Hacspec.Aes.flatten_blocks hk, List.take_append,
    List.take_of_length_le (by omega), hk, Nat.sub_self, List.take_zero, List.append_nil]

/-- The events of `aes_encrypt_block` on a known block tell the key. -/
theorem encryptBlock_tells {alg : Hacspec.Aes.Variant} {k k' s : List U8} (hk : k.length = 4 * nk alg)
    (hk' : k'.length = 4 * nk alg) (hs : s.length = 16) :
    Tells (fun _ _ => k = k') (encryptBlock k s (nk alg) (nr alg) alg) (encryptBlock k' s (nk alg) (nr alg) alg) := by
  unfold encryptBlock
  refine Tells.bind (keyExpansion_tells (hk.trans hk'.symm)) ?_
  intro w w' hw hw' _
  rw [res_keyExpansion, Hacspec.Aes.keyExpansion_ok hk] at hw
  rw [res_keyExpansion, Hacspec.Aes.keyExpansion_ok hk'] at hw'
  cases hw; cases hw'
  have u := Hacspec.Aes.uniform_schedule hk
  have u' := Hacspec.Aes.uniform_schedule hk'
  have l := Hacspec.Aes.length_schedule (alg := alg) k
  have l' := Hacspec.Aes.length_schedule (alg := alg) k'
  refine Tells.mono (blockCipher_tells u u' l l' (by cases alg <;> decide) (by cases alg <;> decide) hs hs) ?_
  intro _ _ e
  have hr := fun j (hj : j < nr alg) => roundKeys_eq u u' l l' hs e hj
  have hr0 := hr 0 (by cases alg <;> decide)
  have hr1 := hr 1 (by cases alg <;> decide)
  rw [roundKey_eq u, roundKey_eq u'] at hr0 hr1
  have h32 : (Spec.Aes.schedule (nk alg) (nr alg) k).flatten.take 32 =
      (Spec.Aes.schedule (nk alg) (nr alg) k').flatten.take 32 := by
    rw [show 32 = 16 + 16 by rfl, List.take_add, List.take_add]
    rw [Nat.mul_zero, List.drop_zero, List.drop_zero] at hr0
    rw [hr0, hr1]
  have := congrArg (List.take (4 * nk alg)) h32
  rw [List.take_take, List.take_take, Nat.min_eq_left (by cases alg <;> decide), take_schedule hk, take_schedule hk'] at this
  exact this

end Hacspec.Leak.Aes
