import Verif.Lemmas.AesInv
import Verif.Lemmas.Poly1305

/-! # AES: key schedule, cipher and counter mode -/

namespace Hacspec.Aes

open SecretInt Hacspec.Seq

/-- All elements have length `n`. -/
def Uniform (n : Nat) (ws : List (List U8)) : Prop := ∀ w ∈ ws, w.length = n

theorem length_flatten_uniform {n : Nat} {ws : List (List U8)} (h : Uniform n ws) : ws.flatten.length = n * ws.length := by
  induction ws with
  | nil => simp
  | cons w ws ih =>
    rw [List.flatten_cons, List.length_append, ih (fun x hx => h x (by simp [hx])), h w (by simp), List.length_cons,
      Nat.mul_succ]; omega

theorem drop_flatten_uniform {n : Nat} {ws : List (List U8)} (h : Uniform n ws) (k : Nat) :
    ws.flatten.drop (n * k) = (ws.drop k).flatten := by
  induction k generalizing ws with
  | zero => simp
  | succ k ih =>
    cases ws with
    | nil => simp
    | cons w ws =>
      rw [List.flatten_cons, List.drop_succ_cons, ← ih (fun x hx => h x (by simp [hx])), Nat.mul_succ, Nat.add_comm,
        ← List.drop_drop, List.drop_left' (h w (by simp))]

theorem take_flatten_uniform {n : Nat} {ws : List (List U8)} (h : Uniform n ws) (k : Nat) :
    ws.flatten.take (n * k) = (ws.take k).flatten := by
  induction k generalizing ws with
  | zero => simp
  | succ k ih =>
    cases ws with
    | nil => simp
    | cons w ws =>
      have hw := h w (by simp)
      rw [List.flatten_cons, List.take_succ_cons, List.flatten_cons, ← ih (fun x hx => h x (by simp [hx])), Nat.mul_succ,
        List.take_append, List.take_of_length_le (by omega), hw, Nat.add_sub_cancel]

theorem uniform_drop {n k : Nat} {ws : List (List U8)} (h : Uniform n ws) : Uniform n (ws.drop k) :=
  fun w hw => h w (List.mem_of_mem_drop hw)

theorem window_flatten {n k : Nat} {ws : List (List U8)} (h : Uniform n ws) (hk : k < ws.length) :
    (ws.flatten.drop (n * k)).take n = ws.getD k [] := by
  have := take_flatten_uniform (uniform_drop (k := k) h) 1
  rw [Nat.mul_one] at this
  rw [drop_flatten_uniform h, this, List.drop_eq_getElem_cons hk, List.take_succ_cons, List.take_zero, List.flatten_cons,
    List.flatten_nil, List.append_nil]
  simp [List.getD_eq_getElem?_getD, List.getElem?_eq_getElem hk]

theorem roundKey_eq {ws : List (List U8)} (h : Uniform 4 ws) (r : Nat) :
    Spec.Aes.roundKey ws r = (ws.flatten.drop (16 * r)).take 16 := by
  rw [Spec.Aes.roundKey, show 16 * r = 4 * (4 * r) by omega, drop_flatten_uniform h,
    show (16 : Nat) = 4 * 4 by rfl, take_flatten_uniform (uniform_drop h)]

/-! ## Key schedule -/

theorem rotateWord_ok {w : List U8} (h : w.length = 4) : rotateWord w = .ok (Spec.Aes.rotWord w) := by
  obtain ⟨a, b, c, d, rfl⟩ := exists4 h
  rfl

theorem subWord_ok {w : List U8} (h : w.length = 4) : subWord w = .ok (Spec.Aes.subBytes w) := by
  obtain ⟨a, b, c, d, rfl⟩ := exists4 h
  rw [subWord, idx_getD 0 (by simp), bind_ok, subByte_ok, bind_ok, idx_getD 0 (by simp), bind_ok, subByte_ok, bind_ok,
    idx_getD 0 (by simp), bind_ok, subByte_ok, bind_ok, idx_getD 0 (by simp), bind_ok, subByte_ok, bind_ok]
  simp [Spec.Aes.subBytes]

theorem length_rotWord {w : List U8} (h : w.length = 4) : (Spec.Aes.rotWord w).length = 4 := by
  simp [Spec.Aes.rotWord]; omega

theorem keygenAssist_ok {w : List U8} (h : w.length = 4) (rc : U8) :
    keygenAssist w rc = .ok (Spec.xor (Spec.Aes.subBytes (Spec.Aes.rotWord w)) [rc, 0, 0, 0]) := by
  rw [keygenAssist, rotateWord_ok h, bind_ok, subWord_ok (length_rotWord h), bind_ok]
  have hl : (Spec.Aes.subBytes (Spec.Aes.rotWord w)).length = 4 := by rw [length_subBytes, length_rotWord h]
  obtain ⟨a, b, c, d, e⟩ := exists4 hl
  rw [e, idx_getD 0 (by simp), bind_ok, setIdx_ok (by simp)]
  simp [Spec.xor]

theorem rcon_ok : ∀ j, j < 15 → 1 ≤ j → idx rcon j = .ok (Spec.Aes.gpow 2 (j - 1)) := by decide +kernel

theorem length_expand (nk n : Nat) (ws : List (List U8)) : (Spec.Aes.expand nk n ws).length = ws.length + n := by
  induction n with
  | zero => rfl
  | succ n ih => rw [Spec.Aes.expand, List.length_append, ih]; rfl

/-- The word to which word `i - nk` is added. -/
def temp (nk i : Nat) (w : List U8) : List U8 :=
  if i % nk = 0 then Spec.xor (Spec.Aes.subBytes (Spec.Aes.rotWord w)) (Spec.Aes.rcon (i / nk))
  else if 6 < nk ∧ i % nk = 4 then Spec.Aes.subBytes w
  else w

theorem nextWord_eq (nk : Nat) (ws : List (List U8)) :
    Spec.Aes.nextWord nk ws =
      Spec.xor (ws.getD (ws.length - nk) []) (temp nk ws.length (ws.getD (ws.length - 1) [])) := rfl

theorem length_temp (nk i : Nat) {w : List U8} (h : w.length = 4) : (temp nk i w).length = 4 := by
  rw [temp]
  split
  · rw [length_xor, length_subBytes, length_rotWord h]; rfl
  · split
    · rw [length_subBytes, h]
    · exact h

theorem expansionCore_ok {nk i : Nat} {w : List U8} (h : w.length = 4) (hn : 0 < nk) (hi : nk ≤ i) (hr : i / nk < 15) :
    expansionCore w i nk = .ok (temp nk i w) := by
  rw [expansionCore, require_true (by omega), bind_ok, temp]
  by_cases h1 : i % nk = 0
  · rw [if_pos h1, if_pos h1, rcon_ok _ hr (Nat.div_pos hi hn), bind_ok, keygenAssist_ok h]; rfl
  · rw [if_neg h1, if_neg h1]
    by_cases h2 : nk > 6 ∧ i % nk = 4
    · rw [if_pos h2, if_pos h2, subWord_ok h]
    · rw [if_neg h2, if_neg h2]

theorem xor_comm' (a b : List U8) : Spec.xor a b = Spec.xor b a := by
  rw [Spec.xor, Spec.xor, List.zipWith_comm]
  congr 1
  funext x y
  exact BitVec.xor_comm _ _

theorem expansionWord_ok {nk nr i : Nat} {w0 w1 : List U8} (h0 : w0.length = 4) (h1 : w1.length = 4) (hn : 0 < nk)
    (hi : nk ≤ i) (hr : i / nk < 15) (hb : i < 4 * (nr + 1)) :
    expansionWord w0 w1 i nk nr = .ok (Spec.xor w0 (temp nk i w1)) := by
  have ht := length_temp nk i h1
  rw [expansionWord, require_true hb, bind_ok, expansionCore_ok h1 hn hi hr, bind_ok, xor_loop (by omega) (by omega),
    List.take_of_length_le (by omega), List.take_of_length_le (by omega), List.drop_of_length_le (by omega),
    List.append_nil, xor_comm']

theorem uniform_expand {nk : Nat} (hn : 0 < nk) {ws : List (List U8)} (h : Uniform 4 ws) (hl : ws.length = nk) (n : Nat) :
    Uniform 4 (Spec.Aes.expand nk n ws) := by
  induction n with
  | zero => exact h
  | succ n ih =>
    intro w hw
    rw [Spec.Aes.expand, List.mem_append] at hw
    rcases hw with hw | hw
    · exact ih w hw
    · simp at hw
      have hg : ∀ k, k < nk + n → ((Spec.Aes.expand nk n ws).getD k []).length = 4 := by
        intro k hk
        rw [List.getD_eq_getElem?_getD, List.getElem?_eq_getElem (by rw [length_expand]; omega)]
        exact ih _ (List.getElem_mem _)
      rw [hw, nextWord_eq, length_xor, length_expand, length_temp _ _ (hg _ (by omega)), hg _ (by omega)]
      rfl

theorem arrFromSub4 {l : List U8} {s : Nat} (h : s + 4 ≤ l.length) : arrFromSub 4 l s 4 = .ok ((l.drop s).take 4) := by
  rw [arrFromSub, require_true rfl, bind_ok, updateSub_ok (by rw [length_new]; omega) h]
  rw [List.take_zero, List.nil_append, Nat.zero_add, List.drop_of_length_le (l := new 4) (by rw [length_new]; omega),
    List.append_nil]

/-- The key schedule that is written out after `j` steps. -/
def partialKey (alg : Variant) (ws : List (List U8)) (j : Nat) : List U8 :=
  (Spec.Aes.expand alg.words j ws).flatten ++ List.replicate (alg.size - 4 * (alg.words + j)) 0

theorem window_partial {alg : Variant} {ws : List (List U8)} (h : Uniform 4 ws) (hl : ws.length = alg.words) (j k : Nat)
    (hk : k < alg.words + j) (hn : 0 < alg.words) :
    ((partialKey alg ws j).drop (4 * k)).take 4 = (Spec.Aes.expand alg.words j ws).getD k [] := by
  have hu := uniform_expand hn h hl j
  have hf := length_flatten_uniform hu
  rw [length_expand, hl] at hf
  rw [partialKey, List.drop_append_of_le_length (by omega), List.take_append_of_le_length (by rw [List.length_drop]; omega),
    window_flatten hu (by rw [length_expand]; omega)]

theorem expansionStep_ok {alg : Variant} {nr' : Nat} {ws : List (List U8)} (h : Uniform 4 ws) (hl : ws.length = alg.words)
    {j : Nat} (hj : j < alg.iters) (hnr : 4 * (nr' + 1) = alg.words + alg.iters) (hs : alg.size = 4 * (alg.words + alg.iters))
    (hn : 0 < alg.words) (hr : (j + alg.words) / alg.words < 15) :
    expansionStep alg.words nr' alg j (partialKey alg ws j) = .ok (partialKey alg ws (j + 1)) := by
  have hu := uniform_expand hn h hl j
  have hf := length_flatten_uniform hu
  rw [length_expand, hl] at hf
  have hlen : (partialKey alg ws j).length = alg.size := by
    rw [partialKey, List.length_append, List.length_replicate, hf]; omega
  have hg : ∀ k, k < alg.words + j → ((Spec.Aes.expand alg.words j ws).getD k []).length = 4 := by
    intro k hk
    rw [List.getD_eq_getElem?_getD, List.getElem?_eq_getElem (by rw [length_expand]; omega)]
    exact hu _ (List.getElem_mem _)
  rw [expansionStep]
  rw [arrFromSub4 (by omega), bind_ok, arrFromSub4 (by omega), bind_ok, window_partial h hl j _ (by omega) hn,
    show 4 * (j + alg.words) - 4 = 4 * (j + alg.words - 1) by omega, window_partial h hl j _ (by omega) hn,
    expansionWord_ok (hg _ (by omega)) (hg _ (by omega)) hn (by omega) hr (by omega), bind_ok]
  have he : Spec.xor ((Spec.Aes.expand alg.words j ws).getD (j + alg.words - alg.words) [])
      (temp alg.words (j + alg.words) ((Spec.Aes.expand alg.words j ws).getD (j + alg.words - 1) [])) =
      Spec.Aes.nextWord alg.words (Spec.Aes.expand alg.words j ws) := by
    rw [nextWord_eq, length_expand, hl, Nat.add_comm alg.words j]
  rw [he]
  have hw : (Spec.Aes.nextWord alg.words (Spec.Aes.expand alg.words j ws)).length = 4 := by
    rw [← he, length_xor, length_temp _ _ (hg _ (by omega)), hg _ (by omega)]; rfl
  rw [partialKey, ChaChaPoly.update_append (by rw [hf, Nat.add_comm]) (by rw [List.length_replicate, hw]; omega), hw, partialKey,
    Spec.Aes.expand, List.flatten_append, List.drop_replicate]
  simp only [List.flatten_cons, List.flatten_nil, List.append_nil]
  congr 3

theorem uniform_blocks {nk : Nat} {key : List U8} (h : key.length = 4 * nk) :
    Uniform 4 ((List.range nk).map (Spec.block 4 key)) := by
  intro w hw
  rw [List.mem_map] at hw
  obtain ⟨i, hi, rfl⟩ := hw
  rw [List.mem_range] at hi
  rw [Spec.block, List.length_take, List.length_drop]; omega

theorem flatten_blocks {nk : Nat} {key : List U8} (h : key.length = 4 * nk) :
    ((List.range nk).map (Spec.block 4 key)).flatten = key := by
  have hk : ∀ k, k ≤ nk → ((List.range k).map (Spec.block 4 key)).flatten = key.take (4 * k) := by
    intro k hk
    induction k with
    | zero => simp
    | succ k ih =>
      rw [List.range_succ, List.map_append, List.flatten_append, ih (by omega), Nat.mul_succ, List.take_add]
      simp [Spec.block]
  rw [hk nk (Nat.le_refl _), List.take_of_length_le (by omega)]

/-- The full schedule. -/
theorem keyExpansion_ok {alg : Variant} {key : List U8} (hk : key.length = 4 * nk alg) :
    keyExpansion key (nk alg) (nr alg) alg = .ok (Spec.Aes.schedule (nk alg) (nr alg) key).flatten := by
  have hu := uniform_blocks hk
  have hl : ((List.range (nk alg)).map (Spec.block 4 key)).length = alg.words := by cases alg <;> simp [nk, Variant.words]
  have hw : nk alg = alg.words := by cases alg <;> rfl
  rw [keyExpansion, updateStart_new (by rw [hk]; cases alg <;> decide), bind_ok]
  have hloop := loop_eq (n := alg.iters) (partialKey alg ((List.range (nk alg)).map (Spec.block 4 key)))
    (body := expansionStep (nk alg) (nr alg) alg) (by
      intro j hj
      rw [hw]
      rw [hw] at hu hl
      apply expansionStep_ok hu hl hj (by cases alg <;> rfl) (by cases alg <;> rfl) (by cases alg <;> decide)
      cases alg
      · simp only [Variant.words, Variant.iters] at hj ⊢; omega
      · simp only [Variant.words, Variant.iters] at hj ⊢; omega)
  rw [show key ++ List.replicate (alg.size - key.length) default =
      partialKey alg ((List.range (nk alg)).map (Spec.block 4 key)) 0 by
    rw [partialKey, Spec.Aes.expand, flatten_blocks hk, hk, hw, Nat.add_zero]; rfl, hloop, partialKey,
    show alg.size - 4 * (alg.words + alg.iters) = 0 by cases alg <;> rfl, List.replicate_zero, List.append_nil,
    Spec.Aes.schedule, ← hw, show 4 * (nr alg + 1) - nk alg = alg.iters by cases alg <;> rfl]

theorem uniform_schedule {alg : Variant} {key : List U8} (hk : key.length = 4 * nk alg) :
    Uniform 4 (Spec.Aes.schedule (nk alg) (nr alg) key) :=
  uniform_expand (by cases alg <;> decide) (uniform_blocks hk) (by simp) _

theorem length_schedule {alg : Variant} (key : List U8) :
    (Spec.Aes.schedule (nk alg) (nr alg) key).length = 4 * (nr alg + 1) := by
  rw [Spec.Aes.schedule, length_expand, List.length_map, List.length_range]; cases alg <;> rfl

theorem length_roundKey {ws : List (List U8)} (h : Uniform 4 ws) {nr' r : Nat} (hl : ws.length = 4 * (nr' + 1))
    (hr : r ≤ nr') : (Spec.Aes.roundKey ws r).length = 16 := by
  have := length_flatten_uniform h
  rw [roundKey_eq h, List.length_take, List.length_drop]; omega

/-! ## Cipher -/

theorem aesEnc_ok {s k : List U8} (hs : s.length = 16) (hk : k.length = 16) :
    aesEnc s k = .ok (Spec.xor (Spec.Aes.mixColumns (Spec.Aes.shiftRows (Spec.Aes.subBytes s))) k) := by
  rw [aesEnc, subBytes_ok hs, bind_ok, shiftRows_ok (by rw [length_subBytes, hs]), bind_ok,
    mixColumns_ok (length_shiftRows _), bind_ok, addRoundKey_ok (length_mixColumns _) hk]

theorem aesEncLast_ok {s k : List U8} (hs : s.length = 16) (hk : k.length = 16) :
    aesEncLast s k = .ok (Spec.xor (Spec.Aes.shiftRows (Spec.Aes.subBytes s)) k) := by
  rw [aesEncLast, subBytes_ok hs, bind_ok, shiftRows_ok (by rw [length_subBytes, hs]), bind_ok,
    addRoundKey_ok (length_shiftRows _) hk]

theorem length_rounds {ws : List (List U8)} (h : Uniform 4 ws) {nr' n : Nat} (hl : ws.length = 4 * (nr' + 1))
    (hn : n ≤ nr') {s : List U8} (hs : s.length = 16) : (Spec.Aes.rounds ws n s).length = 16 := by
  cases n with
  | zero => exact length_xor16 hs (length_roundKey h hl hn)
  | succ n => exact length_xor16 (length_mixColumns _) (length_roundKey h hl hn)

theorem blockCipher_ok {ws : List (List U8)} (h : Uniform 4 ws) {nr' : Nat} (hl : ws.length = 4 * (nr' + 1))
    (hn : 1 ≤ nr') (hb : nr' < 2 ^ 32) {s : List U8} (hs : s.length = 16) :
    blockCipher s ws.flatten nr' =
      .ok (Spec.xor (Spec.Aes.shiftRows (Spec.Aes.subBytes (Spec.Aes.rounds ws (nr' - 1) s))) (Spec.Aes.roundKey ws nr')) := by
  have hf := length_flatten_uniform h
  have hk : ((ws.flatten.drop 16).take (nr' * 16 - 16)).length = (nr' - 1) * 16 := by
    rw [List.length_take, List.length_drop]; omega
  rw [blockCipher, ChaCha.arrFromSubRange_ok (by omega) (by omega) (by omega), bind_ok, fromSubRange,
    require_true (by omega), bind_ok, fromSub_ok (by omega), bind_ok, arrFromSub, require_true rfl, bind_ok,
    updateSub_ok (by rw [length_new]; omega) (by omega)]
  simp only [bind_ok, List.take_zero, List.nil_append, Nat.zero_add, List.drop_zero]
  rw [List.drop_of_length_le (l := new 16) (by rw [length_new]; omega), List.append_nil]
  have e0 : ws.flatten.take 16 = Spec.Aes.roundKey ws 0 := by rw [roundKey_eq h, Nat.mul_zero, List.drop_zero]
  have en : (ws.flatten.drop (nr' * 16)).take 16 = Spec.Aes.roundKey ws nr' := by rw [roundKey_eq h, Nat.mul_comm]
  rw [e0, en, addRoundKey_ok hs (length_roundKey h hl (by omega)), bind_ok, roundsAes,
    numChunks_ok (by omega) (by omega), hk, bind_ok, show ((nr' - 1) * 16 + 16 - 1) / 16 = nr' - 1 by omega]
  have := loop_eq (n := nr' - 1) (fun i => Spec.Aes.rounds ws i s)
    (body := fun i out => do
      let kb ← getChunk ((ws.flatten.drop 16).take (nr' * 16 - 16)) 16 i
      let rk ← arrFromSeq 16 kb.2
      aesEnc out rk) (by
      intro i hi
      rw [getChunk_ok (by rw [hk]; omega), bind_ok]
      have e : (((ws.flatten.drop 16).take (nr' * 16 - 16)).drop (16 * i)).take 16 = Spec.Aes.roundKey ws (i + 1) := by
        rw [roundKey_eq h, List.drop_take, List.take_take, List.drop_drop, Nat.min_eq_left (by omega)]
        congr 2; omega
      simp only [e]
      rw [arrFromSeq_ok (length_roundKey h hl (by omega)), bind_ok,
        aesEnc_ok (length_rounds h hl (by omega) hs) (length_roundKey h hl (by omega))]
      rfl)
  rw [show Spec.xor s (Spec.Aes.roundKey ws 0) = Spec.Aes.rounds ws 0 s from rfl, this, bind_ok,
    aesEncLast_ok (length_rounds h hl (by omega) hs) (length_roundKey h hl (by omega))]

theorem encryptBlock_ok {alg : Variant} {key s : List U8} (hk : key.length = 4 * nk alg) (hs : s.length = 16) :
    encryptBlock key s (nk alg) (nr alg) alg = .ok (Spec.Aes.cipher (nk alg) (nr alg) key s) := by
  rw [encryptBlock, keyExpansion_ok hk, bind_ok, blockCipher_ok (uniform_schedule hk) (length_schedule key)
    (by cases alg <;> decide) (by cases alg <;> decide) hs]
  rfl

theorem length_cipher {alg : Variant} {key : List U8} (s : List U8) (hk : key.length = 4 * nk alg) :
    (Spec.Aes.cipher (nk alg) (nr alg) key s).length = 16 :=
  length_xor16 (length_shiftRows _) (length_roundKey (uniform_schedule hk) (length_schedule key) (Nat.le_refl _))

theorem invRounds_rounds {ws : List (List U8)} (h : Uniform 4 ws) {nr' n : Nat} (hl : ws.length = 4 * (nr' + 1))
    (hn : n ≤ nr') {s : List U8} (hs : s.length = 16) : Spec.Aes.invRounds ws n (Spec.Aes.rounds ws n s) = s := by
  induction n with
  | zero => exact xor_xor (by rw [hs, length_roundKey h hl hn])
  | succ n ih =>
    have hr := length_rounds h hl (show n ≤ nr' by omega) hs
    rw [Spec.Aes.rounds, Spec.Aes.invRounds, xor_xor (by rw [length_mixColumns, length_roundKey h hl hn]),
      invMix_mix (length_shiftRows _), invShift_shift (by rw [length_subBytes, hr]), invSub_subBytes, ih (by omega)]

theorem length_invRounds {ws : List (List U8)} (h : Uniform 4 ws) {nr' n : Nat} (hl : ws.length = 4 * (nr' + 1))
    (hn : n ≤ nr') {s : List U8} (hs : s.length = 16) : (Spec.Aes.invRounds ws n s).length = 16 := by
  induction n generalizing s with
  | zero => exact length_xor16 hs (length_roundKey h hl hn)
  | succ n ih => exact ih (by omega) (by rw [length_invSubBytes, length_invShiftRows])

theorem rounds_invRounds {ws : List (List U8)} (h : Uniform 4 ws) {nr' n : Nat} (hl : ws.length = 4 * (nr' + 1))
    (hn : n ≤ nr') {s : List U8} (hs : s.length = 16) : Spec.Aes.rounds ws n (Spec.Aes.invRounds ws n s) = s := by
  induction n generalizing s with
  | zero => exact xor_xor (by rw [hs, length_roundKey h hl hn])
  | succ n ih =>
    have hx := length_xor16 hs (length_roundKey h hl hn)
    rw [Spec.Aes.rounds, Spec.Aes.invRounds, ih (by omega) (by rw [length_invSubBytes, length_invShiftRows]),
      subBytes_invSub, shift_invShift (length_invMixColumns _), mix_invMix hx,
      xor_xor (by rw [hs, length_roundKey h hl hn])]

theorem invCipher_cipher {alg : Variant} {key s : List U8} (hk : key.length = 4 * nk alg) (hs : s.length = 16) :
    Spec.Aes.invCipher (nk alg) (nr alg) key (Spec.Aes.cipher (nk alg) (nr alg) key s) = s := by
  have hu := uniform_schedule hk
  have hl := length_schedule (alg := alg) key
  have hr := length_rounds hu hl (Nat.sub_le _ 1) hs
  rw [Spec.Aes.cipher, Spec.Aes.invCipher]
  rw [xor_xor (by rw [length_shiftRows, length_roundKey hu hl (Nat.le_refl _)]),
    invShift_shift (by rw [length_subBytes, hr]), invSub_subBytes, invRounds_rounds hu hl (Nat.sub_le _ 1) hs]

theorem cipher_invCipher {alg : Variant} {key s : List U8} (hk : key.length = 4 * nk alg) (hs : s.length = 16) :
    Spec.Aes.cipher (nk alg) (nr alg) key (Spec.Aes.invCipher (nk alg) (nr alg) key s) = s := by
  have hu := uniform_schedule hk
  have hl := length_schedule (alg := alg) key
  rw [Spec.Aes.cipher, Spec.Aes.invCipher]
  rw [rounds_invRounds hu hl (Nat.sub_le _ 1) (by rw [length_invSubBytes, length_invShiftRows]), subBytes_invSub,
    shift_invShift (length_xor16 hs (length_roundKey hu hl (Nat.le_refl _))),
    xor_xor (by rw [hs, length_roundKey hu hl (Nat.le_refl _)])]

theorem length_invCipher {alg : Variant} {key : List U8} (s : List U8) (hk : key.length = 4 * nk alg) :
    (Spec.Aes.invCipher (nk alg) (nr alg) key s).length = 16 :=
  length_invRounds (uniform_schedule hk) (length_schedule key) (Nat.sub_le _ 1)
    (by rw [length_invSubBytes, length_invShiftRows])

/-! ## Counter mode -/

theorem ctrKeyblock_ok {alg : Variant} {key nonce : List U8} (c : U32) (hk : key.length = 4 * nk alg)
    (hi : nonce.length = 12) :
    ctrKeyblock key nonce c (nk alg) (nr alg) alg = .ok (Spec.Aes.ctrBlock (nk alg) (nr alg) key nonce c) := by
  rw [ctrKeyblock, show (new 16 : List U8) = [] ++ List.replicate 16 0 from rfl,
    ChaChaPoly.update_append (i := 0) rfl (by rw [hi, List.length_replicate]; omega), bind_ok, wordToBeBytes_ok, bind_ok,
    List.nil_append, ChaChaPoly.update_append hi (by rw [hi]; simp [beOfWord32, Spec.bytesBe32]), bind_ok, beOfWord32,
    List.drop_of_length_le (l := List.drop _ _) (by rw [hi]; simp [Spec.bytesBe32]), List.append_nil,
    encryptBlock_ok hk (by rw [List.length_append, hi]; rfl)]
  rfl

theorem length_ctrBlock {alg : Variant} {key : List U8} (nonce : List U8) (c : U32) (hk : key.length = 4 * nk alg) :
    (Spec.Aes.ctrBlock (nk alg) (nr alg) key nonce c).length = 16 := length_cipher _ hk

theorem ctrStep_ok {alg : Variant} {key nonce m : List U8} {c : U32} {out : List U8} {i : Nat}
    (hk : key.length = 4 * nk alg) (hi : nonce.length = 12) (h : 16 * i < m.length) :
    ctrStep key nonce m (nk alg) (nr alg) alg i (c, out) = (do
      let o ← setChunk out 16 i (Spec.xor (Spec.block 16 m i) (Spec.Aes.ctrBlock (nk alg) (nr alg) key nonce c))
      .ok (if 16 * (i + 1) ≤ m.length then c + 1 else c, o)) := by
  have hb := ChaCha.length_block (n := 16) (i := i) (m := m)
  have hc := length_ctrBlock nonce c hk
  rw [ctrStep, getChunk_ok (by omega), bind_ok, ctrKeyblock_ok c hk hi, bind_ok]
  simp only [show ((m.drop (16 * i)).take 16) = Spec.block 16 m i from rfl, ctrBranch]
  by_cases hf : (Spec.block 16 m i).length = 16
  · rw [if_pos hf, arrFromSeq_ok hf, bind_ok, xorBlock_ok hf hc, bind_ok, if_pos (by omega)]
    rfl
  · have hl : (Spec.block 16 m i).length < 16 := by omega
    rw [if_neg hf, updateStart_new (by omega), bind_ok,
      xorBlock_ok (by rw [List.length_append, List.length_replicate]; omega) hc, bind_ok, subr, require_true (by omega),
      bind_ok, sub_ok (by rw [length_xor, List.length_append, List.length_replicate, hc]; omega), bind_ok, List.drop_zero,
      Nat.sub_zero, if_neg (by omega), ← hb, Spec.xor, ChaCha.zipWith_take_left]
    rfl

theorem counterMode_ok {alg : Variant} {key nonce m : List U8} (c : U32) (hk : key.length = 4 * nk alg)
    (hi : nonce.length = 12) (hm : m.length < 2 ^ 63) :
    counterMode key nonce c m (nk alg) (nr alg) alg = .ok (Spec.Aes.ctr (nk alg) (nr alg) key nonce c m) := by
  rw [counterMode, numChunks_ok (by omega) (by omega), bind_ok]
  have := chunk_loop (n := (m.length + 16 - 1) / 16) (cs := 16) (by omega)
    (fun i => c + BitVec.ofNat 32 (min i (m.length / 16)))
    (fun i => Spec.xor (Spec.block 16 m i) (Spec.Aes.ctrBlock (nk alg) (nr alg) key nonce (c + BitVec.ofNat 32 i)))
    (self := (new m.length : List U8)) (body := ctrStep key nonce m (nk alg) (nr alg) alg) (by rw [length_new])
    (by
      intro i _
      rw [length_xor, length_ctrBlock nonce _ hk, ChaCha.length_block, length_new]; omega)
    (by
      intro i h out ho
      rw [ctrStep_ok hk hi (by omega), Nat.min_eq_left (show i ≤ m.length / 16 by omega)]
      congr 1
      funext o
      congr 2
      by_cases hf : 16 * (i + 1) ≤ m.length
      · rw [if_pos hf, Nat.min_eq_left (by omega), BitVec.add_assoc]
        congr 1
        apply BitVec.eq_of_toNat_eq
        simp
      · rw [if_neg hf, show min (i + 1) (m.length / 16) = i by omega])
  rw [show (c, (new m.length : List U8)) = (c + BitVec.ofNat 32 (min 0 (m.length / 16)), new m.length) by
    rw [Nat.zero_min]; simp, this, bind_ok]
  rfl

end Hacspec.Aes
