import Verif.Lemmas.Ideal.Hide

/-! # C106, C107: the AEADs with a random function in place of the block function

`Verif.Spec.Games` says what an attack is.  The unknown is a function from all nonces and counters to blocks (ChaCha20), or from
blocks to blocks (AES); counted are the functions with which an attack succeeds, out of all of them. -/

namespace Hacspec.Props

open Spec Hacspec.Ideal Finset

/-! ## The code is an instance -/

/-- ChaCha20 with a key, as such a function. -/
def chachaOf (key : List U8) (hk : key.length = 32) : Bytes 12 × U32 → Bytes 64 :=
  fun p => ⟨ChaCha.blockFn key p.2 p.1.1, Hacspec.ChaCha.length_blockFn _ hk p.1.2⟩

/-- **C106.**  With ChaCha20 and a key in place of the random function, the attacked functions are `encrypt` and `decrypt`. -/
theorem C106_chacha_code (key : List U8) (hk : key.length = 32) (iv : Bytes 12) (aad m c : List U8) (t : Bytes 16) :
    chachaPoly.enc (chachaOf key hk) iv aad m = Hacspec.ChaChaPoly.encrypt key iv.1 aad m ∧
    chachaPoly.dec (chachaOf key hk) iv aad c t = Hacspec.ChaChaPoly.decrypt key iv.1 aad c t.1 := by
  have hb : chachaBlock (chachaOf key hk) iv.1 = fun ctr => Hacspec.ChaCha.block key ctr iv.1 := by
    funext ctr
    rw [chachaBlock_ok, C35_block key iv.1 ctr hk iv.2, chachaOf]
  have hs : ∀ m, Hacspec.ChaCha.chachaWith (chachaBlock (chachaOf key hk)) iv.1 m =
      Hacspec.ChaCha.chachaWith (fun iv ctr => Hacspec.ChaCha.block key ctr iv) iv.1 m := by
    intro m
    have : Hacspec.ChaCha.chachaStepWith (chachaBlock (chachaOf key hk)) iv.1 m =
        Hacspec.ChaCha.chachaStepWith (fun iv ctr => Hacspec.ChaCha.block key ctr iv) iv.1 m := by
      funext i st
      rw [Hacspec.ChaCha.chachaStepWith, hb]
      rfl
    rw [Hacspec.ChaCha.chachaWith, Hacspec.ChaCha.chachaWith, this]
  rw [Hacspec.ChaChaPoly.encrypt_instance, Hacspec.ChaChaPoly.decrypt_instance]
  show Hacspec.ChaChaPoly.encryptWith _ _ _ _ = _ ∧ Hacspec.ChaChaPoly.decryptWith _ _ _ _ _ = _
  rw [Hacspec.ChaChaPoly.encryptWith, hs, hb, Hacspec.ChaChaPoly.decryptWith, hs, hb]
  exact ⟨rfl, rfl⟩

/-- AES with a key, as such a function. -/
def aesOf (alg : Hacspec.Aes.Variant) (key : List U8) (hk : key.length = 4 * Hacspec.Aes.nk alg) : Bytes 16 → Bytes 16 :=
  fun x => ⟨Aes.cipher (Hacspec.Aes.nk alg) (Hacspec.Aes.nr alg) key x.1, Hacspec.Aes.length_cipher _ hk⟩

/-- **C106.**  With AES and a key in place of the random function, the attacked functions are `encrypt_aes` and
`decrypt_aes`. -/
theorem C106_gcm_code (alg : Hacspec.Aes.Variant) (key : List U8) (hk : key.length = 4 * Hacspec.Aes.nk alg) (iv : Bytes 12)
    (aad m c : List U8) (t : Bytes 16) :
    aesGcm.enc (aesOf alg key hk) iv aad m = Hacspec.AesGcm.encrypt key iv.1 aad m alg ∧
    aesGcm.dec (aesOf alg key hk) iv aad c t = Hacspec.AesGcm.decrypt key iv.1 aad c t.1 alg := by
  have hb : ∀ iv : Bytes 12, Hacspec.Aes.ctrKeyblockWith (aesBlock (aesOf alg key hk)) iv.1 =
      Hacspec.Aes.ctrKeyblockWith (fun x => Hacspec.Aes.encryptBlock key x (Hacspec.Aes.nk alg) (Hacspec.Aes.nr alg) alg) iv.1 := by
    intro iv
    funext ctr
    rw [ctrKeyblockWith_ok]
    show _ = Hacspec.Aes.ctrKeyblock key iv.1 ctr (Hacspec.Aes.nk alg) (Hacspec.Aes.nr alg) alg
    rw [Hacspec.Aes.ctrKeyblock_ok ctr hk iv.2]
    rfl
  have hs : ∀ m, Hacspec.Aes.counterModeWith (aesBlock (aesOf alg key hk)) iv.1 2 m =
      Hacspec.Aes.counterModeWith (fun x => Hacspec.Aes.encryptBlock key x (Hacspec.Aes.nk alg) (Hacspec.Aes.nr alg) alg) iv.1 2 m := by
    intro m
    have : Hacspec.Aes.ctrStepWith (aesBlock (aesOf alg key hk)) iv.1 m =
        Hacspec.Aes.ctrStepWith (fun x => Hacspec.Aes.encryptBlock key x (Hacspec.Aes.nk alg) (Hacspec.Aes.nr alg) alg) iv.1 m := by
      funext i st
      rw [Hacspec.Aes.ctrStepWith, hb]
      rfl
    rw [Hacspec.Aes.counterModeWith, Hacspec.Aes.counterModeWith, this]
  rw [Hacspec.AesGcm.encrypt_instance, Hacspec.AesGcm.decrypt_instance]
  show Hacspec.AesGcm.encryptWith _ _ _ _ = _ ∧ Hacspec.AesGcm.decryptWith _ _ _ _ _ = _
  rw [Hacspec.AesGcm.encryptWith, hs, hb, Hacspec.AesGcm.decryptWith, hs, hb]
  have hz := hb zeroIv
  rw [show zeroIv.1 = (Hacspec.Seq.new 12 : List U8) from rfl] at hz
  rw [hz]
  exact ⟨rfl, rfl⟩

example := C106_chacha_code (List.replicate 32 7) (by simp) zeroIv [1] [2, 3] [4] ⟨List.replicate 16 5, by simp⟩

/-! ## Forgeries -/

/-- An attack with two questions: the answer to the first is sent back with other associated data. -/
def prepend : List Seen → Ask
  | [] => .enc zeroIv [1] [2, 3, 4]
  | [.enc iv aad c t] => if h : t.length = 16 ∧ blocks (0 :: aad) c ≤ 3 then .dec iv (0 :: aad) c ⟨t, h.1⟩ else .stop
  | _ => .stop

theorem prepend_proper : Proper prepend 3 where
  once h iv aad m e := by
    intro aad' c t hm
    match h with
    | [] => exact absurd hm (by simp)
    | [.enc iv aad c t] => simp only [prepend] at e; split at e <;> exact absurd e (by simp)
    | .dec .. :: _ | .failed :: _ | .stopped :: _ | .enc .. :: _ :: _ => exact absurd e (by simp [prepend])
  fresh h iv aad c t e := by
    intro hm
    match h with
    | [] => exact absurd hm (by simp)
    | [.enc iv' aad' c' t'] =>
      simp only [prepend] at e
      split at e
      · simp only [Ask.dec.injEq] at e
        obtain ⟨rfl, rfl, rfl, rfl⟩ := e
        simp at hm
      · exact absurd e (by simp)
    | .dec .. :: _ | .failed :: _ | .stopped :: _ | .enc .. :: _ :: _ => exact absurd e (by simp [prepend])
  encLength h iv aad m e := by
    match h with
    | [] =>
      simp only [prepend, Ask.enc.injEq] at e
      obtain ⟨-, rfl, rfl⟩ := e
      decide
    | [.enc iv aad c t] => simp only [prepend] at e; split at e <;> exact absurd e (by simp)
    | .dec .. :: _ | .failed :: _ | .stopped :: _ | .enc .. :: _ :: _ => exact absurd e (by simp [prepend])
  decLength h iv aad c t e := by
    match h with
    | [] => exact absurd e (by simp [prepend])
    | [.enc iv' aad' c' t'] =>
      simp only [prepend] at e
      split at e
      · rename_i hc
        simp only [Ask.dec.injEq] at e
        obtain ⟨rfl, rfl, rfl, rfl⟩ := e
        exact hc.2
      · exact absurd e (by simp)
    | .dec .. :: _ | .failed :: _ | .stopped :: _ | .enc .. :: _ :: _ => exact absurd e (by simp [prepend])

theorem chachaPoly_total {L : Nat} (hL : L < 2 ^ 32) (F : Bytes 12 × U32 → Bytes 64) (iv : Bytes 12) (aad c : List U8) (t : Bytes 16)
    (h : blocks aad c ≤ L) : ∃ r, chachaPoly.dec F iv aad c t = .ok r :=
  ⟨_, chachaPoly_dec F iv aad (by have := len_of_blocks h hL; omega) t⟩

theorem aesGcm_total {L : Nat} (hL : L < 2 ^ 32) (F : Bytes 16 → Bytes 16) (iv : Bytes 12) (aad c : List U8) (t : Bytes 16)
    (h : blocks aad c ≤ L) : ∃ r, aesGcm.dec F iv aad c t = .ok r :=
  ⟨_, aesGcm_dec F iv aad (by have := len_of_blocks h hL; omega) t⟩

open Classical in
/-- **C106.**  ChaCha20-Poly1305, with any function of nonce and counter in place of ChaCha20: whoever asks `q` questions by the
rules, with data of at most `L` blocks, forges with at most `q (1 + 2^25 L q)` in `2^127` of all functions. -/
theorem C106_chacha (A : List Seen → Ask) (L q : Nat) (hA : Proper A L) (hL : L < 2 ^ 32) :
    2 ^ 127 * (univ.filter (chachaPoly.Forges A q)).card ≤ q * (1 + 2 ^ 25 * L * q) * Fintype.card (Bytes 12 × U32 → Bytes 64) := by
  have hsub : univ.filter (chachaPoly.Forges A q) ⊆ (Finset.range q).biUnion fun k =>
      univ.filter (Unused A k) ∪ (Finset.range q).biUnion fun j => if j < k then univ.filter (Used A j k) else ∅ := by
    intro F hF
    obtain ⟨k, hk, iv, aad, c, t, p, h1, h2⟩ := forges_blind chachaPoly hA (chachaPoly_total hL) (Finset.mem_filter.mp hF).2
    have hc := len_of_blocks (hA.decLength _ _ _ _ _ h1) hL
    have h3 : polyTag (polyKey F iv) aad c = t.1 := by
      rw [chachaPoly_dec F iv aad (by omega) t, Except.ok.injEq] at h2
      by_contra hn
      rw [if_neg hn] at h2
      exact absurd h2 (by simp)
    refine Finset.mem_biUnion.mpr ⟨k, Finset.mem_range.mpr hk, Finset.mem_union.mpr ?_⟩
    by_cases hu : ∀ aad c t, Seen.enc iv aad c t ∉ blind chachaPoly A F k
    · exact .inl (Finset.mem_filter.mpr ⟨Finset.mem_univ _, iv, aad, c, t, h1, h3, hu⟩)
    · right
      push Not at hu
      obtain ⟨aad', c', t', hm⟩ := hu
      obtain ⟨j, hj, m, hm⟩ := asked hm
      refine Finset.mem_biUnion.mpr ⟨j, Finset.mem_range.mpr (by omega), ?_⟩
      rw [if_pos hj]
      exact Finset.mem_filter.mpr ⟨Finset.mem_univ _, iv, aad, c, t, aad', m, h1, h3, hm⟩
  have hcard : (univ.filter (chachaPoly.Forges A q)).card ≤ ∑ k ∈ Finset.range q, ((univ.filter (Unused A k)).card +
      ∑ j ∈ Finset.range q, if j < k then (univ.filter (Used A j k)).card else 0) := by
    refine (Finset.card_le_card hsub).trans (Finset.card_biUnion_le.trans (Finset.sum_le_sum fun k _ => ?_))
    refine (Finset.card_union_le _ _).trans (Nat.add_le_add_left (Finset.card_biUnion_le.trans (Finset.sum_le_sum fun j _ => ?_)) _)
    split
    · exact le_refl _
    · simp
  refine (Nat.mul_le_mul_left _ hcard).trans ?_
  rw [Finset.mul_sum]
  refine (Finset.sum_le_card_nsmul _ _ ((1 + 2 ^ 25 * L * q) * Fintype.card (Bytes 12 × U32 → Bytes 64)) ?_).trans (by
    rw [Finset.card_range, nsmul_eq_mul, Nat.cast_id, Nat.mul_assoc q])
  intro k _
  rw [Nat.mul_add, Nat.add_mul, Nat.one_mul]
  refine Nat.add_le_add (card_unused hA hL k) ?_
  rw [Finset.mul_sum]
  refine (Finset.sum_le_card_nsmul _ _ (2 ^ 25 * L * Fintype.card (Bytes 12 × U32 → Bytes 64)) ?_).trans (by
    rw [Finset.card_range, nsmul_eq_mul, Nat.cast_id]
    exact le_of_eq (by ring))
  intro j _
  split
  · rename_i hj
    have := card_used hA hL hj
    rw [show (2 : Nat) ^ 127 = 2 ^ 25 * 2 ^ 102 from by rw [← Nat.pow_add], Nat.mul_assoc, Nat.mul_assoc]
    exact Nat.mul_le_mul_left _ this
  · simp

example := C106_chacha prepend 3 2 prepend_proper (by norm_num)

open Classical in
/-- **C106.**  AES-GCM, with any function of blocks in place of AES: at most `q (L + 1)` in `2^128` of all functions. -/
theorem C106_gcm (A : List Seen → Ask) (L q : Nat) (hA : Proper A L) (hL : L < 2 ^ 32) :
    2 ^ 128 * (univ.filter (aesGcm.Forges A q)).card ≤ q * (L + 1) * Fintype.card (Bytes 16 → Bytes 16) := by
  have hsub : univ.filter (aesGcm.Forges A q) ⊆ (Finset.range q).biUnion fun k =>
      univ.filter (UsedG A k) ∪ univ.filter (UnusedG A k) := by
    intro F hF
    obtain ⟨k, hk, iv, aad, c, t, p, h1, h2⟩ := forges_blind aesGcm hA (aesGcm_total hL) (Finset.mem_filter.mp hF).2
    have hc := len_of_blocks (hA.decLength _ _ _ _ _ h1) hL
    have h3 : gTag F iv aad c = t := by
      rw [aesGcm_dec F iv aad (by omega) t, Except.ok.injEq] at h2
      by_contra hn
      rw [if_neg hn] at h2
      exact absurd h2 (by simp)
    refine Finset.mem_biUnion.mpr ⟨k, Finset.mem_range.mpr hk, Finset.mem_union.mpr ?_⟩
    by_cases hu : ∀ aad c t, Seen.enc iv aad c t ∉ blind aesGcm A F k
    · exact .inr (Finset.mem_filter.mpr ⟨Finset.mem_univ _, iv, aad, c, t, h1, h3, hu⟩)
    · push Not at hu
      exact .inl (Finset.mem_filter.mpr ⟨Finset.mem_univ _, iv, aad, c, t, h1, h3, hu⟩)
  have hcard : (univ.filter (aesGcm.Forges A q)).card ≤ ∑ k ∈ Finset.range q, ((univ.filter (UsedG A k)).card +
      (univ.filter (UnusedG A k)).card) :=
    (Finset.card_le_card hsub).trans (Finset.card_biUnion_le.trans (Finset.sum_le_sum fun k _ => Finset.card_union_le _ _))
  refine (Nat.mul_le_mul_left _ hcard).trans ?_
  rw [Finset.mul_sum]
  refine (Finset.sum_le_card_nsmul _ _ ((L + 1) * Fintype.card (Bytes 16 → Bytes 16)) ?_).trans (by
    rw [Finset.card_range, nsmul_eq_mul, Nat.cast_id, Nat.mul_assoc])
  intro k _
  rw [Nat.mul_add, Nat.add_mul, Nat.one_mul]
  exact Nat.add_le_add (card_usedG hA hL k) (card_unusedG hA hL k)

example := C106_gcm prepend 3 2 prepend_proper (by norm_num)

/-! ## Messages of the same length -/

theorem chachaPoly_stream {L : Nat} (hL : L < 2 ^ 32) :
    StreamAead chachaPoly (fun iv c => (iv, c)) 1 (2 ^ 32 - 1) L (fun F iv aad c => polyTag (polyKey F iv) aad c) where
  inj iv iv' c c' h := by simpa using h
  room := by norm_num
  enough aad m h := by rw [blocks] at h; omega
  enc F iv aad m h := chachaPoly_enc F iv aad (by have := len_of_blocks h hL; omega)
  out F F' h := by
    funext iv aad c
    rw [polyKey, polyKey, h (iv, 0)]
    intro iv' j hj e
    exact ctr_ne (c := 1) (j := j) (by omega) (by omega) (congrArg Prod.snd e).symm
  dec := chachaPoly_total hL

theorem aesGcm_stream {L : Nat} (hL : L < 2 ^ 32) :
    StreamAead aesGcm point 2 (2 ^ 32 - 2) L (fun F iv aad c => (gTag F iv aad c).1) where
  inj iv iv' c c' h := point_inj h
  room := by norm_num
  enough aad m h := by rw [blocks] at h; omega
  enc F iv aad m h := aesGcm_enc F iv aad (by have := len_of_blocks h hL; omega)
  out F F' h := by
    funext iv aad c
    rw [gTag, gTag, h (point zeroIv 0), h (point iv 1)]
    · intro iv' j hj e
      exact ctr_ne_one (j := j) (by omega) (point_inj e).2.symm
    · intro iv' j hj e
      exact ctr_ne_zero (j := j) (by omega) (point_inj e).2.symm
  dec := aesGcm_total hL

/-- Without questions for decryption nothing is forged. -/
theorem not_forges {Ω : Type} (S : Aead Ω) {A : List Seen → Ask} (hA : ∀ h iv aad c t, A h ≠ .dec iv aad c t) (q : Nat) (F : Ω) :
    ¬ S.Forges A q F := by
  rintro ⟨k, -, iv, aad, c, t, p, h⟩
  cases ha : A (S.play A F k) with
  | stop => rw [ha] at h; exact absurd h (by simp [Aead.answer])
  | dec => exact hA _ _ _ _ _ ha
  | enc iv aad m =>
    rw [ha, Aead.answer] at h
    split at h <;> exact absurd h (by simp)

/-- Two attacks that encrypt, with the nonces 0 and 1, messages of the same length. -/
def ask2 (m m' : List U8) : List Seen → Ask
  | [] => .enc zeroIv [] m
  | [.enc ⟨iv, _⟩ _ _ _] => if iv = zeroIv.1 then .enc ⟨1 :: List.replicate 11 0, rfl⟩ [5] m' else .stop
  | _ => .stop

theorem ask2_proper (m m' : List U8) (L : Nat) (h : blocks [] m ≤ L) (h' : blocks [5] m' ≤ L) : Proper (ask2 m m') L where
  once g iv aad n e := by
    intro aad' c t hm
    match g with
    | [] => exact absurd hm (by simp)
    | [.enc ⟨iv', _⟩ aad' c' t'] =>
      simp only [ask2] at e
      split at e
      · rename_i hz
        simp only [Ask.enc.injEq] at e
        obtain ⟨rfl, -, -⟩ := e
        simp only [List.mem_singleton, Seen.enc.injEq, Subtype.mk.injEq] at hm
        rw [← hm.1] at hz
        exact absurd hz (by decide)
      · exact absurd e (by simp)
    | .dec .. :: _ | .failed :: _ | .stopped :: _ | .enc .. :: _ :: _ => exact absurd e (by simp [ask2])
  fresh g iv aad c t e := by
    match g with
    | [] => exact absurd e (by simp [ask2])
    | [.enc ⟨iv', _⟩ aad' c' t'] => simp only [ask2] at e; split at e <;> exact absurd e (by simp)
    | .dec .. :: _ | .failed :: _ | .stopped :: _ | .enc .. :: _ :: _ => exact absurd e (by simp [ask2])
  encLength g iv aad n e := by
    match g with
    | [] =>
      simp only [ask2, Ask.enc.injEq] at e
      obtain ⟨-, rfl, rfl⟩ := e
      exact h
    | [.enc ⟨iv', _⟩ aad' c' t'] =>
      simp only [ask2] at e
      split at e
      · simp only [Ask.enc.injEq] at e
        obtain ⟨-, rfl, rfl⟩ := e
        exact h'
      · exact absurd e (by simp)
    | .dec .. :: _ | .failed :: _ | .stopped :: _ | .enc .. :: _ :: _ => exact absurd e (by simp [ask2])
  decLength g iv aad c t e := by
    match g with
    | [] => exact absurd e (by simp [ask2])
    | [.enc ⟨iv', _⟩ aad' c' t'] => simp only [ask2] at e; split at e <;> exact absurd e (by simp)
    | .dec .. :: _ | .failed :: _ | .stopped :: _ | .enc .. :: _ :: _ => exact absurd e (by simp [ask2])

theorem ask2_similar {m m' n n' : List U8} (h : m.length = n.length) (h' : m'.length = n'.length) (g : List Seen) :
    (ask2 m m' g).Similar (ask2 n n' g) := by
  match g with
  | [] => exact ⟨rfl, rfl, h⟩
  | [.enc ⟨iv', _⟩ aad' c' t'] =>
    simp only [ask2]
    split
    · exact ⟨rfl, rfl, h'⟩
    · trivial
  | .dec .. :: _ | .failed :: _ | .stopped :: _ | .enc .. :: _ :: _ => trivial

theorem ask2_no_dec (m m' : List U8) (g : List Seen) (iv : Bytes 12) (aad c : List U8) (t : Bytes 16) :
    ask2 m m' g ≠ .dec iv aad c t := by
  intro e
  match g with
  | [] => exact absurd e (by simp [ask2])
  | [.enc ⟨iv', _⟩ aad' c' t'] => simp only [ask2] at e; split at e <;> exact absurd e (by simp)
  | .dec .. :: _ | .failed :: _ | .stopped :: _ | .enc .. :: _ :: _ => exact absurd e (by simp [ask2])

open Classical in
/-- **C107.**  ChaCha20-Poly1305: who asks for encryptions only, each nonce once, sees every history with as many functions as
when asking for other messages of the same lengths. -/
theorem C107_chacha (A A' : List Seen → Ask) (L q : Nat) (hA : Proper A L) (hA' : Proper A' L) (hL : L < 2 ^ 32)
    (hs : ∀ h, (A h).Similar (A' h)) (hd : ∀ h iv aad c t, A h ≠ .dec iv aad c t) (τ : List Seen) :
    (univ.filter fun F => chachaPoly.play A F q = τ).card = (univ.filter fun F => chachaPoly.play A' F q = τ).card := by
  have hd' : ∀ h iv aad c t, A' h ≠ .dec iv aad c t := by
    intro h iv aad c t e
    have := hs h
    rw [e] at this
    cases ha : A h with
    | enc => rw [ha] at this; exact this
    | stop => rw [ha] at this; exact this
    | dec => exact hd _ _ _ _ _ ha
  have h := card_blind (chachaPoly_stream hL) hA hA' hs q (· = τ)
  have e : ∀ F, chachaPoly.play A F q = blind chachaPoly A F q := fun F =>
    play_blind chachaPoly hA (chachaPoly_total hL) (not_forges _ hd q F)
  have e' : ∀ F, chachaPoly.play A' F q = blind chachaPoly A' F q := fun F =>
    play_blind chachaPoly hA' (chachaPoly_total hL) (not_forges _ hd' q F)
  simp only [e, e']
  convert h

example := C107_chacha (ask2 [1, 2] [3]) (ask2 [6, 7] [8]) 3 2 (ask2_proper _ _ _ (by decide) (by decide))
  (ask2_proper _ _ _ (by decide) (by decide)) (by norm_num) (ask2_similar rfl rfl) (ask2_no_dec _ _)

open Classical in
/-- **C107.**  The same for AES-GCM. -/
theorem C107_gcm (A A' : List Seen → Ask) (L q : Nat) (hA : Proper A L) (hA' : Proper A' L) (hL : L < 2 ^ 32)
    (hs : ∀ h, (A h).Similar (A' h)) (hd : ∀ h iv aad c t, A h ≠ .dec iv aad c t) (τ : List Seen) :
    (univ.filter fun F => aesGcm.play A F q = τ).card = (univ.filter fun F => aesGcm.play A' F q = τ).card := by
  have hd' : ∀ h iv aad c t, A' h ≠ .dec iv aad c t := by
    intro h iv aad c t e
    have := hs h
    rw [e] at this
    cases ha : A h with
    | enc => rw [ha] at this; exact this
    | stop => rw [ha] at this; exact this
    | dec => exact hd _ _ _ _ _ ha
  have h := card_blind (aesGcm_stream hL) hA hA' hs q (· = τ)
  have e : ∀ F, aesGcm.play A F q = blind aesGcm A F q := fun F =>
    play_blind aesGcm hA (aesGcm_total hL) (not_forges _ hd q F)
  have e' : ∀ F, aesGcm.play A' F q = blind aesGcm A' F q := fun F =>
    play_blind aesGcm hA' (aesGcm_total hL) (not_forges _ hd' q F)
  simp only [e, e']
  convert h

example := C107_gcm (ask2 [1, 2] [3]) (ask2 [6, 7] [8]) 3 2 (ask2_proper _ _ _ (by decide) (by decide))
  (ask2_proper _ _ _ (by decide) (by decide)) (by norm_num) (ask2_similar rfl rfl) (ask2_no_dec _ _)

open Classical in
/-- **C107.**  With questions for decryption as well: whatever `D` is concluded from the answers, it is concluded with at most
`2 q (1 + 2^25 L q)` in `2^127` of all functions more than for the other messages. -/
theorem C107_chacha_decryption (A A' : List Seen → Ask) (L q : Nat) (hA : Proper A L) (hA' : Proper A' L) (hL : L < 2 ^ 32)
    (hs : ∀ h, (A h).Similar (A' h)) (D : List Seen → Prop) :
    2 ^ 127 * (univ.filter fun F => D (chachaPoly.play A F q)).card ≤ 2 ^ 127 * (univ.filter fun F => D (chachaPoly.play A' F q)).card +
      2 * q * (1 + 2 ^ 25 * L * q) * Fintype.card (Bytes 12 × U32 → Bytes 64) := by
  have h := Nat.mul_le_mul_left (2 ^ 127) (card_play (chachaPoly_stream hL) hA hA' hs q D)
  have h1 := C106_chacha A L q hA hL
  have h2 := C106_chacha A' L q hA' hL
  rw [Nat.mul_add, Nat.mul_add] at h
  refine h.trans (Nat.add_le_add_left ((Nat.add_le_add h1 h2).trans (le_of_eq ?_)) _)
  ring

example := C107_chacha_decryption prepend prepend 3 2 prepend_proper prepend_proper (by norm_num) (fun h => by
  cases prepend h <;> simp [Ask.Similar])

open Classical in
/-- **C107.**  The same for AES-GCM, with `2 q (L + 1)` in `2^128`. -/
theorem C107_gcm_decryption (A A' : List Seen → Ask) (L q : Nat) (hA : Proper A L) (hA' : Proper A' L) (hL : L < 2 ^ 32)
    (hs : ∀ h, (A h).Similar (A' h)) (D : List Seen → Prop) :
    2 ^ 128 * (univ.filter fun F => D (aesGcm.play A F q)).card ≤ 2 ^ 128 * (univ.filter fun F => D (aesGcm.play A' F q)).card +
      2 * q * (L + 1) * Fintype.card (Bytes 16 → Bytes 16) := by
  have h := Nat.mul_le_mul_left (2 ^ 128) (card_play (aesGcm_stream hL) hA hA' hs q D)
  have h1 := C106_gcm A L q hA hL
  have h2 := C106_gcm A' L q hA' hL
  rw [Nat.mul_add, Nat.mul_add] at h
  refine h.trans (Nat.add_le_add_left ((Nat.add_le_add h1 h2).trans (le_of_eq ?_)) _)
  ring

/-! ## With a nonce used twice -/

/-- Two encryptions with one nonce. -/
def reuse (m : List U8) (h : List Seen) : Ask :=
  if h.length = 0 then .enc zeroIv [] [0] else if h.length = 1 then .enc zeroIv [] m else .stop

/-- The two ciphertexts are the same. -/
def Repeats (h : List Seen) : Prop :=
  ∃ iv aad c t t', h = [Seen.enc iv aad c t, Seen.enc iv aad c t']

/-- **C107.**  The rule about nonces is needed: with one nonce for two messages, the ciphertexts tell whether the messages are
equal, whatever the function is. -/
theorem C107_reuse (F : Bytes 12 × U32 → Bytes 64) (G : Bytes 16 → Bytes 16) :
    (∀ h, (reuse [0] h).Similar (reuse [1] h)) ∧
    Repeats (chachaPoly.play (reuse [0]) F 2) ∧ ¬ Repeats (chachaPoly.play (reuse [1]) F 2) ∧
    Repeats (aesGcm.play (reuse [0]) G 2) ∧ ¬ Repeats (aesGcm.play (reuse [1]) G 2) := by
  have p : ∀ {Ω} (S : Aead Ω) (F : Ω) x, S.play (reuse [x]) F 2 = [S.answer F (.enc zeroIv [] [0]), S.answer F (.enc zeroIv [] [x])] := by
    intro Ω S F x
    simp [Aead.play, reuse]
  have ne : ∀ n, 0 < n → ∀ g : Nat → Bytes n, stream n (fun j => (g j).1) [0] ≠ stream n (fun j => (g j).1) [1] := by
    intro n hn g
    have h1 : ∀ x : U8, stream n (fun j => (g j).1) [x] = Spec.xor (Spec.block n [x] 0) (g 0).1 := by
      intro x
      rw [stream, show ([x] : List U8).length = 1 from rfl, show (1 + n - 1) / n = 1 from by
        rw [Nat.add_sub_cancel_left, Nat.div_self hn]]
      simp
    have h2 : ∀ x : U8, Spec.block n [x] 0 = [x] := by
      intro x
      rw [Spec.block, Nat.mul_zero, List.drop_zero, List.take_of_length_le (by simpa using Nat.succ_le_of_lt hn)]
    rw [h1, h1, h2, h2]
    have hg := (g 0).2
    rcases hb : (g 0).1 with _ | ⟨b, l⟩
    · rw [hb] at hg; simp at hg; omega
    · simp only [Spec.xor, List.zipWith_cons_cons, List.zipWith_nil_left, ne_eq, List.cons.injEq, and_true]
      intro e
      have := congrArg (· ^^^ b) e
      simp [BitVec.xor_assoc] at this
  refine ⟨fun h => ?_, ?_, ?_, ?_, ?_⟩
  · unfold reuse
    split
    · exact ⟨rfl, rfl, rfl⟩
    · split
      · exact ⟨rfl, rfl, rfl⟩
      · trivial
  · rw [p, Aead.answer, chachaPoly_enc F zeroIv [] (by decide)]
    exact ⟨_, _, _, _, _, rfl⟩
  · rw [p, Aead.answer, Aead.answer, chachaPoly_enc F zeroIv [] (by decide), chachaPoly_enc F zeroIv [] (by decide)]
    rintro ⟨_, _, c, _, _, h⟩
    simp only [List.cons.injEq, Seen.enc.injEq, and_true] at h
    exact ne 64 (by omega) _ (h.1.2.2.1.trans h.2.2.2.1.symm)
  · rw [p, Aead.answer, aesGcm_enc G zeroIv [] (by decide)]
    exact ⟨_, _, _, _, _, rfl⟩
  · rw [p, Aead.answer, Aead.answer, aesGcm_enc G zeroIv [] (by decide), aesGcm_enc G zeroIv [] (by decide)]
    rintro ⟨_, _, c, _, _, h⟩
    simp only [List.cons.injEq, Seen.enc.injEq, and_true] at h
    exact ne 16 (by omega) _ (h.1.2.2.1.trans h.2.2.2.1.symm)

end Hacspec.Props
