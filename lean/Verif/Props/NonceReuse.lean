import Verif.Props.Limits
import Verif.Props.Universals

/-! # C82: what the reuse of a nonce gives away -/

namespace Hacspec.Props

open SecretInt Spec Hacspec.Seq
open Hacspec.Aes (Variant)

/-- If there are at most `N` objects with a property, they can be listed. -/
theorem exists_all {α : Type} (P : α → Prop) (N : Nat) (h : ∀ l : List α, l.Nodup → (∀ x ∈ l, P x) → l.length ≤ N) :
    ∃ l : List α, l.length ≤ N ∧ ∀ x, P x → x ∈ l := by
  have key : ∀ d, ∀ l : List α, l.Nodup → (∀ x ∈ l, P x) → N - l.length = d →
      ∃ l : List α, l.length ≤ N ∧ ∀ x, P x → x ∈ l := by
    intro d
    induction d with
    | zero =>
      intro l hn hp hd
      refine ⟨l, h l hn hp, fun x hx => ?_⟩
      by_contra hmem
      have := h (x :: l) (List.nodup_cons.mpr ⟨hmem, hn⟩) (by
        intro y hy
        rcases List.mem_cons.mp hy with rfl | hy
        · exact hx
        · exact hp y hy)
      rw [List.length_cons] at this
      omega
    | succ d ih =>
      intro l hn hp hd
      by_cases hall : ∀ x, P x → x ∈ l
      · exact ⟨l, h l hn hp, hall⟩
      · push Not at hall
        obtain ⟨x, hx, hmem⟩ := hall
        refine ih (x :: l) (List.nodup_cons.mpr ⟨hmem, hn⟩) ?_ (by rw [List.length_cons]; omega)
        intro y hy
        rcases List.mem_cons.mp hy with rfl | hy
        · exact hx
        · exact hp y hy
  exact key _ [] List.nodup_nil (by simp) rfl

theorem xor_stream {m m' c c' : List U8} (k : Nat → U8) (hc : ∀ j, c[j]? = m[j]?.map (· ^^^ k j))
    (hc' : ∀ j, c'[j]? = m'[j]?.map (· ^^^ k j)) : Spec.xor c c' = Spec.xor m m' := by
  apply List.ext_getElem?
  intro j
  rw [Spec.xor, Spec.xor, List.getElem?_zipWith, List.getElem?_zipWith, hc, hc']
  cases m[j]? with
  | none => rfl
  | some a =>
    cases m'[j]? with
    | none => rfl
    | some b => simp only [Option.map_some]; rw [xor_xor_cancel]

/-! ## The messages -/

/-- **C82.**  AES-GCM: two encryptions under one key and nonce reveal the difference of the messages, for any associated
data. -/
theorem C82_gcm_messages (alg : Variant) (key iv aad aad' m m' c c' t t' : List U8) (hk : key.length = 4 * Hacspec.Aes.nk alg)
    (hi : iv.length = 12) (hm : m.length < 2 ^ 63) (hm' : m'.length < 2 ^ 63)
    (h : Hacspec.AesGcm.encryptKey key iv aad m alg = .ok (c, t))
    (h' : Hacspec.AesGcm.encryptKey key iv aad' m' alg = .ok (c', t')) : Spec.xor c c' = Spec.xor m m' := by
  rw [C45_encrypt alg key iv aad m hk hi hm] at h
  rw [C45_encrypt alg key iv aad' m' hk hi hm'] at h'
  injection h with h; injection h with h _
  injection h' with h'; injection h' with h' _
  rw [← h, ← h']
  exact xor_stream _ (fun j => ctr_getElem? hk j) (fun j => ctr_getElem? hk j)

/-- **C82.**  ChaCha20-Poly1305: the same. -/
theorem C82_chacha_messages (key iv aad aad' m m' c c' t t' : List U8) (hk : key.length = 32) (hi : iv.length = 12)
    (hm : m.length < 2 ^ 63) (hm' : m'.length < 2 ^ 63) (h : Hacspec.ChaChaPoly.encrypt key iv aad m = .ok (c, t))
    (h' : Hacspec.ChaChaPoly.encrypt key iv aad' m' = .ok (c', t')) : Spec.xor c c' = Spec.xor m m' := by
  rw [C39_encrypt key iv aad m hk hi hm] at h
  rw [C39_encrypt key iv aad' m' hk hi hm'] at h'
  injection h with h; injection h with h _
  injection h' with h'; injection h' with h' _
  rw [← h, ← h']
  exact xor_stream _ (fun j => encrypt_getElem? hk hi j) (fun j => encrypt_getElem? hk hi j)

example := C82_gcm_messages .aes128 (List.replicate 16 1) (List.replicate 12 2) [5] [] [1, 2, 3] [9, 9] _ _ _ _
  (by simp [Hacspec.Aes.nk]) (by simp) (by decide) (by decide)
  (C45_encrypt .aes128 _ _ _ _ (by simp [Hacspec.Aes.nk]) (by simp) (by decide))
  (C45_encrypt .aes128 _ _ _ _ (by simp [Hacspec.Aes.nk]) (by simp) (by decide))

/-! ## Forgeries -/

theorem xor_self_cancel {a b : List U8} (h : a.length = b.length) : Spec.xor a (Spec.xor a b) = b := by
  induction a generalizing b with
  | nil => cases b with
    | nil => rfl
    | cons => simp at h
  | cons x a ih =>
    cases b with
    | nil => simp at h
    | cons y b =>
      have := ih (b := b) (by simpa using h)
      simp only [Spec.xor, List.zipWith_cons_cons] at this ⊢
      rw [this, ← BitVec.xor_assoc, BitVec.xor_self, BitVec.zero_xor]

theorem xor_comm_list (a b : List U8) : Spec.xor a b = Spec.xor b a := by
  rw [Spec.xor, Spec.xor]
  exact List.zipWith_comm_of_comm (fun x y => BitVec.xor_comm x y)

theorem xor_assoc_list (a b c : List U8) : Spec.xor (Spec.xor a b) c = Spec.xor a (Spec.xor b c) := by
  induction a generalizing b c with
  | nil => rfl
  | cons x a ih =>
    cases b with
    | nil => rfl
    | cons y b =>
      cases c with
      | nil => rfl
      | cons z c =>
        have := ih b c
        simp only [Spec.xor, List.zipWith_cons_cons] at this ⊢
        rw [this, BitVec.xor_assoc]

/-- **C82, refuted** for AES-GCM.  From two ciphertexts and tags under one nonce one computes, without the key, for any
associated data and ciphertext a list of tags, no longer than the number of authenticated blocks of the longer of the two,
one of which is accepted under that key and nonce. -/
theorem C82_gcm_forgery_refuted (aad c t aad' c' t' : List U8) (ha : aad.length < 2 ^ 61) (ha' : aad'.length < 2 ^ 61)
    (hc : c.length < 2 ^ 61) (hc' : c'.length < 2 ^ 61) (hne : (aad, c) ≠ (aad', c')) (aad₂ c₂ : List U8)
    (hc₂ : c₂.length < 2 ^ 63) :
    ∃ ts : List (List U8), ts.length ≤ max ((aad.length + 15) / 16 + (c.length + 15) / 16 + 1)
        ((aad'.length + 15) / 16 + (c'.length + 15) / 16 + 1) ∧
      ∀ (alg : Variant) (key iv m m' : List U8), key.length = 4 * Hacspec.Aes.nk alg → iv.length = 12 →
        m.length < 2 ^ 63 → m'.length < 2 ^ 63 →
        Hacspec.AesGcm.encryptKey key iv aad m alg = .ok (c, t) →
        Hacspec.AesGcm.encryptKey key iv aad' m' alg = .ok (c', t') →
        ∃ t₂ ∈ ts, ∃ p, Hacspec.AesGcm.decryptKey key iv aad₂ c₂ t₂ alg = .ok (some p) := by
  obtain ⟨ks, hl, hks⟩ := exists_all (fun k : List U8 => k.length = 16 ∧
      Spec.xor (Gcm.ghash k (Gcm.macData aad c)) (Gcm.ghash k (Gcm.macData aad' c')) = Spec.xor t t') _
    (fun ks hnd hP => C72_gcm_universal aad c aad' c' (Spec.xor t t') ha ha' hc hc' hne ks hnd (fun k hk =>
      ⟨(hP k hk).1, _, _, _, _, Hacspec.AesGcm.padAadMsg_ok aad c, Hacspec.AesGcm.padAadMsg_ok aad' c',
        C44_gmac _ _ (hP k hk).1, C44_gmac _ _ (hP k hk).1, (hP k hk).2⟩))
  refine ⟨ks.map fun k => Spec.xor (Gcm.ghash k (Gcm.macData aad₂ c₂)) (Spec.xor (Gcm.ghash k (Gcm.macData aad c)) t),
    by rw [List.length_map]; exact hl, ?_⟩
  intro alg key iv m m' hk hi hm hm' h h'
  rw [C45_encrypt alg key iv aad m hk hi hm] at h
  rw [C45_encrypt alg key iv aad' m' hk hi hm'] at h'
  injection h with h; injection h with e1 e2
  injection h' with h'; injection h' with e1' e2'
  rw [e1] at e2
  rw [e1'] at e2'
  have hH := Hacspec.Aes.length_cipher (List.replicate 16 0) hk
  have hE := Hacspec.Aes.length_ctrBlock iv 1 hk
  rw [Gcm.tag] at e2 e2'
  have hg := fun (k m : List U8) => Gf128.length_ghash (k := k) m
  refine ⟨_, List.mem_map_of_mem (hks _ ⟨hH, ?_⟩), Spec.Aes.ctr (Hacspec.Aes.nk alg) (Hacspec.Aes.nr alg) key iv 2 c₂, ?_⟩
  · rw [← e2, ← e2', xor_assoc_list, xor_comm_list (Gcm.ghash _ (Gcm.macData aad' c')), xor_self_cancel (by rw [hE, hg])]
  · rw [← e2, xor_self_cancel (by rw [hE, hg]), ← Gcm.tag,
      C45_decrypt alg key iv aad₂ c₂ _ hk hi hc₂ (by rw [Gcm.tag, Spec.xor, List.length_zipWith, hg, hE]; rfl), if_pos rfl]

/-- The hypotheses are met: encryptions of different messages. -/
example : ∃ c t c' t', Hacspec.AesGcm.encryptKey (List.replicate 16 1) (List.replicate 12 2) [] [1] .aes128 = .ok (c, t) ∧
    Hacspec.AesGcm.encryptKey (List.replicate 16 1) (List.replicate 12 2) [5] [2] .aes128 = .ok (c', t') ∧
    (([] : List U8), c) ≠ ([5], c') :=
  ⟨_, _, _, _, C45_encrypt .aes128 _ _ _ _ (by simp [Hacspec.Aes.nk]) (by simp) (by decide),
    C45_encrypt .aes128 _ _ _ _ (by simp [Hacspec.Aes.nk]) (by simp) (by decide), by simp⟩

theorem acc_lt (r : Nat) (m : List U8) : Poly1305.acc r m < Poly1305.p := by
  have hpos : 0 < Poly1305.p := by decide +kernel
  rw [Poly1305.acc]
  cases h : (m.length + 15) / 16 with
  | zero => exact hpos
  | succ n =>
    rw [List.range_succ, List.foldl_append]
    exact Nat.mod_lt _ hpos

/-- The sum of accumulator and `s` follows from that of another message. -/
theorem shift_sum {a a₂ s p : Nat} (ha : a < p) : (a₂ + s) % p = (a₂ + (a + s) % p + (p - a)) % p := by
  rw [show a₂ + (a + s) % p + (p - a) = (a₂ + (p - a)) + (a + s) % p by omega, Nat.add_mod_mod,
    show a₂ + (p - a) + (a + s) = a₂ + s + p by omega, Nat.add_mod_right]

/-- **C82, refuted** for ChaCha20-Poly1305: the same, with at most 32 tags for every authenticated block. -/
theorem C82_chacha_forgery_refuted (aad c t aad' c' t' : List U8) (ha : aad.length < 2 ^ 61) (ha' : aad'.length < 2 ^ 61)
    (hc : c.length < 2 ^ 61) (hc' : c'.length < 2 ^ 61) (hne : (aad, c) ≠ (aad', c')) (aad₂ c₂ : List U8)
    (hc₂ : c₂.length < 2 ^ 63) :
    ∃ ts : List (List U8), ts.length ≤ 32 * max ((aad.length + 15) / 16 + (c.length + 15) / 16 + 1)
        ((aad'.length + 15) / 16 + (c'.length + 15) / 16 + 1) ∧
      ∀ (key iv m m' : List U8), key.length = 32 → iv.length = 12 → m.length < 2 ^ 63 → m'.length < 2 ^ 63 →
        Hacspec.ChaChaPoly.encrypt key iv aad m = .ok (c, t) →
        Hacspec.ChaChaPoly.encrypt key iv aad' m' = .ok (c', t') →
        ∃ t₂ ∈ ts, ∃ p, Hacspec.ChaChaPoly.decrypt key iv aad₂ c₂ t₂ = .ok (some p) := by
  obtain ⟨rs, hl, hrs⟩ := exists_all (fun r : Nat => ∃ k : List U8, k.length = 32 ∧ Poly1305.clampR k = r ∧
      Hacspec.Poly1305.poly (Poly1305.macData aad c) k = .ok t ∧
      Hacspec.Poly1305.poly (Poly1305.macData aad' c') k = .ok t')
    (8 * max ((aad.length + 15) / 16 + (c.length + 15) / 16 + 1) ((aad'.length + 15) / 16 + (c'.length + 15) / 16 + 1)) (by
      intro rs hnd hP
      classical
      let g : Nat → List U8 := fun r => if h : ∃ k : List U8, k.length = 32 ∧ Poly1305.clampR k = r ∧
        Hacspec.Poly1305.poly (Poly1305.macData aad c) k = .ok t ∧
        Hacspec.Poly1305.poly (Poly1305.macData aad' c') k = .ok t' then h.choose else []
      have hg : ∀ r ∈ rs, (g r).length = 32 ∧ Poly1305.clampR (g r) = r ∧
          Hacspec.Poly1305.poly (Poly1305.macData aad c) (g r) = .ok t ∧
          Hacspec.Poly1305.poly (Poly1305.macData aad' c') (g r) = .ok t' := by
        intro r hr
        simp only [g]
        rw [dif_pos (hP r hr)]
        exact (hP r hr).choose_spec
      have hmap : (rs.map g).map Poly1305.clampR = rs := by
        rw [List.map_map]
        conv => rhs; rw [← List.map_id rs]
        exact List.map_congr_left fun r hr => (hg r hr).2.1
      have := C73_aead_universal aad c aad' c' ha ha' hc hc' hne ((leVal t : Int) - leVal t') (rs.map g)
        (by rw [hmap]; exact hnd) (by
          intro k hk
          obtain ⟨r, hr, rfl⟩ := List.mem_map.mp hk
          obtain ⟨h1, -, h2, h3⟩ := hg r hr
          exact ⟨h1, _, _, _, _, Hacspec.ChaChaPoly.padAadMsg_ok aad c, Hacspec.ChaChaPoly.padAadMsg_ok aad' c', h2, h3,
            Int.ModEq.refl _⟩)
      rwa [List.length_map] at this)
  refine ⟨rs.flatMap fun r => (List.range 4).map fun j =>
    leBytes 16 ((Poly1305.acc r (Poly1305.macData aad₂ c₂) + (leVal t + 2 ^ 128 * j) +
      (Poly1305.p - Poly1305.acc r (Poly1305.macData aad c))) % Poly1305.p), ?_, ?_⟩
  · rw [List.length_flatMap]
    simp only [List.length_map, List.length_range]
    rw [List.map_const', List.sum_replicate]
    simp only [smul_eq_mul]
    omega
  intro key iv m m' hk hi hm hm' h h'
  rw [C39_encrypt key iv aad m hk hi hm] at h
  rw [C39_encrypt key iv aad' m' hk hi hm'] at h'
  injection h with h; injection h with e1 e2
  injection h' with h'; injection h' with e1' e2'
  rw [e1] at e2
  rw [e1'] at e2'
  have hb := Hacspec.ChaCha.length_blockFn 0 hk hi
  have hkl : ((ChaCha.blockFn key 0 iv).take 32).length = 32 := by rw [List.length_take, hb]; rfl
  have hr := hrs (Poly1305.clampR ((ChaCha.blockFn key 0 iv).take 32)) ⟨_, hkl, rfl,
    by rw [C38_poly _ _ hkl, ← e2]; rfl, by rw [C38_poly _ _ hkl, ← e2']; rfl⟩
  have hp : Poly1305.p < 2 ^ 128 * 4 := by decide +kernel
  have hv : (Poly1305.acc (Poly1305.clampR ((ChaCha.blockFn key 0 iv).take 32)) (Poly1305.macData aad c) +
      Poly1305.keyS ((ChaCha.blockFn key 0 iv).take 32)) % Poly1305.p < 2 ^ 128 * 4 :=
    Nat.lt_trans (Nat.mod_lt _ (by decide +kernel)) hp
  refine ⟨aeadTag key iv aad₂ c₂, List.mem_flatMap.mpr ⟨_, hr, List.mem_map.mpr ⟨(Poly1305.acc (Poly1305.clampR
    ((ChaCha.blockFn key 0 iv).take 32)) (Poly1305.macData aad c) + Poly1305.keyS ((ChaCha.blockFn key 0 iv).take 32)) %
    Poly1305.p / 2 ^ 128, List.mem_range.mpr (Nat.div_lt_of_lt_mul hv), ?_⟩⟩,
    ChaCha.encrypt key 1 iv c₂, ?_⟩
  · rw [aeadTag, ← e2, aeadTag, leVal_leBytes, show 256 ^ 16 = 2 ^ 128 by norm_num, Nat.mod_add_div, ← shift_sum (acc_lt _ _)]
  · rw [C39_decrypt key iv aad₂ c₂ _ hk hi hc₂, if_pos rfl]

example : ∃ c t c' t', Hacspec.ChaChaPoly.encrypt (List.replicate 32 1) (List.replicate 12 2) [] [1] = .ok (c, t) ∧
    Hacspec.ChaChaPoly.encrypt (List.replicate 32 1) (List.replicate 12 2) [5] [2] = .ok (c', t') ∧
    (([] : List U8), c) ≠ ([5], c') :=
  ⟨_, _, _, _, C39_encrypt _ _ _ _ (by simp) (by simp) (by decide), C39_encrypt _ _ _ _ (by simp) (by simp) (by decide),
    by simp⟩

end Hacspec.Props
