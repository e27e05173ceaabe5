import Verif.Lemmas.OneTime

/-! # C97: the authenticators with keys used once -/

namespace Hacspec.Props

open Spec OneTime

/-- What is counted: there are `2^256` keys. -/
example : (byteStrings 32).card = 2 ^ 256 := by rw [card_byteStrings]; norm_num

open Classical in
/-- **C97.**  Whoever sees the tag of a message of their choice and answers with another message and a tag — as any function
of the tag seen, both messages of at most `L` blocks — succeeds for at most `2^154 L` of the `2^256` keys. -/
theorem C97_forgery (m : List U8) (answer : List U8 → List U8 × List U8) (L : Nat) (hm : (m.length + 15) / 16 ≤ L)
    (hL : ∀ t, ((answer t).1.length + 15) / 16 ≤ L) (hne : ∀ t, (answer t).1 ≠ m) :
    ((byteStrings 32).filter fun k => ∃ t, Hacspec.Poly1305.poly m k = .ok t ∧
      Hacspec.Poly1305.poly (answer t).1 k = .ok (answer t).2).card ≤ 2 ^ 154 * L := by
  have h := Finset.card_le_mul_card_image_of_maps_to (s := (byteStrings 32).filter fun k => ∃ t, Hacspec.Poly1305.poly m k = .ok t ∧
      Hacspec.Poly1305.poly (answer t).1 k = .ok (answer t).2) (t := byteStrings 16)
    (f := fun k => (Hacspec.Poly1305.poly m k).toOption.getD []) (by
      intro k hk
      obtain ⟨hk, t, h1, -⟩ := Finset.mem_filter.mp hk
      obtain ⟨t', h2, h3⟩ := C38_total m k (mem_byteStrings.mp hk)
      rw [h2]
      exact mem_byteStrings.mpr h3) (2 ^ 26 * L) (by
      intro t _
      refine (Finset.card_le_card (t := both m (answer t).1 t (answer t).2) ?_).trans
        ((card_both (fun e => hne t e.symm) t (answer t).2).trans (Nat.mul_le_mul_left _ (max_le hm (hL t))))
      intro k hk
      obtain ⟨hk1, e⟩ := Finset.mem_filter.mp hk
      obtain ⟨hk2, t', h1, h2⟩ := Finset.mem_filter.mp hk1
      rw [h1] at e
      have e : t' = t := e
      subst e
      exact Finset.mem_filter.mpr ⟨hk2, h1, h2⟩)
  rw [card_byteStrings, show (256 : Nat) ^ 16 = 2 ^ 128 by norm_num] at h
  refine h.trans (le_of_eq ?_)
  rw [Nat.mul_right_comm, ← Nat.pow_add]

/-- The answer `0 t`, `t` to the tag `t` of the empty message: two blocks at most. -/
example := C97_forgery [] (fun t => (0 :: t.take 16, t)) 2 (by simp) (fun t => by simp; omega) (fun t => by simp)

open Classical in
/-- **C97.**  The same for associated data and ciphertexts of the AEAD construction, with a uniform one-time key in place of
the one that ChaCha20 derives. -/
theorem C97_aead_forgery (aad c : List U8) (answer : List U8 → (List U8 × List U8) × List U8) (L : Nat)
    (hb : ∀ t, (answer t).1.1.length < 2 ^ 61 ∧ (answer t).1.2.length < 2 ^ 61) (ha : aad.length < 2 ^ 61) (hc : c.length < 2 ^ 61)
    (hm : (aad.length + 15) / 16 + (c.length + 15) / 16 + 1 ≤ L)
    (hL : ∀ t, ((answer t).1.1.length + 15) / 16 + ((answer t).1.2.length + 15) / 16 + 1 ≤ L) (hne : ∀ t, (answer t).1 ≠ (aad, c)) :
    ((byteStrings 32).filter fun k => ∃ d t d', Hacspec.ChaChaPoly.padAadMsg aad c = .ok d ∧ Hacspec.Poly1305.poly d k = .ok t ∧
      Hacspec.ChaChaPoly.padAadMsg (answer t).1.1 (answer t).1.2 = .ok d' ∧
      Hacspec.Poly1305.poly d' k = .ok (answer t).2).card ≤ 2 ^ 154 * L := by
  have hnb : ∀ a b : List U8, ((Poly1305.macData a b).length + 15) / 16 = (a.length + 15) / 16 + (b.length + 15) / 16 + 1 := by
    intro a b
    have h8 : ∀ v : BitVec 64, (bytesLe64 v).length = 8 := fun v => rfl
    simp only [Poly1305.macData, pad16, List.length_append, List.length_replicate, h8]
    omega
  refine (Finset.card_le_card ?_).trans (C97_forgery (Poly1305.macData aad c)
    (fun t => (Poly1305.macData (answer t).1.1 (answer t).1.2, (answer t).2)) L (by rw [hnb]; exact hm)
    (fun t => by rw [hnb]; exact hL t) (fun t h => ?_))
  · intro k hk
    obtain ⟨hk, d, t, d', h1, h2, h3, h4⟩ := Finset.mem_filter.mp hk
    rw [Hacspec.ChaChaPoly.padAadMsg_ok, Except.ok.injEq] at h1 h3
    subst h1 h3
    exact Finset.mem_filter.mpr ⟨hk, t, h2, h4⟩
  · obtain ⟨e1, e2⟩ := C40_chacha aad (answer t).1.1 c (answer t).1.2 _ ha (hb t).1 hc (hb t).2
      (Hacspec.ChaChaPoly.padAadMsg_ok aad c) (by rw [Hacspec.ChaChaPoly.padAadMsg_ok]; exact congrArg _ h)
    exact hne t (by rw [e1, e2])

example := C97_aead_forgery [1] [2, 3] (fun t => (([1], [2, 4]), t)) 3 (fun _ => by simp) (by simp) (by simp) (by simp)
  (fun _ => by simp) (fun _ => by simp)

open Classical in
/-- **C97.**  No tag is given to a message by more than twice as many keys as the average `2^128`. -/
theorem C97_tag_count_partial (m t : List U8) :
    ((byteStrings 32).filter fun k => Hacspec.Poly1305.poly m k = .ok t).card ≤ 2 * 2 ^ 128 := by
  have h := Finset.card_le_mul_card_image_of_maps_to (s := (byteStrings 32).filter fun k => Hacspec.Poly1305.poly m k = .ok t)
    (t := byteStrings 16) (f := fun k => k.take 16) (by
      intro k hk
      have := mem_byteStrings.mp (Finset.mem_filter.mp hk).1
      exact mem_byteStrings.mpr (by rw [List.length_take]; omega)) 2 (by
      intro ρ _
      refine (Finset.card_le_card ?_).trans (card_half m t ρ)
      intro k hk
      have hk := Finset.mem_filter.mp hk
      have hb := Finset.mem_filter.mp hk.1
      exact Finset.mem_filter.mpr ⟨hb.1, hb.2, hk.2⟩)
  rw [card_byteStrings, show (256 : Nat) ^ 16 = 2 ^ 128 by norm_num] at h
  exact h

/-- Two blocks whose accumulator for `r = 1` is `p - 1`. -/
def wrapMsg : List U8 := List.replicate 16 0xff ++ 0xfb :: List.replicate 15 0xff

open Classical in
/-- **C97.**  The tags of a message are not uniform, because `poly` adds `s` modulo `p`: the tag `ff … ff` of `wrapMsg` is
given by fewer than `2^128` keys. -/
theorem C97_tag_uniform_refuted :
    ((byteStrings 32).filter fun k => Hacspec.Poly1305.poly wrapMsg k = .ok (List.replicate 16 0xff)).card < 2 ^ 128 := by
  have hv : leVal (List.replicate 16 0xff : List U8) = 2 ^ 128 - 1 := by decide +kernel
  have hp : Poly1305.p = 2 ^ 130 - 5 := rfl
  -- no key that wraps gives this tag
  have hnw : ∀ k : List U8, k.length = 32 → Hacspec.Poly1305.poly wrapMsg k = .ok (List.replicate 16 0xff) →
      Poly1305.acc (Poly1305.clampR k) wrapMsg + Poly1305.keyS k < Poly1305.p := by
    intro k hk e
    rw [C38_poly _ _ hk, Except.ok.injEq] at e
    have e := congrArg leVal e
    rw [leVal_leBytes, hv, show (256 : Nat) ^ 16 = 2 ^ 128 by norm_num] at e
    have ha := acc_lt (Poly1305.clampR k) wrapMsg
    have hs := keyS_lt hk
    generalize Poly1305.acc (Poly1305.clampR k) wrapMsg = a at *
    generalize Poly1305.keyS k = s at *
    by_contra hge
    have e1 : (a + s) % Poly1305.p = a + s - Poly1305.p := by
      rw [Nat.mod_eq_sub_mod (by omega), Nat.mod_eq_of_lt (by omega)]
    rw [e1] at e
    omega
  have hlt : ((byteStrings 16).erase (1 :: List.replicate 15 0)).card < 2 ^ 128 := by
    rw [Finset.card_erase_of_mem (mem_byteStrings.mpr (by rfl)), card_byteStrings]
    norm_num
  refine lt_of_le_of_lt (Finset.card_le_card_of_injOn (fun k => k.take 16) ?_ ?_) hlt
  · intro k hk
    have hk := Finset.mem_filter.mp (Finset.mem_coe.mp hk)
    have l := mem_byteStrings.mp hk.1
    refine Finset.mem_coe.mpr (Finset.mem_erase.mpr ⟨?_, mem_byteStrings.mpr (by show (k.take 16).length = 16; rw [List.length_take]; omega)⟩)
    intro h
    have h : k.take 16 = 1 :: List.replicate 15 0 := h
    have hw := hnw k l hk.2
    have hr : Poly1305.clampR k = 1 := by rw [← clampR_take, h]; decide +kernel
    have ha : Poly1305.acc 1 wrapMsg = Poly1305.p - 1 := by decide +kernel
    have e := hk.2
    rw [hr, ha] at hw
    rw [C38_poly _ _ l, Except.ok.injEq, hr, ha, show Poly1305.keyS k = 0 by omega] at e
    exact absurd e (by decide +kernel)
  · intro k hk k' hk' h
    have hk := Finset.mem_filter.mp (Finset.mem_coe.mp hk)
    have hk' := Finset.mem_filter.mp (Finset.mem_coe.mp hk')
    have l := mem_byteStrings.mp hk.1
    have l' := mem_byteStrings.mp hk'.1
    exact poly_inj l l' h hk.2 hk'.2 ⟨fun _ => hnw k' l' hk'.2, fun _ => hnw k l hk.2⟩

/-! ## GCM -/

/-- The end of `encrypt_aes`: the tag for a hash key `h` and a mask `s`. -/
def gcmTag (h s aad c : List U8) : M (List U8) := do
  let p ← Hacspec.AesGcm.padAadMsg aad c
  let t ← Gf128.gmac p h
  Hacspec.Aes.xorBlock t s

theorem gcmTag_ok {h s : List U8} (hh : h.length = 16) (hs : s.length = 16) (aad c : List U8) :
    gcmTag h s aad c = .ok (Spec.xor (Gcm.ghash h (Gcm.macData aad c)) s) := by
  rw [gcmTag, Hacspec.AesGcm.padAadMsg_ok, bind_ok, C44_gmac _ _ hh, bind_ok, Hacspec.Aes.xorBlock_ok (Gf128.length_ghash _) hs]

theorem xor_swap {a b c : List U8} (hab : a.length = b.length) (hb : Spec.xor a b = c) : b = Spec.xor a c := by
  rw [← hb, Hacspec.Aes.xor_comm' a b, Hacspec.Aes.xor_comm' a, Hacspec.Aes.xor_xor hab.symm]

theorem xor_mask {a b s : List U8} (ha : a.length = 16) (hb : b.length = 16) (hs : s.length = 16) :
    Spec.xor a b = Spec.xor (Spec.xor a s) (Spec.xor b s) := by
  apply List.ext_getElem
  · simp [Spec.xor, ha, hb, hs]
  · intro i h1 h2
    simp only [Spec.xor, List.getElem_zipWith]
    have key : ∀ x y z : U8, x ^^^ y = x ^^^ z ^^^ (y ^^^ z) := by
      intro x y z
      rw [BitVec.xor_comm y z, BitVec.xor_assoc x, ← BitVec.xor_assoc z, BitVec.xor_self, BitVec.zero_xor]
    exact key _ _ _

open Classical in
/-- **C97.**  With uniform hash key and mask, every tag is given to every associated data and ciphertext by exactly `2^128` of
the `2^256` pairs. -/
theorem C97_gcm_tag_uniform (aad c t : List U8) (ht : t.length = 16) :
    ((byteStrings 16 ×ˢ byteStrings 16).filter fun k => gcmTag k.1 k.2 aad c = .ok t).card = 2 ^ 128 := by
  rw [show (2 : Nat) ^ 128 = (byteStrings 16).card by rw [card_byteStrings]; norm_num]
  refine Finset.card_nbij' (fun k => k.1) (fun h => (h, Spec.xor (Gcm.ghash h (Gcm.macData aad c)) t)) ?_ ?_ ?_ ?_
  · intro k hk
    exact (Finset.mem_product.mp (Finset.mem_filter.mp hk).1).1
  · intro h hh
    have hh := mem_byteStrings.mp hh
    have hl : (Spec.xor (Gcm.ghash h (Gcm.macData aad c)) t).length = 16 := Hacspec.Aes.length_xor16 (Gf128.length_ghash _) ht
    refine Finset.mem_filter.mpr ⟨Finset.mem_product.mpr ⟨mem_byteStrings.mpr hh, mem_byteStrings.mpr hl⟩, ?_⟩
    rw [gcmTag_ok hh hl, ← xor_swap (by rw [Gf128.length_ghash, ht]) rfl]
  · intro k hk
    have hk := Finset.mem_filter.mp hk
    have hm := Finset.mem_product.mp hk.1
    have h1 := mem_byteStrings.mp hm.1
    have h2 := mem_byteStrings.mp hm.2
    have e := hk.2
    rw [gcmTag_ok h1 h2, Except.ok.injEq] at e
    exact Prod.ext rfl (xor_swap (by rw [Gf128.length_ghash, h2]) e).symm
  · intro h _
    rfl

example := C97_gcm_tag_uniform [1] [2, 3] (List.replicate 16 7) (by simp)

open Classical in
/-- **C97.**  Whoever sees one tag and answers with other associated data or ciphertext, of at most `L` blocks with the block
of lengths, and a tag, succeeds for at most `L` in `2^128` pairs. -/
theorem C97_gcm_forgery (aad c : List U8) (answer : List U8 → (List U8 × List U8) × List U8) (L : Nat)
    (hb : ∀ t, (answer t).1.1.length < 2 ^ 61 ∧ (answer t).1.2.length < 2 ^ 61) (ha : aad.length < 2 ^ 61) (hc : c.length < 2 ^ 61)
    (hm : (aad.length + 15) / 16 + (c.length + 15) / 16 + 1 ≤ L)
    (hL : ∀ t, ((answer t).1.1.length + 15) / 16 + ((answer t).1.2.length + 15) / 16 + 1 ≤ L) (hne : ∀ t, (answer t).1 ≠ (aad, c)) :
    ((byteStrings 16 ×ˢ byteStrings 16).filter fun k => ∃ t, gcmTag k.1 k.2 aad c = .ok t ∧
      gcmTag k.1 k.2 (answer t).1.1 (answer t).1.2 = .ok (answer t).2).card ≤ 2 ^ 128 * L := by
  have h := Finset.card_le_mul_card_image_of_maps_to
    (s := (byteStrings 16 ×ˢ byteStrings 16).filter fun k => ∃ t, gcmTag k.1 k.2 aad c = .ok t ∧
      gcmTag k.1 k.2 (answer t).1.1 (answer t).1.2 = .ok (answer t).2) (t := byteStrings 16)
    (f := fun k => (gcmTag k.1 k.2 aad c).toOption.getD []) (by
      intro k hk
      obtain ⟨hk, t, h1, -⟩ := Finset.mem_filter.mp hk
      have hm := Finset.mem_product.mp hk
      have e := gcmTag_ok (mem_byteStrings.mp hm.1) (mem_byteStrings.mp hm.2) aad c
      simp only [e]
      exact mem_byteStrings.mpr (Hacspec.Aes.length_xor16 (Gf128.length_ghash _) (mem_byteStrings.mp hm.2))) L (by
      intro t _
      have hin : ∀ k ∈ ((byteStrings 16 ×ˢ byteStrings 16).filter fun k => ∃ t, gcmTag k.1 k.2 aad c = .ok t ∧
          gcmTag k.1 k.2 (answer t).1.1 (answer t).1.2 = .ok (answer t).2).filter
            fun k => (gcmTag k.1 k.2 aad c).toOption.getD [] = t,
          k.1.length = 16 ∧ k.2.length = 16 ∧ Spec.xor (Gcm.ghash k.1 (Gcm.macData aad c)) k.2 = t ∧
            Spec.xor (Gcm.ghash k.1 (Gcm.macData (answer t).1.1 (answer t).1.2)) k.2 = (answer t).2 := by
        intro k hk
        obtain ⟨hk, e⟩ := Finset.mem_filter.mp hk
        obtain ⟨hk, t', h1, h2⟩ := Finset.mem_filter.mp hk
        have hm := Finset.mem_product.mp hk
        rw [h1] at e
        have e : t' = t := e
        subst e
        have l1 := mem_byteStrings.mp hm.1
        have l2 := mem_byteStrings.mp hm.2
        rw [gcmTag_ok l1 l2, Except.ok.injEq] at h1 h2
        exact ⟨l1, l2, h1, h2⟩
      -- the hash key determines the mask
      rw [← Finset.card_image_of_injOn (f := fun k => k.1) (by
        intro k hk k' hk' h
        obtain ⟨l1, l2, e1, -⟩ := hin k (Finset.mem_coe.mp hk)
        obtain ⟨l1', l2', e1', -⟩ := hin k' (Finset.mem_coe.mp hk')
        have h : k.1 = k'.1 := h
        refine Prod.ext h ?_
        rw [xor_swap (by rw [Gf128.length_ghash, l2]) e1, xor_swap (by rw [Gf128.length_ghash, l2']) e1', h]), ← Finset.length_toList]
      refine (C72_gcm_universal aad c (answer t).1.1 (answer t).1.2 (Spec.xor t (answer t).2) ha (hb t).1 hc (hb t).2
        (fun e => hne t (by rw [e])) _ (Finset.nodup_toList _) ?_).trans (max_le hm (hL t))
      intro h hh
      obtain ⟨k, hk, rfl⟩ := Finset.mem_image.mp (Finset.mem_toList.mp hh)
      obtain ⟨l1, l2, e1, e2⟩ := hin k hk
      refine ⟨l1, _, _, _, _, Hacspec.AesGcm.padAadMsg_ok _ _, Hacspec.AesGcm.padAadMsg_ok _ _, C44_gmac _ _ l1, C44_gmac _ _ l1, ?_⟩
      have := xor_mask (Gf128.length_ghash (k := k.1) (Gcm.macData aad c))
        (Gf128.length_ghash (k := k.1) (Gcm.macData (answer t).1.1 (answer t).1.2)) l2
      rwa [e1, e2] at this)
  rw [card_byteStrings, show (256 : Nat) ^ 16 = 2 ^ 128 by norm_num, Nat.mul_comm] at h
  exact h

example := C97_gcm_forgery [1] [2, 3] (fun t => (([1], [2, 4]), t)) 3 (fun _ => by simp) (by simp) (by simp) (by simp)
  (fun _ => by simp) (fun _ => by simp)

end Hacspec.Props
