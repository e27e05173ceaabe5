import Verif.Lemmas.Universal
import Verif.Props.Aess
import Verif.Props.ChaChas

/-! # C71–C73: the field of GCM, and GHASH and Poly1305 as universal hash functions -/

namespace Hacspec.Props

open SecretInt Spec Polynomial Universal

/-! ## C71 -/

/-- **C71.**  The polynomial of GCM is irreducible. -/
theorem C71_irreducible : Irreducible Gcm.P := Gf128.P_irreducible

theorem mulF_eq_zero (x y : U128) : Gf128.mulF x y = 0 ↔ x = 0 ∨ y = 0 := by
  have hz : ∀ z : U128, Gf128.φ (Gf128.toPoly z) = 0 ↔ z = 0 := by
    intro z
    constructor
    · intro h
      apply Gf128.φ_inj
      rw [h, show (0 : U128) = 0#128 from rfl, Gf128.toPoly_zero, map_zero]
    · rintro rfl
      rw [show (0 : U128) = 0#128 from rfl, Gf128.toPoly_zero, map_zero]
  rw [← hz, Gf128.φ_mulF, mul_eq_zero, hz, hz]

/-- **C71.**  `fmul` has no zero divisors. -/
theorem C71_no_zero_divisors (x y : U128) : Gf128.fmul x y = .ok 0 ↔ x = 0 ∨ y = 0 := by
  rw [Gf128.fmul_ok, ← mulF_eq_zero]
  exact ⟨fun h => Except.ok.inj h, fun h => by rw [h]⟩

/-- **C71.**  Multiplication by an element other than 0 is a bijection: every equation `fmul(x, y) = z` has exactly one
solution `y`. -/
theorem C71_division (x z : U128) (hx : x ≠ 0) : ∃! y, Gf128.fmul x y = .ok z := by
  have hinj : Function.Injective (Gf128.mulF x) := by
    intro a b h
    apply Gf128.φ_inj
    have h1 := congrArg (fun v => Gf128.φ (Gf128.toPoly v)) h
    simp only [Gf128.φ_mulF] at h1
    refine mul_left_cancel₀ ?_ h1
    intro h0
    apply hx
    apply Gf128.φ_inj
    rw [h0, show (0 : U128) = 0#128 from rfl, Gf128.toPoly_zero, map_zero]
  have hfin : Finite U128 := Finite.of_injective (fun v : U128 => v.toFin) (fun a b h => BitVec.eq_of_toFin_eq h)
  obtain ⟨y, hy⟩ := (Finite.injective_iff_surjective.mp hinj) z
  refine ⟨y, by dsimp only; rw [Gf128.fmul_ok, hy], ?_⟩
  intro y' h
  rw [Gf128.fmul_ok, ← hy] at h
  exact hinj (Except.ok.inj h)

/-- The element `X` and its inverse, `X^127 + X^6 + X + 1`. -/
example : Gf128.fmul (1#128 <<< 126) 0xc2000000000000000000000000000001 = .ok (1#128 <<< 127) := by decide +kernel

/-! ## C72 -/

/-- The bound for two texts whose blocks differ. -/
theorem gmac_keys {m m' δ : List U8} {ks : List (List U8)}
    (hks : ∀ k ∈ ks, k.length = 16 ∧ ∃ t t', Gf128.gmac m k = .ok t ∧ Gf128.gmac m' k = .ok t' ∧ Spec.xor t t' = δ) :
    ∀ k ∈ ks, k.length = 16 ∧ Spec.xor (Gcm.ghash k m) (Gcm.ghash k m') = δ := by
  intro k hk
  obtain ⟨h1, t, t', h2, h3, h4⟩ := hks k hk
  rw [C44_gmac _ _ h1] at h2 h3
  rw [Except.ok.inj h2, Except.ok.inj h3]
  exact ⟨h1, h4⟩

/-- **C72.**  For two different texts of the same length and any difference `δ`, at most one key per block of text gives
hashes with that difference. -/
theorem C72_gmac_universal (m m' δ : List U8) (hl : m.length = m'.length) (hne : m ≠ m') (ks : List (List U8))
    (hnd : ks.Nodup)
    (hks : ∀ k ∈ ks, k.length = 16 ∧ ∃ t t', Gf128.gmac m k = .ok t ∧ Gf128.gmac m' k = .ok t' ∧ Spec.xor t t' = δ) :
    ks.length ≤ (m.length + 15) / 16 := by
  obtain ⟨i, h1, h2⟩ := exists_block_ne 16 (by norm_num) hl hne
  have hn : nb m = nb m' := by rw [nb, nb, hl]
  have h1 : i < nb m := h1
  have := ghash_bound (m := m) (m' := m') (j := nb m - i) (by omega) (by
    rw [coeff_hpoly, coeff_hpoly, if_pos (by omega), if_pos (by omega), ← hn, show nb m - (nb m - i) = i by omega]
    intro h
    refine h2 (el_inj ?_ (length_block_le m i) h)
    rw [block, block, List.length_take, List.length_take, List.length_drop, List.length_drop, hl]) ks hnd (gmac_keys hks)
  rw [← hn, max_self] at this
  exact this

theorem length_macData (aad c : List U8) : (Gcm.macData aad c).length = 16 * (nb aad + nb c + 1) := by
  simp only [Gcm.macData, pad16, List.length_append, List.length_replicate, nb]
  have : ∀ v : BitVec 64, (bytesBe64 v).length = 8 := fun v => rfl
  rw [this, this]
  omega

theorem last_block (aad c : List U8) : block 16 (Gcm.macData aad c) (nb aad + nb c) =
    bytesBe64 (BitVec.ofNat 64 (8 * aad.length)) ++ bytesBe64 (BitVec.ofNat 64 (8 * c.length)) := by
  have h : (aad ++ pad16 aad ++ c ++ pad16 c).length = 16 * (nb aad + nb c) := by
    simp only [pad16, List.length_append, List.length_replicate, nb]
    omega
  rw [block, Gcm.macData, List.append_assoc, ← h, List.drop_left]
  rfl

/-- **C72.**  For two different pairs of associated data and ciphertext — of any lengths — and any difference `δ`, the
number of hash keys for which the GHASH values of the padded data differ by `δ` is at most the number of blocks of the
longer one. -/
theorem C72_gcm_universal (aad c aad' c' δ : List U8) (ha : aad.length < 2 ^ 61) (ha' : aad'.length < 2 ^ 61)
    (hc : c.length < 2 ^ 61) (hc' : c'.length < 2 ^ 61) (hne : (aad, c) ≠ (aad', c')) (ks : List (List U8)) (hnd : ks.Nodup)
    (hks : ∀ k ∈ ks, k.length = 16 ∧ ∃ d d' t t', Hacspec.AesGcm.padAadMsg aad c = .ok d ∧
      Hacspec.AesGcm.padAadMsg aad' c' = .ok d' ∧ Gf128.gmac d k = .ok t ∧ Gf128.gmac d' k = .ok t' ∧ Spec.xor t t' = δ) :
    ks.length ≤ max ((aad.length + 15) / 16 + (c.length + 15) / 16 + 1)
      ((aad'.length + 15) / 16 + (c'.length + 15) / 16 + 1) := by
  have hks' : ∀ k ∈ ks, k.length = 16 ∧ ∃ t t', Gf128.gmac (Gcm.macData aad c) k = .ok t ∧
      Gf128.gmac (Gcm.macData aad' c') k = .ok t' ∧ Spec.xor t t' = δ := by
    intro k hk
    obtain ⟨h1, d, d', t, t', h2, h3, h4⟩ := hks k hk
    rw [Hacspec.AesGcm.padAadMsg_ok] at h2 h3
    rw [Except.ok.inj h2, Except.ok.inj h3]
    exact ⟨h1, t, t', h4⟩
  have hnb : ∀ a b : List U8, nb (Gcm.macData a b) = nb a + nb b + 1 := by
    intro a b
    rw [nb, length_macData]; omega
  have hmd : Gcm.macData aad c ≠ Gcm.macData aad' c' := by
    intro h
    obtain ⟨e1, e2⟩ := C40_aes_gcm aad aad' c c' _ ha ha' hc hc' (Hacspec.AesGcm.padAadMsg_ok aad c)
      (by rw [Hacspec.AesGcm.padAadMsg_ok, h])
    exact hne (by rw [e1, e2])
  change _ ≤ max (nb aad + nb c + 1) (nb aad' + nb c' + 1)
  by_cases hlen : aad.length = aad'.length ∧ c.length = c'.length
  · have hl : (Gcm.macData aad c).length = (Gcm.macData aad' c').length := by
      rw [length_macData, length_macData, nb, nb, nb, nb, hlen.1, hlen.2]
    refine (C72_gmac_universal _ _ δ hl hmd ks hnd hks').trans ?_
    refine (le_of_eq (hnb aad c)).trans (le_max_left _ _)
  · have := ghash_bound (j := 1) (le_refl 1) (by
      rw [coeff_hpoly, coeff_hpoly, if_pos (by rw [hnb]; omega), if_pos (by rw [hnb]; omega), hnb, hnb, Nat.add_sub_cancel,
        Nat.add_sub_cancel]
      intro h
      rw [last_block, last_block] at h
      have h2 := el_inj (by rfl) (by rw [List.length_append]; exact le_refl 16) h
      obtain ⟨e1, e2⟩ := List.append_inj h2 rfl
      have ela := be64_inj (by omega) (by omega) e1
      have elc := be64_inj (by omega) (by omega) e2
      exact hlen ⟨by omega, by omega⟩) ks hnd (gmac_keys hks')
    rw [hnb, hnb] at this
    exact this

/-- One block, one key: the two texts `00…0` and `80 00…0` differ by exactly the key. -/
example (ks : List (List U8)) (hnd : ks.Nodup)
    (hks : ∀ k ∈ ks, k.length = 16 ∧ ∃ t t', Gf128.gmac (List.replicate 16 0) k = .ok t ∧
      Gf128.gmac (0x80 :: List.replicate 15 0) k = .ok t' ∧ Spec.xor t t' = List.replicate 16 7) : ks.length ≤ 1 :=
  C72_gmac_universal _ _ _ (by decide) (by decide) ks hnd hks

/-- The hypotheses are met by the key `07 07 … 07`. -/
example : ∃ t t', Gf128.gmac (List.replicate 16 0) (List.replicate 16 7) = .ok t ∧
    Gf128.gmac (0x80 :: List.replicate 15 0) (List.replicate 16 7) = .ok t' ∧ Spec.xor t t' = List.replicate 16 7 :=
  ⟨List.replicate 16 0, List.replicate 16 7, by decide +kernel, by decide +kernel, by decide +kernel⟩

/-! ## C73 -/

theorem clampR_lt (key : List U8) : Poly1305.clampR key < Poly1305.p := by
  have h : Poly1305.clampR key ≤ 0x0ffffffc0ffffffc0ffffffc0fffffff := Nat.and_le_right
  have h2 : 0x0ffffffc0ffffffc0ffffffc0fffffff < Poly1305.p := by decide +kernel
  omega

/-- The eight differences modulo `p` that a difference of tags can come from. -/
theorem tag_diff {x x' : Nat} {δ : Int} (hx : x < Poly1305.p) (hx' : x' < Poly1305.p)
    (h : ((x % 2 ^ 128 : Nat) : Int) - ((x' % 2 ^ 128 : Nat) : Int) ≡ δ [ZMOD 2 ^ 128]) :
    ∃ j, j < 8 ∧ (x : Int) - x' = δ % 2 ^ 128 + ((j : Nat) - 4 : Int) * 2 ^ 128 := by
  have hp : Poly1305.p ≤ 4 * 2 ^ 128 := by decide +kernel
  rw [Int.ModEq] at h
  push_cast at h
  have h1 : ((x : Int) - x') % 2 ^ 128 = δ % 2 ^ 128 := by
    omega
  rw [← h1]
  have h2 := Int.emod_add_mul_ediv ((x : Int) - x') (2 ^ 128)
  have h3 : -4 ≤ ((x : Int) - x') / 2 ^ 128 := by
    apply Int.le_ediv_of_mul_le (by norm_num)
    have : ((x' : Nat) : Int) < 4 * 2 ^ 128 := by exact_mod_cast Nat.lt_of_lt_of_le hx' hp
    omega
  have h4 : ((x : Int) - x') / 2 ^ 128 < 4 := by
    apply Int.ediv_lt_of_lt_mul (by norm_num)
    have : ((x : Nat) : Int) < 4 * 2 ^ 128 := by exact_mod_cast Nat.lt_of_lt_of_le hx hp
    omega
  refine ⟨(((x : Int) - x') / 2 ^ 128 + 4).toNat, by omega, ?_⟩
  rw [Int.toNat_of_nonneg (by omega), add_sub_cancel_right, mul_comm]
  exact h2.symm

/-- **C73.**  For two different messages and any difference `δ` of tags modulo `2^128`, at most `8 ⌈L/16⌉` values of the
clamped `r` give tags with that difference, whatever the second halves of the keys are: the final reduction that departs
from RFC 8439 (C38) does not weaken the bound that the RFC's function has. -/
theorem C73_poly1305_universal (m m' : List U8) (hne : m ≠ m') (δ : Int) (ks : List (List U8))
    (hnd : (ks.map Poly1305.clampR).Nodup)
    (hks : ∀ k ∈ ks, k.length = 32 ∧ ∃ t t', Hacspec.Poly1305.poly m k = .ok t ∧ Hacspec.Poly1305.poly m' k = .ok t' ∧
      (leVal t : Int) - leVal t' ≡ δ [ZMOD 2 ^ 128]) :
    ks.length ≤ 8 * max ((m.length + 15) / 16) ((m'.length + 15) / 16) := by
  obtain ⟨j, hj, hcoef⟩ := pel_ne hne
  let f : Nat → (ZMod Poly1305.p)[X] := fun i =>
    dpoly (pel m) (pel m') (nb m) (nb m') ((δ % 2 ^ 128 + ((i : Nat) - 4 : Int) * 2 ^ 128 : Int) : ZMod Poly1305.p)
  have hf : ∀ i, f i ≠ 0 := fun i => dpoly_ne _ hj hcoef
  have hprod : (∏ i ∈ Finset.range 8, f i) ≠ 0 := Finset.prod_ne_zero_iff.mpr fun i _ => hf i
  have hdeg : (∏ i ∈ Finset.range 8, f i).natDegree ≤ 8 * max (nb m) (nb m') := by
    refine (natDegree_prod_le _ _).trans ?_
    refine (Finset.sum_le_card_nsmul _ _ (max (nb m) (nb m')) fun i _ => natDegree_dpoly _ _ _ _ _).trans ?_
    rw [Finset.card_range, smul_eq_mul]
  refine roots_bound hprod hdeg (fun k => ((Poly1305.clampR k : Nat) : ZMod Poly1305.p)) ks ?_ ?_
  · have : ks.map (fun k => ((Poly1305.clampR k : Nat) : ZMod Poly1305.p)) =
        (ks.map Poly1305.clampR).map (fun n : Nat => (n : ZMod Poly1305.p)) := by rw [List.map_map]; rfl
    rw [this]
    refine List.Nodup.map_on ?_ hnd
    intro a ha b hb h
    obtain ⟨k, -, rfl⟩ := List.mem_map.mp ha
    obtain ⟨k', -, rfl⟩ := List.mem_map.mp hb
    exact cast_inj_p (clampR_lt k) (clampR_lt k') h
  · intro k hk
    obtain ⟨hkl, t, t', h1, h2, h3⟩ := hks k hk
    rw [C38_poly _ _ hkl] at h1 h2
    have hpos : 0 < Poly1305.p := by decide +kernel
    rw [← Except.ok.inj h1, ← Except.ok.inj h2, leVal_leBytes, leVal_leBytes, show 256 ^ 16 = 2 ^ 128 by norm_num] at h3
    obtain ⟨i, hi, hd⟩ := tag_diff (Nat.mod_lt _ hpos) (Nat.mod_lt _ hpos) h3
    rw [eval_prod]
    refine Finset.prod_eq_zero (Finset.mem_range.mpr hi) ?_
    have hd2 := congrArg (fun z : Int => (z : ZMod Poly1305.p)) hd
    rw [Int.cast_sub, Int.cast_natCast, Int.cast_natCast, ZMod.natCast_mod, ZMod.natCast_mod, Nat.cast_add, Nat.cast_add,
      cast_acc, cast_acc] at hd2
    simp only [f]
    rw [dpoly, eval_sub, eval_sub, eval_C, ← hd2]
    ring

/-- **C73.**  The same for the data that the AEAD construction authenticates: two different pairs of associated data and
ciphertext, of any lengths. -/
theorem C73_aead_universal (aad c aad' c' : List U8) (ha : aad.length < 2 ^ 61) (ha' : aad'.length < 2 ^ 61)
    (hc : c.length < 2 ^ 61) (hc' : c'.length < 2 ^ 61) (hne : (aad, c) ≠ (aad', c')) (δ : Int) (ks : List (List U8))
    (hnd : (ks.map Poly1305.clampR).Nodup)
    (hks : ∀ k ∈ ks, k.length = 32 ∧ ∃ d d' t t', Hacspec.ChaChaPoly.padAadMsg aad c = .ok d ∧
      Hacspec.ChaChaPoly.padAadMsg aad' c' = .ok d' ∧ Hacspec.Poly1305.poly d k = .ok t ∧
      Hacspec.Poly1305.poly d' k = .ok t' ∧ (leVal t : Int) - leVal t' ≡ δ [ZMOD 2 ^ 128]) :
    ks.length ≤ 8 * max ((aad.length + 15) / 16 + (c.length + 15) / 16 + 1)
      ((aad'.length + 15) / 16 + (c'.length + 15) / 16 + 1) := by
  have hmd : Poly1305.macData aad c ≠ Poly1305.macData aad' c' := by
    intro h
    obtain ⟨e1, e2⟩ := C40_chacha aad aad' c c' _ ha ha' hc hc' (Hacspec.ChaChaPoly.padAadMsg_ok aad c)
      (by rw [Hacspec.ChaChaPoly.padAadMsg_ok, h])
    exact hne (by rw [e1, e2])
  have hnb : ∀ a b : List U8, ((Poly1305.macData a b).length + 15) / 16 = (a.length + 15) / 16 + (b.length + 15) / 16 + 1 := by
    intro a b
    have h8 : ∀ v : BitVec 64, (bytesLe64 v).length = 8 := fun v => rfl
    simp only [Poly1305.macData, pad16, List.length_append, List.length_replicate, h8]
    omega
  rw [← hnb, ← hnb]
  refine C73_poly1305_universal _ _ hmd δ ks hnd ?_
  intro k hk
  obtain ⟨h1, d, d', t, t', h2, h3, h4⟩ := hks k hk
  rw [Hacspec.ChaChaPoly.padAadMsg_ok] at h2 h3
  rw [Except.ok.inj h2, Except.ok.inj h3]
  exact ⟨h1, t, t', h4⟩

/-- Messages of one block: at most eight `r`; the hypotheses are met by a key whose `r` is 1. -/
example (ks : List (List U8)) (hnd : (ks.map Poly1305.clampR).Nodup)
    (hks : ∀ k ∈ ks, k.length = 32 ∧ ∃ t t', Hacspec.Poly1305.poly [5] k = .ok t ∧ Hacspec.Poly1305.poly [3] k = .ok t' ∧
      (leVal t : Int) - leVal t' ≡ 2 [ZMOD 2 ^ 128]) : ks.length ≤ 8 :=
  C73_poly1305_universal [5] [3] (by decide) 2 ks hnd hks

example : ∃ t t', Hacspec.Poly1305.poly [5] (1 :: List.replicate 31 0) = .ok t ∧
    Hacspec.Poly1305.poly [3] (1 :: List.replicate 31 0) = .ok t' ∧ (leVal t : Int) - leVal t' ≡ 2 [ZMOD 2 ^ 128] :=
  ⟨_, _, C38_poly _ _ (by decide), C38_poly _ _ (by decide), by decide +kernel⟩

end Hacspec.Props
