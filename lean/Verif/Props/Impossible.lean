import Verif.Props.Diffusion

/-! # C145: differences that four rounds of AES never produce -/

namespace Hacspec.Props

open Hacspec.Aes

theorem nz_key (a b k : U8) : nz ((Spec.Aes.sub a ^^^ k) ^^^ (Spec.Aes.sub b ^^^ k)) = nz (a ^^^ b) := by
  rw [← nz_sub a b]
  congr 1
  generalize Spec.Aes.sub a = x
  generalize Spec.Aes.sub b = y
  rw [BitVec.xor_comm y k, BitVec.xor_assoc, ← BitVec.xor_assoc k k y, BitVec.xor_self, BitVec.zero_xor]

/-- The last round moves the bytes that differ, and does not change how many there are. -/
theorem last_act {s t k s' t' : List U8} (hs : s.length = 16) (ht : t.length = 16) (hk : k.length = 16)
    (es : aesEncLast s k = .ok s') (et : aesEncLast t k = .ok t') {c r : Nat} (hc : c < 4) (hr : r < 4) :
    act s' t' ((4 * c + 13 * r) % 16) = act s t (4 * c + r) := by
  rw [aesEncLast_ok hs hk, Except.ok.injEq] at es
  rw [aesEncLast_ok ht hk, Except.ok.injEq] at et
  subst es et
  obtain ⟨a0, a1, a2, a3, a4, a5, a6, a7, a8, a9, a10, a11, a12, a13, a14, a15, rfl⟩ := exists16 hs
  obtain ⟨b0, b1, b2, b3, b4, b5, b6, b7, b8, b9, b10, b11, b12, b13, b14, b15, rfl⟩ := exists16 ht
  obtain ⟨k0, k1, k2, k3, k4, k5, k6, k7, k8, k9, k10, k11, k12, k13, k14, k15, rfl⟩ := exists16 hk
  have e : ∀ a0 a1 a2 a3 a4 a5 a6 a7 a8 a9 a10 a11 a12 a13 a14 a15 : U8,
      Spec.Aes.shiftRows (Spec.Aes.subBytes [a0, a1, a2, a3, a4, a5, a6, a7, a8, a9, a10, a11, a12, a13, a14, a15]) =
      [Spec.Aes.sub a0, Spec.Aes.sub a5, Spec.Aes.sub a10, Spec.Aes.sub a15, Spec.Aes.sub a4, Spec.Aes.sub a9, Spec.Aes.sub a14,
        Spec.Aes.sub a3, Spec.Aes.sub a8, Spec.Aes.sub a13, Spec.Aes.sub a2, Spec.Aes.sub a7, Spec.Aes.sub a12, Spec.Aes.sub a1,
        Spec.Aes.sub a6, Spec.Aes.sub a11] := by
    intros
    simp [Spec.Aes.shiftRows, Spec.Aes.subBytes, List.range_succ]
  rw [e, e]
  obtain rfl | rfl | rfl | rfl : c = 0 ∨ c = 1 ∨ c = 2 ∨ c = 3 := by omega
  all_goals
    obtain rfl | rfl | rfl | rfl : r = 0 ∨ r = 1 ∨ r = 2 ∨ r = 3 := by omega
    all_goals exact nz_key _ _ _

/-- **C145**  Two blocks that differ in one byte do not have the same four bytes after four rounds, the last one without `mix_columns`, in
any of the four places to which the last round moves a column. -/
theorem C145_four_rounds {s t s1 t1 s2 t2 s3 t3 s4 t4 k1 k2 k3 k4 : List U8} (hs : s.length = 16) (ht : t.length = 16)
    (h1 : k1.length = 16) (h2 : k2.length = 16) (h3 : k3.length = 16) (h4 : k4.length = 16) (h : Spec.diffBytes s t = 1)
    (es1 : aesEnc s k1 = .ok s1) (et1 : aesEnc t k1 = .ok t1) (es2 : aesEnc s1 k2 = .ok s2) (et2 : aesEnc t1 k2 = .ok t2)
    (es3 : aesEnc s2 k3 = .ok s3) (et3 : aesEnc t2 k3 = .ok t3) (es4 : aesEncLast s3 k4 = .ok s4) (et4 : aesEncLast t3 k4 = .ok t4)
    (c : Nat) (hc : c < 4) : ∃ r < 4, s4.getD ((4 * c + 13 * r) % 16) 0 ≠ t4.getD ((4 * c + 13 * r) % 16) 0 := by
  refine Classical.byContradiction fun hn => ?_
  have heq : ∀ r < 4, s4.getD ((4 * c + 13 * r) % 16) 0 = t4.getD ((4 * c + 13 * r) % 16) 0 := fun r hr =>
    Classical.byContradiction fun he => hn ⟨r, hr, he⟩
  have ls1 := length_aesEnc hs h1 es1
  have lt1 := length_aesEnc ht h1 et1
  have ls2 := length_aesEnc ls1 h2 es2
  have lt2 := length_aesEnc lt1 h2 et2
  have ls3 := length_aesEnc ls2 h3 es3
  have lt3 := length_aesEnc lt2 h3 et3
  have hw : ∀ r < 4, act s3 t3 (4 * c + r) = 0 := fun r hr => by
    rw [← last_act ls3 lt3 h4 es4 et4 hc hr, act, heq r hr, BitVec.xor_self]
    rfl
  have hz := (C95_full_diffusion hs ht h1 h2 h es1 et1 es2 et2).2
  rw [diffBytes_total ls2 lt2] at hz
  have b := act_le s2 t2
  have hz1 : ∀ i, i < 16 → act s2 t2 i = 1 := by
    unfold total at hz
    have b0 := b 0; have b1 := b 1; have b2 := b 2; have b3 := b 3; have b4 := b 4; have b5 := b 5; have b6 := b 6; have b7 := b 7
    have b8 := b 8; have b9 := b 9; have b10 := b 10; have b11 := b 11; have b12 := b 12; have b13 := b 13; have b14 := b 14
    have b15 := b 15
    intro i hi
    obtain rfl | rfl | rfl | rfl | rfl | rfl | rfl | rfl | rfl | rfl | rfl | rfl | rfl | rfl | rfl | rfl : i = 0 ∨ i = 1 ∨ i = 2 ∨ i = 3 ∨
      i = 4 ∨ i = 5 ∨ i = 6 ∨ i = 7 ∨ i = 8 ∨ i = 9 ∨ i = 10 ∨ i = 11 ∨ i = 12 ∨ i = 13 ∨ i = 14 ∨ i = 15 := by omega
    all_goals omega
  obtain ⟨l0, l1, l2, l3⟩ := round_link ls2 lt2 h3 es3 et3
  have w0 := hw 0 (by decide)
  have w1 := hw 1 (by decide)
  have w2 := hw 2 (by decide)
  have w3 := hw 3 (by decide)
  obtain rfl | rfl | rfl | rfl : c = 0 ∨ c = 1 ∨ c = 2 ∨ c = 3 := by omega
  · have g := hz1 0 (by decide)
    have g1 := hz1 5 (by decide)
    have g2 := hz1 10 (by decide)
    have g3 := hz1 15 (by decide)
    simp only [Link] at l0
    simp only [Nat.mul_zero, Nat.zero_add] at w0 w1 w2 w3
    omega
  · have g := hz1 4 (by decide)
    have g1 := hz1 9 (by decide)
    have g2 := hz1 14 (by decide)
    have g3 := hz1 3 (by decide)
    simp only [Link] at l1
    simp only [Nat.mul_one, Nat.reduceAdd] at w0 w1 w2 w3
    omega
  · have g := hz1 8 (by decide)
    have g1 := hz1 13 (by decide)
    have g2 := hz1 2 (by decide)
    have g3 := hz1 7 (by decide)
    simp only [Link] at l2
    simp only [Nat.reduceMul, Nat.reduceAdd] at w0 w1 w2 w3
    omega
  · have g := hz1 12 (by decide)
    have g1 := hz1 1 (by decide)
    have g2 := hz1 6 (by decide)
    have g3 := hz1 11 (by decide)
    simp only [Link] at l3
    simp only [Nat.reduceMul, Nat.reduceAdd] at w0 w1 w2 w3
    omega

theorem act_xor {s t k : List U8} (hs : s.length = 16) (ht : t.length = 16) (hk : k.length = 16) :
    Spec.diffBytes (Spec.xor s k) (Spec.xor t k) = Spec.diffBytes s t := by
  rw [diffBytes_total (length_xor16 hs hk) (length_xor16 ht hk), diffBytes_total hs ht]
  obtain ⟨a0, a1, a2, a3, a4, a5, a6, a7, a8, a9, a10, a11, a12, a13, a14, a15, rfl⟩ := exists16 hs
  obtain ⟨b0, b1, b2, b3, b4, b5, b6, b7, b8, b9, b10, b11, b12, b13, b14, b15, rfl⟩ := exists16 ht
  obtain ⟨k0, k1, k2, k3, k4, k5, k6, k7, k8, k9, k10, k11, k12, k13, k14, k15, rfl⟩ := exists16 hk
  have e (x y k : U8) : (x ^^^ k) ^^^ (y ^^^ k) = x ^^^ y := by
    rw [BitVec.xor_comm y k, BitVec.xor_assoc, ← BitVec.xor_assoc k k y, BitVec.xor_self, BitVec.zero_xor]
  simp only [total, act, Spec.xor, List.zipWith_cons_cons, List.zipWith_nil_left, List.getD_cons_zero, List.getD_cons_succ, e]

/-- **C145**  The block function with the parameter `nr = 4` and any round keys: blocks that differ in one byte have ciphertexts that differ in
each of the four sets of four bytes. -/
theorem C145_block_cipher {s t key a b : List U8} (hs : s.length = 16) (ht : t.length = 16) (hk : key.length = 80)
    (h : Spec.diffBytes s t = 1) (ea : blockCipher s key 4 = .ok a) (eb : blockCipher t key 4 = .ok b) (c : Nat) (hc : c < 4) :
    ∃ r < 4, a.getD ((4 * c + 13 * r) % 16) 0 ≠ b.getD ((4 * c + 13 * r) % 16) 0 := by
  have hk' : key.length = 4 * 20 := hk
  have hu := uniform_blocks hk'
  have hl : ((List.range 20).map (Spec.block 4 key)).length = 4 * (4 + 1) := by rw [List.length_map, List.length_range]
  have hb (s : List U8) (hs : s.length = 16) := blockCipher_ok hu hl (by decide) (by decide) hs
  rw [flatten_blocks hk'] at hb
  rw [hb s hs, Except.ok.injEq] at ea
  rw [hb t ht, Except.ok.injEq] at eb
  generalize (List.range 20).map (Spec.block 4 key) = ws at hu hl ea eb
  have hr (r : Nat) (hr : r ≤ 4) := length_roundKey hu hl hr
  have hn (n : Nat) (h : n ≤ 4) (s : List U8) (hs : s.length = 16) := length_rounds hu hl h hs
  have h0 : Spec.diffBytes (Spec.Aes.rounds ws 0 s) (Spec.Aes.rounds ws 0 t) = 1 := by
    rw [Spec.Aes.rounds, Spec.Aes.rounds, act_xor hs ht (hr 0 (by decide)), h]
  have step (n : Nat) (h : n < 4) (s : List U8) (hs : s.length = 16) :
      aesEnc (Spec.Aes.rounds ws n s) (Spec.Aes.roundKey ws (n + 1)) = .ok (Spec.Aes.rounds ws (n + 1) s) :=
    aesEnc_ok (hn n (by omega) s hs) (hr (n + 1) h)
  exact C145_four_rounds (hn 0 (by decide) s hs) (hn 0 (by decide) t ht) (hr 1 (by decide)) (hr 2 (by decide)) (hr 3 (by decide))
    (hr 4 (by decide)) h0 (step 0 (by decide) s hs) (step 0 (by decide) t ht) (step 1 (by decide) s hs) (step 1 (by decide) t ht)
    (step 2 (by decide) s hs) (step 2 (by decide) t ht)
    ((aesEncLast_ok (hn 3 (by decide) s hs) (hr 4 (by decide))).trans (congrArg Except.ok ea))
    ((aesEncLast_ok (hn 3 (by decide) t ht) (hr 4 (by decide))).trans (congrArg Except.ok eb)) c hc

/-- Two blocks that differ in the first byte. -/
def impossibleS : List U8 := [110, 0, 0, 0, 0, 0, 0, 0, 0, 0, 0, 0, 0, 0, 32, 208]
def impossibleT : List U8 := [217, 0, 0, 0, 0, 0, 0, 0, 0, 0, 0, 0, 0, 0, 32, 208]

/-- **C145**  With five rounds it happens: for the round keys `0, 1, ..., 95` these blocks differ in one byte, and their ciphertexts agree in
the four bytes that belong to the first column. -/
theorem C145_five_refuted : Spec.diffBytes impossibleS impossibleT = 1 ∧ ∃ a b,
    blockCipher impossibleS ((List.range 96).map (BitVec.ofNat 8)) 5 = .ok a ∧ blockCipher impossibleT ((List.range 96).map (BitVec.ofNat 8)) 5 = .ok b ∧
      ∀ r < 4, a.getD (13 * r % 16) 0 = b.getD (13 * r % 16) 0 := by
  refine ⟨by decide +kernel, (blockCipher impossibleS ((List.range 96).map (BitVec.ofNat 8)) 5).toOption.getD [],
    (blockCipher impossibleT ((List.range 96).map (BitVec.ofNat 8)) 5).toOption.getD [], by decide +kernel, by decide +kernel, by decide +kernel⟩

/-! ## Cases -/

/-- Four rounds with the keys `0, 1, ..., 79`. -/
example (c : Nat) (hc : c < 4) : ∃ a b, blockCipher impossibleS ((List.range 80).map (BitVec.ofNat 8)) 4 = .ok a ∧
    blockCipher impossibleT ((List.range 80).map (BitVec.ofNat 8)) 4 = .ok b ∧
      ∃ r < 4, a.getD ((4 * c + 13 * r) % 16) 0 ≠ b.getD ((4 * c + 13 * r) % 16) 0 := by
  have ha : blockCipher impossibleS ((List.range 80).map (BitVec.ofNat 8)) 4 =
    .ok ((blockCipher impossibleS ((List.range 80).map (BitVec.ofNat 8)) 4).toOption.getD []) := by decide +kernel
  have hb : blockCipher impossibleT ((List.range 80).map (BitVec.ofNat 8)) 4 =
    .ok ((blockCipher impossibleT ((List.range 80).map (BitVec.ofNat 8)) 4).toOption.getD []) := by decide +kernel
  exact ⟨_, _, ha, hb, C145_block_cipher rfl rfl (by rw [List.length_map, List.length_range]) (by decide +kernel) ha hb c hc⟩

end Hacspec.Props
