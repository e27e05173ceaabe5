import Verif.Lemmas.AesDiffusion

/-! # C95: AES spreads differences -/

namespace Hacspec.Props

open Hacspec.Aes

/-- **C95** One byte that differs before a round leaves four different bytes after it and sixteen after the next. -/
theorem C95_full_diffusion {s t k k' s' t' s'' t'' : List U8} (hs : s.length = 16) (ht : t.length = 16) (hk : k.length = 16)
    (hk' : k'.length = 16) (h : Spec.diffBytes s t = 1) (es : aesEnc s k = .ok s') (et : aesEnc t k = .ok t')
    (es' : aesEnc s' k' = .ok s'') (et' : aesEnc t' k' = .ok t'') : Spec.diffBytes s' t' = 4 ∧ Spec.diffBytes s'' t'' = 16 := by
  have ls := length_aesEnc hs hk es
  have lt := length_aesEnc ht hk et
  have ls' := length_aesEnc ls hk' es'
  have lt' := length_aesEnc lt hk' et'
  obtain ⟨l0, l1, l2, l3⟩ := round_link hs ht hk es et
  obtain ⟨m0, m1, m2, m3⟩ := round_link ls lt hk' es' et'
  rw [diffBytes_total hs ht] at h
  rw [diffBytes_total ls lt, diffBytes_total ls' lt']
  exact one_to_sixteen (act_le _ _) (act_le _ _) (act_le _ _) h l0 l1 l2 l3 m0 m1 m2 m3

/-- **C95** Two different states differ in at least five bytes, counting those before and those after a round. -/
theorem C95_two_rounds {s t k s' t' : List U8} (hs : s.length = 16) (ht : t.length = 16) (hk : k.length = 16) (h : s ≠ t)
    (es : aesEnc s k = .ok s') (et : aesEnc t k = .ok t') : 5 ≤ Spec.diffBytes s t + Spec.diffBytes s' t' := by
  have ls := length_aesEnc hs hk es
  have lt := length_aesEnc ht hk et
  obtain ⟨l0, l1, l2, l3⟩ := round_link hs ht hk es et
  have hp := diffBytes_pos (hs.trans ht.symm) h
  rw [diffBytes_total hs ht] at hp ⊢
  rw [diffBytes_total ls lt]
  exact two_rounds_total hp l0 l1 l2 l3

/-- **C95** A round maps different states to different states. -/
theorem C95_round_injective {s t k s' : List U8} (hs : s.length = 16) (ht : t.length = 16) (hk : k.length = 16)
    (es : aesEnc s k = .ok s') (et : aesEnc t k = .ok s') : s = t := by
  refine Classical.byContradiction fun h => ?_
  have ls := length_aesEnc hs hk es
  obtain ⟨l0, l1, l2, l3⟩ := round_link hs ht hk es et
  have hp := diffBytes_pos (hs.trans ht.symm) h
  rw [diffBytes_total hs ht] at hp
  have z : ∀ i, act s' s' i = 0 := fun i => by rw [act, BitVec.xor_self]; rfl
  have b := act_le s t
  have := b 0; have := b 1; have := b 2; have := b 3; have := b 4; have := b 5; have := b 6; have := b 7
  have := b 8; have := b 9; have := b 10; have := b 11; have := b 12; have := b 13; have := b 14; have := b 15
  simp only [z, Link] at l0 l1 l2 l3
  have e0 : act s t 0 + act s t 5 + act s t 10 + act s t 15 = 0 := by omega
  have e1 : act s t 4 + act s t 9 + act s t 14 + act s t 3 = 0 := by omega
  have e2 : act s t 8 + act s t 13 + act s t 2 + act s t 7 = 0 := by omega
  have e3 : act s t 12 + act s t 1 + act s t 6 + act s t 11 = 0 := by omega
  unfold total at hp
  omega

/-- **C95** Over four consecutive rounds, at least 25 of the 64 bytes that go into the S-box differ. -/
theorem C95_four_rounds {s1 t1 s2 t2 s3 t3 s4 t4 k1 k2 k3 : List U8} (hs : s1.length = 16) (ht : t1.length = 16)
    (h1 : k1.length = 16) (h2 : k2.length = 16) (h3 : k3.length = 16) (h : s1 ≠ t1)
    (es1 : aesEnc s1 k1 = .ok s2) (et1 : aesEnc t1 k1 = .ok t2) (es2 : aesEnc s2 k2 = .ok s3) (et2 : aesEnc t2 k2 = .ok t3)
    (es3 : aesEnc s3 k3 = .ok s4) (et3 : aesEnc t3 k3 = .ok t4) :
    25 ≤ Spec.diffBytes s1 t1 + Spec.diffBytes s2 t2 + Spec.diffBytes s3 t3 + Spec.diffBytes s4 t4 := by
  have ls2 := length_aesEnc hs h1 es1
  have lt2 := length_aesEnc ht h1 et1
  have ls3 := length_aesEnc ls2 h2 es2
  have lt3 := length_aesEnc lt2 h2 et2
  have ls4 := length_aesEnc ls3 h3 es3
  have lt4 := length_aesEnc lt3 h3 et3
  have hne : s2 ≠ t2 := fun e => h (C95_round_injective hs ht h1 es1 (e ▸ et1))
  obtain ⟨l0, l1, l2, l3⟩ := round_link hs ht h1 es1 et1
  obtain ⟨m0, m1, m2, m3⟩ := round_link ls2 lt2 h2 es2 et2
  obtain ⟨n0, n1, n2, n3⟩ := round_link ls3 lt3 h3 es3 et3
  have hp := diffBytes_pos (ls2.trans lt2.symm) hne
  rw [diffBytes_total ls2 lt2] at hp
  rw [diffBytes_total hs ht, diffBytes_total ls2 lt2, diffBytes_total ls3 lt3, diffBytes_total ls4 lt4]
  exact four_rounds_total (act_le _ _) (act_le _ _) (act_le _ _) (act_le _ _) hp l0 l1 l2 l3 m0 m1 m2 m3 n0 n1 n2 n3

/-- **C95** For a given nonzero difference of the inputs of the S-box, each difference of the outputs is met by at most
four of the 256 bytes. -/
theorem C95_sbox {d : U8} (hd : d ≠ 0) (e : U8) :
    Spec.countBytes (fun x => match subByte x, subByte (x ^^^ d) with
      | .ok a, .ok b => a ^^^ b == e
      | _, _ => true) ≤ 4 := sbox_uniform hd e

/-- **C95** Over `4 m` consecutive rounds with any round keys: at least `25 m` differing bytes. -/
theorem C95_many_rounds {s t k : Nat → List U8} (hs : (s 0).length = 16) (ht : (t 0).length = 16) (hk : ∀ i, (k i).length = 16)
    (h : s 0 ≠ t 0) (es : ∀ i, aesEnc (s i) (k i) = .ok (s (i + 1))) (et : ∀ i, aesEnc (t i) (k i) = .ok (t (i + 1))) (m : Nat) :
    25 * m ≤ ((List.range (4 * m)).map fun i => Spec.diffBytes (s i) (t i)).sum := by
  have inv : ∀ i, (s i).length = 16 ∧ (t i).length = 16 ∧ s i ≠ t i := by
    intro i
    induction i with
    | zero => exact ⟨hs, ht, h⟩
    | succ i ih =>
      obtain ⟨a, b, c⟩ := ih
      exact ⟨length_aesEnc a (hk i) (es i), length_aesEnc b (hk i) (et i), fun e =>
        c (C95_round_injective a b (hk i) (es i) (e ▸ et i))⟩
  induction m with
  | zero => simp
  | succ m ih =>
    have h4 := C95_four_rounds (inv (4 * m)).1 (inv (4 * m)).2.1 (hk _) (hk _) (hk _) (inv (4 * m)).2.2 (es _) (et _) (es _) (et _)
      (es _) (et _)
    rw [show 4 * (m + 1) = 4 * m + 1 + 1 + 1 + 1 by omega]
    simp only [List.range_succ, List.map_append, List.sum_append, List.map_cons, List.map_nil, List.sum_cons, List.sum_nil]
    simp only [Nat.add_assoc, Nat.reduceAdd] at h4 ⊢
    omega

/-- The S-box inputs of two computations, under round keys 0, for the lower bounds below. -/
def diffusionS : List U8 := List.replicate 16 82#8

def diffusionT : List U8 := [215, 82, 82, 82, 82, 64, 82, 82, 82, 82, 243, 82, 82, 82, 82, 158]

/-- **C95** The bounds are attained: 4, 1, 4 and 16 differing bytes, so 5 over two rounds and 25 over four; and four bytes
for one pair of differences of the S-box. -/
theorem C95_sharp : (∃ s2 t2 s3 t3 s4 t4, aesEnc diffusionS (List.replicate 16 0#8) = .ok s2 ∧
      aesEnc diffusionT (List.replicate 16 0#8) = .ok t2 ∧ aesEnc s2 (List.replicate 16 0#8) = .ok s3 ∧
      aesEnc t2 (List.replicate 16 0#8) = .ok t3 ∧ aesEnc s3 (List.replicate 16 0#8) = .ok s4 ∧
      aesEnc t3 (List.replicate 16 0#8) = .ok t4 ∧ Spec.diffBytes diffusionS diffusionT = 4 ∧ Spec.diffBytes s2 t2 = 1 ∧
      Spec.diffBytes s3 t3 = 4 ∧ Spec.diffBytes s4 t4 = 16) ∧
    Spec.countBytes (fun x => match subByte x, subByte (x ^^^ 1) with
      | .ok a, .ok b => a ^^^ b == 31
      | _, _ => true) = 4 := by
  refine ⟨⟨(aesEnc diffusionS (List.replicate 16 0#8)).toOption.getD [], (aesEnc diffusionT (List.replicate 16 0#8)).toOption.getD [],
    (aesEnc diffusionS (List.replicate 16 0#8) >>= (aesEnc · (List.replicate 16 0#8))).toOption.getD [],
    (aesEnc diffusionT (List.replicate 16 0#8) >>= (aesEnc · (List.replicate 16 0#8))).toOption.getD [],
    (aesEnc diffusionS (List.replicate 16 0#8) >>= (aesEnc · (List.replicate 16 0#8)) >>=
      (aesEnc · (List.replicate 16 0#8))).toOption.getD [],
    (aesEnc diffusionT (List.replicate 16 0#8) >>= (aesEnc · (List.replicate 16 0#8)) >>=
      (aesEnc · (List.replicate 16 0#8))).toOption.getD [], ?_⟩, ?_⟩ <;> decide +kernel

/-- Two states that differ in one bit, under nonzero round keys, in `C95_full_diffusion`. -/
example : ∃ s' t' s'' t'', aesEnc (List.replicate 16 7#8) (List.replicate 16 1#8) = .ok s' ∧
    aesEnc (6#8 :: List.replicate 15 7#8) (List.replicate 16 1#8) = .ok t' ∧
    aesEnc s' (List.replicate 16 2#8) = .ok s'' ∧ aesEnc t' (List.replicate 16 2#8) = .ok t'' ∧
    Spec.diffBytes (List.replicate 16 7#8) (6#8 :: List.replicate 15 7#8) = 1 ∧ Spec.diffBytes s'' t'' = 16 :=
  have a := aesEnc_ok (s := List.replicate 16 7#8) (k := List.replicate 16 1#8) rfl rfl
  have b := aesEnc_ok (s := 6#8 :: List.replicate 15 7#8) (k := List.replicate 16 1#8) rfl rfl
  have c := aesEnc_ok (length_aesEnc rfl rfl a) (k := List.replicate 16 2#8) rfl
  have d := aesEnc_ok (length_aesEnc rfl rfl b) (k := List.replicate 16 2#8) rfl
  ⟨_, _, _, _, a, b, c, d, by decide +kernel, (C95_full_diffusion rfl rfl rfl rfl (by decide +kernel) a b c d).2⟩

/-- A state after `n` rounds with round keys `3, 3, ..`. -/
def diffusionRun (s : List U8) : Nat → List U8
  | 0 => s
  | n + 1 => Spec.xor (Spec.Aes.mixColumns (Spec.Aes.shiftRows (Spec.Aes.subBytes (diffusionRun s n)))) (List.replicate 16 3#8)

example (m : Nat) : 25 * m ≤ ((List.range (4 * m)).map fun i =>
    Spec.diffBytes (diffusionRun diffusionS i) (diffusionRun diffusionT i)).sum := by
  have l : ∀ (s : List U8) (_ : s.length = 16) i, (diffusionRun s i).length = 16 := by
    intro s h i
    cases i with
    | zero => exact h
    | succ i => exact length_xor16 (length_mixColumns _) rfl
  exact C95_many_rounds (s := diffusionRun diffusionS) (t := diffusionRun diffusionT) (k := fun _ => List.replicate 16 3#8) rfl rfl
    (fun _ => rfl) (by decide) (fun i => aesEnc_ok (l _ rfl i) rfl) (fun i => aesEnc_ok (l _ rfl i) rfl) m

end Hacspec.Props
