import Verif.Lemmas.Poly1305
import Verif.Spec.Perm

/-! # C35–C40: ChaCha20, Poly1305 and their AEAD -/

namespace Hacspec.Props

open SecretInt Spec Hacspec.Seq

/-! ## C35 -/

/-- **C35.**  The block function is the ChaCha20 block function of RFC 8439 for every key, counter and nonce. -/
theorem C35_block (key iv : List U8) (ctr : U32) (hk : key.length = 32) (hi : iv.length = 12) :
    Hacspec.ChaCha.block key ctr iv = .ok (ChaCha.blockFn key ctr iv) := Hacspec.ChaCha.block_ok ctr hk hi

/-- The specification gives the value of RFC 8439 §2.3.2. -/
example : ChaCha.blockFn ((List.range 32).map (BitVec.ofNat 8)) 1 [0, 0, 0, 9, 0, 0, 0, 0x4a, 0, 0, 0, 0] =
    [0x10, 0xf1, 0xe7, 0xe4, 0xd1, 0x3b, 0x59, 0x15, 0x50, 0x0f, 0xdd, 0x1f, 0xa3, 0x20, 0x71, 0xc4,
     0xc7, 0xd1, 0xf4, 0xc7, 0x33, 0xc0, 0x68, 0x03, 0x04, 0x22, 0xaa, 0x9a, 0xc3, 0xd4, 0x6c, 0x4e,
     0xd2, 0x82, 0x64, 0x46, 0x07, 0x9f, 0xaa, 0x09, 0x14, 0xc2, 0xd7, 0x05, 0xd9, 0x8b, 0x02, 0xa2,
     0xb5, 0x12, 0x9c, 0xd1, 0xde, 0x16, 0x4e, 0xb9, 0xcb, 0xd0, 0x83, 0xe8, 0xa2, 0x50, 0x3c, 0x4e] := by
  decide +kernel

/-- **C35.**  `chacha` is the encryption of RFC 8439 §2.4 with initial counter 1, for every key, nonce and message; the
counter is a 32-bit number and wraps. -/
theorem C35_chacha (key iv m : List U8) (hk : key.length = 32) (hi : iv.length = 12) (hm : m.length < 2 ^ 63) :
    Hacspec.ChaCha.chacha key iv m = .ok (ChaCha.encrypt key 1 iv m) := Hacspec.ChaCha.chacha_ok hk hi hm

example := C35_chacha (List.replicate 32 1) (List.replicate 12 2) (List.replicate 100 3) (by simp) (by simp) (by simp)

/-! ## C36 -/

/-- Byte `j` of the key stream that starts with block `ctr`. -/
def keyStream (key : List U8) (ctr : U32) (iv : List U8) (j : Nat) : U8 :=
  (ChaCha.blockFn key (ctr + BitVec.ofNat 32 (j / 64)) iv).getD (j % 64) 0

theorem encrypt_length {key iv m : List U8} {c : U32} (hk : key.length = 32) (hi : iv.length = 12) :
    (ChaCha.encrypt key c iv m).length = m.length := by
  rw [ChaCha.encrypt, length_flatMap_chunks (cs := 64) (len := m.length)]
  · omega
  · intro i _
    rw [Spec.xor, List.length_zipWith, Hacspec.ChaCha.length_blockFn _ hk hi, Hacspec.ChaCha.length_block]; omega
  · intro i h; omega

theorem encrypt_getElem? {key iv m : List U8} {c : U32} (hk : key.length = 32) (hi : iv.length = 12) (j : Nat) :
    (ChaCha.encrypt key c iv m)[j]? = m[j]?.map (· ^^^ keyStream key c iv j) := by
  by_cases h : j < m.length
  · rw [ChaCha.encrypt, flatMap_getElem? (cs := 64) (len := m.length)]
    · have hb := Hacspec.ChaCha.length_blockFn (c + BitVec.ofNat 32 (j / 64)) hk hi
      rw [Spec.xor, List.getElem?_zipWith, Spec.block, List.getElem?_take, if_pos (by omega), List.getElem?_drop,
        show 64 * (j / 64) + j % 64 = j by omega, List.getElem?_eq_getElem h, keyStream,
        List.getD_eq_getElem?_getD, List.getElem?_eq_getElem (show j % 64 < _ by rw [hb]; omega)]
      rfl
    · intro i _
      rw [Spec.xor, List.length_zipWith, Hacspec.ChaCha.length_blockFn _ hk hi, Hacspec.ChaCha.length_block]; omega
    · intro i h; omega
    · omega
  · rw [List.getElem?_eq_none (by rw [encrypt_length hk hi]; omega), List.getElem?_eq_none (by omega)]; rfl

theorem encrypt_encrypt {key iv m : List U8} {c : U32} (hk : key.length = 32) (hi : iv.length = 12) :
    ChaCha.encrypt key c iv (ChaCha.encrypt key c iv m) = m := by
  apply List.ext_getElem?
  intro j
  rw [encrypt_getElem? hk hi, encrypt_getElem? hk hi, Option.map_map]
  cases m[j]? with
  | none => rfl
  | some x => simp [Function.comp, BitVec.xor_assoc]

/-- **C36.**  Encryption never fails, preserves the length, is its own inverse, and commutes with taking prefixes. -/
theorem C36_involution (key iv m : List U8) (hk : key.length = 32) (hi : iv.length = 12) (hm : m.length < 2 ^ 63) :
    ∃ c, Hacspec.ChaCha.chacha key iv m = .ok c ∧ c.length = m.length ∧ Hacspec.ChaCha.chacha key iv c = .ok m ∧
      ∀ n, Hacspec.ChaCha.chacha key iv (m.take n) = .ok (c.take n) := by
  have hl := encrypt_length (m := m) (c := 1) hk hi
  refine ⟨_, C35_chacha key iv m hk hi hm, hl, ?_, fun n => ?_⟩
  · rw [C35_chacha key iv _ hk hi (by omega), encrypt_encrypt hk hi]
  · rw [C35_chacha key iv _ hk hi (by rw [List.length_take]; omega)]
    congr 1
    apply List.ext_getElem?
    intro j
    rw [encrypt_getElem? hk hi, List.getElem?_take, List.getElem?_take, encrypt_getElem? hk hi]
    split <;> rfl

example := C36_involution (List.replicate 32 1) (List.replicate 12 2) (List.replicate 100 3) (by simp) (by simp) (by simp)

/-! ## C37 -/

theorem rotl_rotr (x : U32) (s : Nat) : (x.rotateLeft s).rotateRight s = x := by
  apply BitVec.eq_of_getLsbD_eq
  intro i hi
  have hs : s % 32 < 32 := Nat.mod_lt _ (by omega)
  rw [BitVec.getLsbD_rotateRight, BitVec.getLsbD_rotateLeft, BitVec.getLsbD_rotateLeft]
  by_cases h : i < 32 - s % 32
  · simp only [h, decide_true, cond_true, show ¬ (s % 32 + i < s % 32) by omega, decide_false, cond_false,
      show s % 32 + i < 32 by omega, Bool.true_and, Nat.add_sub_cancel_left]
  · simp only [h, decide_false, cond_false, hi, decide_true, Bool.true_and, show i - (32 - s % 32) < s % 32 by omega,
      cond_true, show 32 - s % 32 + (i - (32 - s % 32)) = i by omega]

theorem rotr_rotl (x : U32) (s : Nat) : (x.rotateRight s).rotateLeft s = x := by
  apply BitVec.eq_of_getLsbD_eq
  intro i hi
  have hs : s % 32 < 32 := Nat.mod_lt _ (by omega)
  rw [BitVec.getLsbD_rotateLeft, BitVec.getLsbD_rotateRight, BitVec.getLsbD_rotateRight]
  by_cases h : i < s % 32
  · simp only [h, decide_true, cond_true, show ¬ (32 - s % 32 + i < 32 - s % 32) by omega, decide_false, cond_false,
      show 32 - s % 32 + i < 32 by omega, Bool.true_and, Nat.add_sub_cancel_left]
  · simp only [h, decide_false, cond_false, hi, decide_true, Bool.true_and, show i - s % 32 < 32 - s % 32 by omega,
      cond_true, show s % 32 + (i - s % 32) = i by omega]

/-- **C37.**  `line` permutes the states when its three indices are distinct. -/
theorem C37_line (a b d s : Nat) (ha : a < 16) (hb : b < 16) (hd : d < 16) (hab : a ≠ b) (had : a ≠ d) (hbd : b ≠ d) :
    Permutes 16 (Hacspec.ChaCha.line a b d s) := by
  constructor
  · intro m hm
    exact ⟨_, Hacspec.ChaCha.line_ok (by omega) (by omega) (by omega) had, by rw [Hacspec.ChaCha.length_lineF, hm]⟩
  · intro t ht
    let m := (t.set d ((t.getD d 0).rotateRight s ^^^ t.getD a 0)).set a (t.getD a 0 - t.getD b 0)
    have hm : m.length = 16 := by simp [m, ht]
    refine ⟨m, hm, ?_, fun m' hm' h => ?_⟩
    · rw [Hacspec.ChaCha.line_ok (by omega) (by omega) (by omega) had]
      congr 1
      apply Hacspec.ChaCha.ext_getD 0 (by rw [Hacspec.ChaCha.length_lineF]; omega)
      intro j hj
      rw [Hacspec.ChaCha.length_lineF] at hj
      rw [Hacspec.ChaCha.getD_lineF (by omega) (by omega)]
      simp only [m, Hacspec.ChaCha.getD_set, List.length_set, ht, ha, hd, and_true, hab, had,
        Ne.symm had, Ne.symm hbd, if_true, if_false, BitVec.sub_add_cancel]
      by_cases h1 : d = j
      · subst h1
        simp only [if_true]
        rw [BitVec.xor_assoc, BitVec.xor_self, BitVec.xor_zero, rotr_rotl]
      · by_cases h2 : a = j
        · subst h2; simp [h1]
        · simp [h1, h2]
    · rw [Hacspec.ChaCha.line_ok (by omega) (by omega) (by omega) had] at h
      injection h with h
      apply Hacspec.ChaCha.ext_getD 0 (by omega)
      intro j hj
      have hg := fun j => Hacspec.ChaCha.getD_lineF (a := a) (b := b) (d := d) (s := s) (j := j) (m := m') (by omega)
        (by omega)
      rw [h] at hg
      simp only [m, Hacspec.ChaCha.getD_set, List.length_set, ht, ha, hd, and_true]
      have ea := hg a
      have eb := hg b
      have ed := hg d
      have ej := hg j
      simp only [had, Ne.symm had, Ne.symm hbd, hab, if_true, if_false] at ea eb ed
      rw [ea, eb, ed]
      by_cases h1 : a = j
      · subst h1; simp only [if_true, BitVec.add_sub_cancel]
      · by_cases h2 : d = j
        · subst h2
          simp only [h1, if_true, if_false, rotl_rotr, BitVec.xor_assoc, BitVec.xor_self, BitVec.xor_zero]
        · simp only [h1, h2, if_false] at ej ⊢
          exact ej.symm

example : Permutes 16 (Hacspec.ChaCha.line 0 4 12 16) :=
  C37_line _ _ _ _ (by decide) (by decide) (by decide) (by decide) (by decide) (by decide)

/-- `line` with `a = b` does not permute the states: the hypothesis is needed. -/
example : ¬ Permutes 16 (Hacspec.ChaCha.line 0 0 12 16) := by
  intro h
  obtain ⟨s, h1, h2, h3⟩ := h.2 (List.replicate 16 0) (by simp)
  have e0 := h3 (List.replicate 16 0) (by simp) (by decide)
  have e1 := h3 (0x80000000 :: List.replicate 15 0) (by simp) (by decide)
  rw [← e1] at e0
  exact absurd e0 (by decide)

/-- **C37.**  `quarter_round` permutes the states when its indices are distinct. -/
theorem C37_quarter_round (a b c d : Nat) (ha : a < 16) (hb : b < 16) (hc : c < 16) (hd : d < 16)
    (hab : a ≠ b) (had : a ≠ d) (hbc : b ≠ c) (hbd : b ≠ d) (hcd : c ≠ d) :
    Permutes 16 (Hacspec.ChaCha.quarterRound a b c d) := by
  have := (C37_line a b d 16 ha hb hd hab had hbd).bind
    ((C37_line c d b 12 hc hd hb hcd (Ne.symm hbc) (Ne.symm hbd)).bind
      ((C37_line a b d 8 ha hb hd hab had hbd).bind (C37_line c d b 7 hc hd hb hcd (Ne.symm hbc) (Ne.symm hbd))))
  exact this

example : Permutes 16 (Hacspec.ChaCha.quarterRound 3 4 9 14) :=
  C37_quarter_round _ _ _ _ (by decide) (by decide) (by decide) (by decide) (by decide) (by decide) (by decide)
    (by decide) (by decide)

/-- **C37.**  No index below 16 makes `quarter_round` panic, distinct or not. -/
theorem C37_no_panic (a b c d : Nat) (m : List U32) (ha : a < 16) (hb : b < 16) (hc : c < 16) (hd : d < 16)
    (hm : m.length = 16) : ∃ t, Hacspec.ChaCha.quarterRound a b c d m = .ok t ∧ t.length = 16 := by
  have hline : ∀ (a b d s : Nat) (m : List U32), a < 16 → b < 16 → d < 16 → m.length = 16 →
      ∃ t, Hacspec.ChaCha.line a b d s m = .ok t ∧ t.length = 16 := by
    intro a b d s m ha hb hd hm
    rw [Hacspec.ChaCha.line, idx_ok (by omega), bind_ok, idx_ok (by omega), bind_ok, setIdx_ok (by omega), bind_ok,
      idx_ok (by simp; omega), bind_ok, idx_ok (by simp; omega), bind_ok, setIdx_ok (by simp; omega), bind_ok,
      idx_ok (by simp; omega), bind_ok, setIdx_ok (by simp; omega)]
    exact ⟨_, rfl, by simp [hm]⟩
  obtain ⟨m1, e1, h1⟩ := hline a b d 16 m ha hb hd hm
  obtain ⟨m2, e2, h2⟩ := hline c d b 12 m1 hc hd hb h1
  obtain ⟨m3, e3, h3⟩ := hline a b d 8 m2 ha hb hd h2
  obtain ⟨m4, e4, h4⟩ := hline c d b 7 m3 hc hd hb h3
  exact ⟨m4, by rw [Hacspec.ChaCha.quarterRound, e1, bind_ok, e2, bind_ok, e3, bind_ok, e4], h4⟩

example := C37_no_panic 0 0 0 0 (List.replicate 16 1) (by decide) (by decide) (by decide) (by decide) (by simp)

/-- **C37.**  The double round permutes the states. -/
theorem C37_double_round : Permutes 16 Hacspec.ChaCha.doubleRound := by
  have q : ∀ a b c d, a < 16 → b < 16 → c < 16 → d < 16 → a ≠ b → a ≠ d → b ≠ c → b ≠ d → c ≠ d →
      Permutes 16 (Hacspec.ChaCha.quarterRound a b c d) := fun a b c d ha hb hc hd => C37_quarter_round a b c d ha hb hc hd
  have := (q 0 4 8 12 (by decide) (by decide) (by decide) (by decide) (by decide) (by decide) (by decide) (by decide) (by decide)).bind
    ((q 1 5 9 13 (by decide) (by decide) (by decide) (by decide) (by decide) (by decide) (by decide) (by decide) (by decide)).bind
    ((q 2 6 10 14 (by decide) (by decide) (by decide) (by decide) (by decide) (by decide) (by decide) (by decide) (by decide)).bind
    ((q 3 7 11 15 (by decide) (by decide) (by decide) (by decide) (by decide) (by decide) (by decide) (by decide) (by decide)).bind
    ((q 0 5 10 15 (by decide) (by decide) (by decide) (by decide) (by decide) (by decide) (by decide) (by decide) (by decide)).bind
    ((q 1 6 11 12 (by decide) (by decide) (by decide) (by decide) (by decide) (by decide) (by decide) (by decide) (by decide)).bind
    ((q 2 7 8 13 (by decide) (by decide) (by decide) (by decide) (by decide) (by decide) (by decide) (by decide) (by decide)).bind
      (q 3 4 9 14 (by decide) (by decide) (by decide) (by decide) (by decide) (by decide) (by decide) (by decide) (by decide))))))))
  exact this

/-- **C37.**  Any number of double rounds, in particular the ten of `block_inner`, permutes the states. -/
theorem C37_rounds (n : Nat) : Permutes 16 (loop n (fun _ s => Hacspec.ChaCha.doubleRound s)) := by
  induction n with
  | zero => exact ⟨fun s hs => ⟨s, rfl, hs⟩, fun t ht => ⟨t, ht, rfl, fun s' _ h => by injection h⟩⟩
  | succ n ih => exact ih.bind C37_double_round

example : Permutes 16 Hacspec.ChaCha.rounds := C37_rounds 10

/-! ## C38 -/

/-- **C38.**  Exactly what `poly` computes, for every message and key: the RFC's accumulator plus `s`, but reduced modulo
`2^130 - 5` before it is truncated to 128 bits. -/
theorem C38_poly (m key : List U8) (hk : key.length = 32) :
    Hacspec.Poly1305.poly m key =
      .ok (leBytes 16 ((Poly1305.acc (Poly1305.clampR key) m + Poly1305.keyS key) % Poly1305.p)) :=
  Hacspec.Poly1305.poly_ok hk

theorem lt_of_mod_trunc {a s p k : Nat} (ha : a < p) (hs : s < p) (hk : p % k ≠ 0)
    (e : (a + s) % p % k = (a + s) % k) : a + s < p := by
  apply Classical.byContradiction
  intro hge
  have hge := Nat.le_of_not_lt hge
  have e1 : (a + s) % p = a + s - p := by rw [Nat.mod_eq_sub_mod hge, Nat.mod_eq_of_lt (by omega)]
  rw [e1] at e
  have e := Nat.sub_mod_eq_zero_of_mod_eq e.symm
  rw [Nat.sub_sub_self hge] at e
  exact hk e

/-- **C38 (partial).**  It is the RFC's tag exactly when accumulator plus `s` is below `2^130 - 5`.
Full statement: for every message and key; refuted by `C38_refuted`. -/
theorem C38_poly_rfc_partial (m key : List U8) (hk : key.length = 32) :
    Hacspec.Poly1305.poly m key = .ok (Poly1305.mac key m) ↔
      Poly1305.acc (Poly1305.clampR key) m + Poly1305.keyS key < Poly1305.p := by
  rw [C38_poly m key hk, Poly1305.mac]
  have hpos : 0 < Poly1305.p := by decide +kernel
  have hacc : Poly1305.acc (Poly1305.clampR key) m < Poly1305.p := by
    rw [Poly1305.acc]
    cases h : (m.length + 15) / 16 with
    | zero => exact hpos
    | succ n =>
      rw [List.range_succ, List.foldl_append]
      exact Nat.mod_lt _ hpos
  have hs : Poly1305.keyS key < 2 ^ 128 := by
    have := leVal_lt ((key.drop 16).take 16)
    rw [show ((key.drop 16).take 16).length = 16 by simp; omega] at this
    exact this
  have hsp : Poly1305.keyS key < Poly1305.p := Nat.lt_trans hs (by decide +kernel)
  constructor
  · intro h
    injection h with h
    exact lt_of_mod_trunc hacc hsp (by decide +kernel) (leBytes_inj h)
  · intro h
    rw [Nat.mod_eq_of_lt h]

/-- The RFC's example (§2.5.2) satisfies the condition and gives the RFC's tag. -/
example :
    Hacspec.Poly1305.poly
      -- "Cryptographic Forum Research Group"
      [0x43, 0x72, 0x79, 0x70, 0x74, 0x6f, 0x67, 0x72, 0x61, 0x70, 0x68, 0x69, 0x63, 0x20, 0x46, 0x6f, 0x72,
       0x75, 0x6d, 0x20, 0x52, 0x65, 0x73, 0x65, 0x61, 0x72, 0x63, 0x68, 0x20, 0x47, 0x72, 0x6f, 0x75, 0x70]
      [0x85, 0xd6, 0xbe, 0x78, 0x57, 0x55, 0x6d, 0x33, 0x7f, 0x44, 0x52, 0xfe, 0x42, 0xd5, 0x06, 0xa8,
       0x01, 0x03, 0x80, 0x8a, 0xfb, 0x0d, 0xb2, 0xfd, 0x4a, 0xbf, 0xf6, 0xaf, 0x41, 0x49, 0xf5, 0x1b] =
    .ok [0xa8, 0x06, 0x1d, 0xc1, 0x30, 0x51, 0x36, 0xc6, 0xc2, 0x2b, 0x8b, 0xaf, 0x0c, 0x01, 0x27, 0xa9] := by
  rw [(C38_poly_rfc_partial _ _ (by decide)).mpr (by decide +kernel)]
  decide +kernel

/-- **C38 refuted**: `r = 1`, `s = 1`, and two blocks that bring the accumulator to `2^130 - 6`: the code returns the tag
0 instead of `2^128 - 5`. -/
theorem C38_refuted : ∃ m key : List U8, key.length = 32 ∧
    Hacspec.Poly1305.poly m key = .ok (List.replicate 16 0) ∧
    Poly1305.mac key m = 0xfb :: List.replicate 15 0xff := by
  refine ⟨List.replicate 16 0xff ++ 0xfb :: List.replicate 15 0xff,
    1 :: List.replicate 15 0 ++ 1 :: List.replicate 15 0, by decide, ?_, by decide +kernel⟩
  rw [C38_poly _ _ (by decide)]
  decide +kernel

/-- The tag has 16 bytes and `poly` never panics. -/
theorem C38_total (m key : List U8) (hk : key.length = 32) :
    ∃ t, Hacspec.Poly1305.poly m key = .ok t ∧ t.length = 16 := ⟨_, C38_poly m key hk, length_leBytes _ _⟩

/-! ## C39 -/

/-- The tag that the construction assigns to associated data and ciphertext. -/
def aeadTag (key iv aad c : List U8) : List U8 :=
  leBytes 16 ((Poly1305.acc (Poly1305.clampR ((ChaCha.blockFn key 0 iv).take 32)) (Poly1305.macData aad c) +
    Poly1305.keyS ((ChaCha.blockFn key 0 iv).take 32)) % Poly1305.p)

/-- **C39.**  `encrypt` returns the RFC 8439 ciphertext and the tag of the RFC's MAC input under the RFC's one-time key
(for the tag function of C38); it never fails. -/
theorem C39_encrypt (key iv aad m : List U8) (hk : key.length = 32) (hi : iv.length = 12) (hm : m.length < 2 ^ 63) :
    Hacspec.ChaChaPoly.encrypt key iv aad m =
      .ok (ChaCha.encrypt key 1 iv m, aeadTag key iv aad (ChaCha.encrypt key 1 iv m)) := by
  have hb := Hacspec.ChaCha.length_blockFn 0 hk hi
  rw [Hacspec.ChaChaPoly.encrypt, C35_block key iv 0 hk hi, bind_ok,
    Hacspec.ChaCha.arrFromSubRange_ok (by omega) (by omega) (by omega), bind_ok, C35_chacha key iv m hk hi hm, bind_ok,
    Hacspec.ChaChaPoly.padAadMsg_ok, bind_ok, List.drop_zero, C38_poly _ _ (by rw [List.length_take, hb]; rfl), bind_ok]
  rfl

/-- **C39.**  `decrypt` accepts exactly the recomputed tag, and then returns the decryption; it never panics. -/
theorem C39_decrypt (key iv aad c tag : List U8) (hk : key.length = 32) (hi : iv.length = 12) (hc : c.length < 2 ^ 63) :
    Hacspec.ChaChaPoly.decrypt key iv aad c tag =
      .ok (if tag = aeadTag key iv aad c then some (ChaCha.encrypt key 1 iv c) else none) := by
  have hb := Hacspec.ChaCha.length_blockFn 0 hk hi
  rw [Hacspec.ChaChaPoly.decrypt, C35_block key iv 0 hk hi, bind_ok,
    Hacspec.ChaCha.arrFromSubRange_ok (by omega) (by omega) (by omega), bind_ok,
    Hacspec.ChaChaPoly.padAadMsg_ok, bind_ok, List.drop_zero, C38_poly _ _ (by rw [List.length_take, hb]; rfl), bind_ok]
  by_cases h : tag = aeadTag key iv aad c
  · rw [if_pos h, if_pos (by rw [h]; rfl), C35_chacha key iv c hk hi hc]; rfl
  · rw [if_neg h, if_neg (fun e => h (by rw [← e]; rfl))]

/-- **C39.**  Round trip, length, and rejection of every other tag. -/
theorem C39_round_trip (key iv aad m : List U8) (hk : key.length = 32) (hi : iv.length = 12) (hm : m.length < 2 ^ 63) :
    ∃ c t, Hacspec.ChaChaPoly.encrypt key iv aad m = .ok (c, t) ∧ c.length = m.length ∧ t.length = 16 ∧
      Hacspec.ChaChaPoly.decrypt key iv aad c t = .ok (some m) ∧
      ∀ t', t' ≠ t → Hacspec.ChaChaPoly.decrypt key iv aad c t' = .ok none := by
  have hl := encrypt_length (m := m) (c := 1) hk hi
  refine ⟨_, _, C39_encrypt key iv aad m hk hi hm, hl, length_leBytes _ _, ?_, fun t' ht => ?_⟩
  · rw [C39_decrypt _ _ _ _ _ hk hi (by omega), if_pos rfl, encrypt_encrypt hk hi]
  · rw [C39_decrypt _ _ _ _ _ hk hi (by omega), if_neg ht]

example := C39_round_trip (List.replicate 32 1) (List.replicate 12 2) [5, 6] (List.replicate 100 3) (by simp) (by simp)
  (by simp)

/-- The whole construction is RFC 8439's whenever the sum of C38 stays below `2^130 - 5`. -/
theorem C39_rfc (key iv aad m : List U8) (hk : key.length = 32) (hi : iv.length = 12) (hm : m.length < 2 ^ 63)
    (h : Poly1305.acc (Poly1305.clampR ((ChaCha.blockFn key 0 iv).take 32))
        (Poly1305.macData aad (ChaCha.encrypt key 1 iv m)) +
      Poly1305.keyS ((ChaCha.blockFn key 0 iv).take 32) < Poly1305.p) :
    Hacspec.ChaChaPoly.encrypt key iv aad m =
      .ok (ChaCha.encrypt key 1 iv m,
        Poly1305.mac ((ChaCha.blockFn key 0 iv).take 32) (Poly1305.macData aad (ChaCha.encrypt key 1 iv m))) := by
  rw [C39_encrypt key iv aad m hk hi hm, aeadTag, Nat.mod_eq_of_lt h]
  rfl

example : Poly1305.acc (Poly1305.clampR ((ChaCha.blockFn (List.replicate 32 1) 0 (List.replicate 12 2)).take 32))
        (Poly1305.macData [5] (ChaCha.encrypt (List.replicate 32 1) 1 (List.replicate 12 2) [7])) +
      Poly1305.keyS ((ChaCha.blockFn (List.replicate 32 1) 0 (List.replicate 12 2)).take 32) < Poly1305.p := by
  decide +kernel

/-! ## C40 -/

theorem le64_inj {m n : Nat} (hm : m < 2 ^ 64) (hn : n < 2 ^ 64)
    (h : bytesLe64 (BitVec.ofNat 64 m) = bytesLe64 (BitVec.ofNat 64 n)) : m = n := by
  have e := congrArg leVal h
  have hx : ∀ x : U64, leVal (bytesLe64 x) = x.toNat := by
    intro x
    simp only [bytesLe64, leVal, BitVec.extractLsb'_toNat, Nat.shiftRight_eq_div_pow]
    have := x.isLt
    omega
  rw [hx, hx, BitVec.toNat_ofNat, BitVec.toNat_ofNat] at e
  omega

/-- **C40.**  The MAC input of ChaCha20-Poly1305 determines associated data and ciphertext. -/
theorem C40_chacha (aad aad' c c' p : List U8) (ha : aad.length < 2 ^ 61) (ha' : aad'.length < 2 ^ 61)
    (hc : c.length < 2 ^ 61) (hc' : c'.length < 2 ^ 61)
    (h : Hacspec.ChaChaPoly.padAadMsg aad c = .ok p) (h' : Hacspec.ChaChaPoly.padAadMsg aad' c' = .ok p) :
    aad = aad' ∧ c = c' := by
  rw [Hacspec.ChaChaPoly.padAadMsg_ok] at h h'
  rw [← h'] at h
  injection h with h
  rw [Poly1305.macData, Poly1305.macData] at h
  obtain ⟨h, hlc⟩ := List.append_inj' h rfl
  obtain ⟨h, hla⟩ := List.append_inj' h rfl
  have ela := le64_inj (by omega) (by omega) hla
  have elc := le64_inj (by omega) (by omega) hlc
  rw [List.append_assoc, List.append_assoc, List.append_assoc, List.append_assoc] at h
  obtain ⟨e1, h⟩ := List.append_inj h ela
  rw [e1] at h
  have h := List.append_cancel_left h
  exact ⟨e1, (List.append_inj h elc).1⟩

example : Hacspec.ChaChaPoly.padAadMsg [1] [2] ≠ Hacspec.ChaChaPoly.padAadMsg [1, 0] [2] := by
  intro h
  have e := Hacspec.ChaChaPoly.padAadMsg_ok [1] [2]
  have := C40_chacha [1] [1, 0] [2] [2] _ (by decide) (by decide) (by decide) (by decide) e (h ▸ e)
  simp at this

end Hacspec.Props
