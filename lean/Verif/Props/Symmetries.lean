import Verif.Lemmas.Symmetry

/-! # C98: constants break the symmetries of the ciphers -/

namespace Hacspec.Props

open SecretInt Spec Hacspec.Seq
open Hacspec.Aes (Variant)

/-! ## ChaCha20 -/

/-- **C98.**  Any number of double rounds commutes with a cyclic permutation of the columns of the state. -/
theorem C98_chacha_rounds (n k : Nat) : Equivariant 16 (loop n fun _ s => Hacspec.ChaCha.doubleRound s) (turnRows k) :=
  Symmetry.equivariant_rows (Symmetry.equivariant_loop Symmetry.equivariant_doubleRound n) k

example : turnRows 1 ([0, 1, 2, 3, 4, 5, 6, 7, 8, 9, 10, 11, 12, 13, 14, 15] : List U32) =
    [1, 2, 3, 0, 5, 6, 7, 4, 9, 10, 11, 8, 13, 14, 15, 12] := by decide

/-- **C98.**  A state of four equal columns stays one. -/
theorem C98_chacha_equal_columns (n : Nat) (a b c d : U32) :
    ∃ a' b' c' d', loop n (fun _ s => Hacspec.ChaCha.doubleRound s) [a, a, a, a, b, b, b, b, c, c, c, c, d, d, d, d] =
      .ok [a', a', a', a', b', b', b', b', c', c', c', c', d', d', d', d'] := by
  obtain ⟨t, h1, h2, h3⟩ := C98_chacha_rounds n 1 [a, a, a, a, b, b, b, b, c, c, c, c, d, d, d, d] rfl
  rw [show turnRows 1 [a, a, a, a, b, b, b, b, c, c, c, c, d, d, d, d] = [a, a, a, a, b, b, b, b, c, c, c, c, d, d, d, d] from rfl,
    h1, Except.ok.injEq] at h3
  obtain ⟨a0, a1, a2, a3, a4, a5, a6, a7, a8, a9, a10, a11, a12, a13, a14, a15, rfl⟩ := Hacspec.Aes.exists16 h2
  rw [Symmetry.turnRows_eval] at h3
  simp only [List.cons.injEq, and_true] at h3
  obtain ⟨e0, e1, e2, -, e4, e5, e6, -, e8, e9, e10, -, e12, e13, e14, -⟩ := h3
  subst e0 e1 e2 e4 e5 e6 e8 e9 e10 e12 e13 e14
  exact ⟨_, _, _, _, h1⟩

/-- **C98.**  The states from which `block` starts are never moved into each other, whatever the keys, counters and nonces. -/
theorem C98_chacha_start (key key' iv iv' : List U8) (ctr ctr' : U32) (hk : key.length = 32) (hi : iv.length = 12)
    (hk' : key'.length = 32) (hi' : iv'.length = 12) (k : Nat) (hk4 : k % 4 ≠ 0) :
    ∃ s s', Hacspec.ChaCha.blockInit key ctr iv = .ok s ∧ Hacspec.ChaCha.blockInit key' ctr' iv' = .ok s' ∧ turnRows k s ≠ s' := by
  refine ⟨_, _, Hacspec.ChaCha.blockInit_ok ctr hk hi, Hacspec.ChaCha.blockInit_ok ctr' hk' hi', fun h => ?_⟩
  have hc : Spec.words32le Spec.ChaCha.constants = [0x61707865, 0x3320646e, 0x79622d32, 0x6b206574] := by decide +kernel
  have h0 := congrArg (fun l => l.getD 0 0) h
  simp only [turnRows, Spec.ChaCha.init, hc, List.cons_append] at h0
  rw [Hacspec.Fips202.map_range_getD _ _ (by omega)] at h0
  simp only [Nat.zero_div, Nat.mul_zero, Nat.zero_add] at h0
  rcases (by omega : k % 4 = 1 ∨ k % 4 = 2 ∨ k % 4 = 3) with e | e | e <;>
    · rw [e] at h0
      simp only [List.getD_cons_succ, List.getD_cons_zero] at h0
      exact absurd h0 (by decide)

example := C98_chacha_start (List.replicate 32 0) (List.replicate 32 1) (List.replicate 12 0) (List.replicate 12 0) 0 7
  (by simp) (by simp) (by simp) (by simp) 2 (by decide)

/-! ## Keccak -/

/-- **C98.**  The four steps before `iota` commute with a rotation of all lanes. -/
theorem C98_keccak_steps (k : Nat) :
    Equivariant 25 Hacspec.Fips202.theta (turnWords k) ∧ Equivariant 25 Hacspec.Fips202.rho (turnWords k) ∧
    Equivariant 25 Hacspec.Fips202.pi (turnWords k) ∧ Equivariant 25 Hacspec.Fips202.chi (turnWords k) :=
  ⟨Symmetry.equivariant_theta k, Symmetry.equivariant_rho k, Symmetry.equivariant_pi k, Symmetry.equivariant_chi k⟩

example : turnWords 4 [0x123456789abcdef0#64] = [0x23456789abcdef01#64] := by decide

/-- **C98.**  No round does, for any state: `iota` adds a constant that no rotation fixes. -/
theorem C98_keccak_round (i : Nat) (hi : i < 24) (k : Nat) (hk : k < 64) (h0 : k ≠ 0) (s : List U64) (hs : s.length = 25) :
    ∃ t u, Hacspec.Fips202.roundStep i s = .ok t ∧ Hacspec.Fips202.roundStep i (turnWords k s) = .ok u ∧ u ≠ turnWords k t := by
  obtain ⟨e1, e2, e3, e4⟩ := C98_keccak_steps k
  obtain ⟨t, h1, h2, h3⟩ := ((e1.bind e2).bind (e3.bind e4)) s hs
  have hr : i < Hacspec.Fips202.roundConstants.length := hi
  have run : ∀ x y : List U64, y.length = 25 →
      (Hacspec.Fips202.theta x >>= Hacspec.Fips202.rho) >>= (fun s => Hacspec.Fips202.pi s >>= Hacspec.Fips202.chi) = .ok y →
      Hacspec.Fips202.roundStep i x = .ok (y.set 0 (y.getD 0 0 ^^^ Hacspec.Fips202.roundConstants.getD i 0)) := by
    intro x y hy h
    have e : Hacspec.Fips202.roundStep i x = ((Hacspec.Fips202.theta x >>= Hacspec.Fips202.rho) >>=
        (fun s => Hacspec.Fips202.pi s >>= Hacspec.Fips202.chi)) >>= (fun s =>
          idx Hacspec.Fips202.roundConstants i >>= fun c => Hacspec.Fips202.iota s c) := by
      simp only [Hacspec.Fips202.roundStep, bind_assoc]
    rw [e, h, bind_ok, idx_getD 0 hr, bind_ok, Hacspec.Fips202.iota]
    exact Hacspec.Fips202.xorAt_ok _ (by omega)
  refine ⟨_, _, run _ _ h2 h1, run _ _ (by rw [Symmetry.length_turnWords, h2]) h3, fun h => ?_⟩
  have h := congrArg (fun l => l.getD 0 0) h
  simp only [Symmetry.getD_turnWords] at h
  rw [Hacspec.ChaCha.getD_set, if_pos ⟨rfl, by rw [Symmetry.length_turnWords]; omega⟩, Hacspec.ChaCha.getD_set,
    if_pos ⟨rfl, by omega⟩, Symmetry.rotate_xor] at h
  exact Symmetry.constants_asymmetric i hi k hk h0 ((BitVec.xor_right_inj _).mp h).symm

example := C98_keccak_round 23 (by decide) 32 (by decide) (by decide) (new 25) (by rw [length_new])

/-! ## AES -/

/-- **C98.**  The three steps without a key commute with a cyclic permutation of the columns. -/
theorem C98_aes_steps (k : Nat) :
    Equivariant 16 Hacspec.Aes.subBytes (turnColumns k) ∧ Equivariant 16 Hacspec.Aes.shiftRows (turnColumns k) ∧
    Equivariant 16 Hacspec.Aes.mixColumns (turnColumns k) :=
  ⟨Symmetry.equivariant_columns Symmetry.equivariant_subBytes k, Symmetry.equivariant_columns Symmetry.equivariant_shiftRows k,
    Symmetry.equivariant_columns Symmetry.equivariant_mixColumns k⟩

example : turnColumns 1 ([0, 1, 2, 3, 4, 5, 6, 7, 8, 9, 10, 11, 12, 13, 14, 15] : List U8) =
    [4, 5, 6, 7, 8, 9, 10, 11, 12, 13, 14, 15, 0, 1, 2, 3] := by decide

/-- **C98.**  A round commutes with it if, and only if, it leaves the round key unchanged. -/
theorem C98_aes_round (k : Nat) (s rk : List U8) (hs : s.length = 16) (hr : rk.length = 16) :
    ∃ t u, Hacspec.Aes.aesEnc s rk = .ok t ∧ Hacspec.Aes.aesEnc (turnColumns k s) rk = .ok u ∧
      (u = turnColumns k t ↔ turnColumns k rk = rk) := by
  obtain ⟨e1, e2, e3⟩ := C98_aes_steps k
  obtain ⟨t, h1, h2, h3⟩ := ((e1.bind e2).bind e3) s hs
  have run : ∀ x y : List U8, y.length = 16 → (Hacspec.Aes.subBytes x >>= Hacspec.Aes.shiftRows) >>= Hacspec.Aes.mixColumns = .ok y →
      Hacspec.Aes.aesEnc x rk = .ok (Spec.xor rk y) := by
    intro x y hy h
    have e : Hacspec.Aes.aesEnc x rk = ((Hacspec.Aes.subBytes x >>= Hacspec.Aes.shiftRows) >>= Hacspec.Aes.mixColumns) >>=
        fun s => Hacspec.Aes.addRoundKey s rk := by
      simp only [Hacspec.Aes.aesEnc, bind_assoc]
    rw [e, h, bind_ok, Hacspec.Aes.addRoundKey_ok hy hr, Hacspec.Aes.xor_comm']
  refine ⟨_, _, run _ _ h2 h1, run _ _ (Symmetry.length_turnColumns ..) h3, ?_⟩
  rw [← Symmetry.xor_turnColumns hr h2]
  constructor
  · intro h
    have := congrArg (fun x => Spec.xor x (turnColumns k t)) h
    beta_reduce at this
    rw [Hacspec.Aes.xor_xor (by rw [hr, Symmetry.length_turnColumns]),
      Hacspec.Aes.xor_xor (by rw [Symmetry.length_turnColumns, Symmetry.length_turnColumns])] at this
    exact this.symm
  · intro h
    rw [h]

/-- **C98.**  The key schedule breaks the symmetry: for no key are four successive round keys of AES-128, or seven of AES-256,
unchanged by a cyclic permutation of the columns. -/
theorem C98_aes_keys (alg : Variant) (key e : List U8) (hk : key.length = 4 * Hacspec.Aes.nk alg) (he : Expanded alg key e)
    (k : Nat) (hk4 : k % 4 ≠ 0) (r : Nat) (hr : r + 3 * (Hacspec.Aes.nk alg / 4) ≤ Hacspec.Aes.nr alg) :
    ∃ j, j ≤ 3 * (Hacspec.Aes.nk alg / 4) ∧ turnColumns k ((e.drop (16 * (r + j))).take 16) ≠ (e.drop (16 * (r + j))).take 16 := by
  by_contra hno
  push Not at hno
  have hu := Hacspec.Aes.uniform_schedule (alg := alg) hk
  have hl := Hacspec.Aes.length_schedule (alg := alg) key
  rw [Expanded, C42_key_expansion alg key hk] at he
  injection he with he
  subst he
  obtain ⟨n, hn, hn2, hnk⟩ : ∃ n, 0 < n ∧ (n = 1 ∨ n = 2) ∧ Hacspec.Aes.nk alg = 4 * n := by
    cases alg
    · exact ⟨1, by decide, .inl rfl, rfl⟩
    · exact ⟨2, by decide, .inr rfl, rfl⟩
  have hn4 : Hacspec.Aes.nk alg / 4 = n := by omega
  rw [hn4] at hr hno
  generalize hW : Spec.Aes.schedule (Hacspec.Aes.nk alg) (Hacspec.Aes.nr alg) key = W at *
  have hlen : ∀ i, i < 4 * (Hacspec.Aes.nr alg + 1) → (W.getD i []).length = 4 := by
    intro i hi
    rw [List.getD_eq_getElem?_getD, List.getElem?_eq_getElem (by omega), Option.getD_some]
    exact hu _ (List.getElem_mem _)
  have rec' : ∀ i, i + Hacspec.Aes.nk alg < 4 * (Hacspec.Aes.nr alg + 1) → W.getD (i + Hacspec.Aes.nk alg) [] =
      Spec.xor (W.getD i []) (Hacspec.Aes.temp (Hacspec.Aes.nk alg) (i + Hacspec.Aes.nk alg) (W.getD (i + Hacspec.Aes.nk alg - 1) [])) := by
    intro i hi
    rw [← hW]
    exact getD_expand (by simp) (by omega) (by omega)
  have xg : ∀ a b : List U8, a.length = 4 → b.length = 4 → ∀ j, j < 4 → (Spec.xor a b).getD j 0 = a.getD j 0 ^^^ b.getD j 0 := by
    intro a b ha hb j hj
    obtain ⟨a0, a1, a2, a3, rfl⟩ := Hacspec.Aes.exists4 ha
    obtain ⟨b0, b1, b2, b3, rfl⟩ := Hacspec.Aes.exists4 hb
    rcases (by omega : j = 0 ∨ j = 1 ∨ j = 2 ∨ j = 3) with rfl | rfl | rfl | rfl <;> rfl
  refine Symmetry.schedule_asymmetric (n := n) (r := r) hn (fun i b => (W.getD i []).getD b 0) ?_ ?_ ?_
  · intro j hj b hb
    have h := Symmetry.invariant_two hk4 (hno j hj)
    rw [← Hacspec.Aes.roundKey_eq hu, Spec.Aes.roundKey, take_drop_getD _ _ _ (by omega)] at h
    have hf : ((List.range 4).map fun t => W.getD (4 * (r + j) + t) []).flatten = W.getD (4 * (r + j)) [] ++
        (W.getD (4 * (r + j) + 1) [] ++ (W.getD (4 * (r + j) + 2) [] ++ W.getD (4 * (r + j) + 3) [])) := by
      simp [List.range_succ]
    rw [hf] at h
    obtain ⟨h1, h2⟩ := Symmetry.words_two (hlen _ (by omega)) (hlen _ (by omega)) (hlen _ (by omega)) (hlen _ (by omega)) h
    show _ = _ ∧ _ = _
    rw [h1, h2]
    exact ⟨rfl, rfl⟩
  · intro j hj t ht b hb
    have h := rec' (4 * (r + j) + t + 1) (by omega)
    have hm : ∀ m, (4 * m + t + 1 + 4 * n) % (4 * n) % 4 = t + 1 := by
      intro m
      rw [Nat.mod_mod_of_dvd _ ⟨n, rfl⟩]
      omega
    have hm := hm (r + j)
    rw [hnk, Hacspec.Aes.temp, if_neg (by omega), if_neg (by omega)] at h
    rw [show 4 * (r + j + n) + t + 1 = 4 * (r + j) + t + 1 + 4 * n by omega, h, xg _ _ (hlen _ (by omega)) (hlen _ (by omega)) b hb]
    congr 3
    omega
  · intro h1 h2
    have h := rec' (4 * r) (by omega)
    have hz : W.getD (4 * r + Hacspec.Aes.nk alg - 1) [] = [0, 0, 0, 0] := by
      have hl4 := hlen (4 * r + Hacspec.Aes.nk alg - 1) (by omega)
      rw [show 4 * r + Hacspec.Aes.nk alg - 1 = 4 * (r + (n - 1)) + 3 by omega] at hl4 ⊢
      refine Hacspec.ChaCha.ext_getD 0 hl4 fun j hj => ?_
      rw [h2 j (by omega)]
      rcases (by omega : j = 0 ∨ j = 1 ∨ j = 2 ∨ j = 3) with rfl | rfl | rfl | rfl <;> rfl
    have hz0 : W.getD (4 * r) [] = [0, 0, 0, 0] := by
      have hl4 := hlen (4 * r) (by omega)
      refine Hacspec.ChaCha.ext_getD 0 hl4 fun j hj => ?_
      rw [h1 j (by omega)]
      rcases (by omega : j = 0 ∨ j = 1 ∨ j = 2 ∨ j = 3) with rfl | rfl | rfl | rfl <;> rfl
    have hs : Spec.Aes.sub 0 = 0x63 := by decide +kernel
    refine ⟨1, by omega, ?_⟩
    rw [show 4 * (r + n) = 4 * r + Hacspec.Aes.nk alg by omega, h, hz, hz0, Hacspec.Aes.temp]
    split
    next =>
      simp only [Spec.Aes.rotWord, Spec.Aes.subBytes, List.drop_succ_cons, List.drop_zero, List.take_succ_cons, List.take_zero,
        List.cons_append, List.nil_append, List.map_cons, List.map_nil, hs, Spec.Aes.rcon, Spec.xor, List.zipWith_cons_cons,
        List.zipWith_nil_right, List.getD_cons_succ, List.getD_cons_zero]
      decide
    next hc =>
      rw [hnk] at hc
      rw [if_pos (by rw [hnk]; rcases hn2 with rfl | rfl <;> omega)]
      simp only [Spec.Aes.subBytes, List.map_cons, List.map_nil, hs, Spec.xor, List.zipWith_cons_cons,
        List.zipWith_nil_right, List.getD_cons_succ, List.getD_cons_zero]
      decide

/-- Three are, for the key zero. -/
example : ∃ e, Expanded .aes128 (List.replicate 16 0) e ∧
    ∀ r, r < 3 → turnColumns 2 ((e.drop (16 * r)).take 16) = (e.drop (16 * r)).take 16 :=
  ⟨_, C42_key_expansion .aes128 _ (by decide), by decide +kernel⟩

end Hacspec.Props
