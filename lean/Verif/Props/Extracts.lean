import Verif.Lemmas.Ideal.Extract
import Verif.Props.Generics
import Verif.Props.IdealKdfs

/-! # C127: HKDF-Extract and HKDF-Expand with a random block cipher inside SHA-256 -/

namespace Hacspec.Props

open Spec Hacspec.Ideal Finset Hacspec.Seq

/-- The key of HMAC in `extract`. -/
def saltKey (salt : List U8) : List U8 := if salt = [] then List.replicate 32 0 else salt

theorem length_saltKey {salt : List U8} (h : salt.length ≤ 64) : (saltKey salt).length ≤ 64 := by
  rw [saltKey]
  split
  · rw [List.length_replicate]; decide
  · exact h

theorem saltOrZero_ok (salt : List U8) : Hacspec.Hkdf.saltOrZero salt = .ok (saltKey salt) := by
  rw [Hacspec.Hkdf.saltOrZero, saltKey]
  by_cases h : salt = []
  · subst h
    rfl
  · rw [if_pos (List.length_pos_iff.mpr h), if_neg h, fromSeq_ok]

theorem extractWith_ok {hash : List U8 → M (List U8)} {H : List U8 → List U8} (hH : ∀ x, x.length < 2 ^ 61 → hash x = .ok (H x))
    (hL : ∀ x, (H x).length = 32) {salt ikm : List U8} (hs : salt.length ≤ 64) (hm : 64 + ikm.length < 2 ^ 61) :
    Hacspec.Hkdf.extractWith hash salt ikm = .ok (Spec.hmac H (saltKey salt) ikm) := by
  rw [Hacspec.Hkdf.extractWith, saltOrZero_ok, bind_ok, Hacspec.Hmac.hmacWith_ok hH hL (length_saltKey hs) hm, bind_ok, arrFromSeq_ok]
  exact hL _

/-- **C127.**  `schedule` and `shuffle` are one of these ciphers: with it, the attacked function is `extract` followed by `expand`. -/
theorem C127_code : ∃ E : Bytes 64 → Equiv.Perm (Words 32 8),
    (∀ b s, (Hacspec.Sha2.schedule b.1 >>= fun ws => Hacspec.Sha2.shuffle ws s.1) = .ok (E b s).1) ∧
    ∀ (salt ikm info : List U8) (l : Nat), salt.length ≤ 64 → 64 + ikm.length < 2 ^ 61 → 97 + info.length < 2 ^ 61 → l ≤ 8128 →
      extractExpand (Hacspec.Ideal.extract E) (Hacspec.Ideal.expand E) salt ikm info l =
        extractExpand Hacspec.Hkdf.extract Hacspec.Hkdf.expand salt ikm info l := by
  obtain ⟨E, h1, h2⟩ := C109_code
  refine ⟨E, h1, fun salt ikm info l hs hm hi hl => ?_⟩
  have hh : ∀ x : List U8, x.length < 2 ^ 61 → Hacspec.Sha2.hash x = .ok (hashOf E x) := fun x hx => (h2 x hx).symm.trans (sha_hashOf E x hx)
  have e1 : Hacspec.Hkdf.extract salt ikm = Hacspec.Hkdf.extractWith Hacspec.Sha2.hash salt ikm := rfl
  have hk : (Spec.hmac (hashOf E) (saltKey salt) ikm).length ≤ 64 := by
    rw [Spec.hmac, length_hashOf]; decide
  rw [extractExpand, extractExpand, e1, Hacspec.Ideal.extract, extractWith_ok (sha_hashOf E) (length_hashOf E) hs hm,
    extractWith_ok hh (length_hashOf E) hs hm, bind_ok, bind_ok, ← Hacspec.Hkdf.expandWith_hash, Hacspec.Ideal.expand,
    Hacspec.Hkdf.expandWith_ok (sha_hashOf E) (length_hashOf E) hk hi hl, Hacspec.Hkdf.expandWith_ok hh (length_hashOf E) hk hi hl]

/-- The block of a short input. -/
def ikmBlock (m : List U8) (h : 0 < m.length ∧ m.length ≤ 55) : Bytes 64 :=
  ⟨afterKey m, by
    rw [afterKey, if_neg (by omega)]
    simp only [bytesBe64, List.length_append, List.length_cons, List.length_nil, List.length_replicate]; omega⟩

theorem restKeys_ikm {m : List U8} (h : 0 < m.length ∧ m.length ≤ 55) : restKeys m = [ikmBlock m h] := by
  refine List.map_injective_iff.mpr Subtype.val_injective ?_
  rw [map_restKeys]
  exact fullBlocks_one (ikmBlock m h).2

theorem extract_state (E : Bytes 64 → Equiv.Perm (Words 32 8)) {salt : List U8} (hs : (saltKey salt).length ≤ 64) {Ω : Type} (ikm : Ω → List U8)
    (hm : ∀ w, 0 < (ikm w).length ∧ (ikm w).length ≤ 55) (w : Ω) (h : salt.length ≤ 64) :
    Hacspec.Ideal.extract E salt (ikm w) = .ok (digestOf (exOut addWords (padKey 0x36#8 hs ⟨saltKey salt, rfl⟩)
      (padKey 0x5c#8 hs ⟨saltKey salt, rfl⟩) shaStart (fun w => ikmBlock (ikm w) (hm w)) outerBlock E w)).1 := by
  have hl := (hm w).2
  have h1 := hmac_nested E hs ⟨saltKey salt, rfl⟩ (m := ikm w) (by omega)
  rw [Hacspec.Ideal.hmac, Hacspec.Hmac.hmacWith_ok (sha_hashOf E) (length_hashOf E) hs (by omega), nested, restKeys_ikm (hm w)] at h1
  rw [Hacspec.Ideal.extract, extractWith_ok (sha_hashOf E) (length_hashOf E) h (by omega), h1]
  rfl

/-- **C127.**  Keys that are derived with `extract` and `expand` from an input that is hard to guess are like random strings: whatever
the salt of at most 64 bytes is, whoever asks the cipher `q` times and for `a` keys of at most `32 N` bytes decides for the code with
a random cipher, and an input that is no string with more than the share `ε`, as often as for random bytes for each string, up to
`prfBound` and `extractBound`. -/
theorem C127_prf {Ω : Type} [Fintype Ω] [Nonempty Ω] (ikm : Ω → List U8) (hm : ∀ w, 0 < (ikm w).length ∧ (ikm w).length ≤ 55) (ε : ℚ)
    (hε : ∀ m, share (fun w => ikm w = m) ≤ ε) (salt : List U8) (hs : salt.length ≤ 64)
    {ℓ N : Nat} (hN : N ≤ 254) (hℓ : ℓ < 2 ^ 54) {O : Type} (p : KdfAttack ℓ N O) (q a : Nat) (hp : p.Counts q a)
    (hT : q + a * N * ℓ < 2 ^ 256) (acc : O → Prop) :
    |share (fun ω : (Bytes 64 → Equiv.Perm (Words 32 8)) × Ω => acc (p.run (macAnswer ω.1 fun x =>
        extractExpand (Hacspec.Ideal.extract ω.1) (Hacspec.Ideal.expand ω.1) salt (ikm ω.2) x.1.1 x.2.1))) -
      share (fun ω : (Bytes 64 → Equiv.Perm (Words 32 8)) × (Infos ℓ × Fin N → Bytes 32) =>
        acc (p.run (macAnswer ω.1 fun x => .ok (randomBytes ω.2 x))))| ≤
      prfBound 32 (q + a * N * ℓ) (a * N) + extractBound (q + a * N * (ℓ + 3)) ε := by
  have hk := length_saltKey hs
  have hc : ∀ k, share (fun w => ikmBlock (ikm w) (hm w) = k) ≤ ε := by
    intro k
    by_cases h : ∃ w, ikmBlock (ikm w) (hm w) = k
    · obtain ⟨w', rfl⟩ := h
      refine (share_mono fun w h => ?_).trans (hε (ikm w'))
      have h1 := hm w
      have h2 := hm w'
      exact restKeys_inj (by omega) (by omega) (by omega) (by rw [restKeys_ikm h1, restKeys_ikm h2, h])
    · exact le_trans (le_of_eq (share_false fun w hw => h ⟨w, hw⟩)) ((share_nonneg _).trans (hε []))
  have h32 : 32 ≤ 64 := by decide
  have key : ∀ (E : Bytes 64 → Equiv.Perm (Words 32 8)) (d : Bytes 32),
      p.run (macAnswer E fun x => Hacspec.Ideal.expand E d.1 x.1.1 x.2.1) = (unnest addWords (padKey 0x36#8 h32) (padKey 0x5c#8 h32) shaStart outerBlock
        (fun z : Texts false ℓ => restKeys z.1) d (kdfCompile p)).run (Dir.answer E) := by
    intro E d
    rw [run_unnest, run_kdfCompile]
    congr 1
    funext x
    cases x with
    | inl d => rfl
    | inr x => exact expand_blocks h32 hN hℓ (E, d) x
  have h1 := extract_near (op := addWords) (dv := subWords) (b1 := padKey 0x36#8 hk ⟨saltKey salt, rfl⟩)
    (b3 := padKey 0x5c#8 hk ⟨saltKey salt, rfl⟩) (iv := shaStart) (o := outerBlock) sub_add (fun x y y' => addWords_right x y y')
    outerBlock_inj hc (p := fun r => unnest addWords (padKey 0x36#8 h32) (padKey 0x5c#8 h32) shaStart outerBlock
      (fun z : Texts false ℓ => restKeys z.1) (digestOf r) (kdfCompile p))
    (fun r => unnest_within _ _ _ _ _ _ (fun z : Texts false ℓ => length_restKeys z.2.1) (digestOf r) (kdfCompile_counts hp)) acc
  have h2 := C114_prf h32 hN hℓ p q a hp hT acc
  have e1 : share (fun ω : (Bytes 64 → Equiv.Perm (Words 32 8)) × Ω => acc (p.run (macAnswer ω.1 fun x =>
      extractExpand (Hacspec.Ideal.extract ω.1) (Hacspec.Ideal.expand ω.1) salt (ikm ω.2) x.1.1 x.2.1))) =
      share (fun x : (Bytes 64 → Equiv.Perm (Words 32 8)) × Ω => acc ((unnest addWords (padKey 0x36#8 h32) (padKey 0x5c#8 h32) shaStart outerBlock
        (fun z : Texts false ℓ => restKeys z.1) (digestOf (exOut addWords (padKey 0x36#8 hk ⟨saltKey salt, rfl⟩)
          (padKey 0x5c#8 hk ⟨saltKey salt, rfl⟩) shaStart (fun w => ikmBlock (ikm w) (hm w)) outerBlock x.1 x.2)) (kdfCompile p)).run
            (Dir.answer x.1))) := by
    refine share_congr fun ω => ?_
    rw [← key]
    simp only [extractExpand, extract_state ω.1 hk ikm hm ω.2 hs, bind_ok]
  have e2 : share (fun ω : (Bytes 64 → Equiv.Perm (Words 32 8)) × Bytes 32 =>
      acc (p.run (macAnswer ω.1 fun x => Hacspec.Ideal.expand ω.1 ω.2.1 x.1.1 x.2.1))) =
      share (fun x : (Bytes 64 → Equiv.Perm (Words 32 8)) × Words 32 8 => acc ((unnest addWords (padKey 0x36#8 h32) (padKey 0x5c#8 h32) shaStart
        outerBlock (fun z : Texts false ℓ => restKeys z.1) (digestOf x.2) (kdfCompile p)).run (Dir.answer x.1))) := by
    rw [← share_equiv ((Equiv.refl (Bytes 64 → Equiv.Perm (Words 32 8))).prodCongr (Equiv.ofBijective digestOf digestOf_bij))]
    refine share_congr fun ω => ?_
    rw [← key]
    rfl
  rw [e2] at h2
  rw [e1]
  rw [card_states] at h1
  rw [extractBound, add_comm (prfBound _ _ _)]
  refine (abs_sub_le _ _ _).trans (add_le_add (h1.trans (le_of_eq ?_)) h2)
  push_cast
  ring

/-- **C127.**  The case of an input of `n` random bytes. -/
theorem C127_random {n : Nat} (hn : 0 < n ∧ n ≤ 55) (salt : List U8) (hs : salt.length ≤ 64)
    {ℓ N : Nat} (hN : N ≤ 254) (hℓ : ℓ < 2 ^ 54) {O : Type} (p : KdfAttack ℓ N O) (q a : Nat) (hp : p.Counts q a)
    (hT : q + a * N * ℓ < 2 ^ 256) (acc : O → Prop) :
    |share (fun ω : (Bytes 64 → Equiv.Perm (Words 32 8)) × Bytes n => acc (p.run (macAnswer ω.1 fun x =>
        extractExpand (Hacspec.Ideal.extract ω.1) (Hacspec.Ideal.expand ω.1) salt ω.2.1 x.1.1 x.2.1))) -
      share (fun ω : (Bytes 64 → Equiv.Perm (Words 32 8)) × (Infos ℓ × Fin N → Bytes 32) =>
        acc (p.run (macAnswer ω.1 fun x => .ok (randomBytes ω.2 x))))| ≤
      prfBound 32 (q + a * N * ℓ) (a * N) + extractBound (q + a * N * (ℓ + 3)) (1 / 256 ^ n) := by
  have : Nonempty (Bytes n) := ⟨⟨List.replicate n 0, List.length_replicate⟩⟩
  refine C127_prf (fun w : Bytes n => w.1) (fun w => by rw [w.2]; exact hn) _ (fun m => ?_) salt hs hN hℓ p q a hp hT acc
  refine (share_le (c := 1) fun s h => Finset.card_le_one.mpr fun w hw w' hw' => Subtype.ext ((h w hw).trans (h w' hw').symm)).trans ?_
  rw [card_bytes]
  push_cast
  rfl

example := C127_random (n := 32) (by decide) [] (by decide) (by decide) (by decide) kdfAttack 0 2 kdfAttack_counts (by decide) (fun b => b = true)

theorem share_secret {Q : (X25519.curve (ZMod X25519.p)).Point} (hQ : X25519.order • Q = 0) (h0 : Q ≠ 0) (m : List U8) :
    share (fun s : Bytes 32 => leBytes 32 (X25519.u (X25519.scalar s.val • Q)).val = m) ≤ 2 / 2 ^ 251 := by
  by_cases h : ∃ s : Bytes 32, leBytes 32 (X25519.u (X25519.scalar s.val • Q)).val = m
  · obtain ⟨s', rfl⟩ := h
    refine (share_le_add (Q := fun s : Bytes 32 => ((X25519.scalar s.val : Nat) : ZMod X25519.order) = (X25519.scalar s'.val : Nat))
      (R := fun s : Bytes 32 => ((X25519.scalar s.val : Nat) : ZMod X25519.order) = -(X25519.scalar s'.val : Nat)) fun s h => ?_).trans
      ((add_le_add (share_x25519 _) (share_x25519 _)).trans (le_of_eq (by norm_num)))
    have hu := val_u_inj h
    rw [u_eq_iff (clamped_smul_ne hQ h0 s) (clamped_smul_ne hQ h0 s')] at hu
    rcases hu with e | e
    · refine .inl ?_
      rw [nsmul_eq_nsmul_iff_modEq, addOrderOf_eq_prime hQ h0] at e
      exact (ZMod.natCast_eq_natCast_iff _ _ _).mpr e
    · refine .inr (eq_neg_of_add_eq_zero_left ?_)
      rw [eq_neg_iff_add_eq_zero, ← add_nsmul, ← addOrderOf_dvd_iff_nsmul_eq_zero, addOrderOf_eq_prime hQ h0] at e
      rw [← Nat.cast_add]
      exact (ZMod.natCast_eq_zero_iff _ _).mpr e
  · exact le_trans (le_of_eq (share_false fun s hs => h ⟨s, hs⟩)) (by positivity)

/-- **C127.**  The case of the common secret that `scalarmult` returns for a random secret and a public key, for whoever does not see
the public key of the random secret. -/
theorem C127_x25519 (t : Bytes 32) (k : List U8) (hk : Curve25519.scalarmult t.val nine = .ok k) (ikm : Bytes 32 → List U8)
    (hi : ∀ s : Bytes 32, Curve25519.scalarmult s.val k = .ok (ikm s)) (salt : List U8) (hs : salt.length ≤ 64)
    {ℓ N : Nat} (hN : N ≤ 254) (hℓ : ℓ < 2 ^ 54) {O : Type} (p : KdfAttack ℓ N O) (q a : Nat) (hp : p.Counts q a)
    (hT : q + a * N * ℓ < 2 ^ 256) (acc : O → Prop) :
    |share (fun ω : (Bytes 64 → Equiv.Perm (Words 32 8)) × Bytes 32 => acc (p.run (macAnswer ω.1 fun x =>
        extractExpand (Hacspec.Ideal.extract ω.1) (Hacspec.Ideal.expand ω.1) salt (ikm ω.2) x.1.1 x.2.1))) -
      share (fun ω : (Bytes 64 → Equiv.Perm (Words 32 8)) × (Infos ℓ × Fin N → Bytes 32) =>
        acc (p.run (macAnswer ω.1 fun x => .ok (randomBytes ω.2 x))))| ≤
      prfBound 32 (q + a * N * ℓ) (a * N) + extractBound (q + a * N * (ℓ + 3)) (2 / 2 ^ 251) := by
  have : Nonempty (Bytes 32) := ⟨t⟩
  let B : Base25519 := ⟨_, base25519⟩
  have hQ : X25519.order • X25519.scalar t.val • B.point = 0 := by
    rw [← mul_nsmul, mul_comm, mul_nsmul, B.order, nsmul_zero]
  have e : ∀ s : Bytes 32, ikm s = leBytes 32 (X25519.u (X25519.scalar s.val • X25519.scalar t.val • B.point)).val := by
    intro s
    obtain ⟨k', h1, -, h2⟩ := C126_x25519_keys B t s
    obtain rfl := Except.ok.inj (hk.symm.trans h1)
    rw [mul_nsmul] at h2
    exact Except.ok.inj ((hi s).symm.trans h2)
  refine C127_prf ikm (fun w => ?_) _ (fun m => ?_) salt hs hN hℓ p q a hp hT acc
  · rw [e, length_leBytes]; decide
  · refine (le_of_eq (share_congr fun s => ?_)).trans (share_secret hQ (B.smul_ne t) m)
    rw [e]

/-- There are such public keys and secrets. -/
example : ∃ (t : Bytes 32) (k : List U8) (ikm : Bytes 32 → List U8), Curve25519.scalarmult t.val nine = .ok k ∧
    ∀ s : Bytes 32, Curve25519.scalarmult s.val k = .ok (ikm s) := by
  let t : Bytes 32 := ⟨List.replicate 32 7, by decide⟩
  obtain ⟨k, h1, -, -⟩ := C126_x25519_keys ⟨_, base25519⟩ t t
  refine ⟨t, k, fun s => leBytes 32 (X25519.u ((X25519.scalar t.val * X25519.scalar s.val) •
    (⟨_, base25519⟩ : Base25519).point)).val, h1, fun s => ?_⟩
  obtain ⟨k', h2, -, h3⟩ := C126_x25519_keys ⟨_, base25519⟩ t s
  obtain rfl := Except.ok.inj (h1.symm.trans h2)
  exact h3

/-- With 2⁶⁰ questions to the cipher and 2²⁰ derived keys of 32 bytes with short strings, the bound for an input of 32 random bytes is
below `2⁻¹³⁰`. -/
example : prfBound 32 (2 ^ 60 + 2 ^ 20 * 1 * 1) (2 ^ 20 * 1) + extractBound (2 ^ 60 + 2 ^ 20 * 1 * (1 + 3)) (1 / 256 ^ 32) < 1 / 2 ^ 130 := by
  rw [prfBound, extractBound]
  norm_num

end Hacspec.Props
