import Verif.Lemmas.Ideal.Sha
import Verif.Props.CompressStructure

/-! # C109: SHA-256 with a random block cipher in place of the shuffled schedule

`compress` enciphers the state with the block as key and adds the state (C96).  Here the cipher is any family of permutations;
whoever attacks may ask to encipher and to decipher.  The statements count the ciphers with which an attack succeeds. -/

namespace Hacspec.Props

open Spec Hacspec.Ideal Finset

/-- The questions and answers about the cipher. -/
abbrev ShaAttack (O : Type) : Type := Prog (Dir (Bytes 64) (Words 32 8)) (Words 32 8) O

/-- The shuffled schedule as a cipher. -/
theorem sha_cipher (b : Bytes 64) : ∃ π : Equiv.Perm (Words 32 8), ∀ s : Words 32 8,
    (Hacspec.Sha2.schedule b.1 >>= fun ws => Hacspec.Sha2.shuffle ws s.1) = .ok (π s).1 := by
  obtain ⟨ws, -, h1, lw, -⟩ := Hacspec.Sha2.compress_shuffle b.2 (h := List.replicate 8 0) (by simp)
  have hp := C96_shuffle ws lw
  choose f hf using fun s : Words 32 8 => hp.1 s.1 s.2
  have hbij : Function.Bijective fun s : Words 32 8 => (⟨f s, (hf s).2⟩ : Words 32 8) := by
    constructor
    · intro s s' e
      have e : f s = f s' := congrArg Subtype.val e
      obtain ⟨u, -, -, h⟩ := hp.2 (f s) (hf s).2
      exact Subtype.ext ((h s.1 s.2 (hf s).1).trans (h s'.1 s'.2 (by rw [e]; exact (hf s').1)).symm)
    · intro t
      obtain ⟨u, lu, h, -⟩ := hp.2 t.1 t.2
      exact ⟨⟨u, lu⟩, Subtype.ext (Except.ok.inj ((hf ⟨u, lu⟩).1.symm.trans h))⟩
  refine ⟨Equiv.ofBijective _ hbij, fun s => ?_⟩
  rw [h1, bind_ok]
  exact (hf s).1

/-- **C109.**  `schedule` and `shuffle` are one of these ciphers: with it, the attacked function is `hash`. -/
theorem C109_code : ∃ E : Bytes 64 → Equiv.Perm (Words 32 8),
    (∀ b s, (Hacspec.Sha2.schedule b.1 >>= fun ws => Hacspec.Sha2.shuffle ws s.1) = .ok (E b s).1) ∧
    ∀ m : List U8, m.length < 2 ^ 61 → sha E m = Hacspec.Sha2.hash m := by
  choose E hE using sha_cipher
  refine ⟨E, hE, fun m hm => ?_⟩
  have key : ∀ (ks : List (Bytes 64)) (s : Words 32 8), chained (Hacspec.Sha2.compressWith (shaCipher E)) s.1 (ks.map Subtype.val) =
      chained Hacspec.Sha2.compress s.1 (ks.map Subtype.val) := by
    intro ks
    induction ks with
    | nil => exact fun s => rfl
    | cons k ks ih =>
      intro s
      have e : Hacspec.Sha2.compress k.1 s.1 = Hacspec.Sha2.compressWith (shaCipher E) k.1 s.1 := by
        have := hE k s
        rw [Hacspec.Sha2.compress, Hacspec.Sha2.compressWith, shaCipher, dif_pos ⟨k.2, s.2⟩, bind_ok]
        obtain ⟨ws, h3, h4⟩ := bind_eq_ok.mp this
        rw [h3, bind_ok, h4, bind_ok]
      rw [List.map_cons, chained, chained, e, compressWith_ok, bind_ok, bind_ok]
      exact ih _
  have := key (shaKeys m) shaStart
  rw [map_shaKeys] at this
  rw [sha, hashWith_chain m hm, C80_sha256_chain m hm]
  exact congrArg (· >>= _) this

/-- Two messages that the code hashes to one value because it does not pad full blocks (C32). -/
def PaddedPair (m m' : List U8) : Prop := (m.length % 64 ≠ 0 ∧ m' = Sha256.pad m) ∨ (m'.length % 64 ≠ 0 ∧ m = Sha256.pad m')

theorem shaKeys_ne {m m' : List U8} (hm : m.length < 2 ^ 61) (hm' : m'.length < 2 ^ 61) (hne : m ≠ m') (hp : ¬ PaddedPair m m') :
    shaKeys m ≠ shaKeys m' := by
  intro h
  have h := congrArg (List.map Subtype.val) h
  rw [map_shaKeys, map_shaKeys] at h
  have e := shaBlocks_eq h
  by_cases c : m.length % 64 = 0 <;> by_cases c' : m'.length % 64 = 0
  · rw [if_pos c, if_pos c'] at e; exact hne e
  · rw [if_pos c, if_neg c'] at e; exact hp (.inr ⟨c', e⟩)
  · rw [if_neg c, if_pos c'] at e; exact hp (.inl ⟨c, e.symm⟩)
  · rw [if_neg c, if_neg c'] at e; exact hne (C32_pad_injective_partial m m' hm hm' e)

/-- An attack finds two messages of at most `ℓ` blocks with one hash value. -/
def FindsCollision (p : ShaAttack (List U8 × List U8)) (ℓ : Nat) (E : Bytes 64 → Equiv.Perm (Words 32 8)) : Prop :=
  ∃ m m' d, p.run (Dir.answer E) = (m, m') ∧ m ≠ m' ∧ ¬ PaddedPair m m' ∧ m.length + 9 ≤ 64 * ℓ ∧ m'.length + 9 ≤ 64 * ℓ ∧
    sha E m = .ok d ∧ sha E m' = .ok d

open Classical in
/-- **C109.**  Collisions, apart from the pairs that exist for the missing padding: with `q` questions they are found for at most
`s (s + 1) / 2` in `2^256 - s` of all ciphers, `s = q + 2 ℓ`. -/
theorem C109_collision (p : ShaAttack (List U8 × List U8)) (q ℓ : Nat) (hp : p.Within q) (hℓ : ℓ ≤ 2 ^ 55) :
    2 * (2 ^ 256 - (q + 2 * ℓ)) * (univ.filter (FindsCollision p ℓ)).card ≤
      (q + 2 * ℓ) * (q + 2 * ℓ + 1) * Fintype.card (Bytes 64 → Equiv.Perm (Words 32 8)) := by
  have h := dm_collision addWords (allCiphers (Bytes 64) (Words 32 8)) addWords_right addWords_left p q ℓ hp
    (fun o => shaKeys o.1) (fun o => shaKeys o.2) shaStart (FindsCollision p ℓ) ?_
  · rw [card_words, ← Nat.pow_mul] at h
    exact h
  · rintro E ⟨m, m', d, hr, hne, hpp, l, l', h1, h2⟩
    have hr : p.run (Ciphers.ev (allCiphers _ _) E) = (m, m') := hr
    rw [hr]
    obtain ⟨t, h3, h4⟩ := sha_ok E (by omega) h1
    obtain ⟨t', h3', h4'⟩ := sha_ok E (by omega) h2
    exact ⟨length_shaKeys l, length_shaKeys l', shaKeys_ne (m := m) (m' := m') (by omega) (by omega) hne hpp, t, h3,
      by rw [digest_inj h4 h4']; exact h3'⟩

/-- An attack that guesses: one question, and two messages that depend on the answer. -/
def guess : ShaAttack (List U8 × List U8) :=
  .ask (.bwd ⟨List.replicate 64 1, by simp⟩ ⟨List.replicate 8 2, by simp⟩) fun x => .ret ([1], x.1.map (BitVec.setWidth 8))

theorem guess_within : guess.Within 1 := ⟨0, rfl, fun _ => trivial⟩

example := C109_collision guess 1 1 guess_within (by norm_num)

/-- The pairs that are excluded are found without a question, for every cipher. -/
theorem C109_padded (E : Bytes 64 → Equiv.Perm (Words 32 8)) (m : List U8) (hm : m.length < 2 ^ 60) (h : m.length % 64 ≠ 0) :
    sha E m = sha E (Sha256.pad m) ∧ ∃ d, sha E m = .ok d := by
  have hl : (Sha256.pad m).length < 2 ^ 61 := by
    simp only [Sha256.pad, bytesBe64, List.length_append, List.length_cons, List.length_nil, List.length_replicate]
    omega
  obtain ⟨t, h1, h2⟩ := chained_sha E (shaKeys m) shaStart
  rw [map_shaKeys] at h2
  obtain ⟨v, hv⟩ := Hacspec.Sha2.exists_enc t.2
  refine ⟨?_, ?_⟩
  · rw [sha, sha, hashWith_chain m (by omega), hashWith_chain _ hl]
    congr 2
    rw [shaBlocks, shaBlocks, if_neg h, if_pos (Hacspec.Sha2.length_pad m)]
  · refine ⟨Sha256.digest v, ?_⟩
    rw [sha, hashWith_chain m (by omega), show Hacspec.Sha2.initial = shaStart.1 from rfl, h2, bind_ok, hv,
      Hacspec.Sha2.digest_ok]

example (E : Bytes 64 → Equiv.Perm (Words 32 8)) := C109_padded E [1, 2, 3] (by simp) (by simp)

/-- An attack finds a message of at most `ℓ` blocks with the hash value `d`; not the empty one, whose value is known. -/
def FindsPreimage (p : ShaAttack (List U8)) (ℓ : Nat) (d : List U8) (E : Bytes 64 → Equiv.Perm (Words 32 8)) : Prop :=
  ∃ m, p.run (Dir.answer E) = m ∧ m ≠ [] ∧ m.length + 9 ≤ 64 * ℓ ∧ sha E m = .ok d

open Classical in
/-- **C109.**  Preimages of a given value: at most `s` in `2^256 - s`, `s = q + ℓ`. -/
theorem C109_preimage (p : ShaAttack (List U8)) (q ℓ : Nat) (d : List U8) (hp : p.Within q) (hℓ : ℓ ≤ 2 ^ 55) :
    (2 ^ 256 - (q + ℓ)) * (univ.filter (FindsPreimage p ℓ d)).card ≤
      (q + ℓ) * Fintype.card (Bytes 64 → Equiv.Perm (Words 32 8)) := by
  by_cases hd : ∃ x : Words 32 8, (do let y ← Hacspec.Seq.arrToBeBytes 8 x.1; Hacspec.Seq.arrFromSeq 32 y) = .ok d
  · obtain ⟨x, hx⟩ := hd
    have h := dm_preimage addWords (allCiphers (Bytes 64) (Words 32 8)) addWords_right addWords_left p q ℓ hp
      shaKeys shaStart x (FindsPreimage p ℓ d) ?_
    · rw [card_words, ← Nat.pow_mul] at h
      exact h
    · rintro E ⟨m, hr, hne, l, h1⟩
      have hr : p.run (Ciphers.ev (allCiphers _ _) E) = m := hr
      rw [hr]
      obtain ⟨t, h3, h4⟩ := sha_ok E (by omega) h1
      refine ⟨length_shaKeys l, fun e => hne ?_, by rw [digest_inj hx h4]; exact h3⟩
      have e := congrArg List.length (congrArg (List.map Subtype.val) e)
      rw [map_shaKeys, shaBlocks, length_fullBlocks, List.map_nil, List.length_nil] at e
      split at e
      · exact List.eq_nil_of_length_eq_zero (by omega)
      · exfalso
        simp only [Sha256.pad, bytesBe64, List.length_append, List.length_cons, List.length_nil, List.length_replicate] at e
        omega
  · rw [Finset.filter_false_of_mem]
    · rw [Finset.card_empty, Nat.mul_zero]
      exact Nat.zero_le _
    · rintro E - ⟨m, -, -, l, h1⟩
      obtain ⟨t, -, h4⟩ := sha_ok E (by omega) h1
      exact hd ⟨t, h4⟩

/-- The same attack. -/
def guess1 : ShaAttack (List U8) :=
  .ask (.bwd ⟨List.replicate 64 1, by simp⟩ ⟨List.replicate 8 2, by simp⟩) fun x => .ret (x.1.map (BitVec.setWidth 8))

theorem guess1_within : guess1.Within 1 := ⟨0, rfl, fun _ => trivial⟩

example := C109_preimage guess1 1 1 (List.replicate 32 0) guess1_within (by norm_num)

/-- The empty message is a preimage of a known value, for every cipher. -/
theorem C109_empty (E : Bytes 64 → Equiv.Perm (Words 32 8)) :
    sha E [] = .ok [0x6a, 0x09, 0xe6, 0x67, 0xbb, 0x67, 0xae, 0x85, 0x3c, 0x6e, 0xf3, 0x72, 0xa5, 0x4f, 0xf5, 0x3a,
      0x51, 0x0e, 0x52, 0x7f, 0x9b, 0x05, 0x68, 0x8c, 0x1f, 0x83, 0xd9, 0xab, 0x5b, 0xe0, 0xcd, 0x19] := by
  rw [sha, hashWith_chain [] (by simp), shaBlocks, if_pos (c := ([] : List U8).length % 64 = 0) rfl, fullBlocks, List.length_nil, Nat.zero_div, List.range_zero,
    List.map_nil, chained, bind_ok, Hacspec.Sha2.initial_eq, Hacspec.Sha2.digest_ok]
  decide +kernel

/-- An attack finds another message with the hash value of `m₀`. -/
def FindsSecond (p : ShaAttack (List U8)) (ℓ : Nat) (m₀ : List U8) (E : Bytes 64 → Equiv.Perm (Words 32 8)) : Prop :=
  ∃ m d, p.run (Dir.answer E) = m ∧ m₀ ≠ m ∧ ¬ PaddedPair m₀ m ∧ m.length + 9 ≤ 64 * ℓ ∧ sha E m₀ = .ok d ∧ sha E m = .ok d

open Classical in
/-- **C109.**  Second preimages of a message of at most `ℓ₀` blocks: at most `s (ℓ₀ + 1)` in `2^256 - s`, `s = ℓ₀ + q + ℓ`. -/
theorem C109_second (p : ShaAttack (List U8)) (q ℓ ℓ₀ : Nat) (m₀ : List U8) (hp : p.Within q) (hℓ : ℓ ≤ 2 ^ 55) (hℓ₀ : ℓ₀ ≤ 2 ^ 55)
    (hm₀ : m₀.length + 9 ≤ 64 * ℓ₀) :
    (2 ^ 256 - (ℓ₀ + (q + ℓ))) * (univ.filter (FindsSecond p ℓ m₀)).card ≤
      (ℓ₀ + (q + ℓ)) * (ℓ₀ + 1) * Fintype.card (Bytes 64 → Equiv.Perm (Words 32 8)) := by
  have h := dm_second addWords (allCiphers (Bytes 64) (Words 32 8)) addWords_right addWords_left p q ℓ hp
    shaKeys shaStart (shaKeys m₀) (FindsSecond p ℓ m₀) ?_
  · rw [card_words, ← Nat.pow_mul] at h
    have hk := length_shaKeys hm₀
    refine (Nat.mul_le_mul_right _ (Nat.sub_le_sub_left (Nat.add_le_add_right hk _) _)).trans (h.trans ?_)
    exact Nat.mul_le_mul_right _ (Nat.mul_le_mul (Nat.add_le_add_right hk _) (Nat.add_le_add_right hk _))
  · rintro E ⟨m, d, hr, hne, hpp, l, h1, h2⟩
    have hr : p.run (Ciphers.ev (allCiphers _ _) E) = m := hr
    rw [hr]
    obtain ⟨t, h3, h4⟩ := sha_ok E (by omega) h1
    obtain ⟨t', h3', h4'⟩ := sha_ok E (by omega) h2
    exact ⟨length_shaKeys l, shaKeys_ne (by omega) (by omega) hne hpp, t, h3, by rw [digest_inj h4 h4']; exact h3'⟩

example := C109_second guess1 1 1 1 [1, 2, 3] guess1_within (by norm_num) (by norm_num) (by simp)

end Hacspec.Props
