import Verif.Lemmas.Ideal.Blake
import Verif.Props.HashStructure

/-! # C111: BLAKE2b with a random block cipher in place of the rounds

`compress` enciphers state, constants, counter and flag with the block as key, and folds the result onto the state.  Here the cipher is any
family of permutations; whoever attacks may ask to encipher and to decipher. -/

namespace Hacspec.Props

open Spec Hacspec.Ideal Finset

/-- The questions and answers about the cipher. -/
abbrev BlakeAttack (O : Type) : Type := Prog (Dir (Words 64 16) (Words 64 16)) (Words 64 16) O

/-- **C111.**  The twelve rounds are one of these ciphers: with it, the attacked function is `blake2b`. -/
theorem C111_code : ∃ E : Words 64 16 → Equiv.Perm (Words 64 16),
    (∀ m v, loop 12 (Hacspec.Blake2.roundStep m.1) v.1 = .ok (E m v).1) ∧
    ∀ m : List U8, m.length < 2 ^ 63 → blake E m = Hacspec.Blake2.blake2b m := by
  choose E hE using fun m : Words 64 16 => perm_of_permutes (C75_rounds m.1 m.2 .blake2b)
  refine ⟨E, hE, fun m hm => ?_⟩
  have key : ∀ (ks : List BlakeIn) (s : Words 64 8),
      chained (blakeWith (Hacspec.Blake2.compressWith (blakeCipher E))) s.1 (ks.map embB) = chained blakeCompress s.1 (ks.map embB) := by
    intro ks
    induction ks with
    | nil => exact fun s => rfl
    | cons k ks ih =>
      intro s
      have e : blakeCompress (embB k) s.1 = blakeWith (Hacspec.Blake2.compressWith (blakeCipher E)) (embB k) s.1 := by
        have h2 := hE (keyB k) (iniB k s)
        have h2 : loop Hacspec.Blake2.Variant.blake2b.rounds (Hacspec.Blake2.roundStep (words64le k.1.1)) (iniB k s).1 =
          .ok (E (keyB k) (iniB k s)).1 := h2
        rw [blakeCompress, Hacspec.Blake2.compress, blakeWith, Hacspec.Blake2.compressWith, embB]
        simp only
        rw [Hacspec.Blake2.makeArray_ok k.1.2, bind_ok, bind_ok, initV_iniB, bind_ok, bind_ok, h2, blakeCipher,
          dif_pos ⟨Hacspec.Blake2.length_words64le k.1.2, (iniB k s).2⟩]
        rfl
      rw [List.map_cons, chained, chained, e, blakeCompress_ok, bind_ok, bind_ok]
      exact ih _
  obtain ⟨t, h1, h2⟩ := C80_blake2b_chain m hm
  obtain ⟨u, h3, h4⟩ := chained_blake E (blakeKeys m) blakeStart
  rw [key, map_blakeKeys] at h4
  have e : t = u.1 := Except.ok.inj (h1.symm.trans h4)
  obtain ⟨u', h5, h6⟩ := blake_ok E hm
  have e' : u' = u := Except.ok.inj (h5.symm.trans h3)
  rw [h2, h6, e, e']

/-- An attack finds two messages of at most `ℓ` blocks with one hash value. -/
def FindsBlakeCollision (p : BlakeAttack (List U8 × List U8)) (ℓ : Nat) (E : Words 64 16 → Equiv.Perm (Words 64 16)) : Prop :=
  ∃ m m' d, p.run (Dir.answer E) = (m, m') ∧ m ≠ m' ∧ m.length ≤ 128 * ℓ ∧ m'.length ≤ 128 * ℓ ∧ blake E m = .ok d ∧ blake E m' = .ok d

open Classical in
/-- **C111.**  Collisions: with `q` questions they are found for at most `s (s + 1) / 2 * 2^512` in `2^1024 - s` of all ciphers,
`s = q + 2 ℓ`. -/
theorem C111_collision (p : BlakeAttack (List U8 × List U8)) (q ℓ : Nat) (hp : p.Within q) (hℓ : ℓ ≤ 2 ^ 55) :
    2 * ((2 ^ 64) ^ 16 - (q + 2 * ℓ)) * (univ.filter (FindsBlakeCollision p ℓ)).card ≤
      (q + 2 * ℓ) * (q + 2 * ℓ + 1) * (2 ^ 64) ^ 8 * Fintype.card (Words 64 16 → Equiv.Perm (Words 64 16)) := by
  have h := cstep_collision keyB iniB outB (allCiphers (Words 64 16) (Words 64 16)) iniB_inj (D := (2 ^ 64) ^ 8)
    (fun x d => by convert card_outB x d) (fun y d => by convert card_outB' y d) p q ℓ hp (fun o => blakeKeys o.1) (fun o => blakeKeys o.2) blakeStart
    (FindsBlakeCollision p ℓ) ?_
  · rw [card_words] at h
    exact h
  · rintro E ⟨m, m', d, hr, hne, l, l', h1, h2⟩
    have hr : p.run (Ciphers.ev (allCiphers _ _) E) = (m, m') := hr
    rw [hr]
    obtain ⟨t, h3, h4⟩ := blake_ok E (m := m) (by omega)
    obtain ⟨t', h3', h4'⟩ := blake_ok E (m := m') (by omega)
    have e : t = t' := flat_inj (Except.ok.inj (h4.symm.trans (h1.trans (h2.symm.trans h4'))))
    exact ⟨length_blakeKeys l, length_blakeKeys l', fun e => hne (blakeKeys_inj (by omega) (by omega) e), t, h3, by rw [e]; exact h3'⟩

/-- An attack that guesses: one question, and two messages that depend on the answer. -/
def guessBlake : BlakeAttack (List U8 × List U8) :=
  .ask (.bwd ⟨List.replicate 16 1, by simp⟩ ⟨List.replicate 16 2, by simp⟩) fun x => .ret ([1], x.1.map (BitVec.setWidth 8))

theorem guessBlake_within : guessBlake.Within 1 := ⟨0, rfl, fun _ => trivial⟩

example := C111_collision guessBlake 1 1 guessBlake_within (by norm_num)

/-- An attack finds a message of at most `ℓ` blocks with the hash value `d`; not the empty one, whose value is known. -/
def FindsBlakePreimage (p : BlakeAttack (List U8)) (ℓ : Nat) (d : List U8) (E : Words 64 16 → Equiv.Perm (Words 64 16)) : Prop :=
  ∃ m, p.run (Dir.answer E) = m ∧ m ≠ [] ∧ m.length ≤ 128 * ℓ ∧ blake E m = .ok d

open Classical in
/-- **C111.**  Preimages of a given value: at most `s 2^512` in `2^1024 - s`, `s = q + ℓ`. -/
theorem C111_preimage (p : BlakeAttack (List U8)) (q ℓ : Nat) (d : List U8) (hp : p.Within q) (hℓ : ℓ ≤ 2 ^ 55) :
    ((2 ^ 64) ^ 16 - (q + ℓ)) * (univ.filter (FindsBlakePreimage p ℓ d)).card ≤
      (q + ℓ) * (2 ^ 64) ^ 8 * Fintype.card (Words 64 16 → Equiv.Perm (Words 64 16)) := by
  by_cases hd : ∃ x : Words 64 8, x.1.flatMap bytesLe64 = d
  · obtain ⟨x, hx⟩ := hd
    have h := cstep_preimage keyB iniB outB (allCiphers (Words 64 16) (Words 64 16)) (D := (2 ^ 64) ^ 8)
      (fun x d => by convert card_outB x d) (fun y d => by convert card_outB' y d) p q ℓ hp blakeKeys blakeStart x (FindsBlakePreimage p ℓ d) ?_
    · rw [card_words] at h
      exact h
    · rintro E ⟨m, hr, hne, l, h1⟩
      have hr : p.run (Ciphers.ev (allCiphers _ _) E) = m := hr
      rw [hr]
      obtain ⟨t, h3, h4⟩ := blake_ok E (m := m) (by omega)
      have e : t = x := flat_inj ((Except.ok.inj (h4.symm.trans h1)).trans hx.symm)
      refine ⟨length_blakeKeys l, fun e => hne ?_, by rw [← e]; exact h3⟩
      exact blakeKeys_inj (by omega) (by decide) (e.trans (show [] = blakeKeys [] from rfl))
  · rw [Finset.filter_false_of_mem]
    · rw [Finset.card_empty, Nat.mul_zero]
      exact Nat.zero_le _
    · rintro E - ⟨m, -, -, l, h1⟩
      obtain ⟨t, -, h4⟩ := blake_ok E (m := m) (by omega)
      exact hd ⟨t, Except.ok.inj (h4.symm.trans h1)⟩

/-- The same attack. -/
def guessBlake1 : BlakeAttack (List U8) :=
  .ask (.bwd ⟨List.replicate 16 1, by simp⟩ ⟨List.replicate 16 2, by simp⟩) fun x => .ret (x.1.map (BitVec.setWidth 8))

theorem guessBlake1_within : guessBlake1.Within 1 := ⟨0, rfl, fun _ => trivial⟩

example := C111_preimage guessBlake1 1 1 (List.replicate 64 0) guessBlake1_within (by norm_num)

/-- The empty message is a preimage of a known value, for every cipher: the code does not call `compress` for it. -/
theorem C111_empty (E : Words 64 16 → Equiv.Perm (Words 64 16)) : blake E [] = .ok (blakeInitial.flatMap bytesLe64) := by
  obtain ⟨t, h1, h2⟩ := blake_ok E (m := []) (by decide)
  have e : t = blakeStart := (Except.ok.inj (h1.symm.trans (show _ = Except.ok blakeStart from rfl)))
  rw [h2, e]
  rfl

/-- An attack finds another message with the hash value of `m₀`. -/
def FindsBlakeSecond (p : BlakeAttack (List U8)) (ℓ : Nat) (m₀ : List U8) (E : Words 64 16 → Equiv.Perm (Words 64 16)) : Prop :=
  ∃ m d, p.run (Dir.answer E) = m ∧ m₀ ≠ m ∧ m.length ≤ 128 * ℓ ∧ blake E m₀ = .ok d ∧ blake E m = .ok d

open Classical in
/-- **C111.**  Second preimages of a message of at most `ℓ₀` blocks: at most `s (ℓ₀ + 1) 2^512` in `2^1024 - s`, `s = ℓ₀ + q + ℓ`. -/
theorem C111_second (p : BlakeAttack (List U8)) (q ℓ ℓ₀ : Nat) (m₀ : List U8) (hp : p.Within q) (hℓ : ℓ ≤ 2 ^ 55) (hℓ₀ : ℓ₀ ≤ 2 ^ 55)
    (hm₀ : m₀.length ≤ 128 * ℓ₀) :
    ((2 ^ 64) ^ 16 - (ℓ₀ + (q + ℓ))) * (univ.filter (FindsBlakeSecond p ℓ m₀)).card ≤
      (ℓ₀ + (q + ℓ)) * (ℓ₀ + 1) * (2 ^ 64) ^ 8 * Fintype.card (Words 64 16 → Equiv.Perm (Words 64 16)) := by
  have h := cstep_second keyB iniB outB (allCiphers (Words 64 16) (Words 64 16)) iniB_inj (D := (2 ^ 64) ^ 8)
    (fun x d => by convert card_outB x d) (fun y d => by convert card_outB' y d) p q ℓ hp blakeKeys blakeStart (blakeKeys m₀) (FindsBlakeSecond p ℓ m₀) ?_
  · rw [card_words] at h
    have hk := length_blakeKeys hm₀
    refine (Nat.mul_le_mul_right _ (Nat.sub_le_sub_left (Nat.add_le_add_right hk _) _)).trans (h.trans ?_)
    exact Nat.mul_le_mul_right _ (Nat.mul_le_mul_right _ (Nat.mul_le_mul (Nat.add_le_add_right hk _) (Nat.add_le_add_right hk _)))
  · rintro E ⟨m, d, hr, hne, l, h1, h2⟩
    have hr : p.run (Ciphers.ev (allCiphers _ _) E) = m := hr
    rw [hr]
    obtain ⟨t, h3, h4⟩ := blake_ok E (m := m₀) (by omega)
    obtain ⟨t', h3', h4'⟩ := blake_ok E (m := m) (by omega)
    have e : t = t' := flat_inj (Except.ok.inj (h4.symm.trans (h1.trans (h2.symm.trans h4'))))
    exact ⟨length_blakeKeys l, fun e => hne (blakeKeys_inj (by omega) (by omega) e), t, h3, by rw [e]; exact h3'⟩

example := C111_second guessBlake1 1 1 1 [1, 2, 3] guessBlake1_within (by norm_num) (by norm_num) (by simp)

end Hacspec.Props
