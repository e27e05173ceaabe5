import Verif.Lemmas.Ideal.Keccak
import Verif.Lemmas.Ideal.SpongeAttack

/-! # C110: SHA-3 and SHAKE with a random permutation in place of Keccak-f

The permutation is any permutation of the states; whoever attacks may apply it and its inverse.  The statements count the
permutations with which an attack succeeds. -/

namespace Hacspec.Props

open Spec Hacspec.Ideal Finset

/-- The questions and answers about the permutation. -/
abbrev SpongeAttack (O : Type) : Type := Prog (Dir Unit (Words 64 25)) (Words 64 25) O

/-- **C110.**  `keccakf1600` is one of these permutations: with it, the attacked function is `keccak`. -/
theorem C110_code : ∃ π : Equiv.Perm (Words 64 25), (∀ s, Hacspec.Fips202.keccakf1600 s.1 = .ok (π s).1) ∧
    ∀ (rate : Nat) (m : List U8) (p : U8) (n : Nat), 0 < rate → rate ≤ 200 → m.length + rate < 2 ^ 64 →
      sponge π rate m p n = Hacspec.Fips202.keccak rate m p n := by
  obtain ⟨π, h⟩ := perm_of_permutes C48_permutation
  exact ⟨π, h, fun rate m p n hr hr2 hm => sponge_agree h hr hr2 hm p n⟩

/-- A message of at most `ℓ` blocks with a domain suffix `p`; it is hashed in one more block than it fills. -/
def Fits (rate ℓ : Nat) (p : U8) (m : List U8) : Prop := p ≠ 0#8 ∧ p < 128#8 ∧ m.length / rate + 1 ≤ ℓ

/-- An attack finds two messages, or two suffixes, with one output of `n` bytes. -/
def FindsSpongeCollision (rate n : Nat) (a : SpongeAttack ((U8 × List U8) × (U8 × List U8))) (ℓ : Nat)
    (π : Equiv.Perm (Words 64 25)) : Prop :=
  ∃ p m p' m' d, a.run (Dir.answer fun _ => π) = ((p, m), (p', m')) ∧ (p, m) ≠ (p', m') ∧ Fits rate ℓ p m ∧ Fits rate ℓ p' m' ∧
    sponge π rate m p n = .ok d ∧ sponge π rate m' p' n = .ok d

theorem card_states : Fintype.card (Words 64 25) = 256 ^ 200 := by
  rw [card_words]
  decide +kernel

theorem fits_length {rate ℓ : Nat} (hr : 0 < rate) (hr2 : rate ≤ 200) (hℓ : ℓ ≤ 2 ^ 55) {p : U8} {m : List U8} (h : Fits rate ℓ p m) :
    m.length + rate < 2 ^ 64 := by
  have h1 := Nat.div_add_mod m.length rate
  have h2 := Nat.mod_lt m.length hr
  have h3 : rate * (m.length / rate) ≤ 200 * 2 ^ 55 := Nat.mul_le_mul hr2 (by have := h.2.2; omega)
  omega

theorem spongeKeys_ne_nil {rate : Nat} (hr : 0 < rate) (p : U8) (m : List U8) : spongeKeys hr p m ≠ [] := by
  intro h
  have := congrArg List.length h
  rw [length_spongeKeys] at this
  simp at this

open Classical in
/-- **C110.**  Collisions of outputs of `n` bytes, for every rate: with `q` questions and messages of at most `ℓ` blocks,
`s = q + 2 ℓ`, they are found for at most `s (s + 1) 2^(8 rate) + s (s - 1) / 2 * 2^(1600 - 8 min(n, rate))` in `2^1600 - s` of all
permutations.  Messages under different suffixes count. -/
theorem C110_collision (rate n : Nat) (hr : 0 < rate) (hr2 : rate ≤ 200) (a : SpongeAttack ((U8 × List U8) × (U8 × List U8)))
    (q ℓ : Nat) (ha : a.Within q) (hℓ : ℓ ≤ 2 ^ 55) :
    2 * (256 ^ 200 - (q + 2 * ℓ)) * (univ.filter (FindsSpongeCollision rate n a ℓ)).card ≤
      (2 * ((q + 2 * ℓ) * (q + 2 * ℓ + 1)) * 256 ^ rate + (q + 2 * ℓ) * (q + 2 * ℓ - 1) * 256 ^ (200 - min n rate)) *
        Fintype.card (Equiv.Perm (Words 64 25)) := by
  have h := sponge_collision (mixK hr2) (innerK rate) ⟨List.replicate 25 0, by simp⟩ (innerK_mix hr2) (mixK_inj hr2)
    (outK (min n rate)) (A := 256 ^ rate) (C := 256 ^ (200 - min n rate)) (fun v => by convert card_inner v)
    (fun d => by convert card_out d) a q ℓ ha (fun o => spongeKeys hr o.1.1 o.1.2) (fun o => spongeKeys hr o.2.1 o.2.2)
    (FindsSpongeCollision rate n a ℓ) ?_
  · rw [card_states] at h
    convert h
  · rintro π ⟨p, m, p', m', d, hrun, hne, hf, hf', h1, h2⟩
    obtain ⟨t, o, e1, e2, e3⟩ := sponge_ok π hr hr2 (fits_length hr hr2 hℓ hf) p n
    obtain ⟨t', o', e1', e2', e3'⟩ := sponge_ok π hr hr2 (fits_length hr hr2 hℓ hf') p' n
    have ho : o = d := Except.ok.inj (e2.symm.trans h1)
    have ho' : o' = d := Except.ok.inj (e2'.symm.trans h2)
    refine ⟨((p, m), (p', m')), hrun, ?_, ?_, ?_, spongeKeys_ne_nil hr p m, spongeKeys_ne_nil hr p' m', t, t', e1, e1', ?_⟩
    · exact (length_spongeKeys hr p m).trans_le hf.2.2
    · exact (length_spongeKeys hr p' m').trans_le hf'.2.2
    · intro e
      obtain ⟨e, e'⟩ := spongeKeys_inj hr hf.1 hf.2.1 hf'.1 hf'.2.1 e
      exact hne (Prod.ext e e')
    · rw [← e3, ← e3', ho, ho']

/-- An attack that guesses: one question, and two messages that depend on the answer. -/
def guessSponge : SpongeAttack ((U8 × List U8) × (U8 × List U8)) :=
  .ask (.bwd () ⟨List.replicate 25 2, by simp⟩) fun x => .ret ((6, [1]), (31, x.1.map (BitVec.setWidth 8)))

theorem guessSponge_within : guessSponge.Within 1 := ⟨0, rfl, fun _ => trivial⟩

example : Fits 136 1 6#8 [1, 2, 3] := ⟨by decide, by decide, by decide⟩

example := C110_collision 136 32 (by norm_num) (by norm_num) guessSponge 1 1 guessSponge_within (by norm_num)

/-- An attack finds a message with the output `d`. -/
def FindsSpongePreimage (rate n : Nat) (a : SpongeAttack (U8 × List U8)) (ℓ : Nat) (d : List U8) (π : Equiv.Perm (Words 64 25)) : Prop :=
  ∃ p m, a.run (Dir.answer fun _ => π) = (p, m) ∧ Fits rate ℓ p m ∧ sponge π rate m p n = .ok d

open Classical in
/-- **C110.**  Preimages of a given output: at most `s (s + 1) 2^(8 rate) + s 2^(1600 - 8 min(n, rate))` in `2^1600 - s`, `s = q + ℓ`. -/
theorem C110_preimage (rate n : Nat) (hr : 0 < rate) (hr2 : rate ≤ 200) (a : SpongeAttack (U8 × List U8)) (q ℓ : Nat)
    (d : List U8) (ha : a.Within q) (hℓ : ℓ ≤ 2 ^ 55) :
    (256 ^ 200 - (q + ℓ)) * (univ.filter (FindsSpongePreimage rate n a ℓ d)).card ≤
      ((q + ℓ) * (q + ℓ + 1) * 256 ^ rate + (q + ℓ) * 256 ^ (200 - min n rate)) * Fintype.card (Equiv.Perm (Words 64 25)) := by
  have h := sponge_preimage (mixK hr2) (innerK rate) ⟨List.replicate 25 0, by simp⟩ (innerK_mix hr2)
    (outK (min n rate)) (A := 256 ^ rate) (C := 256 ^ (200 - min n rate)) (fun v => by convert card_inner v)
    (d.take (min n rate)) (by convert card_out (d.take (min n rate))) a q ℓ ha (fun o => spongeKeys hr o.1 o.2)
    (FindsSpongePreimage rate n a ℓ d) ?_
  · rw [card_states] at h
    convert h
  · rintro π ⟨p, m, hrun, hf, h1⟩
    obtain ⟨t, o, e1, e2, e3⟩ := sponge_ok π hr hr2 (fits_length hr hr2 hℓ hf) p n
    have ho : o = d := Except.ok.inj (e2.symm.trans h1)
    exact ⟨(p, m), hrun, (length_spongeKeys hr p m).trans_le hf.2.2, spongeKeys_ne_nil hr p m, t, e1, by rw [← e3, ho]⟩

/-- The same attack. -/
def guessSponge1 : SpongeAttack (U8 × List U8) :=
  .ask (.bwd () ⟨List.replicate 25 2, by simp⟩) fun x => .ret (6, x.1.map (BitVec.setWidth 8))

theorem guessSponge1_within : guessSponge1.Within 1 := ⟨0, rfl, fun _ => trivial⟩

example := C110_preimage 136 32 (by norm_num) (by norm_num) guessSponge1 1 1 (List.replicate 32 0) guessSponge1_within (by norm_num)

theorem mixK_surj (s t : Words 64 25) : ∃ b : Bytes 200, mixK (rate := 200) (Nat.le_refl 200) b s = t := by
  have hb : Function.Bijective fun b : Bytes 200 => mixK (rate := 200) (Nat.le_refl 200) b s :=
    (Fintype.bijective_iff_injective_and_card _).mpr
      ⟨fun b b' => mixK_inj (rate := 200) (Nat.le_refl 200) b b' s, by rw [card_states, card_bytes]⟩
  exact hb.2 t

theorem two_blocks (p : U8) (b c : Bytes 200) : spongeBlocks 200 p (b.1 ++ c.1) = [b.1, c.1, Hacspec.Fips202.padBytes p 200] := by
  have hb := b.2
  have hc := c.2
  have hl : (b.1 ++ c.1).length = 400 := by rw [List.length_append, hb, hc]
  rw [spongeBlocks_eq (by decide), hl]
  have e0 : (b.1 ++ c.1).take 200 = b.1 := by rw [List.take_append_of_le_length (by omega), List.take_of_length_le (by omega)]
  have e1 : ((b.1 ++ c.1).drop 200).take 200 = c.1 := by
    rw [List.drop_append_of_le_length (by omega), List.drop_of_length_le (by omega), List.nil_append, List.take_of_length_le (by omega)]
  have e2 : (b.1 ++ c.1).drop 400 = [] := List.drop_of_length_le (by omega)
  simp only [Nat.reduceDiv, Nat.reduceMod, Nat.reduceMul, List.range_succ, List.range_zero, List.nil_append, List.map_append, List.map_cons,
    List.map_nil, Nat.mul_zero, Nat.mul_one, List.drop_zero, e0, e1, e2, List.cons_append, Nat.sub_zero]

/-- **C110.**  The capacity is needed: if no byte of the state is hidden (`rate = 200`), a block can be chosen after the state is known,
and two different messages of two blocks have one output; for every permutation. -/
theorem C110_no_capacity (π : Equiv.Perm (Words 64 25)) (p : U8) (n : Nat) : ∃ m m' d, m.length = 400 ∧ m'.length = 400 ∧ m ≠ m' ∧
    sponge π 200 m p n = .ok d ∧ sponge π 200 m' p n = .ok d := by
  let x₀ : Words 64 25 := ⟨List.replicate 25 0, by simp⟩
  let b : Bytes 200 := ⟨List.replicate 200 0, List.length_replicate⟩
  let b' : Bytes 200 := ⟨List.replicate 200 1, List.length_replicate⟩
  have hr : (200 : Nat) ≤ 200 := Nat.le_refl 200
  let t := mixK hr b (π (mixK hr b x₀))
  obtain ⟨c, hc⟩ := mixK_surj (π (mixK hr b' x₀)) t
  let k : Bytes 200 := ⟨Hacspec.Fips202.padBytes p 200, Hacspec.Fips202.length_padBytes p (by decide)⟩
  have hl : ∀ a c : Bytes 200, (a.1 ++ c.1).length = 400 := fun a c => by rw [List.length_append, a.2, c.2]
  obtain ⟨o, ho, -⟩ := squeezed π (rate := 200) (by decide) hr (π (mixK hr k (π t))) n
  have key : ∀ a c : Bytes 200, mixK hr c (π (mixK hr a x₀)) = t → sponge π 200 (a.1 ++ c.1) p n = .ok o := by
    intro a c e
    obtain ⟨u, h1, h2⟩ := chained_sponge hr π [a, c, k] x₀
    have hu : u = π (mixK hr k (π t)) := by
      have h1' : Except.ok (π (mixK hr k (π (mixK hr c (π (mixK hr a x₀)))))) = Except.ok (ε := Fail) u := h1
      rw [e] at h1'
      exact (Except.ok.inj h1').symm
    rw [sponge, keccakWith_chain (by decide) _ (by rw [hl]; decide), two_blocks]
    have h2 : chained (absorbingWith (keccakPerm π)) (List.replicate 25 0) [a.1, c.1, Hacspec.Fips202.padBytes p 200] = .ok u.1 := h2
    rw [h2, bind_ok, hu, ho]
  refine ⟨b.1 ++ b.1, b'.1 ++ c.1, o, hl _ _, hl _ _, fun e => ?_, key b b rfl, key b' c hc⟩
  have e : (b.1 ++ b.1).getD 0 0 = (b'.1 ++ c.1).getD 0 0 := congrArg (fun l => l.getD 0 0) e
  have e0 : (b.1 ++ b.1).getD 0 0 = (0 : U8) := rfl
  have e1 : (b'.1 ++ c.1).getD 0 0 = (1 : U8) := rfl
  rw [e0, e1] at e
  exact absurd e (by decide)

end Hacspec.Props
