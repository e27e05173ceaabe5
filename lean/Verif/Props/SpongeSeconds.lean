import Verif.Props.IdealSponges
import Verif.Lemmas.Ideal.SpongeSecond

/-! # C124: second preimages of SHA-3 and SHAKE with a random permutation in place of Keccak-f

The attacked function is `sponge` of C110, which is `keccak` if the permutation is `keccakf1600` (`C110_code`). -/

namespace Hacspec.Props

open Spec Hacspec.Ideal Finset

/-- An attack finds another message, or another suffix, with the output of `m₀` under `p₀`. -/
def FindsSpongeSecond (rate n : Nat) (a : SpongeAttack (U8 × List U8)) (ℓ : Nat) (p₀ : U8) (m₀ : List U8)
    (π : Equiv.Perm (Words 64 25)) : Prop :=
  ∃ p m d, a.run (Dir.answer fun _ => π) = (p, m) ∧ (p, m) ≠ (p₀, m₀) ∧ Fits rate ℓ p m ∧
    sponge π rate m₀ p₀ n = .ok d ∧ sponge π rate m p n = .ok d

open Classical in
/-- **C124.**  Second preimages of a message of `ℓ₀` blocks: at most
`s (s + 1) 2^(8 rate) + (ℓ₀ (ℓ₀ - 1) / 2 + q + ℓ) 2^(1600 - 8 min(n, rate))` in `2^1600 - s`, `s = ℓ₀ + q + ℓ`.  A question hits the
output of `m₀` as rarely as a given output (`C110_preimage`): that `m₀` is long does not make a second preimage easier to find. -/
theorem C124_second (rate n : Nat) (hr : 0 < rate) (hr2 : rate ≤ 200) (a : SpongeAttack (U8 × List U8)) (q ℓ ℓ₀ : Nat)
    (p₀ : U8) (m₀ : List U8) (ha : a.Within q) (hℓ : ℓ ≤ 2 ^ 55) (hℓ₀ : ℓ₀ ≤ 2 ^ 55) (hp₀ : p₀ ≠ 0#8) (hp₀' : p₀ < 128#8)
    (hm₀ : m₀.length / rate + 1 = ℓ₀) :
    2 * (256 ^ 200 - (ℓ₀ + (q + ℓ))) * (univ.filter (FindsSpongeSecond rate n a ℓ p₀ m₀)).card ≤
      (2 * ((ℓ₀ + (q + ℓ)) * (ℓ₀ + (q + ℓ) + 1)) * 256 ^ rate + (ℓ₀ * (ℓ₀ - 1) + 2 * (q + ℓ)) * 256 ^ (200 - min n rate)) *
        Fintype.card (Equiv.Perm (Words 64 25)) := by
  have hf₀ : Fits rate ℓ₀ p₀ m₀ := ⟨hp₀, hp₀', hm₀.le⟩
  have hl : (spongeKeys hr p₀ m₀).length = ℓ₀ := (length_spongeKeys hr p₀ m₀).trans hm₀
  have h := sponge_second (mixK hr2) (innerK rate) ⟨List.replicate 25 0, by simp⟩ (outK (min n rate)) (A := 256 ^ rate)
    (C := 256 ^ (200 - min n rate)) (innerK_mix hr2) (mixK_inj hr2) (fun v => by convert card_inner v)
    (fun d => by convert card_out d) (spongeKeys hr p₀ m₀) (spongeKeys_ne_nil hr p₀ m₀) a q ℓ ha (fun o => spongeKeys hr o.1 o.2)
    (FindsSpongeSecond rate n a ℓ p₀ m₀) ?_
  · rw [card_states, hl] at h
    convert h
  · rintro π ⟨p, m, d, hrun, hne, hf, h0, h1⟩
    obtain ⟨t, o, e1, e2, e3⟩ := sponge_ok π hr hr2 (fits_length hr hr2 hℓ₀ hf₀) p₀ n
    obtain ⟨t', o', e1', e2', e3'⟩ := sponge_ok π hr hr2 (fits_length hr hr2 hℓ hf) p n
    have ho : o = d := Except.ok.inj (e2.symm.trans h0)
    have ho' : o' = d := Except.ok.inj (e2'.symm.trans h1)
    refine ⟨(p, m), hrun, (length_spongeKeys hr p m).trans_le hf.2.2, ?_, spongeKeys_ne_nil hr p m, t, t', e1, e1', ?_⟩
    · intro e
      obtain ⟨e, e'⟩ := spongeKeys_inj hr hf.1 hf.2.1 hf₀.1 hf₀.2.1 e
      exact hne (Prod.ext e e')
    · rw [← e3, ← e3', ho, ho']

example := C124_second 136 32 (by norm_num) (by norm_num) guessSponge1 1 1 8 6#8 (List.replicate 1000 1) guessSponge1_within
  (by norm_num) (by norm_num) (by decide) (by decide) (by rw [List.length_replicate])

end Hacspec.Props
