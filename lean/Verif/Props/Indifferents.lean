import Mathlib.Data.Set.Finite.List
import Verif.Props.IdealSponges
import Verif.Lemmas.Ideal.KeccakSponge

/-! # C125: SHA-3 and SHAKE with a random permutation in place of Keccak-f are as good as a random function

The construction is `sponge` of C110, which is `keccak` if the permutation is `keccakf1600` (`C110_code`).  Whoever attacks asks for
outputs of any length for messages under any suffix, and applies the permutation and its inverse; or gets random outputs, and the
answers of somebody who knows only the random outputs.  The bound is for all attacks, whatever they want to achieve. -/

namespace Hacspec.Props

open Spec Hacspec.Ideal Finset

/-- A domain suffix and a message of at most `ℓ` blocks. -/
abbrev Message (rate ℓ : Nat) : Type := {z : U8 × List U8 // Fits rate ℓ z.1 z.2}

instance instFiniteMessage (rate ℓ : Nat) [NeZero rate] : Finite (Message rate ℓ) :=
  ((Set.finite_univ (α := U8)).prod (List.finite_length_lt U8 (rate * ℓ))).subset (fun z (h : Fits rate ℓ z.1 z.2) =>
    ⟨trivial, by
      have h1 := Nat.div_add_mod z.2.length rate
      have h2 := Nat.mod_lt z.2.length (Nat.pos_of_neZero rate)
      have h3 := Nat.mul_le_mul_left rate h.2.2
      show z.2.length < rate * ℓ
      rw [Nat.mul_add] at h3
      omega⟩) |>.to_subtype

noncomputable instance instFintypeMessage (rate ℓ : Nat) [NeZero rate] : Fintype (Message rate ℓ) := Fintype.ofFinite _

/-- A question about the outputs: a suffix, a message and a number of bytes, at most `J` blocks. -/
abbrev Request (rate ℓ J : Nat) : Type := Message rate ℓ × Fin (J * rate + 1)

/-- Whoever attacks asks about the permutation and about outputs, and says yes or no. -/
abbrev Distinguisher (rate ℓ J : Nat) : Type := Prog (Dir Unit (Words 64 25) ⊕ Request rate ℓ J) (Words 64 25 ⊕ M (List U8)) Bool

/-- The answers with a permutation. -/
def spongeAnswer {rate ℓ J : Nat} (π : Equiv.Perm (Words 64 25)) : Dir Unit (Words 64 25) ⊕ Request rate ℓ J → Words 64 25 ⊕ M (List U8)
  | .inl d => .inl (d.answer fun _ => π)
  | .inr z => .inr (sponge π rate z.1.1.2 z.1.1.1 z.2)

/-- A function that has `J` blocks of `rate` bytes for each message and suffix. -/
abbrev Blocks (rate ℓ J : Nat) : Type := Message rate ℓ × Fin J → Bytes rate

/-- The first bytes of the blocks of a message. -/
def blocksOutput {rate ℓ J : Nat} (H : Blocks rate ℓ J) (z : Request rate ℓ J) : List U8 :=
  ((List.finRange J).flatMap fun j => (H (z.1, j)).1).take z.2

/-- **C125.**  Somebody who asks a random function at most once per question answers the questions about the permutation so that nobody
sees a difference: with `q` questions about the permutation and `r` about outputs, for messages of at most `ℓ` blocks and outputs of at
most `J`, and `n = q + r (ℓ + J - 1)`, "yes" is said with probabilities that differ by at most `n (n + 1) / 2^(8 (200 - rate))`. -/
theorem C125_indifferentiable (rate ℓ J : Nat) [NeZero rate] (hr2 : rate ≤ 200) (hℓ : ℓ ≤ 2 ^ 55) :
    ∃ sim : Simulator (Words 64 25) (Words 64 25) (Message rate ℓ × Fin J) (Bytes rate),
      (∀ s c d, (sim.answer s c d).Within 1) ∧
      ∀ (a : Distinguisher rate ℓ J) (q r n : Nat), a.Counts q r → n = q + r * (ℓ + (J - 1)) →
        |share (fun π : Equiv.Perm (Words 64 25) => a.run (spongeAnswer π) = true) -
          share (fun ω : Blocks rate ℓ J × (Fin q → Words 64 25) =>
            sim.run ω.1 (fun z => .ok (blocksOutput ω.1 z)) a (List.ofFn ω.2) sim.start = some true)| ≤
          n * (n + 1) * (1 / 256 ^ (200 - rate)) := by
  classical
  have hr : 0 < rate := Nat.pos_of_neZero rate
  let path : Message rate ℓ × Fin J → List (Bytes rate) := fun y => blocksTo hr y.1.1.1 y.1.1.2 y.2
  let S := keccakSponge hr2 path
  let G : Blocks rate ℓ J → Request rate ℓ J → M (List U8) := fun H z => .ok (blocksOutput H z)
  have hS : Lawful S := by
    refine keccakSponge_lawful hr2 ?_ ?_
    · rintro ⟨⟨⟨p, m⟩, h⟩, j⟩ ⟨⟨⟨p', m'⟩, h'⟩, j'⟩ e
      obtain ⟨⟨e1, e2⟩, e3⟩ := blocksTo_inj hr h.1 h.2.1 h'.1 h'.2.1 e
      exact Prod.ext (Subtype.ext (Prod.ext e1 e2)) (Fin.ext e3)
    · intro y h
      exact spongeKeys_ne_nil hr _ _ (List.append_eq_nil_iff.mp h).1
  have hrun : ∀ π, spongeEv S G π = spongeAnswer π := by
    intro π
    funext x
    cases x with
    | inl d => rfl
    | inr z =>
      have h := sponge_value hr hr2 path π z.1.1.1 z.1.1.2 (fits_length hr hr2 hℓ z.1.2) (fun j : Fin J => (z.1, j)) (fun j => rfl)
        (Nat.le_of_lt_succ z.2.2)
      exact congrArg Sum.inr h.symm
  refine ⟨simulatorOf S, simulatorOf_within S, fun a q r n ha hn => ?_⟩
  have h := simulator_close S G hS (full := fun z : Request rate ℓ J => blocksTo hr z.1.1.1 z.1.1.2 (J - 1))
    (pts := fun z => (List.finRange J).map fun j => (z.1, j)) (ℓ := ℓ + (J - 1)) (fun z => ?_) (fun z y hy => ?_) (fun z H H' e => ?_)
    (keccakSponge_inner hr2 path) ha hn
  · simp only [hrun] at h
    exact h
  · rw [blocksTo, List.length_append, List.length_replicate, length_spongeKeys]
    have := z.1.2.2.2
    omega
  · obtain ⟨j, -, rfl⟩ := List.mem_map.mp hy
    refine List.prefix_append_right_inj _ |>.mpr ?_
    exact ⟨List.replicate (J - 1 - j) (zeroK rate), by rw [← List.replicate_add]; congr 1; have := j.2; show (j : Nat) + (J - 1 - j) = J - 1; omega⟩
  · have e' : ∀ j, H (z.1, j) = H' (z.1, j) := fun j => e _ (List.mem_map.mpr ⟨j, List.mem_finRange j, rfl⟩)
    simp only [G, blocksOutput, e']

/-- An attack that compares an output with one that it computes from the permutation. -/
def compareSponge (z : Request 136 1 1) (x : Words 64 25) (test : Words 64 25 → List U8 → Bool) : Distinguisher 136 1 1 :=
  .ask (.inl (.fwd () x)) fun y => .ask (.inr z) fun o => .ret (match y, o with
    | .inl y, .inr (.ok o) => test y o
    | _, _ => false)

example (z : Request 136 1 1) (x : Words 64 25) (test : Words 64 25 → List U8 → Bool) : (compareSponge z x test).Counts 1 1 :=
  ⟨0, rfl, fun _ => ⟨0, rfl, fun _ => trivial⟩⟩

example : Request 136 1 1 := (⟨(6#8, [1, 2, 3]), by decide, by decide, by decide⟩, 32)

/-- SHA3-256, for messages of at most `2^20` blocks. -/
example := C125_indifferentiable 136 (2 ^ 20) 1 (by norm_num) (by norm_num)

/-- SHAKE128, with outputs of at most 10 blocks. -/
example := C125_indifferentiable 168 (2 ^ 20) 10 (by norm_num) (by norm_num)

end Hacspec.Props
