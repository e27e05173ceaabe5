import Verif.Lemmas.Ideal.SpongeGame

/-! # Collisions and preimages of a sponge with a random permutation -/

namespace Hacspec.Ideal

open Spec Finset

variable {B X I D O : Type} [Fintype X]
variable (mix : B → X → X) (inner : X → I) (x₀ : X)

theorem two_sum_id (s C : Nat) : 2 * ∑ j ∈ Finset.range s, j * C = s * (s - 1) * C := by
  induction s with
  | zero => simp
  | succ s ih =>
    rw [Finset.sum_range_succ, Nat.mul_add, ih]
    cases s with
    | zero => simp
    | succ s => rw [Nat.add_sub_cancel, Nat.add_sub_cancel]; ring

variable (hmix : ∀ b x, inner (mix b x) = inner x) (hinj : ∀ b b' x, mix b x = mix b' x → b = b')
variable (out : X → D) {A C : Nat}

include hmix hinj

open Classical in
/-- Two lists of blocks with one output. -/
theorem sponge_collision (hA : ∀ v, (univ.filter fun x => inner x = v).card ≤ A) (hC : ∀ d, (univ.filter fun x => out x = d).card ≤ C)
    (p : Prog (Dir Unit X) X O) (q ℓ : Nat) (hp : p.Within q) (g g' : O → List B) (Win : Equiv.Perm X → Prop)
    (hw : ∀ π, Win π → ∃ o, p.run ((allPerms X).ev π) = o ∧ (g o).length ≤ ℓ ∧ (g' o).length ≤ ℓ ∧ g o ≠ g' o ∧ g o ≠ [] ∧ g' o ≠ [] ∧
      ∃ t t', chained (spongeStep mix π) x₀ (g o) = .ok t ∧ chained (spongeStep mix π) x₀ (g' o) = .ok t' ∧ out t = out t') :
    2 * (Fintype.card X - (q + 2 * ℓ)) * (univ.filter Win).card ≤
      (2 * ((q + 2 * ℓ) * (q + 2 * ℓ + 1)) * A + (q + 2 * ℓ) * (q + 2 * ℓ - 1) * C) * Fintype.card (Equiv.Perm X) := by
  let f : O → Prog (Dir Unit X) X Unit := fun o => if (g o).length ≤ ℓ ∧ (g' o).length ≤ ℓ then
    andThen (soak mix (g o) x₀) fun _ => soak mix (g' o) x₀ else .ret ()
  have hf : ∀ o, (f o).Within (2 * ℓ) := by
    intro o
    by_cases h : (g o).length ≤ ℓ ∧ (g' o).length ≤ ℓ
    · simp only [f, if_pos h]
      exact within_mono (within_andThen (soak_within mix _ _) fun _ => soak_within mix _ _) (by omega)
    · simp only [f, if_neg h]
      trivial
  have hW : ∀ ts : List (Unit × X × X), (univ.filter fun y => Forbidden (fun _ => False) (fun y y' => out y = out y') ts y).card ≤
      ts.length * C := by
    intro ts
    have hsub : (univ.filter fun y => Forbidden (fun _ => False) (fun y y' => out y = out y') ts y) ⊆
        (ts.map fun t => out t.2.2).toFinset.biUnion fun d => univ.filter fun y => out y = d := by
      intro y hy
      rcases (Finset.mem_filter.mp hy).2 with h | ⟨t, ht, h⟩
      · exact h.elim
      · refine Finset.mem_biUnion.mpr ⟨out t.2.2, List.mem_toFinset.mpr (List.mem_map.mpr ⟨t, ht, rfl⟩),
          Finset.mem_filter.mpr ⟨Finset.mem_univ _, ?_⟩⟩
        rcases h with h | h
        · exact h
        · exact h.symm
    refine (Finset.card_le_card hsub).trans ((Finset.card_biUnion_le_card_mul _ _ C fun d _ => hC d).trans
      (Nat.mul_le_mul_right _ ?_))
    exact (List.toFinset_card_le _).trans (by rw [List.length_map])
  have hb := sponge_bound (w := fun j => j * C) inner x₀ hA hW (andThen p f) (q + 2 * ℓ) (within_andThen hp hf) Win ?_
  · have e := two_sum_id (q + 2 * ℓ) C
    calc 2 * (Fintype.card X - (q + 2 * ℓ)) * (univ.filter Win).card
        = 2 * ((Fintype.card X - (q + 2 * ℓ)) * (univ.filter Win).card) := by ring
      _ ≤ 2 * (((q + 2 * ℓ) * (q + 2 * ℓ + 1) * A + ∑ j ∈ Finset.range (q + 2 * ℓ), j * C) * Fintype.card (Equiv.Perm X)) :=
          Nat.mul_le_mul_left _ hb
      _ = (2 * ((q + 2 * ℓ) * (q + 2 * ℓ + 1)) * A + 2 * ∑ j ∈ Finset.range (q + 2 * ℓ), j * C) * Fintype.card (Equiv.Perm X) := by
          rw [← Nat.mul_assoc, Nat.mul_add, Nat.mul_assoc 2 _ A]
      _ = _ := by rw [e]
  · intro π hc hπ
    obtain ⟨o, ho, l1, l2, hne, n1, n2, t, t', h1, h2, e⟩ := hw π hπ
    have hs : Soaked mix π ((trace (allPerms X).ev π (andThen p f) []).map triple) x₀ (g o) := by
      intro c hc
      rw [trace_andThen, ho]
      simp only [f]
      rw [if_pos ⟨l1, l2⟩, trace_andThen]
      obtain ⟨u, hu, e⟩ := List.mem_map.mp (soaked_trace mix π (g o) x₀ (trace (allPerms X).ev π p []) c hc)
      exact List.mem_map.mpr ⟨u, subset_trace (allPerms X).ev π _ _ hu, e⟩
    have hs' : Soaked mix π ((trace (allPerms X).ev π (andThen p f) []).map triple) x₀ (g' o) := by
      intro c hc
      rw [trace_andThen, ho]
      simp only [f]
      rw [if_pos ⟨l1, l2⟩, trace_andThen]
      exact soaked_trace mix π (g' o) x₀ _ c hc
    obtain ⟨u, hu, e1, r1⟩ := soaked_last mix inner x₀ hmix hs n1 h1
    obtain ⟨u', hu', e2, r2⟩ := soaked_last mix inner x₀ hmix hs' n2 h2
    have huu := hc.two u hu u' hu' r1 r2 (by rw [e1, e2]; exact e)
    have htt : t = t' := by rw [← e1, ← e2, huu]
    exact hne (soaked_inj mix inner x₀ hmix hinj hc hs hs' h1 (by rw [htt]; exact h2))

omit hinj in
open Classical in
/-- A list of blocks with a given output. -/
theorem sponge_preimage (hA : ∀ v, (univ.filter fun x => inner x = v).card ≤ A) (d : D) (hC : (univ.filter fun x => out x = d).card ≤ C)
    (p : Prog (Dir Unit X) X O) (q ℓ : Nat) (hp : p.Within q) (g : O → List B) (Win : Equiv.Perm X → Prop)
    (hw : ∀ π, Win π → ∃ o, p.run ((allPerms X).ev π) = o ∧ (g o).length ≤ ℓ ∧ g o ≠ [] ∧
      ∃ t, chained (spongeStep mix π) x₀ (g o) = .ok t ∧ out t = d) :
    (Fintype.card X - (q + ℓ)) * (univ.filter Win).card ≤
      ((q + ℓ) * (q + ℓ + 1) * A + (q + ℓ) * C) * Fintype.card (Equiv.Perm X) := by
  let f : O → Prog (Dir Unit X) X Unit := fun o => if (g o).length ≤ ℓ then soak mix (g o) x₀ else .ret ()
  have hf : ∀ o, (f o).Within ℓ := by
    intro o
    by_cases h : (g o).length ≤ ℓ
    · simp only [f, if_pos h]
      exact within_mono (soak_within mix _ _) h
    · simp only [f, if_neg h]
      trivial
  have hW : ∀ ts : List (Unit × X × X), (univ.filter fun y => Forbidden (fun y => out y = d) (fun _ _ => False) ts y).card ≤ C := by
    intro ts
    refine (Finset.card_le_card fun y hy => ?_).trans hC
    rcases (Finset.mem_filter.mp hy).2 with h | ⟨t, ht, h | h⟩
    · exact Finset.mem_filter.mpr ⟨Finset.mem_univ _, h⟩
    · exact h.elim
    · exact h.elim
  have hb := sponge_bound (w := fun _ => C) inner x₀ hA hW (andThen p f) (q + ℓ) (within_andThen hp hf) Win ?_
  · rw [Finset.sum_const_nat (m := C) fun _ _ => rfl, Finset.card_range] at hb
    exact hb
  · intro π hc hπ
    obtain ⟨o, ho, l1, n1, t, h1, e⟩ := hw π hπ
    have hs : Soaked mix π ((trace (allPerms X).ev π (andThen p f) []).map triple) x₀ (g o) := by
      intro c hc
      rw [trace_andThen, ho]
      simp only [f]
      rw [if_pos l1]
      exact soaked_trace mix π (g o) x₀ _ c hc
    obtain ⟨u, hu, e1, r1⟩ := soaked_last mix inner x₀ hmix hs n1 h1
    exact hc.one u hu r1 (by rw [e1]; exact e)

end Hacspec.Ideal
