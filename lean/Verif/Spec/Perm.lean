import Verif.Basic

/-! # Specification: permutations of the states of a fixed length -/

namespace Hacspec.Spec

/-- `f` is defined on all states of `n` elements and permutes them. -/
def Permutes {α : Type} (n : Nat) (f : List α → M (List α)) : Prop :=
  (∀ s, s.length = n → ∃ t, f s = .ok t ∧ t.length = n) ∧
  ∀ t, t.length = n → ∃ s, s.length = n ∧ f s = .ok t ∧ ∀ s', s'.length = n → f s' = .ok t → s' = s

theorem Permutes.bind {α : Type} {n : Nat} {f g : List α → M (List α)} (hf : Permutes n f) (hg : Permutes n g) :
    Permutes n (fun s => f s >>= g) := by
  constructor
  · intro s hs
    obtain ⟨t, h1, h2⟩ := hf.1 s hs
    obtain ⟨u, h3, h4⟩ := hg.1 t h2
    exact ⟨u, by simp only [h1, bind_ok, h3], h4⟩
  · intro u hu
    obtain ⟨t, h1, h2, h3⟩ := hg.2 u hu
    obtain ⟨s, h4, h5, h6⟩ := hf.2 t h1
    refine ⟨s, h4, by simp only [h5, bind_ok, h2], fun s' hs' h => ?_⟩
    obtain ⟨t', h7, h8⟩ := hf.1 s' hs'
    simp only [h7, bind_ok] at h
    exact h6 s' hs' (by rw [h7, h3 t' h8 h])

end Hacspec.Spec
