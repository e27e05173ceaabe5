import Verif.Basic

/-! # Specification: symmetries of the states of the ciphers -/

namespace Hacspec.Spec

/-- `f` is defined on the states of `n` elements, and moving its argument by `g` moves its value by `g`. -/
def Equivariant {α : Type} (n : Nat) (f : List α → M (List α)) (g : List α → List α) : Prop :=
  ∀ s, s.length = n → ∃ t, f s = .ok t ∧ t.length = n ∧ f (g s) = .ok (g t)

/-- A matrix of four rows and columns, row after row: every row is moved cyclically by `k` places. -/
def turnRows {w : Nat} (k : Nat) (s : List (BitVec w)) : List (BitVec w) :=
  (List.range 16).map fun i => s.getD (4 * (i / 4) + (i + k) % 4) 0

/-- A matrix of four rows and columns, column after column: every row is moved cyclically by `k` places. -/
def turnColumns {w : Nat} (k : Nat) (s : List (BitVec w)) : List (BitVec w) :=
  (List.range 16).map fun i => s.getD ((i + 4 * k) % 16) 0

/-- Every word is rotated by `k` bits. -/
def turnWords {w : Nat} (k : Nat) (s : List (BitVec w)) : List (BitVec w) := s.map fun x => x.rotateLeft k

theorem Equivariant.bind {α : Type} {n : Nat} {f h : List α → M (List α)} {g : List α → List α} (hf : Equivariant n f g)
    (hh : Equivariant n h g) : Equivariant n (fun s => f s >>= h) g := by
  intro s hs
  obtain ⟨t, h1, h2, h3⟩ := hf s hs
  obtain ⟨u, h4, h5, h6⟩ := hh t h2
  exact ⟨u, by simp only [h1, bind_ok, h4], h5, by simp only [h3, bind_ok, h6]⟩

end Hacspec.Spec
