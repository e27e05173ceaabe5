import Verif.Lemmas.KeccakDegree

/-! # C123: sums of states through rounds of Keccak-f[1600] -/

namespace Hacspec.Props

open Hacspec.Fips202 Hacspec.Spec.Fips202

/-- **C123** The states after `n` rounds, from any round on, have the sum 0 if the states before run through an affine space of
dimension more than `2^n`. -/
theorem C123_forward {i n : Nat} (h : i + n ≤ 24) {s : List U64} (hs : s.length = 25) {vs : List (List U64)}
    (hv : ∀ v ∈ vs, v.length = 25) (hl : 2 ^ n < vs.length) {outs : List (List U64)}
    (ho : List.Forall₂ (fun t u => loop n (fun j => roundStep (i + j)) t = .ok u) (space s vs) outs) :
    total outs = List.replicate 25 0 := some_zero h hs hv hl ho

/-- **C123** The states before `n` rounds have the sum 0 if the states after run through an affine space of dimension more than `3^n`. -/
theorem C123_backward {i n : Nat} (h : i + n ≤ 24) {s : List U64} (hs : s.length = 25) {vs : List (List U64)}
    (hv : ∀ v ∈ vs, v.length = 25) (hl : 3 ^ n < vs.length) {ins : List (List U64)} (hi : ∀ t ∈ ins, t.length = 25)
    (ho : List.Forall₂ (fun u t => loop n (fun j => roundStep (i + j)) t = .ok u) (space s vs) ins) :
    total ins = List.replicate 25 0 := some_zero_inv h hs hv hl hi ho

/-- **C123** For `b + a` rounds and `k` more than `3^b` and `2^a` there are `2^k` different states whose sum is 0 and whose sum after the
rounds is 0, and they may go through any given state after `b` rounds. -/
theorem C123_zero_sums {i a b k : Nat} (h : i + (b + a) ≤ 24) (ha : 2 ^ a < k) (hb : 3 ^ b < k) (hk : k ≤ 1600) {s : List U64}
    (hs : s.length = 25) : ∃ ins outs : List (List U64), ins.length = 2 ^ k ∧ ins.Nodup ∧
      List.Forall₂ (fun t u => t.length = 25 ∧ loop (b + a) (fun j => roundStep (i + j)) t = .ok u) ins outs ∧
      total ins = List.replicate 25 0 ∧ total outs = List.replicate 25 0 := zero_sums h ha hb hk hs

/-- Sixteen of the 24 rounds: `2^1025` states out of `2^1600`. -/
example : ∃ ins outs : List (List U64), ins.length = 2 ^ 1025 ∧ ins.Nodup ∧
    List.Forall₂ (fun t u => t.length = 25 ∧ loop (6 + 10) (fun j => roundStep (0 + j)) t = .ok u) ins outs ∧
    total ins = List.replicate 25 0 ∧ total outs = List.replicate 25 0 :=
  C123_zero_sums (by decide) (by decide) (by decide) (by decide) (s := List.replicate 25 0) rfl

/-- The rounds are those of `keccakf1600`. -/
theorem C123_rounds (s : List U64) (n : Nat) (h : n ≤ 24) :
    keccakf1600 s = loop n (fun j => roundStep (0 + j)) s >>= loop (24 - n) (fun j => roundStep (n + j)) := by
  have e : (fun j => roundStep (0 + j)) = roundStep := by funext j; rw [Nat.zero_add]
  rw [keccakf1600, e, ← loop_add, Nat.add_sub_cancel' h]

/-- The state after the first round. -/
def afterOne (t : List U64) : List U64 :=
  match loop 1 (fun j => roundStep (0 + j)) t with
  | .ok u => u
  | .error _ => []

theorem afterOne_ok {l : List (List U64)} (hm : ∀ t ∈ l, t.length = 25) :
    List.Forall₂ (fun t u => loop 1 (fun j => roundStep (0 + j)) t = .ok u) l (l.map afterOne) := by
  induction l with
  | nil => exact .nil
  | cons t l ih =>
    refine .cons ?_ (ih fun u hu => hm u (by simp [hu]))
    obtain ⟨u, hu, -⟩ := some_refines (i := 0) (n := 1) (by decide) t (hm t (by simp))
    simp only at hu
    simp only [afterOne, hu]

/-- One round and three directions. -/
example : total ((space (List.replicate 25 7) [unit 0, unit 15, unit 1000]).map afterOne) = List.replicate 25 0 := by
  have hv : ∀ v ∈ [unit 0, unit 15, unit 1000], v.length = 25 := by simp [length_unit]
  exact C123_forward (i := 0) (n := 1) (by decide) rfl hv (by decide) (afterOne_ok (length_space_mem (s := List.replicate 25 7) rfl hv))

/-- **C123** One round and two directions: the sum is not 0, so the degree of a round is not less than 2. -/
theorem C123_sharp : ∃ (s : List U64) (vs outs : List (List U64)), s.length = 25 ∧ (∀ v ∈ vs, v.length = 25) ∧ vs.length = 2 ^ 1 ∧
    List.Forall₂ (fun t u => loop 1 (fun j => roundStep (0 + j)) t = .ok u) (space s vs) outs ∧
    total outs ≠ List.replicate 25 0 := by
  have hv : ∀ v ∈ [unit 0, unit 15], v.length = 25 := by simp [length_unit]
  refine ⟨List.replicate 25 0, [unit 0, unit 15], (space (List.replicate 25 0) [unit 0, unit 15]).map afterOne, rfl, hv, rfl, ?_, ?_⟩
  · exact afterOne_ok (length_space_mem (s := List.replicate 25 0) rfl hv)
  · decide +kernel

end Hacspec.Props
