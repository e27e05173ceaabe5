import Verif.Model.Random

/-! # C85: random arrays and sequences -/

namespace Hacspec.Props

open SecretInt Hacspec.Seq Hacspec.Random

theorem getRandomVec_eq {w : Nat} (l : Nat) (g : Rng w) :
    getRandomVec l g = ((List.range l).map fun i => g.stream (g.taken + i), { g with taken := g.taken + l }) := by
  induction l generalizing g with
  | zero => rfl
  | succ l ih =>
    rw [getRandomVec]
    simp only [ih, next, classify, List.range_succ_eq_map, List.map_cons, List.map_map, Nat.add_zero]
    congr 1
    · congr 1
      apply List.map_congr_left
      intro i _
      show g.stream (g.taken + 1 + i) = g.stream (g.taken + (i + 1))
      rw [Nat.add_assoc, Nat.add_comm 1]
    · rw [Nat.add_assoc, Nat.add_comm 1]

theorem getRandomVecPublic_eq {w : Nat} (l : Nat) (g : Rng w) : getRandomVecPublic l g = getRandomVec l g := by
  induction l generalizing g with
  | zero => rfl
  | succ l ih => rw [getRandomVec, getRandomVecPublic]; simp only [ih, classify]

/-- **C85.**  `random` takes one value of the generator for every element, in order: the result of an array type of length `l`
(secret or public) is `v` exactly if `v` has length `l` and its elements are the next `l` values. -/
theorem C85_array {w : Nat} (l : Nat) (g : Rng w) (v : List (BitVec w)) (g' : Rng w) :
    (arrRandom getRandomVec l g = .ok (v, g') ↔
      g' = ⟨g.stream, g.taken + l⟩ ∧ v.length = l ∧ ∀ i (h : i < v.length), v[i] = g.stream (g.taken + i)) ∧
    arrRandom getRandomVecPublic l g = arrRandom getRandomVec l g := by
  constructor
  · have hl : ((List.range l).map fun i => g.stream (g.taken + i)).length = l := by simp
    rw [arrRandom]
    simp only [getRandomVec_eq, hl, Nat.le_refl, if_true, List.take_of_length_le (Nat.le_of_eq hl)]
    constructor
    · intro h
      injection h with h
      injection h with h1 h2
      subst h1 h2
      exact ⟨rfl, hl, fun i h => by simp⟩
    · rintro ⟨rfl, h2, h3⟩
      congr 2
      refine List.ext_getElem (by omega) fun i h1 h4 => ?_
      rw [h3 i h4]; simp
  · rw [arrRandom, arrRandom]
    simp only [getRandomVecPublic_eq]

/-- **C85.**  The same for sequences of any length. -/
theorem C85_seq (l : Nat) (g : Rng 8) (v : List U8) (g' : Rng 8) :
    seqRandom l g = (v, g') ↔
      g' = ⟨g.stream, g.taken + l⟩ ∧ v.length = l ∧ ∀ i (h : i < v.length), v[i] = g.stream (g.taken + i) := by
  rw [← (C85_array l g v g').1, arrRandom, seqRandom]
  have hl : (getRandomVec l g).1.length = l := by rw [getRandomVec_eq]; simp
  simp only [hl, Nat.le_refl, if_true, List.take_of_length_le (Nat.le_of_eq hl)]
  constructor
  · intro h; rw [h]
  · intro h; injection h

/-- **C85.**  Uniformity: every array of length `l` results from exactly one choice of the `l` values taken, so that it has
the same probability as every other one if the generator is uniform. -/
theorem C85_uniform {w : Nat} (l : Nat) (v : List (BitVec w)) (hv : v.length = l) :
    ∃ r : Fin l → BitVec w, ∀ g : Rng w,
      (∃ g', arrRandom getRandomVec l g = .ok (v, g')) ↔ ∀ i : Fin l, g.stream (g.taken + i) = r i := by
  refine ⟨fun i => v[i.val]'(by omega), fun g => ?_⟩
  constructor
  · rintro ⟨g', h⟩ i
    exact (((C85_array l g v g').1.mp h).2.2 i (by omega)).symm
  · intro h
    exact ⟨_, (C85_array l g v _).1.mpr ⟨rfl, hv, fun i hi => (h ⟨i, by omega⟩).symm⟩⟩

/-- **C85.**  Independence: two calls in a row take disjoint values of the generator. -/
theorem C85_independent {w : Nat} (l k : Nat) (g g' g'' : Rng w) (u v : List (BitVec w))
    (h : arrRandom getRandomVec l g = .ok (u, g')) (h' : arrRandom getRandomVec k g' = .ok (v, g'')) :
    arrRandom getRandomVec (l + k) g = .ok (u ++ v, g'') := by
  obtain ⟨rfl, h1, h2⟩ := (C85_array l g u g').1.mp h
  obtain ⟨rfl, h3, h4⟩ := (C85_array k _ v g'').1.mp h'
  refine (C85_array _ _ _ _).1.mpr ⟨by rw [Nat.add_assoc], by rw [List.length_append, h1, h3], fun i hi => ?_⟩
  by_cases c : i < u.length
  · rw [List.getElem_append_left c, h2 i c]
  · rw [List.length_append] at hi
    rw [List.getElem_append_right (by omega), h4 _ (by omega), h1]
    simp only
    rw [show g.taken + l + (i - l) = g.taken + i by omega]

/-- Three bytes of the stream 5, 6, 7, … after two were taken. -/
example : arrRandom getRandomVec 3 ⟨fun i => BitVec.ofNat 8 (5 + i), 2⟩ = .ok ([7, 8, 9], ⟨fun i => BitVec.ofNat 8 (5 + i), 5⟩) :=
  rfl

end Hacspec.Props
