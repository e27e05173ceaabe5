import Verif.Props.Polys
import Verif.Lemmas.PolyInv
import Mathlib.Algebra.Polynomial.SpecificDegree

/-! # Property theorems C79: inversion of polynomials -/

namespace Hacspec.Props

open MachineInt Hacspec.Poly Hacspec.Spec Polynomial

variable {w : Nat} {N : NumOps w} {val : BitVec w → Int} {lo B : Int}

/-- Degree and leading coefficient of a reduced polynomial, in terms of the coefficients. -/
theorem reduced_top {m : Nat} {y : List (BitVec w)} (hy : Red val m y) (hd : 0 < (polyOf (ZMod m) (y.map val)).natDegree) :
    at' val y (polyOf (ZMod m) (y.map val)).natDegree ≠ 0 ∧
      ∀ k, (polyOf (ZMod m) (y.map val)).natDegree < k → at' val y k = 0 := by
  constructor
  · intro h
    have e : (pol (ZMod m) val y).leadingCoeff = 0 := by
      rw [leadingCoeff, coeff_pol]
      show ((at' val y (polyOf (ZMod m) (y.map val)).natDegree : Int) : ZMod m) = 0
      rw [h, Int.cast_zero]
    rw [leadingCoeff_eq_zero] at e
    change 0 < (pol (ZMod m) val y).natDegree at hd
    rw [e] at hd; simp at hd
  · intro k hk
    exact hy.eq_zero (coeff_eq_zero_of_natDegree_lt hk)

theorem isCoprime_iff {R : Type} [CommRing R] (y x : R[X]) : IsCoprime y x ↔ ∃ z, y ∣ x * z - 1 := by
  constructor
  · rintro ⟨a, b, h⟩; exact ⟨b, -a, by linear_combination h⟩
  · rintro ⟨z, c, h⟩; exact ⟨-c, z, by linear_combination h⟩

theorem euclid_cases (hw : 1 < w) (h128 : w ≤ 128) (T : Coeff N val lo B) {m : Nat} (hm : 1 < m) {n : BitVec w}
    (hn : val n = m) (hB : (m : Int) * m ≤ B) {x y : List (BitVec w)} (hx : Reduced val m x) (hy : Reduced val m y)
    (hd : 0 < (polyOf (ZMod m) (y.map val)).natDegree) (hxl : x.length ≤ (polyOf (ZMod m) (y.map val)).natDegree) :
    (∃ r, extendedEuclid N x y n = .ok (some r) ∧ r.length = (polyOf (ZMod m) (y.map val)).natDegree ∧ Reduced val m r ∧
      polyOf (ZMod m) (y.map val) ∣ polyOf (ZMod m) (x.map val) * polyOf (ZMod m) (r.map val) - 1) ∨
    ((m.Prime → ¬ ∃ z, polyOf (ZMod m) (y.map val) ∣ polyOf (ZMod m) (x.map val) * z - 1) ∧ extendedEuclid N x y n = .ok none) ∨
    (¬ m.Prime ∧ extendedEuclid N x y n = panic) := by
  have hya : Red val m y := reduced_at (n := m) (by omega) hy
  have hxa : Red val m x := reduced_at (n := m) (by omega) hx
  obtain ⟨h0, ht⟩ := reduced_top hya hd
  rcases extendedEuclid_ok (T.lawful hw h128) hm hn hB hxa hya hd h0 ht hxl with ⟨r, U, h1, h2, h3, h4⟩ | ⟨h1, h2⟩ | h
  · left
    refine ⟨r, h1, h2, reduced_of_at h3, -U, ?_⟩
    show pol _ _ _ * pol _ _ _ - 1 = pol _ _ _ * _
    linear_combination h4
  · right; left
    refine ⟨fun hp => ?_, h2⟩
    rw [← isCoprime_iff]; exact h1 hp
  · right; right; exact h

/-- **C79.**  `extended_euclid` modulo any `n > 1` whose square is representable: a result is an inverse of `x` modulo `y`,
with reduced coefficients.  (`y` not constant, `x` shorter than `y`.) -/
theorem C79_sound (hw : 1 < w) (h128 : w ≤ 128) (T : Coeff N val lo B) (m : Nat) (hm : 1 < m) (n : BitVec w)
    (hn : val n = m) (hB : (m : Int) * m ≤ B) (x y r : List (BitVec w)) (hx : Reduced val m x) (hy : Reduced val m y)
    (hd : 0 < (polyOf (ZMod m) (y.map val)).natDegree) (hxl : x.length ≤ (polyOf (ZMod m) (y.map val)).natDegree)
    (h : extendedEuclid N x y n = .ok (some r)) :
    r.length = (polyOf (ZMod m) (y.map val)).natDegree ∧ Reduced val m r ∧
      polyOf (ZMod m) (y.map val) ∣ polyOf (ZMod m) (x.map val) * polyOf (ZMod m) (r.map val) - 1 := by
  rcases euclid_cases hw h128 T hm hn hB hx hy hd hxl with ⟨r', h1, h2⟩ | ⟨_, h1⟩ | ⟨_, h1⟩
  · rw [h1] at h; injection h with h; injection h with h; subst h; exact h2
  · rw [h1] at h; injection h with h; cases h
  · rw [h1] at h; cases h

/-- **C79.**  Modulo a prime `extended_euclid` decides invertibility: it returns the inverse, which is unique, if there is one and
an error otherwise; it does not panic. -/
theorem C79_prime (hw : 1 < w) (h128 : w ≤ 128) (T : Coeff N val lo B) (m : Nat) (hp : m.Prime) (n : BitVec w)
    (hn : val n = m) (hB : (m : Int) * m ≤ B) (x y : List (BitVec w)) (hx : Reduced val m x) (hy : Reduced val m y)
    (hd : 0 < (polyOf (ZMod m) (y.map val)).natDegree) (hxl : x.length ≤ (polyOf (ZMod m) (y.map val)).natDegree) :
    (∀ z : (ZMod m)[X], polyOf (ZMod m) (y.map val) ∣ polyOf (ZMod m) (x.map val) * z - 1 →
      ∃ r, extendedEuclid N x y n = .ok (some r) ∧ (z.degree < (polyOf (ZMod m) (y.map val)).degree →
        polyOf (ZMod m) (r.map val) = z)) ∧
    ((¬ ∃ z, polyOf (ZMod m) (y.map val) ∣ polyOf (ZMod m) (x.map val) * z - 1) → extendedEuclid N x y n = .ok none) := by
  have : Fact m.Prime := ⟨hp⟩
  rcases euclid_cases hw h128 T hp.one_lt hn hB hx hy hd hxl with ⟨r, h1, h2, _, h3⟩ | ⟨h0, h1⟩ | ⟨h0, _⟩
  · refine ⟨fun z hz => ⟨r, h1, fun hdz => ?_⟩, fun h => absurd ⟨_, h3⟩ h⟩
    have hc := (isCoprime_iff _ _).mpr ⟨_, h3⟩
    have hdvd : polyOf (ZMod m) (y.map val) ∣ polyOf (ZMod m) (r.map val) - z := by
      refine hc.dvd_of_dvd_mul_left ?_
      have := dvd_sub h3 hz
      rwa [show polyOf (ZMod m) (x.map val) * polyOf (ZMod m) (r.map val) - 1 - (polyOf (ZMod m) (x.map val) * z - 1) =
        polyOf (ZMod m) (x.map val) * (polyOf (ZMod m) (r.map val) - z) by ring] at this
    have hy0 : polyOf (ZMod m) (y.map val) ≠ 0 := by intro h; rw [h] at hd; simp at hd
    have hdr : (polyOf (ZMod m) (r.map val)).degree < (polyOf (ZMod m) (y.map val)).degree := by
      rw [degree_eq_natDegree hy0, degree_lt_iff_coeff_zero]
      intro k hk
      show (pol (ZMod m) val r).coeff k = 0
      rw [coeff_pol, at_ge (by omega), Int.cast_zero]
    exact sub_eq_zero.mp (eq_zero_of_dvd_of_degree_lt hdvd ((degree_sub_le _ _).trans_lt (max_lt hdr hdz)))
  · exact ⟨fun z hz => absurd ⟨z, hz⟩ (h0 hp), fun _ => h1⟩
  · exact absurd hp h0

/-- **C79.**  A polynomial with more coefficients than the degree of the modulus, or a constant modulus, panics. -/
theorem C79_long (hw : 1 < w) (h128 : w ≤ 128) (T : Coeff N val lo B) (n : BitVec w) (x y : List (BitVec w))
    (h : (polyOf ℤ (y.map val)).natDegree < x.length ∨ (polyOf ℤ (y.map val)).natDegree = 0) :
    extendedEuclid N x y n = panic := by
  have hl := (C30_leading_coefficient hw h128 T y).1
  rw [extendedEuclid]
  show (require ((leadingCoefficient y).1 ≥ x.length) >>= fun _ => require ((leadingCoefficient y).1 > 0) >>= fun _ => _) = _
  by_cases h1 : (leadingCoefficient y).1 ≥ x.length
  · rw [require_true h1, bind_ok, require_false (by omega), bind_panic]
  · rw [require_false h1, bind_panic]

/-- **C79.**  `inv` of a `poly!` type modulo a prime, whose modulus has the declared degree: the unique inverse of a reduced
value, as a reduced value of the declared length, or a panic if there is none. -/
theorem C79_inv (hw : 1 < w) (h128 : w ≤ 128) (T : Coeff N val lo B) (P : PolyTy w) (m : Nat) (hp : m.Prime)
    (hn : val P.n = m) (hB : (m : Int) * m ≤ B) (f : List (BitVec w)) (hf : irr P = .ok f) (hfr : Reduced val m f)
    (hd : (polyOf (ZMod m) (f.map val)).natDegree = P.l) (hl : 0 < P.l)
    (a : List (BitVec w)) (ha : a.length = P.l) (har : Reduced val m a) :
    ((∃ z, polyOf (ZMod m) (f.map val) ∣ polyOf (ZMod m) (a.map val) * z - 1) → ∃ r, pInv N P a = .ok r ∧ r.length = P.l ∧
      Reduced val m r ∧ polyOf (ZMod m) (f.map val) ∣ polyOf (ZMod m) (a.map val) * polyOf (ZMod m) (r.map val) - 1) ∧
    ((¬ ∃ z, polyOf (ZMod m) (f.map val) ∣ polyOf (ZMod m) (a.map val) * z - 1) → pInv N P a = panic) := by
  rcases euclid_cases hw h128 T hp.one_lt hn hB har hfr (by omega) (by omega) with ⟨r, h1, h2, h3, h4⟩ | ⟨h0, h1⟩ | ⟨h0, _⟩
  · refine ⟨fun _ => ?_, fun h => absurd ⟨_, h4⟩ h⟩
    obtain ⟨r', h5, h6, h7⟩ := fromVec_ok (T.lawful hw h128) hf (v := r) (by omega)
    refine ⟨r', by rw [pInv, hf, bind_ok, h1, bind_ok]; exact h5, h6, reduced_of_at fun k => by
      rw [h7]; exact reduced_at (by have := hp.pos; omega) h3 k, ?_⟩
    have he : polyOf (ZMod m) (r'.map val) = polyOf (ZMod m) (r.map val) := by
      show pol _ _ _ = pol _ _ _
      ext k; rw [coeff_pol, coeff_pol, h7]
    rw [he]; exact h4
  · refine ⟨fun h => absurd h (h0 hp), fun _ => ?_⟩
    rw [pInv, hf, bind_ok, h1, bind_ok]
  · exact absurd hp h0

/-- **C79.**  If moreover the modulus is irreducible, every value but zero has an inverse: the type is a field. -/
theorem C79_field (hw : 1 < w) (h128 : w ≤ 128) (T : Coeff N val lo B) (P : PolyTy w) (m : Nat) (hp : m.Prime)
    (hn : val P.n = m) (hB : (m : Int) * m ≤ B) (f : List (BitVec w)) (hf : irr P = .ok f) (hfr : Reduced val m f)
    (hd : (polyOf (ZMod m) (f.map val)).natDegree = P.l) (hirr : Irreducible (polyOf (ZMod m) (f.map val)))
    (a : List (BitVec w)) (ha : a.length = P.l) (har : Reduced val m a) :
    ((∃ c ∈ a, c ≠ 0#w) → ∃ r, pInv N P a = .ok r ∧ r.length = P.l ∧ Reduced val m r ∧
      polyOf (ZMod m) (f.map val) ∣ polyOf (ZMod m) (a.map val) * polyOf (ZMod m) (r.map val) - 1) ∧
    ((∀ c ∈ a, c = 0#w) → pInv N P a = panic) := by
  have : Fact m.Prime := ⟨hp⟩
  have L := T.lawful hw h128
  have hf0 := hirr.ne_zero
  have hl : 0 < P.l := by rw [← hd]; exact hirr.natDegree_pos
  obtain ⟨h1, h2⟩ := C79_inv hw h128 T P m hp hn hB f hf hfr hd hl a ha har
  have hda : (polyOf (ZMod m) (a.map val)).degree < (polyOf (ZMod m) (f.map val)).degree := by
    rw [degree_eq_natDegree hf0, degree_lt_iff_coeff_zero]
    intro k hk
    show (pol (ZMod m) val a).coeff k = 0
    rw [coeff_pol, at_ge (by omega), Int.cast_zero]
  constructor
  · intro h
    refine h1 ((isCoprime_iff _ _).mp ?_)
    rw [hirr.coprime_iff_not_dvd]
    intro hdvd
    have h0 := eq_zero_of_dvd_of_degree_lt hdvd hda
    obtain ⟨c, hc, hc0⟩ := h
    obtain ⟨k, hk, rfl⟩ := List.mem_iff_getElem.1 hc
    have := (show Red val m a from reduced_at (by have := hp.pos; omega) har).eq_zero (k := k)
      (by show (polyOf (ZMod m) (a.map val)).coeff k = 0; rw [h0, coeff_zero])
    rw [at_lt hk] at this
    exact hc0 (L.inj _ _ (by rw [this, L.zero]))
  · intro h
    refine h2 fun ⟨z, hz⟩ => ?_
    have h0 : polyOf (ZMod m) (a.map val) = 0 := by
      show pol (ZMod m) val a = 0
      ext k
      rw [coeff_pol, at_cases (P := fun z => z = 0) rfl (fun c hc => by
        rw [h c hc, L.zero]) k]
      simp
    rw [h0, zero_mul, zero_sub, dvd_neg] at hz
    exact hirr.not_isUnit (isUnit_of_dvd_one hz)

/-- **C79, refuted** for composite moduli: `1 + 2X²` is its own inverse modulo `X³` over `ℤ₄`, but an error is returned. -/
theorem C79_composite_refuted :
    polyOf (ZMod 4) [0, 0, 0, 1] ∣ polyOf (ZMod 4) [1, 0, 2] * polyOf (ZMod 4) [1, 0, 2] - 1 ∧
    extendedEuclid numPubU [1#128, 0#128, 2#128] [0#128, 0#128, 0#128, 1#128] 4#128 = .ok none := by
  refine ⟨⟨0, ?_⟩, by decide +kernel⟩
  have h4 : (4 : (ZMod 4)[X]) = 0 := by
    have : ((4 : ZMod 4)) = 0 := by decide
    calc (4 : (ZMod 4)[X]) = C (4 : ZMod 4) := (map_ofNat C 4).symm
      _ = 0 := by rw [this, C_0]
  simp only [polyOf]
  push_cast
  simp only [C_0, C_1, C_ofNat]
  linear_combination (X ^ 2 + X ^ 4) * h4

/-- **C79, refuted** for composite moduli: the failure may also be a panic. -/
theorem C79_panic_refuted : extendedEuclid numPubU [2#128] [0#128, 1#128] 4#128 = panic := by decide +kernel

/-! Hypotheses are met: `ℤ₁₁[X]/(X³ + 2X + 2)` of `tests/test_poly.rs`. -/

theorem testRing_poly : (polyOf (ZMod 11) [2, 2, 0, 1]).natDegree = 3 := by
  have e : polyOf (ZMod 11) [2, 2, 0, 1] = X ^ 3 + C 2 * X + C 2 := by
    simp only [polyOf]; push_cast; simp only [C_0, C_1]; ring
  rw [e]
  have : (1 : ZMod 11) ≠ 0 := by decide
  compute_degree!

theorem testRing_roots : ∀ x : ZMod 11, x ^ 3 + 2 * x + 2 ≠ 0 := by decide +kernel

theorem testRing_irreducible : Irreducible (polyOf (ZMod 11) [2, 2, 0, 1]) := by
  have : Fact (Nat.Prime 11) := ⟨by decide⟩
  have e : polyOf (ZMod 11) [2, 2, 0, 1] = X ^ 3 + C 2 * X + C 2 := by
    simp only [polyOf]; push_cast; simp only [C_0, C_1]; ring
  have h0 : polyOf (ZMod 11) [2, 2, 0, 1] ≠ 0 := by intro h; have := testRing_poly; rw [h] at this; simp at this
  refine (irreducible_iff_roots_eq_zero_of_degree_le_three (by rw [testRing_poly]; decide) (by rw [testRing_poly])).mpr ?_
  rw [Multiset.eq_zero_iff_forall_notMem]
  intro x hx
  rw [mem_roots h0, e, IsRoot.def] at hx
  simp only [eval_add, eval_mul, eval_pow, eval_X, eval_C] at hx
  exact testRing_roots x hx

example := C79_field (w := 128) (by decide) (by decide) Coeff.pubU testRing 11 (by decide) (by decide) (by decide)
    [2#128, 2#128, 0#128, 1#128] rfl (by simp [Reduced]) testRing_poly testRing_irreducible [1#128, 0#128, 2#128] rfl
    (by simp [Reduced])

example : pInv numPubU testRing [1#128, 0#128, 2#128] = .ok [8#128, 10#128, 9#128] := by decide +kernel

example := C79_inv (w := 128) (by decide) (by decide) Coeff.pubU testRing 11 (by decide) (by decide) (by decide)
    [2#128, 2#128, 0#128, 1#128] rfl (by simp [Reduced]) testRing_poly (by decide) [1#128, 0#128, 2#128] rfl (by simp [Reduced])

end Hacspec.Props
