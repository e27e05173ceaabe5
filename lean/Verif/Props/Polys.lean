import Verif.Lemmas.Poly
import Mathlib.Algebra.Polynomial.Degree.Lemmas
import Mathlib.Algebra.Polynomial.Degree.SmallDegree
import Mathlib.Algebra.Polynomial.Div
import Mathlib.Tactic.ComputeDegree

/-! # Property theorems C28–C30, C59: polynomials -/

namespace Hacspec.Props

open MachineInt Hacspec.Poly Hacspec.Spec Polynomial

variable {w : Nat}

/-- The coefficient types of the library: the arithmetic of `poly.rs` over them, the number a word denotes,
and the range `[lo, B)` of representable numbers. -/
inductive Coeff : {w : Nat} → NumOps w → (BitVec w → Int) → Int → Int → Prop
  | pubU {w : Nat} : Coeff (w := w) numPubU (fun a => a.toNat) 0 (2 ^ w)
  | secU {w : Nat} : Coeff (w := w) numSecU (fun a => a.toNat) 0 (2 ^ w)
  | pubS {w : Nat} : Coeff (w := w) numPubS BitVec.toInt (-(2 ^ (w - 1))) (2 ^ (w - 1))
  | secS {w : Nat} : Coeff (w := w) numSecS BitVec.toInt (-(2 ^ (w - 1))) (2 ^ (w - 1))

variable {N : NumOps w} {val : BitVec w → Int} {lo B : Int}

theorem Coeff.lawful (T : Coeff N val lo B) (hw : 1 < w) (h128 : w ≤ 128) : Lawful N val lo B := by
  cases T
  · exact lawful_unsigned hw h128 _ (Or.inl rfl)
  · exact lawful_unsigned hw h128 _ (Or.inr rfl)
  · exact lawful_signed hw h128 _ (Or.inl rfl)
  · exact lawful_signed hw h128 _ (Or.inr rfl)

/-- Every coefficient is in `[0, n)`. -/
def Reduced (val : BitVec w → Int) (n : Int) (l : List (BitVec w)) : Prop := ∀ c ∈ l, 0 ≤ val c ∧ val c < n

instance (val : BitVec w → Int) (n : Int) (l : List (BitVec w)) : Decidable (Reduced val n l) :=
  inferInstanceAs (Decidable (∀ c ∈ l, _))

theorem reduced_at {n : Int} {l : List (BitVec w)} (hn : 0 < n) (h : Reduced val n l) (k : Nat) :
    0 ≤ at' val l k ∧ at' val l k < n := at_cases (P := fun z => 0 ≤ z ∧ z < n) (by omega) h k

theorem at_mem_zero (h0 : val 0#w = 0) (l : List (BitVec w)) (k : Nat) : ∃ a ∈ 0#w :: l, at' val l k = val a :=
  at_cases (P := fun z => ∃ a ∈ 0#w :: l, z = val a) ⟨0#w, by simp, h0.symm⟩ (fun c hc => ⟨c, by simp [hc], rfl⟩) k

/-! ## C28: addition, subtraction, multiplication -/

/-- C28: `poly_add` modulo `n > 0` is addition in `ℤ_n[X]`, with reduced coefficients, whenever the sums of
coefficients are representable. -/
theorem C28_add (hw : 1 < w) (h128 : w ≤ 128) (T : Coeff N val lo B) (m : Nat) (hm : 0 < m) (n : BitVec w)
    (hn : val n = m) (x y : List (BitVec w))
    (hfit : ∀ a ∈ x, ∀ b ∈ y, lo ≤ val a + val b ∧ val a + val b < B) :
    ∃ r, polyAdd N x y n = .ok r ∧ r.length = max x.length y.length ∧ Reduced val m r ∧
      polyOf (ZMod m) (r.map val) = polyOf (ZMod m) (x.map val) + polyOf (ZMod m) (y.map val) := by
  have L := T.lawful hw h128
  obtain ⟨r, h1, h2, h3⟩ := polyAdd_ok L (x := x) (y := y) (n := n) (by omega) (fun k _ => by
    by_cases hx : k < x.length
    · by_cases hy : k < y.length
      · rw [at_lt hx, at_lt hy]; exact hfit _ (List.getElem_mem hx) _ (List.getElem_mem hy)
      · rw [at_ge (l := y) (by omega), at_lt hx, Int.add_zero]; exact L.range _
    · rw [at_ge (l := x) (by omega), Int.zero_add]
      exact at_cases (P := fun z => lo ≤ z ∧ z < B) (by have := L.lo_le; have := L.B_pos; omega) (fun c _ => L.range c) k)
  refine ⟨r, h1, h2, reduced_of_at fun k => ?_, ?_⟩
  · rw [h3, hn]
    exact ⟨Int.emod_nonneg _ (by omega), Int.emod_lt_of_pos _ (by omega)⟩
  · show pol _ _ _ = pol _ _ _ + pol _ _ _
    ext k
    rw [Polynomial.coeff_add, coeff_pol, coeff_pol, coeff_pol, h3, hn, ZMod.intCast_mod, Int.cast_add]

/-- C28: with `n = 0`, `poly_add` is addition in `ℤ[X]` whenever the sums are representable. -/
theorem C28_add_int (hw : 1 < w) (h128 : w ≤ 128) (T : Coeff N val lo B) (x y : List (BitVec w))
    (hfit : ∀ a ∈ x, ∀ b ∈ y, lo ≤ val a + val b ∧ val a + val b < B) :
    ∃ r, polyAdd N x y 0#w = .ok r ∧ r.length = max x.length y.length ∧
      polyOf ℤ (r.map val) = polyOf ℤ (x.map val) + polyOf ℤ (y.map val) := by
  have L := T.lawful hw h128
  obtain ⟨r, h1, h2, h3⟩ := polyAdd_int_ok L (x := x) (y := y) (fun k _ => by
    by_cases hx : k < x.length
    · by_cases hy : k < y.length
      · rw [at_lt hx, at_lt hy]; exact hfit _ (List.getElem_mem hx) _ (List.getElem_mem hy)
      · rw [at_ge (l := y) (by omega), at_lt hx, Int.add_zero]; exact L.range _
    · rw [at_ge (l := x) (by omega), Int.zero_add]
      exact at_cases (P := fun z => lo ≤ z ∧ z < B) (by have := L.lo_le; have := L.B_pos; omega) (fun c _ => L.range c) k)
  refine ⟨r, h1, h2, ?_⟩
  show pol _ _ _ = pol _ _ _ + pol _ _ _
  ext k
  rw [Polynomial.coeff_add, coeff_pol, coeff_pol, coeff_pol, h3, Int.cast_add]

/-- C28: `poly_sub` modulo `n > 0` is subtraction in `ℤ_n[X]`.  The condition holds for reduced operands when
`2n - 1` is representable; signed operands may be negative. -/
theorem C28_sub (hw : 1 < w) (h128 : w ≤ 128) (T : Coeff N val lo B) (m : Nat) (hm : 0 < m) (n : BitVec w)
    (hn : val n = m) (x y : List (BitVec w))
    (hfit : ∀ a ∈ 0#w :: x, ∀ b ∈ 0#w :: y,
      (lo ≤ val a - val b ∨ 0 ≤ val a) ∧ val a - val b < B ∧ val b + m ≤ B) :
    ∃ r, polySub N x y n = .ok r ∧ r.length = max x.length y.length ∧ Reduced val m r ∧
      polyOf (ZMod m) (r.map val) = polyOf (ZMod m) (x.map val) - polyOf (ZMod m) (y.map val) := by
  have L := T.lawful hw h128
  obtain ⟨r, h1, h2, h3⟩ := polySub_ok L (x := x) (y := y) (n := n) (by omega) (fun k _ => by
    obtain ⟨a, ha, hav⟩ := at_mem_zero L.zero x k
    obtain ⟨b, hb, hbv⟩ := at_mem_zero L.zero y k
    have := hfit a ha b hb
    rw [hav, hbv]; omega)
  refine ⟨r, h1, h2, reduced_of_at fun k => ?_, ?_⟩
  · rw [h3, hn]
    exact ⟨Int.emod_nonneg _ (by omega), Int.emod_lt_of_pos _ (by omega)⟩
  · show pol _ _ _ = pol _ _ _ - pol _ _ _
    ext k
    rw [Polynomial.coeff_sub, coeff_pol, coeff_pol, coeff_pol, h3, hn, ZMod.intCast_mod, Int.cast_sub]

/-- C28: with `n = 0`, `poly_sub` is subtraction in `ℤ[X]` whenever the differences are representable. -/
theorem C28_sub_int (hw : 1 < w) (h128 : w ≤ 128) (T : Coeff N val lo B) (x y : List (BitVec w))
    (hfit : ∀ a ∈ 0#w :: x, ∀ b ∈ 0#w :: y, lo ≤ val a - val b ∧ val a - val b < B) :
    ∃ r, polySub N x y 0#w = .ok r ∧ r.length = max x.length y.length ∧
      polyOf ℤ (r.map val) = polyOf ℤ (x.map val) - polyOf ℤ (y.map val) := by
  have L := T.lawful hw h128
  obtain ⟨r, h1, h2, h3⟩ := polySub_int_ok L (x := x) (y := y) (fun k _ => by
    obtain ⟨a, ha, hav⟩ := at_mem_zero L.zero x k
    obtain ⟨b, hb, hbv⟩ := at_mem_zero L.zero y k
    rw [hav, hbv]; exact hfit a ha b hb)
  refine ⟨r, h1, h2, ?_⟩
  show pol _ _ _ = pol _ _ _ - pol _ _ _
  ext k
  rw [Polynomial.coeff_sub, coeff_pol, coeff_pol, coeff_pol, h3, Int.cast_sub]

/-- C28: `poly_mul` (sparse) and `poly_mul_op_scanning` modulo `n > 0` are multiplication in `ℤ_n[X]`, with
reduced coefficients, whenever the products of coefficients are representable and `2n - 1 ≤ B`; signed operands
may be negative. -/
theorem C28_mul (hw : 1 < w) (h128 : w ≤ 128) (T : Coeff N val lo B) (m : Nat) (hm : 0 < m) (n : BitVec w)
    (hn : val n = m) (h2 : 2 * (m : Int) ≤ B + 1) (x y : List (BitVec w))
    (hfit : ∀ a ∈ x, ∀ b ∈ y, lo ≤ val a * val b ∧ val a * val b < B) :
    (∃ r, polyMul N x y n = .ok r ∧ r.length = x.length + y.length ∧ Reduced val m r ∧
      polyOf (ZMod m) (r.map val) = polyOf (ZMod m) (x.map val) * polyOf (ZMod m) (y.map val)) ∧
    (∃ r, polyMulOpScanning N x y n = .ok r ∧ r.length = x.length + y.length ∧ Reduced val m r ∧
      polyOf (ZMod m) (r.map val) = polyOf (ZMod m) (x.map val) * polyOf (ZMod m) (y.map val)) := by
  have L := T.lawful hw h128
  constructor
  · obtain ⟨r, h1, h3, h4, h5⟩ := polyMul_ok L hm hn (by omega) x y hfit
    exact ⟨r, h1, h3, reduced_of_at h4, h5⟩
  · obtain ⟨r, h1, h3, h4, h5⟩ := polyMulOpScanning_ok L hm hn (by omega) x y hfit
    exact ⟨r, h1, h3, reduced_of_at h4, h5⟩

/-- C28: `poly_mul_plain` is multiplication in `ℤ[X]` whenever `|x|` times the largest product (in either
direction) is representable. -/
theorem C28_mul_plain (hw : 1 < w) (h128 : w ≤ 128) (T : Coeff N val lo B) (x y : List (BitVec w))
    (p q : Int) (hp : 0 ≤ p) (hq : 0 ≤ q)
    (hfit : ∀ a ∈ x, ∀ b ∈ y, -q ≤ val a * val b ∧ val a * val b ≤ p)
    (hlo : lo ≤ -(x.length * q)) (hB : x.length * p < B) :
    ∃ r, polyMulPlain N x y = .ok r ∧ r.length = x.length + y.length ∧
      polyOf ℤ (r.map val) = polyOf ℤ (x.map val) * polyOf ℤ (y.map val) :=
  polyMulPlain_ok (T.lawful hw h128) x y p q hp hq hfit hlo hB

/-- C28, disagreement: `poly_mul` has no case for `n = 0` (`ℤ[X]`, as in `poly_add` and `poly_sub`): it panics for
all non-zero operands. -/
theorem C28_mul_int_refuted (hw : 1 < w) (h128 : w ≤ 128) (T : Coeff N val lo B) (x y : List (BitVec w))
    (hx : ∃ a ∈ x, a ≠ 0#w) (hy : ∃ b ∈ y, b ≠ 0#w) : polyMul N x y 0#w = panic :=
  polyMul_zero_modulus (T.lawful hw h128) hx hy

example : ∃ r, polyMul (numPubU (w := 128)) [1#128, 2#128, 3#128] [4#128, 5#128] 7#128 = .ok r ∧ r.length = 5 ∧
    Reduced (fun a => a.toNat) (7 : Nat) r ∧
    polyOf (ZMod 7) (r.map fun a => (a.toNat : Int)) = polyOf (ZMod 7) [1, 2, 3] * polyOf (ZMod 7) [4, 5] :=
  (C28_mul (by decide) (by decide) Coeff.pubU 7 (by decide) 7#128 (by decide) (by decide) _ _ (by simp)).1
example : ∃ r, polyMul (numPubS (w := 128)) [-1#128, 2#128] [4#128, -5#128] 7#128 = .ok r ∧ r.length = 4 ∧
    Reduced BitVec.toInt (7 : Nat) r ∧
    polyOf (ZMod 7) (r.map BitVec.toInt) = polyOf (ZMod 7) [-1, 2] * polyOf (ZMod 7) [4, -5] :=
  (C28_mul (by decide) (by decide) Coeff.pubS 7 (by decide) 7#128 (by decide) (by decide) _ _ (by simp)).1
example : ∃ r, polySub (numSecU (w := 128)) [1#128, 2#128] [4#128, 5#128, 6#128] 7#128 = .ok r ∧ r.length = 3 ∧
    Reduced (fun a => a.toNat) (7 : Nat) r ∧
    polyOf (ZMod 7) (r.map fun a => (a.toNat : Int)) = polyOf (ZMod 7) [1, 2] - polyOf (ZMod 7) [4, 5, 6] :=
  C28_sub (by decide) (by decide) Coeff.secU 7 (by decide) 7#128 (by decide) _ _ (by simp)
example : polyMul (numPubS (w := 64)) [1#64] [1#64] 0#64 = panic :=
  C28_mul_int_refuted (by decide) (by decide) Coeff.pubS _ _ ⟨1#64, by simp, by decide⟩ ⟨1#64, by simp, by decide⟩

/-! ## C29: division -/

/-- Two quotients and remainders of a division by a polynomial with invertible leading coefficient agree. -/
theorem divMod_unique {R : Type} [CommRing R] [Nontrivial R] {y q r q' r' : R[X]} (hu : IsUnit y.leadingCoeff)
    (h : q * y + r = q' * y + r') (hr : r.degree < y.degree) (hr' : r'.degree < y.degree) : q = q' ∧ r = r' := by
  have hy0 : y ≠ 0 := by intro h0; rw [h0] at hu; simp at hu
  have e : (q - q') * y = r' - r := by linear_combination h
  have hd : (r' - r).degree < y.degree := lt_of_le_of_lt (degree_sub_le r' r) (max_lt hr' hr)
  by_cases hq : q = q'
  · subst hq; rw [sub_self, zero_mul] at e; exact ⟨rfl, (sub_eq_zero.1 e.symm).symm⟩
  · exfalso
    have hq0 : q - q' ≠ 0 := sub_ne_zero.2 hq
    have hl : (q - q').leadingCoeff * y.leadingCoeff ≠ 0 := by
      intro h0
      exact hq0 (leadingCoeff_eq_zero.1 ((hu.mul_left_eq_zero).1 h0))
    rw [← e, degree_mul' hl] at hd
    have h1 : 0 ≤ (q - q').degree := zero_le_degree_iff.2 hq0
    have h2 : y.degree ≤ (q - q').degree + y.degree := le_add_of_nonneg_left h1
    exact absurd hd (not_lt.2 h2)

/-- The products that `poly_div` forms fit the coefficient type: the quotient digits are products of a reduced number
and the inverse of the leading coefficient of the divisor, and are multiplied by coefficients before being reduced. -/
def DivFits (val : BitVec w → Int) (B : Int) (m : Nat) (y : List (BitVec w)) : Prop :=
  ∀ z : Nat, z < m → (z : ZMod m) * (polyOf (ZMod m) (y.map val)).leadingCoeff = 1 →
    ∀ b ∈ y, ((m : Int) - 1) * z * val b < B

/-- It suffices that `n³` is representable. -/
theorem divFits_cube {m : Nat} (hm : 1 < m) (h3 : (m : Int) * m * m ≤ B) {y : List (BitVec w)} (hy : Reduced val m y) :
    (m : Int) * m ≤ B ∧ DivFits val B m y := by
  have h1' : (2 : Int) ≤ m := by omega
  have h0 : (0 : Int) < m * m := Int.mul_pos (by omega) (by omega)
  have h2 : (m : Int) * m * 2 ≤ m * m * m := Int.mul_le_mul_of_nonneg_left h1' (by omega)
  refine ⟨by omega, fun z hz _ b hb => ?_⟩
  have hb' := hy b hb
  have p1 : ((m : Int) - 1) * z ≤ m * m := Int.mul_le_mul (by omega) (by omega) (by omega) (by omega)
  have p2 : ((m : Int) - 1) * z * val b ≤ m * m * (m - 1) := Int.mul_le_mul p1 (by omega) hb'.1 (by omega)
  have p3 : ((m : Int) * m) * (m - 1) = m * m * m - m * m := by ring
  omega

/-- It suffices that `n²` is representable when the divisor is monic. -/
theorem divFits_monic {m : Nat} (hm : 1 < m) (h2 : (m : Int) * m ≤ B) {y : List (BitVec w)} (hy : Reduced val m y)
    (hmon : (polyOf (ZMod m) (y.map val)).Monic) : DivFits val B m y := by
  intro z hz hz1 b hb
  rw [hmon.leadingCoeff, mul_one] at hz1
  have h1 : z = 1 := by
    have : ((z : Nat) : ZMod m) = ((1 : Nat) : ZMod m) := by rw [hz1, Nat.cast_one]
    rw [ZMod.natCast_eq_natCast_iff] at this
    have := Nat.ModEq.eq_of_lt_of_lt this hz hm
    exact this
  have hb' := hy b hb
  have p1 : ((m : Int) - 1) * val b ≤ (m - 1) * (m - 1) := Int.mul_le_mul (by omega) (by omega) hb'.1 (by omega)
  have p2 : ((m : Int) - 1) * (m - 1) = m * m - 2 * m + 1 := by ring
  rw [h1, Int.natCast_one, Int.mul_one]
  omega

/-- C29: `poly_div` modulo `n > 1` of reduced polynomials whose divisor has an invertible leading coefficient:
it returns the quotient and remainder in `ℤ_n[X]`, which are unique.  `n²` must be representable, and the products
of the unreduced quotient digits with the coefficients of the divisor. -/
theorem C29_div_partial (hw : 1 < w) (h128 : w ≤ 128) (T : Coeff N val lo B) (m : Nat) (hm : 1 < m) (n : BitVec w)
    (hn : val n = m) (x y : List (BitVec w))
    (hx : Reduced val m x) (hy : Reduced val m y)
    (hu : IsUnit (polyOf (ZMod m) (y.map val)).leadingCoeff) (h2 : (m : Int) * m ≤ B) (h3 : DivFits val B m y) :
    ∃ q r, polyDiv N x y n = .ok (q, r) ∧ q.length = max x.length y.length ∧
      r.length = (polyOf (ZMod m) (y.map val)).natDegree ∧ Reduced val m q ∧ Reduced val m r ∧
      polyOf (ZMod m) (x.map val) = polyOf (ZMod m) (q.map val) * polyOf (ZMod m) (y.map val) + polyOf (ZMod m) (r.map val) ∧
      (polyOf (ZMod m) (r.map val)).degree < (polyOf (ZMod m) (y.map val)).degree ∧
      ∀ q' r' : (ZMod m)[X], polyOf (ZMod m) (x.map val) = q' * polyOf (ZMod m) (y.map val) + r' →
        r'.degree < (polyOf (ZMod m) (y.map val)).degree →
        q' = polyOf (ZMod m) (q.map val) ∧ r' = polyOf (ZMod m) (r.map val) := by
  have L := T.lawful hw h128
  have : Fact (1 < m) := ⟨hm⟩
  change IsUnit (pol (ZMod m) val y).leadingCoeff at hu
  have hya := reduced_at (n := m) (by omega) hy
  have hxa := reduced_at (n := m) (by omega) hx
  have hzero : ∀ k, ((at' val y k : Int) : ZMod m) = 0 → at' val y k = 0 := by
    intro k hk
    rw [ZMod.intCast_zmod_eq_zero_iff_dvd] at hk
    exact Int.eq_zero_of_dvd_of_nonneg_of_lt (hya k).1 (hya k).2 hk
  have hlc : (pol (ZMod m) val y).leadingCoeff = ((at' val y (pol (ZMod m) val y).natDegree : Int) : ZMod m) := coeff_pol _ _ _
  have hd0 : at' val y (pol (ZMod m) val y).natDegree ≠ 0 := by
    intro h; rw [hlc, h] at hu; simp at hu
  have htop : ∀ k, (pol (ZMod m) val y).natDegree < k → at' val y k = 0 := by
    intro k hk
    apply hzero
    rw [← coeff_pol]; exact coeff_eq_zero_of_natDegree_lt hk
  have hcop : Int.gcd (at' val y (pol (ZMod m) val y).natDegree) m = 1 := by
    rw [hlc] at hu
    obtain ⟨a, ha⟩ : ∃ a : Nat, at' val y (pol (ZMod m) val y).natDegree = a := ⟨_, (Int.toNat_of_nonneg (hya _).1).symm⟩
    rw [ha] at hu ⊢
    rw [Int.cast_natCast, ZMod.isUnit_iff_coprime] at hu
    simpa [Int.gcd] using hu
  obtain ⟨q, r, h1, h2, h4, h5, h6, h7⟩ := polyDiv_ok L hm hn h2 hxa hya hd0 htop hcop (fun z hz0 hz1 hz2 b hb => by
    obtain ⟨k, rfl⟩ := Int.eq_ofNat_of_zero_le hz0
    refine h3 k (by omega) ?_ b hb
    show _ * (pol (ZMod m) val y).leadingCoeff = 1
    rw [hlc, ← Int.cast_natCast, ← Int.cast_mul, ← ZMod.intCast_mod]
    have e : ((k : Nat) : Int) * at' val y (pol (ZMod m) val y).natDegree % m = 1 := hz2
    rw [e, Int.cast_one])
  have hy0 : pol (ZMod m) val y ≠ 0 := by intro h; rw [h] at hu; simp at hu
  have hdeg : (pol (ZMod m) val r).degree < (pol (ZMod m) val y).degree := by
    rw [degree_eq_natDegree hy0]
    rw [degree_lt_iff_coeff_zero]
    intro k hk
    rw [coeff_pol, at_ge (by omega)]; simp
  refine ⟨q, r, h1, h2, h4, reduced_of_at h5, reduced_of_at h6, h7, hdeg, ?_⟩
  intro q' r' he hr'
  exact divMod_unique hu (he.symm.trans h7) hr' hdeg

/-- C29: division by a monic polynomial, for every `n > 1` whose square is representable. -/
theorem C29_div_monic (hw : 1 < w) (h128 : w ≤ 128) (T : Coeff N val lo B) (m : Nat) (hm : 1 < m) (n : BitVec w)
    (hn : val n = m) (x y : List (BitVec w)) (hx : Reduced val m x) (hy : Reduced val m y)
    (hmon : (polyOf (ZMod m) (y.map val)).Monic) (h2 : (m : Int) * m ≤ B) :
    ∃ q r, polyDiv N x y n = .ok (q, r) ∧ q.length = max x.length y.length ∧
      r.length = (polyOf (ZMod m) (y.map val)).natDegree ∧ Reduced val m q ∧ Reduced val m r ∧
      polyOf (ZMod m) (q.map val) = polyOf (ZMod m) (x.map val) /ₘ polyOf (ZMod m) (y.map val) ∧
      polyOf (ZMod m) (r.map val) = polyOf (ZMod m) (x.map val) %ₘ polyOf (ZMod m) (y.map val) := by
  have : Fact (1 < m) := ⟨hm⟩
  obtain ⟨q, r, h1, h3, h4, h5, h6, h7, h8, _⟩ := C29_div_partial hw h128 T m hm n hn x y hx hy
    (by rw [hmon.leadingCoeff]; exact isUnit_one) h2 (divFits_monic hm h2 hy hmon)
  have := div_modByMonic_unique (f := polyOf (ZMod m) (x.map val)) (polyOf (ZMod m) (q.map val)) (polyOf (ZMod m) (r.map val)) hmon
    ⟨by rw [h7]; ring, h8⟩
  exact ⟨q, r, h1, h3, h4, h5, h6, this.1.symm, this.2.symm⟩

/-- C29, disagreement: that `n²` is representable does not suffice in general.  Dividing `12 X` by `2 X + 12` modulo 13
with 8-bit coefficients panics, although the quotient and the remainder exist. -/
theorem C29_div_square_refuted :
    polyDiv (numPubU (w := 8)) [0#8, 12#8] [12#8, 2#8] 13#8 = panic ∧
    polyDiv (numSecU (w := 8)) [0#8, 12#8] [12#8, 2#8] 13#8 = panic ∧
    polyOf (ZMod 13) [0, 12] = polyOf (ZMod 13) [6] * polyOf (ZMod 13) [12, 2] + polyOf (ZMod 13) [6] := by
  refine ⟨by decide +kernel, by decide +kernel, ?_⟩
  have h : (C 78 : (ZMod 13)[X]) = 0 := by
    rw [show (78 : ZMod 13) = 0 by decide, C_0]
  simp only [polyOf]
  push_cast
  simp only [C_0]
  rw [show (12 : ZMod 13) = 6 * 2 by decide, C_mul, show (2 : ZMod 13) = 2 by rfl]
  rw [show (C 78 : (ZMod 13)[X]) = C 6 * (C 6 * C 2) + C 6 by rw [← C_mul, ← C_mul, ← C_add]; congr 1] at h
  linear_combination -h

/-- C29: division by zero of a non-zero reduced polynomial panics, for every modulus `n > 0`. -/
theorem C29_div_by_zero (hw : 1 < w) (h128 : w ≤ 128) (T : Coeff N val lo B) (m : Nat) (hm : 0 < m) (n : BitVec w)
    (hn : val n = m) (x y : List (BitVec w)) (hx : Reduced val m x) (hx0 : ∃ a ∈ x, a ≠ 0#w)
    (hy : ∀ b ∈ y, b = 0#w) : polyDiv N x y n = panic := by
  have L := T.lawful hw h128
  have hn0 : n ≠ 0#w := by intro h; subst h; rw [L.zero] at hn; omega
  have hya : ∀ k, at' val (Poly.normalize x y).2 k = 0 := fun k => by
    simp only [Poly.normalize, at_pad L.zero]
    exact at_cases (P := fun z => z = 0) rfl (fun c hc => by rw [hy c hc, L.zero]) k
  have hlead : leadingCoefficient (Poly.normalize x y).2 = (0, 0#w) := by
    rcases lead_spec L.zero (val := val) (Poly.normalize x y).2 with h | ⟨_, h2, h3, _⟩
    · exact h.1
    · exact absurd (L.inj _ _ (by rw [h3, hya, L.zero])) h2
  have hxl : ∃ e, at' val x e ≠ 0 ∧ ∀ k, e < k → at' val x k = 0 := by
    rcases lead_spec L.zero (val := val) x with ⟨_, h⟩ | ⟨_, h2, h3, h4⟩
    · obtain ⟨a, ha, ha0⟩ := hx0
      obtain ⟨k, hk, rfl⟩ := List.mem_iff_getElem.1 ha
      exact absurd (L.inj _ _ (by rw [L.zero, ← h k, at_lt hk])) ha0
    · exact ⟨_, by rw [← h3]; intro h; exact h2 (L.inj _ _ (by rw [h, L.zero])), h4⟩
  obtain ⟨e, he, het⟩ := hxl
  have hdig : ∀ r, val r ∈ [val r] → divDigit N n 0#w r = .ok 0#w := by
    intro r _
    unfold divDigit
    rw [if_neg hn0, L.invZero, bind_ok]
    obtain ⟨c, hc, hcv⟩ := L.mul r 0#w (by rw [L.zero, Int.mul_zero]; exact L.lo_le) (by rw [L.zero, Int.mul_zero]; have := L.B_pos; omega)
    rw [hc, L.inj c 0#w (by rw [hcv, L.zero, Int.mul_zero])]
  apply polyDiv_panic L (d := 0) (e := e) (by rw [hlead]) (by omega) he het
    (by rw [hlead]; exact hdig _ (by simp)) (Or.inr ⟨by omega, by rw [hn]; exact reduced_at (by omega) hx⟩)
  intro q r i dist len hi hr _
  unfold divStep
  simp only
  rw [idx_ok hi, bind_ok, hlead, hdig _ (by simp), bind_ok, require_false, bind_panic]
  intro h
  apply h
  refine ⟨rfl, fun h0 => he ?_⟩
  rw [← hr, at_lt hi, h0, L.zero]

/-- C29: when the leading coefficient of the divisor is not invertible modulo `n`, division panics. -/
theorem C29_div_not_invertible (hw : 1 < w) (h128 : w ≤ 128) (T : Coeff N val lo B) (m : Nat) (hm : 1 < m) (n : BitVec w)
    (hn : val n = m) (h2 : (m : Int) * m ≤ B) (x y : List (BitVec w)) (hy : Reduced val m y)
    (hy0 : ∃ b ∈ y, b ≠ 0#w)
    (hu : ¬ IsUnit (polyOf (ZMod m) (y.map val)).leadingCoeff) : polyDiv N x y n = panic := by
  have L := T.lawful hw h128
  have hn0 : n ≠ 0#w := by intro h; subst h; rw [L.zero] at hn; omega
  change ¬ IsUnit (pol (ZMod m) val y).leadingCoeff at hu
  have hya := reduced_at (n := m) (by omega) hy
  have hay : ∀ k, at' val (Poly.normalize x y).2 k = at' val y k := fun k => by simp only [Poly.normalize, at_pad L.zero]
  have hly : (Poly.normalize x y).2.length = max x.length y.length := by
    simp only [Poly.normalize, length_pad]; omega
  have hlx : (Poly.normalize x y).1.length = max x.length y.length := by
    simp only [Poly.normalize, length_pad]; omega
  rcases lead_spec L.zero (val := val) (Poly.normalize x y).2 with ⟨_, h⟩ | ⟨h1, h3, h4, h5⟩
  · obtain ⟨a, ha, ha0⟩ := hy0
    obtain ⟨k, hk, rfl⟩ := List.mem_iff_getElem.1 ha
    exact absurd (L.inj _ _ (by rw [L.zero, ← h k, hay, at_lt hk])) ha0
  generalize hd : (leadingCoefficient (Poly.normalize x y).2).1 = d at *
  generalize hc : (leadingCoefficient (Poly.normalize x y).2).2 = c at *
  have hc0 : val c ≠ 0 := fun h => h3 (L.inj _ _ (by rw [h, L.zero]))
  rw [hay] at h4
  have hcm := hya d
  rw [← h4] at hcm
  have hcz : ((val c : Int) : ZMod m) ≠ 0 := by
    intro h
    rw [ZMod.intCast_zmod_eq_zero_iff_dvd] at h
    exact hc0 (Int.eq_zero_of_dvd_of_nonneg_of_lt hcm.1 hcm.2 h)
  have hnd : (pol (ZMod m) val y).natDegree = d := by
    apply natDegree_eq_of_le_of_coeff_ne_zero
    · rw [natDegree_le_iff_coeff_eq_zero]
      intro k hk
      rw [coeff_pol, ← hay, h5 k hk]; simp
    · rw [coeff_pol, ← h4]; exact hcz
  have hg : Int.gcd (val c) m ≠ 1 := by
    intro hg
    apply hu
    rw [leadingCoeff, hnd, coeff_pol, ← h4]
    obtain ⟨a, ha⟩ : ∃ a : Nat, val c = a := ⟨_, (Int.toNat_of_nonneg hcm.1).symm⟩
    rw [ha] at hg ⊢
    rw [Int.cast_natCast, ZMod.isUnit_iff_coprime]
    simpa [Int.gcd] using hg
  have hp := L.invPanic c n (by omega) (by omega) (by rw [hn]; exact h2) (by rw [hn]; exact hg)
  simp only [polyDiv]
  rw [hd, hc, loop_panic (k := 0) (by omega) (loop_zero _ _), bind_panic]
  unfold divStep
  simp only
  rw [idx_ok (by omega), bind_ok]
  unfold divDigit
  rw [if_neg hn0, hp, bind_panic, bind_panic]

/-- C29, disagreement: over `ℤ` (`n = 0`) division panics for every divisor whose degree is at most the degree of the
dividend, even for `x / 1`. -/
theorem C29_div_int_refuted (hw : 1 < w) (h128 : w ≤ 128) (T : Coeff N val lo B) (x y : List (BitVec w))
    (hx0 : ∃ a ∈ x, a ≠ 0#w) (hy0 : ∃ b ∈ y, b ≠ 0#w)
    (hdeg : (polyOf ℤ (y.map val)).natDegree ≤ (polyOf ℤ (x.map val)).natDegree) :
    polyDiv N x y 0#w = panic := by
  have L := T.lawful hw h128
  change (pol ℤ val y).natDegree ≤ (pol ℤ val x).natDegree at hdeg
  have hay : ∀ k, at' val (Poly.normalize x y).2 k = at' val y k := fun k => by simp only [Poly.normalize, at_pad L.zero]
  have hxe : ∃ e, at' val x e ≠ 0 ∧ (∀ k, e < k → at' val x k = 0) ∧ (pol ℤ val x).natDegree = e := by
    rcases lead_spec L.zero (val := val) x with ⟨_, h⟩ | ⟨_, h2, h3, h4⟩
    · obtain ⟨a, ha, ha0⟩ := hx0
      obtain ⟨k, hk, rfl⟩ := List.mem_iff_getElem.1 ha
      exact absurd (L.inj _ _ (by rw [L.zero, ← h k, at_lt hk])) ha0
    · have he : at' val x (leadingCoefficient x).1 ≠ 0 := by
        rw [← h3]; intro h; exact h2 (L.inj _ _ (by rw [h, L.zero]))
      refine ⟨_, he, h4, natDegree_eq_of_le_of_coeff_ne_zero ?_ (by rw [coeff_pol]; exact_mod_cast he)⟩
      rw [natDegree_le_iff_coeff_eq_zero]
      intro k hk
      rw [coeff_pol, h4 k hk]; rfl
  obtain ⟨e, he, het, hxd⟩ := hxe
  rcases lead_spec L.zero (val := val) (Poly.normalize x y).2 with ⟨_, h⟩ | ⟨h1, h3, h4, h5⟩
  · obtain ⟨a, ha, ha0⟩ := hy0
    obtain ⟨k, hk, rfl⟩ := List.mem_iff_getElem.1 ha
    exact absurd (L.inj _ _ (by rw [L.zero, ← h k, hay, at_lt hk])) ha0
  have hyd : (pol ℤ val y).natDegree = (leadingCoefficient (Poly.normalize x y).2).1 := by
    apply natDegree_eq_of_le_of_coeff_ne_zero
    · rw [natDegree_le_iff_coeff_eq_zero]
      intro k hk
      rw [coeff_pol, ← hay, h5 k hk]; rfl
    · rw [coeff_pol, ← hay, ← h4]
      intro h
      exact h3 (L.inj _ _ (by rw [L.zero]; exact_mod_cast h))
  apply polyDiv_panic L rfl (e := e) (by omega) he het
    (by unfold divDigit; rw [if_pos rfl]; exact L.divZero _ h3) (Or.inl rfl)
  intro q r i dist len hi hr _
  have hr0 : r[len - 1 - i] ≠ 0#w := fun h0 => he (by rw [← hr, at_lt hi, h0, L.zero])
  unfold divStep
  simp only
  rw [idx_ok hi, bind_ok]
  unfold divDigit
  rw [if_pos rfl]
  rcases L.divTotal r[len - 1 - i] (leadingCoefficient (Poly.normalize x y).2).2 with h | ⟨t, h⟩
  · rw [h, bind_panic]
  · rw [h, bind_ok]
    by_cases ht : t = 0#w
    · rw [require_false (by simp [ht, hr0]), bind_panic]
    · rw [require_true (by simp [ht]), bind_ok, monomial_ok, bind_ok, polyMul_zero_modulus L _ _, bind_panic]
      · exact ⟨t, List.mem_set (by simp) t, ht⟩
      · refine ⟨_, List.getElem_mem h1, fun h0 => h3 (L.inj _ _ ?_)⟩
        rw [h4, at_lt h1, h0]

/-- Coefficients `1 + 2x²` and `x + x²` modulo 3. -/
example : ∃ q r, polyDiv (numPubU (w := 128)) [1#128, 0#128, 2#128] [0#128, 1#128, 1#128] 3#128 = .ok (q, r) ∧
    q.length = 3 ∧ r.length = 2 ∧
    polyOf (ZMod 3) [1, 0, 2] = polyOf (ZMod 3) (q.map fun a => (a.toNat : Int)) * polyOf (ZMod 3) [0, 1, 1]
      + polyOf (ZMod 3) (r.map fun a => (a.toNat : Int)) := by
  have e : polyOf (ZMod 3) [0, 1, 1] = X ^ 2 + X := by simp [polyOf]; ring
  have hd : (X ^ 2 + X : (ZMod 3)[X]).natDegree = 2 := by
    have : (1 : ZMod 3) ≠ 0 := by decide
    compute_degree!
  obtain ⟨q, r, h1, h2, h3, _, _, h4, _⟩ := C29_div_partial (w := 128) (by decide) (by decide) Coeff.pubU 3 (by decide) 3#128
    (by decide) [1#128, 0#128, 2#128] [0#128, 1#128, 1#128] (by simp [Reduced]) (by simp [Reduced])
    (by
      show IsUnit (polyOf (ZMod 3) [0, 1, 1]).leadingCoeff
      rw [e, leadingCoeff, hd]; simp [coeff_X])
    (by decide) (divFits_cube (by decide) (by decide) (by simp [Reduced])).2
  refine ⟨q, r, h1, h2, ?_, h4⟩
  rw [h3]; show (polyOf (ZMod 3) [0, 1, 1]).natDegree = 2
  rw [e, hd]

example : polyDiv (numPubU (w := 128)) [1#128, 2#128] [0#128] 3#128 = panic :=
  C29_div_by_zero (by decide) (by decide) Coeff.pubU 3 (by decide) _ (by decide) _ _ (by simp [Reduced])
    ⟨1#128, by simp, by decide⟩ (by simp)

/-! ## C30: helpers -/

/-- C30: `leading_coefficient` returns the degree and the leading coefficient (`(0, 0)` for the zero polynomial). -/
theorem C30_leading_coefficient (hw : 1 < w) (h128 : w ≤ 128) (T : Coeff N val lo B) (x : List (BitVec w)) :
    (leadingCoefficient x).1 = (polyOf ℤ (x.map val)).natDegree ∧
    val (leadingCoefficient x).2 = (polyOf ℤ (x.map val)).leadingCoeff := by
  have L := T.lawful hw h128
  show _ = (pol ℤ val x).natDegree ∧ _ = (pol ℤ val x).leadingCoeff
  rcases lead_spec L.zero (val := val) x with ⟨h1, h⟩ | ⟨_, h2, h3, h4⟩
  · have : pol ℤ val x = 0 := by ext k; rw [coeff_pol, h k]; rfl
    rw [h1, this]; simp [L.zero]
  · have hd : (pol ℤ val x).natDegree = (leadingCoefficient x).1 := by
      apply natDegree_eq_of_le_of_coeff_ne_zero
      · rw [natDegree_le_iff_coeff_eq_zero]
        intro k hk
        rw [coeff_pol, h4 k hk]; rfl
      · rw [coeff_pol, ← h3]; intro h; exact h2 (L.inj _ _ (by rw [L.zero]; exact_mod_cast h))
    refine ⟨hd.symm, ?_⟩
    rw [leadingCoeff, hd, coeff_pol, ← h3]; rfl

/-- C30: `normalize` pads both operands to the common length and changes neither polynomial. -/
theorem C30_normalize (hw : 1 < w) (h128 : w ≤ 128) (T : Coeff N val lo B) (R : Type) [CommRing R] (x y : List (BitVec w)) :
    (Poly.normalize x y).1.length = max x.length y.length ∧ (Poly.normalize x y).2.length = max x.length y.length ∧
    polyOf R ((Poly.normalize x y).1.map val) = polyOf R (x.map val) ∧
    polyOf R ((Poly.normalize x y).2.map val) = polyOf R (y.map val) ∧
    x <+: (Poly.normalize x y).1 ∧ y <+: (Poly.normalize x y).2 := by
  have L := T.lawful hw h128
  have hp : ∀ (l : List (BitVec w)) n, pol R val (pad l n) = pol R val l := by
    intro l n; ext k; rw [coeff_pol, coeff_pol, at_pad L.zero]
  refine ⟨?_, ?_, hp _ _, hp _ _, ⟨_, rfl⟩, ⟨_, rfl⟩⟩
  · simp only [Poly.normalize, length_pad]; omega
  · simp only [Poly.normalize, length_pad]; omega

/-- C30: `monomial c d` is `c X^d`, of length `d + 1`. -/
theorem C30_monomial (hw : 1 < w) (h128 : w ≤ 128) (T : Coeff N val lo B) (R : Type) [CommRing R] (c : BitVec w) (d : Nat) :
    ∃ r, Poly.monomial c d = .ok r ∧ r.length = d + 1 ∧ polyOf R (r.map val) = C ((val c : Int) : R) * X ^ d := by
  have L := T.lawful hw h128
  exact ⟨_, monomial_ok c d, by simp, pol_monomial L.zero c d⟩

/-- C30: `make_fixed_length v t` has exactly `t` coefficients: those of `v`, then zeros. -/
theorem C30_make_fixed_length (v : List (BitVec w)) (t : Nat) :
    makeFixedLength v t = v.take t ++ List.replicate (t - v.length) 0#w := by
  unfold makeFixedLength
  induction t generalizing v with
  | zero => simp [overwrite]
  | succ t ih =>
    cases v with
    | nil => simp [overwrite]
    | cons a v => simp [List.replicate_succ, overwrite, ih]

/-- C30: `make_fixed_length` does not change a polynomial of degree below `t`. -/
theorem C30_make_fixed_length_poly (hw : 1 < w) (h128 : w ≤ 128) (T : Coeff N val lo B) (R : Type) [CommRing R]
    (v : List (BitVec w)) (t : Nat) (ht : (polyOf R (v.map val)).degree < t) :
    polyOf R ((makeFixedLength v t).map val) = polyOf R (v.map val) := by
  have L := T.lawful hw h128
  show pol _ _ _ = pol _ _ _
  change (pol R val v).degree < t at ht
  rw [degree_lt_iff_coeff_zero] at ht
  ext k
  rw [coeff_pol, at_makeFixedLength L.zero]
  split
  · rw [coeff_pol]
  · rw [ht k (by omega)]; simp

/-- C30: `is_zero` decides whether the polynomial is zero, and `poly_divx` divides by `X` (dropping the constant
coefficient). -/
theorem C30_is_zero_divx (hw : 1 < w) (h128 : w ≤ 128) (T : Coeff N val lo B) (v : List (BitVec w)) :
    (isZero v = true ↔ polyOf ℤ (v.map val) = 0) ∧
    (∀ a vs, v = a :: vs → ∃ r, polyDivx v = .ok r ∧
      polyOf ℤ (v.map val) = C (val a) + X * polyOf ℤ (r.map val)) ∧
    (v = [] → polyDivx v = panic) := by
  have L := T.lawful hw h128
  refine ⟨?_, ?_, ?_⟩
  · show _ ↔ pol ℤ val v = 0
    unfold isZero
    rw [List.all_eq_true]
    constructor
    · intro h; ext k
      rw [coeff_pol, at_cases (P := fun z => z = 0) rfl (fun c hc => by rw [show c = 0#w by simpa using h c hc, L.zero]) k]
      rfl
    · intro h c hc
      obtain ⟨k, hk, rfl⟩ := List.mem_iff_getElem.1 hc
      have : ((at' val v k : Int) : ℤ) = 0 := by have e := coeff_pol (val := val) ℤ v k; rw [h] at e; simpa using e.symm
      rw [at_lt hk] at this
      simpa using L.inj _ 0#w (by rw [L.zero]; exact_mod_cast this)
  · intro a vs hv
    subst hv
    refine ⟨vs, ?_, rfl⟩
    unfold polyDivx
    rw [require_true (by simp), bind_ok]
    have := C30_make_fixed_length vs vs.length
    simp [makeFixedLength] at this
    simp [this]
  · intro h; subst h; rfl

example : makeFixedLength [1#8, 2#8] 3 = [1#8, 2#8, 0#8] := C30_make_fixed_length _ _
example : (leadingCoefficient [5#8, 7#8, 0#8]).1 = (polyOf ℤ [5, 7, 0]).natDegree :=
  (C30_leading_coefficient (by decide) (by decide) Coeff.pubU [5#8, 7#8, 0#8]).1

/-! ## C59: the fixed-length rings of the `poly!` macro -/

theorem length_setSparse {p : List (Nat × BitVec w)} {a r : List (BitVec w)} (h : setSparse p a = .ok r) :
    r.length = a.length := by
  unfold setSparse at h
  induction p generalizing a with
  | nil => cases h; rfl
  | cons c p ih =>
    rw [forEach, bind_eq_ok] at h
    obtain ⟨s, h1, h2⟩ := h
    rw [ih h2]
    by_cases hc : c.1 < a.length
    · rw [setIdx_ok hc] at h1; cases h1; simp
    · rw [setIdx_panic (by omega)] at h1; simp at h1

theorem fromVec_ok (L : Lawful N val lo B) {P : PolyTy w} {f v : List (BitVec w)} (hf : irr P = .ok f)
    (hv : v.length ≤ P.l) : ∃ r, fromVec P v = .ok r ∧ r.length = P.l ∧ ∀ k, at' val r k = at' val v k := by
  have hlead : (leadingCoefficient v).1 ≤ P.l := by
    rcases lead_spec L.zero (val := val) v with ⟨h, _⟩ | ⟨h, _⟩
    · rw [h]; simp
    · omega
  refine ⟨_, by rw [fromVec, require_true hlead, bind_ok, hf, bind_ok], by simp [length_overwrite], fun k => ?_⟩
  have := at_makeFixedLength L.zero (val := val) v P.l k
  unfold makeFixedLength at this
  rw [this]
  split
  · rfl
  · rw [at_ge (by omega)]

/-- C59: `+`, `-` of a `poly!` type (reduced values of the declared length) are those of `ℤ_n[X]`, and the result is
again a reduced value of the declared length. -/
theorem C59_add_sub (hw : 1 < w) (h128 : w ≤ 128) (T : Coeff N val lo B) (P : PolyTy w) (m : Nat) (hm : 0 < m)
    (hn : val P.n = m) (h2 : 2 * (m : Int) ≤ B + 1) (f : List (BitVec w)) (hf : irr P = .ok f)
    (a b : List (BitVec w)) (ha : a.length = P.l) (hb : b.length = P.l) (har : Reduced val m a) (hbr : Reduced val m b) :
    (∃ r, pAdd N P a b = .ok r ∧ r.length = P.l ∧ Reduced val m r ∧
      polyOf (ZMod m) (r.map val) = polyOf (ZMod m) (a.map val) + polyOf (ZMod m) (b.map val)) ∧
    (∃ r, pSub N P a b = .ok r ∧ r.length = P.l ∧ Reduced val m r ∧
      polyOf (ZMod m) (r.map val) = polyOf (ZMod m) (a.map val) - polyOf (ZMod m) (b.map val)) := by
  have L := T.lawful hw h128
  have hlo := L.lo_le
  have key : ∀ r : List (BitVec w), r.length = P.l → Reduced val m r → ∃ r', fromVec P r = .ok r' ∧ r'.length = P.l ∧
      Reduced val m r' ∧ polyOf (ZMod m) (r'.map val) = polyOf (ZMod m) (r.map val) := by
    intro r hr hred
    obtain ⟨r', h1, h3, h4⟩ := fromVec_ok L hf (v := r) (by omega)
    refine ⟨r', h1, h3, reduced_of_at fun k => by rw [h4]; exact reduced_at (by omega) hred k, ?_⟩
    show pol _ _ _ = pol _ _ _
    ext k; rw [coeff_pol, coeff_pol, h4]
  constructor
  · obtain ⟨r, h1, h3, h4, h5⟩ := C28_add hw h128 T m hm P.n hn a b (fun x hx y hy => by
      have := har x hx; have := hbr y hy; omega)
    obtain ⟨r', h6, h7, h8, h9⟩ := key r (by omega) h4
    exact ⟨r', by rw [pAdd, h1, bind_ok, h6], h7, h8, h9.trans h5⟩
  · have hz : ∀ l : List (BitVec w), Reduced val m l → Reduced val m (0#w :: l) := by
      intro l hl c hc
      rcases List.mem_cons.1 hc with h | h
      · rw [h, L.zero]; omega
      · exact hl c h
    obtain ⟨r, h1, h3, h4, h5⟩ := C28_sub hw h128 T m hm P.n hn a b (fun x hx y hy => by
      have := hz a har x hx; have := hz b hbr y hy; omega)
    obtain ⟨r', h6, h7, h8, h9⟩ := key r (by omega) h4
    exact ⟨r', by rw [pSub, h1, bind_ok, h6], h7, h8, h9.trans h5⟩

/-- C59: `*` of a `poly!` type is multiplication in `ℤ_n[X]/(f)`: the result is the unique reduced representative. -/
theorem C59_mul_partial (hw : 1 < w) (h128 : w ≤ 128) (T : Coeff N val lo B) (P : PolyTy w) (m : Nat) (hm : 1 < m)
    (hn : val P.n = m) (f : List (BitVec w)) (hf : irr P = .ok f)
    (hfr : Reduced val m f) (hu : IsUnit (polyOf (ZMod m) (f.map val)).leadingCoeff)
    (hmm : (m : Int) * m ≤ B) (h3 : DivFits val B m f)
    (a b : List (BitVec w)) (har : Reduced val m a) (hbr : Reduced val m b) :
    ∃ r, pMul N P a b = .ok r ∧ r.length = P.l ∧ Reduced val m r ∧
      polyOf (ZMod m) (f.map val) ∣ polyOf (ZMod m) (a.map val) * polyOf (ZMod m) (b.map val) - polyOf (ZMod m) (r.map val) ∧
      (polyOf (ZMod m) (r.map val)).degree < (polyOf (ZMod m) (f.map val)).degree := by
  have L := T.lawful hw h128
  have hlo := L.lo_le
  have h2m := square_bounds hm hmm
  obtain ⟨t, h1, _, h4, h5⟩ := (C28_mul hw h128 T m (by omega) P.n hn (by omega) a b (fun x hx y hy => by
    have h1 := har x hx
    have h2 := hbr y hy
    have := Int.mul_nonneg h1.1 h2.1
    have : val x * val y ≤ (m - 1) * (m - 1) := Int.mul_le_mul (by omega) (by omega) h2.1 (by omega)
    have : ((m : Int) - 1) * (m - 1) = m * m - 2 * m + 1 := by ring
    omega)).1
  obtain ⟨q, r, h6, _, h7, _, h8, h9, h10, _⟩ := C29_div_partial hw h128 T m hm P.n hn t f h4 hfr hu hmm h3
  have hfl : f.length = P.l + 1 := by
    have := length_setSparse hf
    simpa using this
  have hdl : (pol (ZMod m) val f).natDegree ≤ P.l := by
    rw [natDegree_le_iff_coeff_eq_zero]
    intro k hk
    rw [coeff_pol, at_ge (by omega)]; simp
  obtain ⟨r', h11, h12, h13⟩ := fromVec_ok L hf (v := r) (by rw [h7]; exact hdl)
  have he : polyOf (ZMod m) (r'.map val) = polyOf (ZMod m) (r.map val) := by
    show pol _ _ _ = pol _ _ _
    ext k; rw [coeff_pol, coeff_pol, h13]
  refine ⟨r', ?_, h12, reduced_of_at fun k => by rw [h13]; exact reduced_at (by omega) h8 k, ?_, by rw [he]; exact h10⟩
  · rw [pMul, h1, bind_ok, hf, bind_ok, h6, bind_ok, h11]
  · refine ⟨polyOf (ZMod m) (q.map val), ?_⟩
    rw [he, ← h5, h9]; ring

/-- C59: `*` of a `poly!` type with a monic modulus, for every `n > 1` whose square is representable. -/
theorem C59_mul_monic (hw : 1 < w) (h128 : w ≤ 128) (T : Coeff N val lo B) (P : PolyTy w) (m : Nat) (hm : 1 < m)
    (hn : val P.n = m) (f : List (BitVec w)) (hf : irr P = .ok f) (hfr : Reduced val m f)
    (hmon : (polyOf (ZMod m) (f.map val)).Monic) (hmm : (m : Int) * m ≤ B)
    (a b : List (BitVec w)) (har : Reduced val m a) (hbr : Reduced val m b) :
    ∃ r, pMul N P a b = .ok r ∧ r.length = P.l ∧ Reduced val m r ∧
      polyOf (ZMod m) (r.map val) =
        (polyOf (ZMod m) (a.map val) * polyOf (ZMod m) (b.map val)) %ₘ polyOf (ZMod m) (f.map val) := by
  have : Fact (1 < m) := ⟨hm⟩
  obtain ⟨r, h1, h2, h3, ⟨c, h4⟩, h5⟩ := C59_mul_partial hw h128 T P m hm hn f hf hfr
    (by rw [hmon.leadingCoeff]; exact isUnit_one) hmm (divFits_monic hm hmm hfr hmon) a b har hbr
  refine ⟨r, h1, h2, h3, ?_⟩
  exact (div_modByMonic_unique c (polyOf (ZMod m) (r.map val)) hmon ⟨by rw [← h4]; ring, h5⟩).2.symm

/-- C59: `/` of a `poly!` type is division with remainder in `ℤ_n[X]`. -/
theorem C59_div_partial (hw : 1 < w) (h128 : w ≤ 128) (T : Coeff N val lo B) (P : PolyTy w) (m : Nat) (hm : 1 < m)
    (hn : val P.n = m) (f : List (BitVec w)) (hf : irr P = .ok f)
    (a b : List (BitVec w)) (ha : a.length = P.l) (hb : b.length = P.l) (har : Reduced val m a) (hbr : Reduced val m b)
    (hu : IsUnit (polyOf (ZMod m) (b.map val)).leadingCoeff) (hmm : (m : Int) * m ≤ B) (h3 : DivFits val B m b) :
    ∃ q r, pDiv N P a b = .ok (q, r) ∧ q.length = P.l ∧ r.length = P.l ∧
      polyOf (ZMod m) (a.map val) = polyOf (ZMod m) (q.map val) * polyOf (ZMod m) (b.map val) + polyOf (ZMod m) (r.map val) ∧
      (polyOf (ZMod m) (r.map val)).degree < (polyOf (ZMod m) (b.map val)).degree := by
  have L := T.lawful hw h128
  obtain ⟨q, r, h6, h7, h8, _, _, h9, h10, _⟩ := C29_div_partial hw h128 T m hm P.n hn a b har hbr hu hmm h3
  have hdl : (pol (ZMod m) val b).natDegree ≤ P.l := by
    rw [natDegree_le_iff_coeff_eq_zero]
    intro k hk
    rw [coeff_pol, at_ge (by omega)]; simp
  obtain ⟨q', h11, h12, h13⟩ := fromVec_ok L hf (v := q) (by omega)
  obtain ⟨r', h14, h15, h16⟩ := fromVec_ok L hf (v := r) (by rw [h8]; exact hdl)
  have hq : polyOf (ZMod m) (q'.map val) = polyOf (ZMod m) (q.map val) := by
    show pol _ _ _ = pol _ _ _
    ext k; rw [coeff_pol, coeff_pol, h13]
  have hr : polyOf (ZMod m) (r'.map val) = polyOf (ZMod m) (r.map val) := by
    show pol _ _ _ = pol _ _ _
    ext k; rw [coeff_pol, coeff_pol, h16]
  refine ⟨q', r', ?_, h12, h15, by rw [hq, hr]; exact h9, by rw [hr]; exact h10⟩
  rw [pDiv, h6, bind_ok, h11, bind_ok, h14, bind_ok]

/-- C59: `from_vec` keeps every polynomial that fits the declared length. -/
theorem C59_from_vec (hw : 1 < w) (h128 : w ≤ 128) (T : Coeff N val lo B) (P : PolyTy w) (f v : List (BitVec w))
    (hf : irr P = .ok f) (hv : (polyOf ℤ (v.map val)).degree < P.l) :
    ∃ r, fromVec P v = .ok r ∧ r.length = P.l ∧ polyOf ℤ (r.map val) = polyOf ℤ (v.map val) := by
  have L := T.lawful hw h128
  have h := C30_make_fixed_length_poly hw h128 T ℤ v P.l hv
  have hl : (leadingCoefficient v).1 ≤ P.l := by
    rw [(C30_leading_coefficient hw h128 T v).1]
    exact natDegree_le_of_degree_le (le_of_lt hv)
  exact ⟨makeFixedLength v P.l, by rw [fromVec, require_true hl, bind_ok, hf, bind_ok]; rfl,
    length_makeFixedLength _ _, h⟩

/-- C59, disagreement: the size check of `from_vec` is `degree ≤ l`, so a polynomial of degree exactly `l` is accepted
and its leading coefficient is silently dropped, instead of the documented panic. -/
theorem C59_from_vec_truncates_refuted (hw : 1 < w) (h128 : w ≤ 128) (T : Coeff N val lo B) (P : PolyTy w)
    (f v : List (BitVec w)) (hf : irr P = .ok f) (hv0 : ∃ a ∈ v, a ≠ 0#w)
    (hv : (polyOf ℤ (v.map val)).natDegree = P.l) :
    ∃ r, fromVec P v = .ok r ∧ polyOf ℤ (r.map val) ≠ polyOf ℤ (v.map val) := by
  have L := T.lawful hw h128
  have hl := C30_leading_coefficient hw h128 T v
  refine ⟨makeFixedLength v P.l, by rw [fromVec, require_true (by omega), bind_ok, hf, bind_ok]; rfl, ?_⟩
  intro he
  change pol ℤ val (makeFixedLength v P.l) = pol ℤ val v at he
  change (pol ℤ val v).natDegree = P.l at hv
  have h0 : (pol ℤ val v).coeff P.l = 0 := by
    rw [← he, coeff_pol, at_makeFixedLength L.zero, if_neg (by omega)]; rfl
  rw [← hv] at h0
  have h1 : pol ℤ val v = 0 := leadingCoeff_eq_zero.1 h0
  obtain ⟨a, ha, ha0⟩ := hv0
  obtain ⟨k, hk, rfl⟩ := List.mem_iff_getElem.1 ha
  apply ha0
  have h2 : ((at' val v k : Int) : ℤ) = 0 := by have e := coeff_pol (val := val) ℤ v k; rw [h1] at e; simpa using e.symm
  rw [at_lt hk] at h2
  exact L.inj _ _ (by rw [L.zero]; exact_mod_cast h2)

/-- C59: a polynomial of degree above `l` panics. -/
theorem C59_from_vec_panic (hw : 1 < w) (h128 : w ≤ 128) (T : Coeff N val lo B) (P : PolyTy w) (v : List (BitVec w))
    (hv : P.l < (polyOf ℤ (v.map val)).natDegree) : fromVec P v = panic := by
  rw [fromVec, require_false (by rw [(C30_leading_coefficient hw h128 T v).1]; omega), bind_panic]

/-- `ℤ₁₁[X]/(X³ + 2X + 2)`, as in `tests/test_poly.rs`. -/
def testRing : PolyTy 128 := { l := 3, n := 11#128, m := [(0, 2#128), (1, 2#128), (3, 1#128)] }

example : ∃ r, pMul numPubU testRing [1#128, 0#128, 2#128] [0#128, 1#128, 1#128] = .ok r ∧ r.length = 3 ∧
    Reduced (fun a => a.toNat) (11 : Nat) r ∧
    polyOf (ZMod 11) [2, 2, 0, 1] ∣ polyOf (ZMod 11) [1, 0, 2] * polyOf (ZMod 11) [0, 1, 1]
      - polyOf (ZMod 11) (r.map fun a => (a.toNat : Int)) := by
  have e : polyOf (ZMod 11) [2, 2, 0, 1] = X ^ 3 + C 2 * X + C 2 := by
    simp only [polyOf]; push_cast; simp only [C_0, C_1]; ring
  have hd : (X ^ 3 + C 2 * X + C 2 : (ZMod 11)[X]).natDegree = 3 := by
    have : (1 : ZMod 11) ≠ 0 := by decide
    compute_degree!
  obtain ⟨r, h1, h2, h3, h4, _⟩ := C59_mul_partial (w := 128) (by decide) (by decide) Coeff.pubU testRing 11 (by decide)
    (by decide) [2#128, 2#128, 0#128, 1#128] rfl (by simp [Reduced])
    (by
      show IsUnit (polyOf (ZMod 11) [2, 2, 0, 1]).leadingCoeff
      rw [e, leadingCoeff, hd]; simp [coeff_X, coeff_C])
    (by decide) (divFits_cube (by decide) (by decide) (by simp [Reduced])).2 [1#128, 0#128, 2#128] [0#128, 1#128, 1#128] (by simp [Reduced]) (by simp [Reduced])
  exact ⟨r, h1, h2, h3, h4⟩

theorem testRing_monic : (polyOf (ZMod 11) [2, 2, 0, 1]).Monic := by
  have e : polyOf (ZMod 11) [2, 2, 0, 1] = X ^ 3 + (C 2 * X + C 2) := by
    simp only [polyOf]; push_cast; simp only [C_0, C_1]; ring
  rw [e]
  refine monic_X_pow_add ?_
  refine (degree_linear_le (a := (2 : ZMod 11)) (b := 2)).trans_lt ?_
  exact_mod_cast (by decide : 1 < 3)

example := C59_mul_monic (w := 128) (by decide) (by decide) Coeff.pubU testRing 11 (by decide)
    (by decide) [2#128, 2#128, 0#128, 1#128] rfl (by simp [Reduced]) testRing_monic (by decide)
    [1#128, 0#128, 2#128] [0#128, 1#128, 1#128] (by simp [Reduced]) (by simp [Reduced])

example := C29_div_monic (w := 8) (by decide) (by decide) Coeff.secU 11 (by decide) 11#8
    (by decide) [7#8, 1#8, 10#8, 5#8, 3#8] [2#8, 2#8, 0#8, 1#8] (by simp [Reduced]) (by simp [Reduced]) testRing_monic (by decide)

example : ∃ r, fromVec testRing [1#128, 2#128, 3#128, 4#128] = .ok r ∧ r = [1#128, 2#128, 3#128] := ⟨_, rfl, rfl⟩

end Hacspec.Props
