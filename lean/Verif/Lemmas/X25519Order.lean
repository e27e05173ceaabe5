import Verif.Lemmas.X25519
import Verif.Lemmas.NatEval
import Verif.Lemmas.OrderPrimes
import Mathlib.FieldTheory.Finite.Basic
import Mathlib.Algebra.CharP.Frobenius

/-!
# The orders of Curve25519 and of its twist

Let `K` be a field of characteristic `p`.  The points `(x, y)` of the curve over `K` with `x^p = x` have `y^p = y` (they are the
points of the curve over the prime field) or `y^p = -y` (the twist).  Both sets are groups.  Together they have at most
`2 p + 2` elements; they contain points of order `8`, `ℓ` and `4`, `ℓ'`; and `8 ℓ + 4 ℓ' = 2 p + 2`.
-/

namespace Hacspec.Curve25519.Order

open WeierstrassCurve NatEval
open Spec.X25519 (curve)

/-! ## A ladder evaluated by the kernel -/

def stepN (q u X2 Z2 X3 Z3 : Nat) (f : Nat → Nat → Nat → Nat → α) : α :=
  force (X2 + Z2) fun a =>
  force (mul q a a) fun aa =>
  force (sub q X2 Z2) fun b =>
  force (mul q b b) fun bb =>
  force (sub q aa bb) fun e =>
  force (mul q (sub q X3 Z3) a) fun da =>
  force (mul q (X3 + Z3) b) fun cb =>
  force (mul q (da + cb) (da + cb)) fun X3' =>
  force (mul q u (mul q (sub q da cb) (sub q da cb))) fun Z3' =>
  force (mul q aa bb) fun X2' =>
  force (mul q e (aa + 121665 * e)) fun Z2' => f X2' Z2' X3' Z3'

/-- From the coordinates of `(k / 2^i) P` and `(k / 2^i + 1) P` to the `Z` of `k P`. -/
def ladderN (q u k : Nat) : Nat → Nat → Nat → Nat → Nat → Nat
  | 0, _, Z2, _, _ => Z2
  | i + 1, X2, Z2, X3, Z3 =>
    if k.testBit i then stepN q u X3 Z3 X2 Z2 fun X3 Z3 X2 Z2 => ladderN q u k i X2 Z2 X3 Z3
    else stepN q u X2 Z2 X3 Z3 fun X2 Z2 X3 Z3 => ladderN q u k i X2 Z2 X3 Z3

section
variable {K : Type} [Field K] {q : Nat} [CharP K q] [DecidableEq K]

theorem stepN_ok (hq : 0 < q) (h2 : (2 : K) ≠ 0) (hA : (486662 : K) ^ 2 - 4 ≠ 0) {u : Nat} {y : K}
    {hn : (curve K).Nonsingular (u : K) y} (hu : (u : K) ≠ 0) {P Q : (curve K).Point}
    (hPQ : Q = P + .some _ _ hn ∨ P = Q + .some _ _ hn) {X2 Z2 X3 Z3 : Nat}
    (hP : Montgomery.Rep P (X2 : K) Z2) (hQ : Montgomery.Rep Q (X3 : K) Z3) (f : Nat → Nat → Nat → Nat → α) :
    ∃ X2' Z2' X3' Z3' : Nat, stepN q u X2 Z2 X3 Z3 f = f X2' Z2' X3' Z3' ∧ Montgomery.Rep (P + P) (X2' : K) Z2' ∧
      Montgomery.Rep (P + Q) (X3' : K) Z3' := by
  simp only [stepN, force_eq]
  refine ⟨_, _, _, _, rfl, ?_, ?_⟩
  · have := Montgomery.rep_double h2 hA hP
    simp only [cast_sub hq, cast_mul, Nat.cast_mul, Nat.cast_add, Nat.cast_ofNat]
    convert this using 1 <;> ring
  · simp only [cast_sub hq, cast_mul, Nat.cast_add]
    rcases hPQ with hPQ | hPQ
    · have := Montgomery.rep_add h2 hA (P := P) (Q := Q) (hn := hn) hPQ hu hP hQ
      convert this using 1 <;> ring
    · have := Montgomery.rep_add h2 hA (P := Q) (Q := P) (hn := hn) hPQ hu hQ hP
      rw [add_comm P Q]
      convert this using 1 <;> ring

theorem ladderN_ok (hq : 0 < q) (h2 : (2 : K) ≠ 0) (hA : (486662 : K) ^ 2 - 4 ≠ 0) {u : Nat} {y : K}
    {hn : (curve K).Nonsingular (u : K) y} (hu : (u : K) ≠ 0) (k : Nat) : ∀ (i X2 Z2 X3 Z3 : Nat),
    Montgomery.Rep ((k / 2 ^ i) • Affine.Point.some _ _ hn) (X2 : K) Z2 →
    Montgomery.Rep ((k / 2 ^ i + 1) • Affine.Point.some _ _ hn) (X3 : K) Z3 →
    ∃ X : K, Montgomery.Rep (k • Affine.Point.some _ _ hn) X (ladderN q u k i X2 Z2 X3 Z3 : Nat)
  | 0, X2, Z2, X3, Z3, h, _ => ⟨X2, by simpa [ladderN] using h⟩
  | i + 1, X2, Z2, X3, Z3, h, h' => by
    have hb : k / 2 ^ i = 2 * (k / 2 ^ (i + 1)) + (k.testBit i).toNat := by
      rw [Nat.pow_succ, ← Nat.div_div_eq_div_mul, Nat.testBit_eq_decide_div_mod_eq]
      generalize k / 2 ^ i = t
      by_cases h : t % 2 = 1
      · simp only [h, decide_true, Bool.toNat_true]; omega
      · simp only [h, decide_false, Bool.toNat_false]; omega
    rw [ladderN]
    generalize k / 2 ^ (i + 1) = m at hb h h'
    have hadd : (m + 1) • Affine.Point.some _ _ hn = m • Affine.Point.some _ _ hn + Affine.Point.some _ _ hn :=
      succ_nsmul _ _
    cases hk : k.testBit i with
    | true =>
      rw [hk] at hb
      simp only [if_true]
      obtain ⟨X3', Z3', X2', Z2', e, h1, h3⟩ := stepN_ok hq h2 hA hu (Or.inr hadd) h' h
        fun X3 Z3 X2 Z2 => ladderN q u k i X2 Z2 X3 Z3
      rw [e]
      refine ladderN_ok hq h2 hA hu k i X2' Z2' X3' Z3' ?_ ?_
      · rw [hb, show 2 * m + Bool.toNat true = m + 1 + m by simp; omega, add_nsmul (m := m + 1)]
        exact h3
      · rw [hb, show 2 * m + Bool.toNat true + 1 = m + 1 + (m + 1) by simp; omega, add_nsmul (m := m + 1)]
        exact h1
    | false =>
      rw [hk] at hb
      simp only [Bool.false_eq_true, if_false]
      obtain ⟨X2', Z2', X3', Z3', e, h1, h3⟩ := stepN_ok hq h2 hA hu (Or.inl hadd) h h'
        fun X2 Z2 X3 Z3 => ladderN q u k i X2 Z2 X3 Z3
      rw [e]
      refine ladderN_ok hq h2 hA hu k i X2' Z2' X3' Z3' ?_ ?_
      · rw [hb, show 2 * m + Bool.toNat false = m + m by simp; omega, add_nsmul (m := m)]
        exact h1
      · rw [hb, show 2 * m + Bool.toNat false + 1 = m + (m + 1) by simp; omega, add_nsmul (m := m)]
        exact h3

/-- The `Z`-coordinate decides whether `k P = 0`. -/
theorem ladderN_zero (hq : 0 < q) (h2 : (2 : K) ≠ 0) (hA : (486662 : K) ^ 2 - 4 ≠ 0) {u : Nat} {y : K}
    {hn : (curve K).Nonsingular (u : K) y} (hu : (u : K) ≠ 0) {k i : Nat} (hk : k < 2 ^ i) :
    k • Affine.Point.some _ _ hn = 0 ↔ ladderN q u k i 1 0 u 1 % q = 0 := by
  obtain ⟨X, h⟩ := ladderN_ok hq h2 hA (hn := hn) hu k i 1 0 u 1
    (by rw [Nat.div_eq_of_lt hk, zero_smul]; exact ⟨by simp, by simp⟩)
    (by rw [Nat.div_eq_of_lt hk, zero_add, one_smul]; exact ⟨by simp, by simp⟩)
  rw [← Nat.dvd_iff_mod_eq_zero, ← CharP.cast_eq_zero_iff K q]
  generalize k • Affine.Point.some _ _ hn = Q at h
  cases Q with
  | zero => exact ⟨fun _ => h.2, fun _ => rfl⟩
  | some x y hn => exact ⟨fun h0 => absurd h0 (Affine.Point.some_ne_zero _), fun h0 => absurd h0 h.1⟩

end

abbrev q0 : Nat := 57896044618658097711785492504343953926634992332820282019728792003956564819949

/-! ## The two groups -/

section
variable {K : Type} [Field K] [DecidableEq K]

variable {L : Type} [Field L] [DecidableEq L]

omit [DecidableEq K] [DecidableEq L] in
theorem map_A (φ : L →+* K) : φ 486662 = 486662 := map_ofNat φ 486662

omit [DecidableEq K] [DecidableEq L] in
theorem curve_map (φ : L →+* K) : Affine.map (curve L) φ = curve K := by
  ext <;> simp [curve, Affine.map, map_A]

/-- A field homomorphism acts on the points. -/
noncomputable def mapHom (φ : L →+* K) : (curve L).Point →+ (curve K).Point where
  toFun P := match P with
    | .zero => .zero
    | .some x y h => .some (φ x) (φ y) (by
        have := (Affine.map_nonsingular (curve L) φ.injective x y).mpr h
        rwa [curve_map] at this)
  map_zero' := rfl
  map_add' := by
    have hneg : ∀ x y, (curve K).negY (φ x) (φ y) = φ ((curve L).negY x y) := by
      intro x y; rw [Montgomery.negY, Montgomery.negY, map_neg]
    have hs : ∀ x₁ x₂ y₁ y₂, (curve K).slope (φ x₁) (φ x₂) (φ y₁) (φ y₂) = φ ((curve L).slope x₁ x₂ y₁ y₂) := by
      intro x₁ x₂ y₁ y₂
      have := Affine.map_slope (W := curve L) φ x₁ x₂ y₁ y₂
      rwa [curve_map] at this
    have hx : ∀ x₁ x₂ l, (curve K).addX (φ x₁) (φ x₂) (φ l) = φ ((curve L).addX x₁ x₂ l) := by
      intro x₁ x₂ l; simp [Affine.addX, curve, map_A]
    have hy : ∀ x₁ x₂ y₁ l, (curve K).addY (φ x₁) (φ x₂) (φ y₁) (φ l) = φ ((curve L).addY x₁ x₂ y₁ l) := by
      intro x₁ x₂ y₁ l; simp [Affine.addY, Affine.negAddY, Affine.negY, Affine.addX, curve, map_A]
    rintro (_ | ⟨x₁, y₁, h₁⟩) (_ | ⟨x₂, y₂, h₂⟩)
    any_goals rfl
    by_cases hxy : x₁ = x₂ ∧ y₁ = (curve L).negY x₂ y₂
    · rw [Affine.Point.add_of_Y_eq hxy.1 hxy.2]
      exact (Affine.Point.add_of_Y_eq (congrArg φ hxy.1) (by rw [hxy.2, hneg])).symm
    · rw [Affine.Point.add_some hxy]
      have hxy' : ¬ (φ x₁ = φ x₂ ∧ φ y₁ = (curve K).negY (φ x₂) (φ y₂)) := by
        rw [hneg]
        exact fun h => hxy ⟨φ.injective h.1, φ.injective h.2⟩
      refine Eq.trans ?_ (Affine.Point.add_some hxy').symm
      simp only [hs, hx, hy]

variable (K) (q : Nat) [Fact q.Prime] [CharP K q]

/-- The points over the prime field. -/
noncomputable def plus : AddSubgroup (curve K).Point := (mapHom (frobenius K q)).eqLocus (AddMonoidHom.id _)

/-- The points of the twist. -/
noncomputable def minus : AddSubgroup (curve K).Point := (mapHom (frobenius K q)).eqLocus (-AddMonoidHom.id _)

variable {K q}

theorem mem_plus {x y : K} {h : (curve K).Nonsingular x y} : .some x y h ∈ plus K q ↔ x ^ q = x ∧ y ^ q = y := by
  change Affine.Point.some _ _ _ = Affine.Point.some _ _ _ ↔ _
  rw [Affine.Point.some.injEq, frobenius_def, frobenius_def]

theorem mem_minus {x y : K} {h : (curve K).Nonsingular x y} : .some x y h ∈ minus K q ↔ x ^ q = x ∧ y ^ q = -y := by
  change Affine.Point.some _ _ _ = -Affine.Point.some x y h ↔ _
  rw [Affine.Point.neg_some, Affine.Point.some.injEq, frobenius_def, frobenius_def, Montgomery.negY]

/-- Every point with its `x`-coordinate in the prime field is in one of the groups. -/
theorem mem_or {x y : K} (h : (curve K).Nonsingular x y) (hx : x ^ q = x) :
    .some x y h ∈ plus K q ∨ .some x y h ∈ minus K q := by
  have he := Montgomery.equation.mp h.1
  have h2 : (y ^ q) ^ 2 = y ^ 2 := by
    have e : ∀ z : K, frobenius K q z = z ^ q := fun z => frobenius_def ..
    rw [← pow_mul, mul_comm, pow_mul, he, ← e, map_add, map_add, map_mul, map_pow, map_pow, e, hx, map_A]
  rcases sq_eq_sq_iff_eq_or_eq_neg.mp h2 with h3 | h3
  · exact Or.inl (mem_plus.mpr ⟨hx, h3⟩)
  · exact Or.inr (mem_minus.mpr ⟨hx, h3⟩)

/-! ## How many points -/

variable (K q) in
/-- The elements of the prime field. -/
abbrev Base : Type := {x : K // x ^ q = x}

omit [DecidableEq K] [CharP K q] in
theorem card_base : Finite (Base K q) ∧ Nat.card (Base K q) ≤ q := by
  have h1 : 1 < q := (Fact.out : q.Prime).one_lt
  let P : Polynomial K := Polynomial.X ^ q - Polynomial.X
  have hP : P ≠ 0 := FiniteField.X_pow_card_sub_X_ne_zero K h1
  have hd : P.natDegree = q := FiniteField.X_pow_card_sub_X_natDegree_eq K h1
  classical
  have hi : Function.Injective (fun x : Base K q => (⟨x.1, by
      rw [Multiset.mem_toFinset, Polynomial.mem_roots hP]
      simp [P, Polynomial.IsRoot, x.2]⟩ : P.roots.toFinset)) := by
    intro x y h
    exact Subtype.ext (Subtype.mk.inj h)
  refine ⟨Finite.of_injective _ hi, ?_⟩
  have := Nat.card_le_card_of_injective _ hi
  have hc : Nat.card P.roots.toFinset = P.roots.toFinset.card := Nat.card_eq_fintype_card.trans (Fintype.card_coe _)
  rw [hc] at this
  exact this.trans ((Multiset.toFinset_card_le _).trans ((Polynomial.card_roots' P).trans hd.le))

open Classical in
/-- A square root of the right-hand side of the curve equation. -/
noncomputable def root (x : K) : K :=
  if h : ∃ y : K, y ^ 2 = x ^ 3 + 486662 * x ^ 2 + x then h.choose else 0

omit [DecidableEq K] in
theorem root_spec {x y : K} (h : y ^ 2 = x ^ 3 + 486662 * x ^ 2 + x) : y = root x ∨ y = - root x := by
  have hex : ∃ y : K, y ^ 2 = x ^ 3 + 486662 * x ^ 2 + x := ⟨y, h⟩
  have : (root x) ^ 2 = x ^ 3 + 486662 * x ^ 2 + x := by
    rw [root, dif_pos hex]; exact hex.choose_spec
  exact sq_eq_sq_iff_eq_or_eq_neg.mp (h.trans this.symm)

variable (K q) in
/-- Both groups, side by side. -/
abbrev Both : Type := plus K q ⊕ minus K q

noncomputable def code : Both K q → Option (Base K q) × Bool
  | .inl ⟨.zero, _⟩ => (none, true)
  | .inr ⟨.zero, _⟩ => (none, false)
  | .inl ⟨.some x y _, h⟩ => (some ⟨x, (mem_plus.mp h).1⟩, if y = 0 then true else decide (y = root x))
  | .inr ⟨.some x y _, h⟩ => (some ⟨x, (mem_minus.mp h).1⟩, if y = 0 then false else decide (y = root x))

omit [DecidableEq K] in
theorem zero_iff {x y y' : K} (h : y ^ 2 = x ^ 3 + 486662 * x ^ 2 + x) (h' : y' ^ 2 = x ^ 3 + 486662 * x ^ 2 + x) :
    y = 0 ↔ y' = 0 := by
  rw [← pow_eq_zero_iff (two_ne_zero), h, ← h', pow_eq_zero_iff (two_ne_zero)]

theorem same_y {x y y' : K} (h : y ^ 2 = x ^ 3 + 486662 * x ^ 2 + x) (h' : y' ^ 2 = x ^ 3 + 486662 * x ^ 2 + x) {b : Bool}
    (he : (if y = 0 then b else decide (y = root x)) = (if y' = 0 then b else decide (y' = root x))) : y = y' := by
  by_cases h0 : y = 0
  · rw [h0, (zero_iff h h').mp h0]
  · have h0' : y' ≠ 0 := fun h1 => h0 ((zero_iff h h').mpr h1)
    rw [if_neg h0, if_neg h0', decide_eq_decide] at he
    rcases root_spec h with h1 | h1
    · rw [h1, he.mp h1]
    · rcases root_spec h' with h2 | h2
      · rw [h2, he.mpr h2]
      · rw [h1, h2]

theorem not_both (h2 : (2 : K) ≠ 0) {x y y' : K} (h : y ^ 2 = x ^ 3 + 486662 * x ^ 2 + x)
    (h' : y' ^ 2 = x ^ 3 + 486662 * x ^ 2 + x) (hy : y ^ q = y) (hy' : y' ^ q = -y')
    (he : (if y = 0 then true else decide (y = root x)) = (if y' = 0 then false else decide (y' = root x))) : False := by
  by_cases h0 : y = 0
  · rw [if_pos h0, if_pos ((zero_iff h h').mp h0)] at he
    simp at he
  · have h0' : y' ≠ 0 := fun h1 => h0 ((zero_iff h h').mpr h1)
    have hyy : y = y' ∨ y = -y' := sq_eq_sq_iff_eq_or_eq_neg.mp (h.trans h'.symm)
    apply h0'
    have : 2 * y' = 0 := by
      rcases hyy with e | e
      · rw [e, hy'] at hy; linear_combination -hy
      · have e' : frobenius K q (-y') = - frobenius K q y' := map_neg _ _
        rw [frobenius_def, frobenius_def, hy', neg_neg] at e'
        rw [e, e'] at hy; linear_combination hy
    exact (mul_eq_zero.mp this).resolve_left h2

theorem code_injective (h2 : (2 : K) ≠ 0) : Function.Injective (code (K := K) (q := q)) := by
  have eq := fun {x y : K} (h : (curve K).Nonsingular x y) => Montgomery.equation.mp h.1
  rintro (⟨_ | ⟨x, y, h⟩, hm⟩ | ⟨_ | ⟨x, y, h⟩, hm⟩) (⟨_ | ⟨x', y', h'⟩, hm'⟩ | ⟨_ | ⟨x', y', h'⟩, hm'⟩) he
  all_goals simp only [code, Prod.mk.injEq, Option.some.injEq, Subtype.mk.injEq, reduceCtorEq, false_and,
    and_false, Bool.false_eq_true, Bool.true_eq_false] at he
  · rfl
  · obtain ⟨rfl, he⟩ := he
    have := same_y (eq h) (eq h') he
    subst this
    rfl
  · obtain ⟨rfl, he⟩ := he
    exact (not_both h2 (eq h) (eq h') (mem_plus.mp hm).2 (mem_minus.mp hm').2 he).elim
  · rfl
  · obtain ⟨rfl, he⟩ := he
    exact (not_both h2 (eq h') (eq h) (mem_plus.mp hm').2 (mem_minus.mp hm).2 he.symm).elim
  · obtain ⟨rfl, he⟩ := he
    have := same_y (eq h) (eq h') he
    subst this
    rfl

theorem card_both (h2 : (2 : K) ≠ 0) : Finite (plus K q) ∧ Finite (minus K q) ∧
    Nat.card (plus K q) + Nat.card (minus K q) ≤ 2 * q + 2 := by
  obtain ⟨hf, hc⟩ := card_base (K := K) (q := q)
  have hi := code_injective (K := K) (q := q) h2
  have hfin : Finite (Both K q) := Finite.of_injective _ hi
  have h1 : Finite (plus K q) := Finite.of_injective (Sum.inl : plus K q → Both K q) Sum.inl_injective
  have h3 : Finite (minus K q) := Finite.of_injective (Sum.inr : minus K q → Both K q) Sum.inr_injective
  refine ⟨h1, h3, ?_⟩
  have := Nat.card_le_card_of_injective _ hi
  have hb : Nat.card Bool = 2 := by simp
  rw [Nat.card_sum, Nat.card_prod, Finite.card_option, hb] at this
  omega

/-! ## The points over the prime field -/

omit [DecidableEq K] in
theorem base_surj {x : K} (hx : x ^ q = x) : ∃ z : ZMod q, ZMod.castHom (dvd_refl q) K z = x := by
  obtain ⟨hf, hc⟩ := card_base (K := K) (q := q)
  have hq : NeZero q := ⟨(Fact.out : q.Prime).ne_zero⟩
  let g : ZMod q → Base K q := fun z => ⟨ZMod.castHom (dvd_refl q) K z, by
    rw [← map_pow, ZMod.pow_card]⟩
  have hg : Function.Injective g := fun a b h => (ZMod.castHom (dvd_refl q) K).injective (Subtype.mk.inj h)
  have hb : Function.Bijective g := hg.bijective_of_nat_card_le (by rwa [Nat.card_zmod])
  obtain ⟨z, hz⟩ := hb.2 ⟨x, hx⟩
  exact ⟨z, Subtype.mk.inj hz⟩

theorem card_prime_field : Nat.card (curve (ZMod q)).Point = Nat.card (plus K q) := by
  let φ : ZMod q →+* K := ZMod.castHom (dvd_refl q) K
  have hpow : ∀ z : ZMod q, (φ z) ^ q = φ z := fun z => by rw [← map_pow, ZMod.pow_card]
  let g : (curve (ZMod q)).Point → plus K q := fun P => ⟨mapHom φ P, by
    cases P with
    | zero => exact AddSubgroup.zero_mem _
    | some x y h => exact mem_plus.mpr ⟨hpow x, hpow y⟩⟩
  refine Nat.card_eq_of_bijective g ⟨?_, ?_⟩
  · intro P Q h
    have h := Subtype.mk.inj h
    cases P with
    | zero =>
      cases Q with
      | zero => rfl
      | some x y hn => exact absurd h.symm (Affine.Point.some_ne_zero _)
    | some x y hn =>
      cases Q with
      | zero => exact absurd h (Affine.Point.some_ne_zero _)
      | some x' y' hn' =>
        obtain ⟨h1, h2⟩ := (Affine.Point.some.injEq ..).mp h
        have h1 := φ.injective h1
        have h2 := φ.injective h2
        subst h1 h2
        rfl
  · rintro ⟨P, hP⟩
    cases P with
    | zero => exact ⟨.zero, rfl⟩
    | some x y hn =>
      obtain ⟨h1, h2⟩ := mem_plus.mp hP
      obtain ⟨x', rfl⟩ := base_surj h1
      obtain ⟨y', rfl⟩ := base_surj h2
      have hn' : (curve (ZMod q)).Nonsingular x' y' := by
        rw [← Affine.map_nonsingular (curve (ZMod q)) φ.injective, curve_map]
        exact hn
      exact ⟨.some x' y' hn', rfl⟩

/-- Euler's criterion decides in which group a point is. -/
theorem pow_y {x y : K} (h2 : q % 2 = 1) (h : (curve K).Nonsingular x y) :
    y ^ q = y * (x ^ 3 + 486662 * x ^ 2 + x) ^ ((q - 1) / 2) := by
  rw [← Montgomery.equation.mp h.1, ← pow_mul, ← pow_succ']
  congr 1; omega

omit [DecidableEq K] [Fact q.Prime] in
theorem cast_powMod (a e : Nat) : ((AbstractInt.powMod a e q : Nat) : K) = (a : K) ^ e := by
  rw [AbstractInt.powMod_eq, cast_modq, Nat.cast_pow]

/-- The right-hand side of the curve equation. -/
def rhs (u : Nat) : Nat := u ^ 3 + 486662 * u ^ 2 + u

omit [DecidableEq K] [Fact q.Prime] [CharP K q] in
theorem cast_rhs (u : Nat) : ((rhs u : Nat) : K) = (u : K) ^ 3 + 486662 * (u : K) ^ 2 + u := by
  rw [rhs]; push_cast; ring

theorem nat_pow (u : Nat) : (u : K) ^ q = u := by
  have h := map_natCast (frobenius K q) u
  rwa [frobenius_def] at h

theorem nat_plus {u : Nat} {y : K} {h : (curve K).Nonsingular (u : K) y} (h2 : q % 2 = 1)
    (he : AbstractInt.powMod (rhs u) ((q - 1) / 2) q = 1) : .some _ _ h ∈ plus K q := by
  rw [mem_plus]
  refine ⟨nat_pow u, ?_⟩
  rw [pow_y h2 h, ← cast_rhs, ← cast_powMod (q := q), he, Nat.cast_one, mul_one]

theorem nat_minus {u : Nat} {y : K} {h : (curve K).Nonsingular (u : K) y} (h2 : q % 2 = 1)
    (he : AbstractInt.powMod (rhs u) ((q - 1) / 2) q = q - 1) : .some _ _ h ∈ minus K q := by
  rw [mem_minus]
  refine ⟨nat_pow u, ?_⟩
  rw [pow_y h2 h, ← cast_rhs, ← cast_powMod (q := q), he, Nat.cast_sub (by omega), CharP.cast_eq_zero K q, Nat.cast_one]
  ring

end

/-! ## The orders -/

/-- The order of the base point. -/
abbrev ell : Nat := 2 ^ 252 + 27742317777372353535851937790883648493
/-- The order of a point of the twist. -/
abbrev ell' : Nat := 2 ^ 253 - 55484635554744707071703875581767296995
/-- The `u`-coordinate of a point of order 8. -/
abbrev u8 : Nat := 325606250916557431795983626356110631294008115727848805560023387167927233504

set_option maxRecDepth 100000 in
theorem eval_base : ladderN q0 9 ell 253 1 0 9 1 % q0 = 0 := by
  decide +kernel

set_option maxRecDepth 100000 in
theorem eval_twist : ladderN q0 2 ell' 253 1 0 2 1 % q0 = 0 := by
  decide +kernel

theorem eval_8 : ladderN q0 u8 8 4 1 0 u8 1 % q0 = 0 := by decide +kernel
theorem eval_4 : ladderN q0 u8 4 4 1 0 u8 1 % q0 ≠ 0 := by decide +kernel
theorem eval_t4 : ladderN q0 (q0 - 1) 4 4 1 0 (q0 - 1) 1 % q0 = 0 := by decide +kernel
theorem eval_t2 : ladderN q0 (q0 - 1) 2 4 1 0 (q0 - 1) 1 % q0 ≠ 0 := by decide +kernel
theorem euler_9 : AbstractInt.powMod (rhs 9) ((q0 - 1) / 2) q0 = 1 := by decide +kernel
theorem euler_8 : AbstractInt.powMod (rhs u8) ((q0 - 1) / 2) q0 = 1 := by decide +kernel
theorem euler_2 : AbstractInt.powMod (rhs 2) ((q0 - 1) / 2) q0 = q0 - 1 := by decide +kernel
theorem euler_t : AbstractInt.powMod (rhs (q0 - 1)) ((q0 - 1) / 2) q0 = q0 - 1 := by decide +kernel

theorem p_eq : Spec.X25519.p = q0 := by decide +kernel

section
variable {K : Type} [Field K] [DecidableEq K] [Fact q0.Prime] [CharP K q0]

omit [DecidableEq K] [Fact q0.Prime] in
theorem two_ne0 : (2 : K) ≠ 0 := by
  have : CharP K F.n := by rw [F_n, p_eq]; infer_instance
  exact two_ne

omit [DecidableEq K] [Fact q0.Prime] in
theorem A_ne0 : (486662 : K) ^ 2 - 4 ≠ 0 := by
  have : CharP K F.n := by rw [F_n, p_eq]; infer_instance
  exact A_ne

omit [DecidableEq K] [Fact q0.Prime] in
theorem cast_ne {u : Nat} (h : u % q0 ≠ 0) : (u : K) ≠ 0 :=
  fun h0 => h (Nat.mod_eq_zero_of_dvd ((CharP.cast_eq_zero_iff K q0 u).mp h0))

omit [DecidableEq K] [Fact q0.Prime] in
theorem exists_point (hex : ∀ x : K, ∃ y : K, y ^ 2 = x ^ 3 + 486662 * x ^ 2 + x) (x : K) :
    ∃ y, (curve K).Nonsingular x y := by
  have : CharP K F.n := by rw [F_n, p_eq]; infer_instance
  obtain ⟨y, hy⟩ := hex x
  exact ⟨y, nonsingular hy⟩

/-- The orders of the two groups. -/
theorem cards (hex : ∀ x : K, ∃ y : K, y ^ 2 = x ^ 3 + 486662 * x ^ 2 + x) :
    Nat.card (plus K q0) = 8 * ell ∧ Nat.card (minus K q0) = 4 * ell' := by
  obtain ⟨f1, f2, hle⟩ := card_both (K := K) (q := q0) two_ne0
  have hodd : q0 % 2 = 1 := by decide +kernel
  have hq : 0 < q0 := by decide +kernel
  have d1 : ell ∣ Nat.card (plus K q0) := by
    obtain ⟨y, hn⟩ := exists_point hex ((9 : Nat) : K)
    have : Fact ell.Prime := ⟨Primes.prime_25519_order⟩
    have h0 : ell • Affine.Point.some _ y hn = 0 := by
      rw [ladderN_zero (q := q0) (k := ell) hq two_ne0 A_ne0 (cast_ne (by decide +kernel)) (i := 253) (by decide +kernel)]
      exact eval_base
    rw [← addOrderOf_eq_prime h0 (Affine.Point.some_ne_zero _)]
    exact AddSubgroup.addOrderOf_dvd_natCard _ (nat_plus hodd euler_9)
  have d2 : 8 ∣ Nat.card (plus K q0) := by
    obtain ⟨y, hn⟩ := exists_point hex ((u8 : Nat) : K)
    have h0 : 2 ^ (2 + 1) • Affine.Point.some _ y hn = 0 :=
      (ladderN_zero hq two_ne0 A_ne0 (cast_ne (by decide +kernel)) (i := 4) (by decide)).mpr eval_8
    have h1 : ¬ 2 ^ 2 • Affine.Point.some _ y hn = 0 := fun h =>
      eval_4 ((ladderN_zero hq two_ne0 A_ne0 (cast_ne (by decide +kernel)) (k := 4) (i := 4) (by decide)).mp h)
    have : Fact (Nat.Prime 2) := ⟨Nat.prime_two⟩
    have ho := addOrderOf_eq_prime_pow h1 h0
    have := AddSubgroup.addOrderOf_dvd_natCard (plus K q0) (nat_plus (h := hn) hodd euler_8)
    rwa [ho] at this
  have d3 : ell' ∣ Nat.card (minus K q0) := by
    obtain ⟨y, hn⟩ := exists_point hex ((2 : Nat) : K)
    have : Fact ell'.Prime := ⟨Primes.prime_25519_twist⟩
    have h0 : ell' • Affine.Point.some _ y hn = 0 := by
      rw [ladderN_zero (q := q0) (k := ell') hq two_ne0 A_ne0 (cast_ne (by decide +kernel)) (i := 253) (by decide +kernel)]
      exact eval_twist
    rw [← addOrderOf_eq_prime h0 (Affine.Point.some_ne_zero _)]
    exact AddSubgroup.addOrderOf_dvd_natCard _ (nat_minus hodd euler_2)
  have d4 : 4 ∣ Nat.card (minus K q0) := by
    obtain ⟨y, hn⟩ := exists_point hex ((q0 - 1 : Nat) : K)
    have h0 : 2 ^ (1 + 1) • Affine.Point.some _ y hn = 0 :=
      (ladderN_zero hq two_ne0 A_ne0 (cast_ne (by decide +kernel)) (i := 4) (by decide)).mpr eval_t4
    have h1 : ¬ 2 ^ 1 • Affine.Point.some _ y hn = 0 := fun h =>
      eval_t2 ((ladderN_zero hq two_ne0 A_ne0 (cast_ne (by decide +kernel)) (k := 2) (i := 4) (by decide)).mp h)
    have : Fact (Nat.Prime 2) := ⟨Nat.prime_two⟩
    have ho := addOrderOf_eq_prime_pow h1 h0
    have := AddSubgroup.addOrderOf_dvd_natCard (minus K q0) (nat_minus (h := hn) hodd euler_t)
    rwa [ho] at this
  have c1 : Nat.Coprime 8 ell := by decide +kernel
  have c2 : Nat.Coprime 4 ell' := by decide +kernel
  have l1 := Nat.le_of_dvd Nat.card_pos (c1.mul_dvd_of_dvd_of_dvd d2 d1)
  have l2 := Nat.le_of_dvd Nat.card_pos (c2.mul_dvd_of_dvd_of_dvd d4 d3)
  have hs : 8 * ell + 4 * ell' = 2 * q0 + 2 := by decide +kernel
  generalize 8 * ell = s1 at *
  generalize 4 * ell' = s2 at *
  omega

theorem kill_plus (hex : ∀ x : K, ∃ y : K, y ^ 2 = x ^ 3 + 486662 * x ^ 2 + x) {P : (curve K).Point}
    (hP : P ∈ plus K q0) : ell • 8 • P = 0 := by
  have h := AddSubgroup.addOrderOf_dvd_natCard _ hP
  rw [(cards hex).1, addOrderOf_dvd_iff_nsmul_eq_zero] at h
  rw [← mul_nsmul]; exact h

theorem kill_minus (hex : ∀ x : K, ∃ y : K, y ^ 2 = x ^ 3 + 486662 * x ^ 2 + x) {P : (curve K).Point}
    (hP : P ∈ minus K q0) : ell' • 8 • P = 0 := by
  have h := AddSubgroup.addOrderOf_dvd_natCard _ hP
  rw [(cards hex).2, addOrderOf_dvd_iff_nsmul_eq_zero] at h
  have e : ell' • 8 • P = 2 • (4 * ell') • P := by
    rw [← mul_nsmul, ← mul_nsmul]; congr 1
  rw [e, h, nsmul_zero]

/-! ## Points of order dividing 8 -/

/-- The other `u`-coordinate of points of order 8. -/
abbrev u8' : Nat := 39382357235489614581723060781553021112529911719440698176882885853963445705823
/-- A square root of 486664. -/
abbrev s8 : Nat := 48802004052532134862652268456126542835229456083994414501085850622543968879637
/-- `(2 - 2 s8)^2 - 4`, not a square. -/
abbrev c8 : Nat := 14856279910349605081280299881395334804609297657786658129414739047344204649203

omit [DecidableEq K] in
theorem not_square {c : Nat} {t : K} (ht : t ^ q0 = t) (h : t ^ 2 = (c : K))
    (he : AbstractInt.powMod c ((q0 - 1) / 2) q0 = q0 - 1) : False := by
  have h1 : t ^ q0 = t * (t ^ 2) ^ ((q0 - 1) / 2) := by
    rw [← pow_mul, ← pow_succ']
    congr 1
  have h2 : (c : K) ^ ((q0 - 1) / 2) = -1 := by
    rw [← cast_powMod (q := q0), he, Nat.cast_sub (by decide +kernel), CharP.cast_eq_zero K q0, Nat.cast_one]
    ring
  rw [ht, h, h2] at h1
  have h3 : 2 * t = 0 := by linear_combination h1
  have h4 := (mul_eq_zero.mp h3).resolve_left two_ne0
  rw [h4] at h
  have h5 : (c : K) = 0 := by rw [← h]; ring
  rw [h5, zero_pow (by decide +kernel)] at h2
  have : (1 : K) = 0 := by linear_combination h2
  exact one_ne_zero this

theorem euler_A : AbstractInt.powMod (486662 ^ 2 - 4) ((q0 - 1) / 2) q0 = q0 - 1 := by decide +kernel
theorem euler_B : AbstractInt.powMod (q0 - 486660) ((q0 - 1) / 2) q0 = q0 - 1 := by decide +kernel
theorem euler_C : AbstractInt.powMod c8 ((q0 - 1) / 2) q0 = q0 - 1 := by decide +kernel

omit [DecidableEq K] [Fact q0.Prime] in
theorem cast_eq {a b : Nat} (h : a % q0 = b % q0) : (a : K) = b := by
  have := congrArg (fun n : Nat => (n : K)) h
  simpa only [cast_modq] using this

omit [Fact q0.Prime] in
theorem double_zero {x y : K} {h : (curve K).Nonsingular x y}
    (hd : Affine.Point.some x y h + Affine.Point.some x y h = 0) : x * (x ^ 2 + 486662 * x + 1) = 0 := by
  have h1 : Affine.Point.some x y h = - Affine.Point.some x y h := eq_neg_of_add_eq_zero_left hd
  rw [Affine.Point.neg_some] at h1
  have h2 := ((Affine.Point.some.injEq ..).mp h1).2
  rw [Montgomery.negY] at h2
  have h3 : 2 * y = 0 := by linear_combination h2
  have h4 := (mul_eq_zero.mp h3).resolve_left two_ne0
  have := Montgomery.equation.mp h.1
  rw [h4] at this
  linear_combination -this

omit [Fact q0.Prime] in
theorem double_some {x y x' y' : K} {h : (curve K).Nonsingular x y} {h' : (curve K).Nonsingular x' y'}
    (hd : Affine.Point.some x y h + Affine.Point.some x y h = .some x' y' h') :
    (x ^ 2 - 1) ^ 2 = x' * (4 * x * (x ^ 2 + 486662 * x + 1)) := by
  have := Montgomery.rep_double (P := .some x y h) (X := x) (Z := 1) two_ne0 A_ne0 ⟨one_ne_zero, by ring⟩
  rw [hd] at this
  linear_combination this.2

variable (K) in
/-- The points with a rational `x`-coordinate. -/
def Good (P : (curve K).Point) : Prop := P ∈ plus K q0 ∨ P ∈ minus K q0

theorem Good.double {P : (curve K).Point} (h : Good K P) : Good K (P + P) := by
  rcases h with h | h
  · exact Or.inl (AddSubgroup.add_mem _ h h)
  · exact Or.inr (AddSubgroup.add_mem _ h h)

theorem Good.x {x y : K} {h : (curve K).Nonsingular x y} (hg : Good K (.some x y h)) : x ^ q0 = x := by
  rcases hg with hg | hg
  · exact (mem_plus.mp hg).1
  · exact (mem_minus.mp hg).1

omit [DecidableEq K] in
theorem frob_poly {x : K} (hx : x ^ q0 = x) (a : Nat) : (2 * x + a) ^ q0 = 2 * x + a := by
  have e : ∀ z : K, frobenius K q0 z = z ^ q0 := fun z => frobenius_def ..
  rw [← e, map_add, map_mul, e x, hx, map_ofNat, map_natCast]

omit [DecidableEq K] in
theorem quad_ne {x : K} (hx : x ^ q0 = x) : x ^ 2 + 486662 * x + 1 ≠ 0 := by
  intro h
  refine not_square (c := 486662 ^ 2 - 4) (frob_poly hx 486662) ?_ euler_A
  rw [Nat.cast_sub (by norm_num), Nat.cast_pow]
  push_cast
  linear_combination 4 * h

theorem order2 {x y : K} {h : (curve K).Nonsingular x y} (hg : Good K (.some x y h))
    (hd : Affine.Point.some x y h + Affine.Point.some x y h = 0) : x = 0 :=
  (mul_eq_zero.mp (double_zero hd)).resolve_right (quad_ne hg.x)

theorem order4 {x y : K} {h : (curve K).Nonsingular x y} (hg : Good K (.some x y h)) {Q : (curve K).Point}
    (hQ : Affine.Point.some x y h + Affine.Point.some x y h = Q) (hd : Q + Q = 0) : x = 0 ∨ x = 1 ∨ x = -1 := by
  have hgQ : Good K Q := hQ ▸ hg.double
  cases Q with
  | zero => exact Or.inl (order2 hg hQ)
  | some x' y' h' =>
    have h0 := order2 hgQ hd
    have h1 := double_some hQ
    rw [h0, zero_mul, pow_eq_zero_iff two_ne_zero] at h1
    have : (x - 1) * (x + 1) = 0 := by linear_combination h1
    rcases mul_eq_zero.mp this with h2 | h2
    · exact Or.inr (Or.inl (by linear_combination h2))
    · exact Or.inr (Or.inr (by linear_combination h2))

theorem order8 {x y : K} {h : (curve K).Nonsingular x y} (hg : Good K (.some x y h)) {Q R : (curve K).Point}
    (hQ : Affine.Point.some x y h + Affine.Point.some x y h = Q) (hR : Q + Q = R) (hd : R + R = 0) :
    x = 0 ∨ x = 1 ∨ x = -1 ∨ x = (u8 : Nat) ∨ x = (u8' : Nat) := by
  have hgQ : Good K Q := hQ ▸ hg.double
  cases Q with
  | zero => exact Or.inl (order2 hg hQ)
  | some x' y' h' =>
    have h1 := double_some hQ
    rcases order4 hgQ hR hd with h0 | h0 | h0
    · rw [h0, zero_mul, pow_eq_zero_iff two_ne_zero] at h1
      have : (x - 1) * (x + 1) = 0 := by linear_combination h1
      rcases mul_eq_zero.mp this with h2 | h2
      · exact Or.inr (Or.inl (by linear_combination h2))
      · exact Or.inr (Or.inr (Or.inl (by linear_combination h2)))
    · rw [h0, one_mul] at h1
      have es : ((s8 : Nat) : K) * (s8 : Nat) = 486664 := by
        have := cast_eq (K := K) (a := s8 * s8) (b := 486664) (by decide +kernel)
        rw [Nat.cast_mul] at this
        rw [this]; norm_num
      have esum : ((u8 : Nat) : K) + (u8' : Nat) = 2 + 2 * (s8 : Nat) := by
        have := cast_eq (K := K) (a := u8 + u8') (b := 2 + 2 * s8) (by decide +kernel)
        rw [Nat.cast_add, Nat.cast_add, Nat.cast_mul, Nat.cast_ofNat] at this
        exact this
      have eprod : ((u8 : Nat) : K) * (u8' : Nat) = 1 := by
        have := cast_eq (K := K) (a := u8 * u8') (b := 1) (by decide +kernel)
        rw [Nat.cast_mul, Nat.cast_one] at this
        exact this
      have ec : ((c8 : Nat) : K) = (2 - 2 * (s8 : Nat)) ^ 2 - 4 := by
        have := cast_eq (K := K) (a := c8 + 8 * s8) (b := 4 * (s8 * s8)) (by decide +kernel)
        rw [Nat.cast_add, Nat.cast_mul, Nat.cast_mul, Nat.cast_mul, Nat.cast_ofNat, Nat.cast_ofNat] at this
        linear_combination this
      have et : ((q0 - 2 + 2 * s8 : Nat) : K) = -2 + 2 * (s8 : Nat) := by
        rw [Nat.cast_add, Nat.cast_sub (by decide +kernel), CharP.cast_eq_zero K q0, Nat.cast_mul]
        push_cast
        ring
      generalize ((s8 : Nat) : K) = s at *
      generalize ((u8 : Nat) : K) = a at *
      generalize ((u8' : Nat) : K) = b at *
      have hf : (x ^ 2 - (2 + 2 * s) * x + 1) * (x ^ 2 - (2 - 2 * s) * x + 1) = 0 := by
        linear_combination h1 - 4 * x ^ 2 * es
      rcases mul_eq_zero.mp hf with h2 | h2
      · have : (x - a) * (x - b) = 0 := by linear_combination h2 - x * esum + eprod
        rcases mul_eq_zero.mp this with h3 | h3
        · exact Or.inr (Or.inr (Or.inr (Or.inl (by linear_combination h3))))
        · exact Or.inr (Or.inr (Or.inr (Or.inr (by linear_combination h3))))
      · exfalso
        refine not_square (c := c8) (t := 2 * x + (q0 - 2 + 2 * s8 : Nat)) (frob_poly hg.x _) ?_ euler_C
        rw [et, ec]
        linear_combination 4 * h2
    · rw [h0] at h1
      exfalso
      have hx0 : x ≠ 0 := by
        intro hx
        rw [hx] at h1
        have : (1 : K) = 0 := by linear_combination h1
        exact one_ne_zero this
      refine not_square (c := q0 - 486660) (t := (x + 1) ^ 2 / (2 * x)) ?_ ?_ euler_B
      · have e : ∀ z : K, frobenius K q0 z = z ^ q0 := fun z => frobenius_def ..
        rw [← e, map_div₀, map_pow, map_add, map_mul, e x, hg.x, map_ofNat, map_one]
      · have h2 := two_ne0 (K := K)
        rw [Nat.cast_sub (by decide +kernel), CharP.cast_eq_zero K q0, div_pow,
          div_eq_iff (pow_ne_zero 2 (mul_ne_zero h2 hx0))]
        push_cast
        linear_combination h1

theorem eval_1 : ladderN q0 1 8 4 1 0 1 1 % q0 = 0 := by decide +kernel
theorem eval_m1 : ladderN q0 (q0 - 1) 8 4 1 0 (q0 - 1) 1 % q0 = 0 := by decide +kernel
theorem eval_8' : ladderN q0 u8' 8 4 1 0 u8' 1 % q0 = 0 := by decide +kernel

/-- The points of order dividing 8 with rational `u`-coordinate. -/
theorem small_iff {u : Nat} (hu : u < q0) {y : K} {h : (curve K).Nonsingular (u : K) y} :
    8 • Affine.Point.some _ _ h = 0 ↔ u = 0 ∨ u = 1 ∨ u = q0 - 1 ∨ u = u8 ∨ u = u8' := by
  have hq : 0 < q0 := by decide +kernel
  constructor
  · intro h8
    have hg : Good K (.some _ _ h) := mem_or h (nat_pow u)
    have inj : ∀ v : Nat, v < q0 → (u : K) = v → u = v := fun v hv e => by
      have : (u : ZMod q0) = v := by
        rw [ZMod.natCast_eq_natCast_iff, ← CharP.natCast_eq_natCast K q0]; exact e
      rw [ZMod.natCast_eq_natCast_iff', Nat.mod_eq_of_lt hu, Nat.mod_eq_of_lt hv] at this
      exact this
    have h8' : (Affine.Point.some _ _ h + Affine.Point.some _ _ h) + (Affine.Point.some _ _ h + Affine.Point.some _ _ h) +
        ((Affine.Point.some _ _ h + Affine.Point.some _ _ h) + (Affine.Point.some _ _ h + Affine.Point.some _ _ h)) = 0 := by
      rw [← h8]
      generalize Affine.Point.some _ _ h = P
      rw [show 8 • P = 2 • 2 • 2 • P by rw [← mul_nsmul, ← mul_nsmul], two_nsmul, two_nsmul, two_nsmul]
    rcases order8 hg rfl rfl h8' with e | e | e | e | e
    · exact Or.inl (inj 0 hq (by rw [e, Nat.cast_zero]))
    · exact Or.inr (Or.inl (inj 1 (by decide +kernel) (by rw [e, Nat.cast_one])))
    · refine Or.inr (Or.inr (Or.inl (inj _ (by decide +kernel) ?_)))
      rw [e, Nat.cast_sub (by decide +kernel), CharP.cast_eq_zero K q0, Nat.cast_one, zero_sub]
    · exact Or.inr (Or.inr (Or.inr (Or.inl (inj _ (by decide +kernel) e))))
    · exact Or.inr (Or.inr (Or.inr (Or.inr (inj _ (by decide +kernel) e))))
  · have key : ∀ v : Nat, v % q0 ≠ 0 → ladderN q0 v 8 4 1 0 v 1 % q0 = 0 → u = v →
        8 • Affine.Point.some _ _ h = 0 := by
      rintro v hv he rfl
      rw [ladderN_zero (q := q0) (k := 8) hq two_ne0 A_ne0 (cast_ne hv) (i := 4) (by decide)]
      exact he
    rintro (e | e | e | e | e)
    · subst e
      have hy : y = 0 := by
        have := Montgomery.equation.mp h.1
        have h : y ^ 2 = 0 := by rw [this, Nat.cast_zero]; ring
        exact (pow_eq_zero_iff two_ne_zero).mp h
      have ht : Affine.Point.some _ y h + Affine.Point.some _ y h = 0 :=
        Affine.Point.add_self_of_Y_eq (by rw [Montgomery.negY, hy, neg_zero])
      rw [show 8 • Affine.Point.some _ y h = 4 • 2 • Affine.Point.some _ y h by rw [← mul_nsmul], two_nsmul, ht, nsmul_zero]
    · exact key _ (by decide +kernel) eval_1 e
    · exact key _ (by decide +kernel) eval_m1 e
    · exact key _ (by decide +kernel) eval_8 e
    · exact key _ (by decide +kernel) eval_8' e

end

end Hacspec.Curve25519.Order
