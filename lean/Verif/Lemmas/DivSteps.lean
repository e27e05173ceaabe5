import Mathlib.Algebra.Polynomial.Reverse
import Mathlib.Algebra.Polynomial.Inductions
import Mathlib.Algebra.Polynomial.FieldDivision
import Mathlib.Tactic.LinearCombination
import Mathlib.Tactic.Ring

/-!
# Division steps over a commutative ring

The exact (untruncated) polynomials computed by the division steps of Bernstein and Yang
(<https://eprint.iacr.org/2019/266>), with the transition matrix multiplied by `X^n` after `n` steps.
-/

namespace Hacspec.DivSteps

open Polynomial

variable {K : Type} [CommRing K]

/-- `2 * degree p ≤ b`. -/
def Deg2 (p : K[X]) (b : Int) : Prop := ∀ k : Nat, b < 2 * k → p.coeff k = 0

theorem Deg2.mono {p : K[X]} {b c : Int} (h : Deg2 p b) (hbc : b ≤ c) : Deg2 p c := fun k hk => h k (by omega)

theorem Deg2.zero (b : Int) : Deg2 (0 : K[X]) b := fun _ _ => coeff_zero _

theorem Deg2.comb {p q : K[X]} {b : Int} (x y : K) (hp : Deg2 p b) (hq : Deg2 q b) : Deg2 (C x * p - C y * q) b := by
  intro k hk
  rw [coeff_sub, coeff_C_mul, coeff_C_mul, hp k hk, hq k hk]; simp

theorem Deg2.smul {p : K[X]} {b : Int} (x : K) (hp : Deg2 p b) : Deg2 (C x * p) b := by
  intro k hk
  rw [coeff_C_mul, hp k hk, mul_zero]

theorem Deg2.mulX {p : K[X]} {b : Int} (hp : Deg2 p b) : Deg2 (X * p) (b + 2) := by
  intro k hk
  cases k with
  | zero => simp
  | succ k => rw [coeff_X_mul]; exact hp k (by push_cast at hk; omega)

theorem Deg2.divX {p : K[X]} {b : Int} (hp : Deg2 p b) : Deg2 (divX p) (b - 2) := by
  intro k hk
  rw [coeff_divX]; exact hp _ (by push_cast; omega)

theorem Deg2.eq_zero {p : K[X]} {b : Int} (h : Deg2 p b) (hb : b < 0) : p = 0 := by
  ext k; rw [h k (by omega), coeff_zero]

theorem Deg2.natDegree_le {p : K[X]} {b : Int} {e : Nat} (h : Deg2 p b) (hb : b ≤ 2 * e + 1) : p.natDegree ≤ e := by
  rw [natDegree_le_iff_coeff_eq_zero]
  intro k hk
  exact h k (by omega)

/-- The state after some division steps: `delta`, `f`, `g` and the scaled transition matrix. -/
structure St (K : Type) [CommRing K] where
  delta : Int
  f : K[X]
  g : K[X]
  u : K[X]
  v : K[X]
  q : K[X]
  r : K[X]

/-- Exchange of the two rows. -/
noncomputable def St.swap (s : St K) : St K :=
  { delta := -s.delta, f := s.g, g := s.f, u := s.q, v := s.r, q := s.u, r := s.v }

/-- Elimination of the constant coefficient of `g` and division by `X`. -/
noncomputable def St.elim (s : St K) : St K :=
  { delta := s.delta + 1
    f := s.f
    g := divX (C (s.f.coeff 0) * s.g - C (s.g.coeff 0) * s.f)
    u := X * s.u
    v := X * s.v
    q := C (s.f.coeff 0) * s.q - C (s.g.coeff 0) * s.u
    r := C (s.f.coeff 0) * s.r - C (s.g.coeff 0) * s.v }

open Classical in
/-- One division step. -/
noncomputable def St.step (s : St K) : St K :=
  if 0 < s.delta ∧ s.g.coeff 0 ≠ 0 then s.swap.elim else s.elim

/-- What holds after `n` steps from `F` of formal degree `d` and `G` of formal degree `d - 1`. -/
structure Inv (d : Nat) (F G : K[X]) (n : Nat) (s : St K) : Prop where
  f0 : s.f.coeff 0 ≠ 0
  hf : X ^ n * s.f = s.u * F + s.v * G
  hg : X ^ n * s.g = s.q * F + s.r * G
  det : ∃ c : K, (NoZeroDivisors K → c ≠ 0) ∧ s.u * s.r - s.v * s.q = C c * X ^ n
  par : (s.delta + n) % 2 = 1
  df : Deg2 s.f (2 * d - 1 - n + s.delta)
  dg : Deg2 s.g (2 * d - 1 - n - s.delta)
  du : Deg2 s.u (-1 + n + s.delta)
  dq : Deg2 s.q (-1 + n - s.delta)
  dv : Deg2 s.v (1 + n + s.delta)
  dr : Deg2 s.r (1 + n - s.delta)

theorem inv_start {d : Nat} {F G : K[X]} (hF : F.coeff 0 ≠ 0) (dF : F.natDegree ≤ d) (dG : Deg2 G (2 * d - 2)) :
    Inv d F G 0 { delta := 1, f := F, g := G, u := 1, v := 0, q := 0, r := 1 } where
  f0 := hF
  hf := by simp
  hg := by simp
  det := ⟨1, fun _ h => hF (by rw [← mul_one (F.coeff 0), h, mul_zero]), by simp⟩
  par := by simp
  df := fun k hk => coeff_eq_zero_of_natDegree_lt (by show F.natDegree < k; simp at hk; omega)
  dg := dG.mono (by simp; omega)
  du := fun k hk => by rw [coeff_one, if_neg (by simp at hk; omega)]
  dq := Deg2.zero _
  dv := Deg2.zero _
  dr := fun k hk => by rw [coeff_one, if_neg (by simp at hk; omega)]

theorem X_mul_divX {p : K[X]} (h : p.coeff 0 = 0) : X * divX p = p := by
  have := X_mul_divX_add p
  rw [h, C_0, add_zero] at this
  exact this

/-- The elimination step, from a pair of rows with the sharper bounds that hold after the conditional swap. -/
theorem inv_elim {d : Nat} {F G : K[X]} {n : Nat} {s : St K} (h : Inv d F G n s) (hs : s.delta ≤ 0 ∨ s.g.coeff 0 = 0) :
    Inv d F G (n + 1) s.elim := by
  have key : ∀ {a b : K[X]} {A : Int}, Deg2 a (A + s.delta) → Deg2 b (A - s.delta) →
      Deg2 (C (s.f.coeff 0) * b - C (s.g.coeff 0) * a) (A - s.delta) := by
    intro a b A ha hb
    rcases hs with hs | hs
    · exact hb.comb _ _ (ha.mono (by omega))
    · rw [hs, C_0, zero_mul, sub_zero]; exact hb.smul _
  have hgX : X * s.elim.g = C (s.f.coeff 0) * s.g - C (s.g.coeff 0) * s.f := by
    apply X_mul_divX
    rw [coeff_sub, coeff_C_mul, coeff_C_mul]; ring
  obtain ⟨c, hc, hdet⟩ := h.det
  refine ⟨h.f0, ?_, ?_, ⟨c * s.f.coeff 0, fun _ => mul_ne_zero (hc inferInstance) h.f0, ?_⟩, ?_, ?_, ?_, ?_, ?_, ?_, ?_⟩
  · show X ^ (n + 1) * s.f = X * s.u * F + X * s.v * G
    rw [pow_succ]; linear_combination X * h.hf
  · show X ^ (n + 1) * s.elim.g = (C (s.f.coeff 0) * s.q - C (s.g.coeff 0) * s.u) * F +
      (C (s.f.coeff 0) * s.r - C (s.g.coeff 0) * s.v) * G
    rw [pow_succ, mul_assoc, hgX]
    linear_combination C (s.f.coeff 0) * h.hg - C (s.g.coeff 0) * h.hf
  · show X * s.u * (C (s.f.coeff 0) * s.r - C (s.g.coeff 0) * s.v) -
      X * s.v * (C (s.f.coeff 0) * s.q - C (s.g.coeff 0) * s.u) = _
    rw [C_mul, pow_succ]
    linear_combination X * C (s.f.coeff 0) * hdet
  · have := h.par
    show (s.delta + 1 + ((n + 1 : Nat) : Int)) % 2 = 1
    push_cast; omega
  · exact h.df.mono (by show _ ≤ _ - ((n + 1 : Nat) : Int) + (s.delta + 1); push_cast; omega)
  · exact (key h.df h.dg).divX.mono (by show _ ≤ _ - ((n + 1 : Nat) : Int) - (s.delta + 1); push_cast; omega)
  · exact h.du.mulX.mono (by show _ ≤ _ + ((n + 1 : Nat) : Int) + (s.delta + 1); push_cast; omega)
  · exact (key h.du h.dq).mono (by show _ ≤ _ + ((n + 1 : Nat) : Int) - (s.delta + 1); push_cast; omega)
  · exact h.dv.mulX.mono (by show _ ≤ _ + ((n + 1 : Nat) : Int) + (s.delta + 1); push_cast; omega)
  · exact (key h.dv h.dr).mono (by show _ ≤ _ + ((n + 1 : Nat) : Int) - (s.delta + 1); push_cast; omega)

theorem inv_swap {d : Nat} {F G : K[X]} {n : Nat} {s : St K} (h : Inv d F G n s) (hs : s.g.coeff 0 ≠ 0) :
    Inv d F G n s.swap := by
  obtain ⟨c, hc, hdet⟩ := h.det
  refine ⟨hs, h.hg, h.hf, ⟨-c, fun _ => neg_ne_zero.mpr (hc inferInstance), ?_⟩, ?_, ?_, ?_, ?_, ?_, ?_, ?_⟩
  · show s.q * s.v - s.r * s.u = _
    rw [C_neg]; linear_combination -hdet
  · have := h.par
    show (-s.delta + (n : Int)) % 2 = 1
    omega
  · exact h.dg.mono (by show _ ≤ _ + -s.delta; omega)
  · exact h.df.mono (by show _ ≤ _ - -s.delta; omega)
  · exact h.dq.mono (by show _ ≤ _ + -s.delta; omega)
  · exact h.du.mono (by show _ ≤ _ - -s.delta; omega)
  · exact h.dr.mono (by show _ ≤ _ + -s.delta; omega)
  · exact h.dv.mono (by show _ ≤ _ - -s.delta; omega)

theorem inv_step {d : Nat} {F G : K[X]} {n : Nat} {s : St K} (h : Inv d F G n s) : Inv d F G (n + 1) s.step := by
  rw [St.step]
  by_cases hs : 0 < s.delta ∧ s.g.coeff 0 ≠ 0
  · rw [if_pos hs]
    exact inv_elim (inv_swap h hs.2) (Or.inl (by show -s.delta ≤ 0; omega))
  · rw [if_neg hs]
    refine inv_elim h ?_
    by_cases h0 : s.g.coeff 0 = 0
    · exact Or.inr h0
    · exact Or.inl (by by_contra h1; exact hs ⟨by omega, h0⟩)

/-- After `2d - 1` steps `delta` is not negative. -/
theorem delta_nonneg {d : Nat} {F G : K[X]} {s : St K} (hd : 0 < d) (h : Inv d F G (2 * d - 1) s) : 0 ≤ s.delta := by
  by_contra hn
  have := h.df.eq_zero (by omega)
  exact h.f0 (by rw [this, coeff_zero])

/-- If `delta = 0` then the reversed polynomials are coprime, with explicit cofactors. -/
theorem of_delta_zero {d : Nat} {F G W : K[X]} {s : St K} (hd : 0 < d) (h : Inv d F G (2 * d - 1) s) (h0 : s.delta = 0)
    (dF : F.natDegree ≤ d) (dG : G.natDegree ≤ d - 1) (hW : s.v = X * W) :
    W.natDegree ≤ d - 1 ∧
    C (s.f.coeff 0) = reflect (d - 1) s.u * reflect d F + reflect (d - 1) W * reflect (d - 1) G := by
  have hn : ((2 * d - 1 : Nat) : Int) = 2 * d - 1 := by omega
  have hf : s.f = C (s.f.coeff 0) := by
    apply eq_C_of_natDegree_le_zero
    exact h.df.natDegree_le (by rw [h0, hn]; omega)
  have du : s.u.natDegree ≤ d - 1 := h.du.natDegree_le (by rw [h0, hn]; omega)
  have dv : s.v.natDegree ≤ d := h.dv.natDegree_le (by rw [h0, hn]; omega)
  have dW : W.natDegree ≤ d - 1 := by
    rw [natDegree_le_iff_coeff_eq_zero]
    intro k hk
    rw [← coeff_X_mul, ← hW]
    exact coeff_eq_zero_of_natDegree_lt (by omega)
  refine ⟨dW, ?_⟩
  have e := congrArg (reflect (2 * d - 1)) h.hf
  rw [reflect_add, show 2 * d - 1 = d - 1 + d by omega, reflect_mul _ _ du dF, hW, mul_assoc, mul_comm X,
    show d - 1 + d = (d - 1 + (d - 1)) + 1 by omega, reflect_mul _ _ ?_ natDegree_X_le, reflect_mul _ _ dW dG, hf, mul_comm _ (C _),
    reflect_C_mul_X_pow, revAt_le (le_refl _), Nat.sub_self, pow_zero, mul_one, ← pow_one (X : K[X]), reflect_monomial,
    revAt_le (le_refl _), Nat.sub_self, pow_zero, mul_one] at e
  · exact e
  · exact (natDegree_mul_le).trans (by omega)

/-- Over a field, if `delta ≠ 0` then the reversed polynomials have a common factor. -/
theorem of_delta_pos {K : Type} [Field K] {d : Nat} {F G : K[X]} {s : St K} (hd : 0 < d) (h : Inv d F G (2 * d - 1) s) (h0 : s.delta ≠ 0) :
    ¬ IsCoprime (reflect d F) (reflect (d - 1) G) := by
  have hn : ((2 * d - 1 : Nat) : Int) = 2 * d - 1 := by omega
  have hpos := delta_nonneg hd h
  obtain ⟨e, he⟩ : ∃ e : Nat, s.delta = 2 * e := ⟨(s.delta / 2).toNat, by have := h.par; rw [hn] at this; omega⟩
  have hg : s.g = 0 := h.dg.eq_zero (by rw [hn]; omega)
  obtain ⟨c, hc, hdet⟩ := h.det
  replace hc := hc inferInstance
  have hXn : (X ^ (2 * d - 1) : K[X]) ≠ 0 := pow_ne_zero _ X_ne_zero
  have hgr := h.hg
  rw [hg, mul_zero] at hgr
  have hF : C c * F = s.r * s.f := by
    apply mul_left_cancel₀ hXn
    linear_combination -F * hdet + s.v * hgr - s.r * h.hf
  have hG : C c * G = -(s.q * s.f) := by
    apply mul_left_cancel₀ hXn
    linear_combination -G * hdet - s.u * hgr + s.q * h.hf
  have df : s.f.natDegree ≤ e := h.df.natDegree_le (by rw [he, hn]; omega)
  have hdvd : ∀ {N : Nat} {P Y : K[X]}, Deg2 Y (2 * N - s.delta) → C c * P = Y * s.f →
      reflect e s.f ∣ reflect N P := by
    intro N P Y hY hP
    have hcc : C c⁻¹ * C c = (1 : K[X]) := by rw [← C_mul, inv_mul_cancel₀ hc, C_1]
    have hP' : P = (C c⁻¹ * Y) * s.f := by rw [mul_assoc, ← hP, ← mul_assoc, hcc, one_mul]
    by_cases hN : e ≤ N
    · have dY : (C c⁻¹ * Y).natDegree ≤ N - e := (natDegree_C_mul_le _ _).trans (hY.natDegree_le (by omega))
      have e1 := reflect_mul _ _ dY df
      rw [← hP', show N - e + e = N by omega] at e1
      rw [e1]; exact Dvd.intro_left _ rfl
    · have : Y = 0 := hY.eq_zero (by omega)
      rw [hP', this, mul_zero, zero_mul, reflect_zero]; exact dvd_zero _
  have d1 : reflect e s.f ∣ reflect d F := hdvd (h.dr.mono (by rw [hn]; omega)) hF
  have d2 : reflect e s.f ∣ reflect (d - 1) G :=
    hdvd (Y := -s.q) (fun k hk => by rw [coeff_neg, h.dq k (by rw [hn]; omega), neg_zero]) (by rw [hG]; ring)
  intro hcop
  have hu := hcop.isUnit_of_dvd' d1 d2
  have hc0 : (reflect e s.f).coeff e = s.f.coeff 0 := by rw [coeff_reflect, revAt_le (le_refl _), Nat.sub_self]
  have hdeg := natDegree_eq_zero_of_isUnit hu
  have : (reflect e s.f).coeff e = 0 := coeff_eq_zero_of_natDegree_lt (by omega)
  exact h.f0 (by rw [← hc0, this])

end Hacspec.DivSteps
