import Verif.Model.Examples
import Verif.Lemmas.Seq
import Mathlib.Tactic.Ring
import Mathlib.Tactic.NormNum

namespace Hacspec.Dalek

open SecretInt

/-- Operations that are exact whenever the result fits. -/
structure Exact (o : Ops) : Prop where
  add64 : ∀ {x y}, x.toNat + y.toNat < 2 ^ 64 → ∃ r, o.add64 x y = .ok r ∧ r.toNat = x.toNat + y.toNat
  mul64 : ∀ {x y}, x.toNat * y.toNat < 2 ^ 64 → ∃ r, o.mul64 x y = .ok r ∧ r.toNat = x.toNat * y.toNat
  add128 : ∀ {x y}, x.toNat + y.toNat < 2 ^ 128 → ∃ r, o.add128 x y = .ok r ∧ r.toNat = x.toNat + y.toNat
  mul128 : ∀ {x y}, x.toNat * y.toNat < 2 ^ 128 → ∃ r, o.mul128 x y = .ok r ∧ r.toNat = x.toNat * y.toNat
  narrow : ∀ {x}, x.toNat < 2 ^ 64 → ∃ r, o.narrow x = .ok r ∧ r.toNat = x.toNat

theorem exact_wrapping : Exact wrapping where
  add64 h := ⟨_, rfl, by rw [SecretInt.add, BitVec.toNat_add, Nat.mod_eq_of_lt h]⟩
  mul64 h := ⟨_, rfl, by rw [SecretInt.mul, BitVec.toNat_mul, Nat.mod_eq_of_lt h]⟩
  add128 h := ⟨_, rfl, by rw [SecretInt.add, BitVec.toNat_add, Nat.mod_eq_of_lt h]⟩
  mul128 h := ⟨_, rfl, by rw [SecretInt.mul, BitVec.toNat_mul, Nat.mod_eq_of_lt h]⟩
  narrow h := ⟨_, rfl, by rw [castU, BitVec.toNat_setWidth, Nat.mod_eq_of_lt h]⟩

variable {o : Ops}

theorem toNat_wide (x : U64) : (castU 128 x).toNat = x.toNat := by
  rw [castU, BitVec.toNat_setWidth, Nat.mod_eq_of_lt (Nat.lt_trans x.isLt (by decide))]

theorem m_ok (ho : Exact o) (x y : U64) : ∃ r, m o x y = .ok r ∧ r.toNat = x.toNat * y.toNat := by
  have := ho.mul128 (x := castU 128 x) (y := castU 128 y) (by
    rw [toNat_wide, toNat_wide]
    calc x.toNat * y.toNat < 2 ^ 64 * 2 ^ 64 := Nat.mul_lt_mul'' x.isLt y.isLt
      _ = 2 ^ 128 := by norm_num)
  rwa [toNat_wide, toNat_wide] at this

theorem sum5_ok (ho : Exact o) {x0 y0 x1 y1 x2 y2 x3 y3 x4 y4 : U64}
    (h : x0.toNat * y0.toNat + x1.toNat * y1.toNat + x2.toNat * y2.toNat + x3.toNat * y3.toNat + x4.toNat * y4.toNat <
      2 ^ 128) :
    ∃ r, sum5 o x0 y0 x1 y1 x2 y2 x3 y3 x4 y4 = .ok r ∧ r.toNat =
      x0.toNat * y0.toNat + x1.toNat * y1.toNat + x2.toNat * y2.toNat + x3.toNat * y3.toNat + x4.toNat * y4.toNat := by
  obtain ⟨p0, e0, v0⟩ := m_ok ho x0 y0
  obtain ⟨p1, e1, v1⟩ := m_ok ho x1 y1
  obtain ⟨p2, e2, v2⟩ := m_ok ho x2 y2
  obtain ⟨p3, e3, v3⟩ := m_ok ho x3 y3
  obtain ⟨p4, e4, v4⟩ := m_ok ho x4 y4
  obtain ⟨s1, f1, w1⟩ := ho.add128 (x := p0) (y := p1) (by omega)
  obtain ⟨s2, f2, w2⟩ := ho.add128 (x := s1) (y := p2) (by omega)
  obtain ⟨s3, f3, w3⟩ := ho.add128 (x := s2) (y := p3) (by omega)
  obtain ⟨s4, f4, w4⟩ := ho.add128 (x := s3) (y := p4) (by omega)
  refine ⟨s4, ?_, by omega⟩
  rw [sum5, e0, bind_ok, e1, bind_ok, f1, bind_ok, e2, bind_ok, f2, bind_ok, e3, bind_ok, f3, bind_ok, e4, bind_ok, f4]

/-- The five coefficients as numbers. -/
def coeffsNat (a b : Limbs) : Nat × Nat × Nat × Nat × Nat :=
  (a.l0.toNat * b.l0.toNat + 19 * (a.l4.toNat * b.l1.toNat + a.l3.toNat * b.l2.toNat + a.l2.toNat * b.l3.toNat +
      a.l1.toNat * b.l4.toNat),
   a.l1.toNat * b.l0.toNat + a.l0.toNat * b.l1.toNat + 19 * (a.l4.toNat * b.l2.toNat + a.l3.toNat * b.l3.toNat +
      a.l2.toNat * b.l4.toNat),
   a.l2.toNat * b.l0.toNat + a.l1.toNat * b.l1.toNat + a.l0.toNat * b.l2.toNat + 19 * (a.l4.toNat * b.l3.toNat +
      a.l3.toNat * b.l4.toNat),
   a.l3.toNat * b.l0.toNat + a.l2.toNat * b.l1.toNat + a.l1.toNat * b.l2.toNat + a.l0.toNat * b.l3.toNat +
      19 * (a.l4.toNat * b.l4.toNat),
   a.l4.toNat * b.l0.toNat + a.l3.toNat * b.l1.toNat + a.l2.toNat * b.l2.toNat + a.l1.toNat * b.l3.toNat +
      a.l0.toNat * b.l4.toNat)

theorem prod_lt {x y : Nat} (hx : x < 2 ^ 54) (hy : y < 2 ^ 54) : x * y < 2 ^ 108 := by
  calc x * y < 2 ^ 54 * 2 ^ 54 := Nat.mul_lt_mul'' hx hy
    _ = 2 ^ 108 := by norm_num

theorem coeffs_ok (ho : Exact o) {a b : Limbs} (ha : Bounded a) (hb : Bounded b) :
    ∃ c : U128 × U128 × U128 × U128 × U128, coeffs o a b = .ok c ∧ c.1.toNat = (coeffsNat a b).1 ∧
      c.2.1.toNat = (coeffsNat a b).2.1 ∧ c.2.2.1.toNat = (coeffsNat a b).2.2.1 ∧
      c.2.2.2.1.toNat = (coeffsNat a b).2.2.2.1 ∧ c.2.2.2.2.toNat = (coeffsNat a b).2.2.2.2 := by
  obtain ⟨a0, a1, a2, a3, a4⟩ := ha
  obtain ⟨b0, b1, b2, b3, b4⟩ := hb
  have h19 : (19 : U64).toNat = 19 := rfl
  obtain ⟨k1, e1, v1⟩ := ho.mul64 (x := b.l1) (y := 19) (by rw [h19]; omega)
  obtain ⟨k2, e2, v2⟩ := ho.mul64 (x := b.l2) (y := 19) (by rw [h19]; omega)
  obtain ⟨k3, e3, v3⟩ := ho.mul64 (x := b.l3) (y := 19) (by rw [h19]; omega)
  obtain ⟨k4, e4, v4⟩ := ho.mul64 (x := b.l4) (y := 19) (by rw [h19]; omega)
  rw [h19] at v1 v2 v3 v4
  have ms : ∀ x y : Nat, x * (y * 19) = 19 * (x * y) := fun x y => by ring
  obtain ⟨c0, f0, w0⟩ := sum5_ok ho (x0 := a.l0) (y0 := b.l0) (x1 := a.l4) (y1 := k1) (x2 := a.l3) (y2 := k2)
    (x3 := a.l2) (y3 := k3) (x4 := a.l1) (y4 := k4) (by
      rw [v1, v2, v3, v4, ms, ms, ms, ms]
      have := prod_lt a0 b0; have := prod_lt a4 b1; have := prod_lt a3 b2; have := prod_lt a2 b3; have := prod_lt a1 b4
      omega)
  obtain ⟨c1, f1, w1⟩ := sum5_ok ho (x0 := a.l1) (y0 := b.l0) (x1 := a.l0) (y1 := b.l1) (x2 := a.l4) (y2 := k2)
    (x3 := a.l3) (y3 := k3) (x4 := a.l2) (y4 := k4) (by
      rw [v2, v3, v4, ms, ms, ms]
      have := prod_lt a1 b0; have := prod_lt a0 b1; have := prod_lt a4 b2; have := prod_lt a3 b3; have := prod_lt a2 b4
      omega)
  obtain ⟨c2, f2, w2⟩ := sum5_ok ho (x0 := a.l2) (y0 := b.l0) (x1 := a.l1) (y1 := b.l1) (x2 := a.l0) (y2 := b.l2)
    (x3 := a.l4) (y3 := k3) (x4 := a.l3) (y4 := k4) (by
      rw [v3, v4, ms, ms]
      have := prod_lt a2 b0; have := prod_lt a1 b1; have := prod_lt a0 b2; have := prod_lt a4 b3; have := prod_lt a3 b4
      omega)
  obtain ⟨c3, f3, w3⟩ := sum5_ok ho (x0 := a.l3) (y0 := b.l0) (x1 := a.l2) (y1 := b.l1) (x2 := a.l1) (y2 := b.l2)
    (x3 := a.l0) (y3 := b.l3) (x4 := a.l4) (y4 := k4) (by
      rw [v4, ms]
      have := prod_lt a3 b0; have := prod_lt a2 b1; have := prod_lt a1 b2; have := prod_lt a0 b3; have := prod_lt a4 b4
      omega)
  obtain ⟨c4, f4, w4⟩ := sum5_ok ho (x0 := a.l4) (y0 := b.l0) (x1 := a.l3) (y1 := b.l1) (x2 := a.l2) (y2 := b.l2)
    (x3 := a.l1) (y3 := b.l3) (x4 := a.l0) (y4 := b.l4) (by
      have := prod_lt a4 b0; have := prod_lt a3 b1; have := prod_lt a2 b2; have := prod_lt a1 b3; have := prod_lt a0 b4
      omega)
  rw [v1, v2, v3, v4, ms, ms, ms, ms] at w0
  rw [v2, v3, v4, ms, ms, ms] at w1
  rw [v3, v4, ms, ms] at w2
  rw [v4, ms] at w3
  refine ⟨(c0, c1, c2, c3, c4), ?_, ?_, ?_, ?_, ?_, ?_⟩
  · rw [coeffs, e1, bind_ok, e2, bind_ok, e3, bind_ok, e4, bind_ok, f0, bind_ok, f1, bind_ok, f2, bind_ok, f3, bind_ok,
      f4, bind_ok]
  all_goals simp only [coeffsNat]; omega

theorem toNat_low (c : U128) : (low c).toNat = c.toNat % 2 ^ 51 := by
  have hm : mask.toNat = 2 ^ 51 - 1 := rfl
  rw [low, BitVec.toNat_and, hm, Nat.and_two_pow_sub_one_eq_mod, castU, BitVec.toNat_setWidth, Nat.mod_mod_of_dvd]
  exact Nat.pow_dvd_pow 2 (by omega)

theorem toNat_mask (c : U64) : (c &&& mask).toNat = c.toNat % 2 ^ 51 := by
  have hm : mask.toNat = 2 ^ 51 - 1 := rfl
  rw [BitVec.toNat_and, hm, Nat.and_two_pow_sub_one_eq_mod]

theorem shrU_ok {w n : Nat} (x : BitVec w) (h : n < w) : ∃ r, shrU x n = .ok r ∧ r.toNat = x.toNat / 2 ^ n :=
  ⟨x >>> n, by rw [shrU, if_pos h], by rw [BitVec.toNat_ushiftRight, Nat.shiftRight_eq_div_pow]⟩

theorem carryInto_ok (ho : Exact o) {p c : U128} (hp : p.toNat < 2 ^ 115) (hc : c.toNat < 2 ^ 127) :
    ∃ r, carryInto o p c = .ok r ∧ r.toNat = c.toNat + p.toNat / 2 ^ 51 := by
  obtain ⟨s, e1, v1⟩ := shrU_ok p (n := 51) (by omega)
  obtain ⟨k, e2, v2⟩ := ho.narrow (x := s) (by omega)
  obtain ⟨r, e3, v3⟩ := ho.add128 (x := c) (y := castU 128 k) (by rw [toNat_wide]; omega)
  refine ⟨r, by rw [carryInto, e1, bind_ok, e2, bind_ok, e3], ?_⟩
  rw [v3, toNat_wide, v2, v1]

theorem carry_ok (ho : Exact o) {c : U128 × U128 × U128 × U128 × U128} (h0 : c.1.toNat < 2 ^ 114 + 2 ^ 113)
    (h1 : c.2.1.toNat < 2 ^ 114 + 2 ^ 113) (h2 : c.2.2.1.toNat < 2 ^ 114 + 2 ^ 113) (h3 : c.2.2.2.1.toNat < 2 ^ 114 + 2 ^ 113)
    (h4 : c.2.2.2.2.toNat < 5 * 2 ^ 108) :
    ∃ r, carry o c = .ok r ∧
      (∃ d1 d2 d3 d4 e, d1 = c.2.1.toNat + c.1.toNat / 2 ^ 51 ∧ d2 = c.2.2.1.toNat + d1 / 2 ^ 51 ∧
        d3 = c.2.2.2.1.toNat + d2 / 2 ^ 51 ∧ d4 = c.2.2.2.2.toNat + d3 / 2 ^ 51 ∧
        e = c.1.toNat % 2 ^ 51 + d4 / 2 ^ 51 * 19 ∧ e < 2 ^ 64 ∧
        r.l0.toNat = e % 2 ^ 51 ∧ r.l1.toNat = d1 % 2 ^ 51 + e / 2 ^ 51 ∧ r.l2.toNat = d2 % 2 ^ 51 ∧
        r.l3.toNat = d3 % 2 ^ 51 ∧ r.l4.toNat = d4 % 2 ^ 51) := by
  obtain ⟨c0, c1, c2, c3, c4⟩ := c
  dsimp only at h0 h1 h2 h3 h4 ⊢
  obtain ⟨d1, e1, v1⟩ := carryInto_ok ho (p := c0) (c := c1) (by omega) (by omega)
  obtain ⟨d2, e2, v2⟩ := carryInto_ok ho (p := d1) (c := c2) (by omega) (by omega)
  obtain ⟨d3, e3, v3⟩ := carryInto_ok ho (p := d2) (c := c3) (by omega) (by omega)
  obtain ⟨d4, e4, v4⟩ := carryInto_ok ho (p := d3) (c := c4) (by omega) (by omega)
  obtain ⟨s, e5, v5⟩ := shrU_ok d4 (n := 51) (by omega)
  obtain ⟨k, e6, v6⟩ := ho.narrow (x := s) (by omega)
  have h19 : (19 : U64).toNat = 19 := rfl
  obtain ⟨k19, e7, v7⟩ := ho.mul64 (x := k) (y := 19) (by rw [h19]; omega)
  have l0 := toNat_low c0
  obtain ⟨o0, e8, v8⟩ := ho.add64 (x := low c0) (y := k19) (by rw [h19] at v7; omega)
  obtain ⟨t, e9, v9⟩ := shrU_ok o0 (n := 51) (by omega)
  have l1 := toNat_low d1
  have := o0.isLt
  obtain ⟨o1, e10, v10⟩ := ho.add64 (x := low d1) (y := t) (by omega)
  refine ⟨⟨o0 &&& mask, o1, low d2, low d3, low d4⟩, ?_, d1.toNat, d2.toNat, d3.toNat, d4.toNat, o0.toNat, v1, v2, v3, v4,
    ?_, this, toNat_mask _, ?_, toNat_low _, toNat_low _, toNat_low _⟩
  · unfold carry
    dsimp only
    rw [e1, bind_ok, e2, bind_ok, e3, bind_ok, e4, bind_ok, e5, bind_ok, e6, bind_ok, e7, bind_ok, e8, bind_ok, e9, bind_ok,
      e10, bind_ok]
  · rw [v8, l0, v7, h19, v6, v5]
  · rw [v10, l1, v9]

/-- The limbs after carrying, as numbers. -/
def outNat (c : Nat × Nat × Nat × Nat × Nat) : Nat × Nat × Nat × Nat × Nat :=
  let d1 := c.2.1 + c.1 / 2 ^ 51
  let d2 := c.2.2.1 + d1 / 2 ^ 51
  let d3 := c.2.2.2.1 + d2 / 2 ^ 51
  let d4 := c.2.2.2.2 + d3 / 2 ^ 51
  let e := c.1 % 2 ^ 51 + d4 / 2 ^ 51 * 19
  (e % 2 ^ 51, d1 % 2 ^ 51 + e / 2 ^ 51, d2 % 2 ^ 51, d3 % 2 ^ 51, d4 % 2 ^ 51)

/-- The five limbs as numbers. -/
def nats (r : Limbs) : Nat × Nat × Nat × Nat × Nat := (r.l0.toNat, r.l1.toNat, r.l2.toNat, r.l3.toNat, r.l4.toNat)

theorem nats_inj {r s : Limbs} (h : nats r = nats s) : r = s := by
  cases r; cases s
  simp only [nats, Prod.mk.injEq] at h
  obtain ⟨h0, h1, h2, h3, h4⟩ := h
  simp only [Limbs.mk.injEq]
  exact ⟨BitVec.eq_of_toNat_eq h0, BitVec.eq_of_toNat_eq h1, BitVec.eq_of_toNat_eq h2, BitVec.eq_of_toNat_eq h3,
    BitVec.eq_of_toNat_eq h4⟩

theorem coeffs_lt {a b : Limbs} (ha : Bounded a) (hb : Bounded b) :
    (coeffsNat a b).1 < 2 ^ 114 + 2 ^ 113 ∧ (coeffsNat a b).2.1 < 2 ^ 114 + 2 ^ 113 ∧
    (coeffsNat a b).2.2.1 < 2 ^ 114 + 2 ^ 113 ∧ (coeffsNat a b).2.2.2.1 < 2 ^ 114 + 2 ^ 113 ∧
    (coeffsNat a b).2.2.2.2 < 5 * 2 ^ 108 := by
  obtain ⟨a0, a1, a2, a3, a4⟩ := ha
  obtain ⟨b0, b1, b2, b3, b4⟩ := hb
  simp only [coeffsNat]
  have := prod_lt a0 b0; have := prod_lt a0 b1; have := prod_lt a0 b2; have := prod_lt a0 b3; have := prod_lt a0 b4
  have := prod_lt a1 b0; have := prod_lt a1 b1; have := prod_lt a1 b2; have := prod_lt a1 b3; have := prod_lt a1 b4
  have := prod_lt a2 b0; have := prod_lt a2 b1; have := prod_lt a2 b2; have := prod_lt a2 b3; have := prod_lt a2 b4
  have := prod_lt a3 b0; have := prod_lt a3 b1; have := prod_lt a3 b2; have := prod_lt a3 b3; have := prod_lt a3 b4
  have := prod_lt a4 b0; have := prod_lt a4 b1; have := prod_lt a4 b2; have := prod_lt a4 b3; have := prod_lt a4 b4
  refine ⟨by omega, by omega, by omega, by omega, by omega⟩

theorem mulWith_ok (ho : Exact o) {a b : Limbs} (ha : Bounded a) (hb : Bounded b) :
    ∃ r, mulWith o a b = .ok r ∧ nats r = outNat (coeffsNat a b) := by
  obtain ⟨c, e, h0, h1, h2, h3, h4⟩ := coeffs_ok ho ha hb
  obtain ⟨g0, g1, g2, g3, g4⟩ := coeffs_lt ha hb
  obtain ⟨r, hr, d1, d2, d3, d4, x, hd1, hd2, hd3, hd4, hx, _, r0, r1, r2, r3, r4⟩ := carry_ok ho (c := c) (by omega) (by omega)
    (by omega) (by omega) (by omega)
  refine ⟨r, by rw [mulWith, e, bind_ok, require_true ⟨ha, hb⟩, bind_ok, hr], ?_⟩
  rw [h0, h1] at hd1
  rw [h2] at hd2
  rw [h3] at hd3
  rw [h4] at hd4
  rw [h0] at hx
  subst hd1; subst hd2; subst hd3; subst hd4; subst hx
  simp only [nats, r0, r1, r2, r3, r4, outNat]

/-- The value of five limbs in radix `2^51`. -/
def value (x : Nat × Nat × Nat × Nat × Nat) : Nat :=
  x.1 + 2 ^ 51 * x.2.1 + 2 ^ 102 * x.2.2.1 + 2 ^ 153 * x.2.2.2.1 + 2 ^ 204 * x.2.2.2.2

theorem value_out (c : Nat × Nat × Nat × Nat × Nat) : ∃ k, value c = value (outNat c) + (2 ^ 255 - 19) * k := by
  obtain ⟨c0, c1, c2, c3, c4⟩ := c
  simp only [value, outNat]
  generalize hd1 : c1 + c0 / 2 ^ 51 = d1
  generalize hd2 : c2 + d1 / 2 ^ 51 = d2
  generalize hd3 : c3 + d2 / 2 ^ 51 = d3
  generalize hd4 : c4 + d3 / 2 ^ 51 = d4
  generalize he : c0 % 2 ^ 51 + d4 / 2 ^ 51 * 19 = e
  refine ⟨d4 / 2 ^ 51, ?_⟩
  omega

theorem value_coeffs (a b : Limbs) : ∃ k, value (nats a) * value (nats b) = value (coeffsNat a b) + (2 ^ 255 - 19) * k := by
  obtain ⟨a0, a1, a2, a3, a4⟩ := a
  obtain ⟨b0, b1, b2, b3, b4⟩ := b
  simp only [value, coeffsNat, nats]
  generalize a0.toNat = a0, a1.toNat = a1, a2.toNat = a2, a3.toNat = a3, a4.toNat = a4
  generalize b0.toNat = b0, b1.toNat = b1, b2.toNat = b2, b3.toNat = b3, b4.toNat = b4
  refine ⟨(a4 * b1 + a3 * b2 + a2 * b3 + a1 * b4) + 2 ^ 51 * (a4 * b2 + a3 * b3 + a2 * b4) + 2 ^ 102 * (a4 * b3 + a3 * b4) +
    2 ^ 153 * (a4 * b4), ?_⟩
  norm_num
  ring

theorem out_lt {c : Nat × Nat × Nat × Nat × Nat} (h0 : c.1 < 2 ^ 114 + 2 ^ 113)
    (h1 : c.2.1 < 2 ^ 114 + 2 ^ 113) (h2 : c.2.2.1 < 2 ^ 114 + 2 ^ 113) (h3 : c.2.2.2.1 < 2 ^ 114 + 2 ^ 113)
    (h4 : c.2.2.2.2 < 5 * 2 ^ 108) :
    (outNat c).1 < 2 ^ 51 ∧ (outNat c).2.1 < 2 ^ 51 + 2 ^ 13 ∧ (outNat c).2.2.1 < 2 ^ 51 ∧ (outNat c).2.2.2.1 < 2 ^ 51 ∧
      (outNat c).2.2.2.2 < 2 ^ 51 := by
  obtain ⟨c0, c1, c2, c3, c4⟩ := c
  dsimp only at h0 h1 h2 h3 h4
  simp only [outNat]
  refine ⟨by omega, by omega, by omega, by omega, by omega⟩

/-- Without the bound the code panics, if its arithmetic does not fail before. -/
theorem mul_panic {a b : Limbs} (h : ¬ (Bounded a ∧ Bounded b)) : mul a b = panic := by
  have e : ∃ c, coeffs wrapping a b = .ok c := ⟨_, rfl⟩
  obtain ⟨c, e⟩ := e
  rw [mul, mulWith, e, bind_ok, require_false h, bind_panic]

end Hacspec.Dalek
