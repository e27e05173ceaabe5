import Verif.Lemmas.Poly
import Verif.Lemmas.DivSteps
import Mathlib.Algebra.Field.ZMod

/-! # `divstepsx` and `extended_euclid` compute division steps over `ℤ_n` -/

namespace Hacspec.Poly

open SecretInt MachineInt Hacspec.Spec Hacspec.Props Hacspec.DivSteps Polynomial

variable {w : Nat} {N : NumOps w} {val : BitVec w → Int} {lo B : Int} {m : Nat} {n : BitVec w}

/-- Reduced coefficients. -/
def Red (val : BitVec w → Int) (m : Nat) (l : List (BitVec w)) : Prop := ∀ k, 0 ≤ at' val l k ∧ at' val l k < m

theorem Red.monomial (h0 : val 0#w = 0) {c : BitVec w} (hm : 0 < m) (hc : 0 ≤ val c ∧ val c < m) (d : Nat) :
    Red val m ((List.replicate (d + 1) 0#w).set d c) := by
  intro k
  rw [at_monomial h0]
  split <;> omega

theorem Red.makeFixedLength (h0 : val 0#w = 0) {l : List (BitVec w)} (h : Red val m l) (hm : 0 < m) (t : Nat) :
    Red val m (makeFixedLength l t) := by
  intro k
  rw [at_makeFixedLength h0]
  split
  · exact h k
  · omega

theorem Red.eq_zero {l : List (BitVec w)} (h : Red val m l) {k : Nat} (hk : (pol (ZMod m) val l).coeff k = 0) :
    at' val l k = 0 := by
  rw [coeff_pol, ZMod.intCast_zmod_eq_zero_iff_dvd] at hk
  exact Int.eq_zero_of_dvd_of_nonneg_of_lt (h k).1 (h k).2 hk

theorem two_le (hm : 1 < m) (hB : (m : Int) * m ≤ B) : 2 * (m : Int) ≤ B := by
  have : (2 : Int) * m ≤ m * m := Int.mul_le_mul_of_nonneg_right (by omega) (by omega)
  omega

theorem mul_red (L : Lawful N val lo B) (hm : 1 < m) (hn : val n = m) (hB : (m : Int) * m ≤ B) {x y : List (BitVec w)}
    (hx : Red val m x) (hy : Red val m y) :
    ∃ r, polyMul N x y n = .ok r ∧ r.length = x.length + y.length ∧ Red val m r ∧
      pol (ZMod m) val r = pol (ZMod m) val x * pol (ZMod m) val y := by
  have h2 := two_le hm hB
  have hlo := L.lo_le
  refine polyMul_ok L (by omega) hn (by omega) x y fun a ha b hb => ?_
  have h1 := reduced_of_at hx a ha
  have h3 := reduced_of_at hy b hb
  have := Int.mul_nonneg h1.1 h3.1
  have : val a * val b ≤ (m - 1) * (m - 1) := Int.mul_le_mul (by omega) (by omega) h3.1 (by omega)
  have : ((m : Int) - 1) * (m - 1) = m * m - 2 * m + 1 := by ring
  omega

theorem sub_red (L : Lawful N val lo B) (hm : 1 < m) (hn : val n = m) (hB : (m : Int) * m ≤ B) {x y : List (BitVec w)}
    (hx : Red val m x) (hy : Red val m y) :
    ∃ r, polySub N x y n = .ok r ∧ r.length = max x.length y.length ∧ Red val m r ∧
      pol (ZMod m) val r = pol (ZMod m) val x - pol (ZMod m) val y := by
  have h2 := two_le hm hB
  obtain ⟨r, h1, h3, h4⟩ := polySub_ok L (x := x) (y := y) (n := n) (by omega) (fun k _ => by
    have := hx k; have := hy k; omega)
  refine ⟨r, h1, h3, fun k => ?_, pol_of_at fun k => ?_⟩
  · rw [h4, hn]
    exact ⟨Int.emod_nonneg _ (by omega), Int.emod_lt_of_pos _ (by omega)⟩
  · rw [h4, hn, ZMod.intCast_mod, Int.cast_sub, Polynomial.coeff_sub, coeff_pol, coeff_pol]

theorem mulX_loop (L : Lawful N val lo B) (hm : 1 < m) (hn : val n = m) (hB : (m : Int) * m ≤ B) {a : List (BitVec w)}
    (ha : Red val m a) (j : Nat) :
    ∃ r, loop j (fun _ a => polyMul N a ((List.replicate (1 + 1) 0#w).set 1 1#w) n) a = .ok r ∧ Red val m r ∧
      pol (ZMod m) val r = X ^ j * pol (ZMod m) val a := by
  refine loop_inv (fun j r => Red val m r ∧ pol (ZMod m) val r = X ^ j * pol (ZMod m) val a) ⟨ha, by simp⟩ ?_
  intro i _ t ⟨ht, hp⟩
  obtain ⟨r, h1, _, h3, h4⟩ := mul_red L hm hn hB ht
    (Red.monomial L.zero (c := 1#w) (m := m) (by omega) (by rw [L.one]; omega) 1)
  refine ⟨r, h1, h3, ?_⟩
  rw [h4, hp, pol_monomial L.zero, L.one, Int.cast_one, C_1, one_mul, pow_one, pow_succ]; ring

theorem quotSub_red (L : Lawful N val lo B) (hm : 1 < m) (hn : val n = m) (hB : (m : Int) * m ≤ B)
    {an bn : List (BitVec w)} (ad bd : Nat) (ha : Red val m an) (hb : Red val m bn) :
    ∃ r, quotSub N an ad bn bd n = .ok (r, max ad bd) ∧ Red val m r ∧
      pol (ZMod m) val r = X ^ (max ad bd - ad) * pol (ZMod m) val an - X ^ (max ad bd - bd) * pol (ZMod m) val bn := by
  obtain ⟨a, h1, h2, h3⟩ := mulX_loop L hm hn hB ha (max ad bd - ad)
  obtain ⟨b, h4, h5, h6⟩ := mulX_loop L hm hn hB hb (max ad bd - bd)
  obtain ⟨r, h7, _, h8, h9⟩ := sub_red L hm hn hB h2 h5
  refine ⟨r, ?_, h8, by rw [h9, h3, h6]⟩
  rw [quotSub, monomial_ok, bind_ok, h1, bind_ok, h4, bind_ok, h7, bind_ok]

/-- `p` represents `P / X^n`: a numerator of degree at most the exponent. -/
structure Frac (val : BitVec w → Int) (m n K : Nat) (p : List (BitVec w) × Nat) (P : (ZMod m)[X]) : Prop where
  red : Red val m p.1
  le : p.2 ≤ K
  eq : P = X ^ (n - p.2) * pol (ZMod m) val p.1
  deg : ∀ k, p.2 < k → (pol (ZMod m) val p.1).coeff k = 0

theorem Frac.mono {i K K' : Nat} {p : List (BitVec w) × Nat} {P : (ZMod m)[X]} (h : Frac val m i K p P) (hK : K ≤ K') :
    Frac val m i K' p P := ⟨h.red, h.le.trans hK, h.eq, h.deg⟩

theorem Frac.succ {i : Nat} {p : List (BitVec w) × Nat} {P : (ZMod m)[X]} (h : Frac val m i i p P) :
    Frac val m (i + 1) i p (X * P) := by
  refine ⟨h.red, h.le, ?_, h.deg⟩
  have := h.le
  rw [h.eq, show i + 1 - p.2 = (i - p.2) + 1 by omega, pow_succ]; ring

theorem Frac.trunc (h0 : val 0#w = 0) (hm : 0 < m) {i K t : Nat} {p : List (BitVec w) × Nat} {P : (ZMod m)[X]}
    (h : Frac val m i K p P) (ht : K < t) : Frac val m i K (makeFixedLength p.1 t, p.2) P := by
  have := h.le
  have e : pol (ZMod m) val (makeFixedLength p.1 t) = pol (ZMod m) val p.1 := by
    ext k
    rw [coeff_pol, at_makeFixedLength h0]
    split
    · rw [coeff_pol]
    · rw [h.deg k (by omega)]; simp
  exact ⟨h.red.makeFixedLength h0 hm t, h.le, by rw [e]; exact h.eq, by rw [e]; exact h.deg⟩

theorem Frac.elim (L : Lawful N val lo B) (hm : 1 < m) (hn : val n = m) (hB : (m : Int) * m ≤ B) {i : Nat}
    {a b : List (BitVec w) × Nat} {P Q : (ZMod m)[X]} (ha : Frac val m i i a P) (hb : Frac val m i i b Q)
    {x y : BitVec w} (hx : 0 ≤ val x ∧ val x < m) (hy : 0 ≤ val y ∧ val y < m) :
    ∃ t0 t1 r, polyMul N ((List.replicate (0 + 1) 0#w).set 0 x) b.1 n = .ok t0 ∧
      polyMul N ((List.replicate (0 + 1) 0#w).set 0 y) a.1 n = .ok t1 ∧ quotSub N t0 b.2 t1 a.2 n = .ok r ∧
      Frac val m (i + 1) (i + 1) (r.1, r.2 + 1) (C ((val x : Int) : ZMod m) * Q - C ((val y : Int) : ZMod m) * P) := by
  obtain ⟨t0, h1, _, h2, h3⟩ := mul_red L hm hn hB (Red.monomial L.zero (by omega) hx 0) hb.red
  obtain ⟨t1, h4, _, h5, h6⟩ := mul_red L hm hn hB (Red.monomial L.zero (by omega) hy 0) ha.red
  obtain ⟨r, h7, h8, h9⟩ := quotSub_red L hm hn hB b.2 a.2 h2 h5
  rw [h3, h6, pol_monomial L.zero, pol_monomial L.zero, pow_zero, mul_one, mul_one] at h9
  have hal := ha.le
  have hbl := hb.le
  refine ⟨t0, t1, _, h1, h4, h7, h8, by show max b.2 a.2 + 1 ≤ _; omega, ?_, ?_⟩
  · show _ = X ^ (i + 1 - (max b.2 a.2 + 1)) * pol (ZMod m) val r
    have e1 : i - b.2 = (i + 1 - (max b.2 a.2 + 1)) + (max b.2 a.2 - b.2) := by omega
    have e2 : i - a.2 = (i + 1 - (max b.2 a.2 + 1)) + (max b.2 a.2 - a.2) := by omega
    rw [h9, ha.eq, hb.eq, e1, e2, pow_add, pow_add]; ring
  · intro k hk
    have hk : max b.2 a.2 + 1 < k := hk
    show (pol (ZMod m) val r).coeff k = 0
    rw [h9, Polynomial.coeff_sub, coeff_X_pow_mul', coeff_X_pow_mul', if_pos (by omega), if_pos (by omega),
      Polynomial.coeff_C_mul, Polynomial.coeff_C_mul, hb.deg _ (by omega), ha.deg _ (by omega)]
    simp

/-- The state of the code after `i` of `nn` steps represents the exact state. -/
structure Rel (val : BitVec w → Int) (m nn i : Nat) (s : DivState w) (a : St (ZMod m)) : Prop where
  delta : s.delta = a.delta
  rf : Red val m s.f
  rg : Red val m s.g
  lf : 1 ≤ s.f.length
  cf : ∀ k, k < nn - i + 1 → (pol (ZMod m) val s.f).coeff k = a.f.coeff k
  cg : ∀ k, k < nn - i → (pol (ZMod m) val s.g).coeff k = a.g.coeff k
  u : Frac val m i (i - 1) s.u a.u
  v : Frac val m i (i - 1) s.v a.v
  q : Frac val m i i s.q a.q
  r : Frac val m i i s.r a.r

/-- The same between the truncation and the elimination. -/
structure Rel' (val : BitVec w → Int) (m nn i : Nat) (s : DivState w) (a : St (ZMod m)) : Prop where
  delta : s.delta = a.delta
  rf : Red val m s.f
  rg : Red val m s.g
  lf : s.f.length = nn - i
  lg : s.g.length = nn - i
  cf : ∀ k, k < nn - i → (pol (ZMod m) val s.f).coeff k = a.f.coeff k
  cg : ∀ k, k < nn - i → (pol (ZMod m) val s.g).coeff k = a.g.coeff k
  u : Frac val m i i s.u a.u
  v : Frac val m i i s.v a.v
  q : Frac val m i i s.q a.q
  r : Frac val m i i s.r a.r

theorem coeff_makeFixedLength (h0 : val 0#w = 0) (R : Type) [CommRing R] (l : List (BitVec w)) {t k : Nat} (hk : k < t) :
    (pol R val (makeFixedLength l t)).coeff k = (pol R val l).coeff k := by
  rw [coeff_pol, coeff_pol, at_makeFixedLength h0, if_pos hk]

theorem rel_trunc (L : Lawful N val lo B) (hm : 1 < m) {nn i : Nat} (hi : i < nn) {s : DivState w} {a : St (ZMod m)}
    (h : Rel val m nn i s a) : Rel' val m nn i (divstepTrunc nn nn i s) a := by
  refine ⟨h.delta, h.rf.makeFixedLength L.zero (by omega) _, h.rg.makeFixedLength L.zero (by omega) _,
    length_makeFixedLength _ _, length_makeFixedLength _ _, fun k hk => ?_, fun k hk => ?_,
    (h.u.mono (by omega)).trunc L.zero (by omega) (by omega), (h.v.mono (by omega)).trunc L.zero (by omega) (by omega),
    h.q.trunc L.zero (by omega) (by omega), h.r.trunc L.zero (by omega) (by omega)⟩
  · exact (coeff_makeFixedLength L.zero _ _ hk).trans (h.cf k (by omega))
  · exact (coeff_makeFixedLength L.zero _ _ hk).trans (h.cg k hk)

open Classical in
theorem rel_swap (L : Lawful N val lo B) {nn i : Nat} (hi : i < nn) {s : DivState w} {a : St (ZMod m)}
    (h : Rel' val m nn i s a) : ∃ s', divstepSwap s = .ok s' ∧
      Rel' val m nn i s' (if 0 < a.delta ∧ a.g.coeff 0 ≠ 0 then a.swap else a) := by
  have hl : 0 < s.g.length := by rw [h.lg]; omega
  have hz : s.g[0] ≠ 0#w ↔ a.g.coeff 0 ≠ 0 := by
    rw [← h.cg 0 (by omega)]
    refine not_congr ⟨fun e => ?_, fun e => ?_⟩
    · rw [coeff_pol, at_lt hl, e, L.zero, Int.cast_zero]
    · have := h.rg.eq_zero e
      rw [at_lt hl] at this
      exact L.inj _ _ (by rw [this, L.zero])
  have hd := h.delta
  by_cases h1 : 0 < s.delta
  · rw [divstepSwap, if_pos h1, idx_ok hl, bind_ok]
    by_cases h2 : s.g[0] ≠ 0#w
    · refine ⟨_, if_pos ⟨h1, h2⟩, ?_⟩
      rw [if_pos ⟨by omega, hz.mp h2⟩]
      exact ⟨by show -s.delta = -a.delta; rw [hd], h.rg, h.rf, h.lg, h.lf, h.cg, h.cf, h.q, h.r, h.u, h.v⟩
    · refine ⟨_, if_neg (fun e => h2 e.2), ?_⟩
      rw [if_neg (fun e => h2 (hz.mpr e.2))]
      exact h
  · rw [divstepSwap, if_neg h1, bind_ok]
    refine ⟨_, if_neg (fun e => h1 e.1), ?_⟩
    rw [if_neg (fun e => h1 (by rw [hd]; exact e.1))]
    exact h

theorem rel_elim (L : Lawful N val lo B) (hm : 1 < m) (hn : val n = m) (hB : (m : Int) * m ≤ B) {nn i : Nat} (hi : i < nn)
    {s : DivState w} {a : St (ZMod m)} (h : Rel' val m nn i s a) :
    ∃ s', divstepElim N n s = .ok s' ∧ Rel val m nn (i + 1) s' a.elim := by
  have hl : 0 < s.g.length := by rw [h.lg]; omega
  have hl' : 0 < s.f.length := by rw [h.lf]; omega
  have hx : 0 ≤ val s.f[0] ∧ val s.f[0] < m := by have := h.rf 0; rwa [at_lt hl'] at this
  have hy : 0 ≤ val s.g[0] ∧ val s.g[0] < m := by have := h.rg 0; rwa [at_lt hl] at this
  have ex : ((val s.f[0] : Int) : ZMod m) = a.f.coeff 0 := by rw [← h.cf 0 (by omega), coeff_pol, at_lt hl']
  have ey : ((val s.g[0] : Int) : ZMod m) = a.g.coeff 0 := by rw [← h.cg 0 (by omega), coeff_pol, at_lt hl]
  obtain ⟨t0, h1, hl0, h2, h3⟩ := mul_red L hm hn hB (Red.monomial L.zero (by omega) hx 0) h.rg
  obtain ⟨t1, h4, hl1, h5, h6⟩ := mul_red L hm hn hB (Red.monomial L.zero (by omega) hy 0) h.rf
  obtain ⟨g, h7, hlg, h8, h9⟩ := sub_red L hm hn hB h2 h5
  rw [h3, h6, pol_monomial L.zero, pol_monomial L.zero, pow_zero, mul_one, mul_one, ex, ey] at h9
  obtain ⟨q0, q1, q, hq1, hq2, hq3, hq⟩ := Frac.elim L hm hn hB h.u h.q hx hy
  obtain ⟨r0, r1, r, hr1, hr2, hr3, hr⟩ := Frac.elim L hm hn hB h.v h.r hx hy
  rw [ex, ey] at hq hr
  obtain ⟨c, cs, rfl⟩ : ∃ c cs, g = c :: cs := by
    cases g with
    | nil => simp at hl0 hl1 hlg; omega
    | cons c cs => exact ⟨c, cs, rfl⟩
  have hdx : polyDivx (c :: cs) = .ok cs := by
    rw [polyDivx, require_true (by simp), bind_ok]
    congr 1
    have : ∀ l : List (BitVec w), overwrite (List.replicate l.length 0#w) l = l := by
      intro l
      induction l with
      | nil => rfl
      | cons a l ih => rw [List.length_cons, List.replicate_succ, overwrite, ih]
    exact this cs
  have hcs : ∀ k, at' val cs k = at' val (c :: cs) (k + 1) := by
    intro k; simp [at']
  refine ⟨{ s with delta := s.delta + 1, g := cs, q := (q.1, q.2 + 1), r := (r.1, r.2 + 1) }, ?_,
    by show s.delta + 1 = a.delta + 1; rw [h.delta], h.rf, ?_, hl', fun k hk => ?_, fun k hk => ?_,
    h.u.succ, h.v.succ, hq, hr⟩
  · rw [divstepElim, idx_ok hl', bind_ok, monomial_ok, bind_ok, idx_ok hl, bind_ok, monomial_ok, bind_ok, h1, bind_ok, h4,
      bind_ok, h7, bind_ok, hdx, bind_ok, hq1, bind_ok, hq2, bind_ok, hq3, bind_ok, hr1, bind_ok, hr2, bind_ok, hr3, bind_ok]
  · intro k
    show 0 ≤ at' val cs k ∧ at' val cs k < m
    rw [hcs]; exact h8 _
  · exact h.cf k (by omega)
  · show (pol (ZMod m) val cs).coeff k = (divX _).coeff k
    rw [coeff_divX, coeff_pol, hcs, ← coeff_pol, h9, Polynomial.coeff_sub, Polynomial.coeff_sub, Polynomial.coeff_C_mul,
      Polynomial.coeff_C_mul, Polynomial.coeff_C_mul, Polynomial.coeff_C_mul, h.cf _ (by omega), h.cg _ (by omega)]

theorem divstepsx_ok (L : Lawful N val lo B) (hm : 1 < m) (hn : val n = m) (hB : (m : Int) * m ≤ B) (nn d : Nat)
    {fin gin : List (BitVec w)} (hf : Red val m fin) (hg : Red val m gin) (hl : 1 ≤ fin.length)
    (hF : (pol (ZMod m) val fin).coeff 0 ≠ 0) (dF : (pol (ZMod m) val fin).natDegree ≤ d)
    (dG : Deg2 (pol (ZMod m) val gin) (2 * d - 2)) :
    ∃ s a, divstepsx N nn nn fin gin n = .ok s ∧ Rel val m nn nn s a ∧
      Inv d (pol (ZMod m) val fin) (pol (ZMod m) val gin) nn a := by
  have hone : pol (ZMod m) val [1#w] = 1 := by
    have := pol_monomial (R := ZMod m) L.zero 1#w 0
    rw [pow_zero, mul_one, L.one, Int.cast_one, C_1] at this
    exact this
  have hzero : pol (ZMod m) val [0#w] = 0 := by
    have := pol_monomial (R := ZMod m) L.zero 0#w 0
    rw [pow_zero, mul_one, L.zero, Int.cast_zero, C_0] at this
    exact this
  have f1 : Frac val m 0 0 ([1#w], 0) (1 : (ZMod m)[X]) :=
    ⟨Red.monomial L.zero (c := 1#w) (by omega) (by rw [L.one]; omega) 0, le_refl _, by simp [hone], fun k hk => by
      rw [hone, coeff_one, if_neg (by omega)]⟩
  have f0 : Frac val m 0 0 ([0#w], 0) (0 : (ZMod m)[X]) :=
    ⟨Red.monomial L.zero (c := 0#w) (by omega) (by rw [L.zero]; omega) 0, le_refl _, by simp [hzero], fun k hk => by
      rw [hzero, coeff_zero]⟩
  obtain ⟨s, h1, a, h2, h3⟩ := loop_inv (n := nn)
    (body := fun i s => do
      let s ← divstepSwap (divstepTrunc nn nn i s)
      divstepElim N n s)
    (s := { delta := 1, f := fin, g := gin, u := ([1#w], 0), v := ([0#w], 0), q := ([0#w], 0), r := ([1#w], 0) })
    (fun i s => ∃ a, Rel val m nn i s a ∧ Inv d (pol (ZMod m) val fin) (pol (ZMod m) val gin) i a)
    ⟨_, ⟨rfl, hf, hg, hl, fun _ _ => rfl, fun _ _ => rfl, f1, f0, f0, f1⟩, inv_start hF dF dG⟩
    (by
      intro i hi t ⟨a, h1, h2⟩
      obtain ⟨s1, h3, h4⟩ := rel_swap L hi (rel_trunc L hm hi h1)
      obtain ⟨s2, h5, h6⟩ := rel_elim L hm hn hB hi h4
      refine ⟨s2, by rw [h3, bind_ok, h5], a.step, ?_, inv_step h2⟩
      rw [St.step]
      split at h6
      · rename_i hc; rw [if_pos hc]; exact h6
      · rename_i hc; rw [if_neg hc]; exact h6)
  exact ⟨s, a, by rw [divstepsx, require_true (le_refl nn), bind_ok, h1], h2, h3⟩

theorem at_reverse (l : List (BitVec w)) {k : Nat} (hk : k < l.length) :
    at' val l.reverse k = at' val l (l.length - 1 - k) := by
  rw [at_lt (by simpa using hk), at_lt (by omega), List.getElem_reverse]

theorem pol_reverse (R : Type) [CommRing R] (l : List (BitVec w)) {d : Nat} (hl : l.length = d + 1) :
    pol R val l.reverse = reflect d (pol R val l) := by
  ext k
  rw [coeff_reflect, coeff_pol, coeff_pol]
  by_cases hk : k ≤ d
  · rw [revAt_le hk, at_reverse l (by omega), show l.length - 1 - k = d - k by omega]
  · rw [revAt_eq_self_of_lt (by omega), at_ge (by simp; omega), at_ge (by omega)]

theorem reflect_pol_reverse (R : Type) [CommRing R] (l : List (BitVec w)) {d : Nat} (hl : l.length = d + 1) :
    reflect d (pol R val l.reverse) = pol R val l := by
  rw [← pol_reverse R _ (by simpa using hl), List.reverse_reverse]

theorem natDegree_pol_le (R : Type) [CommRing R] (l : List (BitVec w)) {d : Nat} (hl : l.length ≤ d + 1) :
    (pol R val l).natDegree ≤ d := by
  rw [natDegree_le_iff_coeff_eq_zero]
  intro k hk
  rw [coeff_pol, at_ge (by omega), Int.cast_zero]

theorem pol_makeFixedLength (h0 : val 0#w = 0) (R : Type) [CommRing R] (l : List (BitVec w)) {t : Nat}
    (h : ∀ k, t ≤ k → (pol R val l).coeff k = 0) : pol R val (makeFixedLength l t) = pol R val l := by
  ext k
  by_cases hk : k < t
  · exact coeff_makeFixedLength h0 R l hk
  · rw [h k (by omega), coeff_pol, at_makeFixedLength h0, if_neg hk, Int.cast_zero]

/-- `extended_euclid` modulo `n > 1`: the result is an inverse; over a field it is found if there is one. -/
theorem extendedEuclid_ok (L : Lawful N val lo B) (hm : 1 < m) (hn : val n = m) (hB : (m : Int) * m ≤ B)
    {x y : List (BitVec w)} (hx : Red val m x) (hy : Red val m y) {d : Nat} (hd : 0 < d) (hy0 : at' val y d ≠ 0)
    (hyt : ∀ k, d < k → at' val y k = 0) (hxl : x.length ≤ d) :
    (∃ r U, extendedEuclid N x y n = .ok (some r) ∧ r.length = d ∧ Red val m r ∧
      U * pol (ZMod m) val y + pol (ZMod m) val x * pol (ZMod m) val r = 1) ∨
    ((m.Prime → ¬ IsCoprime (pol (ZMod m) val y) (pol (ZMod m) val x)) ∧ extendedEuclid N x y n = .ok none) ∨
    (¬ m.Prime ∧ extendedEuclid N x y n = panic) := by
  have hlead : (leadingCoefficient y).1 = d := by
    rcases lead_spec L.zero (val := val) y with ⟨_, h⟩ | ⟨_, h1, h2, h3⟩
    · exact absurd (h d) hy0
    · have h4 : ¬ (leadingCoefficient y).1 < d := fun h => hy0 (h3 d h)
      have h5 : ¬ d < (leadingCoefficient y).1 := fun h => by
        rw [hyt _ h] at h2
        exact h1 (L.inj _ _ (by rw [h2, L.zero]))
      omega
  have ey : pol (ZMod m) val (makeFixedLength y (d + 1)) = pol (ZMod m) val y :=
    pol_makeFixedLength L.zero _ _ fun k hk => by rw [coeff_pol, hyt k (by omega), Int.cast_zero]
  have ex : pol (ZMod m) val (makeFixedLength x d) = pol (ZMod m) val x :=
    pol_makeFixedLength L.zero _ _ fun k hk => by rw [coeff_pol, at_ge (by omega), Int.cast_zero]
  have hrev : ∀ l : List (BitVec w), Red val m l → Red val m l.reverse := by
    intro l h k
    by_cases hk : k < l.length
    · rw [at_reverse l hk]; exact h _
    · rw [at_ge (by simp; omega)]; omega
  generalize hF : (makeFixedLength y (d + 1)).reverse = F
  generalize hG : (makeFixedLength x d).reverse = G
  have hFl : F.length = d + 1 := by rw [← hF, List.length_reverse, length_makeFixedLength]
  have hGl : G.length = d := by rw [← hG, List.length_reverse, length_makeFixedLength]
  have rF : reflect d (pol (ZMod m) val F) = pol (ZMod m) val y := by
    rw [← hF, reflect_pol_reverse _ _ (length_makeFixedLength _ _), ey]
  have rG : reflect (d - 1) (pol (ZMod m) val G) = pol (ZMod m) val x := by
    rw [← hG, reflect_pol_reverse _ _ (by rw [length_makeFixedLength]; omega), ex]
  have dF := natDegree_pol_le (val := val) (ZMod m) F hFl.le
  have dG := natDegree_pol_le (val := val) (ZMod m) G (d := d - 1) (by omega)
  have F0 : (pol (ZMod m) val F).coeff 0 ≠ 0 := by
    intro h
    have := (show Red val m F from hF ▸ hrev _ (hy.makeFixedLength L.zero (by omega) _)).eq_zero h
    rw [← hF, at_reverse _ (by rw [length_makeFixedLength]; omega), length_makeFixedLength, at_makeFixedLength L.zero,
      if_pos (by omega)] at this
    exact hy0 this
  obtain ⟨s, a, h1, h2, h3⟩ := divstepsx_ok L hm hn hB (2 * d - 1) d (hF ▸ hrev _ (hy.makeFixedLength L.zero (by omega) _))
    (hG ▸ hrev _ (hx.makeFixedLength L.zero (by omega) _)) (by omega) F0 dF
    (fun k hk => coeff_eq_zero_of_natDegree_lt (by omega))
  have hcode : extendedEuclid N x y n = (if s.delta ≠ 0 then .ok none
      else do
        let f0 ← idx s.f 0
        let fi ← euclidInvert N.toIntOps f0 n
        require (s.v.2 ≤ 2 * d - 2)
        let t ← monomial fi (2 * d - 2 - s.v.2)
        let rr ← polyMul N t s.v.1 n
        .ok (some (makeFixedLength rr d).reverse)) := by
    rw [extendedEuclid, hlead]
    show (require (d ≥ x.length) >>= fun _ => require (d > 0) >>= fun _ => _) = _
    rw [require_true hxl, bind_ok, require_true hd, bind_ok, hF, hG]
    show (divstepsx N (2 * d - 1) (2 * d - 1) F G n >>= fun s => _) = _
    rw [h1, bind_ok]
  rw [hcode]
  by_cases h0 : s.delta = 0
  · have ha0 : a.delta = 0 := by rw [← h2.delta, h0]
    have hvle : s.v.2 ≤ 2 * d - 2 := by have := h2.v.le; omega
    obtain ⟨hWd, hW⟩ := of_delta_zero (W := X ^ (2 * d - 2 - s.v.2) * pol (ZMod m) val s.v.1) hd h3 ha0 dF dG (by
      rw [h2.v.eq, show 2 * d - 1 - s.v.2 = (2 * d - 2 - s.v.2) + 1 by omega, pow_succ]; ring)
    rw [rF, rG] at hW
    have hlf : 0 < s.f.length := h2.lf
    have hf0 : ((val s.f[0] : Int) : ZMod m) = a.f.coeff 0 := by rw [← h2.cf 0 (by omega), coeff_pol, at_lt h2.lf]
    have hfr := h2.rf 0
    rw [at_lt h2.lf] at hfr
    have hfne : val s.f[0] ≠ 0 := by intro h; rw [h, Int.cast_zero] at hf0; exact h3.f0 hf0.symm
    by_cases hcop : Int.gcd (val s.f[0]) (val n) = 1
    swap
    · right; right
      refine ⟨fun hp => hcop ?_, ?_⟩
      · obtain ⟨b, hb⟩ : ∃ b : Nat, val s.f[0] = b := ⟨_, (Int.toNat_of_nonneg hfr.1).symm⟩
        rw [hb, hn]
        rw [hb] at hfne hfr
        have : Nat.Coprime b m := by
          rw [Nat.coprime_comm, hp.coprime_iff_not_dvd]
          intro hdvd
          have := Nat.le_of_dvd (by omega) hdvd
          omega
        simpa [Int.gcd] using this
      · rw [if_neg (by simpa using h0), idx_ok hlf, bind_ok, L.invPanic s.f[0] n (by omega) (by omega) (by rw [hn]; exact hB) hcop,
          bind_panic]
    left
    obtain ⟨fi, i1, i2, i3, i4⟩ := L.inv s.f[0] n (by omega) (by omega) (by rw [hn]; exact hB) hcop
    have hinv : ((val fi : Int) : ZMod m) * a.f.coeff 0 = 1 := by
      rw [← hf0, ← Int.cast_mul, ← ZMod.intCast_mod, ← hn, i4, Int.cast_one]
    obtain ⟨rr, j1, _, j3, j4⟩ := mul_red L hm hn hB
      (Red.monomial L.zero (by omega) (by rw [hn] at i3; exact ⟨i2, i3⟩) (2 * d - 2 - s.v.2)) h2.v.red
    rw [pol_monomial L.zero, mul_assoc] at j4
    have e1 : pol (ZMod m) val (makeFixedLength rr d) = pol (ZMod m) val rr := by
      refine pol_makeFixedLength L.zero _ _ fun k hk => ?_
      rw [j4, Polynomial.coeff_C_mul, coeff_eq_zero_of_natDegree_lt (by omega), mul_zero]
    have e2 : pol (ZMod m) val (makeFixedLength rr d).reverse = C ((val fi : Int) : ZMod m) *
        reflect (d - 1) (X ^ (2 * d - 2 - s.v.2) * pol (ZMod m) val s.v.1) := by
      rw [pol_reverse _ _ (d := d - 1) (by rw [length_makeFixedLength]; omega), e1, j4, reflect_C_mul]
    have hC : C ((val fi : Int) : ZMod m) * C (a.f.coeff 0) = 1 := by rw [← C_mul, hinv, C_1]
    rw [hW] at hC
    refine ⟨(makeFixedLength rr d).reverse, C ((val fi : Int) : ZMod m) * reflect (d - 1) a.u, ?_,
      by rw [List.length_reverse, length_makeFixedLength], hrev _ (j3.makeFixedLength L.zero (by omega) _), ?_⟩
    · rw [if_neg (by simpa using h0), idx_ok hlf, bind_ok, i1, bind_ok, require_true hvle, bind_ok, monomial_ok, bind_ok, j1,
        bind_ok]
    · rw [e2]; linear_combination hC
  · right; left
    refine ⟨fun hp => ?_, by rw [if_pos h0]⟩
    have : Fact m.Prime := ⟨hp⟩
    rw [← rF, ← rG]
    exact of_delta_pos hd h3 (by rw [← h2.delta]; exact h0)

end Hacspec.Poly
