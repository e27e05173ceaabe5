import Verif.Props.KeyCounts
import Mathlib.GroupTheory.Index
import Mathlib.GroupTheory.Perm.Cycle.Type

/-! # C143: how many coordinates give the same common secrets -/

namespace Hacspec.Props

open SecretInt NatMod Hacspec.AbstractInt Spec WeierstrassCurve Hacspec.Ideal
open Curve25519.Order (q0 ell ell' plus minus)

/-- In a group of `c r` elements, with `c = 8` or `c = 4` and a large prime `r`, exactly `c` elements have an order that divides 8. -/
theorem card_torsion {G : Type} [AddCommGroup G] [Finite G] {c r : Nat} (hr : r.Prime) (hr8 : 8 < r) (hc : c = 8 ∨ c = 4)
    (h : Nat.card G = c * r) : {T : G | (8 : Nat) • T = 0}.ncard = c := by
  let f : G →+ G := nsmulAddMonoidHom 8
  have hm := AddSubgroup.card_mul_index f.ker
  rw [AddSubgroup.index_ker, h] at hm
  have hk : ¬ r ∣ Nat.card f.ker := fun hd => by
    have : Fact r.Prime := ⟨hr⟩
    obtain ⟨x, hx⟩ := exists_prime_addOrderOf_dvd_card' r hd
    have h8 : (8 : Nat) • x = 0 := Subtype.ext x.2
    have := Nat.le_of_dvd (by decide) (addOrderOf_dvd_iff_nsmul_eq_zero.mpr h8)
    omega
  have hg : ¬ 2 ∣ Nat.card f.range := fun hd => by
    have : Fact (Nat.Prime 2) := ⟨Nat.prime_two⟩
    obtain ⟨⟨x, y, rfl⟩, hx⟩ := exists_prime_addOrderOf_dvd_card' 2 hd
    have h0 : r • f y = 0 := by
      have h1 : Nat.card G • y = 0 := card_nsmul_eq_zero'
      rw [h] at h1
      change r • (8 : Nat) • y = 0
      rcases hc with rfl | rfl
      · rw [← mul_smul, mul_comm, h1]
      · rw [← mul_smul, show r * 8 = 2 * (4 * r) by ring, mul_smul, h1, nsmul_zero]
    have h1 : r • (⟨f y, y, rfl⟩ : f.range) = 0 := Subtype.ext h0
    have h2 := addOrderOf_dvd_iff_nsmul_eq_zero.mpr h1
    rw [hx] at h2
    have := (Nat.prime_dvd_prime_iff_eq Nat.prime_two hr).mp h2
    omega
  have e : Nat.card f.ker = c := by
    refine Nat.dvd_antisymm ?_ ?_
    · refine Nat.Coprime.dvd_of_dvd_mul_right ?_ (Dvd.intro _ hm)
      exact ((Nat.Prime.coprime_iff_not_dvd hr).mpr hk).symm
    · refine Nat.Coprime.dvd_of_dvd_mul_right (n := Nat.card f.range) ?_ (hm ▸ Dvd.intro r rfl)
      have h2 : Nat.Coprime 2 (Nat.card f.range) := (Nat.Prime.coprime_iff_not_dvd Nat.prime_two).mpr hg
      rcases hc with rfl | rfl
      · exact Nat.Coprime.pow_left 3 h2
      · exact Nat.Coprime.pow_left 2 h2
  rw [← e, ← Nat.card_coe_set_eq]
  rfl

/-- The coordinates of the points with the same multiple by 8, up to the sign. -/
theorem card_class [DecidableEq K25519] (H : AddSubgroup (X25519.curve K25519).Point) {c r : Nat} (hr : r.Prime) (hr8 : 16 < r)
    (hc : c = 8 ∨ c = 4) (h : Nat.card H = c * r) {P : (X25519.curve K25519).Point} (hP : P ∈ H) (h0 : (8 : Nat) • P ≠ 0) (hk : r • (8 : Nat) • P = 0) :
    {x : K25519 | ∃ Q ∈ H, ((8 : Nat) • Q = (8 : Nat) • P ∨ (8 : Nat) • Q = -((8 : Nat) • P)) ∧ X25519.u Q = x}.ncard = c := by
  have hfin : Finite H := Nat.finite_of_card_ne_zero (by
    rw [h]
    rcases hc with rfl | rfl <;> have := hr.pos <;> omega)
  have hn (T : H) (hT : (8 : Nat) • T = 0) : P + T.1 ≠ 0 := by
    intro e
    have := congrArg ((8 : Nat) • ·) e
    have h8 : (8 : Nat) • T.1 = 0 := congrArg Subtype.val hT
    simp only [nsmul_add, h8, add_zero, nsmul_zero] at this
    exact h0 this
  have e : {x : K25519 | ∃ Q ∈ H, ((8 : Nat) • Q = (8 : Nat) • P ∨ (8 : Nat) • Q = -((8 : Nat) • P)) ∧ X25519.u Q = x} =
      (fun T : H => X25519.u (P + T.1)) '' {T : H | (8 : Nat) • T = 0} := by
    have hu (Q : (X25519.curve K25519).Point) : X25519.u (-Q) = X25519.u Q := by
      cases Q with
      | zero => rfl
      | some x y hn => rw [Affine.Point.neg_some]; rfl
    ext x
    constructor
    · rintro ⟨Q, hQ, hq, rfl⟩
      rcases hq with hq | hq
      · refine ⟨⟨Q - P, H.sub_mem hQ hP⟩, Subtype.ext ?_, ?_⟩
        · change (8 : Nat) • (Q - P) = 0
          rw [nsmul_sub, hq, sub_self]
        · dsimp only
          rw [add_sub_cancel]
      · refine ⟨⟨-Q - P, H.sub_mem (H.neg_mem hQ) hP⟩, Subtype.ext ?_, ?_⟩
        · change (8 : Nat) • (-Q - P) = 0
          rw [nsmul_sub, neg_nsmul, hq, neg_neg, sub_self]
        · dsimp only
          rw [add_sub_cancel, hu]
    · rintro ⟨T, hT, rfl⟩
      have h8 : (8 : Nat) • T.1 = 0 := congrArg Subtype.val hT
      exact ⟨P + T.1, H.add_mem hP T.2, .inl (by rw [nsmul_add, h8, add_zero]), rfl⟩
  have hi : Set.InjOn (fun T : H => X25519.u (P + T.1)) {T : H | (8 : Nat) • T = 0} := by
    intro T hT T' hT' hu
    dsimp only at hu
    have h8 : (8 : Nat) • T.1 = 0 := congrArg Subtype.val hT
    have h8' : (8 : Nat) • T'.1 = 0 := congrArg Subtype.val hT'
    rcases (u_eq_iff (hn T hT) (hn T' hT')).mp hu with e | e
    · exact Subtype.ext (add_left_cancel e)
    · exfalso
      have e' := congrArg ((8 : Nat) • ·) e
      simp only [neg_nsmul, nsmul_add, h8, h8', add_zero] at e'
      have e2 : 2 • (8 : Nat) • P = 0 := by rw [two_nsmul]; exact eq_neg_iff_add_eq_zero.mp e'
      exact h0 (coprime_smul hr hk (fun hd => by have := Nat.le_of_dvd (by decide) hd; omega) e2)
  rw [e, hi.ncard_image, card_torsion hr (by omega) hc h]

/-- Points of either group have rational coordinates. -/
theorem good_coord [DecidableEq K25519] {Q : (X25519.curve K25519).Point} (h : Q ∈ plus K25519 q0 ∨ Q ∈ minus K25519 q0) :
    ∃ a, a < q0 ∧ X25519.u Q = ((a : Nat) : K25519) := by
  have hx : X25519.u Q ^ q0 = X25519.u Q := by
    cases Q with
    | zero => exact zero_pow (by decide +kernel)
    | some x y hn =>
      rcases h with h | h
      · exact (Curve25519.Order.mem_plus.mp h).1
      · exact (Curve25519.Order.mem_minus.mp h).1
  obtain ⟨z, hz⟩ := Curve25519.Order.base_surj (K := K25519) (q := q0) hx
  have : NeZero q0 := ⟨factPrimeQ0.out.ne_zero⟩
  refine ⟨z.val, ZMod.val_lt z, ?_⟩
  rw [← hz]
  conv_lhs => rw [← ZMod.natCast_zmod_val z]
  rw [map_natCast]

theorem u_smul_congr [DecidableEq K25519] {P P' : (X25519.curve K25519).Point} (hP : P ≠ 0) (hP' : P' ≠ 0) (h : X25519.u P = X25519.u P') :
    (8 : Nat) • P = (8 : Nat) • P' ∨ (8 : Nat) • P = -((8 : Nat) • P') := by
  rcases (u_eq_iff hP hP').mp h with rfl | rfl
  · exact .inl rfl
  · exact .inr (neg_nsmul _ _)

/-- The class of a coordinate as a class of points. -/
theorem class_points [DecidableEq K25519] (H H' : AddSubgroup (X25519.curve K25519).Point) {r r' : Nat} (hr : r.Prime) (hr' : r'.Prime) (hne : r ≠ r')
    (hH : ∀ Q ∈ H, ∃ a, a < q0 ∧ X25519.u Q = ((a : Nat) : K25519))
    (hall : ∀ (a : Nat) (y : K25519) (hn : (X25519.curve K25519).Nonsingular (a : K25519) y),
      (Affine.Point.some _ _ hn ∈ H ∧ r • (8 : Nat) • Affine.Point.some _ _ hn = 0) ∨ (Affine.Point.some _ _ hn ∈ H' ∧ r' • (8 : Nat) • Affine.Point.some _ _ hn = 0))
    (s u : List U8) (hs : s.length = 32) (hu : u.length = 32) (hl : X25519.coord u ∉ X25519.lowOrder) {P : (X25519.curve K25519).Point}
    (hP0 : P ≠ 0) (hPu : X25519.u P = ((X25519.coord u : Nat) : K25519)) (hk : r • (8 : Nat) • P = 0) (h8 : (8 : Nat) • P ≠ 0) :
    (fun a : Nat => (a : K25519)) '' {a : Nat | a < X25519.p ∧ Curve25519.scalarmult s (leBytes 32 a) = Curve25519.scalarmult s u} =
      {x : K25519 | ∃ Q ∈ H, ((8 : Nat) • Q = (8 : Nat) • P ∨ (8 : Nat) • Q = -((8 : Nat) • P)) ∧ X25519.u Q = x} := by
  have link {a : Nat} (ha : a < q0) (hla : a ∉ X25519.lowOrder) {Q : (X25519.curve K25519).Point} (hQ0 : Q ≠ 0)
      (hQ : X25519.u Q = ((a : Nat) : K25519)) :
      Curve25519.scalarmult s (leBytes 32 a) = Curve25519.scalarmult s u ↔ (8 : Nat) • Q = (8 : Nat) • P ∨ (8 : Nat) • Q = -((8 : Nat) • P) := by
    have hca := coord_leBytes ha
    obtain ⟨R, R', hR, hR', e, e', g, g', hi⟩ := same_eight (u := leBytes 32 a) (u' := u) (length_leBytes _ _) hu (by rw [hca]; exact hla) hl
    rw [hi s hs, u_eq_iff g g']
    rw [hca] at e
    have c1 := u_smul_congr hQ0 hR (hQ.trans e.symm)
    have c2 := u_smul_congr hP0 hR' (hPu.trans e'.symm)
    rcases c1 with c1 | c1 <;> rcases c2 with c2 | c2 <;> rw [c1, c2]
    · rw [neg_neg, or_comm]
    · rw [neg_inj, neg_eq_iff_eq_neg, or_comm, or_comm (a := _ = -_)]
    · rw [neg_inj, neg_neg, neg_eq_iff_eq_neg]
  ext x
  constructor
  · rintro ⟨a, ⟨ha, hsame⟩, rfl⟩
    rw [Curve25519.Order.p_eq] at ha
    have hla : a ∉ X25519.lowOrder := fun hc => hl (by
      rw [← C68_zero_output s u hs hu, ← hsame]
      exact low_result hs (length_leBytes _ _) (by rw [coord_leBytes ha]; exact hc))
    obtain ⟨y, hn⟩ := C52_point_exists a
    have h := (link ha hla (Affine.Point.some_ne_zero hn) rfl).mp hsame
    refine ⟨_, ?_, h, rfl⟩
    rcases hall a y hn with ⟨h1, -⟩ | ⟨-, h1⟩
    · exact h1
    · exfalso
      have h2 : r' • (8 : Nat) • P = 0 := by
        rcases h with h | h
        · rw [← h, h1]
        · rw [← neg_neg ((8 : Nat) • P), ← h, neg_nsmul, h1, neg_zero]
      exact h8 (coprime_smul hr hk (fun hd => hne ((Nat.prime_dvd_prime_iff_eq hr hr').mp hd)) h2)
  · rintro ⟨Q, hQ, h, rfl⟩
    obtain ⟨a, ha, e⟩ := hH Q hQ
    have hQ8 : (8 : Nat) • Q ≠ 0 := by
      rcases h with h | h
      · rw [h]; exact h8
      · rw [h]; exact neg_ne_zero.mpr h8
    have hQ0 : Q ≠ 0 := fun hc => hQ8 (by rw [hc, nsmul_zero])
    have hla : a ∉ X25519.lowOrder := fun hc => by
      obtain ⟨y, hn⟩ := C52_point_exists a
      have hz := (small_point_iff a ha hn).mpr hc
      rcases u_smul_congr hQ0 (Affine.Point.some_ne_zero hn) e with g | g
      · exact hQ8 (by rw [g, hz])
      · exact hQ8 (by rw [g, hz, neg_zero])
    exact ⟨a, ⟨by rw [Curve25519.Order.p_eq]; exact ha, (link ha hla hQ0 e).mpr h⟩, e.symm⟩

theorem cast_injOn (s u : List U8) :
    Set.InjOn (fun a : Nat => (a : K25519)) {a : Nat | a < X25519.p ∧ Curve25519.scalarmult s (leBytes 32 a) = Curve25519.scalarmult s u} := by
  intro a ha b hb e
  have := (CharP.natCast_eq_natCast K25519 q0).mp e
  rw [Nat.ModEq, Nat.mod_eq_of_lt (Curve25519.Order.p_eq ▸ ha.1), Nat.mod_eq_of_lt (Curve25519.Order.p_eq ▸ hb.1)] at this
  exact this

/-- **C143.**  A coordinate of a point of the curve, outside those of small order, is one of exactly eight coordinates that give the same
results. -/
theorem C143_curve (s u : List U8) (hs : s.length = 32) (hu : u.length = 32) (hl : X25519.coord u ∉ X25519.lowOrder)
    (hq : IsSquare ((X25519.coord u : ZMod X25519.p) ^ 3 + 486662 * (X25519.coord u : ZMod X25519.p) ^ 2 + (X25519.coord u : ZMod X25519.p))) :
    {a : Nat | a < X25519.p ∧ Curve25519.scalarmult s (leBytes 32 a) = Curve25519.scalarmult s u}.ncard = 8 := by
  classical
  obtain ⟨y, hn⟩ := C52_point_exists (X25519.coord u)
  have h8 : (8 : Nat) • Affine.Point.some _ _ hn ≠ 0 := fun h => hl ((small_point_iff _ (coord_lt_q0 u) hn).mp h)
  rcases kill _ hn with ⟨hm, hk⟩ | ⟨hm, -⟩
  · have e := class_points (plus K25519 q0) (minus K25519 q0) Primes.prime_25519_order Primes.prime_25519_twist (by decide +kernel)
      (fun Q hQ => good_coord (.inl hQ)) (fun a y hn => kill a hn) s u hs hu hl (Affine.Point.some_ne_zero hn) rfl hk h8
    rw [← (cast_injOn s u).ncard_image, e]
    exact card_class _ Primes.prime_25519_order (by decide +kernel) (.inl rfl) (Curve25519.Order.cards exists_y).1 hm h8 hk
  · exact absurd (minus_square _ hn hm hq) h8

/-- **C143.**  A coordinate of a point of the twist, outside those of small order, is one of exactly four coordinates that give the same
results. -/
theorem C143_twist (s u : List U8) (hs : s.length = 32) (hu : u.length = 32) (hl : X25519.coord u ∉ X25519.lowOrder)
    (hq : ¬ IsSquare ((X25519.coord u : ZMod X25519.p) ^ 3 + 486662 * (X25519.coord u : ZMod X25519.p) ^ 2 + (X25519.coord u : ZMod X25519.p))) :
    {a : Nat | a < X25519.p ∧ Curve25519.scalarmult s (leBytes 32 a) = Curve25519.scalarmult s u}.ncard = 4 := by
  classical
  obtain ⟨y, hn⟩ := C52_point_exists (X25519.coord u)
  have h8 : (8 : Nat) • Affine.Point.some _ _ hn ≠ 0 := fun h => hl ((small_point_iff _ (coord_lt_q0 u) hn).mp h)
  rcases kill _ hn with ⟨hm, -⟩ | ⟨hm, hk⟩
  · exact absurd (plus_square _ hn hm) hq
  · have e := class_points (minus K25519 q0) (plus K25519 q0) Primes.prime_25519_twist Primes.prime_25519_order (by decide +kernel)
      (fun Q hQ => good_coord (.inr hQ)) (fun a y hn => (kill a hn).symm) s u hs hu hl (Affine.Point.some_ne_zero hn) rfl hk h8
    rw [← (cast_injOn s u).ncard_image, e]
    exact card_class _ Primes.prime_25519_twist (by decide +kernel) (.inr rfl) (Curve25519.Order.cards exists_y).2 hm h8 hk

/-- **C143.**  The five coordinates of small order give the same result, and no other coordinate gives it. -/
theorem C143_small (s u : List U8) (hs : s.length = 32) (hu : u.length = 32) (hl : X25519.coord u ∈ X25519.lowOrder) :
    {a : Nat | a < X25519.p ∧ Curve25519.scalarmult s (leBytes 32 a) = Curve25519.scalarmult s u}.ncard = 5 := by
  have e : {a : Nat | a < X25519.p ∧ Curve25519.scalarmult s (leBytes 32 a) = Curve25519.scalarmult s u} = (X25519.lowOrder.toFinset : Set Nat) := by
    ext a
    rw [low_result hs hu hl, Set.mem_ofPred_eq, List.coe_toFinset, Set.mem_ofPred_eq]
    constructor
    · rintro ⟨ha, h⟩
      rw [C68_zero_output s _ hs (length_leBytes _ _), coord_leBytes ha] at h
      exact h
    · intro h
      have hlt : ∀ x ∈ X25519.lowOrder, x < X25519.p := by decide +kernel
      refine ⟨hlt a h, ?_⟩
      rw [C68_zero_output s _ hs (length_leBytes _ _), coord_leBytes (hlt a h)]
      exact h
  rw [e, Set.ncard_coe_finset]
  decide +kernel

/-! ## Cases -/

theorem nine_square : IsSquare ((X25519.coord nine : ZMod X25519.p) ^ 3 + 486662 * (X25519.coord nine : ZMod X25519.p) ^ 2 +
    (X25519.coord nine : ZMod X25519.p)) := by
  rw [show X25519.coord nine = 9 from by decide +kernel]
  refine ⟨((14781619447589544791020593568409986887264606134616475288964881837755586237401 : Nat) : ZMod X25519.p), ?_⟩
  have := Montgomery.equation.mp base25519.1
  rw [← pow_two, this]
  norm_num

example (s : List U8) (hs : s.length = 32) := C143_curve s nine hs (by simp) (by decide +kernel) nine_square
example (s : List U8) (hs : s.length = 32) := C143_twist s (leBytes 32 2) hs (length_leBytes _ _) (by decide +kernel) two_twist
example (s : List U8) (hs : s.length = 32) := C143_small s (leBytes 32 1) hs (length_leBytes _ _) (by decide +kernel)

end Hacspec.Props
