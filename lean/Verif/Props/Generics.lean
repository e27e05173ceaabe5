import Verif.Lemmas.Ideal.Generic
import Verif.Lemmas.Ideal.ChaCha
import Verif.Props.IdealMacs
import Verif.Props.P256Orders
import Verif.Props.X25519Orders

/-! # C126: attacks on P-256 and X25519 that use nothing but the group -/

namespace Hacspec.Props

open SecretInt NatMod Hacspec.AbstractInt Spec WeierstrassCurve Hacspec.Ideal

/-! ## P-256 -/

instance factPrimeP256n : Fact Spec.P256.n.Prime := ⟨C66_order.2.1⟩

/-- The points whose coordinates `point_mul` returns for the secrets. -/
def KeysP256 (Q : Fin Spec.P256.n → P256Point) : Prop :=
  ∀ d, ∃ x y, Hacspec.P256.pointMul (AbstractInt.enc 256 d.val) = .ok (x, y) ∧ Coords (Q d) x y

theorem enc_reach_n (d : Fin Spec.P256.n) : Reach 256 false (AbstractInt.enc 256 d.val) ∧ val (AbstractInt.enc 256 d.val) = d.val := by
  have hk2 : d.val + 1 < 2 ^ 256 := Nat.lt_of_le_of_lt d.isLt (by decide +kernel)
  exact ⟨Reach.ofBig d.val _ (AbstractInt.fromBig_ok (inRange_nat hk2)), toBigUint_enc 256 d.val⟩

theorem keysP256_iff (Q : Fin Spec.P256.n → P256Point) : KeysP256 Q ↔ ∀ d, Q d = d.val • baseP256 := by
  refine forall_congr' fun d => ?_
  obtain ⟨h1, h2⟩ := enc_reach_n d
  obtain ⟨x, y, h3, h4⟩ := point_mul_coords _ h1
  rw [h2] at h4
  constructor
  · rintro ⟨x', y', e, h⟩
    obtain ⟨rfl, rfl⟩ := Prod.mk.inj (Except.ok.inj (h3.symm.trans e))
    exact (coords_inj h h4).mp ⟨rfl, rfl⟩
  · intro h
    exact ⟨x, y, h3, by rw [h]; exact h4⟩

theorem share_p256 (c : ZMod Spec.P256.n) : share (fun d : Fin Spec.P256.n => ((d.val : Nat) : ZMod Spec.P256.n) = c) ≤ 1 / Spec.P256.n := by
  refine (share_le (c := 1) fun s hs => Finset.card_le_one.mpr fun d hd d' hd' => ?_).trans (by rw [Fintype.card_fin, Nat.cast_one])
  have h := (hs d hd).trans (hs d' hd').symm
  rw [ZMod.natCast_eq_natCast_iff', Nat.mod_eq_of_lt d.isLt, Nat.mod_eq_of_lt d'.isLt] at h
  exact Fin.ext h

theorem represents_inj {j : Hacspec.P256.Jacobian} {P Q : P256Point} (hP : Represents j P) (hQ : Represents j Q) : P = Q := by
  obtain ⟨x, y, h1, h2⟩ := to_affine_coords hP
  obtain ⟨x', y', h3, h4⟩ := to_affine_coords hQ
  obtain ⟨rfl, rfl⟩ := Prod.mk.inj (Except.ok.inj (h1.symm.trans h3))
  exact (coords_inj h2 h4).mp ⟨rfl, rfl⟩

theorem order_baseP256 : Spec.P256.n • baseP256 = 0 := by
  have h := addOrderOf_nsmul_eq_zero baseP256
  rwa [C66_order.2.2.1] at h

instance nonemptyFinN : Nonempty (Fin Spec.P256.n) := ⟨⟨1, C66_order.2.1.one_lt⟩⟩

/-- **C126.**  Whoever has a public key, computed by `point_mul` from a secret below the order of the group, and any other points, and
does nothing but add, negate and multiply points and compare pairs of them, finds the secret for at most the share `(e + 1) / n` of the
secrets, where `e` is the number of comparisons.  To know of all pairs among `m` points whether they are equal are `m (m - 1) / 2`
comparisons, so that about `√n` points are necessary. -/
theorem C126_p256_log (Q : Fin Spec.P256.n → P256Point) (hQ : KeysP256 Q) (a : GroupAttack Nat) (e : Nat) (ha : a.Compares e)
    (pub : List P256Point) :
    share (fun d => (a.run (pub ++ [Q d])).1 % Spec.P256.n = d.val) ≤ (e + 1) / Spec.P256.n := by
  rw [keysP256_iff] at hQ
  have h := generic_log baseP256 order_baseP256 baseP256_ne (s := fun d : Fin Spec.P256.n => d.val) (by positivity) share_p256 a ha pub
    (fun m => [(m : ZMod Spec.P256.n)]) (k := 1) fun _ => le_rfl
  refine (share_mono fun d hd => ?_).trans (h.trans (le_of_eq (by rw [Nat.cast_one, mul_one_div])))
  rw [hQ d] at hd
  rw [List.mem_singleton, ZMod.natCast_eq_natCast_iff', Nat.mod_eq_of_lt d.isLt]
  exact hd.symm

/-- **C126.**  Whoever has two public keys gets in this way the common secret, which `montgomery_ladder` computes from one of the
secrets and the other public key, for at most the share `(e + 2) / n` of the pairs of secrets: `a` names the point among all those they
computed. -/
theorem C126_p256_secret (Q : Fin Spec.P256.n → P256Point) (hQ : KeysP256 Q) (a : GroupAttack Nat) (e : Nat) (ha : a.Compares e)
    (pub : List P256Point) :
    share (fun ω : Fin Spec.P256.n × Fin Spec.P256.n => ∃ o points j r, a.run (pub ++ [Q ω.1, Q ω.2]) = (o, points) ∧
      Represents j (Q ω.1) ∧ Hacspec.P256.montgomeryLadder (AbstractInt.enc 256 ω.2.val) j = .ok r ∧ Represents r (points.getD o 0)) ≤
    (e + 2) / Spec.P256.n := by
  rw [keysP256_iff] at hQ
  have h := generic_secret baseP256 order_baseP256 baseP256_ne (s := fun d : Fin Spec.P256.n => d.val)
    (t := fun d : Fin Spec.P256.n => d.val) (by positivity) share_p256 share_p256 a ha pub [1] fun d hd => by
      rw [List.mem_singleton.mp hd]; exact one_ne_zero
  refine (share_mono fun ω hω => ?_).trans (h.trans (le_of_eq (by
    rw [List.length_singleton, Nat.cast_one, mul_one, mul_one_div])))
  obtain ⟨o, points, j, r, h1, h2, h3, h4⟩ := hω
  refine ⟨1, List.mem_singleton_self 1, o, points, ?_, ?_⟩
  · rw [← h1, hQ, hQ]
  · obtain ⟨e1, e2⟩ := enc_reach_n ω.2
    obtain ⟨r', h5, h6⟩ := C55_ladder _ e1 j _ h2
    obtain rfl := Except.ok.inj (h3.symm.trans h5)
    rw [e2, hQ, ← mul_nsmul] at h6
    rw [one_mul, ← Nat.cast_mul, timesOf_natCast]
    exact represents_inj h4 h6

/-- **C126.**  Whoever has two public keys and a third point tells the common secret from the public key of a third secret with
advantage at most `3 e / n`. -/
theorem C126_p256_decide (Q : Fin Spec.P256.n → P256Point) (hQ : KeysP256 Q) (a : GroupAttack Bool) (e : Nat) (ha : a.Compares e)
    (pub : List P256Point) :
    |share (fun ω : Fin Spec.P256.n × Fin Spec.P256.n => (a.run (pub ++ [Q ω.1, Q ω.2, ω.2.val • Q ω.1])).1 = true) -
      share (fun ω : (Fin Spec.P256.n × Fin Spec.P256.n) × Fin Spec.P256.n =>
        (a.run (pub ++ [Q ω.1.1, Q ω.1.2, Q ω.2])).1 = true)| ≤ 3 * e / Spec.P256.n := by
  rw [keysP256_iff] at hQ
  have h := generic_decide baseP256 order_baseP256 baseP256_ne (s := fun d : Fin Spec.P256.n => d.val)
    (t := fun d : Fin Spec.P256.n => d.val) (w := fun d : Fin Spec.P256.n => d.val) (by positivity) share_p256 share_p256 share_p256
    a ha pub (· = true)
  rw [mul_one_div] at h
  simp only [hQ, ← mul_nsmul]
  exact h

/-- The attack that compares the second point with `i`, `i + 1`, … times the first, `t` multiples in all, where `i` points have been
appended before. -/
def searchLog : Nat → Nat → GroupAttack Nat
  | i, 0 => .ret i
  | i, t + 1 => .combine i 0 0 0 (.compare 1 (i + 2) fun b => if b then .ret i else searchLog (i + 1) t)

theorem searchLog_compares (i t : Nat) : (searchLog i t).Compares t := by
  induction t generalizing i with
  | zero => exact trivial
  | succ t ih =>
    refine ⟨t, rfl, fun b => ?_⟩
    cases b
    · exact ih (i + 1)
    · exact trivial

theorem searchLog_run {d : Nat} (hd : d < Spec.P256.n) (i t : Nat) (h1 : i ≤ d) (h2 : d ≤ i + t) (l : List P256Point)
    (hl : l.length = i) (r : List P256Point) (hr : r = [baseP256, d • baseP256] ++ l) : ((searchLog i t).run r).1 = d := by
  induction t generalizing i l r with
  | zero => exact (Nat.le_antisymm h2 h1).symm
  | succ t ih =>
    subst hr
    have e0 : ([baseP256, d • baseP256] ++ l).getD 0 0 = baseP256 := rfl
    rw [searchLog, GroupAttack.run, GroupAttack.run, e0, zero_zsmul, add_zero, natCast_zsmul]
    have e1 : ([baseP256, d • baseP256] ++ l ++ [i • baseP256]).getD 1 0 = d • baseP256 := rfl
    have e2 : ([baseP256, d • baseP256] ++ l ++ [i • baseP256]).getD (i + 2) 0 = i • baseP256 := by
      rw [List.getD_eq_getElem?_getD, List.getElem?_append_right (by simp [hl]), show i + 2 - ([baseP256, d • baseP256] ++ l).length = 0 by
        simp [hl]]
      rfl
    rw [e1, e2]
    by_cases h : d = i
    · rw [h, @decide_eq_true _ (_) rfl, if_pos rfl, GroupAttack.run]
    · have hne : ¬ d • baseP256 = i • baseP256 := by
        rw [p256_smul_eq baseP256_ne, Nat.mod_eq_of_lt hd, Nat.mod_eq_of_lt (by omega)]
        exact h
      rw [@decide_eq_false _ (_) hne, if_neg Bool.false_ne_true]
      exact ih (i + 1) (by omega) (by omega) (l ++ [i • baseP256]) (by simp [hl]) _ (List.append_assoc _ _ _)

/-- **C126.**  The bound for the secrets is reached: one after the other, `e` comparisons find exactly the share `(e + 1) / n`. -/
theorem C126_p256_log_sharp (Q : Fin Spec.P256.n → P256Point) (hQ : KeysP256 Q) (e : Nat) (he : e < Spec.P256.n) :
    ∃ a : GroupAttack Nat, a.Compares e ∧
      share (fun d => (a.run ([baseP256] ++ [Q d])).1 % Spec.P256.n = d.val) = (e + 1) / Spec.P256.n := by
  have ha := searchLog_compares 0 e
  refine ⟨_, ha, le_antisymm (C126_p256_log Q hQ _ e ha [baseP256]) ?_⟩
  rw [keysP256_iff] at hQ
  have hw : share (fun d : Fin Spec.P256.n => d.val < e + 1) = (e + 1) / Spec.P256.n := by
    rw [share, Fintype.card_fin]
    congr 1
    rw [← Nat.cast_succ, Nat.cast_inj]
    refine (Finset.card_nbij' (t := Finset.range (e + 1)) (fun d => d.val) (fun i => ⟨i % Spec.P256.n, Nat.mod_lt _ C66_order.2.1.pos⟩)
      ?_ ?_ ?_ ?_).trans (Finset.card_range _)
    · intro d hd
      exact Finset.mem_coe.mpr (Finset.mem_range.mpr (((@Finset.mem_filter _ _ (_) _ _).mp hd).2))
    · intro i hi
      have hi := Finset.mem_range.mp (Finset.mem_coe.mp hi)
      refine Finset.mem_coe.mpr ((@Finset.mem_filter _ _ (_) _ _).mpr ⟨Finset.mem_univ _, ?_⟩)
      show i % Spec.P256.n < e + 1
      rw [Nat.mod_eq_of_lt (by omega)]
      exact hi
    · intro d _
      exact Fin.ext (Nat.mod_eq_of_lt d.isLt)
    · intro i hi
      have hi := Finset.mem_range.mp (Finset.mem_coe.mp hi)
      exact Nat.mod_eq_of_lt (by omega)
  rw [← hw]
  refine share_mono fun d hd => ?_
  rw [hQ, searchLog_run d.isLt 0 e (Nat.zero_le _) (by omega) [] rfl ([baseP256] ++ [d.val • baseP256]) rfl, Nat.mod_eq_of_lt d.isLt]

/-- The multiples of the base point are the public keys, and this attack compares a public key with five times the base point: it finds
the secret 5, with one comparison. -/
example : ∃ Q, KeysP256 Q ∧ ∃ a : GroupAttack Nat, a.Compares 1 ∧ (a.run [baseP256, Q ⟨5, by decide +kernel⟩]).1 = 5 ∧
    share (fun d => (a.run [baseP256, Q d]).1 % Spec.P256.n = d.val) ≤ 2 / Spec.P256.n := by
  have hQ : KeysP256 fun d => d.val • baseP256 := (keysP256_iff _).mpr fun _ => rfl
  have ha : (GroupAttack.combine 5 0 0 0 (.compare 1 2 fun b => .ret (if b then 5 else 0)) : GroupAttack Nat).Compares 1 :=
    ⟨0, rfl, fun b => by cases b <;> exact trivial⟩
  refine ⟨_, hQ, _, ha, ?_, (C126_p256_log _ hQ _ 1 ha [baseP256]).trans (le_of_eq (by norm_num))⟩
  have e : (5 : Nat) • baseP256 = (5 : Int) • baseP256 := (natCast_zsmul baseP256 5).symm
  simp only [GroupAttack.run, List.cons_append, List.nil_append, List.getD_cons_zero, List.getD_cons_succ, zero_zsmul, add_zero, e,
    decide_true, if_true]

/-! ## X25519 -/

instance factPrime25519ell : Fact X25519.order.Prime := ⟨C70_order.2.1⟩

/-- The string of the base point, `u = 9`. -/
abbrev nine : List U8 := 9 :: List.replicate 31 0

theorem scalar_inj {m m' : Nat} (hm : m < 2 ^ 252) (hm' : m' < 2 ^ 252)
    (h : ((8 * m : Nat) : ZMod X25519.order) = ((8 * m' : Nat) : ZMod X25519.order)) : m = m' := by
  have h8 : ((8 : Nat) : ZMod X25519.order) ≠ 0 := by
    rw [Ne, ZMod.natCast_eq_zero_iff]
    decide +kernel
  rw [Nat.cast_mul, Nat.cast_mul] at h
  have h := mul_left_cancel₀ h8 h
  have hl : 2 ^ 252 < X25519.order := by decide +kernel
  rwa [ZMod.natCast_eq_natCast_iff', Nat.mod_eq_of_lt (hm.trans hl), Nat.mod_eq_of_lt (hm'.trans hl)] at h

theorem share_x25519 (c : ZMod X25519.order) :
    share (fun s : Bytes 32 => ((X25519.scalar s.val : Nat) : ZMod X25519.order) = c) ≤ 1 / 2 ^ 251 := by
  have hlt : ∀ s : Bytes 32, leVal s.val < 2 ^ 256 := fun s => by
    have := leVal_lt s.val
    rw [s.2] at this
    exact lt_of_lt_of_eq this (by norm_num)
  let f : Bytes 32 → Fin (2 ^ 251) := fun s => ⟨leVal s.val / 8 % 2 ^ 251, Nat.mod_lt _ (by norm_num)⟩
  let g : Bytes 32 → Fin 8 × Fin 4 := fun s => (⟨leVal s.val % 8, Nat.mod_lt _ (by norm_num)⟩,
    ⟨leVal s.val / 2 ^ 254, Nat.div_lt_of_lt_mul (lt_of_lt_of_eq (hlt s) (by norm_num))⟩)
  have h := share_regular f g (fun s s' h => ?_) ?_ fun m => ((8 * (2 ^ 251 + m.val) : Nat) : ZMod X25519.order) = c
  · refine (le_of_eq (share_congr fun s => ?_)).trans (h.le.trans ((share_le (c := 1) fun t ht => Finset.card_le_one.mpr
      fun m hm m' hm' => ?_).trans (le_of_eq (by rw [Fintype.card_fin]; norm_num))))
    · rw [X25519.scalar, show 2 ^ 254 + 8 * (leVal s.val / 8 % 2 ^ 251) = 8 * (2 ^ 251 + (f s).val) from by
        show _ = 8 * (2 ^ 251 + leVal s.val / 8 % 2 ^ 251); omega]
    · have h := (ht m hm).trans (ht m' hm').symm
      have h1 := m.isLt
      have h2 := m'.isLt
      have h := scalar_inj (by omega) (by omega) h
      exact Fin.ext (by omega)
  · obtain ⟨h1, h2⟩ := Prod.ext_iff.mp h
    obtain ⟨h2, h3⟩ := Prod.ext_iff.mp h2
    have h1 : leVal s.val / 8 % 2 ^ 251 = leVal s'.val / 8 % 2 ^ 251 := Fin.ext_iff.mp h1
    have h2 : leVal s.val % 8 = leVal s'.val % 8 := Fin.ext_iff.mp h2
    have h3 : leVal s.val / 2 ^ 254 = leVal s'.val / 2 ^ 254 := Fin.ext_iff.mp h3
    exact Subtype.ext (Universal.leVal_inj (s.2.trans s'.2.symm) (by omega))
  · rw [card_bytes, Fintype.card_prod, Fintype.card_fin, Fintype.card_fin, Fintype.card_fin]
    norm_num

/-- A point of the curve over the prime field with `u = 9`. -/
structure Base25519 where
  y : ZMod X25519.p
  ok : (X25519.curve (ZMod X25519.p)).Nonsingular 9 y

/-- The point. -/
def Base25519.point (B : Base25519) : (X25519.curve (ZMod X25519.p)).Point := .some 9 B.y B.ok

theorem Base25519.order (B : Base25519) : X25519.order • B.point = 0 := by
  have h := addOrderOf_nsmul_eq_zero B.point
  rwa [Base25519.point, C70_order.2.2 B.y B.ok] at h

theorem Base25519.ne (B : Base25519) : B.point ≠ 0 := Affine.Point.some_ne_zero _

theorem coord_nine : ((X25519.coord nine : Nat) : ZMod X25519.p) = 9 := by
  rw [show X25519.coord nine = 9 by decide +kernel]
  rfl

theorem clamped_smul_ne {Q : (X25519.curve (ZMod X25519.p)).Point} (hQ : X25519.order • Q = 0) (h0 : Q ≠ 0) (s : Bytes 32) :
    X25519.scalar s.val • Q ≠ 0 := by
  intro h
  obtain ⟨m, hm, h1, h2⟩ := scalar_eq s.val
  have ho := addOrderOf_eq_prime hQ h0
  rw [← addOrderOf_dvd_iff_nsmul_eq_zero, ho, hm] at h
  have hl : 2 ^ 252 < X25519.order := by decide +kernel
  rcases (Nat.Prime.dvd_mul C70_order.2.1).mp h with h | h
  · exact absurd (Nat.le_of_dvd h1 h) (by omega)
  · exact absurd (Nat.le_of_dvd (by norm_num) h) (by omega)

theorem Base25519.smul_ne (B : Base25519) (s : Bytes 32) : X25519.scalar s.val • B.point ≠ 0 := clamped_smul_ne B.order B.ne s

theorem val_u_inj {x y : ZMod X25519.p} (h : leBytes 32 x.val = leBytes 32 y.val) : x = y := by
  have hp : X25519.p < 256 ^ 32 := by decide +kernel
  have h1 := leBytes_inj h
  rw [Nat.mod_eq_of_lt ((ZMod.val_lt x).trans hp), Nat.mod_eq_of_lt ((ZMod.val_lt y).trans hp)] at h1
  exact ZMod.val_injective _ h1

theorem scalarmult_point {s k : List U8} (hs : s.length = 32) (hk : k.length = 32) (Q : (X25519.curve (ZMod X25519.p)).Point) (hQ : Q ≠ 0)
    (h : ((X25519.coord k : Nat) : ZMod X25519.p) = X25519.u Q) :
    Curve25519.scalarmult s k = .ok (leBytes 32 (X25519.u (X25519.scalar s • Q)).val) := by
  obtain ⟨v, h1, h2, h3⟩ := C52_scalarmult s k hs hk
  cases Q with
  | zero => exact absurd rfl hQ
  | some x y hn =>
    rw [h1, ← h3 (ZMod X25519.p) x y hn h.symm, ZMod.val_natCast, Nat.mod_eq_of_lt h2]

theorem coord_val (x : ZMod X25519.p) : ((X25519.coord (leBytes 32 x.val) : Nat) : ZMod X25519.p) = x := by
  have h := ZMod.val_lt x
  have h1 : x.val < 256 ^ 32 := h.trans (by decide +kernel)
  have h2 : x.val < 2 ^ 255 := h.trans (by decide +kernel)
  rw [X25519.coord, leVal_leBytes, Nat.mod_eq_of_lt h1, Nat.mod_eq_of_lt h2, Nat.mod_eq_of_lt h, ZMod.natCast_zmod_val]

/-- **C126.**  The public key that `scalarmult` returns is the `u`-coordinate of the multiple of a point with `u = 9`, and the common
secret that of the multiple of this multiple. -/
theorem C126_x25519_keys (B : Base25519) (s s' : Bytes 32) :
    ∃ k, Curve25519.scalarmult s.val nine = .ok k ∧ k = leBytes 32 (X25519.u (X25519.scalar s.val • B.point)).val ∧
      Curve25519.scalarmult s'.val k = .ok (leBytes 32 (X25519.u ((X25519.scalar s.val * X25519.scalar s'.val) • B.point)).val) := by
  refine ⟨_, scalarmult_point s.2 (by simp) B.point B.ne coord_nine, rfl, ?_⟩
  rw [scalarmult_point s'.2 (length_leBytes _ _) (X25519.scalar s.val • B.point) (B.smul_ne s) (coord_val _), ← mul_nsmul]

/-- **C126.**  Whoever has a multiple of the base point, of which the public key is the `u`-coordinate, finds for at most the share
`(e + 2) / 2^251` of the secrets a secret with the same public key. -/
theorem C126_x25519_log (B : Base25519) (a : GroupAttack (Bytes 32)) (e : Nat) (ha : a.Compares e)
    (pub : List (X25519.curve (ZMod X25519.p)).Point) :
    share (fun s : Bytes 32 => Curve25519.scalarmult (a.run (pub ++ [X25519.scalar s.val • B.point])).1.val nine =
      Curve25519.scalarmult s.val nine) ≤ (e + 2) / 2 ^ 251 := by
  have h := generic_log B.point B.order B.ne (s := fun s : Bytes 32 => X25519.scalar s.val) (by positivity) share_x25519 a ha pub
    (fun o => [((X25519.scalar o.val : Nat) : ZMod X25519.order), -((X25519.scalar o.val : Nat) : ZMod X25519.order)]) (k := 2)
    fun _ => le_rfl
  refine (share_mono fun s hs => ?_).trans (h.trans (le_of_eq (by rw [mul_one_div]; rfl)))
  rw [C70_public_key _ _ (a.run _).1.2 s.2] at hs
  rw [List.mem_cons, List.mem_singleton]
  rcases hs with h | h
  · exact .inl (by rw [h])
  · refine .inr (eq_neg_of_add_eq_zero_right ?_)
    rw [← Nat.cast_add, h, Nat.cast_mul, ZMod.natCast_self, mul_zero]

/-- **C126.**  Whoever has two such points gets a point with the `u`-coordinate that is the common secret for at most the share
`(e + 4) / 2^251` of the pairs of secrets. -/
theorem C126_x25519_secret (B : Base25519) (a : GroupAttack Nat) (e : Nat) (ha : a.Compares e)
    (pub : List (X25519.curve (ZMod X25519.p)).Point) :
    share (fun ω : Bytes 32 × Bytes 32 => ∃ o points k,
      a.run (pub ++ [X25519.scalar ω.1.val • B.point, X25519.scalar ω.2.val • B.point]) = (o, points) ∧
      Curve25519.scalarmult ω.1.val nine = .ok k ∧ Curve25519.scalarmult ω.2.val k = .ok (leBytes 32 (X25519.u (points.getD o 0)).val)) ≤
    (e + 4) / 2 ^ 251 := by
  have h := generic_secret B.point B.order B.ne (s := fun s : Bytes 32 => X25519.scalar s.val)
    (t := fun s : Bytes 32 => X25519.scalar s.val) (by positivity) share_x25519 share_x25519 a ha pub [1, -1] fun d hd => by
      rw [List.mem_cons, List.mem_singleton] at hd
      rcases hd with rfl | rfl
      · exact one_ne_zero
      · exact neg_ne_zero.mpr one_ne_zero
  refine (share_mono fun ω hω => ?_).trans (h.trans (le_of_eq (by
    rw [mul_one_div]; norm_num)))
  obtain ⟨o, points, k, h1, h2, h3⟩ := hω
  obtain ⟨k', h4, -, h5⟩ := C126_x25519_keys B ω.1 ω.2
  obtain rfl := Except.ok.inj (h2.symm.trans h4)
  have hu := val_u_inj (Except.ok.inj (h3.symm.trans h5))
  have hn : (X25519.scalar ω.1.val * X25519.scalar ω.2.val) • B.point ≠ 0 := by
    rw [mul_nsmul]
    refine clamped_smul_ne ?_ (B.smul_ne ω.1) ω.2
    rw [← mul_nsmul, mul_comm, mul_nsmul, B.order, nsmul_zero]
  have h8 : points.getD o 0 ≠ 0 := by
    intro h0
    rw [h0] at hu
    have h6 := u_zero_iff _ hu.symm
    rw [← two_nsmul, ← mul_nsmul] at h6
    rw [← addOrderOf_dvd_iff_nsmul_eq_zero, addOrderOf_eq_prime B.order B.ne] at h6
    rcases (Nat.Prime.dvd_mul C70_order.2.1).mp h6 with h | h
    · exact hn (addOrderOf_dvd_iff_nsmul_eq_zero.mp (by rw [addOrderOf_eq_prime B.order B.ne]; exact h))
    · exact absurd (Nat.le_of_dvd (by norm_num) h) (by decide +kernel)
  rw [u_eq_iff h8 hn] at hu
  rcases hu with e | e
  · exact ⟨1, by simp, o, points, h1, by rw [e, one_mul, ← Nat.cast_mul, timesOf_natCast]⟩
  · exact ⟨-1, by simp, o, points, h1, by rw [e, neg_one_mul, map_neg, ← Nat.cast_mul, timesOf_natCast]⟩

/-- **C126.**  And tells the common secret from a multiple for a third secret with advantage at most `3 e / 2^251`. -/
theorem C126_x25519_decide (B : Base25519) (a : GroupAttack Bool) (e : Nat) (ha : a.Compares e)
    (pub : List (X25519.curve (ZMod X25519.p)).Point) :
    |share (fun ω : Bytes 32 × Bytes 32 => (a.run (pub ++ [X25519.scalar ω.1.val • B.point, X25519.scalar ω.2.val • B.point,
        (X25519.scalar ω.1.val * X25519.scalar ω.2.val) • B.point])).1 = true) -
      share (fun ω : (Bytes 32 × Bytes 32) × Bytes 32 => (a.run (pub ++ [X25519.scalar ω.1.1.val • B.point,
        X25519.scalar ω.1.2.val • B.point, X25519.scalar ω.2.val • B.point])).1 = true)| ≤ 3 * e / 2 ^ 251 := by
  have h := generic_decide B.point B.order B.ne (s := fun s : Bytes 32 => X25519.scalar s.val)
    (t := fun s : Bytes 32 => X25519.scalar s.val) (w := fun s : Bytes 32 => X25519.scalar s.val) (by positivity)
    share_x25519 share_x25519 share_x25519 a ha pub (· = true)
  rw [mul_one_div] at h
  exact h

/-- The base point of RFC 7748, and the attack that takes the sum of both public keys for the common secret. -/
example : ∃ B : Base25519, ∃ a : GroupAttack Nat, a.Compares 0 ∧
    share (fun ω : Bytes 32 × Bytes 32 => ∃ o points k,
      a.run [X25519.scalar ω.1.val • B.point, X25519.scalar ω.2.val • B.point] = (o, points) ∧
      Curve25519.scalarmult ω.1.val nine = .ok k ∧ Curve25519.scalarmult ω.2.val k = .ok (leBytes 32 (X25519.u (points.getD o 0)).val)) ≤
    4 / 2 ^ 251 := by
  refine ⟨⟨_, base25519⟩, .combine 1 1 0 1 (.ret 2), trivial, ?_⟩
  exact (C126_x25519_secret ⟨_, base25519⟩ (.combine 1 1 0 1 (.ret 2)) 0 trivial []).trans (le_of_eq (by norm_num))

end Hacspec.Props
