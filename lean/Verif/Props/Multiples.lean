import Verif.Props.Mixture

/-! # C147: five rounds of AES give a multiple of eight collisions -/

namespace Hacspec.Props

open Hacspec.Aes Finset

/-! ## Sums of functions that do not change under an involution -/

theorem dvd_sum_involution {Z : Type} [Fintype Z] [DecidableEq Z] {τ : Z → Z} (hτ : ∀ z, τ (τ z) = z) (hne : ∀ z, τ z ≠ z) {g : Z → Nat}
    {d : Nat} (hg : ∀ z, g (τ z) = g z) (hd : ∀ z, d ∣ g z) : 2 * d ∣ ∑ z, g z := by
  rw [← ZMod.natCast_eq_zero_iff, Nat.cast_sum]
  refine Finset.sum_involution (fun z _ => τ z) (fun z _ => ?_) (fun z _ _ => hne z) (fun z _ => mem_univ _) (fun z _ => hτ z)
  rw [hg, ← Nat.cast_add, ZMod.natCast_eq_zero_iff, ← two_mul]
  exact Nat.mul_dvd_mul_left 2 (hd z)

/-- Two bytes that differ are exchanged; two equal ones are replaced by two other equal ones. -/
def turn (z : U8 × U8) : U8 × U8 := if z.1 = z.2 then (z.1 ^^^ 1, z.2 ^^^ 1) else (z.2, z.1)

theorem xor_one_ne : ∀ x : U8, x ^^^ 1 ≠ x := by decide +kernel
theorem xor_one_xor_one : ∀ x : U8, x ^^^ 1 ^^^ 1 = x := by decide +kernel

theorem turn_turn (z : U8 × U8) : turn (turn z) = z := by
  obtain ⟨x, y⟩ := z
  by_cases h : x = y
  · subst h
    simp only [turn, if_true, xor_one_xor_one]
  · simp only [turn, if_neg h, if_neg (Ne.symm h)]

theorem turn_ne (z : U8 × U8) : turn z ≠ z := by
  obtain ⟨x, y⟩ := z
  by_cases h : x = y
  · subst h
    simp only [turn, if_true]
    exact fun e => xor_one_ne x (Prod.ext_iff.mp e).1
  · simp only [turn, if_neg h]
    exact fun e => h (Prod.ext_iff.mp e).2

theorem turn_cases (z : U8 × U8) : ((turn z).1 = z.2 ∧ (turn z).2 = z.1) ∨ (z.1 = z.2 ∧ (turn z).1 = (turn z).2) := by
  obtain ⟨x, y⟩ := z
  by_cases h : x = y
  · subst h
    exact .inr ⟨rfl, by simp only [turn, if_true]⟩
  · exact .inl (by simp only [turn, if_neg h, and_self])

theorem turn_eq_iff (z : U8 × U8) : (turn z).1 = (turn z).2 ↔ z.1 = z.2 := by
  obtain ⟨x, y⟩ := z
  by_cases h : x = y
  · subst h
    simp only [turn, if_true]
  · simp only [turn, if_neg h]
    exact eq_comm

/-- Two quadruples as a quadruple of pairs. -/
def pairs : ((U8 × U8) × (U8 × U8) × (U8 × U8) × (U8 × U8)) ≃ Four × Four where
  toFun z := ((z.1.1, z.2.1.1, z.2.2.1.1, z.2.2.2.1), (z.1.2, z.2.1.2, z.2.2.1.2, z.2.2.2.2))
  invFun p := ((p.1.1, p.2.1), (p.1.2.1, p.2.2.1), (p.1.2.2.1, p.2.2.2.1), (p.1.2.2.2, p.2.2.2.2))
  left_inv _ := rfl
  right_inv _ := rfl

theorem sixteen_dvd {g : Four × Four → Nat} (h0 : ∀ z0 z1 z2 z3, g (pairs (turn z0, z1, z2, z3)) = g (pairs (z0, z1, z2, z3)))
    (h1 : ∀ z0 z1 z2 z3, g (pairs (z0, turn z1, z2, z3)) = g (pairs (z0, z1, z2, z3)))
    (h2 : ∀ z0 z1 z2 z3, g (pairs (z0, z1, turn z2, z3)) = g (pairs (z0, z1, z2, z3)))
    (h3 : ∀ z0 z1 z2 z3, g (pairs (z0, z1, z2, turn z3)) = g (pairs (z0, z1, z2, z3))) : 16 ∣ ∑ p, g p := by
  rw [← Equiv.sum_comp pairs, Fintype.sum_prod_type]
  simp only [Fintype.sum_prod_type (α₁ := U8 × U8)]
  refine dvd_sum_involution (d := 8) turn_turn turn_ne (fun z0 => ?_) fun z0 => ?_
  · simp only [h0]
  refine dvd_sum_involution (d := 4) turn_turn turn_ne (fun z1 => ?_) fun z1 => ?_
  · simp only [h1]
  refine dvd_sum_involution (d := 2) turn_turn turn_ne (fun z2 => ?_) fun z2 => ?_
  · simp only [h2]
  exact dvd_sum_involution (d := 1) turn_turn turn_ne (fun z3 => h3 ..) fun z3 => one_dvd _

/-! ## Two rounds -/

/-- The diagonal of a byte. -/
def diagonal (p : Nat) : Nat := (p / 4 + 4 - p % 4) % 4

/-- On every diagonal the second pair is the first one, or the first one exchanged, or both pairs have equal members. -/
def Mixed (x y x' y' : List U8) : Prop := ∀ d < 4,
  (∀ p < 16, diagonal p = d → x'.getD p 0 = x.getD p 0 ∧ y'.getD p 0 = y.getD p 0) ∨
  (∀ p < 16, diagonal p = d → x'.getD p 0 = y.getD p 0 ∧ y'.getD p 0 = x.getD p 0) ∨
  (∀ p < 16, diagonal p = d → x.getD p 0 = y.getD p 0 ∧ x'.getD p 0 = y'.getD p 0)

theorem mixed_two_rounds {x y x' y' k1 k2 x1 y1 x1' y1' x2 y2 x2' y2' : List U8} (h : Mixed x y x' y') (hx : x.length = 16) (hy : y.length = 16)
    (hx' : x'.length = 16) (hy' : y'.length = 16) (h1 : k1.length = 16) (h2 : k2.length = 16) (ex : aesEnc x k1 = .ok x1)
    (ey : aesEnc y k1 = .ok y1) (ex' : aesEnc x' k1 = .ok x1') (ey' : aesEnc y' k1 = .ok y1') (fx : aesEnc x1 k2 = .ok x2)
    (fy : aesEnc y1 k2 = .ok y2) (fx' : aesEnc x1' k2 = .ok x2') (fy' : aesEnc y1' k2 = .ok y2') {p : Nat} (hp : p < 16) :
    x2'.getD p 0 ^^^ y2'.getD p 0 = x2.getD p 0 ^^^ y2.getD p 0 := by
  have hd : ∀ p < 16, ∀ i < 4, source p i < 16 ∧ diagonal (source p i) = p / 4 := by decide +kernel
  have one : ∀ p < 16, (x1'.getD p 0 = x1.getD p 0 ∧ y1'.getD p 0 = y1.getD p 0) ∨ (x1'.getD p 0 = y1.getD p 0 ∧ y1'.getD p 0 = x1.getD p 0) ∨
      (x1.getD p 0 = y1.getD p 0 ∧ x1'.getD p 0 = y1'.getD p 0) := by
    intro p hp
    rw [aesEnc_byte hx h1 ex hp, aesEnc_byte hy h1 ey hp, aesEnc_byte hx' h1 ex' hp, aesEnc_byte hy' h1 ey' hp]
    rcases h (p / 4) (by omega) with g | g | g
    · exact .inl ⟨outByte_congr fun i hi => (g _ (hd p hp i hi).1 (hd p hp i hi).2).1,
        outByte_congr fun i hi => (g _ (hd p hp i hi).1 (hd p hp i hi).2).2⟩
    · exact .inr (.inl ⟨outByte_congr fun i hi => (g _ (hd p hp i hi).1 (hd p hp i hi).2).1,
        outByte_congr fun i hi => (g _ (hd p hp i hi).1 (hd p hp i hi).2).2⟩)
    · exact .inr (.inr ⟨outByte_congr fun i hi => (g _ (hd p hp i hi).1 (hd p hp i hi).2).1,
        outByte_congr fun i hi => (g _ (hd p hp i hi).1 (hd p hp i hi).2).2⟩)
  rw [aesEnc_byte (length_aesEnc hx h1 ex) h2 fx hp, aesEnc_byte (length_aesEnc hy h1 ey) h2 fy hp,
    aesEnc_byte (length_aesEnc hx' h1 ex') h2 fx' hp, aesEnc_byte (length_aesEnc hy' h1 ey') h2 fy' hp, outByte, outByte, outByte, outByte,
    xor4, xor4]
  have g (i : Nat) (hi : i < 4) : Spec.Aes.gmul (coeff p i) (Spec.Aes.sub (x1'.getD (source p i) 0)) ^^^
      Spec.Aes.gmul (coeff p i) (Spec.Aes.sub (y1'.getD (source p i) 0)) =
      Spec.Aes.gmul (coeff p i) (Spec.Aes.sub (x1.getD (source p i) 0)) ^^^ Spec.Aes.gmul (coeff p i) (Spec.Aes.sub (y1.getD (source p i) 0)) := by
    rcases one _ (hd p hp i hi).1 with ⟨e, e'⟩ | ⟨e, e'⟩ | ⟨e, e'⟩
    · rw [e, e']
    · rw [e, e', BitVec.xor_comm]
    · rw [e, e', BitVec.xor_self, BitVec.xor_self]
  rw [g 0 (by decide), g 1 (by decide), g 2 (by decide), g 3 (by decide)]

/-! ## Blocks that differ in one column -/

/-- A byte of a quadruple. -/
def part (y : Four) : Nat → U8
  | 0 => y.1
  | 1 => y.2.1
  | 2 => y.2.2.1
  | _ => y.2.2.2

theorem put_column {b : List U8} (hb : b.length = 16) {c : Nat} (hc : c < 4) (y : Four) (p : Nat) :
    (put b (fun i => 4 * c + i) y).getD p 0 = if p / 4 = c then part y (p % 4) else b.getD p 0 := by
  obtain ⟨p0, p1, p2, p3⟩ := put_get (s := b) (q := fun i => 4 * c + i) (y := y) (fun i hi => by omega)
    (fun i _ j _ h e => h (by omega))
  by_cases h : p / 4 = c
  · rw [if_pos h]
    obtain h | h | h | h : p = 4 * c + 0 ∨ p = 4 * c + 1 ∨ p = 4 * c + 2 ∨ p = 4 * c + 3 := by omega
    · rw [show p % 4 = 0 by omega, h]; exact p0
    · rw [show p % 4 = 1 by omega, h]; exact p1
    · rw [show p % 4 = 2 by omega, h]; exact p2
    · rw [show p % 4 = 3 by omega, h]; exact p3
  · rw [if_neg h, put_other fun j hj e => h (by omega)]

theorem mixed_put {b : List U8} (hb : b.length = 16) {c : Nat} (hc : c < 4) {x y x' y' : Four} {i : Nat} (hi : i < 4)
    (ho : ∀ j < 4, j ≠ i → part x' j = part x j ∧ part y' j = part y j)
    (hx : (part x' i = part y i ∧ part y' i = part x i) ∨ (part x i = part y i ∧ part x' i = part y' i)) :
    Mixed (put b (fun i => 4 * c + i) x) (put b (fun i => 4 * c + i) y) (put b (fun i => 4 * c + i) x') (put b (fun i => 4 * c + i) y') := by
  have hd : ∀ c < 4, ∀ i < 4, ∀ p < 16, p / 4 = c → diagonal p = diagonal (4 * c + i) → p % 4 = i := by decide +kernel
  have hd' : ∀ c < 4, ∀ i < 4, ∀ p < 16, p / 4 = c → p % 4 = i → diagonal p = diagonal (4 * c + i) := by decide +kernel
  intro d _
  by_cases h : d = diagonal (4 * c + i)
  · subst h
    right
    rcases hx with ⟨e, e'⟩ | ⟨e, e'⟩
    · left
      intro p hp hpd
      simp only [put_column hb hc _ p]
      by_cases hpc : p / 4 = c
      · simp only [if_pos hpc, hd c hc i hi p hp hpc hpd, e, e', and_self]
      · simp only [if_neg hpc, and_self]
    · right
      intro p hp hpd
      simp only [put_column hb hc _ p]
      by_cases hpc : p / 4 = c
      · simp only [if_pos hpc, hd c hc i hi p hp hpc hpd, e, e', and_self]
      · simp only [if_neg hpc, and_self]
  · left
    intro p hp hpd
    simp only [put_column hb hc _ p]
    by_cases hpc : p / 4 = c
    · simp only [if_pos hpc]
      exact ho _ (by omega) fun hpi => h (by rw [← hpd, hd' c hc i hi p hp hpc hpi])
    · simp only [if_neg hpc, and_self]

/-- Different blocks that are equal outside a column are numbered by the bytes of the column. -/
theorem column_form {c : Nat} (hc : c < 4) {e : Four → List U8} (hl : ∀ y, (e y).length = 16)
    (ho : ∀ i < 16, i / 4 ≠ c → ∀ y z, (e y).getD i 0 = (e z).getD i 0) (hi : Function.Injective e) :
    ∃ β : Four ≃ Four, ∀ y, e y = put (e (0, 0, 0, 0)) (fun i => 4 * c + i) (β y) := by
  let β : Four → Four := fun y => ((e y).getD (4 * c) 0, (e y).getD (4 * c + 1) 0, (e y).getD (4 * c + 2) 0, (e y).getD (4 * c + 3) 0)
  have hb (y : Four) : e y = put (e (0, 0, 0, 0)) (fun i => 4 * c + i) (β y) := by
    refine List.ext_getElem (by rw [length_put, hl, hl]) fun i a b => ?_
    have hi : i < 16 := by rw [hl] at a; exact a
    have hget : (e y).getD i 0 = (put (e (0, 0, 0, 0)) (fun i => 4 * c + i) (β y)).getD i 0 := by
      rw [put_column (hl _) hc _ i]
      by_cases h : i / 4 = c
      · rw [if_pos h]
        obtain h | h | h | h : i = 4 * c ∨ i = 4 * c + 1 ∨ i = 4 * c + 2 ∨ i = 4 * c + 3 := by omega
        · rw [show i % 4 = 0 by omega, h]; rfl
        · rw [show i % 4 = 1 by omega, h]; rfl
        · rw [show i % 4 = 2 by omega, h]; rfl
        · rw [show i % 4 = 3 by omega, h]; rfl
      · rw [if_neg h, ho i hi h y]
    rwa [List.getD_eq_getElem?_getD, List.getD_eq_getElem?_getD, List.getElem?_eq_getElem a, List.getElem?_eq_getElem b] at hget
  have inj : Function.Injective β := fun y z h => hi (by rw [hb y, hb z, h])
  exact ⟨Equiv.ofBijective β (Finite.injective_iff_bijective.mp inj), hb⟩

theorem xor_getD {s k : List U8} (hs : s.length = 16) (hk : k.length = 16) {i : Nat} (hi : i < 16) :
    (Spec.xor s k).getD i 0 = s.getD i 0 ^^^ k.getD i 0 := by
  rw [Spec.xor, List.getD_eq_getElem?_getD, List.getD_eq_getElem?_getD, List.getD_eq_getElem?_getD, List.getElem?_zipWith,
    List.getElem?_eq_getElem (by omega), List.getElem?_eq_getElem (by omega)]
  rfl

theorem diagonal_to_column {s k0 k1 : List U8} (hs : s.length = 16) (h0 : k0.length = 16) (h1 : k1.length = 16) {c : Nat} (hc : c < 4)
    {e : Four → List U8} (he : ∀ y, aesEnc (Spec.xor (put s (source (4 * c)) y) k0) k1 = .ok (e y)) :
    ∃ β : Four ≃ Four, ∀ y, e y = put (e (0, 0, 0, 0)) (fun i => 4 * c + i) (β y) := by
  have lp (y : Four) : (put s (source (4 * c)) y).length = 16 := by rw [length_put, hs]
  have lx (y : Four) : (Spec.xor (put s (source (4 * c)) y) k0).length = 16 := length_xor16 (lp y) h0
  refine column_form hc (fun y => length_aesEnc (lx y) h1 (he y)) (fun i hi hic y z => ?_) fun y z h => ?_
  · rw [aesEnc_byte (lx y) h1 (he y) hi, aesEnc_byte (lx z) h1 (he z) hi]
    have hne : ∀ c < 4, ∀ i < 16, i / 4 ≠ c → ∀ j < 4, ∀ j' < 4, source (4 * c) j' ≠ source i j := by decide +kernel
    refine outByte_congr fun j hj => ?_
    have hs : source i j < 16 := Nat.mod_lt _ (by decide)
    rw [xor_getD (lp y) h0 hs, xor_getD (lp z) h0 hs, put_other fun j' hj' => hne c hc i hi hic j hj j' hj',
      put_other fun j' hj' => hne c hc i hi hic j hj j' hj']
  · have hx := C95_round_injective (lx y) (lx z) h1 (he y) (h ▸ he z)
    have slt : ∀ i < 4, source (4 * c) i < s.length := fun i _ => by rw [hs]; exact Nat.mod_lt _ (by decide)
    have sd : ∀ c < 4, ∀ i < 4, ∀ j < 4, i ≠ j → source (4 * c) i ≠ source (4 * c) j := by decide +kernel
    have hp (i : Nat) (hi : i < 4) : (put s (source (4 * c)) y).getD (source (4 * c) i) 0 = (put s (source (4 * c)) z).getD (source (4 * c) i) 0 := by
      have h16 : source (4 * c) i < 16 := Nat.mod_lt _ (by decide)
      have e := congrArg (List.getD · (source (4 * c) i) 0) hx
      rw [xor_getD (lp y) h0 h16, xor_getD (lp z) h0 h16] at e
      have e' := congrArg (· ^^^ k0.getD (source (4 * c) i) 0) e
      simpa only [BitVec.xor_assoc, BitVec.xor_self, BitVec.xor_zero] using e'
    have py := put_get (y := y) slt (sd c hc)
    have pz := put_get (y := z) slt (sd c hc)
    rw [hp 0 (by decide), hp 1 (by decide), hp 2 (by decide), hp 3 (by decide)] at py
    exact Prod.ext (py.1.symm.trans pz.1) (Prod.ext (py.2.1.symm.trans pz.2.1) (Prod.ext (py.2.2.1.symm.trans pz.2.2.1)
      (py.2.2.2.symm.trans pz.2.2.2)))

/-! ## The theorem -/

open Classical in
/-- Four rounds after a column: the pairs of quadruples for which four bytes agree. -/
theorem column_multiple {b k1 k2 : List U8} (hb : b.length = 16) (h1 : k1.length = 16) (h2 : k2.length = 16) {c : Nat} (hc : c < 4)
    {e1 e2 : Four → List U8} (g1 : ∀ x, aesEnc (put b (fun i => 4 * c + i) x) k1 = .ok (e1 x)) (g2 : ∀ x, aesEnc (e1 x) k2 = .ok (e2 x))
    (P : Nat → Prop) (hP : ∀ p, P p → p < 16) :
    16 ∣ (univ.filter fun p : Four × Four => p.1 ≠ p.2 ∧ ∀ j, P j → act (e2 p.1) (e2 p.2) j = 0).card := by
  have lp (x : Four) : (put b (fun i => 4 * c + i) x).length = 16 := by rw [length_put, hb]
  have inv {x y x' y' : Four} {i : Nat} (hi : i < 4) (ho : ∀ j < 4, j ≠ i → part x' j = part x j ∧ part y' j = part y j)
      (hx : (part x' i = part y i ∧ part y' i = part x i) ∨ (part x i = part y i ∧ part x' i = part y' i)) :
      (∀ j, P j → act (e2 x') (e2 y') j = 0) ↔ ∀ j, P j → act (e2 x) (e2 y) j = 0 := by
    refine forall_congr' fun j => imp_congr_right fun hj => ?_
    have h := mixed_two_rounds (mixed_put hb hc hi ho hx) (lp _) (lp _) (lp _) (lp _) h1 h2 (g1 x) (g1 y) (g1 x') (g1 y') (g2 x) (g2 y)
      (g2 x') (g2 y') (hP j hj)
    rw [act, act, h]
  have key (i : Nat) (hi : i < 4) (x y x' y' : Four) (hne : x' = y' ↔ x = y)
      (ho : ∀ j < 4, j ≠ i → part x' j = part x j ∧ part y' j = part y j)
      (hx : (part x' i = part y i ∧ part y' i = part x i) ∨ (part x i = part y i ∧ part x' i = part y' i)) :
      (if x' ≠ y' ∧ ∀ j, P j → act (e2 x') (e2 y') j = 0 then 1 else 0 : Nat) =
        if x ≠ y ∧ ∀ j, P j → act (e2 x) (e2 y) j = 0 then 1 else 0 :=
    if_congr (and_congr (not_congr hne) (inv hi ho hx)) rfl rfl
  rw [Finset.card_filter]
  refine sixteen_dvd (fun z0 z1 z2 z3 => key 0 (by decide) _ _ _ _ ?_ (fun j hj hne => ?_) (turn_cases z0))
    (fun z0 z1 z2 z3 => key 1 (by decide) _ _ _ _ ?_ (fun j hj hne => ?_) (turn_cases z1))
    (fun z0 z1 z2 z3 => key 2 (by decide) _ _ _ _ ?_ (fun j hj hne => ?_) (turn_cases z2))
    (fun z0 z1 z2 z3 => key 3 (by decide) _ _ _ _ ?_ (fun j hj hne => ?_) (turn_cases z3))
  · simp only [pairs, Equiv.coe_fn_mk, Prod.mk.injEq, turn_eq_iff]
  · obtain rfl | rfl | rfl | rfl : j = 0 ∨ j = 1 ∨ j = 2 ∨ j = 3 := by omega
    · exact absurd rfl hne
    all_goals exact ⟨rfl, rfl⟩
  · simp only [pairs, Equiv.coe_fn_mk, Prod.mk.injEq, turn_eq_iff]
  · obtain rfl | rfl | rfl | rfl : j = 0 ∨ j = 1 ∨ j = 2 ∨ j = 3 := by omega
    · exact ⟨rfl, rfl⟩
    · exact absurd rfl hne
    all_goals exact ⟨rfl, rfl⟩
  · simp only [pairs, Equiv.coe_fn_mk, Prod.mk.injEq, turn_eq_iff]
  · obtain rfl | rfl | rfl | rfl : j = 0 ∨ j = 1 ∨ j = 2 ∨ j = 3 := by omega
    · exact ⟨rfl, rfl⟩
    · exact ⟨rfl, rfl⟩
    · exact absurd rfl hne
    · exact ⟨rfl, rfl⟩
  · simp only [pairs, Equiv.coe_fn_mk, Prod.mk.injEq, turn_eq_iff]
  · obtain rfl | rfl | rfl | rfl : j = 0 ∨ j = 1 ∨ j = 2 ∨ j = 3 := by omega
    · exact ⟨rfl, rfl⟩
    · exact ⟨rfl, rfl⟩
    · exact ⟨rfl, rfl⟩
    · exact absurd rfl hne

open Classical in
/-- **C147**  Let the four bytes of a diagonal of a block take all `2^32` values.  The number of ordered pairs of different blocks whose
ciphertexts after five rounds, with any round keys, agree in the four bytes to which the last round moves a column is a multiple of 16;
that of unordered pairs is a multiple of 8. -/
theorem C147_five_rounds {s key : List U8} (hs : s.length = 16) (hk : key.length = 96) {c c' : Nat} (hc : c < 4) (hc' : c' < 4)
    {f : Four → List U8}
    (hf : ∀ y : Four, blockCipher ((((s.set (4 * c % 16) y.1).set ((4 * c + 5) % 16) y.2.1).set ((4 * c + 10) % 16) y.2.2.1).set
      ((4 * c + 15) % 16) y.2.2.2) key 5 = .ok (f y)) :
    16 ∣ (univ.filter fun p : Four × Four => p.1 ≠ p.2 ∧
      ∀ r < 4, (f p.1).getD ((4 * c' + 13 * r) % 16) 0 = (f p.2).getD ((4 * c' + 13 * r) % 16) 0).card := by
  have hf' (y : Four) : blockCipher (put s (source (4 * c)) y) key 5 = .ok (f y) := by
    rw [← hf y, put]
    simp only [source, Nat.mul_div_cancel_left c (show 0 < 4 by omega)]
    rfl
  have hk' : key.length = 4 * 24 := hk
  have hu := uniform_blocks hk'
  have hl : ((List.range 24).map (Spec.block 4 key)).length = 4 * (5 + 1) := by rw [List.length_map, List.length_range]
  have lp (y : Four) : (put s (source (4 * c)) y).length = 16 := by rw [length_put, hs]
  have hb (y : Four) := blockCipher_ok hu hl (by decide) (by decide) (lp y)
  rw [flatten_blocks hk'] at hb
  simp only [hf', Except.ok.injEq] at hb
  generalize (List.range 24).map (Spec.block 4 key) = ws at hu hl hb
  have hr (r : Nat) (hr : r ≤ 5) := length_roundKey hu hl hr
  have hn (n : Nat) (h : n ≤ 5) (y : Four) := length_rounds hu hl h (lp y)
  have step (n : Nat) (h : n < 5) (y : Four) :
      aesEnc (Spec.Aes.rounds ws n (put s (source (4 * c)) y)) (Spec.Aes.roundKey ws (n + 1)) =
        .ok (Spec.Aes.rounds ws (n + 1) (put s (source (4 * c)) y)) :=
    aesEnc_ok (hn n (by omega) y) (hr (n + 1) h)
  have last (y : Four) : aesEncLast (Spec.Aes.rounds ws 4 (put s (source (4 * c)) y)) (Spec.Aes.roundKey ws 5) = .ok (f y) :=
    (aesEncLast_ok (hn 4 (by decide) y) (hr 5 (by decide))).trans (congrArg Except.ok (hb y).symm)
  obtain ⟨β, hβ⟩ := diagonal_to_column hs (hr 0 (by decide)) (hr 1 (by decide)) hc (fun y => step 0 (by decide) y)
  have hset : (univ.filter fun p : Four × Four => p.1 ≠ p.2 ∧
      ∀ r < 4, (f p.1).getD ((4 * c' + 13 * r) % 16) 0 = (f p.2).getD ((4 * c' + 13 * r) % 16) 0).card =
      (univ.filter fun p : Four × Four => p.1 ≠ p.2 ∧ ∀ j, (∃ r < 4, j = (4 * c' + 5 * r) % 16) →
        act (Spec.Aes.rounds ws 3 (put s (source (4 * c)) (β.symm p.1))) (Spec.Aes.rounds ws 3 (put s (source (4 * c)) (β.symm p.2))) j = 0).card := by
    refine Finset.card_equiv (β.prodCongr β) fun p => ?_
    simp only [Finset.mem_filter, Finset.mem_univ, true_and]
    refine and_congr ?_ ?_
    · rw [Equiv.prodCongr_apply, Prod.map_fst, Prod.map_snd, Ne, Ne, β.injective.eq_iff]
    · rw [four_equal (hn 3 (by decide) p.1) (hn 3 (by decide) p.2) (hr 4 (by decide)) (hr 5 (by decide)) (step 3 (by decide) p.1)
        (step 3 (by decide) p.2) (last p.1) (last p.2) hc', Equiv.prodCongr_apply, Prod.map_fst, Prod.map_snd, β.symm_apply_apply,
        β.symm_apply_apply]
      exact ⟨fun h j ⟨r, hr, e⟩ => e ▸ h r hr, fun h r hr => h _ ⟨r, hr, rfl⟩⟩
  rw [hset]
  refine column_multiple (hn 1 (by decide) (0, 0, 0, 0)) (hr 2 (by decide)) (hr 3 (by decide)) hc
    (e1 := fun x => Spec.Aes.rounds ws 2 (put s (source (4 * c)) (β.symm x)))
    (e2 := fun x => Spec.Aes.rounds ws 3 (put s (source (4 * c)) (β.symm x))) (fun x => ?_) (fun x => step 2 (by decide) _)
    (fun j => ∃ r < 4, j = (4 * c' + 5 * r) % 16) (fun j ⟨r, _, e⟩ => e ▸ Nat.mod_lt _ (by decide))
  have h := hβ (β.symm x)
  rw [β.apply_symm_apply] at h
  rw [← h]
  exact step 1 (by decide) _

/-! ## Cases -/

/-- The block of C145 with other bytes on its first diagonal. -/
def onDiagonal (y : Four) : List U8 :=
  ((((impossibleS.set (4 * 0 % 16) y.1).set ((4 * 0 + 5) % 16) y.2.1).set ((4 * 0 + 10) % 16) y.2.2.1).set ((4 * 0 + 15) % 16) y.2.2.2)

/-- Ciphertexts with the round keys `0, 1, ..., 95`. -/
def onDiagonalAfter (y : Four) : List U8 := (blockCipher (onDiagonal y) ((List.range 96).map (BitVec.ofNat 8)) 5).toOption.getD []

theorem onDiagonalAfter_ok (y : Four) : blockCipher (onDiagonal y) ((List.range 96).map (BitVec.ofNat 8)) 5 = .ok (onDiagonalAfter y) := by
  have hk' : ((List.range 96).map (BitVec.ofNat 8)).length = 4 * 24 := by rw [List.length_map, List.length_range]
  have hu := uniform_blocks hk'
  have hl : ((List.range 24).map (Spec.block 4 ((List.range 96).map (BitVec.ofNat 8)))).length = 4 * (5 + 1) := by
    rw [List.length_map, List.length_range]
  have h := blockCipher_ok hu hl (by decide) (by decide) (s := onDiagonal y) (by simp only [onDiagonal, List.length_set]; rfl)
  rw [flatten_blocks hk'] at h
  rw [onDiagonalAfter, h]
  rfl

open Classical in
/-- **C147**  The number is not always 0: by C145 there is a pair here, hence there are at least 16. -/
theorem C147_case : 16 ≤ (univ.filter fun p : Four × Four => p.1 ≠ p.2 ∧
    ∀ r < 4, (onDiagonalAfter p.1).getD ((4 * 0 + 13 * r) % 16) 0 = (onDiagonalAfter p.2).getD ((4 * 0 + 13 * r) % 16) 0).card := by
  refine Nat.le_of_dvd (Finset.card_pos.mpr ⟨((110, 0, 0, 208), (217, 0, 0, 208)), ?_⟩)
    (C147_five_rounds (s := impossibleS) rfl (by rw [List.length_map, List.length_range]) (by decide) (by decide) onDiagonalAfter_ok)
  simp only [Finset.mem_filter, Finset.mem_univ, true_and]
  refine ⟨by decide, fun r hr => ?_⟩
  have h : ∀ r < 4, (onDiagonalAfter (110, 0, 0, 208)).getD ((4 * 0 + 13 * r) % 16) 0 =
      (onDiagonalAfter (217, 0, 0, 208)).getD ((4 * 0 + 13 * r) % 16) 0 := by decide +kernel
  exact h r hr

end Hacspec.Props
