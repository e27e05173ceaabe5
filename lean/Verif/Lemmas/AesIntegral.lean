import Mathlib.Data.Fintype.Prod
import Mathlib.Data.Fintype.EquivFin
import Verif.Lemmas.AesTrails
import Verif.Spec.Integral

/-! # Sums over sets of blocks through AES -/

namespace Hacspec.Aes

open Hacspec.Spec Hacspec.Spec.Aes Finset

theorem xorOver_xor {Ω : Type} [Fintype Ω] (f g : Ω → U8) : xorOver (fun ω => f ω ^^^ g ω) = xorOver f ^^^ xorOver g := by
  have := Finset.fold_op_distrib (op := fun a b : U8 => a ^^^ b) (f := f) (g := g) (b₁ := 0) (b₂ := 0) (s := univ)
  unfold xorOver
  rw [← this]
  rfl

theorem xorOver_map {Ω : Type} [Fintype Ω] {L : U8 → U8} (h0 : L 0 = 0) (hL : ∀ x y, L (x ^^^ y) = L x ^^^ L y) (f : Ω → U8) :
    xorOver (fun ω => L (f ω)) = L (xorOver f) := by
  unfold xorOver
  have := Finset.fold_hom (op := fun a b : U8 => a ^^^ b) (op' := fun a b : U8 => a ^^^ b) (m := L) hL (f := f) (b := 0)
    (s := (univ : Finset Ω))
  rw [h0] at this
  exact this

theorem xorOver_equiv {Ω Ω' : Type} [Fintype Ω] [Fintype Ω'] (e : Ω ≃ Ω') (f : Ω' → U8) : xorOver (fun ω => f (e ω)) = xorOver f := by
  unfold xorOver
  rw [← Finset.map_univ_equiv e, Finset.fold_map]
  rfl

theorem xorOver_id : xorOver (fun x : U8 => x) = 0 := by decide +kernel

theorem xorOver_bij {f : U8 → U8} (h : Function.Injective f) : xorOver f = 0 := by
  have hb : Function.Bijective f := Finite.injective_iff_bijective.mp h
  exact (xorOver_equiv (Equiv.ofBijective f hb) fun x => x).trans xorOver_id

theorem xorOver_const_byte (k : U8) : xorOver (fun _ : U8 => k) = 0 := by
  revert k
  decide +kernel

/-! ## How a byte depends on the byte that is varied -/

/-- A byte does not depend on it. -/
def Fixed (f : U8 → U8) : Prop := ∀ x y, f x = f y

/-- A byte takes all values. -/
abbrev Takes (f : U8 → U8) : Prop := Function.Injective f

theorem Takes.sub {f : U8 → U8} (h : Takes f) : Takes fun x => sub (f x) := fun _ _ e => h (sub_inj e)

theorem Fixed.sub {f : U8 → U8} (h : Fixed f) : Fixed fun x => sub (f x) := fun x y => congrArg _ (h x y)

theorem xor_right_inj {a b c : U8} (h : a ^^^ c = b ^^^ c) : a = b := by
  have := congrArg (· ^^^ c) h
  simpa [BitVec.xor_assoc] using this

theorem xor_left_inj {a b c : U8} (h : c ^^^ a = c ^^^ b) : a = b := by
  rw [BitVec.xor_comm c, BitVec.xor_comm c] at h
  exact xor_right_inj h

theorem Takes.key {f : U8 → U8} (h : Takes f) (k : U8) : Takes fun x => f x ^^^ k := fun _ _ e => h (xor_right_inj e)

theorem Fixed.key {f : U8 → U8} (h : Fixed f) (k : U8) : Fixed fun x => f x ^^^ k := fun x y => congrArg (· ^^^ k) (h x y)

theorem Takes.fixed {f g : U8 → U8} (h : Takes f) (hg : Fixed g) : Takes fun x => f x ^^^ g x := fun x y e => by
  simp only [hg x y] at e
  exact h (xor_right_inj e)

theorem Fixed.takes {f g : U8 → U8} (h : Takes f) (hg : Fixed g) : Takes fun x => g x ^^^ f x := fun x y e => by
  simp only [hg x y] at e
  exact h (xor_left_inj e)

theorem Fixed.xor {f g : U8 → U8} (h : Fixed f) (hg : Fixed g) : Fixed fun x => f x ^^^ g x := fun x y => by
  show f x ^^^ g x = f y ^^^ g y
  rw [h x y, hg x y]

theorem gmul_takes {c : U8} (hc : c = 1 ∨ c = 2 ∨ c = 3) {f : U8 → U8} (h : Takes f) : Takes fun x => gmul c (f x) := by
  intro x y e
  simp only at e
  rcases hc with rfl | rfl | rfl
  · have e := congrArg (gmul 1) e
    rw [inv1, inv1] at e
    exact h e
  · have e := congrArg (gmul 0x8d) e
    rw [inv2, inv2] at e
    exact h e
  · have e := congrArg (gmul 0xf6) e
    rw [inv3, inv3] at e
    exact h e

theorem gmul_fixed (c : U8) {f : U8 → U8} (h : Fixed f) : Fixed fun x => gmul c (f x) := fun x y => congrArg _ (h x y)

theorem gmul_xorOver {Ω : Type} [Fintype Ω] {c : U8} (hc : c = 1 ∨ c = 2 ∨ c = 3) {f : Ω → U8} (h : xorOver f = 0) :
    xorOver (fun x => gmul c (f x)) = 0 := by
  rw [xorOver_map (L := gmul c) (gmul_zero c), h, gmul_zero]
  rcases hc with rfl | rfl | rfl
  · intro x y
    rw [gmul1, gmul1, gmul1]
  · exact gmul2_xor
  · exact gmul3_xor

/-! ## A round -/

/-- The position from which a byte comes that goes into byte `p`, as the `i`-th of its column. -/
def source (p i : Nat) : Nat := (4 * (p / 4) + 5 * i) % 16

/-- The coefficient of the `i`-th byte of the column. -/
def coeff (p i : Nat) : U8 := coeffs.getD ((p % 4 + 4 - i) % 4) 0

theorem coeff_cases {p i : Nat} (hi : i < 4) : coeff p i = 1 ∨ coeff p i = 2 ∨ coeff p i = 3 := by
  have : ∀ r < 4, ∀ i < 4, coeffs.getD ((r + 4 - i) % 4) 0 = 1 ∨ coeffs.getD ((r + 4 - i) % 4) 0 = 2 ∨
    coeffs.getD ((r + 4 - i) % 4) 0 = 3 := by decide
  exact this (p % 4) (Nat.mod_lt _ (by omega)) i hi

/-- One byte after a round. -/
def outByte (b : Nat → U8) (k : U8) (p : Nat) : U8 :=
  gmul (coeff p 0) (sub (b (source p 0))) ^^^ gmul (coeff p 1) (sub (b (source p 1))) ^^^ gmul (coeff p 2) (sub (b (source p 2))) ^^^
    gmul (coeff p 3) (sub (b (source p 3))) ^^^ k

theorem aesEnc_byte {s k t : List U8} (hs : s.length = 16) (hk : k.length = 16) (h : aesEnc s k = .ok t) {p : Nat} (hp : p < 16) :
    t.getD p 0 = outByte (s.getD · 0) (k.getD p 0) p := by
  rw [aesEnc_ok hs hk, Except.ok.injEq] at h
  subst h
  obtain ⟨a0, a1, a2, a3, a4, a5, a6, a7, a8, a9, a10, a11, a12, a13, a14, a15, rfl⟩ := exists16 hs
  obtain ⟨k0, k1, k2, k3, k4, k5, k6, k7, k8, k9, k10, k11, k12, k13, k14, k15, rfl⟩ := exists16 hk
  have e : Spec.Aes.shiftRows (Spec.Aes.subBytes [a0, a1, a2, a3, a4, a5, a6, a7, a8, a9, a10, a11, a12, a13, a14, a15]) =
      [sub a0, sub a5, sub a10, sub a15, sub a4, sub a9, sub a14, sub a3, sub a8, sub a13, sub a2, sub a7,
        sub a12, sub a1, sub a6, sub a11] := by
    simp [Spec.Aes.shiftRows, Spec.Aes.subBytes, List.range_succ]
  rw [e, mixColumns_mixWith, show coeffs = [2, 1, 1, 3] from rfl, mixWith_eval]
  have : p = 0 ∨ p = 1 ∨ p = 2 ∨ p = 3 ∨ p = 4 ∨ p = 5 ∨ p = 6 ∨ p = 7 ∨ p = 8 ∨ p = 9 ∨ p = 10 ∨ p = 11 ∨ p = 12 ∨ p = 13 ∨
    p = 14 ∨ p = 15 := by omega
  rcases this with rfl | rfl | rfl | rfl | rfl | rfl | rfl | rfl | rfl | rfl | rfl | rfl | rfl | rfl | rfl | rfl <;> rfl

theorem out_fixed {F : U8 → Nat → U8} {p : Nat} (h : ∀ i < 4, Fixed fun x => F x (source p i)) (k : U8) :
    Fixed fun x => outByte (F x) k p := by
  have t := fun i hi => gmul_fixed (coeff p i) (h i hi).sub
  exact (((Fixed.xor (Fixed.xor (t 0 (by omega)) (t 1 (by omega))) (t 2 (by omega))).xor (t 3 (by omega))).key k)

theorem out_takes {F : U8 → Nat → U8} {p i : Nat} (hi : i < 4) (ht : Takes fun x => F x (source p i))
    (hf : ∀ j < 4, j ≠ i → Fixed fun x => F x (source p j)) (k : U8) : Takes fun x => outByte (F x) k p := by
  have t := gmul_takes (coeff_cases (p := p) hi) ht.sub
  have f : ∀ j < 4, j ≠ i → Fixed fun x => gmul (coeff p j) (sub (F x (source p j))) := fun j hj hji => gmul_fixed (coeff p j) (hf j hj hji).sub
  unfold outByte
  generalize coeff p = c at t f ⊢
  generalize source p = q at t f ⊢
  refine Takes.key ?_ k
  have : i = 0 ∨ i = 1 ∨ i = 2 ∨ i = 3 := by omega
  rcases this with rfl | rfl | rfl | rfl
  · exact Takes.fixed (Takes.fixed (Takes.fixed t (f 1 (by omega) (by omega))) (f 2 (by omega) (by omega))) (f 3 (by omega) (by omega))
  · exact Takes.fixed (Takes.fixed (Fixed.takes t (f 0 (by omega) (by omega))) (f 2 (by omega) (by omega))) (f 3 (by omega) (by omega))
  · exact Takes.fixed (Fixed.takes t (Fixed.xor (f 0 (by omega) (by omega)) (f 1 (by omega) (by omega)))) (f 3 (by omega) (by omega))
  · exact Fixed.takes t (Fixed.xor (Fixed.xor (f 0 (by omega) (by omega)) (f 1 (by omega) (by omega))) (f 2 (by omega) (by omega)))

theorem out_zero {F : U8 → Nat → U8} {p : Nat} (h : ∀ i < 4, Takes fun x => F x (source p i)) (k : U8) :
    xorOver (fun x => outByte (F x) k p) = 0 := by
  have t := fun i hi => gmul_xorOver (coeff_cases (p := p) hi) (xorOver_bij (h i hi).sub)
  unfold outByte
  rw [xorOver_xor, xorOver_xor, xorOver_xor, xorOver_xor, t 0 (by omega), t 1 (by omega), t 2 (by omega), t 3 (by omega),
    xorOver_const_byte]
  rfl

/-- The column into which byte `j` goes. -/
def columnOf (j : Nat) : Nat := (j / 4 + 4 - j % 4) % 4

/-- Three rounds, for blocks that differ in one byte, which takes all values. -/
theorem three_rounds {s k1 k2 k3 : List U8} (hs : s.length = 16) (h1 : k1.length = 16) (h2 : k2.length = 16) (h3 : k3.length = 16)
    {j : Nat} (hj : j < 16) {e1 e2 e3 : U8 → List U8} (g1 : ∀ x, aesEnc (s.set j x) k1 = .ok (e1 x)) (g2 : ∀ x, aesEnc (e1 x) k2 = .ok (e2 x))
    (g3 : ∀ x, aesEnc (e2 x) k3 = .ok (e3 x)) {p : Nat} (hp : p < 16) : xorOver (fun x => (e3 x).getD p 0) = 0 := by
  have l0 : ∀ x, (s.set j x).length = 16 := fun x => by rw [List.length_set, hs]
  have l1 : ∀ x, (e1 x).length = 16 := fun x => length_aesEnc (l0 x) h1 (g1 x)
  have l2 : ∀ x, (e2 x).length = 16 := fun x => length_aesEnc (l1 x) h2 (g2 x)
  have t0 : Takes fun x => (s.set j x).getD j 0 := by
    intro x y e
    simpa [List.getD, hs, hj] using e
  have f0 : ∀ q, q ≠ j → Fixed fun x => (s.set j x).getD q 0 := by
    intro q hq x y
    simp [List.getD, List.getElem?_set_ne (Ne.symm hq)]
  have src : ∀ q < 16, ∀ i < 4, source q i < 16 := fun q _ i _ => Nat.mod_lt _ (by omega)
  have T1 : ∀ q < 16, q / 4 = columnOf j → Takes fun x => (e1 x).getD q 0 := by
    intro q hq hc
    have hd : ∀ j < 16, ∀ q < 16, q / 4 = columnOf j → source q (j % 4) = j := by decide +kernel
    have hd' : ∀ j < 16, ∀ q < 16, q / 4 = columnOf j → ∀ i < 4, i = j % 4 ∨ source q i ≠ j := by decide +kernel
    have d1 := hd j hj q hq hc
    have d2 := fun i hi hne => (hd' j hj q hq hc i hi).resolve_left hne
    simp only [fun x => aesEnc_byte (l0 x) h1 (g1 x) hq]
    exact out_takes (F := fun x q => (s.set j x).getD q 0) (Nat.mod_lt j (show 4 > 0 by omega)) (by rw [d1]; exact t0)
      (fun i hi hne => f0 _ (d2 i hi hne)) _
  have F1 : ∀ q < 16, q / 4 ≠ columnOf j → Fixed fun x => (e1 x).getD q 0 := by
    intro q hq hc
    have hd : ∀ j < 16, ∀ q < 16, q / 4 ≠ columnOf j → ∀ i < 4, source q i ≠ j := by decide +kernel
    simp only [fun x => aesEnc_byte (l0 x) h1 (g1 x) hq]
    exact out_fixed (F := fun x q => (s.set j x).getD q 0) (fun i hi => f0 _ (hd j hj q hq hc i hi)) _
  have T2 : ∀ q < 16, Takes fun x => (e2 x).getD q 0 := by
    intro q hq
    have hd : ∀ c < 4, ∀ q < 16, ∃ i < 4, source q i / 4 = c ∧ ∀ i' < 4, i' ≠ i → source q i' / 4 ≠ c := by decide +kernel
    obtain ⟨i, hi, d1, d2⟩ := hd (columnOf j) (Nat.mod_lt _ (by omega)) q hq
    simp only [fun x => aesEnc_byte (l1 x) h2 (g2 x) hq]
    exact out_takes (F := fun x q => (e1 x).getD q 0) hi (T1 _ (src q hq i hi) d1) (fun i' hi' hne => F1 _ (src q hq i' hi') (d2 i' hi' hne)) _
  simp only [fun x => aesEnc_byte (l2 x) h3 (g3 x) hp]
  exact out_zero (F := fun x q => (e2 x).getD q 0) (fun i hi => T2 _ (src p hp i hi)) _

/-! ## Four rounds -/

theorem xorOver_zero {Ω : Type} [Fintype Ω] : xorOver (fun _ : Ω => 0) = 0 := by
  unfold xorOver
  generalize (univ : Finset Ω) = s
  classical
  induction s using Finset.induction with
  | empty => rfl
  | insert a s ha ih => rw [Finset.fold_insert ha, ih]; rfl

theorem xorOver_prod {A B : Type} [Fintype A] [Fintype B] (f : A × B → U8) :
    xorOver f = xorOver fun a => xorOver fun b => f (a, b) := by
  classical
  unfold xorOver
  rw [← Finset.univ_product_univ]
  generalize (univ : Finset A) = s
  induction s using Finset.induction with
  | empty => rfl
  | insert a s ha ih =>
    have hi : insert a s ×ˢ (univ : Finset B) = ((univ : Finset B).image fun b => (a, b)) ∪ s ×ˢ univ := by
      ext ⟨x, b⟩
      simp [eq_comm]
    rw [Finset.fold_insert ha, ← ih, hi]
    have hd : Disjoint ((univ : Finset B).image fun b => (a, b)) (s ×ˢ univ) := by
      rw [Finset.disjoint_left]
      intro x hx hx'
      obtain ⟨b, -, rfl⟩ := Finset.mem_image.mp hx
      exact ha (Finset.mem_product.mp hx').1
    have := Finset.fold_disjUnion (op := fun a b : U8 => a ^^^ b) (f := f) (b₁ := 0) (b₂ := 0) hd
    rw [Finset.disjUnion_eq_union] at this
    rw [show (0 : U8) = 0 ^^^ 0 from rfl, this, Finset.fold_image fun x _ y _ h => (Prod.ext_iff.mp h).2]
    rfl

/-- Four bytes. -/
abbrev Four := U8 × U8 × U8 × U8

/-- Four bytes put in the places given. -/
def put (s : List U8) (q : Nat → Nat) (y : Four) : List U8 :=
  (((s.set (q 0) y.1).set (q 1) y.2.1).set (q 2) y.2.2.1).set (q 3) y.2.2.2

theorem length_put (s : List U8) (q : Nat → Nat) (y : Four) : (put s q y).length = s.length := by simp [put]

theorem put_other {s : List U8} {q : Nat → Nat} {y : Four} {p : Nat} (h : ∀ i < 4, q i ≠ p) : (put s q y).getD p 0 = s.getD p 0 := by
  have h0 := h 0 (by omega); have h1 := h 1 (by omega); have h2 := h 2 (by omega); have h3 := h 3 (by omega)
  simp [put, List.getD, List.getElem?_set_ne, h0, h1, h2, h3]

theorem put_get {s : List U8} {q : Nat → Nat} {y : Four} (hq : ∀ i < 4, q i < s.length) (hd : ∀ i < 4, ∀ j < 4, i ≠ j → q i ≠ q j) :
    (put s q y).getD (q 0) 0 = y.1 ∧ (put s q y).getD (q 1) 0 = y.2.1 ∧ (put s q y).getD (q 2) 0 = y.2.2.1 ∧
      (put s q y).getD (q 3) 0 = y.2.2.2 := by
  have h0 := hq 0 (by omega); have h1 := hq 1 (by omega); have h2 := hq 2 (by omega); have h3 := hq 3 (by omega)
  have d10 := hd 1 (by omega) 0 (by omega) (by omega)
  have d20 := hd 2 (by omega) 0 (by omega) (by omega)
  have d30 := hd 3 (by omega) 0 (by omega) (by omega)
  have d21 := hd 2 (by omega) 1 (by omega) (by omega)
  have d31 := hd 3 (by omega) 1 (by omega) (by omega)
  have d32 := hd 3 (by omega) 2 (by omega) (by omega)
  refine ⟨?_, ?_, ?_, ?_⟩
  · simp [put, List.getD, d10, d20, d30, h0]
  · simp [put, List.getD, d21, d31, h1]
  · simp [put, List.getD, d32, h2]
  · simp [put, List.getD, h3]

/-- Four rounds, for blocks in which the four bytes that go into one column take all values. -/
theorem four_rounds_zero {s k1 k2 k3 k4 : List U8} (hs : s.length = 16) (h1 : k1.length = 16) (h2 : k2.length = 16)
    (h3 : k3.length = 16) (h4 : k4.length = 16) {c : Nat} (hc : c < 4) {e1 e2 e3 e4 : Four → List U8}
    (g1 : ∀ y, aesEnc (put s (source (4 * c)) y) k1 = .ok (e1 y)) (g2 : ∀ y, aesEnc (e1 y) k2 = .ok (e2 y))
    (g3 : ∀ y, aesEnc (e2 y) k3 = .ok (e3 y)) (g4 : ∀ y, aesEnc (e3 y) k4 = .ok (e4 y)) {p : Nat} (hp : p < 16) :
    xorOver (fun y => (e4 y).getD p 0) = 0 := by
  have l0 : ∀ y, (put s (source (4 * c)) y).length = 16 := fun y => by rw [length_put, hs]
  have l1 : ∀ y, (e1 y).length = 16 := fun y => length_aesEnc (l0 y) h1 (g1 y)
  let q : Nat → Nat := fun i => 4 * c + i
  let base := e1 (0, 0, 0, 0)
  let β : Four → Four := fun y => ((e1 y).getD (q 0) 0, (e1 y).getD (q 1) 0, (e1 y).getD (q 2) 0, (e1 y).getD (q 3) 0)
  have qlt : ∀ i < 4, q i < 16 := fun i hi => by show 4 * c + i < 16; omega
  have qd : ∀ i < 4, ∀ j < 4, i ≠ j → q i ≠ q j := fun i _ j _ h e => h (by simpa [q] using e)
  have slt : ∀ i < 4, source (4 * c) i < s.length := fun i _ => by rw [hs]; exact Nat.mod_lt _ (by omega)
  have sd : ∀ i < 4, ∀ j < 4, i ≠ j → source (4 * c) i ≠ source (4 * c) j := by
    have : ∀ c < 4, ∀ i < 4, ∀ j < 4, i ≠ j → source (4 * c) i ≠ source (4 * c) j := by decide +kernel
    exact this c hc
  have ebase : ∀ y, e1 y = put base q (β y) := by
    intro y
    refine List.ext_getElem (by rw [length_put, l1, l1]) fun i a b => ?_
    have hi : i < 16 := by rw [l1] at a; exact a
    have hget : (e1 y).getD i 0 = (put base q (β y)).getD i 0 := by
      obtain ⟨p0, p1, p2, p3⟩ := put_get (s := base) (q := q) (y := β y) (by rw [l1]; exact qlt) qd
      by_cases hcol : i / 4 = c
      · have : i = q 0 ∨ i = q 1 ∨ i = q 2 ∨ i = q 3 := by show i = 4 * c + 0 ∨ i = 4 * c + 1 ∨ i = 4 * c + 2 ∨ i = 4 * c + 3; omega
        rcases this with rfl | rfl | rfl | rfl
        · rw [p0]
        · rw [p1]
        · rw [p2]
        · rw [p3]
      · rw [put_other (fun j hj e => hcol (by rw [← e]; show (4 * c + j) / 4 = c; omega)), aesEnc_byte (l0 _) h1 (g1 _) hi,
          aesEnc_byte (l0 _) h1 (g1 _) hi]
        have hne : ∀ c < 4, ∀ i < 16, i / 4 ≠ c → ∀ j < 4, ∀ j' < 4, source (4 * c) j' ≠ source i j := by decide +kernel
        have := fun j hj => fun y => put_other (s := s) (q := source (4 * c)) (y := y) (p := source i j)
          fun j' hj' => hne c hc i hi hcol j hj j' hj'
        unfold outByte
        simp only [this 0 (by omega), this 1 (by omega), this 2 (by omega), this 3 (by omega)]
    simpa [List.getD, a, b] using hget
  have inj : Function.Injective β := by
    intro y z e
    have e' : e1 y = e1 z := by rw [ebase y, ebase z, e]
    have hy := g1 y
    have hz := g1 z
    rw [aesEnc_ok (l0 _) h1, Except.ok.injEq] at hy hz
    have hp : put s (source (4 * c)) y = put s (source (4 * c)) z := by
      rw [e', ← hz] at hy
      have hx := lin_inj (s := Spec.Aes.subBytes (put s (source (4 * c)) y)) (t := Spec.Aes.subBytes (put s (source (4 * c)) z))
        (by rw [length_subBytes, l0]) (by rw [length_subBytes, l0]) (by
          have := congrArg (Spec.xor · k1) hy
          rw [xor_xor (by rw [length_mixColumns, h1]), xor_xor (by rw [length_mixColumns, h1])] at this
          exact this)
      exact List.map_injective_iff.mpr (fun _ _ h => sub_inj h) hx
    have py := put_get (y := y) slt sd
    have pz := put_get (y := z) slt sd
    rw [hp] at py
    exact Prod.ext (py.1.symm.trans pz.1) (Prod.ext (py.2.1.symm.trans pz.2.1) (Prod.ext (py.2.2.1.symm.trans pz.2.2.1)
      (py.2.2.2.symm.trans pz.2.2.2)))
  -- the last three rounds as a function
  let rd : List U8 → List U8 → List U8 := fun k s => Spec.xor (lin (Spec.Aes.subBytes s)) k
  have hrd : ∀ {k s}, s.length = 16 → k.length = 16 → aesEnc s k = .ok (rd k s) := fun hs hk => aesEnc_ok hs hk
  have lrd : ∀ {k s}, k.length = 16 → (rd k s).length = 16 := fun hk => length_xor16 (length_lin _) hk
  have e4eq : ∀ y, e4 y = rd k4 (rd k3 (rd k2 (put base q (β y)))) := by
    intro y
    have a2 := g2 y
    rw [hrd (l1 y) h2, Except.ok.injEq] at a2
    have a3 := g3 y
    rw [← a2, hrd (lrd h2) h3, Except.ok.injEq] at a3
    have a4 := g4 y
    rw [← a3, hrd (lrd h3) h4, Except.ok.injEq] at a4
    rw [← a4, ebase y]
  simp only [e4eq]
  refine (xorOver_equiv (Equiv.ofBijective β (Finite.injective_iff_bijective.mp inj)) fun y =>
    (rd k4 (rd k3 (rd k2 (put base q y)))).getD p 0).trans ?_
  rw [xorOver_prod]
  simp only [xorOver_prod (A := U8) (B := U8 × U8), xorOver_prod (A := U8) (B := U8)]
  have inner : ∀ a b d : U8, xorOver (fun x => (rd k4 (rd k3 (rd k2 (put base q (a, b, d, x))))).getD p 0) = 0 := by
    intro a b d
    have lb : (((base.set (q 0) a).set (q 1) b).set (q 2) d).length = 16 := by simp only [List.length_set]; exact l1 _
    exact three_rounds (s := ((base.set (q 0) a).set (q 1) b).set (q 2) d) lb h2 h3 h4 (qlt 3 (by omega))
      (fun x => hrd (by rw [List.length_set, lb]) h2) (fun x => hrd (lrd h2) h3) (fun x => hrd (lrd h3) h4) hp
  simp only [inner, xorOver_zero]

end Hacspec.Aes
