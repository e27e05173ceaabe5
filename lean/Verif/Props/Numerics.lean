import Verif.Lemmas.Numeric
import Verif.Props.NatMods
import Verif.Props.Seqs
import Verif.Props.Polys

/-! # C93: the functions that are generic over `Numeric` -/

namespace Hacspec.Props

open SecretInt MachineInt AbstractInt Polynomial NatMod

/-- **C93.**  For machine integers, the generic functions are the functions of the model of `poly.rs` and `vec_integers.rs`
(about which the properties C30–C34 and C19 are stated). -/
theorem C93_machine {w : Nat} (N : Poly.NumOps w) (x y : List (BitVec w)) (n : BitVec w) :
    Numeric.leadingCoefficient (Numeric.machine N) x = .ok (Poly.leadingCoefficient x) ∧
    Numeric.polyAdd (Numeric.machine N) x y n = Poly.polyAdd N x y n ∧
    Numeric.polySub (Numeric.machine N) x y n = Poly.polySub N x y n ∧
    Numeric.polyMulPlain (Numeric.machine N) x y = Poly.polyMulPlain N x y ∧
    Numeric.polyMulOpScanning (Numeric.machine N) x y n = Poly.polyMulOpScanning N x y n ∧
    Numeric.polyMul (Numeric.machine N) x y n = Poly.polyMul N x y n ∧
    Numeric.polyDiv (Numeric.machine N) x y n = Poly.polyDiv N x y n :=
  ⟨Numeric.machine_leadingCoefficient N x, Numeric.machine_polyAdd N x y n, Numeric.machine_polySub N x y n, rfl, rfl,
    Numeric.machine_polyMul N x y n, Numeric.machine_polyDiv N x y n⟩

theorem machine_vecPoly {w : Nat} (N : Poly.NumOps w) (f : BitVec w → BitVec w → BitVec w → M (BitVec w))
    (g : BitVec w → BitVec w → BitVec w) (x y : List (BitVec w)) (n : BitVec w) :
    Numeric.vecPoly (Numeric.machine N) f (fun a b => .ok (g a b)) x y n = VecInt.vecPoly f g x y n := by
  rw [Numeric.vecPoly, VecInt.vecPoly, VecInt.zipLoop]
  congr 1; funext _
  refine loop_congr (fun i _ s => ?_) _
  rw [Numeric.machine_equal, bind_ok]
  congr 1; funext a
  congr 1; funext b
  by_cases h : n = 0#w <;> simp [h, Numeric.machine]

/-- **C93.**  The same for the functions on vectors of public unsigned integers. -/
theorem C93_machine_vectors {w : Nat} (x y : List (BitVec w)) (n : BitVec w) :
    Numeric.vecPolyMul (Numeric.machine Poly.numPubU) x y n = VecInt.vecPolyMul x y n ∧
    Numeric.vecPolyAdd (Numeric.machine Poly.numPubU) x y n = VecInt.vecPolyAdd x y n ∧
    Numeric.vecPolySub (Numeric.machine Poly.numPubU) x y n = VecInt.vecPolySub x y n :=
  ⟨machine_vecPoly _ _ _ x y n, machine_vecPoly _ _ _ x y n, machine_vecPoly _ _ _ x y n⟩

example : Numeric.vecPolyMul (Numeric.machine Poly.numPubU) [3#8, 20#8] [4#8, 2#8] 7#8 = .ok [5#8, 5#8] := by
  rw [(C93_machine_vectors _ _ _).1]; decide +kernel

/-- The six implementations of `Numeric` other than machine integers: bounded big integers, modular integers, and arrays. -/
inductive Unequal : {α : Type} → Numeric.Num α → Prop
  | bigInt (bits : Nat) (signed : Bool) : Unequal (Numeric.bigInt bits signed)
  | natMod (T : NatMod.NatTy) : Unequal (Numeric.natMod T)
  | publicArray (w l : Nat) : Unequal (Numeric.publicArray w l)
  | secretArray (w l : Nat) : Unequal (Numeric.secretArray w l)
  | signedArray (w l : Nat) : Unequal (Numeric.signedArray w l)

theorem Unequal.noEqual {α : Type} {N : Numeric.Num α} (h : Unequal N) : Numeric.NoEqual N := by
  cases h <;> exact fun _ _ => rfl

theorem Unequal.noMod {α : Type} {N : Numeric.Num α} (h : Unequal N) (a b n : α) : N.mulMod a b n = panic := by
  cases h <;> rfl

/-- **C93, refuted.**  For every implementation other than the machine integers, the generic functions panic on all
polynomials that are not empty. -/
theorem C93_generic_refuted {α : Type} {N : Numeric.Num α} (h : Unequal N) (x y : List α) (n : α) :
    (x ≠ [] → Numeric.leadingCoefficient N x = panic ∧ Numeric.polyMul N x y n = panic ∧
      Numeric.vecPolyMul N x y n = panic ∧ Numeric.vecPolyAdd N x y n = panic ∧ Numeric.vecPolySub N x y n = panic) ∧
    (x ≠ [] ∨ y ≠ [] → Numeric.polyAdd N x y n = panic ∧ Numeric.polySub N x y n = panic ∧ Numeric.polyDiv N x y n = panic) ∧
    (x ≠ [] → y ≠ [] → Numeric.polyMulOpScanning N x y n = panic) :=
  ⟨fun hx => ⟨Numeric.leadLoop_noEqual h.noEqual hx _, Numeric.polyMul_noEqual h.noEqual y n hx,
      Numeric.vecPoly_noEqual h.noEqual _ _ n hx, Numeric.vecPoly_noEqual h.noEqual _ _ n hx,
      Numeric.vecPoly_noEqual h.noEqual _ _ n hx⟩,
    fun hxy => ⟨Numeric.polyAdd_noEqual h.noEqual n hxy, Numeric.polySub_noEqual h.noEqual n hxy,
      Numeric.polyDiv_noEqual h.noEqual n hxy⟩,
    fun hx hy => Numeric.opScanning_noMod h.noMod n hx hy⟩

/-- The sum of two constant polynomials over the field of Curve25519 panics. -/
example : Numeric.polyAdd (Numeric.natMod fe25519) [fe25519.enc 1] [fe25519.enc 2] (fe25519.enc 0) = panic :=
  ((C93_generic_refuted (.natMod _) _ _ _).2.1 (Or.inl (by simp))).1

theorem polyOf_eq_gp {R : Type} [CommRing R] {α : Type} (f : α → Int) (l : List α) :
    Spec.polyOf R (l.map f) = Numeric.gp (l.map fun a => ((f a : Int) : R)) := by
  induction l with
  | nil => rfl
  | cons a as ih => simp only [List.map_cons, Spec.polyOf, Numeric.gp, ih]

/-- **C93, partial** (what is missing: every other function).  The one generic product that does not compare
coefficients, `poly_mul_plain`, is the product of polynomials over `Z/n` for every modular integer type. -/
theorem C93_plain_modular_partial {T : NatMod.NatTy} (hT : T.WF) (x y : List Canvas) :
    ∃ out, Numeric.polyMulPlain (Numeric.natMod T) x y = .ok out ∧ out.length = x.length + y.length ∧
      (∀ c ∈ out, val c < T.n) ∧
      Spec.polyOf (ZMod T.n) (out.map fun c => (val c : Int)) =
        Spec.polyOf (ZMod T.n) (x.map fun c => (val c : Int)) * Spec.polyOf (ZMod T.n) (y.map fun c => (val c : Int)) := by
  have hn := hT.1
  have hz : val (NatMod.default T) = 0 := Int.ofNat_eq_zero.1 (toBig_default T.bits)
  obtain ⟨out, h1, h2, h3⟩ := Numeric.polyMulPlain_gp (N := Numeric.natMod T) (fun c => val c < T.n) (fun _ => True)
    (fun c => (((val c : Nat) : Int) : ZMod T.n)) (by show val (NatMod.default T) < T.n; omega)
    (by show (((val (NatMod.default T) : Nat) : Int) : ZMod T.n) = 0; rw [hz]; simp)
    (fun a b _ _ => ⟨_, (add_val T a b).trans (add_enc hT _ _), by
      rw [val, toBigUint_tenc]; exact Nat.mod_lt _ hn, by
      rw [val, toBigUint_tenc, Int.cast_natCast, ZMod.natCast_mod, Nat.cast_add, Int.cast_natCast, Int.cast_natCast]⟩)
    (fun a b _ _ => ⟨_, (mul_val T a b).trans (mul_enc hT _ _), by
      rw [val, toBigUint_tenc]; exact Nat.mod_lt _ hn, by
      rw [val, toBigUint_tenc, Int.cast_natCast, ZMod.natCast_mod, Nat.cast_mul, Int.cast_natCast, Int.cast_natCast]⟩)
    x y (fun _ _ => trivial) (fun _ _ => trivial)
  refine ⟨out, h1, h2.1, h2.2, ?_⟩
  rw [polyOf_eq_gp, polyOf_eq_gp, polyOf_eq_gp]
  exact h3

/-- `(5 + 7 X) (4 + 2 X)` over `Z/13`. -/
example : ∃ out, Numeric.polyMulPlain (Numeric.natMod ⟨8, 13⟩) [NatMod.NatTy.enc ⟨8, 13⟩ 5, NatMod.NatTy.enc ⟨8, 13⟩ 7]
    [NatMod.NatTy.enc ⟨8, 13⟩ 4, NatMod.NatTy.enc ⟨8, 13⟩ 2] = .ok out ∧ out.map val = [7, 12, 1, 0] :=
  ⟨_, rfl, by decide +kernel⟩

theorem array_position {w : Nat} (l t : Nat) (ht : t < l) (f : BitVec w → BitVec w → BitVec w) (a b : List (BitVec w))
    (ha : a.length = l) (hb : b.length = l) : (List.zipWith f a b).getD t 0#w = f (a.getD t 0#w) (b.getD t 0#w) := by
  have h1 : t < a.length := by omega
  have h2 : t < b.length := by omega
  simp [List.getD, h1, h2]

/-- **C93, partial.**  For arrays of unsigned integers, `poly_mul_plain` multiplies polynomials over `Z/2^w` in every
position. -/
theorem C93_plain_arrays_partial {w l : Nat} (N : Numeric.Num (List (BitVec w)))
    (hN : N = Numeric.publicArray w l ∨ N = Numeric.secretArray w l) (x y : List (List (BitVec w)))
    (hx : ∀ a ∈ x, a.length = l) (hy : ∀ a ∈ y, a.length = l) :
    ∃ out, Numeric.polyMulPlain N x y = .ok out ∧ out.length = x.length + y.length ∧ (∀ a ∈ out, a.length = l) ∧
      ∀ t, t < l → Spec.polyOf (ZMod (2 ^ w)) (out.map fun a => ((a.getD t 0#w).toNat : Int)) =
        Spec.polyOf (ZMod (2 ^ w)) (x.map fun a => ((a.getD t 0#w).toNat : Int)) *
        Spec.polyOf (ZMod (2 ^ w)) (y.map fun a => ((a.getD t 0#w).toNat : Int)) := by
  have hzero : N.zero = List.replicate l 0#w := by rcases hN with h | h <;> subst h <;> rfl
  have hadd : ∀ a b : List (BitVec w), a.length = l → b.length = l → N.add a b = .ok (List.zipWith (· + ·) a b) := by
    intro a b ha hb
    rcases hN with h | h <;> subst h <;> exact (C19_arrays l a b ha hb).1
  have hmul : ∀ a b : List (BitVec w), a.length = l → b.length = l → N.mul a b = .ok (List.zipWith (· * ·) a b) := by
    intro a b ha hb
    rcases hN with h | h <;> subst h
    · exact (C19_arrays l a b ha hb).2.2.2.1
    · exact (C19_arrays l a b ha hb).2.2.1
  have key : ∀ t, t < l → ∃ out, Numeric.polyMulPlain N x y = .ok out ∧
      (out.length = x.length + y.length ∧ ∀ a ∈ out, a.length = l) ∧ _ := fun t ht =>
    Numeric.polyMulPlain_gp (N := N) (fun a => a.length = l) (fun a => a.length = l)
      (fun a => ((((a.getD t 0#w).toNat : Nat) : Int) : ZMod (2 ^ w))) (by rw [hzero]; simp) (by rw [hzero]; simp [ht])
      (fun a b ha hb => ⟨_, hadd a b ha hb, by simp; omega, by
        rw [array_position l t ht _ a b ha hb, BitVec.toNat_add, Int.cast_natCast, ZMod.natCast_mod, Nat.cast_add,
          Int.cast_natCast, Int.cast_natCast]⟩)
      (fun a b ha hb => ⟨_, hmul a b ha hb, by simp; omega, by
        rw [array_position l t ht _ a b ha hb, BitVec.toNat_mul, Int.cast_natCast, ZMod.natCast_mod, Nat.cast_mul,
          Int.cast_natCast, Int.cast_natCast]⟩) x y hx hy
  obtain ⟨out, h1, h2, -⟩ := Numeric.polyMulPlain_gp (R := ZMod 1) (N := N) (fun a => a.length = l) (fun a => a.length = l)
    (fun _ => 0) (by rw [hzero]; simp) rfl (fun a b ha hb => ⟨_, hadd a b ha hb, by simp; omega, by simp⟩)
    (fun a b ha hb => ⟨_, hmul a b ha hb, by simp; omega, by simp⟩) x y hx hy
  refine ⟨out, h1, h2.1, h2.2, fun t ht => ?_⟩
  obtain ⟨out', h1', -, h3⟩ := key t ht
  rw [h1, Except.ok.injEq] at h1'
  subst h1'
  rw [polyOf_eq_gp, polyOf_eq_gp, polyOf_eq_gp]
  exact h3

example : Numeric.polyMulPlain (Numeric.secretArray 8 2) [[1#8, 2#8], [3#8, 255#8]] [[5#8, 2#8]] =
    .ok [[5#8, 4#8], [15#8, 254#8], [0#8, 0#8]] := by decide +kernel

/-- **C93, partial.**  For arrays of signed integers `poly_mul_plain` panics, too, unless a factor is empty. -/
theorem C93_plain_signed_arrays_refuted {w l : Nat} (x y : List (List (BitVec w))) (hx : x ≠ []) (hy : y ≠ []) :
    Numeric.polyMulPlain (Numeric.signedArray w l) x y = panic := by
  have h1 := List.length_pos_iff.2 hx
  have h2 := List.length_pos_iff.2 hy
  rw [Numeric.polyMulPlain]
  refine Numeric.loop_panic h1 (Numeric.loop_panic h2 ?_)
  rw [idx_ok (by simp; omega), bind_ok, idx_ok h1, bind_ok, idx_ok h2, bind_ok, Numeric.signedArray, bind_panic]

example : Numeric.polyMulPlain (Numeric.signedArray 8 1) [[1#8]] [[1#8]] = panic :=
  C93_plain_signed_arrays_refuted _ _ (by simp) (by simp)

end Hacspec.Props
