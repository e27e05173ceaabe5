import Verif.Lemmas.AbstractInt
import Mathlib.FieldTheory.Finite.Basic
import Mathlib.Algebra.CharP.Basic

/-!
# Field elements held in modular integers

`Fe T x a` says that the struct `x` of type `T` is reduced and that its residue is `a`, an element of some field `K`
of characteristic `T.n`.
-/

namespace Hacspec.NatMod

open AbstractInt

variable {T : NatTy} {K : Type} [Field K]

/-- `x` is a reduced modular integer. -/
structure Reduced (T : NatTy) (x : Canvas) : Prop where
  sign : toBig x = (toBigUint x : Int)
  lt : toBigUint x < T.n

/-- `x` holds the field element `a`. -/
structure Fe (T : NatTy) (x : Canvas) (a : K) : Prop extends Reduced T x where
  val : ((toBigUint x : Nat) : K) = a

theorem Reduced.fe {x : Canvas} (h : Reduced T x) : Fe T x ((toBigUint x : Nat) : K) := ⟨h, rfl⟩

theorem fe_enc {k : Nat} (h : k < T.n) : Fe T (T.enc k) (k : K) :=
  ⟨⟨by rw [toBig_tenc, toBigUint_tenc], by rw [toBigUint_tenc]; exact h⟩, by rw [toBigUint_tenc]⟩

theorem cast_mod [CharP K T.n] (k : Nat) : ((k % T.n : Nat) : K) = k := by
  conv_rhs => rw [← Nat.mod_add_div k T.n]
  rw [Nat.cast_add, Nat.cast_mul, CharP.cast_eq_zero K T.n, zero_mul, add_zero]

theorem fe_mod [CharP K T.n] (hT : T.WF) (k : Nat) : Fe T (T.enc (k % T.n)) (k : K) := by
  have := fe_enc (K := K) (Nat.mod_lt k hT.1)
  rwa [cast_mod] at this

theorem cast_inj [CharP K T.n] {a b : Nat} (ha : a < T.n) (hb : b < T.n) (h : (a : K) = b) : a = b := by
  have key : ∀ {a b : Nat}, a ≤ b → b < T.n → (a : K) = b → a = b := by
    intro a b hab hb h
    have h0 : ((b - a : Nat) : K) = 0 := by rw [Nat.cast_sub hab, h, sub_self]
    have := Nat.eq_zero_of_dvd_of_lt ((CharP.cast_eq_zero_iff K T.n _).mp h0) (by omega)
    omega
  rcases Nat.le_total a b with hab | hab
  · exact key hab hb h
  · exact (key hab ha h.symm).symm

variable [CharP K T.n] {x y : Canvas} {a b : K}

theorem fe_add (hT : T.WF) (hx : Fe T x a) (hy : Fe T y b) : ∃ r, add T x y = .ok r ∧ Fe T r (a + b) := by
  refine ⟨T.enc ((toBigUint x + toBigUint y) % T.n), ?_, ?_⟩
  · rw [← add_enc hT]; unfold add; simp only [toBigUint_tenc]
  · have := fe_mod (K := K) hT (toBigUint x + toBigUint y)
    rwa [Nat.cast_add, hx.val, hy.val] at this

theorem fe_sub (hT : T.WF) (hx : Fe T x a) (hy : Fe T y b) : ∃ r, sub T x y = .ok r ∧ Fe T r (a - b) := by
  refine ⟨T.enc ((toBigUint x + (T.n - toBigUint y)) % T.n), ?_, ?_⟩
  · rw [← sub_enc hT _ _ (Nat.le_of_lt hy.lt)]; unfold sub; simp only [toBigUint_tenc]
  · have := fe_mod (K := K) hT (toBigUint x + (T.n - toBigUint y))
    rwa [Nat.cast_add, Nat.cast_sub (Nat.le_of_lt hy.lt), CharP.cast_eq_zero K T.n, zero_sub, ← sub_eq_add_neg, hx.val,
      hy.val] at this

theorem fe_mul (hT : T.WF) (hx : Fe T x a) (hy : Fe T y b) : ∃ r, mul T x y = .ok r ∧ Fe T r (a * b) := by
  refine ⟨T.enc ((toBigUint x * toBigUint y) % T.n), ?_, ?_⟩
  · rw [← mul_enc hT]; unfold mul; simp only [toBigUint_tenc]
  · have := fe_mod (K := K) hT (toBigUint x * toBigUint y)
    rwa [Nat.cast_mul, hx.val, hy.val] at this

theorem fe_pow2 (hT : T.WF) (hb : 2 ≤ T.bits) (hx : Fe T x a) : ∃ r, pow T x 2 = .ok r ∧ Fe T r (a ^ 2) := by
  refine ⟨T.enc (toBigUint x ^ 2 % T.n), ?_, ?_⟩
  · have h4 : 2 ^ 2 ≤ 2 ^ T.bits := Nat.pow_le_pow_right (by decide) hb
    rw [show toBigUint x ^ 2 % T.n = toBigUint x ^ (2 : BitVec 128).toNat % T.n from rfl,
      ← pow_enc hT _ _ (show (2 : BitVec 128).toNat + 1 < 2 ^ T.bits from by
        rw [show (2 : BitVec 128).toNat = 2 from rfl]; omega)]
    unfold pow AbstractInt.pow AbstractInt.powFelem; rw [toBig_tenc, hx.sign]
  · have := fe_mod (K := K) hT (toBigUint x ^ 2)
    rwa [Nat.cast_pow, hx.val] at this

theorem fe_inv (hT : T.WF) (hp : T.n.Prime) (h3 : 2 < T.n) (hx : Fe T x a) :
    ∃ r, inv T x = .ok r ∧ Fe T r a⁻¹ := by
  refine ⟨T.enc (toBigUint x ^ (T.n - 2) % T.n), ?_, ?_⟩
  · rw [← inv_enc hT hp.two_le]
    unfold inv AbstractInt.inv; rw [toBig_tenc, hx.sign]
  · have h := fe_mod (K := K) hT (toBigUint x ^ (T.n - 2))
    rw [Nat.cast_pow, hx.val] at h
    have hf : Fact T.n.Prime := ⟨hp⟩
    have : a ^ (T.n - 2) = a⁻¹ := by
      by_cases h0 : a = 0
      · rw [h0, inv_zero, zero_pow (by omega)]
      · have hz : ((toBigUint x : Nat) : ZMod T.n) ≠ 0 := by
          intro hz
          rw [ZMod.natCast_eq_zero_iff] at hz
          have := (CharP.cast_eq_zero_iff K T.n _).mpr hz
          rw [hx.val] at this; exact h0 this
        have h1 := congrArg (ZMod.castHom (dvd_refl T.n) K) (ZMod.pow_card_sub_one_eq_one hz)
        rw [map_pow, map_natCast, hx.val, map_one] at h1
        apply eq_inv_of_mul_eq_one_left
        rw [← pow_succ, show T.n - 2 + 1 = T.n - 1 by omega, h1]
    rwa [this] at h

omit [CharP K T.n] in
theorem fe_literal (hT : T.WF) (n : BitVec 128) (h : n.toNat < T.n) :
    ∃ r, fromLiteral T n = .ok r ∧ Fe T r (n.toNat : K) :=
  ⟨_, fromLiteral_enc hT n (Nat.le_of_lt h), fe_enc h⟩

theorem fe_eq (hx : Fe T x a) (hy : Fe T y b) : (eq x y = true) ↔ a = b := by
  rw [eq, AbstractInt.eq, decide_eq_true_iff, hx.sign, hy.sign]
  constructor
  · intro h; rw [← hx.val, ← hy.val, Int.ofNat_inj.mp h]
  · intro h
    rw [← hx.val, ← hy.val] at h
    rw [cast_inj hx.lt hy.lt h]

end Hacspec.NatMod
