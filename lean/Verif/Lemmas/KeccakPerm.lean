import Verif.Lemmas.Keccak
import Verif.Spec.Perm
import Mathlib.Data.Fintype.Pi
import Mathlib.Data.Fintype.EquivFin
import Mathlib.Algebra.Group.Fin.Basic

/-! # Keccak-f[1600] is a permutation

`theta` acts on the column parities by `L`; `L ^ 192` is the identity, because `L ^ 2^k` has the same three-term form
with all offsets multiplied by `2^k`. -/

namespace Hacspec.Fips202

open Spec.Fips202 (StateArray)

/-- Column parities. -/
abbrev Par := Fin 5 → Fin 64 → Bool

/-- The three-term map with offsets `a` (columns) and `b` (bits). -/
def L (a : Fin 5) (b : Fin 64) (C : Par) : Par := fun x z => C x z ^^ (C (x - a) z ^^ C (x + a) (z - b))

theorem L_double (a : Fin 5) (b : Fin 64) (C : Par) : L a b (L a b C) = L (a + a) (b + b) C := by
  funext x z
  simp only [L]
  rw [show x - a + a = x by revert x a; decide, show x + a - a = x by revert x a; decide, sub_sub, ← add_assoc, sub_sub]
  generalize C x z = p1
  generalize C (x - a) z = p2
  generalize C (x + a) (z - b) = p3
  generalize C (x - (a + a)) z = p4
  generalize C x (z - b) = p5
  generalize C (x + a + a) (z - (b + b)) = p6
  revert p1 p2 p3 p4 p5 p6
  decide

theorem L_cube (C : Par) : L 1 0 (L 2 0 C) = C := by
  funext x z
  simp only [L, sub_zero]
  have e : ∀ x : Fin 5, x - 1 - 2 = x + 2 ∧ x - 1 + 2 = x + 1 ∧ x + 1 - 2 = x - 1 ∧ x + 1 + 2 = x - 2 := by decide
  obtain ⟨e1, e2, e3, e4⟩ := e x
  rw [e1, e2, e3, e4]
  generalize C x z = p1
  generalize C (x - 1) z = p2
  generalize C (x + 1) z = p3
  generalize C (x + 2) z = p4
  generalize C (x - 2) z = p5
  revert p1 p2 p3 p4 p5
  decide

theorem L_neg (C : Par) : L 4 0 C = L 1 0 C := by
  funext x z
  simp only [L, sub_zero]
  have e : ∀ x : Fin 5, x - 4 = x + 1 ∧ x + 4 = x - 1 := by decide
  rw [(e x).1, (e x).2, Bool.xor_comm (C (x + 1) z)]

theorem L_inj_of_double {a : Fin 5} {b : Fin 64} (h : Function.Injective (L (a + a) (b + b))) :
    Function.Injective (L a b) := fun C C' e => h (by rw [← L_double, ← L_double, e])

theorem L_inj : Function.Injective (L 1 1) := by
  have h1 : Function.Injective (L 1 0) := by
    intro C C' e
    rw [← L_cube C, ← L_cube C', show (2 : Fin 5) = 1 + 1 from rfl, show (0 : Fin 64) = 0 + 0 from rfl, ← L_double,
      ← L_double]
    exact congrArg (fun D => L 1 0 (L 1 0 D)) e
  have h64 : Function.Injective (L 4 0) := fun C C' e => h1 (by rwa [L_neg, L_neg] at e)
  have h32 : Function.Injective (L 2 32) := L_inj_of_double h64
  have h16 : Function.Injective (L 1 16) := L_inj_of_double h32
  have h8 : Function.Injective (L 3 8) := L_inj_of_double h16
  have h4 : Function.Injective (L 4 4) := L_inj_of_double h8
  have h2 : Function.Injective (L 2 2) := L_inj_of_double h4
  exact L_inj_of_double h2

/-- The parities of the columns of a state array. -/
def par (A : StateArray) : Par := fun x z => A x 0 z ^^ A x 1 z ^^ A x 2 z ^^ A x 3 z ^^ A x 4 z

theorem theta_eq (A : StateArray) (x y : Fin 5) (z : Fin 64) :
    Spec.Fips202.theta A x y z = (A x y z ^^ (par A (x - 1) z ^^ par A (x + 1) (z - 1))) := rfl

theorem par_theta (A : StateArray) : par (Spec.Fips202.theta A) = L 1 1 (par A) := by
  funext x z
  show (Spec.Fips202.theta A x 0 z ^^ Spec.Fips202.theta A x 1 z ^^ Spec.Fips202.theta A x 2 z ^^
    Spec.Fips202.theta A x 3 z ^^ Spec.Fips202.theta A x 4 z) =
    (par A x z ^^ (par A (x - 1) z ^^ par A (x + 1) (z - 1)))
  simp only [theta_eq]
  generalize (par A (x - 1) z ^^ par A (x + 1) (z - 1)) = D
  simp only [par]
  generalize A x 0 z = p0
  generalize A x 1 z = p1
  generalize A x 2 z = p2
  generalize A x 3 z = p3
  generalize A x 4 z = p4
  revert D p0 p1 p2 p3 p4
  decide

theorem theta_inj : Function.Injective Spec.Fips202.theta := by
  intro A B h
  have hp : par A = par B := L_inj (by rw [← par_theta, ← par_theta, h])
  funext x y z
  have := congrFun (congrFun (congrFun h x) y) z
  rw [theta_eq, theta_eq, hp] at this
  exact Bool.xor_left_inj.mp this

theorem rho_inj : Function.Injective Spec.Fips202.rho := by
  intro A B h
  funext x y z
  have := congrFun (congrFun (congrFun h x) y) (z + Fin.ofNat 64 (rotc.getD (5 * y.val + x.val) 0))
  rwa [spec_rho, spec_rho, add_sub_cancel_right] at this

theorem pi_inj : Function.Injective Spec.Fips202.pi := by
  intro A B h
  funext x y z
  have := congrFun (congrFun (congrFun h y) (2 * x - 2 * y)) z
  simp only [Spec.Fips202.pi] at this
  have e : ∀ x y : Fin 5, y + 3 * (2 * x - 2 * y) = x := by decide
  rwa [e] at this

theorem chi_row : ∀ a0 a1 a2 a3 a4 b0 b1 b2 b3 b4 : Bool,
    (a0 ^^ ((a1 ^^ true) && a2)) = (b0 ^^ ((b1 ^^ true) && b2)) →
    (a1 ^^ ((a2 ^^ true) && a3)) = (b1 ^^ ((b2 ^^ true) && b3)) →
    (a2 ^^ ((a3 ^^ true) && a4)) = (b2 ^^ ((b3 ^^ true) && b4)) →
    (a3 ^^ ((a4 ^^ true) && a0)) = (b3 ^^ ((b4 ^^ true) && b0)) →
    (a4 ^^ ((a0 ^^ true) && a1)) = (b4 ^^ ((b0 ^^ true) && b1)) → a0 = b0 := by
  decide +kernel

theorem chi_inj : Function.Injective Spec.Fips202.chi := by
  intro A B h
  funext x y z
  have e : ∀ k : Fin 5, Spec.Fips202.chi A k y z = Spec.Fips202.chi B k y z := fun k => by rw [h]
  have h0 := e x
  have h1 := e (x + 1)
  have h2 := e (x + 2)
  have h3 := e (x + 3)
  have h4 := e (x + 4)
  have k : ∀ x : Fin 5, x + 1 + 1 = x + 2 ∧ x + 1 + 2 = x + 3 ∧ x + 2 + 1 = x + 3 ∧ x + 2 + 2 = x + 4 ∧ x + 3 + 1 = x + 4 ∧
    x + 3 + 2 = x ∧ x + 4 + 1 = x ∧ x + 4 + 2 = x + 1 := by decide
  obtain ⟨k1, k2, k3, k4, k5, k6, k7, k8⟩ := k x
  simp only [Spec.Fips202.chi, k1, k2, k3, k4, k5, k6, k7, k8] at h0 h1 h2 h3 h4
  exact chi_row _ _ _ _ _ _ _ _ _ _ h0 h1 h2 h3 h4

theorem iota_inj (i : Nat) : Function.Injective (Spec.Fips202.iota i) := by
  intro A B h
  funext x y z
  have := congrFun (congrFun (congrFun h x) y) z
  simp only [Spec.Fips202.iota] at this
  by_cases c : x = 0 ∧ y = 0
  · rw [if_pos c, if_pos c] at this; exact Bool.xor_left_inj.mp this
  · rwa [if_neg c, if_neg c] at this

theorem rnd_inj (i : Nat) : Function.Injective (fun A => Spec.Fips202.Rnd A i) := fun _ _ h =>
  theta_inj (rho_inj (pi_inj (chi_inj (iota_inj i h))))

theorem rounds_inj : Function.Injective roundsA := by
  have : ∀ n, Function.Injective (fun A => (List.range n).foldl Spec.Fips202.Rnd A) := by
    intro n
    induction n with
    | zero => exact fun _ _ h => h
    | succ n ih =>
      intro A B h
      simp only [List.range_succ, List.foldl_append] at h
      exact ih (rnd_inj n h)
  exact this 24

/-- The word with given bits. -/
def ofBits (f : Fin 64 → Bool) : U64 := (BitVec.iunfoldr (fun i (_ : Unit) => ((), f i)) ()).2

theorem getLsbD_ofBits (f : Fin 64 → Bool) (z : Fin 64) : (ofBits f).getLsbD z.val = f z :=
  BitVec.iunfoldr_getLsbD (fun _ => ()) z (fun _ => rfl)

/-- Lanes of a state array. -/
def lanes (A : StateArray) : List U64 :=
  (List.range 25).map fun k => ofBits fun z => A (Fin.ofNat 5 (k % 5)) (Fin.ofNat 5 (k / 5)) z

theorem length_lanes (A : StateArray) : (lanes A).length = 25 := by simp [lanes]

theorem arr_lanes (A : StateArray) : arr (lanes A) = A := by
  funext x y z
  rw [arr, lanes, map_range_getD _ _ (by omega), getLsbD_ofBits]
  congr 1
  · apply Fin.ext; simp
  · apply Fin.ext; rw [show (5 * y.val + x.val) / 5 = y.val by omega]; simp

/-- A function on lanes that computes an injective function on state arrays is a permutation. -/
theorem Refines.permutes {f : List U64 → M (List U64)} {F : StateArray → StateArray} (h : Refines f F)
    (hF : Function.Injective F) : Spec.Permutes 25 f := by
  refine ⟨fun s hs => ?_, fun t ht => ?_⟩
  · obtain ⟨t, h1, h2, -⟩ := h s hs
    exact ⟨t, h1, h2⟩
  · obtain ⟨A, hA⟩ := (Finite.injective_iff_surjective.mp hF) (arr t)
    obtain ⟨t', h1, h2, h3⟩ := h (lanes A) (length_lanes A)
    rw [arr_lanes, hA] at h3
    have ht' := arr_inj h2 ht h3
    refine ⟨lanes A, length_lanes A, by rw [h1, ht'], fun s' hs' e => ?_⟩
    obtain ⟨u, h4, h5, h6⟩ := h s' hs'
    rw [e] at h4
    injection h4 with h4
    refine arr_inj hs' (length_lanes A) (hF ?_)
    rw [← h6, ← h4, arr_lanes, hA]

end Hacspec.Fips202
