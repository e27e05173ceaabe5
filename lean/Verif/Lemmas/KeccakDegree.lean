import Verif.Lemmas.KeccakPerm
import Verif.Spec.Cubes
import Mathlib.Data.Fintype.Pi
import Mathlib.Logic.Equiv.Fintype

/-! # Keccak-f[1600]: the algebraic degree of the rounds -/

namespace Hacspec.Fips202

open SecretInt Hacspec.Seq
open Hacspec.ChaCha (getD_set ext_getD)
open Spec.Fips202 (StateArray)

/-! ## Degree -/

/-- The sum of state arrays. -/
def addA (A B : StateArray) : StateArray := fun x y z => A x y z ^^ B x y z

/-- The product, bit by bit. -/
def mulA (A B : StateArray) : StateArray := fun x y z => A x y z && B x y z

/-- No bit is set. -/
def zeroA : StateArray := fun _ _ _ => false

/-- All bits are set. -/
def oneA : StateArray := fun _ _ _ => true

/-- The derivative of `F` in the direction `v`. -/
def der (v : StateArray) (F : StateArray → StateArray) (A : StateArray) : StateArray := addA (F A) (F (addA A v))

/-- All derivatives of order `d + 1` are zero. -/
def Deg : Nat → (StateArray → StateArray) → Prop
  | 0, F => ∀ v A, der v F A = zeroA
  | d + 1, F => ∀ v, Deg d (der v F)

theorem addA_comm (A B : StateArray) : addA A B = addA B A := by funext x y z; exact Bool.xor_comm _ _

theorem addA_assoc (A B C : StateArray) : addA (addA A B) C = addA A (addA B C) := by funext x y z; exact Bool.xor_assoc _ _ _

theorem addA_self (A : StateArray) : addA A A = zeroA := by funext x y z; exact Bool.xor_self _

theorem addA_zero (A : StateArray) : addA A zeroA = A := by funext x y z; exact Bool.xor_false _

theorem deg_zero : ∀ d, Deg d (fun _ => zeroA)
  | 0 => fun v A => addA_self _
  | d + 1 => fun v => by
    rw [show der v (fun _ => zeroA) = fun _ => zeroA from funext fun A => addA_self _]
    exact deg_zero d

theorem deg_const (C : StateArray) : ∀ d, Deg d (fun _ => C)
  | 0 => fun v A => addA_self _
  | d + 1 => fun v => by
    rw [show der v (fun _ => C) = fun _ => zeroA from funext fun A => addA_self _]
    exact deg_zero d

theorem Deg.succ {d : Nat} {F : StateArray → StateArray} (h : Deg d F) : Deg (d + 1) F := by
  induction d generalizing F with
  | zero =>
    intro v
    rw [show der v F = fun _ => zeroA from funext fun A => h v A]
    exact deg_zero 0
  | succ d ih => exact fun v => ih (h v)

theorem Deg.mono {d e : Nat} {F : StateArray → StateArray} (h : Deg d F) (hde : d ≤ e) : Deg e F := by
  induction hde with
  | refl => exact h
  | step _ ih => exact ih.succ

theorem Deg.add {d : Nat} {F G : StateArray → StateArray} (hF : Deg d F) (hG : Deg d G) : Deg d (fun A => addA (F A) (G A)) := by
  have key : ∀ (F G : StateArray → StateArray) v, der v (fun A => addA (F A) (G A)) = fun A => addA (der v F A) (der v G A) := by
    intro F G v
    funext A x y z
    simp only [der, addA]
    generalize F A x y z = a, G A x y z = b
    cases a <;> cases b <;> simp
  induction d generalizing F G with
  | zero => intro v A; rw [key]; simp only [hF v A, hG v A]; rfl
  | succ d ih => intro v; rw [key]; exact ih (hF v) (hG v)

theorem der_mul (F G : StateArray → StateArray) (v : StateArray) :
    der v (fun A => mulA (F A) (G A)) =
      fun A => addA (addA (mulA (der v F A) (G A)) (mulA (F A) (der v G A))) (mulA (der v F A) (der v G A)) := by
  funext A x y z
  simp only [der, addA, mulA]
  generalize F A x y z = a, G A x y z = b
  generalize F (addA A v) x y z = c, G (addA A v) x y z = d
  revert a b c d; decide

theorem Deg.mul {F G : StateArray → StateArray} {a b : Nat} (hF : Deg a F) (hG : Deg b G) :
    Deg (a + b) (fun A => mulA (F A) (G A)) := by
  have hz : ∀ A, mulA zeroA A = zeroA := fun A => by funext x y z; exact Bool.false_and _
  have hz' : ∀ A, mulA A zeroA = zeroA := fun A => by funext x y z; exact Bool.and_false _
  have hz0 : ∀ A, addA zeroA A = A := fun A => by rw [addA_comm, addA_zero]
  obtain ⟨n, hn⟩ : ∃ n, a + b = n := ⟨_, rfl⟩
  induction n generalizing a b F G with
  | zero =>
    obtain ⟨rfl, rfl⟩ : a = 0 ∧ b = 0 := by omega
    intro v A
    rw [der_mul]
    simp only [hF v A, hG v A, hz, hz', addA_zero]
  | succ n ih =>
    rw [hn]
    intro v
    rw [der_mul]
    cases a with
    | zero =>
      cases b with
      | zero => omega
      | succ b =>
        have e : (fun A => addA (addA (mulA (der v F A) (G A)) (mulA (F A) (der v G A))) (mulA (der v F A) (der v G A))) =
            fun A => mulA (F A) (der v G A) := by
          funext A
          rw [hF v A, hz, hz, addA_zero, hz0]
        rw [e, show n = 0 + b by omega]
        exact ih hF (hG v) (by omega)
    | succ a =>
      cases b with
      | zero =>
        have e : (fun A => addA (addA (mulA (der v F A) (G A)) (mulA (F A) (der v G A))) (mulA (der v F A) (der v G A))) =
            fun A => mulA (der v F A) (G A) := by
          funext A
          rw [hG v A, hz', hz', addA_zero, addA_zero]
        rw [e, show n = a + 0 by omega]
        exact ih (hF v) hG (by omega)
      | succ b =>
        refine ((Deg.mono (ih (hF v) hG (by omega)) (by omega)).add (Deg.mono (ih hF (hG v) (by omega)) (by omega))).add ?_
        exact Deg.mono (ih (a := a) (b := b + 1) (hF v) (Deg.succ (hG v)) (by omega)) (by omega)

/-! ## Additive maps -/

/-- The map preserves sums. -/
def Additive (T : StateArray → StateArray) : Prop := ∀ A B, T (addA A B) = addA (T A) (T B)

theorem Additive.zero {T : StateArray → StateArray} (h : Additive T) : T zeroA = zeroA := by
  have := h zeroA zeroA
  rw [addA_self] at this
  rw [this, addA_self]

theorem Additive.deg {T : StateArray → StateArray} (h : Additive T) {d : Nat} {F : StateArray → StateArray} (hF : Deg d F) :
    Deg d (fun A => T (F A)) := by
  have key : ∀ F v, der v (fun A => T (F A)) = fun A => T (der v F A) := fun F v => funext fun A => (h _ _).symm
  induction d generalizing F with
  | zero => intro v A; rw [key]; simp only [hF v A, h.zero]
  | succ d ih => intro v; rw [key]; exact ih (hF v)

theorem Additive.comp {T U : StateArray → StateArray} (hT : Additive T) (hU : Additive U) : Additive (fun A => T (U A)) :=
  fun A B => by simp only [hU A B]; exact hT _ _

theorem deg_id : Deg 1 (fun A => A) := fun v => by
  rw [show der v (fun A => A) = fun _ => v from funext fun A => by
    simp only [der]
    rw [← addA_assoc, addA_self, addA_comm, addA_zero]]
  exact deg_const v 0

theorem theta_additive : Additive Spec.Fips202.theta := by
  intro A B
  have hp : ∀ x z, par (addA A B) x z = (par A x z ^^ par B x z) := by
    intro x z
    simp only [par, addA]
    have : Std.Commutative Bool.xor := ⟨Bool.xor_comm⟩
    ac_rfl
  funext x y z
  rw [theta_eq, hp, hp]
  simp only [addA, theta_eq]
  have : Std.Commutative Bool.xor := ⟨Bool.xor_comm⟩
  ac_rfl

theorem rho_additive : Additive Spec.Fips202.rho := fun A B => by
  funext x y z
  rw [spec_rho]
  simp only [addA, spec_rho]

theorem pi_additive : Additive Spec.Fips202.pi := fun _ _ => rfl

/-- The rows turned by `k`. -/
def turn (k : Fin 5) (A : StateArray) : StateArray := fun x y z => A (x + k) y z

theorem turn_additive (k : Fin 5) : Additive (turn k) := fun _ _ => rfl

theorem chi_eq (A : StateArray) : Spec.Fips202.chi A = addA A (mulA (addA (turn 1 A) oneA) (turn 2 A)) := rfl

/-- The inverse of `chi`. -/
def chiInv (A : StateArray) : StateArray :=
  addA A (mulA (addA (turn 1 A) oneA) (addA (turn 2 A) (mulA (addA (turn 3 A) oneA) (turn 4 A))))

theorem chiInv_row : ∀ a0 a1 a2 a3 a4 : Bool,
    ((a0 ^^ ((a1 ^^ true) && a2)) ^^ (((a1 ^^ ((a2 ^^ true) && a3)) ^^ true) &&
      ((a2 ^^ ((a3 ^^ true) && a4)) ^^ (((a3 ^^ ((a4 ^^ true) && a0)) ^^ true) && (a4 ^^ ((a0 ^^ true) && a1)))))) = a0 := by
  decide +kernel

theorem chiInv_chi (A : StateArray) : chiInv (Spec.Fips202.chi A) = A := by
  funext x y z
  have k : ∀ x : Fin 5, x + 1 + 1 = x + 2 ∧ x + 1 + 2 = x + 3 ∧ x + 2 + 1 = x + 3 ∧ x + 2 + 2 = x + 4 ∧ x + 3 + 1 = x + 4 ∧
    x + 3 + 2 = x ∧ x + 4 + 1 = x ∧ x + 4 + 2 = x + 1 := by decide
  obtain ⟨k1, k2, k3, k4, k5, k6, k7, k8⟩ := k x
  simp only [chiInv, addA, mulA, turn, oneA, Spec.Fips202.chi, k1, k2, k3, k4, k5, k6, k7, k8]
  exact chiInv_row _ _ _ _ _

theorem deg_chi {d : Nat} {F : StateArray → StateArray} (h : Deg d F) : Deg (2 * d) (fun A => Spec.Fips202.chi (F A)) := by
  simp only [chi_eq]
  refine Deg.add (h.mono (by omega)) ?_
  rw [Nat.two_mul]
  exact Deg.mul (((turn_additive 1).deg h).add (deg_const oneA d)) ((turn_additive 2).deg h)

theorem deg_chiInv {d : Nat} {F : StateArray → StateArray} (h : Deg d F) : Deg (3 * d) (fun A => chiInv (F A)) := by
  simp only [chiInv]
  refine Deg.add (h.mono (by omega)) ?_
  rw [show 3 * d = d + (d + d) by omega]
  exact Deg.mul (((turn_additive 1).deg h).add (deg_const oneA d)) (((turn_additive 2).deg h |>.mono (by omega)).add
    (Deg.mul (((turn_additive 3).deg h).add (deg_const oneA d)) ((turn_additive 4).deg h)))

/-- The state array that `iota` adds. -/
def iotaA (i : Nat) : StateArray := fun x y z => if x = 0 ∧ y = 0 then (Spec.Fips202.RC i).getD z.val false else false

theorem iota_eq (i : Nat) (A : StateArray) : Spec.Fips202.iota i A = addA A (iotaA i) := by
  funext x y z
  simp only [Spec.Fips202.iota, addA, iotaA]
  split
  · rfl
  · rw [Bool.xor_false]

/-- The linear part of a round. -/
def linA (A : StateArray) : StateArray := Spec.Fips202.pi (Spec.Fips202.rho (Spec.Fips202.theta A))

theorem linA_additive : Additive linA := pi_additive.comp (rho_additive.comp theta_additive)

theorem linA_bij : Function.Bijective linA :=
  Finite.injective_iff_bijective.mp (fun _ _ h => theta_inj (rho_inj (pi_inj h)))

/-- Its inverse. -/
noncomputable def linInv : StateArray → StateArray := Function.surjInv linA_bij.2

theorem linA_linInv (A : StateArray) : linA (linInv A) = A := Function.surjInv_eq _ _

theorem linInv_linA (A : StateArray) : linInv (linA A) = A := linA_bij.1 (linA_linInv _)

theorem linInv_additive : Additive linInv := fun A B => linA_bij.1 (by rw [linA_additive, linA_linInv, linA_linInv, linA_linInv])

theorem rnd_eq (A : StateArray) (i : Nat) : Spec.Fips202.Rnd A i = addA (Spec.Fips202.chi (linA A)) (iotaA i) := iota_eq i _

/-- The inverse of a round. -/
noncomputable def rndInv (i : Nat) (A : StateArray) : StateArray := linInv (chiInv (addA A (iotaA i)))

theorem rndInv_rnd (A : StateArray) (i : Nat) : rndInv i (Spec.Fips202.Rnd A i) = A := by
  rw [rndInv, rnd_eq, addA_assoc, addA_self, addA_zero, chiInv_chi, linInv_linA]

theorem deg_rnd {d i : Nat} {F : StateArray → StateArray} (h : Deg d F) : Deg (2 * d) (fun A => Spec.Fips202.Rnd (F A) i) := by
  simp only [rnd_eq]
  exact (deg_chi (linA_additive.deg h)).add (deg_const _ _)

theorem deg_rndInv {d i : Nat} {F : StateArray → StateArray} (h : Deg d F) : Deg (3 * d) (fun A => rndInv i (F A)) := by
  simp only [rndInv]
  exact linInv_additive.deg (deg_chiInv (h.add (deg_const _ _)))

/-- `n` rounds from round `i` on. -/
def someA (i : Nat) : Nat → StateArray → StateArray
  | 0, A => A
  | n + 1, A => Spec.Fips202.Rnd (someA i n A) (i + n)

/-- `n` rounds undone. -/
noncomputable def someInv (i : Nat) : Nat → StateArray → StateArray
  | 0, A => A
  | n + 1, A => someInv i n (rndInv (i + n) A)

theorem someInv_someA (i n : Nat) (A : StateArray) : someInv i n (someA i n A) = A := by
  induction n with
  | zero => rfl
  | succ n ih => rw [someA, someInv, rndInv_rnd, ih]

theorem deg_someA (i n : Nat) : Deg (2 ^ n) (someA i n) := by
  induction n with
  | zero => exact deg_id
  | succ n ih => rw [Nat.pow_succ, Nat.mul_comm]; exact deg_rnd ih

theorem deg_someInv (i n : Nat) : Deg (3 ^ n) (someInv i n) := by
  have key : ∀ n d F, Deg d F → Deg (3 ^ n * d) (fun A => someInv i n (F A)) := by
    intro n
    induction n with
    | zero => intro d F h; rw [Nat.pow_zero, Nat.one_mul]; exact h
    | succ n ih =>
      intro d F h
      rw [Nat.pow_succ, Nat.mul_assoc]
      exact ih (3 * d) (fun A => rndInv (i + n) (F A)) (deg_rndInv h)
  have := key n 1 _ deg_id
  rwa [Nat.mul_one] at this

/-! ## Sums -/

/-- The sum of `F` over an affine space. -/
def sumA (F : StateArray → StateArray) (A : StateArray) : List StateArray → StateArray
  | [] => F A
  | v :: vs => addA (sumA F A vs) (sumA F (addA A v) vs)

theorem sumA_der (F : StateArray → StateArray) (A v : StateArray) (vs : List StateArray) :
    sumA F A (v :: vs) = sumA (der v F) A vs := by
  rw [sumA]
  induction vs generalizing A with
  | nil => rfl
  | cons u us ih =>
    rw [sumA, sumA, sumA, ← ih, ← ih, addA_assoc A v u, addA_comm v u, ← addA_assoc A u v]
    generalize sumA F A us = a, sumA F (addA A u) us = b, sumA F (addA A v) us = c, sumA F (addA (addA A u) v) us = d
    funext x y z
    simp only [addA]
    generalize a x y z = a, b x y z = b, c x y z = c, d x y z = d
    revert a b c d; decide

theorem sumA_zero {d : Nat} {F : StateArray → StateArray} (h : Deg d F) (A : StateArray) {vs : List StateArray}
    (hl : d < vs.length) : sumA F A vs = zeroA := by
  induction vs generalizing d F with
  | nil => simp at hl
  | cons v vs ih =>
    rw [sumA_der]
    cases d with
    | zero =>
      have e : der v F = fun _ => zeroA := funext fun A => h v A
      rw [e]
      clear ih hl e
      induction vs generalizing A with
      | nil => rfl
      | cons u us ih => rw [sumA, ih, ih, addA_zero]
    | succ d => exact ih (h v) (by simpa using hl)

/-! ## Lanes -/

theorem length_xorLanes {s t : List U64} (hs : s.length = 25) (ht : t.length = 25) : (Spec.Fips202.xorLanes s t).length = 25 := by
  rw [Spec.Fips202.xorLanes, List.length_zipWith, hs, ht]; rfl

theorem arr_xorLanes {s t : List U64} (hs : s.length = 25) (ht : t.length = 25) :
    arr (Spec.Fips202.xorLanes s t) = addA (arr s) (arr t) := by
  funext x y z
  have hx := x.isLt
  have hy := y.isLt
  simp only [arr, addA, Spec.Fips202.xorLanes, List.getD_eq_getElem?_getD]
  rw [List.getElem?_eq_getElem (by rw [List.length_zipWith]; omega), List.getElem?_eq_getElem (by omega),
    List.getElem?_eq_getElem (by omega), List.getElem_zipWith]
  exact BitVec.getLsbD_xor ..

theorem arr_zero : arr (List.replicate 25 0) = zeroA := by
  funext x y z
  have hx := x.isLt
  have hy := y.isLt
  simp only [arr, List.getD_eq_getElem?_getD]
  rw [List.getElem?_replicate_of_lt (by omega)]
  simp [zeroA]

theorem forall2_split {α β : Type} {R : α → β → Prop} {l l' : List α} {o : List β} (h : List.Forall₂ R (l ++ l') o) :
    ∃ p q, o = p ++ q ∧ List.Forall₂ R l p ∧ List.Forall₂ R l' q := by
  induction l generalizing o with
  | nil => exact ⟨[], o, rfl, .nil, h⟩
  | cons a l ih =>
    cases h with
    | cons h1 h2 =>
      obtain ⟨p, q, rfl, hp, hq⟩ := ih h2
      exact ⟨_ :: p, q, rfl, .cons h1 hp, hq⟩

theorem total_append {p q : List (List U64)} (hp : ∀ t ∈ p, t.length = 25) (hq : ∀ t ∈ q, t.length = 25) :
    (Spec.Fips202.total p).length = 25 ∧
    arr (Spec.Fips202.total (p ++ q)) = addA (arr (Spec.Fips202.total p)) (arr (Spec.Fips202.total q)) := by
  have hl : ∀ l : List (List U64), (∀ t ∈ l, t.length = 25) → (Spec.Fips202.total l).length = 25 := by
    intro l
    induction l with
    | nil => intro _; rfl
    | cons a l ih => exact fun h => length_xorLanes (h a (by simp)) (ih (fun t ht => h t (by simp [ht])))
  refine ⟨hl p hp, ?_⟩
  induction p with
  | nil =>
    rw [List.nil_append, show Spec.Fips202.total [] = List.replicate 25 0 from rfl, arr_zero, addA_comm, addA_zero]
  | cons a p ih =>
    have hp' : ∀ t ∈ p, t.length = 25 := fun t ht => hp t (by simp [ht])
    rw [List.cons_append, show ∀ l, Spec.Fips202.total (a :: l) = Spec.Fips202.xorLanes a (Spec.Fips202.total l) from fun _ => rfl,
      show Spec.Fips202.total (a :: p) = Spec.Fips202.xorLanes a (Spec.Fips202.total p) from rfl,
      arr_xorLanes (hp a (by simp)) (hl p hp'), arr_xorLanes (hp a (by simp)) (hl _ (fun t ht => ?_)), ih hp', addA_assoc]
    rcases List.mem_append.mp ht with h | h
    · exact hp' t h
    · exact hq t h

theorem total_space {G : StateArray → StateArray} {s : List U64} (hs : s.length = 25) {vs : List (List U64)}
    (hv : ∀ v ∈ vs, v.length = 25) {o : List (List U64)}
    (h : List.Forall₂ (fun a b => a.length = 25 → b.length = 25 ∧ arr b = G (arr a)) (Spec.Fips202.space s vs) o) :
    (∀ t ∈ o, t.length = 25) ∧ arr (Spec.Fips202.total o) = sumA G (arr s) (vs.map arr) := by
  induction vs generalizing s o with
  | nil =>
    cases h with
    | cons h1 h2 =>
      cases h2
      obtain ⟨e1, e2⟩ := h1 hs
      refine ⟨fun t ht => by simp at ht; rw [ht]; exact e1, ?_⟩
      rw [show Spec.Fips202.total [_] = Spec.Fips202.xorLanes _ (List.replicate 25 0) from rfl, arr_xorLanes e1 rfl, arr_zero,
        addA_zero, e2]
      rfl
  | cons v vs ih =>
    obtain ⟨p, q, rfl, hp, hq⟩ := forall2_split h
    have hv0 := hv v (by simp)
    have hv' : ∀ v ∈ vs, v.length = 25 := fun u hu => hv u (by simp [hu])
    obtain ⟨p1, p2⟩ := ih hs hv' hp
    obtain ⟨q1, q2⟩ := ih (length_xorLanes hs hv0) hv' hq
    refine ⟨fun t ht => (List.mem_append.mp ht).elim (p1 t) (q1 t), ?_⟩
    rw [(total_append p1 q1).2, p2, q2, arr_xorLanes hs hv0]
    rfl

theorem some_refines {i n : Nat} (h : i + n ≤ 24) : Refines (fun s => loop n (fun j => roundStep (i + j)) s) (someA i n) := by
  intro s hs
  obtain ⟨t, h1, h2, h3⟩ := loop_inv (n := n) (body := fun j => roundStep (i + j)) (s := s)
    (fun j t => t.length = 25 ∧ arr t = someA i j (arr s)) ⟨hs, rfl⟩
    (fun j hj t ⟨h2, h3⟩ => by
      obtain ⟨u, h4, h5, h6⟩ := round_refines (i := i + j) (by omega) t h2
      exact ⟨u, h4, h5, by rw [h6, h3]; rfl⟩)
  exact ⟨t, h1, h2, h3⟩

theorem some_zero {i n : Nat} (h : i + n ≤ 24) {s : List U64} (hs : s.length = 25) {vs : List (List U64)}
    (hv : ∀ v ∈ vs, v.length = 25) (hl : 2 ^ n < vs.length) {o : List (List U64)}
    (ho : List.Forall₂ (fun a b => loop n (fun j => roundStep (i + j)) a = .ok b) (Spec.Fips202.space s vs) o) :
    Spec.Fips202.total o = List.replicate 25 0 := by
  have h' : List.Forall₂ (fun a b => a.length = 25 → b.length = 25 ∧ arr b = someA i n (arr a)) (Spec.Fips202.space s vs) o := by
    refine ho.imp fun a b e ha => ?_
    obtain ⟨t, h1, h2, h3⟩ := some_refines h a ha
    simp only [e] at h1
    injection h1 with h1
    subst h1
    exact ⟨h2, h3⟩
  obtain ⟨p1, p2⟩ := total_space hs hv h'
  refine arr_inj (total_append p1 (q := []) (by simp)).1 rfl ?_
  rw [p2, arr_zero, sumA_zero (deg_someA i n) _ (by rw [List.length_map]; exact hl)]

theorem some_zero_inv {i n : Nat} (h : i + n ≤ 24) {s : List U64} (hs : s.length = 25) {vs : List (List U64)}
    (hv : ∀ v ∈ vs, v.length = 25) (hl : 3 ^ n < vs.length) {o : List (List U64)} (ho' : ∀ t ∈ o, t.length = 25)
    (ho : List.Forall₂ (fun a b => loop n (fun j => roundStep (i + j)) b = .ok a) (Spec.Fips202.space s vs) o) :
    Spec.Fips202.total o = List.replicate 25 0 := by
  have h' : List.Forall₂ (fun a b => a.length = 25 → b.length = 25 ∧ arr b = someInv i n (arr a)) (Spec.Fips202.space s vs) o := by
    have := List.forall₂_iff_zip.mp ho
    refine List.forall₂_iff_zip.mpr ⟨this.1, fun {a b} hab ha => ?_⟩
    have hb := ho' b (List.of_mem_zip hab).2
    obtain ⟨t, h1, h2, h3⟩ := some_refines h b hb
    have e := this.2 hab
    simp only [e] at h1
    injection h1 with h1
    subst h1
    exact ⟨hb, by rw [h3, someInv_someA]⟩
  obtain ⟨p1, p2⟩ := total_space hs hv h'
  refine arr_inj (total_append p1 (q := []) (by simp)).1 rfl ?_
  rw [p2, arr_zero, sumA_zero (deg_someInv i n) _ (by rw [List.length_map]; exact hl)]

/-! ## Sets of states whose sums before and after the rounds are zero -/

/-- The state with bit `p` set. -/
def unit (p : Nat) : List U64 := (List.range 25).map fun k => if k = p / 64 then 1#64 <<< (p % 64) else 0

/-- Bit `p` of a state. -/
def bitAt (s : List U64) (p : Nat) : Bool := (s.getD (p / 64) 0).getLsbD (p % 64)

theorem bitAt_unit {p q : Nat} (hp : p < 1600) (hq : q < 1600) : bitAt (unit p) q = decide (p = q) := by
  rw [bitAt, unit, map_range_getD _ _ (by omega)]
  have hm : q % 64 < 64 := Nat.mod_lt _ (by omega)
  by_cases h : q / 64 = p / 64
  · rw [if_pos h]
    simp only [BitVec.getLsbD_shiftLeft, BitVec.getLsbD_one]
    by_cases e : p = q
    · subst e; simp [hm]
    · have : ¬ q % 64 = p % 64 := by omega
      simp only [e, decide_false]
      by_cases l : q % 64 < p % 64
      · simp [l]
      · have : ¬ (q % 64 - p % 64 = 0) := by omega
        simp [this]
  · rw [if_neg h]
    have e : ¬ p = q := fun e => h (by rw [e])
    simp [e]

theorem length_unit (p : Nat) : (unit p).length = 25 := by simp [unit]

theorem bitAt_xor {s t : List U64} (hs : s.length = 25) (ht : t.length = 25) {p : Nat} (hp : p < 1600) :
    bitAt (Spec.Fips202.xorLanes s t) p = (bitAt s p ^^ bitAt t p) := by
  simp only [bitAt, Spec.Fips202.xorLanes, List.getD_eq_getElem?_getD]
  rw [List.getElem?_eq_getElem (by rw [List.length_zipWith]; omega), List.getElem?_eq_getElem (by omega),
    List.getElem?_eq_getElem (by omega), List.getElem_zipWith]
  exact BitVec.getLsbD_xor ..

theorem length_space_mem {s : List U64} (hs : s.length = 25) {vs : List (List U64)} (hv : ∀ v ∈ vs, v.length = 25) :
    ∀ t ∈ Spec.Fips202.space s vs, t.length = 25 := by
  induction vs generalizing s with
  | nil => intro t ht; simp [Spec.Fips202.space] at ht; rw [ht, hs]
  | cons v vs ih =>
    have hv' : ∀ v ∈ vs, v.length = 25 := fun u hu => hv u (by simp [hu])
    intro t ht
    rcases List.mem_append.mp ht with h | h
    · exact ih hs hv' t h
    · exact ih (length_xorLanes hs (hv v (by simp))) hv' t h

theorem length_space (s : List U64) (vs : List (List U64)) : (Spec.Fips202.space s vs).length = 2 ^ vs.length := by
  induction vs generalizing s with
  | nil => rfl
  | cons v vs ih => rw [Spec.Fips202.space, List.length_append, ih, ih, List.length_cons, Nat.pow_succ]; omega

theorem bitAt_space {s : List U64} (hs : s.length = 25) {ps : List Nat} (hps : ∀ p ∈ ps, p < 1600) {q : Nat} (hq : q < 1600)
    (hn : q ∉ ps) : ∀ t ∈ Spec.Fips202.space s (ps.map unit), bitAt t q = bitAt s q := by
  induction ps generalizing s with
  | nil => intro t ht; simp [Spec.Fips202.space] at ht; rw [ht]
  | cons p ps ih =>
    have hps' : ∀ p ∈ ps, p < 1600 := fun u hu => hps u (by simp [hu])
    have hn' : q ∉ ps := fun h => hn (by simp [h])
    have hpq : p ≠ q := fun h => hn (by simp [h])
    intro t ht
    rcases List.mem_append.mp ht with h | h
    · exact ih hs hps' hn' t h
    · rw [ih (length_xorLanes hs (length_unit p)) hps' hn' t h, bitAt_xor hs (length_unit p) hq,
        bitAt_unit (hps p (by simp)) hq, decide_eq_false hpq, Bool.xor_false]

theorem nodup_space {s : List U64} (hs : s.length = 25) {ps : List Nat} (hps : ∀ p ∈ ps, p < 1600) (hn : ps.Nodup) :
    (Spec.Fips202.space s (ps.map unit)).Nodup := by
  induction ps generalizing s with
  | nil => simp [Spec.Fips202.space]
  | cons p ps ih =>
    have hps' : ∀ p ∈ ps, p < 1600 := fun u hu => hps u (by simp [hu])
    obtain ⟨h1, h2⟩ := List.nodup_cons.mp hn
    have hp := hps p (by simp)
    have hx := length_xorLanes hs (length_unit p)
    refine List.nodup_append.mpr ⟨ih hs hps' h2, ih hx hps' h2, fun a ha b hb e => ?_⟩
    have e1 := bitAt_space hs hps' hp h1 a ha
    have e2 := bitAt_space hx hps' hp h1 b hb
    rw [← e, e1, bitAt_xor hs (length_unit p) hp, bitAt_unit hp hp] at e2
    revert e2
    cases bitAt s p <;> simp

theorem someA_inj (i n : Nat) : Function.Injective (someA i n) := fun A B h => by
  rw [← someInv_someA i n A, h, someInv_someA]

theorem forall2_choose {α β : Type} {R : α → β → Prop} {l : List α} (h : ∀ a ∈ l, ∃ b, R a b) : ∃ o, List.Forall₂ R l o := by
  induction l with
  | nil => exact ⟨[], .nil⟩
  | cons a l ih =>
    obtain ⟨b, hb⟩ := h a (by simp)
    obtain ⟨o, ho⟩ := ih (fun x hx => h x (by simp [hx]))
    exact ⟨b :: o, .cons hb ho⟩

theorem forall2_nodup {α β : Type} {R : α → β → Prop} (hR : ∀ a a' b, R a b → R a' b → a = a') {l : List α} {o : List β}
    (h : List.Forall₂ R l o) (hl : l.Nodup) : o.Nodup := by
  induction h with
  | nil => exact List.nodup_nil
  | cons h1 h2 ih =>
    obtain ⟨n1, n2⟩ := List.nodup_cons.mp hl
    refine List.nodup_cons.mpr ⟨fun hm => n1 ?_, ih n2⟩
    rename_i a b l o
    clear ih hl n1 n2
    induction h2 with
    | nil => simp at hm
    | cons g1 g2 ih =>
      rcases List.mem_cons.mp hm with e | e
      · subst e; rw [hR _ _ _ h1 g1]; simp
      · exact List.mem_cons_of_mem _ (ih e)

theorem forall2_trans {α β γ : Type} {R : α → β → Prop} {S : α → γ → Prop} {T : β → γ → Prop}
    (hT : ∀ a b c, R a b → S a c → T b c) {l : List α} {o : List β} {q : List γ} (h : List.Forall₂ R l o)
    (h' : List.Forall₂ S l q) : List.Forall₂ T o q := by
  induction h generalizing q with
  | nil => cases h'; exact .nil
  | cons h1 h2 ih =>
    cases h' with
    | cons g1 g2 => exact .cons (hT _ _ _ h1 g1) (ih g2)

theorem zero_sums {i a b k : Nat} (h : i + (b + a) ≤ 24) (ha : 2 ^ a < k) (hb : 3 ^ b < k) (hk : k ≤ 1600) {s : List U64}
    (hs : s.length = 25) : ∃ ins outs : List (List U64), ins.length = 2 ^ k ∧ ins.Nodup ∧
      List.Forall₂ (fun t u => t.length = 25 ∧ loop (b + a) (fun j => roundStep (i + j)) t = .ok u) ins outs ∧
      Spec.Fips202.total ins = List.replicate 25 0 ∧ Spec.Fips202.total outs = List.replicate 25 0 := by
  have hps : ∀ p ∈ List.range k, p < 1600 := fun p hp => by rw [List.mem_range] at hp; omega
  have hv : ∀ v ∈ (List.range k).map unit, v.length = 25 := fun v hv => by
    obtain ⟨p, -, rfl⟩ := List.mem_map.mp hv
    exact length_unit p
  have hmem := length_space_mem hs hv
  have hperm := Refines.permutes (some_refines (show i + b ≤ 24 by omega)) (someA_inj i b)
  obtain ⟨ins, hins⟩ := forall2_choose (l := Spec.Fips202.space s ((List.range k).map unit))
    (R := fun m t => t.length = 25 ∧ m.length = 25 ∧ loop b (fun j => roundStep (i + j)) t = .ok m) (fun m hm => by
      obtain ⟨t, h1, h2, -⟩ := hperm.2 m (hmem m hm)
      exact ⟨t, h1, hmem m hm, h2⟩)
  obtain ⟨outs, houts⟩ := forall2_choose (l := Spec.Fips202.space s ((List.range k).map unit))
    (R := fun m u => loop a (fun j => roundStep (i + b + j)) m = .ok u) (fun m hm => by
      obtain ⟨u, h1, -, -⟩ := some_refines (show i + b + a ≤ 24 by omega) m (hmem m hm)
      exact ⟨u, h1⟩)
  refine ⟨ins, outs, ?_, ?_, ?_, ?_, ?_⟩
  · rw [← hins.length_eq, length_space, List.length_map, List.length_range]
  · refine forall2_nodup (fun m m' t h1 h2 => ?_) hins (nodup_space hs hps (List.nodup_range))
    have := h1.2.2.symm.trans h2.2.2
    injection this
  · refine forall2_trans (fun m t u h1 h2 => ⟨h1.1, ?_⟩) hins houts
    rw [loop_add, h1.2.2, bind_ok, ← h2]
    congr 1
    funext j
    rw [Nat.add_assoc]
  · refine some_zero_inv (show i + b ≤ 24 by omega) hs hv (by rw [List.length_map, List.length_range]; exact hb) ?_
      (hins.imp fun _ _ h => h.2.2)
    intro t ht
    obtain ⟨m, -, hm⟩ : ∃ m ∈ Spec.Fips202.space s ((List.range k).map unit), t.length = 25 := by
      have := List.forall₂_iff_zip.mp hins
      obtain ⟨n, hn, rfl⟩ := List.getElem_of_mem ht
      have hz : ((Spec.Fips202.space s ((List.range k).map unit))[n]'(by rw [this.1]; exact hn), ins[n]) ∈
          (Spec.Fips202.space s ((List.range k).map unit)).zip ins := by
        rw [← List.getElem_zip (h := by rw [List.length_zip, this.1]; omega)]
        exact List.getElem_mem _
      exact ⟨_, (List.of_mem_zip hz).1, (this.2 hz).1⟩
    exact hm
  · exact some_zero (show i + b + a ≤ 24 by omega) hs hv (by rw [List.length_map, List.length_range]; exact ha) houts

end Hacspec.Fips202
