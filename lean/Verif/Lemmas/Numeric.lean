import Verif.Model.Numeric
import Mathlib.Algebra.Polynomial.Basic
import Mathlib.Tactic.Ring

/-! # Lemmas about the functions that are generic over `Numeric` -/

namespace Hacspec.Numeric

open SecretInt MachineInt AbstractInt

/-! ## Machine integers -/

section machine
variable {w : Nat} (N : Poly.NumOps w)

theorem machine_equal (a b : BitVec w) : (machine N).equal a b = .ok (a == b) := rfl

theorem machine_pad (v : List (BitVec w)) (l : Nat) : pad (machine N) v l = Poly.pad v l := rfl

theorem machine_normalize (x y : List (BitVec w)) : normalize (machine N) x y = Poly.normalize x y := rfl

theorem machine_overwrite (x y : List (BitVec w)) : overwrite x y = Poly.overwrite x y := by
  induction x generalizing y with
  | nil => cases y <;> rfl
  | cons a as ih =>
    cases y with
    | nil => rfl
    | cons b bs => rw [overwrite, Poly.overwrite, ih]

theorem machine_makeFixedLength (v : List (BitVec w)) (t : Nat) :
    makeFixedLength (machine N) v t = Poly.makeFixedLength v t := machine_overwrite _ _

theorem machine_leadLoop (i : Nat) (x : List (BitVec w)) (s : Nat × BitVec w) :
    leadLoop (machine N) i x s = .ok (Poly.leadLoop i x s) := by
  induction x generalizing i s with
  | nil => rfl
  | cons c cs ih =>
    rw [leadLoop, Poly.leadLoop, machine_equal, bind_ok, ih]
    by_cases h : c = 0#w
    · simp [h, machine]
    · simp [h, machine]

theorem machine_leadingCoefficient (x : List (BitVec w)) :
    leadingCoefficient (machine N) x = .ok (Poly.leadingCoefficient x) := machine_leadLoop N 0 x _

theorem machine_zipM (op : BitVec w → BitVec w → M (BitVec w)) (x y : List (BitVec w)) :
    zipM op x y = Poly.zipM op x y := by
  induction x generalizing y with
  | nil => cases y <;> rfl
  | cons b bs ih =>
    cases y with
    | nil => rfl
    | cons c cs => rw [zipM, Poly.zipM, ih]

theorem machine_if {β : Type} (a : BitVec w) (t e : M β) :
    ((machine N).equal a (machine N).zero >>= fun b => if b = true then t else e) = if a = 0#w then t else e := by
  rw [machine_equal, bind_ok]
  by_cases h : a = 0#w
  · simp [h, machine]
  · simp [h, machine]

theorem machine_polySub (x y : List (BitVec w)) (n : BitVec w) : polySub (machine N) x y n = Poly.polySub N x y n := by
  simp only [polySub, Poly.polySub, machine_if, machine_zipM, machine_normalize]
  rfl

theorem machine_polyAdd (x y : List (BitVec w)) (n : BitVec w) : polyAdd (machine N) x y n = Poly.polyAdd N x y n := by
  simp only [polyAdd, Poly.polyAdd, machine_if, machine_zipM, machine_normalize]
  rfl

theorem machine_forNonzero {σ : Type} (i : Nat) (x : List (BitVec w)) (f : Nat × BitVec w → σ → M σ) (s : σ) :
    forNonzero (machine N) i x f s = Poly.forEach (Poly.nonzeros i x) f s := by
  induction x generalizing i s with
  | nil => rfl
  | cons c cs ih =>
    rw [forNonzero, Poly.nonzeros, machine_equal, bind_ok]
    by_cases h : c = 0#w
    · have := ih (i + 1) s
      simp only [machine] at this
      simp [h, machine, this]
    · simp only [machine, h, beq_iff_eq, if_false, ne_eq, not_false_eq_true, if_true, Poly.forEach]
      congr 1
      funext t
      exact ih (i + 1) t

theorem machine_polyMul (x y : List (BitVec w)) (n : BitVec w) : polyMul (machine N) x y n = Poly.polyMul N x y n := by
  simp only [polyMul, Poly.polyMul, machine_forNonzero]
  rfl

theorem machine_divDigit (n c r : BitVec w) : divDigit (machine N) n c r = Poly.divDigit N n c r := by
  rw [divDigit, machine_if]; rfl

theorem machine_divStep (n c : BitVec w) (y : List (BitVec w)) (dist rlen i : Nat) (s : List (BitVec w) × List (BitVec w)) :
    divStep (machine N) n c y dist rlen i s = Poly.divStep N n c y dist rlen i s := by
  have e : ∀ r t : BitVec w, (((machine N).equal t (machine N).zero >>= fun e => if e = true then
        (machine N).equal r (machine N).zero >>= fun e' => require (e' = true) else .ok ()) : M Unit) =
      require (¬ (t = 0#w ∧ r ≠ 0#w)) := by
    intro r t
    rw [machine_if, machine_equal, bind_ok]
    by_cases h : t = 0#w <;> by_cases h' : r = 0#w <;> simp [h, h', machine]
  simp only [divStep, Poly.divStep, machine_divDigit, machine_polyMul, machine_polyAdd, machine_polySub]
  congr 1; funext r
  congr 1; funext t
  rw [← e, bind_assoc]
  congr 1; funext b
  by_cases hb : b = true
  · simp [hb, machine, Poly.monomial, monomial]
  · simp [hb, machine, Poly.monomial, monomial]

theorem machine_polyDiv (x y : List (BitVec w)) (n : BitVec w) : polyDiv (machine N) x y n = Poly.polyDiv N x y n := by
  simp only [polyDiv, Poly.polyDiv, machine_normalize, machine_leadingCoefficient, bind_ok, machine_divStep,
    machine_makeFixedLength]
  rfl

end machine

/-! ## Implementations without `equal` -/

/-- `equal` is `unimplemented!()`. -/
def NoEqual {α : Type} (N : Num α) : Prop := ∀ a b, N.equal a b = panic

section noEqual
variable {α : Type} {N : Num α}

theorem leadLoop_noEqual (h : NoEqual N) {i : Nat} {x : List α} (hx : x ≠ []) (s : Nat × α) :
    leadLoop N i x s = panic := by
  cases x with
  | nil => exact absurd rfl hx
  | cons c cs => rw [leadLoop, h, bind_panic]

theorem length_pad (v : List α) (l : Nat) : (pad N v l).length = max v.length l := by
  simp [pad]; omega

theorem normalize_length (x y : List α) : (normalize N x y).1.length = max x.length y.length ∧
    (normalize N x y).2.length = max x.length y.length := by
  simp [normalize, length_pad]

theorem zipM_panic {op : α → α → M α} (h : ∀ a b, op a b = panic) {x y : List α} (hx : x ≠ []) (hy : y ≠ []) :
    zipM op x y = panic := by
  cases x with
  | nil => exact absurd rfl hx
  | cons b bs =>
    cases y with
    | nil => exact absurd rfl hy
    | cons c cs => rw [zipM, h, bind_panic]

theorem ne_nil_of_length {l : List α} (h : 0 < l.length) : l ≠ [] := List.ne_nil_of_length_pos h

theorem pos_of_or {x y : List α} (h : x ≠ [] ∨ y ≠ []) : 0 < max x.length y.length := by
  rcases h with h | h <;> have := List.length_pos_iff.2 h <;> omega

theorem polyAdd_noEqual (h : NoEqual N) {x y : List α} (n : α) (hxy : x ≠ [] ∨ y ≠ []) : polyAdd N x y n = panic := by
  have hp := pos_of_or hxy
  have hl := normalize_length (N := N) x y
  simp only [polyAdd]
  rw [require_true (by rw [hl.1, hl.2]), bind_ok]
  exact zipM_panic (fun a b => by rw [h, bind_panic]) (ne_nil_of_length (by omega)) (ne_nil_of_length (by omega))

theorem polySub_noEqual (h : NoEqual N) {x y : List α} (n : α) (hxy : x ≠ [] ∨ y ≠ []) : polySub N x y n = panic := by
  have hp := pos_of_or hxy
  have hl := normalize_length (N := N) x y
  simp only [polySub]
  rw [require_true (by rw [hl.1, hl.2]), bind_ok]
  exact zipM_panic (fun a b => by rw [h, bind_panic]) (ne_nil_of_length (by omega)) (ne_nil_of_length (by omega))

theorem polyMul_noEqual (h : NoEqual N) {x : List α} (y : List α) (n : α) (hx : x ≠ []) : polyMul N x y n = panic := by
  cases x with
  | nil => exact absurd rfl hx
  | cons c cs => rw [polyMul, forNonzero, h, bind_panic]

theorem polyDiv_noEqual (h : NoEqual N) {x y : List α} (n : α) (hxy : x ≠ [] ∨ y ≠ []) : polyDiv N x y n = panic := by
  have hp := pos_of_or hxy
  have hl := normalize_length (N := N) x y
  simp only [polyDiv, leadingCoefficient]
  rw [leadLoop_noEqual h (ne_nil_of_length (by omega)), bind_panic]

theorem loop_panic {σ : Type} {n : Nat} {b : Nat → σ → M σ} {s : σ} (hn : 0 < n) (h : b 0 s = panic) :
    loop n b s = panic := by
  induction n with
  | zero => omega
  | succ n ih =>
    rw [loop_succ]
    rcases Nat.eq_zero_or_pos n with h0 | h0
    · subst h0; rw [loop_zero, bind_ok, h]
    · rw [ih h0, bind_panic]

theorem vecPoly_noEqual (h : NoEqual N) (f : α → α → α → M α) (g : α → α → M α) {x y : List α} (n : α) (hx : x ≠ []) :
    vecPoly N f g x y n = panic := by
  rw [vecPoly]
  by_cases hl : x.length = y.length
  · rw [require_true hl, bind_ok]
    exact loop_panic (List.length_pos_iff.2 hx) (by rw [h, bind_panic])
  · rw [require_false hl, bind_panic]

theorem opScanning_noMod (h : ∀ a b n, N.mulMod a b n = panic) {x y : List α} (n : α) (hx : x ≠ []) (hy : y ≠ []) :
    polyMulOpScanning N x y n = panic := by
  have h1 := List.length_pos_iff.2 hx
  have h2 := List.length_pos_iff.2 hy
  rw [polyMulOpScanning]
  refine loop_panic h1 (loop_panic h2 ?_)
  rw [idx_ok (by simp; omega), bind_ok, idx_ok h1, bind_ok, idx_ok h2, bind_ok, h, bind_panic]

end noEqual

/-! ## The plain product -/

open Polynomial

/-- The polynomial with the given coefficients. -/
noncomputable def gp {R : Type} [CommRing R] : List R → R[X]
  | [] => 0
  | c :: cs => C c + X * gp cs

section plain
variable {R : Type} [CommRing R]

theorem gp_replicate (n : Nat) : gp (List.replicate n (0 : R)) = 0 := by
  induction n with
  | zero => rfl
  | succ n ih => rw [List.replicate_succ, gp, ih]; simp

theorem gp_set (l : List R) (k : Nat) (hk : k < l.length) (d : R) : gp (l.set k (l[k] + d)) = gp l + C d * X ^ k := by
  induction l generalizing k with
  | nil => simp at hk
  | cons c cs ih =>
    cases k with
    | zero => simp [gp]; ring
    | succ k =>
      have := ih k (by simpa using hk)
      simp only [List.set_cons_succ, List.getElem_cons_succ, gp, this]
      ring

theorem gp_take_succ (l : List R) (k : Nat) (hk : k < l.length) : gp (l.take (k + 1)) = gp (l.take k) + C l[k] * X ^ k := by
  induction l generalizing k with
  | nil => simp at hk
  | cons c cs ih =>
    cases k with
    | zero => simp [gp]
    | succ k =>
      have := ih k (by simpa using hk)
      simp only [List.take_succ_cons, List.getElem_cons_succ, gp, this]
      ring

theorem mem_of_idx {α : Type} {P : α → Prop} {l : List α} (h : ∀ a ∈ l, P a) {i : Nat} (hi : i < l.length) : P l[i] :=
  h _ (List.getElem_mem hi)

/-- The plain product computes in any ring in which `add` and `mul` do. -/
theorem polyMulPlain_gp {α : Type} {N : Num α} (P Q : α → Prop) (v : α → R) (hz : P N.zero) (h0 : v N.zero = 0)
    (hadd : ∀ a b, P a → P b → ∃ c, N.add a b = .ok c ∧ P c ∧ v c = v a + v b)
    (hmul : ∀ a b, Q a → Q b → ∃ c, N.mul a b = .ok c ∧ P c ∧ v c = v a * v b) (x y : List α)
    (hx : ∀ a ∈ x, Q a) (hy : ∀ a ∈ y, Q a) :
    ∃ out, polyMulPlain N x y = .ok out ∧ (out.length = x.length + y.length ∧ ∀ a ∈ out, P a) ∧
      gp (out.map v) = gp (x.map v) * gp (y.map v) := by
  unfold polyMulPlain
  obtain ⟨out, h1, h2, h3⟩ := loop_inv (fun i out => (out.length = x.length + y.length ∧ ∀ a ∈ out, P a) ∧
      gp (out.map v) = gp ((x.map v).take i) * gp (y.map v))
    (n := x.length) (body := fun i out => loop y.length (fun j out => do
      let o ← idx out (i + j)
      let xi ← idx x i
      let yj ← idx y j
      let p ← N.mul xi yj
      let s ← N.add o p
      setIdx out (i + j) s) out) (s := List.replicate (x.length + y.length) N.zero)
    ⟨⟨by simp, fun a ha => (List.eq_of_mem_replicate ha).symm ▸ hz⟩,
      by rw [List.map_replicate, h0, gp_replicate]; simp [gp]⟩
    (fun i hi t ht => by
      obtain ⟨out, h1, h2, h3⟩ := loop_inv (fun j out => (out.length = x.length + y.length ∧ ∀ a ∈ out, P a) ∧
          gp (out.map v) = gp ((x.map v).take i) * gp (y.map v) + C (v x[i]) * X ^ i * gp ((y.map v).take j))
        (n := y.length) (body := fun j out => do
          let o ← idx out (i + j)
          let xi ← idx x i
          let yj ← idx y j
          let p ← N.mul xi yj
          let s ← N.add o p
          setIdx out (i + j) s) (s := t)
        ⟨ht.1, by rw [ht.2]; simp [gp]⟩
        (fun j hj t ht => by
          have hij : i + j < t.length := by rw [ht.1.1]; omega
          obtain ⟨p, hp, hpP, hpv⟩ := hmul x[i] y[j] (mem_of_idx hx hi) (mem_of_idx hy hj)
          obtain ⟨s, hs, hsP, hsv⟩ := hadd t[i + j] p (mem_of_idx ht.1.2 hij) hpP
          refine ⟨t.set (i + j) s, ?_, ⟨by simpa using ht.1.1, fun a ha => ?_⟩, ?_⟩
          · rw [idx_ok hij, bind_ok, idx_ok hi, bind_ok, idx_ok hj, bind_ok, hp, bind_ok, hs, bind_ok, setIdx_ok hij]
          · rcases List.mem_or_eq_of_mem_set ha with h | h
            · exact ht.1.2 a h
            · exact h ▸ hsP
          · have e : (t.set (i + j) s).map v = (t.map v).set (i + j) ((t.map v)[i + j]'(by simpa using hij) + v x[i] * v y[j]) := by
              rw [List.map_set, hsv, hpv, List.getElem_map]
            rw [e, gp_set _ _ (by simpa using hij), ht.2, gp_take_succ (y.map v) j (by simpa using hj), List.getElem_map,
              C_mul, pow_add]
            ring)
      refine ⟨out, h1, h2, ?_⟩
      rw [← List.length_map (f := v) (as := y), List.take_length] at h3
      rw [h3, gp_take_succ (x.map v) i (by simpa using hi), List.getElem_map]
      ring)
  refine ⟨out, h1, h2, ?_⟩
  rw [← List.length_map (f := v) (as := x), List.take_length] at h3
  exact h3

end plain

end Hacspec.Numeric
