import Verif.Lemmas.Leak.Euclid
import Verif.Lemmas.Leak.Poly
import Verif.Props.Ints

/-! # C91, C92: what the library functions on machine integers and polynomials reveal, and how long they run -/

namespace Hacspec.Props

open SecretInt Leak Hacspec.MachineInt

variable {w : Nat}

/-! ## Forgetting the events gives the model of the other properties -/

theorem C91_same_functions (O : IntOps w) (x y n : BitVec w) (e : Nat) (a b : Int) :
    (Leak.MachineInt.ctDiv O x y).res = ctDiv O x y ∧
    (Leak.MachineInt.secPow x e).res = secPow x e ∧
    (Leak.MachineInt.subModU x y n).res = subModU x y n ∧
    (Leak.MachineInt.signedMod a b).res = signedMod a b ∧
    (Leak.MachineInt.euclidInvert O x n).res = euclidInvert O x n :=
  ⟨Leak.MachineInt.res_ctDiv O x y, Leak.MachineInt.res_secPow x e, Leak.MachineInt.res_subModU x y n,
    Leak.MachineInt.res_signedMod a b, Leak.MachineInt.res_euclidInvert O x n⟩

theorem C91_same_functions_poly (x y : List (BitVec w)) (n : BitVec w) :
    (Leak.Poly.leadingCoefficient x).res = .ok (Hacspec.Poly.leadingCoefficient x) ∧
    (Leak.Poly.polyAdd x y n).res = Hacspec.Poly.polyAdd Hacspec.Poly.numSecU x y n ∧
    (Leak.Poly.polyMulPlain x y).res = Hacspec.Poly.polyMulPlain Hacspec.Poly.numSecU x y ∧
    (Leak.Poly.polyMulOpScanning x y n).res = Hacspec.Poly.polyMulOpScanning Hacspec.Poly.numSecU x y n ∧
    (Leak.Poly.polyMul x y n).res = Hacspec.Poly.polyMul Hacspec.Poly.numSecU x y n :=
  ⟨Leak.Poly.res_leadingCoefficient x, Leak.Poly.res_polyAdd x y n, Leak.Poly.res_polyMulPlain x y,
    Leak.Poly.res_polyMulOpScanning x y n, Leak.Poly.res_polyMul x y n⟩

/-! ## C91: functions that hide their operands -/

/-- **C91.**  `ct_div` on unsigned integers, public or secret: the events are the same for all operands, also for the
divisor 0. -/
theorem C91_ct_div (hw1 : 1 < w) (hw : w ≤ 128) (O : IntOps w) (hO : O = pubU ∨ O = secU) (a d a' d' : BitVec w) :
    (Leak.MachineInt.ctDiv O a d).trace = (Leak.MachineInt.ctDiv O a' d').trace := by
  rw [Leak.MachineInt.trace_ctDiv hw1 hw hO, Leak.MachineInt.trace_ctDiv hw1 hw hO]

/-- The events: one loop over the bits, and the two tests of `set_bit` in every iteration. -/
example : (Leak.MachineInt.ctDiv (secU : IntOps 64) 100#64 7#64).trace = .times 64 :: List.replicate 128 (.branch true) :=
  Leak.MachineInt.trace_ctDiv (by decide) (by decide) (Or.inr rfl) _ _

/-- **C91.**  `poly_add` and the plain product on secret coefficients, without modulus: the events depend on the lengths
only. -/
theorem C91_poly_plain (x y x' y' : List (BitVec w)) (hx : x.length = x'.length) (hy : y.length = y'.length) :
    (Leak.Poly.polyAdd x y 0#w).trace = (Leak.Poly.polyAdd x' y' 0#w).trace ∧
    (Leak.Poly.polyMulPlain x y).trace = (Leak.Poly.polyMulPlain x' y').trace := by
  obtain ⟨z, hz⟩ := Leak.Poly.polyAdd_zero_ok x y
  obtain ⟨z', hz'⟩ := Leak.Poly.polyAdd_zero_ok x' y'
  exact ⟨(Leak.Poly.sameOk_polyAdd x y x' y' 0#w hx hy z z' hz hz').1, (Leak.Poly.same_polyMulPlain x y x' y' hx hy).1⟩

/-- **C91**, with a modulus: calls that do not panic.  (They panic if a sum or product leaves the type; the panic is
visible.) -/
theorem C91_poly_modulus (x y x' y' : List (BitVec w)) (n : BitVec w) (hx : x.length = x'.length)
    (hy : y.length = y'.length) :
    (∀ z z', Hacspec.Poly.polyAdd Hacspec.Poly.numSecU x y n = .ok z → Hacspec.Poly.polyAdd Hacspec.Poly.numSecU x' y' n = .ok z' →
      (Leak.Poly.polyAdd x y n).trace = (Leak.Poly.polyAdd x' y' n).trace) ∧
    (∀ z z', Hacspec.Poly.polyMulOpScanning Hacspec.Poly.numSecU x y n = .ok z → Hacspec.Poly.polyMulOpScanning Hacspec.Poly.numSecU x' y' n = .ok z' →
      (Leak.Poly.polyMulOpScanning x y n).trace = (Leak.Poly.polyMulOpScanning x' y' n).trace) :=
  ⟨fun z z' h h' => (Leak.Poly.sameOk_polyAdd x y x' y' n hx hy z z' ((Leak.Poly.res_polyAdd x y n).trans h)
      ((Leak.Poly.res_polyAdd x' y' n).trans h')).1,
    fun z z' h h' => (Leak.Poly.sameOk_polyMulOpScanning x y x' y' n hx hy z z'
      ((Leak.Poly.res_polyMulOpScanning x y n).trans h) ((Leak.Poly.res_polyMulOpScanning x' y' n).trans h')).1⟩

example : (Leak.Poly.polyMulOpScanning [1#32, 0#32] [2#32, 5#32] 7#32).trace =
    (Leak.Poly.polyMulOpScanning [3#32, 4#32] [0#32, 0#32] 7#32).trace :=
  (C91_poly_modulus [1#32, 0#32] [2#32, 5#32] [3#32, 4#32] [0#32, 0#32] 7#32 rfl rfl).2 [2#32, 5#32, 0#32, 0#32]
    [0#32, 0#32, 0#32, 0#32] (by decide +kernel) (by decide +kernel)

/-- A panic is visible: with a modulus, coefficients whose sum leaves the type stop the addition at the first of them. -/
example : (Leak.Poly.polyAdd [255#8, 1#8] [1#8, 1#8] 7#8).trace ≠ (Leak.Poly.polyAdd [1#8, 1#8] [1#8, 1#8] 7#8).trace := by
  decide +kernel

/-! ## C91: functions that do not -/

/-- **C91, refuted** for `sub_mod`: with the modulus 1 the events of `0 - y` show `y`. -/
theorem C91_sub_mod_refuted (hw : 0 < w) (y y' : BitVec w) :
    (Leak.MachineInt.subModU 0#w y 1#w).trace = (Leak.MachineInt.subModU 0#w y' 1#w).trace ↔ y = y' := by
  have h1 : (1#w).toNat = 1 := by rw [BitVec.toNat_ofNat]; exact Nat.mod_eq_of_lt (Nat.one_lt_two_pow (by omega))
  have h10 : (1#w : BitVec w) ≠ 0#w := by intro h; rw [h] at h1; simp at h1
  have key : ∀ y : BitVec w, (Leak.MachineInt.subModU 0#w y 1#w).trace =
      List.replicate y.toNat (.branch true) ++ [.branch false] := by
    intro y
    rw [Leak.MachineInt.trace_subModU 0#w y 1#w h10, h1]
    simp [cdiv, y.isLt]
  refine ⟨fun h => ?_, fun h => by rw [h]⟩
  rw [key, key] at h
  have := congrArg List.length h
  simp at this
  exact BitVec.eq_of_toNat_eq this

/-- **C91, refuted** for `sub_mod` of reduced operands: the events show which operand is the larger one, and nothing else
(for moduli of at most `w - 1` bits). -/
theorem C91_sub_mod_reduced_refuted (x y x' y' n : BitVec w) (hx : x.toNat < n.toNat) (hy : y.toNat < n.toNat)
    (hx' : x'.toNat < n.toNat) (hy' : y'.toNat < n.toNat) (hn : 2 * n.toNat ≤ 2 ^ w) :
    (Leak.MachineInt.subModU x y n).trace = (Leak.MachineInt.subModU x' y' n).trace ↔
      (x.toNat < y.toNat ↔ x'.toNat < y'.toNat) := by
  have hn0 : n ≠ 0#w := Leak.MachineInt.ne_zero_of_pos (by omega)
  have key : ∀ x y : BitVec w, x.toNat < n.toNat → y.toNat < n.toNat → (Leak.MachineInt.subModU x y n).trace =
      if x.toNat < y.toNat then [.branch true, .branch false] else [.branch false] := by
    intro x y hx hy
    rw [Leak.MachineInt.trace_subModU x y n hn0]
    by_cases h : x.toNat < y.toNat
    · rw [cdiv_step (a := y.toNat - x.toNat) (by omega) (by omega),
        show y.toNat - x.toNat - n.toNat = 0 by omega, cdiv_zero (by omega), if_pos h, if_pos (by omega)]
      rfl
    · rw [show y.toNat - x.toNat = 0 by omega, cdiv_zero (by omega), if_neg h, if_pos (by omega)]
      rfl
  rw [key x y hx hy, key x' y' hx' hy']
  by_cases h : x.toNat < y.toNat <;> by_cases h' : x'.toNat < y'.toNat <;> simp [h, h']

example := C91_sub_mod_reduced_refuted 3#32 4#32 4#32 3#32 7#32 (by decide) (by decide) (by decide) (by decide) (by decide)

/-- **C91, refuted** for `inv`: the first event shows whether the operand is 0, for every type and every modulus. -/
theorem C91_inv_zero_refuted (O : IntOps w) (n x : BitVec w) (hx : x ≠ 0#w) :
    (Leak.MachineInt.euclidInvert O 0#w n).trace ≠ (Leak.MachineInt.euclidInvert O x n).trace := by
  have hf := Nat.succ_pos (2 ^ (4 * w))
  have e0 := whileL_done (body := Leak.MachineInt.euclidStep O n) (s := ({ t := 0#w, r := n, newT := 1#w, newR := 0#w } : EState w))
    (cond := fun s => decide (s.newR ≠ 0#w)) hf (by simp)
  have e1 := whileL_step (f := 2 ^ (4 * w)) (body := Leak.MachineInt.euclidStep O n)
    (s := ({ t := 0#w, r := n, newT := 1#w, newR := x } : EState w)) (cond := fun s => decide (s.newR ≠ 0#w))
    (by simpa using hx)
  have h0 : ∃ t, (Leak.MachineInt.euclidInvert O 0#w n).trace = .branch false :: t := by
    rw [Leak.MachineInt.euclidInvert, bind_def, L.bind]
    split
    · exact ⟨_, congrArg (· ++ _) e0⟩
    · exact ⟨[], e0⟩
  have h1 : ∃ t, (Leak.MachineInt.euclidInvert O x n).trace = .branch true :: t := by
    rw [Leak.MachineInt.euclidInvert, bind_def, L.bind]
    split
    · exact ⟨_, congrArg (· ++ _) e1⟩
    · exact ⟨_, e1⟩
  obtain ⟨t, ht⟩ := h0
  obtain ⟨t', ht'⟩ := h1
  rw [ht, ht']
  simp

/-- **C91, refuted** for `inv` of invertible operands: the events tell 1 from `n - 1`, although both are their own
inverses. -/
theorem C91_inv_refuted (O : IntOps w) (B : Nat) (E : ExactBelow O B) (n x : BitVec w) (hn : 2 < n.toNat)
    (hx : x.toNat = n.toNat - 1) (hB : (n.toNat - 1) * (n.toNat - 1) + n.toNat ≤ B) :
    (Leak.MachineInt.euclidInvert O x n).trace ≠ (Leak.MachineInt.euclidInvert O 1#w n).trace := by
  have hpos : 0 < (n.toNat - 1) * (n.toNat - 1) := Nat.mul_pos (by omega) (by omega)
  rw [(Leak.MachineInt.trace_euclidInvert_last E hn hx hB).2, Leak.MachineInt.trace_euclidInvert_one E (by omega) (by omega)]
  intro h
  have := congrArg List.length h
  simp at this

/-- **C91, refuted** for `leading_coefficient`: the events are the same exactly if the same coefficients are 0. -/
theorem C91_leading_coefficient_refuted (x x' : List (BitVec w)) :
    (Leak.Poly.leadingCoefficient x).trace = (Leak.Poly.leadingCoefficient x').trace ↔
      x.map (fun c => decide (c = 0#w)) = x'.map (fun c => decide (c = 0#w)) := by
  rw [Leak.Poly.trace_leadingCoefficient, Leak.Poly.trace_leadingCoefficient]
  constructor
  · intro h
    rw [List.cons.injEq] at h
    have h2 := congrArg (List.map fun e : Ev => match e with | .branch b => !b | _ => false) h.2
    simpa [List.map_map, Function.comp_def] using h2
  · intro h
    have hl : x.length = x'.length := by simpa using congrArg List.length h
    have h2 := congrArg (List.map fun b => Ev.branch (!b)) h
    rw [List.map_map, List.map_map] at h2
    rw [hl]
    congr 1
    simpa [Function.comp_def] using h2

/-- **C91, refuted** for `poly_mul`: the events of two products (of the same lengths) are the same exactly if the same
coefficients of the first factor are 0, and, unless all of them are, the same coefficients of the second. -/
theorem C91_poly_mul_refuted (x y x' y' : List (BitVec w)) (n : BitVec w) (z z' : List (BitVec w))
    (hx : x.length = x'.length) (hy : y.length = y'.length)
    (h : Hacspec.Poly.polyMul Hacspec.Poly.numSecU x y n = .ok z)
    (h' : Hacspec.Poly.polyMul Hacspec.Poly.numSecU x' y' n = .ok z') :
    (Leak.Poly.polyMul x y n).trace = (Leak.Poly.polyMul x' y' n).trace ↔
      x.map (fun c => decide (c = 0#w)) = x'.map (fun c => decide (c = 0#w)) ∧
      ((∃ c ∈ x, c ≠ 0#w) → y.map (fun c => decide (c = 0#w)) = y'.map (fun c => decide (c = 0#w))) := by
  rw [Leak.Poly.trace_polyMul ((Leak.Poly.res_polyMul x y n).trans h),
    Leak.Poly.trace_polyMul ((Leak.Poly.res_polyMul x' y' n).trans h'), ← Leak.Poly.rowsEv_iff y y' hy 0 x x' hx, hx,
    List.cons.injEq]
  simp

/-- Two secret polynomials told apart: the second one has a zero coefficient. -/
example : (Leak.Poly.polyMul [1#32, 3#32] [2#32, 5#32] 7#32).trace ≠ (Leak.Poly.polyMul [1#32, 0#32] [2#32, 5#32] 7#32).trace := by
  rw [Ne, C91_poly_mul_refuted [1#32, 3#32] [2#32, 5#32] [1#32, 0#32] [2#32, 5#32] 7#32 [2#32, 4#32, 1#32, 0#32]
    [2#32, 5#32, 0#32, 0#32] rfl rfl (by decide +kernel) (by decide +kernel)]
  simp

/-- The same zeros, the same events. -/
example : (Leak.Poly.polyMul [1#32, 3#32] [2#32, 5#32] 7#32).trace = (Leak.Poly.polyMul [6#32, 4#32] [2#32, 3#32] 7#32).trace := by
  rw [C91_poly_mul_refuted [1#32, 3#32] [2#32, 5#32] [6#32, 4#32] [2#32, 3#32] 7#32 [2#32, 4#32, 1#32, 0#32]
    [5#32, 5#32, 5#32, 0#32] rfl rfl (by decide +kernel) (by decide +kernel)]
  simp

/-! ## C92: numbers of iterations

The trace of `sub_mod`, `signed_mod` and `extended_euclid_invert` contains one `branch true` for every iteration of a
loop. -/

/-- The exact number of iterations of `sub_mod`: the least `k` with `y ≤ x + k n` (if no sum leaves the type). -/
theorem C92_sub_mod (x y n : BitVec w) (k : Nat) (hn : n ≠ 0#w) (h1 : y.toNat ≤ x.toNat + k * n.toNat)
    (h2 : ∀ j, j < k → x.toNat + j * n.toNat < y.toNat) (h3 : x.toNat + k * n.toNat < 2 ^ w) :
    (Leak.MachineInt.subModU x y n).trace = List.replicate k (.branch true) ++ [.branch false] := by
  have hn' : 0 < n.toNat := by
    rcases Nat.eq_zero_or_pos n.toNat with h | h
    · exact absurd (BitVec.eq_of_toNat_eq (by simpa using h)) hn
    · exact h
  have hk : cdiv (y.toNat - x.toNat) n.toNat = k := by
    rw [cdiv]
    rcases Nat.eq_zero_or_pos k with h | h
    · subst h
      rw [show y.toNat - x.toNat = 0 by omega]
      exact Nat.div_eq_of_lt (by omega)
    · have := h2 (k - 1) (by omega)
      have e : k * n.toNat = (k - 1) * n.toNat + n.toNat := by
        rw [← Nat.succ_mul]; congr 1; omega
      refine Nat.div_eq_of_lt_le (by omega) ?_
      rw [Nat.succ_mul]; omega
  rw [Leak.MachineInt.trace_subModU x y n hn, hk, if_pos h3]

/-- **C92, refuted** for `sub_mod`: there are operands of every width `w` for which it takes `2^w - 1` iterations. -/
theorem C92_sub_mod_refuted (hw : 0 < w) : ∃ x y n : BitVec w, (∃ z, subModU x y n = .ok z) ∧
    (Leak.MachineInt.subModU x y n).trace.count (.branch true) = 2 ^ w - 1 := by
  have hp : 1 < 2 ^ w := Nat.one_lt_two_pow (by omega)
  have h1 : (1#w).toNat = 1 := by rw [BitVec.toNat_ofNat]; exact Nat.mod_eq_of_lt hp
  have h10 : (1#w : BitVec w) ≠ 0#w := by intro h; rw [h] at h1; simp at h1
  have hy : (BitVec.allOnes w).toNat = 2 ^ w - 1 := by simp
  have ht := C92_sub_mod 0#w (BitVec.allOnes w) 1#w (2 ^ w - 1) h10 (by rw [hy, h1]; simp)
    (fun j hj => by rw [hy, h1]; simpa using hj) (by rw [h1]; simp)
  refine ⟨0#w, BitVec.allOnes w, 1#w, ?_, ?_⟩
  · obtain ⟨r, hr, _⟩ := ((C10_sub_mod_unsigned 0#w (BitVec.allOnes w) 1#w).1 (by omega) (2 ^ w - 1)
      (by rw [hy, h1]; simp) (fun j hj => by rw [hy, h1]; simpa using hj)).1 (by rw [h1]; simp)
    exact ⟨r, hr⟩
  · rw [ht, List.count_append]
    simp

/-- `0 - 3` modulo 1 on `u8`: three iterations. -/
example : (Leak.MachineInt.subModU 0#8 3#8 1#8).trace = [.branch true, .branch true, .branch true, .branch false] :=
  C92_sub_mod 0#8 3#8 1#8 3 (by decide) (by decide) (by decide) (by decide)

/-- C92, the part that holds for `sub_mod`: if the minuend and the modulus together are not smaller than the subtrahend,
in particular if the subtrahend is reduced, there is at most one iteration. -/
theorem C92_sub_mod_reduced_partial (x y n : BitVec w) (hn : n ≠ 0#w) (hy : y.toNat ≤ x.toNat + n.toNat) :
    (Leak.MachineInt.subModU x y n).trace.count (.branch true) ≤ 1 := by
  have hn' : 0 < n.toNat := by
    rcases Nat.eq_zero_or_pos n.toNat with h | h
    · exact absurd (BitVec.eq_of_toNat_eq (by simpa using h)) hn
    · exact h
  rw [Leak.MachineInt.trace_subModU x y n hn]
  by_cases h : x.toNat < y.toNat
  · have hc : cdiv (y.toNat - x.toNat) n.toNat = 1 := by
      rw [cdiv_step (a := y.toNat - x.toNat) hn' (by omega), show y.toNat - x.toNat - n.toNat = 0 by omega, cdiv_zero hn']
    rw [hc]
    split
    · simp
    · rename_i hov
      have hc2 : cdiv (2 ^ w - x.toNat) n.toNat = 1 := by
        rw [cdiv_step (a := 2 ^ w - x.toNat) hn' (by omega), show 2 ^ w - x.toNat - n.toNat = 0 by omega, cdiv_zero hn']
      rw [hc2]; simp
  · rw [show y.toNat - x.toNat = 0 by omega, cdiv_zero hn', if_pos (by have := x.isLt; omega)]
    simp

/-- **C92, refuted** for `inv`: the inversion of `n - 1` modulo `n` takes `n` iterations (two of the main loop, `n - 2` of
a loop inside it), for public and secret, signed and unsigned types (`B` is the bound below which the arithmetic of the
type is exact). -/
theorem C92_inv_refuted (O : IntOps w) (B : Nat) (E : ExactBelow O B) (n x : BitVec w) (hn : 2 < n.toNat)
    (hx : x.toNat = n.toNat - 1) (hB : (n.toNat - 1) * (n.toNat - 1) + n.toNat ≤ B) :
    euclidInvert O x n = .ok x ∧
    (Leak.MachineInt.euclidInvert O x n).trace.count (.branch true) = n.toNat + 1 := by
  obtain ⟨h1, h2⟩ := Leak.MachineInt.trace_euclidInvert_last E hn hx hB
  refine ⟨(Leak.MachineInt.res_euclidInvert O x n).symm.trans h1, ?_⟩
  rw [h2]
  simp [List.count_append]
  omega

/-- `u128`: the inversion of `2^63` modulo `2^63 + 1` takes `2^63 + 1` iterations and more. -/
example : (Leak.MachineInt.euclidInvert (pubU : IntOps 128) (BitVec.ofNat 128 (2 ^ 63)) (BitVec.ofNat 128 (2 ^ 63 + 1))).trace.count
    (.branch true) = 2 ^ 63 + 2 :=
  (C92_inv_refuted pubU (2 ^ 128) (exact_pubU (by decide)) (BitVec.ofNat 128 (2 ^ 63 + 1)) (BitVec.ofNat 128 (2 ^ 63))
    (by decide) (by decide) (by decide)).2

/-- The four kinds of types have such a bound. -/
example : ExactBelow (secU : IntOps 64) (2 ^ 64) ∧ ExactBelow (pubS : IntOps 64) (2 ^ 63) ∧ ExactBelow (secS : IntOps 64) (2 ^ 63) :=
  ⟨exact_secU (by decide), exact_pubS (by decide), exact_secS (by decide)⟩

/-- C92, the part that holds for `inv`: the main loop ends, or panics, within `2 w + 1` iterations: further fuel changes
nothing. -/
theorem C92_inv_main_loop_partial (O : IntOps w) (B : Nat) (E : ExactBelow O B) (n x : BitVec w) (hn : n.toNat < B)
    (hx : x.toNat < B) (f : Nat) (hf : 2 * w + 1 < f) :
    whileM f (fun s : EState w => decide (s.newR ≠ 0#w)) (euclidStep O n) { t := 0#w, r := n, newT := 1#w, newR := x } =
    whileM (2 * w + 2) (fun s : EState w => decide (s.newR ≠ 0#w)) (euclidStep O n)
      { t := 0#w, r := n, newT := 1#w, newR := x } :=
  Leak.MachineInt.main_fuel E n x hn hx hf (by omega)

example := C92_inv_main_loop_partial (pubU : IntOps 128) (2 ^ 128) (exact_pubU (by decide)) 101#128 5#128 (by decide)
  (by decide) 1000000 (by decide)

/-- **C92, refuted** for `signed_mod` with a negative modulus and a result that is not 0: it panics only after about
`2^127 / |n|` iterations. -/
theorem C92_signed_mod_refuted (x n : Int) (hx : fitsS 128 x) (hn : n < 0) (hnf : fitsS 128 n) (hr : x.tmod n < 0) :
    signedMod x n = panic ∧
    ((Leak.MachineInt.signedMod x n).trace.count (.branch true) : Int) = (x.tmod n + 2 ^ 127) / (-n) + 1 := by
  have hq : fitsS 128 (x.tdiv n) := by
    refine fits_of_le hx (Int.natAbs_tdiv_le_natAbs x n) ?_
    intro h
    have h1 := Int.natAbs_tdiv_le_natAbs x n
    simp only [fitsS] at hx
    have hxx : x = -2 ^ 127 := by omega
    have h2 : n = -1 := by
      by_contra hne
      have h3 : (x.tdiv n).natAbs = x.natAbs / n.natAbs := Int.natAbs_tdiv x n
      have h4 : x.natAbs / n.natAbs ≤ x.natAbs / 2 := Nat.div_le_div_left (by omega) (by omega)
      omega
    rw [h2, Int.tmod_neg, Int.tmod_one] at hr
    omega
  have hgt : n < x.tmod n := by
    have h1 := Int.tmod_lt_of_pos (-x) (show 0 < -n by omega)
    rw [Int.neg_tmod, Int.tmod_neg] at h1; omega
  constructor
  · rw [signedMod_neg hx hn hnf, if_neg (by omega)]
  · rw [Leak.MachineInt.trace_signedMod_neg hn hnf hr hq, List.count_replicate_self]
    simp only [fitsS] at hnf
    have e1 : ((x.tmod n + 2 ^ 127).toNat : Int) = x.tmod n + 2 ^ 127 := Int.toNat_of_nonneg (by omega)
    have e2 : ((-n).toNat : Int) = -n := Int.toNat_of_nonneg (by omega)
    rw [Int.natCast_add, Int.natCast_ediv, e1, e2]
    rfl

/-- `(-1) mod (-2)` takes `2^126` iterations to panic. -/
example : signedMod (-1) (-2) = panic ∧
    ((Leak.MachineInt.signedMod (-1) (-2)).trace.count (.branch true) : Int) = 2 ^ 126 := by
  have h := C92_signed_mod_refuted (-1) (-2) (by decide) (by decide) (by decide) (by decide)
  exact ⟨h.1, by rw [h.2]; decide⟩

/-- C92, the part that holds for `signed_mod`: with a positive modulus at most one iteration. -/
theorem C92_signed_mod_partial (x n : Int) (hx : fitsS 128 x) (hn : 0 < n) (hnf : fitsS 128 n) :
    (Leak.MachineInt.signedMod x n).trace.count (.branch true) ≤ 1 := by
  rw [Leak.MachineInt.trace_signedMod_pos hx hn hnf]
  split <;> simp

example := C92_signed_mod_partial (-7) 5 (by decide) (by decide) (by decide)

/-- **C92, refuted** for the secret `pow`: `e - 1` multiplications for the exponent `e`. -/
theorem C92_pow_refuted (x : BitVec w) (e : Nat) (he : 0 < e) :
    (Leak.MachineInt.secPow x e).trace = [.branch false, .times (e - 1)] := by
  have h : e ≠ 0 := by omega
  have key : ∀ k, (Leak.iterate k (fun _ s => .ok (SecretInt.mul s x)) x : Leak.L (BitVec w)).trace = [] ∧
      ∃ y, (Leak.iterate k (fun _ s => .ok (SecretInt.mul s x)) x : Leak.L (BitVec w)).res = .ok y := by
    intro k
    induction k with
    | zero => exact ⟨rfl, x, rfl⟩
    | succ k ih =>
      obtain ⟨h1, y, hy⟩ := ih
      rw [Leak.iterate]
      exact ⟨by rw [trace_bind_ok hy, h1]; rfl, _, by rw [res_bind, hy]; rfl⟩
  simp [Leak.MachineInt.secPow, Leak.branch, h, Leak.loop, (key (e - 1)).1]

example : (Leak.MachineInt.secPow 3#32 (2 ^ 31)).trace = [.branch false, .times (2 ^ 31 - 1)] :=
  C92_pow_refuted 3#32 (2 ^ 31) (by decide)

end Hacspec.Props
