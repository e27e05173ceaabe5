import Verif.Lemmas.Release.MachineInt
import Verif.Lemmas.VecInt
import Mathlib.Tactic.NormNum

/-! # What machine integer functions return in a release build -/

namespace Hacspec.Release.MachineInt

open Hacspec.MachineInt (IntOps remU)

variable {w : Nat}

theorem subLoop_ok (y n : BitVec w) : ∀ (k fuel : Nat) (x : BitVec w), k < fuel →
    (∀ j, j < k → (x.toNat + j * n.toNat) % 2 ^ w < y.toNat) → y.toNat ≤ (x.toNat + k * n.toNat) % 2 ^ w →
    whileM fuel (fun t => decide (t.toNat < y.toNat)) (fun t => addP t n) x
      = .ok (BitVec.ofNat w (x.toNat + k * n.toNat)) := by
  intro k
  induction k with
  | zero =>
    intro fuel x hf _ hk
    have hx := x.isLt
    rw [Nat.zero_mul, Nat.add_zero, Nat.mod_eq_of_lt hx] at hk
    rw [whileM_done (by omega) (by simpa using hk), Nat.zero_mul, Nat.add_zero, BitVec.ofNat_toNat, BitVec.setWidth_eq]
  | succ k ih =>
    intro fuel x hf hm hk
    obtain ⟨fuel, rfl⟩ : ∃ f, fuel = f + 1 := ⟨fuel - 1, by omega⟩
    have h0 := hm 0 (by omega)
    rw [Nat.zero_mul, Nat.add_zero, Nat.mod_eq_of_lt x.isLt] at h0
    rw [whileM_step (by simpa using h0), addP, bind_ok]
    have e : ∀ j, ((x + n).toNat + j * n.toNat) % 2 ^ w = (x.toNat + (j + 1) * n.toNat) % 2 ^ w := by
      intro j
      rw [BitVec.toNat_add, Nat.mod_add_mod, Nat.add_mul, Nat.one_mul, Nat.add_assoc, Nat.add_comm n.toNat]
    rw [ih fuel (x + n) (by omega) (fun j hj => by rw [e]; exact hm (j + 1) (by omega)) (by rw [e]; exact hk)]
    congr 1
    apply BitVec.eq_of_toNat_eq
    rw [BitVec.toNat_ofNat, BitVec.toNat_ofNat, e]

theorem subLoop_diverge (y n : BitVec w) : ∀ (fuel : Nat) (x : BitVec w),
    (∀ j, (x.toNat + j * n.toNat) % 2 ^ w < y.toNat) →
    whileM fuel (fun t => decide (t.toNat < y.toNat)) (fun t => addP t n) x = .error .diverge := by
  intro fuel
  induction fuel with
  | zero => intro x _; rfl
  | succ fuel ih =>
    intro x hm
    have h0 := hm 0
    rw [Nat.zero_mul, Nat.add_zero, Nat.mod_eq_of_lt x.isLt] at h0
    rw [whileM_step (by simpa using h0), addP, bind_ok]
    refine ih _ fun j => ?_
    have := hm (j + 1)
    rwa [BitVec.toNat_add, Nat.mod_add_mod, Nat.add_assoc, Nat.add_comm n.toNat, ← Nat.succ_mul]

theorem subModU_ok (x y n : BitVec w) (hn : n ≠ 0#w) (k : Nat)
    (hk : y.toNat ≤ (x.toNat + k * n.toNat) % 2 ^ w) (hm : ∀ j, j < k → (x.toNat + j * n.toNat) % 2 ^ w < y.toNat) :
    ∃ r, subModU x y n = .ok r ∧ r.toNat = ((x.toNat + k * n.toNat) % 2 ^ w - y.toNat) % n.toNat := by
  have hkw : k < 2 ^ w + 1 := by
    apply Nat.lt_of_not_le
    intro hle
    have := hm (k - 2 ^ w) (by have := Nat.two_pow_pos w; omega)
    have e : (x.toNat + k * n.toNat) % 2 ^ w = (x.toNat + (k - 2 ^ w) * n.toNat) % 2 ^ w := by
      conv => lhs; rw [show k = (k - 2 ^ w) + 2 ^ w by omega]
      rw [Nat.add_mul, ← Nat.add_assoc, Nat.add_mul_mod_self_left]
    omega
  refine ⟨(BitVec.ofNat w (x.toNat + k * n.toNat) - y) % n, ?_, ?_⟩
  · rw [subModU, subLoop_ok y n k _ x hkw hm hk]
    simp only [bind_ok, subP, remU, hn, if_false]
  · rw [BitVec.toNat_umod, BitVec.toNat_sub_of_le (by simpa [BitVec.le_def] using hk), BitVec.toNat_ofNat]

theorem subModU_diverge (x y n : BitVec w) (hm : ∀ k, (x.toNat + k * n.toNat) % 2 ^ w < y.toNat) :
    subModU x y n = .error .diverge := by
  rw [subModU, subLoop_diverge y n _ x hm]; rfl

theorem addModU_eq (x y n : BitVec w) (hn : n ≠ 0#w) :
    ∃ r, addModU x y n = .ok r ∧ r.toNat = (x.toNat + y.toNat) % 2 ^ w % n.toNat :=
  ⟨(x + y) % n, by simp [addModU, addP, remU, hn], by rw [BitVec.toNat_umod, BitVec.toNat_add]⟩

theorem mulModU_eq (x y n : BitVec w) (hn : n ≠ 0#w) :
    ∃ r, mulModU x y n = .ok r ∧ r.toNat = (x.toNat * y.toNat) % 2 ^ w % n.toNat :=
  ⟨(x * y) % n, by simp [mulModU, mulP, remU, hn], by rw [BitVec.toNat_umod, BitVec.toNat_mul]⟩

/-- Reduction modulo `m` before reduction modulo `n` is harmless exactly when `n` divides what is dropped. -/
theorem mod_mod_eq_iff (z m n : Nat) : z % m % n = z % n ↔ n ∣ m * (z / m) := by
  have h := Nat.mod_add_div z m
  constructor
  · intro e
    have h1 : z % m ≤ z := Nat.mod_le _ _
    have h2 : (z - z % m) % n = 0 := Nat.sub_mod_eq_zero_of_mod_eq e.symm
    rw [show z - z % m = m * (z / m) by omega] at h2
    exact Nat.dvd_of_mod_eq_zero h2
  · rintro ⟨c, hc⟩
    conv => rhs; rw [← h, hc, Nat.add_mul_mod_self_left]

theorem setBit_lt (hw : w ≤ 128) (x b : BitVec w) (i : Nat) (hi : i < w) :
    ∃ y, setBit x b i = .ok y ∧ ∀ k, k < w →
      y.getLsbD k = if k < i then x.getLsbD k else if k = i then b.getLsbD 0 else (x.getLsbD k || b.getLsbD (k - i)) := by
  refine ⟨_, rfl, fun k hk => ?_⟩
  rw [Nat.mod_eq_of_lt hi, Nat.mod_eq_of_lt (show i < 128 by omega)]
  simp only [BitVec.getLsbD_or, BitVec.getLsbD_and, BitVec.getLsbD_shiftLeft, Hacspec.MachineInt.fromLiteral,
    BitVec.getLsbD_setWidth, BitVec.getLsbD_not, BitVec.getLsbD_one, hk, show k < 128 by omega, decide_true, Bool.true_and]
  by_cases h1 : k < i
  · simp [h1]
  · by_cases h2 : k = i
    · subst h2; simp
    · have h3 : k - i ≠ 0 := by omega
      simp [h1, h2, h3]

theorem setBit_ge (x b : BitVec w) (i : Nat) (hi : w ≤ i) (hi' : i < 128) :
    setBit x b i = .ok (x ||| b <<< (i % w)) := by
  have : setBit x b i = .ok ((x &&& Hacspec.MachineInt.fromLiteral w (~~~ (1#128 <<< (i % 128)))) ||| b <<< (i % w)) := rfl
  rw [this]
  congr 2
  apply BitVec.eq_of_getLsbD_eq
  intro k hk
  rw [Nat.mod_eq_of_lt hi']
  simp only [BitVec.getLsbD_and, BitVec.getLsbD_shiftLeft, Hacspec.MachineInt.fromLiteral,
    BitVec.getLsbD_setWidth, BitVec.getLsbD_not, hk, show k < 128 by omega, show k < i by omega, decide_true, Bool.true_and]
  simp

theorem setBit_mod (hw : w ∣ 128) (x b : BitVec w) (i : Nat) : setBit x b i = setBit x b (i % 128) := by
  simp only [setBit, shl, Nat.mod_mod, Nat.mod_mod_of_dvd _ hw]

theorem getBit_unsigned (O : IntOps w) (hO : O = pubU ∨ O = secU) (hw : 0 < w) (x : BitVec w) (i : Nat) :
    Hacspec.MachineInt.getBit O x i = .ok (if x.getLsbD (i % w) then 1#w else 0#w) := by
  have e : Hacspec.MachineInt.getBit O x i = .ok ((x >>> (i % w)) &&& 1#w) := by
    rcases hO with rfl | rfl <;> rfl
  rw [e]
  congr 1
  apply BitVec.eq_of_getLsbD_eq
  intro k hk
  by_cases hb : x.getLsbD (i % w) <;> by_cases h0 : k = 0
  all_goals simp [hb, h0, hw]

end Hacspec.Release.MachineInt

namespace Hacspec.Release.MachineInt

open SecretInt (fitsS)

theorem negLoop (n : Int) (hn : n < 0) (hn' : -(2 ^ 127) ≤ n) : ∀ (fuel : Nat) (r : Int), r < 0 → -(2 ^ 127) ≤ r →
    r + 2 ^ 127 + 2 < fuel →
    whileM fuel (fun r => decide (r < 0)) (fun r => i128 (r + n)) r = .ok (2 ^ 127 + n + (r + 2 ^ 127) % n) := by
  intro fuel
  induction fuel with
  | zero => intro r h1 h2 h3; omega
  | succ fuel ih =>
    intro r h1 h2 h3
    rw [whileM_step (by simpa using h1)]
    by_cases h : -(2 ^ 127) ≤ r + n
    · rw [i128_of_fits (z := r + n) (by constructor <;> omega), bind_ok, ih (r + n) (by omega) h (by omega)]
      rw [show r + n + 2 ^ 127 = r + 2 ^ 127 + n by omega, Int.add_emod_right]
    · have e : i128 (r + n) = .ok (r + n + 2 ^ 128) := by
        rw [i128, BitVec.toInt_ofInt]
        have : (r + n).bmod (2 ^ 128) = (r + n + 2 ^ 128).bmod (2 ^ 128) := by
          have := Int.add_mul_bmod_self_left (r + n) (2 ^ 128) 1
          rw [← this]; norm_num
        rw [this, Int.bmod_eq_of_le] <;> omega
      rw [e, bind_ok, whileM_done (by omega) (by simp only [decide_eq_false_iff_not]; omega)]
      rw [← Int.emod_neg (r + 2 ^ 127) n, Int.emod_eq_of_lt (by omega) (by omega)]
      congr 1; omega

end Hacspec.Release.MachineInt

namespace Hacspec.Release.VecInt

open Hacspec.VecInt (zipLoop)
open Hacspec.Seq

variable {w : Nat} {f : BitVec w → BitVec w → BitVec w} {a b out : List (BitVec w)}

theorem zipLoop_body (i : Nat) (h1 : i < a.length) (h2 : i < b.length) (t : List (BitVec w)) (ht : i < t.length) :
    (do let x ← idx a i; let y ← idx b i; let c ← Except.ok (f x y); setIdx t i c : M (List (BitVec w)))
      = .ok (t.set i (f (a.getD i 0#w) (b.getD i 0#w))) := by
  rw [idx_ok h1, bind_ok, idx_ok h2, bind_ok, bind_ok, setIdx_ok ht]
  simp [List.getD_eq_getElem?_getD, List.getElem?_eq_getElem h1, List.getElem?_eq_getElem h2]

theorem zipLoop_le (hl : a.length ≤ b.length) (ho : out.length = a.length) :
    zipLoop (fun x y => .ok (f x y)) a b out = .ok (List.zipWith f a b) := by
  rw [zipLoop, fill_loop (o := 0) (fun i => f (a.getD i 0#w) (b.getD i 0#w))]
  · rw [List.take_zero, List.nil_append, Nat.zero_add, List.drop_of_length_le (by omega), List.append_nil]
    congr 1
    apply List.ext_getElem
    · simp; omega
    · intro i h1 h2
      simp at h1 h2
      simp [List.getD_eq_getElem?_getD, List.getElem?_eq_getElem h1,
        List.getElem?_eq_getElem (show i < b.length by omega)]
  · intro i hi t ht
    rw [Nat.zero_add] at ht ⊢
    exact zipLoop_body i hi (by omega) t ht
  · omega

theorem zipLoop_gt (hl : b.length < a.length) (ho : out.length = a.length) :
    zipLoop (fun x y => .ok (f x y)) a b out = panic := by
  rw [zipLoop]
  refine loop_panic hl (fill_loop (o := 0) (fun i => f (a.getD i 0#w) (b.getD i 0#w)) ?_ (by omega)) ?_
  · intro i hi t ht
    rw [Nat.zero_add] at ht ⊢
    exact zipLoop_body i (by omega) hi t ht
  · rw [idx_ok hl, bind_ok, idx_panic (Nat.le_refl _), bind_panic]

end Hacspec.Release.VecInt

namespace Hacspec.Poly

theorem overwrite_take {w : Nat} : ∀ (o x : List (BitVec w)), overwrite o x = overwrite o (x.take o.length)
  | [], x => by cases x <;> rfl
  | _ :: _, [] => rfl
  | _ :: o, v :: x => by simp only [overwrite, List.length_cons, List.take_succ_cons]; rw [overwrite_take o x]

end Hacspec.Poly
