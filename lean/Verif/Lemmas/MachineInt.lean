import Verif.Model.MachineInt
import Verif.Lemmas.SecretInt

/-! # Helper lemmas about the machine-integer model -/

namespace Hacspec.MachineInt

open SecretInt

variable {w : Nat}

theorem mask128 {i : Nat} (hi : i < w) (hw : w ≤ 128) (k : Nat) (hk : k < w) :
    (fromLiteral w (~~~ (1#128 <<< i))).getLsbD k = !decide (k = i) := by
  have hk' : k < 128 := by omega
  have h2 : (1#128 <<< i : BitVec 128).getLsbD k = decide (k = i) := by
    rw [BitVec.getLsbD_shiftLeft]
    by_cases h : k = i
    · subst h; simp [hk']
    · by_cases h2 : k < i
      · simp [h2, h]
      · have : k - i ≠ 0 := by omega
        simp only [h2, h, BitVec.getLsbD_one]
        simp [this]
  rw [fromLiteral, BitVec.getLsbD_setWidth, BitVec.getLsbD_not, h2]
  simp [hk, hk']

theorem getBit_eq (O : IntOps w) (hO : O.shr = shrU ∨ O.shr = shrS) (x : BitVec w) (i : Nat)
    (hi : i < w) :
    getBit O x i = .ok (if x.getLsbD i then 1#w else 0#w) := by
  have key : ∀ s : BitVec w, s.getLsbD 0 = x.getLsbD i →
      (s &&& 1#w) = if x.getLsbD i then 1#w else 0#w := by
    intro s hs
    apply BitVec.eq_of_getLsbD_eq
    intro k hk
    rw [BitVec.getLsbD_and, BitVec.getLsbD_one]
    cases hx : x.getLsbD i with
    | false =>
      by_cases h0 : k = 0
      · subst h0; simp [hs, hx]
      · simp [h0]
    | true =>
      by_cases h0 : k = 0
      · subst h0; simp [hs, hx]
      · simp [h0]
  rcases hO with h | h
  · simp only [getBit, h, shrU, hi, if_true, bind_ok]
    rw [key]; simp
  · simp only [getBit, h, shrS, hi, if_true, bind_ok]
    rw [key]
    rw [BitVec.getLsbD_sshiftRight]
    simp [hi]
    omega

theorem getBit_panic (O : IntOps w) (hO : O.shr = shrU ∨ O.shr = shrS) (x : BitVec w) (i : Nat)
    (hi : w ≤ i) : getBit O x i = panic := by
  have : ¬ i < w := by omega
  rcases hO with h | h <;> simp [getBit, h, shrU, shrS, this]

theorem setBit_eq (hw : w ≤ 128) (x b : BitVec w) (i : Nat) (hi : i < w) (hb : b = 1#w ∨ b = 0#w) :
    ∃ y, setBit x b i = .ok y ∧
      ∀ k, k < w → y.getLsbD k = if k = i then decide (b = 1#w) else x.getLsbD k := by
  have h128 : i < 128 := by omega
  refine ⟨(x &&& fromLiteral w (~~~(1#128 <<< i))) ||| b <<< i,
    by simp only [setBit, require_true hb, bind_ok, shl, h128, hi, if_true], ?_⟩
  intro k hk
  rw [BitVec.getLsbD_or, BitVec.getLsbD_and, mask128 hi hw k hk, BitVec.getLsbD_shiftLeft]
  by_cases h : k = i
  · subst h
    rcases hb with h | h
    · subst h; simp [hk]; omega
    · subst h
      have : ¬ (0#w = 1#w) := by
        intro e
        have := congrArg BitVec.toNat e
        simp at this
        omega
      simp [this]
  · rcases hb with h1 | h1
    · subst h1
      have h3 : k < i ∨ k - i ≠ 0 := by omega
      rcases h3 with h3 | h3
      · simp [h, h3]
      · simp [h, BitVec.getLsbD_one, h3]
    · subst h1; simp [h]

theorem setBit_panic (hw : w ≤ 128) (x b : BitVec w) (i : Nat)
    (h : w ≤ i ∨ ¬ (b = 1#w ∨ b = 0#w)) : setBit x b i = panic := by
  by_cases hb : b = 1#w ∨ b = 0#w
  · have hi : ¬ i < w := by
      rcases h with h | h
      · omega
      · exact absurd hb h
    simp only [setBit, require_true hb, bind_ok]
    by_cases h2 : i < 128
    · simp [shl, h2, hi]
    · simp [shl, h2]
  · simp [setBit, hb]

theorem one_ne_zero (hw : 0 < w) : ¬ (1#w = 0#w) := by
  intro e
  have := congrArg BitVec.toNat e
  simp at this
  omega

/-! ## Selection -/

theorem cswap_ones (x y : BitVec w) : cswap x y (BitVec.allOnes w) = (y, x) := by
  simp only [cswap, BitVec.allOnes_and, Prod.mk.injEq]
  constructor
  · rw [← BitVec.xor_assoc, BitVec.xor_self, BitVec.zero_xor]
  · rw [BitVec.xor_comm x y, ← BitVec.xor_assoc, BitVec.xor_self, BitVec.zero_xor]

theorem cswap_zero (x y : BitVec w) : cswap x y 0#w = (x, y) := by
  simp [cswap]

theorem cswap_ite (x y : BitVec w) (b : Prop) [Decidable b] :
    cswap x y (if b then BitVec.allOnes w else 0#w) = if b then (y, x) else (x, y) := by
  by_cases h : b
  · simp [h, cswap_ones]
  · simp [h, cswap_zero]

/-! ## `ct_div` -/

/-- The two unsigned families. -/
def IsUnsigned (O : IntOps w) : Prop := O = pubU ∨ O = secU

theorem IsUnsigned.shr {O : IntOps w} (h : IsUnsigned O) : O.shr = shrU := by
  rcases h with h | h <;> subst h <;> rfl

theorem IsUnsigned.gteBm (hw : 0 < w) {O : IntOps w} (h : IsUnsigned O) (x y : BitVec w) :
    O.gteBm x y = .ok (if y.toNat ≤ x.toNat then BitVec.allOnes w else 0#w) := by
  rcases h with h | h <;> subst h
  · simp [pubU, pubMask, maxU]
  · simp [secU, compGte_spec hw]

/-- Setting a clear bit adds the power of two. -/
theorem setBit_add (hw : w ≤ 128) (x : BitVec w) (i : Nat) (hi : i < w) (h0 : x.toNat % 2 ^ (i + 1) = 0)
    (b : Bool) : setBit x (if b then 1#w else 0#w) i
      = .ok (BitVec.ofNat w (x.toNat + if b then 2 ^ i else 0)) := by
  have hbit : ∀ k, k ≤ i → x.getLsbD k = false := by
    intro k hk
    have : x.toNat.testBit k = false := by
      have h1 : (x.toNat % 2 ^ (i + 1)).testBit k = false := by rw [h0]; simp
      rw [Nat.testBit_mod_two_pow] at h1
      simpa [show k < i + 1 by omega] using h1
    exact this
  obtain ⟨y, hy, hyb⟩ := setBit_eq hw x (if b then 1#w else 0#w) i hi (by cases b <;> simp)
  rw [hy]
  congr 1
  cases b with
  | false =>
    simp only [Bool.false_eq_true, if_false, Nat.add_zero, BitVec.ofNat_toNat, BitVec.setWidth_eq]
    apply BitVec.eq_of_getLsbD_eq
    intro k hk
    rw [hyb k hk]
    by_cases h : k = i
    · subst h; rw [hbit k (Nat.le_refl k)]
      have := one_ne_zero (w := w) (by omega)
      simp only [Bool.false_eq_true, if_false, if_true, decide_eq_false_iff_not]
      exact fun e => this e.symm
    · simp [h]
  | true =>
    have hor : BitVec.ofNat w (x.toNat + 2 ^ i) = x ||| BitVec.twoPow w i := by
      have hadd : x + BitVec.twoPow w i = x ||| BitVec.twoPow w i := by
        apply BitVec.add_eq_or_of_and_eq_zero
        apply BitVec.eq_of_getLsbD_eq
        intro k hk
        rw [BitVec.getLsbD_and, BitVec.getLsbD_twoPow]
        by_cases h : i = k
        · subst h; simp [hbit i (Nat.le_refl i)]
        · simp [h]
      rw [← hadd]
      apply BitVec.eq_of_toNat_eq
      simp only [BitVec.toNat_ofNat, BitVec.toNat_add, BitVec.toNat_twoPow]
      rw [Nat.mod_eq_of_lt (a := 2 ^ i) (Nat.pow_lt_pow_right (by omega) hi)]
    simp only [if_true]
    rw [hor]
    apply BitVec.eq_of_getLsbD_eq
    intro k hk
    rw [hyb k hk, BitVec.getLsbD_or, BitVec.getLsbD_twoPow]
    by_cases h : k = i
    · subst h; simp [hk]
    · simp [h, show ¬ i = k by omega]

theorem set_low (hw : w ≤ 128) (hw1 : 1 < w) {O : IntOps w} (hO : IsUnsigned O) (x a : BitVec w) (i : Nat)
    (hi : i < w) (hx : x.toNat * 2 + 1 < 2 ^ w) :
    (shl x 1 >>= fun r => set O r 0 a i)
      = .ok (BitVec.ofNat w (2 * x.toNat + (a.toNat / 2 ^ i) % 2)) := by
  have hb : (if a.getLsbD i = true then 2 ^ 0 else 0) = (a.toNat / 2 ^ i) % 2 := by
    have h1 : a.getLsbD i = a.toNat.testBit i := rfl
    rw [h1, Nat.testBit_eq_decide_div_mod_eq]
    have := Nat.mod_two_eq_zero_or_one (a.toNat / 2 ^ i)
    rcases this with h | h <;> simp [h]
  have hsh : (x <<< 1).toNat = 2 * x.toNat := by
    rw [BitVec.toNat_shiftLeft, Nat.shiftLeft_eq, Nat.mod_eq_of_lt (by omega)]; omega
  simp only [shl, hw1, if_true, bind_ok, set, getBit_eq O (Or.inl hO.shr) a i hi]
  rw [setBit_add hw (x <<< 1) 0 (by omega) (by rw [hsh]; omega), hsh, hb]

/-- Invariant of `ct_div` after `j` iterations. -/
def DivInv (A d w j : Nat) (q r : Nat) : Prop :=
  ∃ Q, q = Q * 2 ^ (w - j) ∧ A / 2 ^ (w - j) = Q * d + r ∧ (0 < d → r < d) ∧ (d = 0 → Q = 2 ^ j - 1) ∧
    Q < 2 ^ j

theorem ctDivStep_inv (hw : w ≤ 128) (hw1 : 1 < w) {O : IntOps w} (hO : IsUnsigned O) (a d : BitVec w)
    (j : Nat) (hj : j < w) (q r : BitVec w) (h : DivInv a.toNat d.toNat w j q.toNat r.toNat) :
    ∃ q' r', ctDivStep O a d (w - 1 - j) (q, r) = .ok (q', r') ∧
      DivInv a.toNat d.toNat w (j + 1) q'.toNat r'.toNat := by
  obtain ⟨Q, hq, hA, hr, hd0, hQ⟩ := h
  have ha := a.isLt
  have hd := d.isLt
  have hwj : w - j = (w - 1 - j) + 1 := by omega
  have hpw : 2 ^ w = 2 ^ (w - j) * 2 ^ j := by rw [← Nat.pow_add]; congr 1; omega
  have hAj : a.toNat / 2 ^ (w - j) < 2 ^ j := by
    apply Nat.div_lt_of_lt_mul; rw [← hpw]; exact ha
  have hrA : r.toNat ≤ a.toNat / 2 ^ (w - j) := by rw [hA]; omega
  have hpj : 2 ^ (j + 1) ≤ 2 ^ w := Nat.pow_le_pow_right (by omega) (by omega)
  have hpj' : 2 ^ (j + 1) = 2 ^ j * 2 := Nat.pow_succ 2 j
  have hshift : a.toNat / 2 ^ (w - 1 - j)
      = 2 * (a.toNat / 2 ^ (w - j)) + a.toNat / 2 ^ (w - 1 - j) % 2 := by
    have : a.toNat / 2 ^ (w - j) = a.toNat / 2 ^ (w - 1 - j) / 2 := by
      rw [hwj, Nat.pow_succ, Nat.div_div_eq_div_mul]
    omega
  have hset := set_low hw hw1 hO r a (w - 1 - j) (by omega) (by omega)
  have hb := Nat.mod_two_eq_zero_or_one (a.toNat / 2 ^ (w - 1 - j))
  generalize hbb : a.toNat / 2 ^ (w - 1 - j) % 2 = b at *
  have hR : (BitVec.ofNat w (2 * r.toNat + b)).toNat = 2 * r.toNat + b := by
    rw [BitVec.toNat_ofNat]; apply Nat.mod_eq_of_lt; omega
  have hq0 : q.toNat % 2 ^ (w - 1 - j + 1) = 0 := by rw [← hwj, hq, Nat.mul_mod_left]
  have hpp : 2 ^ (w - j) = 2 * 2 ^ (w - 1 - j) := by rw [hwj, Nat.pow_succ]; omega
  have hqlt : q.toNat + 2 ^ (w - 1 - j) < 2 ^ w := by
    have h1 : (Q + 1) * 2 ^ (w - j) ≤ 2 ^ j * 2 ^ (w - j) := Nat.mul_le_mul_right _ hQ
    rw [Nat.mul_comm (2 ^ j), ← hpw, Nat.add_mul] at h1
    have h2 : 0 < 2 ^ (w - 1 - j) := Nat.two_pow_pos _
    omega
  have hsub : w - (j + 1) = w - 1 - j := by omega
  have hcs : ∀ g : BitVec w, csetBit q 1#w (w - 1 - j) g
      = .ok (cswap q (BitVec.ofNat w (q.toNat + 2 ^ (w - 1 - j))) g).1 := by
    intro g
    have h1 := setBit_add hw q (w - 1 - j) (by omega) hq0 true
    simp only [if_true] at h1
    simp [csetBit, h1]
  have hstep : ctDivStep O a d (w - 1 - j) (q, r) =
      .ok ((cswap q (BitVec.ofNat w (q.toNat + 2 ^ (w - 1 - j)))
              (if d.toNat ≤ 2 * r.toNat + b then BitVec.allOnes w else 0#w)).1,
           csub (BitVec.ofNat w (2 * r.toNat + b)) d
              (if d.toNat ≤ 2 * r.toNat + b then BitVec.allOnes w else 0#w)) := by
    have : ctDivStep O a d (w - 1 - j) (q, r) =
        ((shl r 1 >>= fun r => set O r 0 a (w - 1 - j)) >>= fun r =>
          O.gteBm r d >>= fun geq => csetBit q 1#w (w - 1 - j) geq >>= fun q' =>
            .ok (q', csub r d geq)) := by
      simp only [ctDivStep, bind_assoc']
    rw [this, hset, bind_ok, hO.gteBm (by omega), bind_ok, hR, hcs, bind_ok]
  refine ⟨_, _, hstep, ?_⟩
  simp only [csub, cswap_ite]
  by_cases hg : d.toNat ≤ 2 * r.toNat + b
  · simp only [hg, if_true]
    have hr' : (BitVec.ofNat w (2 * r.toNat + b) - d).toNat = 2 * r.toNat + b - d.toNat := by
      rw [BitVec.toNat_sub_of_le (by rw [BitVec.le_def, hR]; exact hg), hR]
    have hq' : (BitVec.ofNat w (q.toNat + 2 ^ (w - 1 - j))).toNat = q.toNat + 2 ^ (w - 1 - j) := by
      rw [BitVec.toNat_ofNat]; exact Nat.mod_eq_of_lt hqlt
    rw [hr', hq']
    refine ⟨2 * Q + 1, ?_, ?_, ?_, ?_, ?_⟩
    · rw [hq, hpp, hsub, Nat.add_mul, Nat.one_mul, ← Nat.mul_assoc, Nat.mul_comm 2 Q]
    · rw [hsub, hshift, hA, Nat.add_mul, Nat.mul_assoc]; omega
    · intro h0; have := hr h0; omega
    · intro h0; have := hd0 h0; have := Nat.two_pow_pos j; omega
    · omega
  · simp only [hg, if_false]
    rw [hR]
    refine ⟨2 * Q, ?_, ?_, ?_, ?_, ?_⟩
    · rw [hq, hpp, hsub, ← Nat.mul_assoc, Nat.mul_comm 2 Q]
    · rw [hsub, hshift, hA, Nat.mul_assoc]; omega
    · intro h0; omega
    · intro h0; omega
    · omega

theorem ctDiv_inv (hw : w ≤ 128) (hw1 : 1 < w) {O : IntOps w} (hO : IsUnsigned O) (a d : BitVec w) :
    ∃ q r, ctDiv O a d = .ok (q, r) ∧ DivInv a.toNat d.toNat w w q.toNat r.toNat := by
  obtain ⟨⟨q, r⟩, h1, h2⟩ := loop_inv (n := w) (s := (0#w, 0#w))
    (body := fun j qr => ctDivStep O a d (w - 1 - j) qr)
    (fun j qr => DivInv a.toNat d.toNat w j qr.1.toNat qr.2.toNat)
    ⟨0, by simp, by simp [Nat.div_eq_of_lt a.isLt], by simp, by simp, by simp⟩
    (fun i hi t ht => by
      obtain ⟨q', r', e, h⟩ := ctDivStep_inv hw hw1 hO a d i hi t.1 t.2 ht
      exact ⟨(q', r'), e, h⟩)
  exact ⟨q, r, h1, h2⟩

/-! ## `ct_div` at a signed type, for nonnegative arguments -/

theorem cswap_intMax {x y : BitVec w} (hx : x.toNat < 2 ^ (w - 1)) (hy : y.toNat < 2 ^ (w - 1)) :
    cswap x y maxS = cswap x y (BitVec.allOnes w) := by
  have h : maxS &&& (x ^^^ y) = BitVec.allOnes w &&& (x ^^^ y) := by
    have hlt : (x ^^^ y).toNat < 2 ^ (w - 1) := by
      rw [BitVec.toNat_xor]; exact Nat.xor_lt_two_pow hx hy
    apply BitVec.eq_of_toNat_eq
    rw [BitVec.allOnes_and, BitVec.toNat_and, maxS, BitVec.toNat_intMax, Nat.and_comm,
      Nat.and_two_pow_sub_one_eq_mod, Nat.mod_eq_of_lt hlt]
  simp only [cswap, h]

theorem toInt_of_small {x : BitVec w} (h : x.toNat < 2 ^ (w - 1)) : x.toInt = x.toNat := by
  rw [BitVec.toInt_eq_toNat_cond, if_pos]
  cases w with
  | zero => have := x.isLt; simp at this; simp [this]
  | succ n => rw [Nat.pow_succ]; simp at h; omega

theorem ctDivStep_signed (hw : w ≤ 128) (hw1 : 1 < w) (a d : BitVec w) (ha : a.toNat < 2 ^ (w - 1))
    (hd : d.toNat < 2 ^ (w - 1)) (j : Nat) (hj : j < w) (q r : BitVec w)
    (h : DivInv a.toNat d.toNat w j q.toNat r.toNat) (hd0 : 0 < d.toNat) :
    ctDivStep pubS a d (w - 1 - j) (q, r) = ctDivStep pubU a d (w - 1 - j) (q, r) := by
  obtain ⟨q', r', e, Q', hq', hA', hr', -, -⟩ := ctDivStep_inv hw hw1 (Or.inl rfl : IsUnsigned pubU) a d j hj q r h
  obtain ⟨Q, hq, hA, hr, -, hQ⟩ := h
  have small : ∀ (k Q r : Nat), a.toNat / 2 ^ k = Q * d.toNat + r → Q * 2 ^ k < 2 ^ (w - 1) := by
    intro k Q r h
    have h1 : Q ≤ a.toNat / 2 ^ k := by
      rw [h]; exact Nat.le_trans (Nat.le_mul_of_pos_right Q hd0) (Nat.le_add_right _ _)
    exact Nat.lt_of_le_of_lt (Nat.le_trans (Nat.mul_le_mul_right _ h1) (Nat.div_mul_le_self _ _)) ha
  have hqs : q.toNat < 2 ^ (w - 1) := by rw [hq]; exact small _ _ _ hA
  have hqs' : q'.toNat < 2 ^ (w - 1) := by rw [hq']; exact small _ _ _ hA'
  have hsame : (shl r 1 >>= fun r => set pubS r 0 a (w - 1 - j)) = (shl r 1 >>= fun r => set pubU r 0 a (w - 1 - j)) := by
    simp only [set, getBit_eq pubS (Or.inr rfl) a _ (show w - 1 - j < w by omega),
      getBit_eq pubU (Or.inl rfl) a _ (show w - 1 - j < w by omega)]
  have hrw : ∀ O : IntOps w, ctDivStep O a d (w - 1 - j) (q, r) =
        ((shl r 1 >>= fun r => set O r 0 a (w - 1 - j)) >>= fun r =>
          O.gteBm r d >>= fun geq => csetBit q 1#w (w - 1 - j) geq >>= fun q' =>
            .ok (q', csub r d geq)) := by
    intro O; simp only [ctDivStep, bind_assoc']
  have hrA : r.toNat ≤ a.toNat / 2 ^ (w - j) := by rw [hA]; omega
  have hwj : w - j = (w - 1 - j) + 1 := by omega
  have hshift : a.toNat / 2 ^ (w - j) = a.toNat / 2 ^ (w - 1 - j) / 2 := by
    rw [hwj, Nat.pow_succ, Nat.div_div_eq_div_mul]
  have hR1 : 2 * r.toNat + a.toNat / 2 ^ (w - 1 - j) % 2 < 2 ^ (w - 1) := by
    have h1 : a.toNat / 2 ^ (w - 1 - j) ≤ a.toNat := Nat.div_le_self _ _
    omega
  have hp : 2 ^ w = 2 * 2 ^ (w - 1) := by rw [← Nat.pow_succ']; congr 1; omega
  have hset := set_low hw hw1 (Or.inl rfl : IsUnsigned pubU) r a (w - 1 - j) (by omega) (by omega)
  rw [hrw, hrw, hsame, hset, bind_ok, bind_ok]
  rw [hrw, hset, bind_ok] at e
  generalize hRR : BitVec.ofNat w (2 * r.toNat + a.toNat / 2 ^ (w - 1 - j) % 2) = R at *
  have hRn : R.toNat = 2 * r.toNat + a.toNat / 2 ^ (w - 1 - j) % 2 := by
    rw [← hRR, BitVec.toNat_ofNat]; exact Nat.mod_eq_of_lt (by omega)
  have hRs : R.toNat < 2 ^ (w - 1) := by omega
  simp only [pubS, pubU, pubMask, maxU, bind_ok, toInt_of_small hRs, toInt_of_small hd, Int.ofNat_le] at e ⊢
  by_cases hg : d.toNat ≤ R.toNat
  · simp only [hg, decide_true, if_true] at e ⊢
    obtain ⟨y, hy, -⟩ := setBit_eq hw q 1#w (w - 1 - j) (by omega) (Or.inl rfl)
    simp only [csetBit, hy, bind_ok, cswap_ones, Except.ok.injEq, Prod.mk.injEq] at e
    have hys : y.toNat < 2 ^ (w - 1) := by rw [e.1]; exact hqs'
    have hds : (R - d).toNat < 2 ^ (w - 1) := by
      rw [BitVec.toNat_sub_of_le (by rw [BitVec.le_def]; exact hg)]; omega
    simp only [csetBit, hy, bind_ok, csub, cswap_intMax hqs hys, cswap_intMax hRs hds]
  · simp only [hg, decide_false, if_false, Bool.false_eq_true]

theorem ctDiv_signed (hw : w ≤ 128) (hw1 : 1 < w) (a d : BitVec w) (ha : a.toNat < 2 ^ (w - 1))
    (hd : d.toNat < 2 ^ (w - 1)) (hd0 : 0 < d.toNat) :
    ∃ q r, ctDiv pubS a d = .ok (q, r) ∧ DivInv a.toNat d.toNat w w q.toNat r.toNat := by
  obtain ⟨⟨q, r⟩, h1, h2⟩ := loop_inv (n := w) (s := (0#w, 0#w))
    (body := fun j qr => ctDivStep pubS a d (w - 1 - j) qr)
    (fun j qr => DivInv a.toNat d.toNat w j qr.1.toNat qr.2.toNat)
    ⟨0, by simp, by simp [Nat.div_eq_of_lt a.isLt], by simp, by simp, by simp⟩
    (fun i hi t ht => by
      obtain ⟨q', r', e, h⟩ := ctDivStep_inv hw hw1 (Or.inl rfl : IsUnsigned pubU) a d i hi t.1 t.2 ht
      exact ⟨(q', r'), (ctDivStep_signed hw hw1 a d ha hd i hi t.1 t.2 ht hd0).trans e, h⟩)
  exact ⟨q, r, h1, h2⟩

theorem ctDiv_secS (hw : w ≤ 128) (hw1 : 1 < w) (a d : BitVec w) : ctDiv secS a d = panic := by
  refine loop_panic (k := 0) (t := (0#w, 0#w)) (by omega) rfl ?_
  have h : ∃ r, (shl 0#w 1 >>= fun r => set secS r 0 a (w - 1 - 0)) = .ok r := by
    obtain ⟨y, hy, -⟩ := setBit_eq hw (0#w <<< 1) (if a.getLsbD (w - 1) then 1#w else 0#w) 0 (by omega)
      (by cases a.getLsbD (w - 1) <;> simp)
    exact ⟨y, by simp only [shl, hw1, if_true, bind_ok, set, getBit_eq secS (Or.inr rfl) a _ (show w - 1 < w by omega),
      Nat.sub_zero]; exact hy⟩
  obtain ⟨r, h⟩ := h
  have : ctDivStep secS a d (w - 1 - 0) (0#w, 0#w) =
        ((shl 0#w 1 >>= fun r => set secS r 0 a (w - 1 - 0)) >>= fun r =>
          (secS : IntOps w).gteBm r d >>= fun geq => csetBit 0#w 1#w (w - 1 - 0) geq >>= fun q' =>
            .ok (q', csub r d geq)) := by
    simp only [ctDivStep, bind_assoc']
  rw [this, h]
  rfl

end Hacspec.MachineInt
