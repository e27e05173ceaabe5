import Verif.Lemmas.ModArith

/-! # `extended_euclid_invert` over operations that panic on overflow -/

namespace Hacspec.MachineInt

open SecretInt

variable {w : Nat} {O : IntOps w} {B : Nat}

/-- While rule for bodies that may panic. -/
theorem whileM_or {σ : Type} (P : σ → Prop) (μ : σ → Nat) {cond : σ → Bool} {body : σ → M σ}
    (hs : ∀ s, P s → cond s = true → (∃ s', body s = .ok s' ∧ P s' ∧ μ s' < μ s) ∨ body s = panic)
    {fuel : Nat} {s : σ} (hP : P s) (hf : μ s < fuel) :
    (∃ t, whileM fuel cond body s = .ok t ∧ P t ∧ cond t = false) ∨ whileM fuel cond body s = panic := by
  induction fuel generalizing s with
  | zero => omega
  | succ f ih =>
    cases hc : cond s with
    | false => exact Or.inl ⟨s, whileM_done (Nat.succ_pos f) hc, hP, hc⟩
    | true =>
      rw [whileM_step hc]
      rcases hs s hP hc with ⟨s', hb, hP', hμ⟩ | hb
      · rw [hb, bind_ok]; exact ih hP' (by omega)
      · right; rw [hb, bind_panic]

/-- `O` panics when a sum or a product of values below `B` is not below `B`. -/
structure Checked (O : IntOps w) (B : Nat) : Prop extends ExactBelow O B where
  addP : ∀ a b : BitVec w, a.toNat < B → b.toNat < B → ¬ a.toNat + b.toNat < B → O.add a b = panic
  mulP : ∀ a b : BitVec w, a.toNat < B → b.toNat < B → ¬ a.toNat * b.toNat < B → O.mul a b = panic

theorem checked_pubU (hw : 0 < w) : Checked (pubU : IntOps w) (2 ^ w) where
  toExactBelow := exact_pubU hw
  addP a b _ _ h := by simp only [pubU, addU, checkedAddU]; rw [if_neg (by simpa using h)]
  mulP a b _ _ h := by simp only [pubU, mulU, checkedMulU]; rw [if_neg (by simpa using h)]

theorem checked_pubS (hw : 1 < w) : Checked (pubS : IntOps w) (2 ^ (w - 1)) where
  toExactBelow := exact_pubS hw
  addP a b ha hb h := by
    have hf : ¬ fitsS w (a.toInt + b.toInt) := by
      rw [toInt_small (by omega) ha, toInt_small (by omega) hb]
      simp only [fitsS, pow_cast]; omega
    simp [pubS, addS, checkedAddS, hf]
  mulP a b ha hb h := by
    have hf : ¬ fitsS w (a.toInt * b.toInt) := by
      rw [toInt_small (by omega) ha, toInt_small (by omega) hb, ← Int.natCast_mul]
      simp only [fitsS, pow_cast]; omega
    simp [pubS, mulS, checkedMulS, hf]

/-- The inner loop followed by the subtraction computes `start - prod` modulo `n`, or panics. -/
theorem subAdd_or (E : Checked O B) (n start prod : BitVec w) (hs : start.toNat < n.toNat) (hn : n.toNat < B)
    (hp : prod.toNat < B) :
    (∃ v, subAdd O n start prod = .ok v ∧ v.toNat < n.toNat ∧
      (n.toNat : Int) ∣ (v.toNat : Int) - ((start.toNat : Int) - prod.toNat)) ∨ subAdd O n start prod = panic := by
  have hB := E.le
  rcases whileM_or
    (fun t : BitVec w => t.toNat < prod.toNat + n.toNat ∧ (n.toNat : Int) ∣ (t.toNat : Int) - start.toNat
       ∧ t.toNat < B ∧ (prod.toNat ≤ t.toNat → t.toNat - prod.toNat < n.toNat))
    (fun t => prod.toNat - t.toNat) (cond := fun t => O.lt t prod) (body := fun t => O.add t n)
    (by
      intro s ⟨h1, h2, h3, h4⟩ hc
      rw [E.lt s prod h3 hp] at hc
      simp only [decide_eq_true_eq] at hc
      by_cases hfit : s.toNat + n.toNat < B
      · left
        have hv : (s + n).toNat = s.toNat + n.toNat := by
          rw [BitVec.toNat_add]; exact Nat.mod_eq_of_lt (by omega)
        refine ⟨s + n, E.add s n hfit, ⟨by omega, ?_, by omega, by omega⟩, by omega⟩
        rw [hv]; push_cast
        have : (s.toNat : Int) + n.toNat - start.toNat = (s.toNat - start.toNat) + n.toNat := by ring
        rw [this]
        exact Int.dvd_add h2 (Int.dvd_refl _)
      · right; exact E.addP s n h3 hn hfit)
    (fuel := 2 ^ w + 1) (s := start)
    ⟨by omega, by simp, by omega, by omega⟩
    (by have := prod.isLt; omega) with ⟨t, ht, ⟨htlt, hdv⟩, hc⟩ | ht
  · left
    rw [E.lt t prod hdv.2.1 hp] at hc
    simp only [decide_eq_false_iff_not, Nat.not_lt] at hc
    have hv : (t - prod).toNat = t.toNat - prod.toNat := BitVec.toNat_sub_of_le hc
    refine ⟨t - prod, ?_, by have := hdv.2.2 hc; omega, ?_⟩
    · simp only [subAdd, ht, bind_ok]; exact E.sub t prod hc hdv.2.1
    · rw [hv, Int.natCast_sub hc]
      have : (t.toNat : Int) - prod.toNat - (start.toNat - prod.toNat) = t.toNat - start.toNat := by ring
      rw [this]; exact hdv.1
  · right; simp only [subAdd, ht, bind_panic]

/-- Invariant of the Euclidean loop. -/
structure CInv (N X B : Nat) (s : EState w) : Prop where
  rB : s.r.toNat < B
  nB : s.newR.toNat < B
  tN : s.t.toNat < N
  ntN : s.newT.toNat < N
  gcd : Nat.gcd s.r.toNat s.newR.toNat = Nat.gcd X N
  bt : (N : Int) ∣ (s.t.toNat : Int) * X - s.r.toNat
  bnt : (N : Int) ∣ (s.newT.toNat : Int) * X - s.newR.toNat

theorem euclidStep_or (E : Checked O B) (n : BitVec w) (X : Nat) (hn : n.toNat < B)
    (s : EState w) (h : CInv n.toNat X B s) (hnz : s.newR ≠ 0#w) :
    (∃ s', euclidStep O n s = .ok s' ∧ CInv n.toNat X B s' ∧ s'.newR.toNat < s.newR.toNat) ∨ euclidStep O n s = panic := by
  have hB := E.le
  have hrpos : 0 < s.newR.toNat := by
    rcases Nat.eq_zero_or_pos s.newR.toNat with h0 | h0
    · exact absurd (BitVec.eq_of_toNat_eq (by simpa using h0)) hnz
    · exact h0
  have hqv : (s.r / s.newR).toNat = s.r.toNat / s.newR.toNat := BitVec.toNat_udiv
  have hqle : s.r.toNat / s.newR.toNat ≤ s.r.toNat := Nat.div_le_self _ _
  have hprod : s.r.toNat / s.newR.toNat * s.newR.toNat ≤ s.r.toNat := Nat.div_mul_le_self _ _
  have hmod : s.r.toNat - s.r.toNat / s.newR.toNat * s.newR.toNat = s.r.toNat % s.newR.toNat := by
    have := Nat.div_add_mod' s.r.toNat s.newR.toNat; omega
  have hpv : (s.r / s.newR * s.newR).toNat = s.r.toNat / s.newR.toNat * s.newR.toNat := by
    rw [BitVec.toNat_mul, hqv]; exact Nat.mod_eq_of_lt (by have := h.rB; omega)
  have hmodlt := Nat.mod_lt s.r.toNat hrpos
  have hqB : (s.r / s.newR).toNat < B := by rw [hqv]; have := h.rB; omega
  have hr' : (s.r - s.r / s.newR * s.newR).toNat = s.r.toNat % s.newR.toNat := by
    rw [BitVec.toNat_sub_of_le (by rw [BitVec.le_def, hpv]; exact hprod), hpv, hmod]
  have h1 : O.div s.r s.newR = .ok (s.r / s.newR) := E.div _ _ h.rB h.nB hnz
  have h2 : O.mul (s.r / s.newR) s.newR = .ok (s.r / s.newR * s.newR) :=
    E.mul _ _ hqB h.nB (by rw [hqv]; have := h.rB; omega)
  have h3 : subAdd O n s.r (s.r / s.newR * s.newR) = .ok (s.r - s.r / s.newR * s.newR) :=
    subAdd_ge E.toExactBelow n _ _ (by rw [hpv]; exact hprod) h.rB
  have hntB : s.newT.toNat < B := by have := h.ntN; omega
  simp only [euclidStep]
  rw [h1, bind_ok, h2, bind_ok, h3, bind_ok]
  by_cases hfit : (s.r / s.newR).toNat * s.newT.toNat < B
  · have htv : (s.r / s.newR * s.newT).toNat = s.r.toNat / s.newR.toNat * s.newT.toNat := by
      rw [BitVec.toNat_mul, hqv]; rw [hqv] at hfit; exact Nat.mod_eq_of_lt (by omega)
    rw [E.mul _ _ hqB hntB hfit, bind_ok]
    rcases subAdd_or E n s.t (s.r / s.newR * s.newT) h.tN hn (by rw [htv, ← hqv]; exact hfit) with ⟨v, hv, hvN, hvd⟩ | hv
    · left
      refine ⟨⟨s.newT, s.newR, v, s.r - s.r / s.newR * s.newR⟩, by rw [hv, bind_ok], ?_, by rw [hr']; exact hmodlt⟩
      constructor
      · exact h.nB
      · simp only [hr']; have := h.nB; omega
      · exact h.ntN
      · exact hvN
      · simp only [hr']
        rw [Nat.gcd_comm, ← Nat.gcd_rec, Nat.gcd_comm]; exact h.gcd
      · exact h.bnt
      · simp only [hr']
        rw [htv] at hvd
        obtain ⟨c, hc⟩ := hvd
        obtain ⟨a, ha⟩ := h.bt
        obtain ⟨b, hb⟩ := h.bnt
        refine ⟨a - (s.r.toNat / s.newR.toNat : Nat) * b + c * X, ?_⟩
        have hm : ((s.r.toNat % s.newR.toNat : Nat) : Int)
            = s.r.toNat - ((s.r.toNat / s.newR.toNat : Nat) : Int) * s.newR.toNat := by
          have := Nat.div_add_mod' s.r.toNat s.newR.toNat
          have h2 : (((s.r.toNat / s.newR.toNat) * s.newR.toNat + s.r.toNat % s.newR.toNat : Nat) : Int)
            = s.r.toNat := by rw [this]
          push_cast at h2 ⊢
          linarith
        rw [hm]
        push_cast at hc ⊢
        linear_combination X * hc + ha - ((s.r.toNat : Int) / s.newR.toNat) * hb
    · right; rw [hv, bind_panic]
  · right; rw [E.mulP _ _ hqB hntB hfit, bind_panic]

/-- Over checked operations the result is the inverse, or the call panics. -/
theorem euclidInvert_or (E : Checked O B) (x n : BitVec w) (hx : x ≠ 0#w) (hxB : x.toNat < B)
    (hn : 1 < n.toNat) (hnB : n.toNat < B) :
    (Nat.gcd x.toNat n.toNat = 1 ∧ ∃ y, euclidInvert O x n = .ok y ∧ y.toNat < n.toNat ∧
        (y.toNat * x.toNat) % n.toNat = 1) ∨ euclidInvert O x n = panic := by
  have hB := E.le
  have hpos := E.pos
  have h1w : (1#w).toNat = 1 := by
    rw [BitVec.toNat_ofNat]; exact Nat.mod_eq_of_lt (by omega)
  rcases whileM_or (CInv n.toNat x.toNat B) (fun s : EState w => s.newR.toNat)
    (cond := fun s => decide (s.newR ≠ 0#w)) (body := euclidStep O n)
    (fun s hP hc => euclidStep_or E n x.toNat hnB s hP (by simpa using hc))
    (fuel := 2 ^ (4 * w) + 1) (s := { t := 0#w, r := n, newT := 1#w, newR := x })
    { rB := hnB, nB := hxB, tN := by simp; omega, ntN := by simp only [h1w]; omega
      gcd := Nat.gcd_comm _ _
      bt := by simp
      bnt := by simp [h1w] }
    (by
      have h1 := x.isLt
      have : 2 ^ w ≤ 2 ^ (4 * w) := Nat.pow_le_pow_right (by omega) (by omega)
      simp only; omega) with ⟨s, hs, hI, hc⟩ | hs
  · have hz : s.newR = 0#w := by simpa using hc
    have hg : s.r.toNat = Nat.gcd x.toNat n.toNat := by
      have := hI.gcd; rw [hz] at this; simpa using this
    have hlt1 : O.lt 1#w s.r = decide (1 < s.r.toNat) := by
      rw [E.lt _ _ (by omega) hI.rB, h1w]
    have hlt0 : O.lt s.t 0#w = false := by
      rw [E.lt _ _ (by have := hI.tN; omega) (by simp; omega)]; simp
    have hgpos : 0 < Nat.gcd x.toNat n.toNat := Nat.gcd_pos_of_pos_right _ (by omega)
    by_cases hg1 : Nat.gcd x.toNat n.toNat = 1
    · left
      refine ⟨hg1, s.t, ?_, hI.tN, ?_⟩
      · simp only [euclidInvert, hs, bind_ok, hlt1, hg, hg1, hlt0]
        simp
      · have := hI.bt
        rw [hg, hg1] at this
        have h2 : ((s.t.toNat * x.toNat : Nat) : Int) % (n.toNat : Int) = 1 := by
          have h4 : ((s.t.toNat : Int) * x.toNat) % n.toNat = (1 : Int) % n.toNat :=
            Int.emod_eq_emod_iff_emod_sub_eq_zero.mpr (Int.emod_eq_zero_of_dvd (by simpa using this))
          push_cast
          rw [h4]; exact Int.emod_eq_of_lt (by omega) (by omega)
        exact_mod_cast h2
    · right
      simp only [euclidInvert, hs, bind_ok, hlt1, hg]
      rw [if_pos ⟨by simp; omega, hx⟩]
  · right; simp only [euclidInvert, hs, bind_panic]

end Hacspec.MachineInt
