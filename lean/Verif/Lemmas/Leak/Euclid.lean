import Verif.Lemmas.Leak.MachineInt

/-! # Numbers of iterations of `extended_euclid_invert` and `signed_mod` -/

namespace Hacspec.Leak.MachineInt

open SecretInt Hacspec.MachineInt

variable {w : Nat} {O : IntOps w} {B : Nat}

theorem toNat_one (E : ExactBelow O B) : (1#w).toNat = 1 := by
  rw [BitVec.toNat_ofNat]; exact Nat.mod_eq_of_lt (Nat.lt_of_lt_of_le E.pos E.le)

theorem ne_zero_of_pos {a : BitVec w} (h : 0 < a.toNat) : a ≠ 0#w := by
  intro h'; subst h'; simp at h

theorem eq_of_mod {a b n : Nat} {x : Int} (ha : a < n) (hb : b < n) (h1 : (n : Int) ∣ (a : Int) - x)
    (h2 : (n : Int) ∣ (b : Int) - x) : a = b := by
  have h := Int.dvd_sub h1 h2
  rw [show (a : Int) - x - (b - x) = (a : Int) - b by ring] at h
  obtain ⟨k, hk⟩ := h
  have hn : (0 : Int) < n := by omega
  rcases lt_trichotomy k 0 with hk0 | hk0 | hk0
  · have : (n : Int) * k ≤ n * (-1) := Int.mul_le_mul_of_nonneg_left (by omega) (by omega)
    omega
  · subst hk0; simp at hk; omega
  · have : (n : Int) * 1 ≤ n * k := Int.mul_le_mul_of_nonneg_left (by omega) (by omega)
    omega

/-- First iteration for `x = n - 1`. -/
theorem euclidStep_first (E : ExactBelow O B) {n x : BitVec w} (hn : 2 < n.toNat) (hx : x.toNat = n.toNat - 1)
    (hB : (n.toNat - 1) * (n.toNat - 1) + n.toNat ≤ B) :
    (euclidStep O n { t := 0#w, r := n, newT := 1#w, newR := x }).res = .ok { t := 1#w, r := x, newT := x, newR := 1#w } ∧
    (euclidStep O n { t := 0#w, r := n, newT := 1#w, newR := x }).trace =
      [.branch false, .branch true, .branch false] := by
  have h1 := toNat_one E
  have hpos : 0 < (n.toNat - 1) * (n.toNat - 1) := Nat.mul_pos (by omega) (by omega)
  have hq : O.div n x = .ok 1#w := by
    rw [E.div n x (by omega) (by omega) (ne_zero_of_pos (by omega))]
    congr 1
    apply BitVec.eq_of_toNat_eq
    rw [BitVec.toNat_udiv, h1, hx]
    exact Nat.div_eq_of_lt_le (by omega) (by omega)
  have hm1 : O.mul 1#w x = .ok x := by
    rw [E.mul 1#w x (by rw [h1]; exact E.pos) (by omega) (by rw [h1]; omega)]
    congr 1; apply BitVec.eq_of_toNat_eq; rw [BitVec.toNat_mul, h1, Nat.one_mul, Nat.mod_eq_of_lt x.isLt]
  have hm2 : O.mul 1#w 1#w = .ok 1#w := by
    rw [E.mul 1#w 1#w (by rw [h1]; exact E.pos) (by rw [h1]; exact E.pos) (by rw [h1]; exact E.pos)]
    congr 1; apply BitVec.eq_of_toNat_eq; rw [BitVec.toNat_mul, h1, Nat.one_mul, Nat.mod_eq_of_lt]
    exact Nat.lt_of_lt_of_le E.pos E.le
  have hs1 : Hacspec.MachineInt.subAdd O n n x = .ok 1#w := by
    rw [subAdd_ge E n n x (by omega) (by omega)]
    congr 1; apply BitVec.eq_of_toNat_eq
    rw [BitVec.toNat_sub_of_le (by rw [BitVec.le_def]; omega), h1]; omega
  have ht1 : (subAdd O n n x).trace = [.branch false] := trace_subAdd_ge E n n x (by omega) (by omega)
  have hs2 : Hacspec.MachineInt.subAdd O n 0#w 1#w = .ok x := by
    obtain ⟨v, hv, hlt, hd⟩ := subAdd_spec E n 0#w 1#w (by simp; omega) (by rw [h1]; omega)
    rw [hv]; congr 1; apply BitVec.eq_of_toNat_eq
    refine eq_of_mod hlt (by omega) hd ?_
    rw [hx, h1]
    simp
    rw [show ((n.toNat - 1 : Nat) : Int) + 1 = n.toNat by omega]
  have hc : cdiv 1 n.toNat = 1 := by
    rw [cdiv_step (by omega) (by omega), show 1 - n.toNat = 0 by omega, cdiv_zero (by omega)]
  have ht2 : (subAdd O n 0#w 1#w).trace = [.branch true, .branch false] := by
    rw [trace_subAdd E n 0#w 1#w (by omega) (by rw [h1]; exact E.pos) (by simp; omega) (by simp [h1, hc]; omega)]
    simp [h1, hc]
  constructor
  · rw [res_euclidStep, Hacspec.MachineInt.euclidStep]
    simp only [hq, hm1, hm2, hs1, hs2, bind_ok]
  · rw [euclidStep, trace_bind_lift hq, trace_bind_lift hm1, trace_bind_ok (c := subAdd O n n x) (by rw [res_subAdd, hs1]),
      ht1, trace_bind_lift hm2, trace_bind_ok (c := subAdd O n 0#w 1#w) (by rw [res_subAdd, hs2]), ht2]
    rfl

/-- Second iteration for `x = n - 1`: the inner loop runs `n - 2` times. -/
theorem euclidStep_second (E : ExactBelow O B) {n x : BitVec w} (hn : 2 < n.toNat) (hx : x.toNat = n.toNat - 1)
    (hB : (n.toNat - 1) * (n.toNat - 1) + n.toNat ≤ B) :
    (euclidStep O n { t := 1#w, r := x, newT := x, newR := 1#w }).res = .ok { t := x, r := 1#w, newT := 0#w, newR := 0#w } ∧
    (euclidStep O n { t := 1#w, r := x, newT := x, newR := 1#w }).trace =
      .branch false :: (List.replicate (n.toNat - 2) (.branch true) ++ [.branch false]) := by
  have h1 := toNat_one E
  have hle := E.le
  have hpos : 0 < (n.toNat - 1) * (n.toNat - 1) := Nat.mul_pos (by omega) (by omega)
  have hq : O.div x 1#w = .ok x := by
    rw [E.div x 1#w (by omega) (by rw [h1]; exact E.pos) (ne_zero_of_pos (by omega))]
    congr 1; apply BitVec.eq_of_toNat_eq
    rw [BitVec.toNat_udiv, h1, Nat.div_one]
  have hm1 : O.mul x 1#w = .ok x := by
    rw [E.mul x 1#w (by omega) (by rw [h1]; exact E.pos) (by rw [h1]; omega)]
    congr 1; apply BitVec.eq_of_toNat_eq; rw [BitVec.toNat_mul, h1, Nat.mul_one, Nat.mod_eq_of_lt x.isLt]
  have hsq : (x * x).toNat = (n.toNat - 1) * (n.toNat - 1) := by
    rw [BitVec.toNat_mul, hx]; exact Nat.mod_eq_of_lt (by omega)
  have hm2 : O.mul x x = .ok (x * x) := E.mul x x (by omega) (by omega) (by rw [hx]; omega)
  have hs1 : Hacspec.MachineInt.subAdd O n x x = .ok 0#w := by
    rw [subAdd_ge E n x x (Nat.le_refl _) (by omega)]; simp
  have ht1 : (subAdd O n x x).trace = [.branch false] := trace_subAdd_ge E n x x (Nat.le_refl _) (by omega)
  obtain ⟨m, hm⟩ : ∃ m, n.toNat = m + 2 := ⟨n.toNat - 2, by omega⟩
  have hs2 : Hacspec.MachineInt.subAdd O n 1#w (x * x) = .ok 0#w := by
    obtain ⟨v, hv, hlt, hd⟩ := subAdd_spec E n 1#w (x * x) (by omega) (by rw [hsq]; omega)
    rw [hv]; congr 1; apply BitVec.eq_of_toNat_eq
    refine eq_of_mod hlt (by simp; omega) hd ?_
    rw [hsq, h1, hm]
    refine ⟨m, ?_⟩
    simp
    ring
  have hdiff : (n.toNat - 1) * (n.toNat - 1) - 1 = (n.toNat - 2) * n.toNat := by
    rw [hm]
    have : (m + 2 - 1) * (m + 2 - 1) = m * (m + 2) + 1 := by
      rw [show m + 2 - 1 = m + 1 by omega]; ring
    rw [this]; simp
  have hc : cdiv ((n.toNat - 2) * n.toNat) n.toNat = n.toNat - 2 := by
    rw [cdiv, Nat.add_sub_assoc (by omega), Nat.mul_comm, Nat.mul_add_div (by omega), Nat.div_eq_of_lt (by omega),
      Nat.add_zero]
  have ht2 : (subAdd O n 1#w (x * x)).trace = List.replicate (n.toNat - 2) (.branch true) ++ [.branch false] := by
    have e : (x * x).toNat - (1#w).toNat = (n.toNat - 2) * n.toNat := by rw [hsq, h1, hdiff]
    rw [trace_subAdd E n 1#w (x * x) (by omega) (by rw [hsq]; omega) (by rw [h1]; exact E.pos)
      (by rw [e, hc, h1, ← hdiff]; omega), e, hc]
  constructor
  · rw [res_euclidStep, Hacspec.MachineInt.euclidStep]
    simp only [hq, hm1, hm2, hs1, hs2, bind_ok]
  · rw [euclidStep, trace_bind_lift hq, trace_bind_lift hm1, trace_bind_ok (c := subAdd O n x x) (by rw [res_subAdd, hs1]),
      ht1, trace_bind_lift hm2, trace_bind_ok (c := subAdd O n 1#w (x * x)) (by rw [res_subAdd, hs2]), ht2]
    simp

/-- All events of the inversion of `n - 1`. -/
theorem trace_euclidInvert_last (E : ExactBelow O B) {n x : BitVec w} (hn : 2 < n.toNat) (hx : x.toNat = n.toNat - 1)
    (hB : (n.toNat - 1) * (n.toNat - 1) + n.toNat ≤ B) :
    (euclidInvert O x n).res = .ok x ∧ (euclidInvert O x n).trace =
      [.branch true, .branch false, .branch true, .branch false, .branch true, .branch false] ++
        List.replicate (n.toNat - 2) (.branch true) ++
        [.branch false, .branch false, .branch false, .branch false] := by
  obtain ⟨r1, t1⟩ := euclidStep_first E hn hx hB
  obtain ⟨r2, t2⟩ := euclidStep_second E hn hx hB
  have h1 := toNat_one E
  have hpos : 0 < (n.toNat - 1) * (n.toNat - 1) := Nat.mul_pos (by omega) (by omega)
  have hx0 : x ≠ 0#w := ne_zero_of_pos (by omega)
  have h10 : (1#w : BitVec w) ≠ 0#w := ne_zero_of_pos (by omega)
  have hw : 0 < w := by
    rcases Nat.eq_zero_or_pos w with h | h
    · subst h; have := n.isLt; simp at this; omega
    · exact h
  obtain ⟨f, hf⟩ : ∃ f, 2 ^ (4 * w) + 1 = (f + 1) + 1 + 1 := by
    have : 2 ^ 4 ≤ 2 ^ (4 * w) := Nat.pow_le_pow_right (by omega) (by omega)
    exact ⟨2 ^ (4 * w) - 2, by omega⟩
  have hr : (whileL (2 ^ (4 * w) + 1) (fun s : EState w => decide (s.newR ≠ 0#w)) (euclidStep O n)
      { t := 0#w, r := n, newT := 1#w, newR := x }).res = .ok { t := x, r := 1#w, newT := 0#w, newR := 0#w } := by
    rw [hf, res_whileL, whileM_step (by simpa using hx0), r1, bind_ok, whileM_step (by simpa using h10), r2, bind_ok,
      whileM_done (Nat.succ_pos f) (by simp)]
  have ht : (whileL (2 ^ (4 * w) + 1) (fun s : EState w => decide (s.newR ≠ 0#w)) (euclidStep O n)
      { t := 0#w, r := n, newT := 1#w, newR := x }).trace =
      [.branch true, .branch false, .branch true, .branch false, .branch true, .branch false] ++
        List.replicate (n.toNat - 2) (.branch true) ++ [.branch false, .branch false] := by
    rw [hf, whileL_step (by simpa using hx0), trace_bind_ok r1, t1, whileL_step (by simpa using h10), trace_bind_ok r2,
      t2, whileL_done (Nat.succ_pos f) (by simp)]
    simp
  have hl1 : O.lt 1#w 1#w = false := by rw [E.lt _ _ (by rw [h1]; exact E.pos) (by rw [h1]; exact E.pos)]; simp
  have hl2 : O.lt x 0#w = false := by rw [E.lt _ _ (by omega) (by simp; omega)]; simp
  constructor
  · rw [euclidInvert, res_bind, hr]
    simp [hl1, hl2]
  · rw [euclidInvert, trace_bind_ok hr, ht]
    simp [branch, hl1, hl2]

/-- All events of the inversion of 1. -/
theorem trace_euclidInvert_one (E : ExactBelow O B) {n : BitVec w} (hn : 1 < n.toNat) (hB : n.toNat < B) :
    (euclidInvert O 1#w n).trace = [.branch true, .branch false, .branch true, .branch false, .branch false,
      .branch false, .branch false] := by
  have h1 := toNat_one E
  have hle := E.le
  have h10 : (1#w : BitVec w) ≠ 0#w := ne_zero_of_pos (by omega)
  have hq : O.div n 1#w = .ok n := by
    rw [E.div n 1#w hB (by rw [h1]; exact E.pos) h10]
    congr 1; apply BitVec.eq_of_toNat_eq
    rw [BitVec.toNat_udiv, h1, Nat.div_one]
  have hm1 : O.mul n 1#w = .ok n := by
    rw [E.mul n 1#w hB (by rw [h1]; exact E.pos) (by rw [h1]; omega)]
    congr 1; apply BitVec.eq_of_toNat_eq; rw [BitVec.toNat_mul, h1, Nat.mul_one, Nat.mod_eq_of_lt n.isLt]
  have hs1 : Hacspec.MachineInt.subAdd O n n n = .ok 0#w := by
    rw [subAdd_ge E n n n (Nat.le_refl _) hB]; simp
  have ht1 : (subAdd O n n n).trace = [.branch false] := trace_subAdd_ge E n n n (Nat.le_refl _) hB
  have hc : cdiv n.toNat n.toNat = 1 := by
    rw [cdiv_step (by omega) (by omega), Nat.sub_self, cdiv_zero (by omega)]
  have ht2 : (subAdd O n 0#w n).trace = [.branch true, .branch false] := by
    rw [trace_subAdd E n 0#w n (by omega) hB (by simp; omega) (by simp [hc]; omega)]
    simp [hc]
  have hs2 : Hacspec.MachineInt.subAdd O n 0#w n = .ok 0#w := by
    have e1 : O.add 0#w n = .ok n := by rw [E.add 0#w n (by simp; omega)]; simp
    have e2 : O.lt 0#w n = true := by rw [E.lt _ _ (by simp; omega) hB]; simp; omega
    have e3 : O.lt n n = false := by rw [E.lt _ _ hB hB]; simp
    rw [Hacspec.MachineInt.subAdd, show 2 ^ w + 1 = (2 ^ w - 1 + 1) + 1 by have := Nat.two_pow_pos w; omega,
      whileM_step (by exact e2), e1, bind_ok, whileM_done (Nat.succ_pos _) (by exact e3), bind_ok,
      E.sub n n (Nat.le_refl _) hB]
    simp
  have r1 : (euclidStep O n { t := 0#w, r := n, newT := 1#w, newR := 1#w }).res =
      .ok { t := 1#w, r := 1#w, newT := 0#w, newR := 0#w } := by
    rw [res_euclidStep, Hacspec.MachineInt.euclidStep]
    simp only [hq, hm1, hs1, hs2, bind_ok]
  have t1 : (euclidStep O n { t := 0#w, r := n, newT := 1#w, newR := 1#w }).trace =
      [.branch false, .branch true, .branch false] := by
    rw [euclidStep, trace_bind_lift hq, trace_bind_lift hm1, trace_bind_ok (c := subAdd O n n n) (by rw [res_subAdd, hs1]),
      ht1, trace_bind_lift hm1, trace_bind_ok (c := subAdd O n 0#w n) (by rw [res_subAdd, hs2]), ht2]
    rfl
  obtain ⟨f, hf⟩ : ∃ f, 2 ^ (4 * w) + 1 = (f + 1) + 1 := ⟨2 ^ (4 * w) - 1, by have := Nat.two_pow_pos (4 * w); omega⟩
  have hr : (whileL (2 ^ (4 * w) + 1) (fun s : EState w => decide (s.newR ≠ 0#w)) (euclidStep O n)
      { t := 0#w, r := n, newT := 1#w, newR := 1#w }).res = .ok { t := 1#w, r := 1#w, newT := 0#w, newR := 0#w } := by
    rw [hf, res_whileL, whileM_step (by simpa using h10), r1, bind_ok, whileM_done (Nat.succ_pos f) (by simp)]
  have ht : (whileL (2 ^ (4 * w) + 1) (fun s : EState w => decide (s.newR ≠ 0#w)) (euclidStep O n)
      { t := 0#w, r := n, newT := 1#w, newR := 1#w }).trace =
      [.branch true, .branch false, .branch true, .branch false, .branch false] := by
    rw [hf, whileL_step (by simpa using h10), trace_bind_ok r1, t1, whileL_done (Nat.succ_pos f) (by simp)]
    simp
  have hl1 : O.lt 1#w 1#w = false := by rw [E.lt _ _ (by rw [h1]; exact E.pos) (by rw [h1]; exact E.pos)]; simp
  have hl2 : O.lt 1#w 0#w = false := by rw [E.lt _ _ (by omega) (by simp; omega)]; simp
  rw [euclidInvert, trace_bind_ok hr, ht]
  simp [branch, hl1, hl2]

/-! ## The main loop -/

theorem whileM_fuel {σ : Type} (P : σ → Prop) (μ : σ → Nat) {cond : σ → Bool} {body : σ → M σ}
    (hb : ∀ s s', P s → cond s = true → body s = .ok s' → P s' ∧ μ s' < μ s) {f f' : Nat} {s : σ} (hP : P s)
    (hf : μ s < f) (hf' : μ s < f') : whileM f cond body s = whileM f' cond body s := by
  induction f generalizing f' s with
  | zero => omega
  | succ f ih =>
    obtain ⟨g, rfl⟩ : ∃ g, f' = g + 1 := ⟨f' - 1, by omega⟩
    cases hc : cond s with
    | false => rw [whileM_done (Nat.succ_pos f) hc, whileM_done (Nat.succ_pos g) hc]
    | true =>
      rw [whileM_step hc, whileM_step hc]
      cases hs : body s with
      | error e => rfl
      | ok s' =>
        obtain ⟨h1, h2⟩ := hb s s' hP hc hs
        rw [bind_ok, bind_ok]
        exact ih h1 (by omega) (by omega)

/-- Number of binary digits. -/
def digits (a : Nat) : Nat := if a = 0 then 0 else a.log2 + 1

theorem lt_digits (a : Nat) : a < 2 ^ digits a := by
  unfold digits
  split
  · omega
  · exact Nat.lt_log2_self

theorem digits_le {a k : Nat} (h : a < 2 ^ k) : digits a ≤ k := by
  unfold digits
  split
  · omega
  · rename_i h0
    have := (Nat.log2_lt h0).2 h
    omega

theorem digits_mod {a b : Nat} (hb : 0 < b) (hab : b ≤ a) : digits (a % b) < digits a := by
  have h : a % b < a - a % b := by
    have h1 := Nat.mod_lt a hb
    have h2 := Nat.div_add_mod a b
    have h3 : 1 ≤ a / b := (Nat.one_le_div_iff hb).2 hab
    have h4 : b * 1 ≤ b * (a / b) := Nat.mul_le_mul_left b h3
    omega
  have h0 : 0 < digits a := by unfold digits; split <;> omega
  have h1 := lt_digits a
  have : a % b < 2 ^ (digits a - 1) := by
    have e : 2 ^ digits a = 2 * 2 ^ (digits a - 1) := by rw [← Nat.pow_succ']; congr 1; omega
    omega
  have := digits_le this
  omega

/-- The remainders of the main loop. -/
theorem euclidStep_rem (E : ExactBelow O B) (n : BitVec w) (s s' : EState w) (hr : s.r.toNat < B) (hn : s.newR.toNat < B)
    (h0 : s.newR ≠ 0#w) (h : Hacspec.MachineInt.euclidStep O n s = .ok s') :
    s'.r = s.newR ∧ s'.newR.toNat = s.r.toNat % s.newR.toNat := by
  have hprod : s.r.toNat / s.newR.toNat * s.newR.toNat ≤ s.r.toNat := Nat.div_mul_le_self _ _
  have hqv : (s.r / s.newR).toNat = s.r.toNat / s.newR.toNat := BitVec.toNat_udiv
  have hqle : s.r.toNat / s.newR.toNat ≤ s.r.toNat := Nat.div_le_self _ _
  have hpv : (s.r / s.newR * s.newR).toNat = s.r.toNat / s.newR.toNat * s.newR.toNat := by
    rw [BitVec.toNat_mul, hqv]; exact Nat.mod_eq_of_lt (Nat.lt_of_le_of_lt hprod s.r.isLt)
  simp only [Hacspec.MachineInt.euclidStep] at h
  rw [E.div s.r s.newR hr hn h0, bind_ok,
    E.mul _ s.newR (by omega) hn (by rw [hqv]; omega), bind_ok, subAdd_ge E n _ _ (by rw [hpv]; exact hprod) hr, bind_ok] at h
  obtain ⟨p, _, h⟩ := bind_eq_ok.1 h
  obtain ⟨v, _, h⟩ := bind_eq_ok.1 h
  rw [Except.ok.injEq] at h
  subst h
  refine ⟨rfl, ?_⟩
  show (s.r - s.r / s.newR * s.newR).toNat = _
  rw [BitVec.toNat_sub_of_le (by rw [BitVec.le_def, hpv]; exact hprod), hpv]
  have := Nat.div_add_mod' s.r.toNat s.newR.toNat
  omega

/-- Upper bound of the number of remaining iterations of the main loop. -/
def mainBound (s : EState w) : Nat :=
  digits s.r.toNat + digits s.newR.toNat + if s.newR.toNat ≤ s.r.toNat then 0 else 1

theorem main_fuel (E : ExactBelow O B) (n x : BitVec w) (hn : n.toNat < B) (hx : x.toNat < B) {f f' : Nat}
    (hf : 2 * w + 1 < f) (hf' : 2 * w + 1 < f') :
    whileM f (fun s : EState w => decide (s.newR ≠ 0#w)) (Hacspec.MachineInt.euclidStep O n)
      { t := 0#w, r := n, newT := 1#w, newR := x } =
    whileM f' (fun s : EState w => decide (s.newR ≠ 0#w)) (Hacspec.MachineInt.euclidStep O n)
      { t := 0#w, r := n, newT := 1#w, newR := x } := by
  have hb : mainBound ({ t := 0#w, r := n, newT := 1#w, newR := x } : EState w) ≤ 2 * w + 1 := by
    have h1 := digits_le n.isLt
    have h2 := digits_le x.isLt
    simp only [mainBound]
    split <;> omega
  refine whileM_fuel (fun s => s.r.toNat < B ∧ s.newR.toNat < B) mainBound ?_ ⟨hn, hx⟩ (by omega) (by omega)
  intro s s' ⟨h1, h2⟩ hc hs
  have h0 : s.newR ≠ 0#w := by simpa using hc
  have hpos : 0 < s.newR.toNat := by
    rcases Nat.eq_zero_or_pos s.newR.toNat with h | h
    · exact absurd (BitVec.eq_of_toNat_eq (by simpa using h)) h0
    · exact h
  obtain ⟨e1, e2⟩ := euclidStep_rem E n s s' h1 h2 h0 hs
  have hlt : s'.newR.toNat < s.newR.toNat := by rw [e2]; exact Nat.mod_lt _ hpos
  refine ⟨⟨by rw [e1]; exact h2, by omega⟩, ?_⟩
  simp only [mainBound, e1]
  rw [if_pos (by omega)]
  by_cases hle : s.newR.toNat ≤ s.r.toNat
  · have := digits_mod hpos hle
    rw [if_pos hle, e2]; omega
  · rw [if_neg hle, e2, Nat.mod_eq_of_lt (by omega)]; omega

/-! ## `signed_mod` -/

theorem trace_signedMod_pos {x n : Int} (hx : fitsS 128 x) (hn : 0 < n) (hnf : fitsS 128 n) :
    (signedMod x n).trace = if 0 ≤ x.tmod n then [.branch false] else [.branch true, .branch false] := by
  have hq : fitsS 128 (x.tdiv n) := by
    refine fits_of_le hx (Int.natAbs_tdiv_le_natAbs x n) ?_
    intro h
    have h1 := Int.natAbs_tdiv_le_natAbs x n
    simp only [fitsS] at hx
    have hxx : x = -2 ^ 127 := by omega
    have : x.tdiv n ≤ 0 := by
      have h2 := Int.tdiv_nonneg (a := -x) (b := n) (by omega) (by omega)
      rw [Int.neg_tdiv] at h2; omega
    omega
  have hlo : -n < x.tmod n := by
    have h1 := Int.tmod_lt_of_pos (-x) hn
    rw [Int.neg_tmod] at h1; omega
  have e1 : Hacspec.require (n ≠ 0) = .ok () := Hacspec.require_true (by omega)
  have e2 : i128 (x.tdiv n) = .ok (x.tdiv n) := by simp [i128, hq]
  rw [signedMod, trace_bind_lift e1, trace_bind_lift e2]
  show (whileL (2 ^ 128 + 1) _ _ (x.tmod n)).trace = _
  by_cases h0 : 0 ≤ x.tmod n
  · rw [whileL_done (by positivity) (by simpa using h0), if_pos h0]
  · have e3 : i128 (x.tmod n + n) = .ok (x.tmod n + n) := by
      have : fitsS 128 (x.tmod n + n) := by simp only [fitsS] at *; omega
      simp [i128, this]
    rw [whileL_step (by simpa using h0), trace_bind_lift e3, whileL_done (by positivity) (by simp; omega), if_neg h0]

theorem trace_signedLoop_neg {n : Int} (hn : n < 0) (fuel : Nat) (r : Int) (hr : r < 0)
    (hlo : -(2 ^ 127 : Int) ≤ r) (hf : (r + 2 ^ 127).toNat < fuel) :
    (whileL fuel (fun r => decide (r < 0)) (fun r => lift (i128 (r + n))) r).trace =
      List.replicate ((r + 2 ^ 127).toNat / (-n).toNat + 1) (.branch true) := by
  induction fuel generalizing r with
  | zero => omega
  | succ f ih =>
    rw [whileL_step (by simpa using hr)]
    by_cases h : fitsS 128 (r + n)
    · have h' : i128 (r + n) = .ok (r + n) := by simp [i128, h]
      simp only [fitsS] at h
      rw [trace_bind_lift h', ih (r + n) (by omega) (by omega) (by omega)]
      have e : (r + 2 ^ 127).toNat = (r + n + 2 ^ 127).toNat + (-n).toNat := by omega
      rw [e, Nat.add_div_right _ (by omega)]
      rfl
    · have h' : i128 (r + n) = Hacspec.panic := by simp [i128, h]
      simp only [fitsS] at h
      rw [trace_bind_err (c := lift (i128 (r + n))) (e := .panic) h', Nat.div_eq_of_lt (by omega)]
      rfl

theorem trace_signedMod_neg {x n : Int} (hn : n < 0) (hnf : fitsS 128 n) (hr : x.tmod n < 0)
    (hq : fitsS 128 (x.tdiv n)) :
    (signedMod x n).trace = List.replicate ((x.tmod n + 2 ^ 127).toNat / (-n).toNat + 1) (.branch true) := by
  have hgt : n < x.tmod n := by
    have h1 := Int.tmod_lt_of_pos (-x) (show 0 < -n by omega)
    rw [Int.neg_tmod, Int.tmod_neg] at h1; omega
  have e1 : Hacspec.require (n ≠ 0) = .ok () := Hacspec.require_true (by omega)
  have e2 : i128 (x.tdiv n) = .ok (x.tdiv n) := by simp [i128, hq]
  rw [signedMod, trace_bind_lift e1, trace_bind_lift e2]
  show (whileL (2 ^ 128 + 1) _ _ (x.tmod n)).trace = _
  simp only [fitsS] at hnf
  exact trace_signedLoop_neg hn _ _ hr (by omega) (by omega)

end Hacspec.Leak.MachineInt
