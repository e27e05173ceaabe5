import Verif.Lemmas.AesCipher
import Verif.Spec.Diffusion

/-! # AES: how many bytes differ between two computations -/

namespace Hacspec.Aes

open Spec.Aes

/-- 1 for a byte other than 0. -/
def nz (x : U8) : Nat := if x = 0 then 0 else 1

theorem nz_le (x : U8) : nz x ≤ 1 := by unfold nz; split <;> omega
theorem nz_pos {x : U8} (h : x ≠ 0) : nz x = 1 := if_neg h
theorem nz_zero : nz 0 = 0 := rfl

theorem gmul_zero : ∀ p : U8, gmul p 0 = 0 := by decide +kernel

/-- Multiplication by `p` is injective at 0. -/
def Reg (p : U8) : Prop := ∀ x : U8, gmul p x = 0 → x = 0

instance (p : U8) : Decidable (Reg p) := by unfold Reg; infer_instance

/-- The determinant of `(p q; r s)` is not 0. -/
def Indep (p q r s : U8) : Prop := ∀ a b : U8, gmul p a = gmul q b → gmul r a = gmul s b → a = 0 ∧ b = 0

/-- Solving the first equation for `b`, with `i` the inverse of `q`. -/
theorem indep {p q r s : U8} (i : U8) (h1 : ∀ b : U8, gmul i (gmul q b) = b)
    (h2 : ∀ a : U8, gmul r a = gmul s (gmul i (gmul p a)) → a = 0) : Indep p q r s := by
  intro a b e1 e2
  have eb : b = gmul i (gmul p a) := by rw [e1, h1]
  have ea := h2 a (by rw [← eb, e2])
  subst ea
  exact ⟨rfl, by rw [eb, gmul_zero, gmul_zero]⟩

theorem inv1 : ∀ b : U8, gmul 1 (gmul 1 b) = b := by decide +kernel
theorem inv2 : ∀ b : U8, gmul 0x8d (gmul 2 b) = b := by decide +kernel
theorem inv3 : ∀ b : U8, gmul 0xf6 (gmul 3 b) = b := by decide +kernel

theorem i2312 : Indep 2 3 1 2 := indep 0xf6 inv3 (by decide +kernel)
theorem i2311 : Indep 2 3 1 1 := indep 0xf6 inv3 (by decide +kernel)
theorem i2331 : Indep 2 3 3 1 := indep 0xf6 inv3 (by decide +kernel)
theorem i1211 : Indep 1 2 1 1 := indep 0x8d inv2 (by decide +kernel)
theorem i1231 : Indep 1 2 3 1 := indep 0x8d inv2 (by decide +kernel)
theorem i1131 : Indep 1 1 3 1 := indep 1 inv1 (by decide +kernel)
theorem i2113 : Indep 2 1 1 3 := indep 1 inv1 (by decide +kernel)
theorem i2112 : Indep 2 1 1 2 := indep 1 inv1 (by decide +kernel)
theorem i2131 : Indep 2 1 3 1 := indep 1 inv1 (by decide +kernel)
theorem i1312 : Indep 1 3 1 2 := indep 0xf6 inv3 (by decide +kernel)
theorem i1331 : Indep 1 3 3 1 := indep 0xf6 inv3 (by decide +kernel)

theorem Indep.symm {p q r s : U8} (h : Indep p q r s) : Indep r s p q := fun a b e1 e2 => h a b e2 e1
theorem Indep.swap {p q r s : U8} (h : Indep p q r s) : Indep q p s r := fun a b e1 e2 => (h b a e1.symm e2.symm).symm

theorem three {p0 q0 p1 q1 p2 q2 p3 q3 : U8} (h01 : Indep p0 q0 p1 q1) (h02 : Indep p0 q0 p2 q2) (h03 : Indep p0 q0 p3 q3)
    (h12 : Indep p1 q1 p2 q2) (h13 : Indep p1 q1 p3 q3) (h23 : Indep p2 q2 p3 q3) {a b : U8} (h : ¬ (a = 0 ∧ b = 0)) :
    3 ≤ nz (gmul p0 a ^^^ gmul q0 b) + nz (gmul p1 a ^^^ gmul q1 b) + nz (gmul p2 a ^^^ gmul q2 b) +
      nz (gmul p3 a ^^^ gmul q3 b) := by
  have k : ∀ {p q r s : U8}, Indep p q r s → 1 ≤ nz (gmul p a ^^^ gmul q b) + nz (gmul r a ^^^ gmul s b) := by
    intro p q r s hi
    by_cases e : gmul p a ^^^ gmul q b = 0
    · by_cases f : gmul r a ^^^ gmul s b = 0
      · exact absurd (hi a b (BitVec.xor_eq_zero_iff.1 e) (BitVec.xor_eq_zero_iff.1 f)) h
      · rw [nz_pos f]; omega
    · rw [nz_pos e]; omega
  have := k h01; have := k h02; have := k h03; have := k h12; have := k h13; have := k h23
  omega

theorem nz_cases (x : U8) : (x = 0 ∧ nz x = 0) ∨ (x ≠ 0 ∧ nz x = 1) := by
  by_cases h : x = 0
  · exact .inl ⟨h, by rw [h]; rfl⟩
  · exact .inr ⟨h, nz_pos h⟩

theorem xor_0 (x : U8) : x ^^^ 0 = x := BitVec.xor_zero
theorem zero_xor' (x : U8) : 0 ^^^ x = x := BitVec.zero_xor

/-- One nonzero byte makes a column without zeros. -/
theorem one_to_four {c0 c1 c2 c3 : U8} (h0 : Reg c0) (h1 : Reg c1) (h2 : Reg c2) (h3 : Reg c3) {a b c d a' b' c' d' : U8}
    (h : col gmul c0 c1 c2 c3 a b c d = [a', b', c', d']) (hw : nz a + nz b + nz c + nz d = 1) :
    nz a' + nz b' + nz c' + nz d' = 4 := by
  simp only [col, List.cons.injEq, and_true] at h
  obtain ⟨rfl, rfl, rfl, rfl⟩ := h
  rcases nz_cases a with ⟨ha, ea⟩ | ⟨ha, ea⟩ <;> rcases nz_cases b with ⟨hb, eb⟩ | ⟨hb, eb⟩ <;>
    rcases nz_cases c with ⟨hc, ec⟩ | ⟨hc, ec⟩ <;> rcases nz_cases d with ⟨hd, ed⟩ | ⟨hd, ed⟩ <;>
    first
    | (exfalso; omega)
    | (simp only [ha, hb, hc, hd, gmul_zero, xor_0, zero_xor']
       first
       | rw [nz_pos fun e => ha (h0 _ e), nz_pos fun e => ha (h1 _ e), nz_pos fun e => ha (h2 _ e), nz_pos fun e => ha (h3 _ e)]
       | rw [nz_pos fun e => hb (h0 _ e), nz_pos fun e => hb (h1 _ e), nz_pos fun e => hb (h2 _ e), nz_pos fun e => hb (h3 _ e)]
       | rw [nz_pos fun e => hc (h0 _ e), nz_pos fun e => hc (h1 _ e), nz_pos fun e => hc (h2 _ e), nz_pos fun e => hc (h3 _ e)]
       | rw [nz_pos fun e => hd (h0 _ e), nz_pos fun e => hd (h1 _ e), nz_pos fun e => hd (h2 _ e), nz_pos fun e => hd (h3 _ e)])

/-- Two nonzero bytes make at least three. -/
theorem two_to_three {a b c d a' b' c' d' : U8} (h : col gmul 2 1 1 3 a b c d = [a', b', c', d'])
    (hw : nz a + nz b + nz c + nz d = 2) : 3 ≤ nz a' + nz b' + nz c' + nz d' := by
  simp only [col, List.cons.injEq, and_true] at h
  obtain ⟨rfl, rfl, rfl, rfl⟩ := h
  rcases nz_cases a with ⟨ha, ea⟩ | ⟨ha, ea⟩ <;> rcases nz_cases b with ⟨hb, eb⟩ | ⟨hb, eb⟩ <;>
    rcases nz_cases c with ⟨hc, ec⟩ | ⟨hc, ec⟩ <;> rcases nz_cases d with ⟨hd, ed⟩ | ⟨hd, ed⟩ <;>
    first
    | (exfalso; omega)
    | simp only [ha, hb, hc, hd, gmul_zero, xor_0, zero_xor']
  · -- `c`, `d`
    exact three i1131 i2311.symm i1211.symm i2331.symm i1231.symm i2312 fun e => hc e.1
  · -- `b`, `d`
    exact three i2131.symm i1331.symm i1231.symm i2113 i2112 i1312 fun e => hb e.1
  · -- `b`, `c`
    exact three i2331.symm i1231.symm i1131.symm i2312 i2311 i1211 fun e => hb e.1
  · -- `a`, `d`
    exact three i1211.swap i1231.swap i2312.symm.swap i1131.swap i2311.symm.swap i2331.symm.swap fun e => ha e.1
  · -- `a`, `c`
    exact three i2113 i2112 i2131 i1312 i1331 i1231 fun e => ha e.1
  · -- `a`, `b`
    exact three i2312 i2311 i2331 i1211 i1231 i1131 fun e => ha e.1

/-- The branch number of the column map is 5. -/
theorem branch5 {a b c d a' b' c' d' : U8} (h : col gmul 2 1 1 3 a b c d = [a', b', c', d'])
    (hw : 1 ≤ nz a + nz b + nz c + nz d) : 5 ≤ nz a + nz b + nz c + nz d + (nz a' + nz b' + nz c' + nz d') := by
  have hi := col_inv gmul1 gmul3 gmul2_xor gmul9 gmulb gmuld gmule a b c d a' b' c' d' h
  have l := nz_le a; have l1 := nz_le b; have l2 := nz_le c; have l3 := nz_le d
  have l4 := nz_le a'; have l5 := nz_le b'; have l6 := nz_le c'; have l7 := nz_le d'
  by_cases h1 : nz a + nz b + nz c + nz d = 1
  · have := one_to_four (by decide +kernel) (by decide +kernel) (by decide +kernel) (by decide +kernel) h h1
    omega
  by_cases h2 : nz a + nz b + nz c + nz d = 2
  · have := two_to_three h h2
    omega
  by_cases h3 : nz a' + nz b' + nz c' + nz d' = 1
  · have := one_to_four (by decide +kernel) (by decide +kernel) (by decide +kernel) (by decide +kernel) hi h3
    omega
  by_cases h4 : nz a' + nz b' + nz c' + nz d' = 0
  · have z : ∀ x, nz x = 0 → x = 0 := fun x hx => (nz_cases x).elim And.left fun h => by omega
    rw [z a' (by omega), z b' (by omega), z c' (by omega), z d' (by omega)] at hi
    simp only [col, gmul_zero, xor_0, List.cons.injEq, and_true] at hi
    obtain ⟨rfl, rfl, rfl, rfl⟩ := hi
    rw [nz_zero] at hw
    omega
  · omega

/-! ## Rounds -/

theorem nz_xor_eq (x y : U8) : nz (x ^^^ y) = if x ≠ y then 1 else 0 := by
  by_cases h : x = y
  · subst h
    rw [if_neg (fun h => h rfl), BitVec.xor_self]
    rfl
  · rw [if_pos h, nz_pos fun e => h (BitVec.xor_eq_zero_iff.1 e)]

theorem sub_inj {x y : U8} (h : sub x = sub y) : x = y := by rw [← invSub_sub x, h, invSub_sub]

/-- SubBytes keeps a difference a difference. -/
theorem nz_sub (x y : U8) : nz (sub x ^^^ sub y) = nz (x ^^^ y) := by
  rw [nz_xor_eq, nz_xor_eq]
  by_cases h : x = y
  · rw [h]
    simp
  · rw [if_pos h, if_pos fun e => h (sub_inj e)]

theorem gmul3_xor (x y : U8) : gmul 3 (x ^^^ y) = gmul 3 x ^^^ gmul 3 y := by
  rw [gmul3, gmul3, gmul3, gmul2_xor]
  simp only [BitVec.xor_assoc]
  congr 1
  rw [← BitVec.xor_assoc, ← BitVec.xor_assoc, BitVec.xor_comm x]

theorem xor4 (a b c d a' b' c' d' k : U8) :
    (a ^^^ b ^^^ c ^^^ d ^^^ k) ^^^ (a' ^^^ b' ^^^ c' ^^^ d' ^^^ k) =
      (a ^^^ a') ^^^ (b ^^^ b') ^^^ (c ^^^ c') ^^^ (d ^^^ d') := by
  ext i
  simp only [BitVec.getElem_xor]
  cases a[i] <;> cases b[i] <;> cases c[i] <;> cases d[i] <;> cases a'[i] <;> cases b'[i] <;> cases c'[i] <;> cases d'[i] <;>
    cases k[i] <;> rfl

/-- Bytes going into a column, bytes coming out: all equal, or at least five different in all. -/
def Link (i0 i1 i2 i3 o0 o1 o2 o3 : Nat) : Prop :=
  (i0 + i1 + i2 + i3 = 0 ∧ o0 + o1 + o2 + o3 = 0) ∨ 5 ≤ i0 + i1 + i2 + i3 + (o0 + o1 + o2 + o3)

/-- Whether byte `i` differs. -/
def act (s t : List U8) (i : Nat) : Nat := nz (s.getD i 0 ^^^ t.getD i 0)

theorem act_le (s t : List U8) (i : Nat) : act s t i ≤ 1 := nz_le _

theorem link_col (a b c d a' b' c' d' k0 k1 k2 k3 : U8) :
    Link (nz (a ^^^ a')) (nz (b ^^^ b')) (nz (c ^^^ c')) (nz (d ^^^ d'))
      (nz ((gmul 2 (sub a) ^^^ gmul 3 (sub b) ^^^ gmul 1 (sub c) ^^^ gmul 1 (sub d) ^^^ k0) ^^^
        (gmul 2 (sub a') ^^^ gmul 3 (sub b') ^^^ gmul 1 (sub c') ^^^ gmul 1 (sub d') ^^^ k0)))
      (nz ((gmul 1 (sub a) ^^^ gmul 2 (sub b) ^^^ gmul 3 (sub c) ^^^ gmul 1 (sub d) ^^^ k1) ^^^
        (gmul 1 (sub a') ^^^ gmul 2 (sub b') ^^^ gmul 3 (sub c') ^^^ gmul 1 (sub d') ^^^ k1)))
      (nz ((gmul 1 (sub a) ^^^ gmul 1 (sub b) ^^^ gmul 2 (sub c) ^^^ gmul 3 (sub d) ^^^ k2) ^^^
        (gmul 1 (sub a') ^^^ gmul 1 (sub b') ^^^ gmul 2 (sub c') ^^^ gmul 3 (sub d') ^^^ k2)))
      (nz ((gmul 3 (sub a) ^^^ gmul 1 (sub b) ^^^ gmul 1 (sub c) ^^^ gmul 2 (sub d) ^^^ k3) ^^^
        (gmul 3 (sub a') ^^^ gmul 1 (sub b') ^^^ gmul 1 (sub c') ^^^ gmul 2 (sub d') ^^^ k3))) := by
  simp only [xor4, gmul1]
  simp only [← gmul2_xor, ← gmul3_xor]
  rw [← nz_sub a, ← nz_sub b, ← nz_sub c, ← nz_sub d]
  generalize sub a ^^^ sub a' = p
  generalize sub b ^^^ sub b' = q
  generalize sub c ^^^ sub c' = r
  generalize sub d ^^^ sub d' = s
  by_cases h : nz p + nz q + nz r + nz s = 0
  · refine .inl ⟨h, ?_⟩
    have z : ∀ x, nz x = 0 → x = 0 := fun x hx => (nz_cases x).elim And.left fun h => by omega
    rw [z p (by omega), z q (by omega), z r (by omega), z s (by omega)]
    simp only [gmul_zero, xor_0, nz_zero]
  · refine .inr (branch5 ?_ (by omega))
    simp only [col, gmul1]

/-- What one round does to the positions that differ. -/
theorem round_link {s t k s' t' : List U8} (hs : s.length = 16) (ht : t.length = 16) (hk : k.length = 16)
    (es : aesEnc s k = .ok s') (et : aesEnc t k = .ok t') :
    let x := act s t; let y := act s' t'
    Link (x 0) (x 5) (x 10) (x 15) (y 0) (y 1) (y 2) (y 3) ∧ Link (x 4) (x 9) (x 14) (x 3) (y 4) (y 5) (y 6) (y 7) ∧
      Link (x 8) (x 13) (x 2) (x 7) (y 8) (y 9) (y 10) (y 11) ∧ Link (x 12) (x 1) (x 6) (x 11) (y 12) (y 13) (y 14) (y 15) := by
  rw [aesEnc_ok hs hk, Except.ok.injEq] at es
  rw [aesEnc_ok ht hk, Except.ok.injEq] at et
  subst es et
  obtain ⟨a0, a1, a2, a3, a4, a5, a6, a7, a8, a9, a10, a11, a12, a13, a14, a15, rfl⟩ := exists16 hs
  obtain ⟨b0, b1, b2, b3, b4, b5, b6, b7, b8, b9, b10, b11, b12, b13, b14, b15, rfl⟩ := exists16 ht
  obtain ⟨k0, k1, k2, k3, k4, k5, k6, k7, k8, k9, k10, k11, k12, k13, k14, k15, rfl⟩ := exists16 hk
  have e : ∀ a0 a1 a2 a3 a4 a5 a6 a7 a8 a9 a10 a11 a12 a13 a14 a15 : U8,
      Spec.Aes.shiftRows (Spec.Aes.subBytes [a0, a1, a2, a3, a4, a5, a6, a7, a8, a9, a10, a11, a12, a13, a14, a15]) =
      [sub a0, sub a5, sub a10, sub a15, sub a4, sub a9, sub a14, sub a3, sub a8, sub a13, sub a2, sub a7,
        sub a12, sub a1, sub a6, sub a11] := by
    intros
    simp [Spec.Aes.shiftRows, Spec.Aes.subBytes, List.range_succ]
  rw [e, e, mixColumns_mixWith, mixColumns_mixWith, show coeffs = [2, 1, 1, 3] from rfl, mixWith_eval, mixWith_eval]
  refine ⟨link_col .., link_col .., link_col .., link_col ..⟩

/-- The sum over the 16 positions, by columns. -/
def total (x : Nat → Nat) : Nat :=
  (x 0 + x 1 + x 2 + x 3) + (x 4 + x 5 + x 6 + x 7) + (x 8 + x 9 + x 10 + x 11) + (x 12 + x 13 + x 14 + x 15)

theorem diffBytes_cons (a b : U8) (s t : List U8) : Spec.diffBytes (a :: s) (b :: t) = nz (a ^^^ b) + Spec.diffBytes s t := by
  rw [nz_xor_eq]
  by_cases h : a = b
  · subst h
    simp [Spec.diffBytes]
  · simp [Spec.diffBytes, h]
    omega

theorem diffBytes_total {s t : List U8} (hs : s.length = 16) (ht : t.length = 16) : Spec.diffBytes s t = total (act s t) := by
  obtain ⟨a0, a1, a2, a3, a4, a5, a6, a7, a8, a9, a10, a11, a12, a13, a14, a15, rfl⟩ := exists16 hs
  obtain ⟨b0, b1, b2, b3, b4, b5, b6, b7, b8, b9, b10, b11, b12, b13, b14, b15, rfl⟩ := exists16 ht
  simp only [diffBytes_cons, show Spec.diffBytes [] [] = 0 from rfl]
  simp only [total, act, List.getD_cons_zero, List.getD_cons_succ]
  omega

theorem diffBytes_pos : ∀ {s t : List U8}, s.length = t.length → s ≠ t → 1 ≤ Spec.diffBytes s t
  | [], [], _, h => absurd rfl h
  | a :: s, b :: t, hl, h => by
    rw [diffBytes_cons]
    by_cases e : a = b
    · have := diffBytes_pos (s := s) (t := t) (by simpa using hl) (fun e' => h (by rw [e, e']))
      omega
    · rw [nz_pos fun e' => e (BitVec.xor_eq_zero_iff.1 e')]
      omega

theorem length_aesEnc {s k s' : List U8} (hs : s.length = 16) (hk : k.length = 16) (h : aesEnc s k = .ok s') :
    s'.length = 16 := by
  rw [aesEnc_ok hs hk, Except.ok.injEq] at h
  rw [← h]
  exact length_xor16 (length_mixColumns _) hk

/-- Whether a column is active. -/
theorem Link.col {i0 i1 i2 i3 o0 o1 o2 o3 : Nat} (h : Link i0 i1 i2 i3 o0 o1 o2 o3) (h0 : i0 ≤ 1) (h1 : i1 ≤ 1) (h2 : i2 ≤ 1)
    (h3 : i3 ≤ 1) (g0 : o0 ≤ 1) (g1 : o1 ≤ 1) (g2 : o2 ≤ 1) (g3 : o3 ≤ 1) :
    ∃ c, i0 ≤ c ∧ i1 ≤ c ∧ i2 ≤ c ∧ i3 ≤ c ∧ o0 ≤ c ∧ o1 ≤ c ∧ o2 ≤ c ∧ o3 ≤ c ∧
      5 * c ≤ (i0 + i1 + i2 + i3) + (o0 + o1 + o2 + o3) := by
  rcases h with h | h
  · exact ⟨0, by omega⟩
  · exact ⟨1, by omega⟩

theorem two_rounds_total {x y : Nat → Nat} (h1 : 1 ≤ total x)
    (l0 : Link (x 0) (x 5) (x 10) (x 15) (y 0) (y 1) (y 2) (y 3)) (l1 : Link (x 4) (x 9) (x 14) (x 3) (y 4) (y 5) (y 6) (y 7))
    (l2 : Link (x 8) (x 13) (x 2) (x 7) (y 8) (y 9) (y 10) (y 11))
    (l3 : Link (x 12) (x 1) (x 6) (x 11) (y 12) (y 13) (y 14) (y 15)) : 5 ≤ total x + total y := by
  by_cases k0 : x 0 + x 5 + x 10 + x 15 = 0
  · by_cases k1 : x 4 + x 9 + x 14 + x 3 = 0
    · by_cases k2 : x 8 + x 13 + x 2 + x 7 = 0
      · have k3 : x 12 + x 1 + x 6 + x 11 ≠ 0 := by unfold total at h1; omega
        exact l3.elim (fun m => absurd m.1 k3) fun m => by unfold total; omega
      · exact l2.elim (fun m => absurd m.1 k2) fun m => by unfold total; omega
    · exact l1.elim (fun m => absurd m.1 k1) fun m => by unfold total; omega
  · exact l0.elim (fun m => absurd m.1 k0) fun m => by unfold total; omega

theorem one_to_sixteen {x y z : Nat → Nat} (hx : ∀ i, x i ≤ 1) (hy : ∀ i, y i ≤ 1) (hz : ∀ i, z i ≤ 1) (h1 : total x = 1)
    (l0 : Link (x 0) (x 5) (x 10) (x 15) (y 0) (y 1) (y 2) (y 3)) (l1 : Link (x 4) (x 9) (x 14) (x 3) (y 4) (y 5) (y 6) (y 7))
    (l2 : Link (x 8) (x 13) (x 2) (x 7) (y 8) (y 9) (y 10) (y 11))
    (l3 : Link (x 12) (x 1) (x 6) (x 11) (y 12) (y 13) (y 14) (y 15))
    (m0 : Link (y 0) (y 5) (y 10) (y 15) (z 0) (z 1) (z 2) (z 3)) (m1 : Link (y 4) (y 9) (y 14) (y 3) (z 4) (z 5) (z 6) (z 7))
    (m2 : Link (y 8) (y 13) (y 2) (y 7) (z 8) (z 9) (z 10) (z 11))
    (m3 : Link (y 12) (y 1) (y 6) (y 11) (z 12) (z 13) (z 14) (z 15)) : total y = 4 ∧ total z = 16 := by
  have bx := fun i => hx i
  have key : ((y 0 = 1 ∧ y 1 = 1 ∧ y 2 = 1 ∧ y 3 = 1) ∧ (y 4 = 0 ∧ y 5 = 0 ∧ y 6 = 0 ∧ y 7 = 0) ∧
        (y 8 = 0 ∧ y 9 = 0 ∧ y 10 = 0 ∧ y 11 = 0) ∧ (y 12 = 0 ∧ y 13 = 0 ∧ y 14 = 0 ∧ y 15 = 0)) ∨
      ((y 0 = 0 ∧ y 1 = 0 ∧ y 2 = 0 ∧ y 3 = 0) ∧ (y 4 = 1 ∧ y 5 = 1 ∧ y 6 = 1 ∧ y 7 = 1) ∧
        (y 8 = 0 ∧ y 9 = 0 ∧ y 10 = 0 ∧ y 11 = 0) ∧ (y 12 = 0 ∧ y 13 = 0 ∧ y 14 = 0 ∧ y 15 = 0)) ∨
      ((y 0 = 0 ∧ y 1 = 0 ∧ y 2 = 0 ∧ y 3 = 0) ∧ (y 4 = 0 ∧ y 5 = 0 ∧ y 6 = 0 ∧ y 7 = 0) ∧
        (y 8 = 1 ∧ y 9 = 1 ∧ y 10 = 1 ∧ y 11 = 1) ∧ (y 12 = 0 ∧ y 13 = 0 ∧ y 14 = 0 ∧ y 15 = 0)) ∨
      ((y 0 = 0 ∧ y 1 = 0 ∧ y 2 = 0 ∧ y 3 = 0) ∧ (y 4 = 0 ∧ y 5 = 0 ∧ y 6 = 0 ∧ y 7 = 0) ∧
        (y 8 = 0 ∧ y 9 = 0 ∧ y 10 = 0 ∧ y 11 = 0) ∧ (y 12 = 1 ∧ y 13 = 1 ∧ y 14 = 1 ∧ y 15 = 1)) := by
    clear m0 m1 m2 m3 hz
    have := hy 0; have := hy 1; have := hy 2; have := hy 3; have := hy 4; have := hy 5; have := hy 6; have := hy 7
    have := hy 8; have := hy 9; have := hy 10; have := hy 11; have := hy 12; have := hy 13; have := hy 14; have := hy 15
    have e : (x 0 + x 5 + x 10 + x 15) + (x 4 + x 9 + x 14 + x 3) + (x 8 + x 13 + x 2 + x 7) + (x 12 + x 1 + x 6 + x 11) = 1 := by
      unfold total at h1; omega
    unfold Link at *
    generalize x 0 + x 5 + x 10 + x 15 = p at *
    generalize x 4 + x 9 + x 14 + x 3 = q at *
    generalize x 8 + x 13 + x 2 + x 7 = r at *
    generalize x 12 + x 1 + x 6 + x 11 = s at *
    have hp : p = 0 ∨ p = 1 := by omega
    have hq : q = 0 ∨ q = 1 := by omega
    have hr : r = 0 ∨ r = 1 := by omega
    have hs : s = 0 ∨ s = 1 := by omega
    rcases hp with rfl | rfl
    · rcases hq with rfl | rfl
      · rcases hr with rfl | rfl
        · refine .inr (.inr (.inr ⟨?_, ?_, ?_, ?_⟩)) <;> omega
        · refine .inr (.inr (.inl ⟨?_, ?_, ?_, ?_⟩)) <;> omega
      · refine .inr (.inl ⟨?_, ?_, ?_, ?_⟩) <;> omega
    · refine .inl ⟨?_, ?_, ?_, ?_⟩ <;> omega
  have := hz 0; have := hz 1; have := hz 2; have := hz 3; have := hz 4; have := hz 5; have := hz 6; have := hz 7
  have := hz 8; have := hz 9; have := hz 10; have := hz 11; have := hz 12; have := hz 13; have := hz 14; have := hz 15
  clear l0 l1 l2 l3 hx hy hz h1 bx
  rcases key with ⟨⟨e0, e1, e2, e3⟩, ⟨e4, e5, e6, e7⟩, ⟨e8, e9, e10, e11⟩, ⟨e12, e13, e14, e15⟩⟩ |
    ⟨⟨e0, e1, e2, e3⟩, ⟨e4, e5, e6, e7⟩, ⟨e8, e9, e10, e11⟩, ⟨e12, e13, e14, e15⟩⟩ |
    ⟨⟨e0, e1, e2, e3⟩, ⟨e4, e5, e6, e7⟩, ⟨e8, e9, e10, e11⟩, ⟨e12, e13, e14, e15⟩⟩ |
    ⟨⟨e0, e1, e2, e3⟩, ⟨e4, e5, e6, e7⟩, ⟨e8, e9, e10, e11⟩, ⟨e12, e13, e14, e15⟩⟩ <;>
  · simp only [Link, total, e0, e1, e2, e3, e4, e5, e6, e7, e8, e9, e10, e11, e12, e13, e14, e15] at *
    refine ⟨trivial, ?_⟩
    have : z 0 + z 1 + z 2 + z 3 = 4 := by omega
    have : z 4 + z 5 + z 6 + z 7 = 4 := by omega
    have : z 8 + z 9 + z 10 + z 11 = 4 := by omega
    have : z 12 + z 13 + z 14 + z 15 = 4 := by omega
    omega

theorem four_rounds_total {x y z w : Nat → Nat} (hx : ∀ i, x i ≤ 1) (hy : ∀ i, y i ≤ 1) (hz : ∀ i, z i ≤ 1)
    (hw : ∀ i, w i ≤ 1) (h1 : 1 ≤ total y)
    (l0 : Link (x 0) (x 5) (x 10) (x 15) (y 0) (y 1) (y 2) (y 3)) (l1 : Link (x 4) (x 9) (x 14) (x 3) (y 4) (y 5) (y 6) (y 7))
    (l2 : Link (x 8) (x 13) (x 2) (x 7) (y 8) (y 9) (y 10) (y 11))
    (l3 : Link (x 12) (x 1) (x 6) (x 11) (y 12) (y 13) (y 14) (y 15))
    (m0 : Link (y 0) (y 5) (y 10) (y 15) (z 0) (z 1) (z 2) (z 3)) (m1 : Link (y 4) (y 9) (y 14) (y 3) (z 4) (z 5) (z 6) (z 7))
    (m2 : Link (y 8) (y 13) (y 2) (y 7) (z 8) (z 9) (z 10) (z 11))
    (m3 : Link (y 12) (y 1) (y 6) (y 11) (z 12) (z 13) (z 14) (z 15))
    (n0 : Link (z 0) (z 5) (z 10) (z 15) (w 0) (w 1) (w 2) (w 3)) (n1 : Link (z 4) (z 9) (z 14) (z 3) (w 4) (w 5) (w 6) (w 7))
    (n2 : Link (z 8) (z 13) (z 2) (z 7) (w 8) (w 9) (w 10) (w 11))
    (n3 : Link (z 12) (z 1) (z 6) (z 11) (w 12) (w 13) (w 14) (w 15)) :
    25 ≤ total x + total y + total z + total w := by
  obtain ⟨b0, -, -, -, -, p0, p1, p2, p3, q0⟩ := l0.col (hx _) (hx _) (hx _) (hx _) (hy _) (hy _) (hy _) (hy _)
  obtain ⟨b1, -, -, -, -, p4, p5, p6, p7, q1⟩ := l1.col (hx _) (hx _) (hx _) (hx _) (hy _) (hy _) (hy _) (hy _)
  obtain ⟨b2, -, -, -, -, p8, p9, p10, p11, q2⟩ := l2.col (hx _) (hx _) (hx _) (hx _) (hy _) (hy _) (hy _) (hy _)
  obtain ⟨b3, -, -, -, -, p12, p13, p14, p15, q3⟩ := l3.col (hx _) (hx _) (hx _) (hx _) (hy _) (hy _) (hy _) (hy _)
  obtain ⟨c0, r0, r5, r10, r15, -, -, -, -, s0⟩ := n0.col (hz _) (hz _) (hz _) (hz _) (hw _) (hw _) (hw _) (hw _)
  obtain ⟨c1, r4, r9, r14, r3, -, -, -, -, s1⟩ := n1.col (hz _) (hz _) (hz _) (hz _) (hw _) (hw _) (hw _) (hw _)
  obtain ⟨c2, r8, r13, r2, r7, -, -, -, -, s2⟩ := n2.col (hz _) (hz _) (hz _) (hz _) (hw _) (hw _) (hw _) (hw _)
  obtain ⟨c3, r12, r1, r6, r11, -, -, -, -, s3⟩ := n3.col (hz _) (hz _) (hz _) (hz _) (hw _) (hw _) (hw _) (hw _)
  have five : 5 ≤ (b0 + b1 + b2 + b3) + (c0 + c1 + c2 + c3) := by
    by_cases k0 : y 0 + y 5 + y 10 + y 15 = 0
    · by_cases k1 : y 4 + y 9 + y 14 + y 3 = 0
      · by_cases k2 : y 8 + y 13 + y 2 + y 7 = 0
        · have k3 : y 12 + y 1 + y 6 + y 11 ≠ 0 := by unfold total at h1; omega
          exact m3.elim (fun m => absurd m.1 k3) fun m => by omega
        · exact m2.elim (fun m => absurd m.1 k2) fun m => by omega
      · exact m1.elim (fun m => absurd m.1 k1) fun m => by omega
    · exact m0.elim (fun m => absurd m.1 k0) fun m => by omega
  have t1 : 5 * (b0 + b1 + b2 + b3) ≤ total x + total y := by unfold total; omega
  have t2 : 5 * (c0 + c1 + c2 + c3) ≤ total z + total w := by unfold total; omega
  omega

/-! ## The S-box -/

/-- The S-box in one number, byte `i` at position `8 i`. -/
def packed : Nat :=
  0x16bb54b00f2d99416842e6bf0d89a18cdf2855cee9871e9b948ed9691198f8e19e1dc186b95735610ef6034866b53e708a8bbd4b1f74dde8c6b4a61c2e2578ba08ae7a65eaf4566ca94ed58d6d37c8e779e4959162acd3c25c2406490a3a32e0db0b5ede14b8ee4688902a22dc4f816073195d643d7ea7c41744975fec130ccdd2f3ff1021dab6bcf5389d928f40a351a89f3c507f02f94585334d43fbaaefd0cf584c4a39becb6a5bb1fc20ed00d153842fe329b3d63b52a05a6e1b1a2c830975b227ebe28012079a059618c323c7041531d871f1e5a534ccf73f362693fdb7c072a49cafa2d4adf04759fa7dc982ca76abd7fe2b670130c56f6bf27b777c63

def tab (i : Nat) : Nat := packed >>> (8 * i) % 256

theorem subByte_tab : ∀ x : U8, subByte x = .ok (BitVec.ofNat 8 (tab x.toNat)) := by decide +kernel

/-- How often each value below 256 is taken by `f` on `0 .. n - 1`, 16 bits per value. -/
def hist (f : Nat → Nat) : Nat → Nat
  | 0 => 0
  | n + 1 => hist f n + 1 <<< (16 * f n)

theorem hist_digit (f : Nat → Nat) (e n : Nat) :
    ∃ L H, hist f n = L + ((List.range n).filter fun i => f i == e).length * 2 ^ (16 * e) + H * 2 ^ (16 * e + 16) ∧
      L * 2 ^ 16 ≤ n * 2 ^ (16 * e) := by
  induction n with
  | zero => exact ⟨0, 0, by simp [hist], by simp⟩
  | succ n ih =>
    obtain ⟨L, H, h, hl⟩ := ih
    rw [hist, h, List.range_succ, List.filter_append, List.length_append, Nat.shiftLeft_eq, Nat.one_mul]
    rcases Nat.lt_trichotomy (f n) e with hlt | heq | hgt
    · refine ⟨L + 2 ^ (16 * f n), H, ?_, ?_⟩
      · have : (f n == e) = false := by simp; omega
        simp [this]
        omega
      · have : 2 ^ (16 * f n) * 2 ^ 16 ≤ 2 ^ (16 * e) := by
          rw [← Nat.pow_add]
          exact Nat.pow_le_pow_right (by omega) (by omega)
        rw [Nat.add_mul, Nat.add_mul, Nat.one_mul]
        exact Nat.add_le_add hl this
    · refine ⟨L, H, ?_, ?_⟩
      · simp [heq, Nat.add_mul]
        omega
      · rw [Nat.add_mul]
        omega
    · refine ⟨L, H + 2 ^ (16 * (f n - e - 1)), ?_, ?_⟩
      · have : (f n == e) = false := by simp; omega
        have e' : 16 * f n = 16 * (f n - e - 1) + (16 * e + 16) := by omega
        simp only [List.filter_cons, this, Nat.add_mul, ← Nat.pow_add, ← e']
        simp
        omega
      · rw [Nat.add_mul]
        omega

theorem count_le_of_hist {f : Nat → Nat} {e n m : Nat} (hn : n < 2 ^ 16) (h : hist f n >>> (16 * e) % 2 ^ 16 ≤ m) :
    ((List.range n).filter fun i => f i == e).length ≤ m := by
  obtain ⟨L, H, hh, hl⟩ := hist_digit f e n
  have hc : ((List.range n).filter fun i => f i == e).length ≤ n := by
    have := List.length_filter_le (fun i => f i == e) (List.range n)
    rwa [List.length_range] at this
  have hp : 0 < 2 ^ (16 * e) := Nat.pow_pos (by omega)
  have hL : L < 2 ^ (16 * e) := by
    have : n * 2 ^ (16 * e) < 2 ^ 16 * 2 ^ (16 * e) := Nat.mul_lt_mul_of_pos_right hn hp
    omega
  generalize ((List.range n).filter fun i => f i == e).length = c at *
  have e2 : hist f n = L + 2 ^ (16 * e) * (c + H * 2 ^ 16) := by
    rw [hh, Nat.pow_add, Nat.mul_add, Nat.mul_comm c, ← Nat.mul_assoc, Nat.mul_left_comm]
    simp only [Nat.mul_comm, Nat.add_assoc, Nat.mul_left_comm]
  rw [Nat.shiftRight_eq_div_pow, e2, Nat.add_mul_div_left _ _ hp, Nat.div_eq_of_lt hL, Nat.zero_add, Nat.add_mul_mod_self_right,
    Nat.mod_eq_of_lt (by omega)] at h
  exact h

/-- All 16-bit digits of a number, from the bottom, are at most 4. -/
def small : Nat → Nat → Bool
  | 0, _ => true
  | k + 1, n => n % 2 ^ 16 ≤ 4 && small k (n >>> 16)

theorem small_digit : ∀ {k n : Nat}, small k n = true → ∀ e, e < k → n >>> (16 * e) % 2 ^ 16 ≤ 4
  | 0, _, _, _, h => absurd h (by omega)
  | k + 1, n, h, 0, _ => by
    simp only [small, Bool.and_eq_true, decide_eq_true_eq] at h
    simpa using h.1
  | k + 1, n, h, e + 1, he => by
    simp only [small, Bool.and_eq_true, decide_eq_true_eq] at h
    have := small_digit h.2 e (by omega)
    rwa [← Nat.shiftRight_add, show 16 + 16 * e = 16 * (e + 1) by omega] at this

theorem uniform_table : ∀ d : U8, d ≠ 0 → small 256 (hist (fun i => tab i ^^^ tab (i ^^^ d.toNat)) 256) = true := by
  decide +kernel

theorem sbox_uniform {d : U8} (hd : d ≠ 0) (e : U8) :
    Spec.countBytes (fun x => match subByte x, subByte (x ^^^ d) with
      | .ok a, .ok b => a ^^^ b == e
      | _, _ => true) ≤ 4 := by
  have h := count_le_of_hist (e := e.toNat) (by omega) (small_digit (uniform_table d hd) e.toNat (by omega))
  refine Nat.le_trans (Nat.le_of_eq ?_) h
  rw [Spec.countBytes]
  congr 1
  apply List.filter_congr
  intro i hi
  have hi : i < 256 := List.mem_range.1 hi
  rw [subByte_tab, subByte_tab]
  have e1 : (BitVec.ofNat 8 i).toNat = i := by rw [BitVec.toNat_ofNat]; omega
  have hx : tab i ^^^ tab (i ^^^ d.toNat) < 2 ^ 8 := Nat.xor_lt_two_pow (Nat.mod_lt _ (by omega)) (Nat.mod_lt _ (by omega))
  show (BitVec.ofNat 8 (tab (BitVec.ofNat 8 i).toNat) ^^^ BitVec.ofNat 8 (tab (BitVec.ofNat 8 i ^^^ d).toNat) == e) = _
  rw [BitVec.toNat_xor, e1, ← BitVec.ofNat_xor, Bool.eq_iff_iff, beq_iff_eq, beq_iff_eq]
  constructor
  · intro h
    rw [← h, BitVec.toNat_ofNat, Nat.mod_eq_of_lt hx]
  · intro h
    rw [h, BitVec.ofNat_toNat, BitVec.setWidth_eq]

end Hacspec.Aes
