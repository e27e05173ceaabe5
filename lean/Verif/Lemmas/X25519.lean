import Verif.Model.Curve25519
import Verif.Lemmas.Field
import Verif.Lemmas.Montgomery
import Verif.Lemmas.Primes
import Verif.Lemmas.Poly1305

/-! # Lemmas about the X25519 model -/

namespace Hacspec.Curve25519

open SecretInt Hacspec.Seq NatMod AbstractInt Spec WeierstrassCurve

theorem F_WF : F.WF := by decide +kernel
theorem S_WF : S.WF := by decide +kernel
theorem F_n : F.n = X25519.p := by decide +kernel
theorem F_prime : F.n.Prime := by rw [F_n]; exact Primes.prime_25519
theorem F_big : 2 ^ 128 ≤ F.n := by decide +kernel

/-! ## Decoding -/

theorem mask_low (b : U8) : (b &&& 248).toNat = 8 * (b.toNat / 8) := by
  revert b; decide +kernel
theorem mask_high (b : U8) : ((b &&& 127) ||| 64).toNat = 64 + b.toNat % 64 := by
  revert b; decide +kernel
theorem mask_top (b : U8) : (b &&& 127).toNat = b.toNat % 128 := by
  revert b; decide +kernel

/-- A list of 32 bytes, split at its first and last element. -/
theorem split32 {s : List U8} (h : s.length = 32) :
    ∃ a m z, s = a :: (m ++ [z]) ∧ m.length = 30 := by
  match s, h with
  | a :: t, h =>
    have ht : t.length = 31 := by simpa using h
    refine ⟨a, t.dropLast, t.getLast (by intro h; simp [h] at ht), ?_, by simp [ht]⟩
    rw [List.dropLast_append_getLast]

theorem leVal_split (a : U8) (m : List U8) (z : U8) (h : m.length = 30) :
    leVal (a :: (m ++ [z])) = a.toNat + 256 * leVal m + 2 ^ 248 * z.toNat := by
  rw [leVal, leVal_append, h, leVal, leVal, Nat.mul_zero, Nat.add_zero, Nat.mul_add, ← Nat.mul_assoc,
    show 256 * 256 ^ 30 = 2 ^ 248 by norm_num]
  omega

theorem getElem_last (a : U8) (m : List U8) (z : U8) (h : m.length = 30) : (a :: (m ++ [z]))[31]? = some z := by
  rw [List.getElem?_cons_succ, List.getElem?_append_right (by omega), h]; rfl

theorem set_last (a : U8) (m : List U8) (z z' : U8) (h : m.length = 30) :
    (a :: (m ++ [z])).set 31 z' = a :: (m ++ [z']) := by
  rw [List.set_cons_succ, set_append_ge (by omega), h]; rfl

theorem maskScalar_ok (a : U8) (m : List U8) (z : U8) (h : m.length = 30) :
    maskScalar (a :: (m ++ [z])) = .ok ((a &&& 248) :: (m ++ [(z &&& 127) ||| 64])) := by
  have hl : ∀ a z : U8, (a :: (m ++ [z])).length = 32 := by intro a z; simp [h]
  have h0 : idx (a :: (m ++ [z])) 0 = .ok a := rfl
  rw [maskScalar, h0, bind_ok, setIdx_ok (by rw [hl]; decide), bind_ok, List.set_cons_zero,
    idx_eq_ok.mpr (getElem_last _ m z h), bind_ok, setIdx_ok (by rw [hl]; decide), bind_ok, set_last _ m _ _ h,
    idx_eq_ok.mpr (getElem_last _ m _ h), bind_ok, setIdx_ok (by rw [hl]; decide), set_last _ m _ _ h]

theorem scalar_lt (s : List U8) : X25519.scalar s < 2 ^ 255 := by
  unfold X25519.scalar
  have := Nat.mod_lt (leVal s / 8) (show 0 < 2 ^ 251 by norm_num)
  norm_num at this ⊢; omega

theorem decodeScalar_ok {s : List U8} (h : s.length = 32) : decodeScalar s = .ok (S.enc (X25519.scalar s)) := by
  obtain ⟨a, m, z, rfl, hm⟩ := split32 h
  have hv : leVal ((a &&& 248) :: (m ++ [(z &&& 127) ||| 64])) = X25519.scalar (a :: (m ++ [z])) := by
    rw [leVal_split _ _ _ hm, X25519.scalar, leVal_split _ _ _ hm, mask_low, mask_high]
    have h1 := leVal_lt m
    rw [hm] at h1
    have h2 := a.isLt
    have h3 := z.isLt
    have e1 : (a.toNat + 256 * leVal m + 2 ^ 248 * z.toNat) / 8 = a.toNat / 8 + 32 * leVal m + 2 ^ 245 * z.toNat := by
      norm_num; omega
    have e2 : (a.toNat / 8 + 32 * leVal m + 2 ^ 245 * z.toNat) =
        (a.toNat / 8 + 32 * leVal m + 2 ^ 245 * (z.toNat % 64)) + 2 ^ 251 * (z.toNat / 64) := by
      norm_num; omega
    have e3 : a.toNat / 8 + 32 * leVal m + 2 ^ 245 * (z.toNat % 64) < 2 ^ 251 := by
      norm_num at h1 ⊢; omega
    rw [e1, e2, Nat.add_mul_mod_self_left, Nat.mod_eq_of_lt e3]
    norm_num; omega
  have hlt := scalar_lt (a :: (m ++ [z]))
  rw [decodeScalar, maskScalar_ok _ _ _ hm, bind_ok, fromLeBytes_enc S_WF, leNat_eq_leVal, hv, Nat.mod_eq_of_lt]
  · exact hlt
  · rw [leNat_eq_leVal, hv]
    change _ < 2 ^ 256
    have : (2 : Nat) ^ 256 = 2 * 2 ^ 255 := by norm_num
    omega

theorem decodePoint_ok {u : List U8} (h : u.length = 32) :
    decodePoint u = .ok (F.enc (X25519.coord u), F.enc 1) := by
  obtain ⟨a, m, z, rfl, hm⟩ := split32 h
  have hl : (a :: (m ++ [z])).length = 32 := h
  have hv : leVal (a :: (m ++ [z &&& 127])) = leVal (a :: (m ++ [z])) % 2 ^ 255 := by
    rw [leVal_split _ _ _ hm, leVal_split _ _ _ hm, mask_top]
    have h1 := leVal_lt m
    rw [hm] at h1
    have h2 := a.isLt
    have e2 : a.toNat + 256 * leVal m + 2 ^ 248 * z.toNat =
        (a.toNat + 256 * leVal m + 2 ^ 248 * (z.toNat % 128)) + 2 ^ 255 * (z.toNat / 128) := by
      norm_num; omega
    have e3 : a.toNat + 256 * leVal m + 2 ^ 248 * (z.toNat % 128) < 2 ^ 255 := by
      norm_num at h1 ⊢; omega
    rw [e2, Nat.add_mul_mod_self_left, Nat.mod_eq_of_lt e3]
  have hlt : leVal (a :: (m ++ [z])) % 2 ^ 255 < 2 ^ 255 := Nat.mod_lt _ (by norm_num)
  rw [decodePoint, idx_eq_ok.mpr (getElem_last _ m _ hm), bind_ok, setIdx_ok (by rw [hl]; decide), bind_ok,
    set_last _ m _ _ hm, fromLeBytes_enc F_WF, bind_ok, fromLiteral_enc F_WF, bind_ok, leNat_eq_leVal, hv, F_n]
  · rfl
  · exact Nat.le_trans (by decide) F_big
  · rw [leNat_eq_leVal, hv]
    change _ < 2 ^ 256
    have : (2 : Nat) ^ 256 = 2 * 2 ^ 255 := by norm_num
    omega

/-! ## Encoding -/

theorem leBytes_leVal (l : List U8) : leBytes l.length (leVal l) = l := by
  induction l with
  | nil => rfl
  | cons b l ih =>
    have hb := b.isLt
    rw [List.length_cons, leBytes, leVal, show (b.toNat + 256 * leVal l) / 256 = leVal l by omega, ih]
    congr 1
    apply BitVec.eq_of_toNat_eq
    rw [BitVec.toNat_ofNat]; omega

theorem bytesLe_pad {v : Nat} (h : v < 2 ^ 256) :
    (updateStart (new 32) (bytesLe v) : M (List U8)) = .ok (leBytes 32 v) := by
  have hl : (bytesLe v).length ≤ 32 := (length_bytesLe_le (by decide)).mpr (by
    rw [show (256 : Nat) ^ 32 = 2 ^ 256 by norm_num]; exact h)
  rw [updateStart_new hl]
  have := leBytes_leVal (bytesLe v ++ List.replicate (32 - (bytesLe v).length) (0 : U8))
  rw [List.length_append, List.length_replicate, show (bytesLe v).length + (32 - (bytesLe v).length) = 32 by omega,
    leVal_append, show leVal (List.replicate (32 - (bytesLe v).length) 0) = 0 from leVal_zeros _,
    Nat.mul_zero, Nat.add_zero, ← leNat_eq_leVal, leNat_bytesLe] at this
  rw [this]; rfl

variable {K : Type} [Field K] [CharP K F.n]

theorem F_bits : 2 ≤ F.bits := by decide
theorem F_two : 2 < F.n := by decide +kernel
theorem lit_lt (n : BitVec 128) : n.toNat < F.n := Nat.lt_of_lt_of_le n.isLt F_big
theorem F_lt : F.n < 2 ^ 256 := by decide +kernel

theorem encodePoint_ok {x z : Canvas} {X Z : K} (hx : Fe F x X) (hz : Fe F z Z) :
    ∃ v, encodePoint (x, z) = .ok (leBytes 32 v) ∧ v < F.n ∧ ((v : Nat) : K) = X * Z⁻¹ := by
  obtain ⟨zi, h1, fzi⟩ := fe_inv F_WF F_prime F_two hz
  obtain ⟨b, h2, fb⟩ := fe_mul F_WF hx fzi
  refine ⟨toBigUint b, ?_, fb.lt, fb.val⟩
  have hlt : toBigUint b < 2 ^ 256 := Nat.lt_trans fb.lt F_lt
  unfold encodePoint
  dsimp only
  rw [h1, bind_ok, h2, bind_ok]
  rw [NatMod.toLeBytes, AbstractInt.toLeBytes, fb.sign, Int.natAbs_natCast, bytesLe_pad hlt]

/-! ## The ladder -/

theorem step_ok {x1 z1 x2 z2 x3 z3 : Canvas} {U X2 Z2 X3 Z3 : K} (h1 : Fe F x1 U) (hx2 : Fe F x2 X2) (hz2 : Fe F z2 Z2)
    (hx3 : Fe F x3 X3) (hz3 : Fe F z3 Z3) :
    ∃ x2' z2' x3' z3', pointAddAndDouble (x1, z1) ((x2, z2), (x3, z3)) = .ok ((x2', z2'), (x3', z3')) ∧
      Fe F x2' ((X2 + Z2) ^ 2 * ((X2 - Z2) * (X2 - Z2))) ∧
      Fe F z2' (((X2 + Z2) ^ 2 - (X2 - Z2) * (X2 - Z2)) *
        ((X2 + Z2) ^ 2 + 121665 * ((X2 + Z2) ^ 2 - (X2 - Z2) * (X2 - Z2)))) ∧
      Fe F x3' (((X3 - Z3) * (X2 + Z2) + (X3 + Z3) * (X2 - Z2)) ^ 2) ∧
      Fe F z3' (U * ((X3 - Z3) * (X2 + Z2) - (X3 + Z3) * (X2 - Z2)) ^ 2) := by
  have W := F_WF
  have B := F_bits
  obtain ⟨a, e1, fa⟩ := fe_add W hx2 hz2
  obtain ⟨aa, e2, faa⟩ := fe_pow2 W B fa
  obtain ⟨b, e3, fb⟩ := fe_sub W hx2 hz2
  obtain ⟨bb, e4, fbb⟩ := fe_mul W fb fb
  obtain ⟨e, e5, fe⟩ := fe_sub W faa fbb
  obtain ⟨c, e6, fc⟩ := fe_add W hx3 hz3
  obtain ⟨d, e7, fd⟩ := fe_sub W hx3 hz3
  obtain ⟨da, e8, fda⟩ := fe_mul W fd fa
  obtain ⟨cb, e9, fcb⟩ := fe_mul W fc fb
  obtain ⟨t1, e10, ft1⟩ := fe_add W fda fcb
  obtain ⟨x3', e11, fx3⟩ := fe_pow2 W B ft1
  obtain ⟨t2, e12, ft2⟩ := fe_sub W fda fcb
  obtain ⟨t3, e13, ft3⟩ := fe_pow2 W B ft2
  obtain ⟨z3', e14, fz3⟩ := fe_mul W h1 ft3
  obtain ⟨x2', e15, fx2⟩ := fe_mul W faa fbb
  obtain ⟨l, e16, fl⟩ := fe_literal (T := F) (K := K) W 121665 (lit_lt _)
  obtain ⟨t4, e17, ft4⟩ := fe_mul W fl fe
  obtain ⟨t5, e18, ft5⟩ := fe_add W faa ft4
  obtain ⟨z2', e19, fz2⟩ := fe_mul W fe ft5
  refine ⟨x2', z2', x3', z3', ?_, fx2, ?_, fx3, fz3⟩
  · unfold pointAddAndDouble
    dsimp only
    rw [e1, bind_ok, e2, bind_ok, e3, bind_ok, e4, bind_ok, e5, bind_ok, e6, bind_ok, e7, bind_ok, e8, bind_ok,
      e9, bind_ok, e10, bind_ok, e11, bind_ok, e12, bind_ok, e13, bind_ok, e14, bind_ok, e15, bind_ok, e16, bind_ok,
      e17, bind_ok, e18, bind_ok, e19, bind_ok]
  · have : (((121665 : BitVec 128).toNat : Nat) : K) = 121665 := by
      rw [show (121665 : BitVec 128).toNat = 121665 from rfl]; norm_num
    rwa [this] at fz2

/-- The state holds `(n B, (n+1) B)`. -/
def Inv [DecidableEq K] (B : (X25519.curve K).Point) (n : Nat) (acc : Point × Point) : Prop :=
  ∃ X2 Z2 X3 Z3 : K, Fe F acc.1.1 X2 ∧ Fe F acc.1.2 Z2 ∧ Fe F acc.2.1 X3 ∧ Fe F acc.2.2 Z3 ∧
    Montgomery.Rep (n • B) X2 Z2 ∧ Montgomery.Rep ((n + 1) • B) X3 Z3

theorem two_ne : (2 : K) ≠ 0 := by
  intro h
  have h' : ((2 : Nat) : K) = 0 := by exact_mod_cast h
  have := (CharP.cast_eq_zero_iff K F.n 2).mp h'
  exact absurd this (by decide +kernel)

theorem A_ne : (486662 : K) ^ 2 - 4 ≠ 0 := by
  intro h
  have h' : ((486662 ^ 2 - 4 : Nat) : K) = 0 := by
    rw [Nat.cast_sub (by norm_num), Nat.cast_pow]; exact_mod_cast h
  have := (CharP.cast_eq_zero_iff K F.n _).mp h'
  exact absurd this (by decide +kernel)

theorem bit_scalar {k i : Nat} (hk : k < 2 ^ 255) (hi : i < 256) :
    NatMod.bit (S.enc k) (255 - i) = .ok (k.testBit (255 - i)) := by
  refine bit_enc k _ ?_ ?_
  · change _ < 2 ^ 256
    have : (2 : Nat) ^ 256 = 2 * 2 ^ 255 := by norm_num
    omega
  · change _ < nb 256 * 8
    rw [show nb 256 = 32 from rfl]; omega

theorem top_bits (k i : Nat) (hi : i < 256) :
    k / 2 ^ (256 - (i + 1)) = 2 * (k / 2 ^ (256 - i)) + (k.testBit (255 - i)).toNat := by
  rw [show 256 - (i + 1) = 255 - i by omega, show 256 - i = (255 - i) + 1 by omega, Nat.pow_succ,
    ← Nat.div_div_eq_div_mul, Nat.testBit_eq_decide_div_mod_eq]
  generalize k / 2 ^ (255 - i) = t
  by_cases h : t % 2 = 1
  · simp only [h, decide_true, Bool.toNat_true]; omega
  · simp only [h, decide_false, Bool.toNat_false]; omega

theorem ladder_ok [DecidableEq K] {k : Nat} (hk : k < 2 ^ 255) {x z : Canvas} {x0 y0 : K}
    {hn : (X25519.curve K).Nonsingular x0 y0} (h0 : x0 ≠ 0) (hx : Fe F x x0) (hz : Fe F z (1 : K)) :
    ∃ x' z', ∃ X Z : K, montgomeryLadder (S.enc k) (x, z) = .ok (x', z') ∧ Fe F x' X ∧ Fe F z' Z ∧
      Montgomery.Rep (k • Affine.Point.some x0 y0 hn) X Z := by
  set B : (X25519.curve K).Point := .some x0 y0 hn with hB
  have W := F_WF
  obtain ⟨one, e1, f1⟩ := fe_literal (T := F) (K := K) W 1 (lit_lt _)
  obtain ⟨zero, e0, f0⟩ := fe_literal (T := F) (K := K) W 0 (lit_lt _)
  obtain ⟨acc, hl, X2, Z2, X3, Z3, g1, g2, g3, g4, g5, g6⟩ :=
    loop_inv (fun i acc => Inv B (k / 2 ^ (256 - i)) acc) (n := 256) (body := ladderStep (S.enc k) (x, z))
      (s := ((one, zero), (x, z))) (by
        rw [Nat.div_eq_of_lt (Nat.lt_trans hk (by norm_num))]
        refine ⟨_, _, _, _, f1, f0, hx, hz, ?_, ?_⟩
        · rw [zero_smul]; exact ⟨by simp, by simp⟩
        · rw [zero_add, one_smul]; exact ⟨one_ne_zero, (mul_one _).symm⟩)
      (by
        rintro i hi ⟨⟨x2, z2⟩, ⟨x3, z3⟩⟩ ⟨X2, Z2, X3, Z3, g1, g2, g3, g4, g5, g6⟩
        set n := k / 2 ^ (256 - i) with hnn
        rw [top_bits k i hi, ← hnn]
        simp only [ladderStep, bit_scalar hk hi, bind_ok]
        cases hb : k.testBit (255 - i) with
        | true =>
          obtain ⟨a, b, c, d, hs, p1, p2, p3, p4⟩ := step_ok (z1 := z) hx g3 g4 g1 g2
          simp only [swap, if_true, hs, bind_ok]
          refine ⟨((c, d), (a, b)), rfl, _, _, _, _, p3, p4, p1, p2, ?_, ?_⟩
          · have := Montgomery.rep_add two_ne A_ne (P := n • B) (Q := (n + 1) • B) (hn := hn)
              (by rw [add_smul, one_smul]) h0 g5 g6
            rw [← add_smul, show n + (n + 1) = 2 * n + Bool.true.toNat by simp; omega] at this
            have e1 : ((X2 - Z2) * (X3 + Z3) + (X2 + Z2) * (X3 - Z3)) ^ 2 =
              ((X3 - Z3) * (X2 + Z2) + (X3 + Z3) * (X2 - Z2)) ^ 2 := by ring
            have e2 : x0 * ((X2 - Z2) * (X3 + Z3) - (X2 + Z2) * (X3 - Z3)) ^ 2 =
              x0 * ((X3 - Z3) * (X2 + Z2) - (X3 + Z3) * (X2 - Z2)) ^ 2 := by ring
            rw [e1, e2]
            exact this
          · have := Montgomery.rep_double two_ne A_ne g6
            rw [← two_smul ℕ, smul_smul] at this
            exact this
        | false =>
          obtain ⟨a, b, c, d, hs, p1, p2, p3, p4⟩ := step_ok (z1 := z) hx g1 g2 g3 g4
          simp only [hs]
          refine ⟨((a, b), (c, d)), rfl, _, _, _, _, p1, p2, p3, p4, ?_, ?_⟩
          · have := Montgomery.rep_double two_ne A_ne g5
            rw [← two_smul ℕ, smul_smul] at this
            exact this
          · have := Montgomery.rep_add two_ne A_ne (P := n • B) (Q := (n + 1) • B) (hn := hn)
              (by rw [add_smul, one_smul]) h0 g5 g6
            rw [← add_smul, show n + (n + 1) = 2 * n + Bool.false.toNat + 1 by simp; omega] at this
            exact this)
  refine ⟨acc.1.1, acc.1.2, X2, Z2, ?_, g1, g2, ?_⟩
  · rw [montgomeryLadder, e1, bind_ok, e0, bind_ok, hl, bind_ok]
  · rwa [Nat.sub_self, pow_zero, Nat.div_one] at g5

/-- The ladder for the `u`-coordinate 0. -/
theorem ladder_zero {k : Nat} (hk : k < 2 ^ 255) {x z : Canvas} (hx : Fe F x (0 : K)) (hz : Fe F z (1 : K)) :
    ∃ x' z', ∃ X Z : K, montgomeryLadder (S.enc k) (x, z) = .ok (x', z') ∧ Fe F x' X ∧ Fe F z' Z ∧ X * Z⁻¹ = 0 := by
  have W := F_WF
  obtain ⟨one, e1, f1⟩ := fe_literal (T := F) (K := K) W 1 (lit_lt _)
  obtain ⟨zero, e0, f0⟩ := fe_literal (T := F) (K := K) W 0 (lit_lt _)
  obtain ⟨acc, hl, X2, Z2, X3, Z3, g1, g2, g3, g4, g5, g6⟩ :=
    loop_inv (fun _ acc => ∃ X2 Z2 X3 Z3 : K, Fe F acc.1.1 X2 ∧ Fe F acc.1.2 Z2 ∧ Fe F acc.2.1 X3 ∧ Fe F acc.2.2 Z3 ∧
        X2 * Z2 = 0 ∧ X3 * Z3 = 0) (n := 256) (body := ladderStep (S.enc k) (x, z))
      (s := ((one, zero), (x, z))) (by
        refine ⟨_, _, _, _, f1, f0, hx, hz, ?_, ?_⟩ <;> simp)
      (by
        rintro i hi ⟨⟨x2, z2⟩, ⟨x3, z3⟩⟩ ⟨X2, Z2, X3, Z3, g1, g2, g3, g4, g5, g6⟩
        simp only [ladderStep, bit_scalar hk hi, bind_ok]
        have hd : ∀ X Z : K, X * Z = 0 → ∀ t s : K, t * (((X + Z) ^ 2 - (X - Z) * (X - Z)) * s) = 0 := by
          intro X Z h t s
          rw [show (X + Z) ^ 2 - (X - Z) * (X - Z) = 4 * (X * Z) by ring, h]; ring
        cases hb : k.testBit (255 - i) with
        | true =>
          obtain ⟨a, b, c, d, hs, p1, p2, p3, p4⟩ := step_ok (z1 := z) hx g3 g4 g1 g2
          simp only [swap, if_true, hs, bind_ok]
          refine ⟨((c, d), (a, b)), rfl, _, _, _, _, p3, p4, p1, p2, ?_, ?_⟩
          · ring
          · exact hd _ _ g6 _ _
        | false =>
          obtain ⟨a, b, c, d, hs, p1, p2, p3, p4⟩ := step_ok (z1 := z) hx g1 g2 g3 g4
          simp only [hs]
          refine ⟨((a, b), (c, d)), rfl, _, _, _, _, p1, p2, p3, p4, ?_, ?_⟩
          · exact hd _ _ g5 _ _
          · ring)
  refine ⟨acc.1.1, acc.1.2, X2, Z2, ?_, g1, g2, ?_⟩
  · rw [montgomeryLadder, e1, bind_ok, e0, bind_ok, hl, bind_ok]
  · rcases mul_eq_zero.mp g5 with h | h
    · rw [h, zero_mul]
    · rw [h, inv_zero, mul_zero]

theorem rep_u [DecidableEq K] {P : (X25519.curve K).Point} {X Z : K} (h : Montgomery.Rep P X Z) :
    X * Z⁻¹ = X25519.u P := by
  cases P with
  | zero => rw [h.2, inv_zero, mul_zero]; rfl
  | some x y hn =>
    obtain ⟨hZ, hX⟩ := h
    rw [hX, mul_assoc, mul_inv_cancel₀ hZ, mul_one]; rfl

theorem smul_two_torsion [DecidableEq K] {P : (X25519.curve K).Point} (h : P + P = 0) (k : Nat) : k • P = 0 ∨ k • P = P := by
  induction k with
  | zero => left; exact zero_smul _ _
  | succ k ih =>
    rw [succ_nsmul]
    rcases ih with ih | ih
    · right; rw [ih, zero_add]
    · left; rw [ih, h]

theorem coord_lt (u : List U8) : X25519.coord u < F.n := by
  rw [F_n]; exact Nat.mod_lt _ (by decide +kernel)

theorem scalarmult_ok [DecidableEq K] {s u : List U8} (hs : s.length = 32) (hu : u.length = 32) {x0 y0 : K}
    (hn : (X25519.curve K).Nonsingular x0 y0) (hx : x0 = ((X25519.coord u : Nat) : K)) :
    ∃ v, scalarmult s u = .ok (leBytes 32 v) ∧ v < F.n ∧
      ((v : Nat) : K) = X25519.u (X25519.scalar s • Affine.Point.some x0 y0 hn) := by
  have f1 : Fe F (F.enc 1) (1 : K) := by
    have := fe_enc (T := F) (K := K) (k := 1) (Nat.lt_trans (by norm_num) F_two)
    rwa [Nat.cast_one] at this
  have fx : Fe F (F.enc (X25519.coord u)) x0 := by rw [hx]; exact fe_enc (coord_lt u)
  by_cases h0 : x0 = 0
  · subst h0
    obtain ⟨x', z', X, Z, hl, f2, f3, hr⟩ := ladder_zero (scalar_lt s) fx f1
    obtain ⟨v, h1, h2, h3⟩ := encodePoint_ok f2 f3
    refine ⟨v, ?_, h2, ?_⟩
    · rw [scalarmult, decodeScalar_ok hs, bind_ok, decodePoint_ok hu, bind_ok, hl, bind_ok, h1]
    · rw [h3, hr]
      have hy : y0 = 0 := by
        have := Montgomery.equation.mp hn.1
        have h : y0 ^ 2 = 0 := by rw [this]; ring
        exact (pow_eq_zero_iff two_ne_zero).mp h
      have ht : Affine.Point.some 0 y0 hn + Affine.Point.some 0 y0 hn = 0 :=
        Affine.Point.add_self_of_Y_eq (by rw [Montgomery.negY, hy, neg_zero])
      rcases smul_two_torsion ht (X25519.scalar s) with h | h <;> rw [h] <;> rfl
  · obtain ⟨x', z', X, Z, hl, f2, f3, hr⟩ := ladder_ok (scalar_lt s) (hn := hn) h0 fx f1
    obtain ⟨v, h1, h2, h3⟩ := encodePoint_ok f2 f3
    refine ⟨v, ?_, h2, ?_⟩
    · rw [scalarmult, decodeScalar_ok hs, bind_ok, decodePoint_ok hu, bind_ok, hl, bind_ok, h1]
    · rw [h3, rep_u hr]

/-- Points of the curve are nonsingular. -/
theorem nonsingular {x y : K} (h : y ^ 2 = x ^ 3 + 486662 * x ^ 2 + x) : (X25519.curve K).Nonsingular x y := by
  rw [Affine.nonsingular_iff]
  refine ⟨Montgomery.equation.mpr h, ?_⟩
  by_cases hy : y = 0
  · left
    have h0 : x * (x ^ 2 + 486662 * x + 1) = 0 := by rw [hy] at h; linear_combination -h
    simp only [X25519.curve]
    intro hc
    have hc' : 3 * x ^ 2 + 2 * 486662 * x + 1 = 0 := by rw [hy] at hc; linear_combination -hc
    apply A_ne (K := K)
    rcases mul_eq_zero.mp h0 with h1 | h1
    · rw [h1] at hc'; exfalso; apply one_ne_zero (α := K); linear_combination hc'
    · have hw : x * (2 * x + 486662) = 0 := by linear_combination hc' - h1
      linear_combination (x + 486662) ^ 2 * (x * (2 * x + 486662)) * hw - 4 * x ^ 2 * (x + 486662) ^ 2 * h1 +
        (486662 ^ 2 - 4) * (2 - (x ^ 2 + 486662 * x + 1)) * h1
  · right
    simp only [X25519.curve]
    intro hc
    have : 2 * y = 0 := by linear_combination hc
    rcases mul_eq_zero.mp this with h' | h'
    · exact two_ne h'
    · exact hy h'

end Hacspec.Curve25519
