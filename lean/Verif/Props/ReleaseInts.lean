import Verif.Props.Releases
import Verif.Props.Ints
import Verif.Lemmas.Release.IntValues

/-! # C103–C105: machine integers and polynomials in a release build -/

namespace Hacspec.Props

open SecretInt Spec
open Hacspec.MachineInt (IntOps)
open Hacspec.Poly (NumOps PolyTy)

variable {w : Nat}

/-! ## C103: whatever the debug build returns, the release build returns -/

/-- The operations of one integer type in the two builds. -/
inductive IntBuilds : IntOps w → IntOps w → Prop where
  | pubU : IntBuilds MachineInt.pubU Release.MachineInt.pubU
  | pubS : IntBuilds MachineInt.pubS Release.MachineInt.pubS
  | secU : IntBuilds MachineInt.secU Release.MachineInt.secU
  | secS : IntBuilds MachineInt.secS Release.MachineInt.secS

/-- The operations of one coefficient type in the two builds. -/
inductive NumBuilds : NumOps w → NumOps w → Prop where
  | pubU : NumBuilds Poly.numPubU Release.Poly.numPubU
  | pubS : NumBuilds Poly.numPubS Release.Poly.numPubS
  | secU : NumBuilds Poly.numSecU Release.Poly.numSecU
  | secS : NumBuilds Poly.numSecS Release.Poly.numSecS

theorem IntBuilds.keep {O O' : IntOps w} (h : IntBuilds O O') : Release.MachineInt.OpsKeep O O' := by
  cases h
  · exact Release.MachineInt.pubU_keep
  · exact Release.MachineInt.pubS_keep
  · exact Release.MachineInt.secU_keep
  · exact Release.MachineInt.secS_keep

theorem NumBuilds.keep {N N' : NumOps w} (h : NumBuilds N N') : Release.Poly.NumKeep N N' := by
  cases h
  · exact Release.Poly.numPubU_keep
  · exact Release.Poly.numPubS_keep
  · exact Release.Poly.numSecU_keep
  · exact Release.Poly.numSecS_keep

/-- **C103.**  Bit access, rotation, the Euclidean inverse and constant-time division of all four kinds of integers. -/
theorem C103_keeps_bits {O O' : IntOps w} (h : IntBuilds O O') (x y b : BitVec w) (i j : Nat) :
    Keeps (MachineInt.getBit O x i) (MachineInt.getBit O' x i) ∧
    Keeps (MachineInt.setBit x b i) (Release.MachineInt.setBit x b i) ∧
    Keeps (MachineInt.set O x i y j) (Release.MachineInt.set O' x i y j) ∧
    Keeps (MachineInt.rotateLeft O x i) (Release.MachineInt.rotateLeft O' x i) ∧
    Keeps (MachineInt.rotateRight O x i) (Release.MachineInt.rotateRight O' x i) ∧
    Keeps (MachineInt.euclidInvert O x y) (MachineInt.euclidInvert O' x y) ∧
    Keeps (MachineInt.csetBit x b i y) (Release.MachineInt.csetBit x b i y) ∧
    Keeps (MachineInt.ctDiv O x y) (Release.MachineInt.ctDiv O' x y) :=
  ⟨Release.MachineInt.getBit_keeps h.keep, Release.MachineInt.setBit_keeps, Release.MachineInt.set_keeps h.keep,
    Release.MachineInt.rotateLeft_keeps h.keep, Release.MachineInt.rotateRight_keeps h.keep,
    Release.MachineInt.euclidInvert_keeps h.keep, Release.MachineInt.csetBit_keeps, Release.MachineInt.ctDiv_keeps h.keep⟩

/-- **C103.**  Modular arithmetic. -/
theorem C103_keeps_mod (x y n : BitVec w) :
    Keeps (MachineInt.addModU x y n) (Release.MachineInt.addModU x y n) ∧
    Keeps (MachineInt.subModU x y n) (Release.MachineInt.subModU x y n) ∧
    Keeps (MachineInt.mulModU x y n) (Release.MachineInt.mulModU x y n) ∧
    Keeps (MachineInt.addModS x y n) (Release.MachineInt.addModS x y n) ∧
    Keeps (MachineInt.subModS x y n) (Release.MachineInt.subModS x y n) ∧
    Keeps (MachineInt.mulModS x y n) (Release.MachineInt.mulModS x y n) ∧
    Keeps (MachineInt.moduloS x n) (Release.MachineInt.moduloS x n) :=
  ⟨Release.MachineInt.addModU_keeps, Release.MachineInt.subModU_keeps, Release.MachineInt.mulModU_keeps,
    Release.MachineInt.addModS_keeps, Release.MachineInt.subModS_keeps, Release.MachineInt.mulModS_keeps,
    Release.MachineInt.moduloS_keeps⟩

/-- **C103.**  Polynomials with coefficients of any of the four kinds, element-wise vector arithmetic. -/
theorem C103_keeps_poly {N N' : NumOps w} (h : NumBuilds N N') (x y : List (BitVec w)) (n : BitVec w) (T : PolyTy w) :
    Keeps (Poly.polyAdd N x y n) (Poly.polyAdd N' x y n) ∧ Keeps (Poly.polySub N x y n) (Poly.polySub N' x y n) ∧
    Keeps (Poly.polyMul N x y n) (Poly.polyMul N' x y n) ∧ Keeps (Poly.polyMulPlain N x y) (Poly.polyMulPlain N' x y) ∧
    Keeps (Poly.polyDiv N x y n) (Poly.polyDiv N' x y n) ∧
    Keeps (Poly.extendedEuclid N x y n) (Release.Poly.extendedEuclid N' x y n) ∧
    Keeps (Poly.pAdd N T x y) (Poly.pAdd N' T x y) ∧ Keeps (Poly.pSub N T x y) (Poly.pSub N' T x y) ∧
    Keeps (Poly.pMul N T x y) (Poly.pMul N' T x y) ∧ Keeps (Poly.pDiv N T x y) (Poly.pDiv N' T x y) ∧
    Keeps (Poly.pInv N T x) (Release.Poly.pInv N' T x) ∧
    Keeps (VecInt.vecPolyMul x y n) (Release.VecInt.vecPolyMul x y n) ∧
    Keeps (VecInt.vecPolyAdd x y n) (Release.VecInt.vecPolyAdd x y n) ∧
    Keeps (VecInt.vecPolySub x y n) (Release.VecInt.vecPolySub x y n) :=
  ⟨Release.Poly.polyAdd_keeps h.keep, Release.Poly.polySub_keeps h.keep, Release.Poly.polyMul_keeps h.keep,
    Release.Poly.polyMulPlain_keeps h.keep, Release.Poly.polyDiv_keeps h.keep, Release.Poly.extendedEuclid_keeps h.keep,
    Release.Poly.pAdd_keeps h.keep, Release.Poly.pSub_keeps h.keep, Release.Poly.pMul_keeps h.keep,
    Release.Poly.pDiv_keeps h.keep, Release.Poly.pInv_keeps h.keep,
    Release.VecInt.vecPoly_keeps fun _ _ _ => Release.MachineInt.mulModU_keeps,
    Release.VecInt.vecPoly_keeps fun _ _ _ => Release.MachineInt.addModU_keeps,
    Release.VecInt.vecPoly_keeps fun _ _ _ => Release.MachineInt.subModU_keeps⟩

/-- **C103.**  Constant-time division of unsigned integers is the same function in both builds. -/
theorem C103_ct_div (hw : w ≤ 128) (hw1 : 1 < w) {O O' : IntOps w} (h : IntBuilds O O') (hO : MachineInt.IsUnsigned O)
    (a d : BitVec w) : Release.MachineInt.ctDiv O' a d = MachineInt.ctDiv O a d := by
  refine keeps_eq (P := fun _ => True) (C103_keeps_bits h a d a 0 0).2.2.2.2.2.2.2 ?_
  by_cases hd : d = 0#w
  · subst hd; exact ⟨_, C08_ct_div_zero hw hw1 O hO a, trivial⟩
  · obtain ⟨q, r, h, _⟩ := C08_ct_div hw hw1 O hO a d (fun h => hd (BitVec.eq_of_toNat_eq (by simpa using h))); exact ⟨_, h, trivial⟩

/-- A coefficient operation that the debug build refuses and the release build performs. -/
example : MachineInt.rotateLeft MachineInt.pubU (0x81#8) 1 = .ok 0x03#8 ∧
    Release.MachineInt.rotateLeft Release.MachineInt.pubU (0x81#8) 1 = .ok 0x03#8 :=
  ⟨by decide, (C103_keeps_bits .pubU (0x81#8) 0#8 0#8 1 0).2.2.2.1 _ (by decide)⟩
example : Release.Poly.extendedEuclid Release.Poly.numPubU [1#8, 2#8] [1#8, 0#8, 1#8] 3#8
    = Poly.extendedEuclid Poly.numPubU [1#8, 2#8] [1#8, 0#8, 1#8] 3#8 :=
  keeps_eq (P := fun _ => True) (C103_keeps_poly .pubU [1#8, 2#8] [1#8, 0#8, 1#8] 3#8 ⟨3, 3#8, []⟩).2.2.2.2.2.1
    ⟨some [2#8, 2#8], by decide +kernel, trivial⟩

/-! ## C104: modular arithmetic of the release build -/

/-- **C104.**  `add_mod` and `mul_mod` of unsigned integers with modulus `n ≠ 0` reduce the sum or product modulo `2^w`
first, and so are right exactly when `n` divides the part that is lost. -/
theorem C104_add_mul_mod (x y n : BitVec w) (hn : n ≠ 0#w) :
    (∃ r, Release.MachineInt.addModU x y n = .ok r ∧ r.toNat = (x.toNat + y.toNat) % 2 ^ w % n.toNat ∧
      (r.toNat = (x.toNat + y.toNat) % n.toNat ↔ n.toNat ∣ 2 ^ w * ((x.toNat + y.toNat) / 2 ^ w))) ∧
    (∃ r, Release.MachineInt.mulModU x y n = .ok r ∧ r.toNat = (x.toNat * y.toNat) % 2 ^ w % n.toNat ∧
      (r.toNat = (x.toNat * y.toNat) % n.toNat ↔ n.toNat ∣ 2 ^ w * (x.toNat * y.toNat / 2 ^ w))) := by
  obtain ⟨r, hr, hv⟩ := Release.MachineInt.addModU_eq x y n hn
  obtain ⟨r', hr', hv'⟩ := Release.MachineInt.mulModU_eq x y n hn
  exact ⟨⟨r, hr, hv, by rw [hv]; exact Release.MachineInt.mod_mod_eq_iff _ _ _⟩,
    ⟨r', hr', hv', by rw [hv']; exact Release.MachineInt.mod_mod_eq_iff _ _ _⟩⟩

/-- **C104.**  Modulus zero panics in every build. -/
theorem C104_mod_zero (x y : BitVec w) :
    Release.MachineInt.addModU x y 0#w = panic ∧ Release.MachineInt.mulModU x y 0#w = panic ∧
    (y.toNat ≤ x.toNat → Release.MachineInt.subModU x y 0#w = panic) := by
  refine ⟨by simp [Release.MachineInt.addModU, Release.addP, MachineInt.remU],
    by simp [Release.MachineInt.mulModU, Release.mulP, MachineInt.remU], fun h => ?_⟩
  rw [Release.MachineInt.subModU, whileM_done (Nat.succ_pos _) (by simpa using h)]
  simp [Release.subP, MachineInt.remU]

/-- **C104.**  Complete description of `sub_mod` of unsigned integers.  It adds `n`, wrapping, until the accumulator is at
least `y`: if `k` is the least number of additions, the result is that of the wrapped accumulator; if there is no such
number, the call does not return. -/
theorem C104_sub_mod (x y n : BitVec w) :
    (n ≠ 0#w → ∀ k, y.toNat ≤ (x.toNat + k * n.toNat) % 2 ^ w → (∀ j, j < k → (x.toNat + j * n.toNat) % 2 ^ w < y.toNat) →
      ∃ r, Release.MachineInt.subModU x y n = .ok r ∧
        r.toNat = ((x.toNat + k * n.toNat) % 2 ^ w - y.toNat) % n.toNat) ∧
    ((∀ k, (x.toNat + k * n.toNat) % 2 ^ w < y.toNat) → Release.MachineInt.subModU x y n = .error .diverge) :=
  ⟨fun hn k hk hm => Release.MachineInt.subModU_ok x y n hn k hk hm, Release.MachineInt.subModU_diverge x y n⟩

/-- **C104.**  When the modulus is a power of two below the width, `add_mod` and `mul_mod` are right on all arguments,
`sub_mod` whenever it returns. -/
theorem C104_pow_two (x y n : BitVec w) (e : Nat) (he : n.toNat = 2 ^ e) :
    (∃ r, Release.MachineInt.addModU x y n = .ok r ∧ r.toNat = (x.toNat + y.toNat) % n.toNat) ∧
    (∃ r, Release.MachineInt.mulModU x y n = .ok r ∧ r.toNat = (x.toNat * y.toNat) % n.toNat) ∧
    (∀ r, Release.MachineInt.subModU x y n = .ok r → (r.toNat : Int) = ((x.toNat : Int) - y.toNat) % n.toNat) := by
  have hn : n ≠ 0#w := by rintro rfl; have := Nat.two_pow_pos e; simp at he; omega
  have hew : e ≤ w := by
    have h1 := n.isLt
    rw [he] at h1
    exact Nat.le_of_lt ((Nat.pow_lt_pow_iff_right (by omega)).mp h1)
  have hd : n.toNat ∣ 2 ^ w := by rw [he]; exact Nat.pow_dvd_pow 2 hew
  obtain ⟨⟨r, hr, _, h1⟩, ⟨r', hr', _, h2⟩⟩ := C104_add_mul_mod x y n hn
  refine ⟨⟨r, hr, h1.mpr (Nat.dvd_mul_right_of_dvd hd _)⟩, ⟨r', hr', h2.mpr (Nat.dvd_mul_right_of_dvd hd _)⟩, fun r hr => ?_⟩
  by_cases hex : ∃ k, y.toNat ≤ (x.toNat + k * n.toNat) % 2 ^ w
  · obtain ⟨r', hr', hv⟩ := (C104_sub_mod x y n).1 hn _ (Nat.find_spec hex) fun j hj => Nat.lt_of_not_le (Nat.find_min hex hj)
    rw [hr] at hr'
    cases hr'
    have hk := Nat.find_spec hex
    generalize Nat.find hex = k at hv hk
    rw [hv]
    push_cast [hk]
    have h3 : ((n.toNat : Int)) ∣ 2 ^ w := by exact_mod_cast hd
    apply Int.emod_emod_of_dvd _ (dvd_refl _) |>.symm.trans _ |>.symm.symm
    rw [Int.emod_emod_of_dvd _ (dvd_refl _)]
    apply Int.emod_eq_emod_iff_emod_sub_eq_zero.mpr
    apply Int.emod_eq_zero_of_dvd
    have h4 := Int.emod_add_mul_ediv ((x.toNat : Int) + k * n.toNat) (2 ^ w)
    obtain ⟨c, hc⟩ := h3
    refine ⟨k - c * (((x.toNat : Int) + k * n.toNat) / 2 ^ w), ?_⟩
    generalize ((x.toNat : Int) + k * n.toNat) / 2 ^ w = q at *
    generalize ((x.toNat : Int) + k * n.toNat) % 2 ^ w = m at *
    rw [hc] at h4
    linear_combination h4
  · rw [(C104_sub_mod x y n).2 fun k => Nat.lt_of_not_le fun h => hex ⟨k, h⟩] at hr
    simp at hr

/-- **C104.**  Signed operations with a positive modulus: the exact result modulo `2^128`, reduced. -/
theorem C104_signed (hw : 0 < w) (h128 : w ≤ 128) (x y n : BitVec w) (hn : 0 < n.toInt) :
    (∃ r, Release.MachineInt.addModS x y n = .ok r ∧ r.toInt = (x.toInt + y.toInt).bmod (2 ^ 128) % n.toInt) ∧
    (∃ r, Release.MachineInt.subModS x y n = .ok r ∧ r.toInt = (x.toInt - y.toInt).bmod (2 ^ 128) % n.toInt) ∧
    (∃ r, Release.MachineInt.mulModS x y n = .ok r ∧ r.toInt = (x.toInt * y.toInt).bmod (2 ^ 128) % n.toInt) ∧
    (∃ r, Release.MachineInt.moduloS x n = .ok r ∧ r.toInt = x.toInt % n.toInt) := by
  have hnf := toInt_fits128 h128 n
  have key : ∀ z, Release.MachineInt.i128 z = .ok (z.bmod (2 ^ 128)) ∧
      Release.MachineInt.signedMod (z.bmod (2 ^ 128)) n.toInt = .ok (z.bmod (2 ^ 128) % n.toInt) ∧
      (BitVec.ofInt w (z.bmod (2 ^ 128) % n.toInt)).toInt = z.bmod (2 ^ 128) % n.toInt := by
    intro z
    refine ⟨by rw [Release.MachineInt.i128, BitVec.toInt_ofInt],
      Release.MachineInt.signedMod_keeps _ (MachineInt.signedMod_pos ?_ hn hnf),
      ofInt_small hw n _ (Int.emod_nonneg _ (by omega)) (Int.emod_lt_of_pos _ hn)⟩
    have := Int.le_bmod (x := z) (m := 2 ^ 128) (by omega)
    have := Int.bmod_lt (x := z) (m := 2 ^ 128) (by omega)
    constructor <;> omega
  refine ⟨?_, ?_, ?_, ?_⟩
  · obtain ⟨h1, h2, h3⟩ := key (x.toInt + y.toInt)
    exact ⟨_, by simp only [Release.MachineInt.addModS, h1, h2, bind_ok], h3⟩
  · obtain ⟨h1, h2, h3⟩ := key (x.toInt - y.toInt)
    exact ⟨_, by simp only [Release.MachineInt.subModS, h1, h2, bind_ok], h3⟩
  · obtain ⟨h1, h2, h3⟩ := key (x.toInt * y.toInt)
    exact ⟨_, by simp only [Release.MachineInt.mulModS, h1, h2, bind_ok], h3⟩
  · obtain ⟨r, hr, hv⟩ := (C10_signed hw h128 x y n hn).2.2.2
    exact ⟨r, Release.MachineInt.moduloS_keeps _ hr, hv⟩

/-- **C104.**  Up to 64 bits the signed operations are the same in both builds: the residue of the exact result. -/
theorem C104_signed_small (hw : 0 < w) (h64 : w ≤ 64) (x y n : BitVec w) (hn : 0 < n.toInt) :
    Release.MachineInt.addModS x y n = MachineInt.addModS x y n ∧
    Release.MachineInt.subModS x y n = MachineInt.subModS x y n ∧
    Release.MachineInt.mulModS x y n = MachineInt.mulModS x y n := by
  obtain ⟨h1, h2, h3, _⟩ := C10_signed hw (by omega) x y n hn
  obtain ⟨f1, f2, f3⟩ := C10_signed_fits h64 x y
  obtain ⟨a, ha, _⟩ := (h1 _ rfl).1 f1
  obtain ⟨b, hb, _⟩ := (h2 _ rfl).1 f2
  obtain ⟨c, hc, _⟩ := (h3 _ rfl).1 f3
  exact ⟨keeps_eq (P := fun _ => True) Release.MachineInt.addModS_keeps ⟨a, ha, trivial⟩, keeps_eq (P := fun _ => True) Release.MachineInt.subModS_keeps ⟨b, hb, trivial⟩,
    keeps_eq (P := fun _ => True) Release.MachineInt.mulModS_keeps ⟨c, hc, trivial⟩⟩

/-- **C104, disagreement.**  A negative modulus and a negative remainder `r`: where the debug build panics, the correction
loop of the release build runs past the smallest `i128` and returns a number that has no relation to `r`. -/
theorem C104_signed_negative_refuted (h128 : w ≤ 128) (x n : BitVec w) (hn : n.toInt < 0) (hr : x.toInt.tmod n.toInt < 0) :
    Release.MachineInt.moduloS x n
      = .ok (BitVec.ofInt w (2 ^ 127 + n.toInt + (x.toInt.tmod n.toInt + 2 ^ 127) % n.toInt)) ∧
    MachineInt.moduloS x n = panic := by
  have hxf := toInt_fits128 h128 x
  have hnf := toInt_fits128 h128 n
  have hf : fitsS 128 (x.toInt.tdiv n.toInt) := by
    by_cases hf : fitsS 128 (x.toInt.tdiv n.toInt)
    · exact hf
    · exfalso
      have hn1 : n.toInt = -1 := by
        by_contra hne
        apply hf
        have h1 := Int.natAbs_tdiv_le_natAbs x.toInt n.toInt
        have h2 : (x.toInt.tdiv n.toInt).natAbs ≤ x.toInt.natAbs / 2 := by
          rw [Int.natAbs_tdiv]; exact Nat.div_le_div_left (by omega) (by omega)
        have h3 := hxf.1; have h4 := hxf.2
        constructor <;> omega
      rw [hn1] at hr
      simp at hr
  constructor
  · have h1 : -(2 ^ 127) ≤ x.toInt.tmod n.toInt := by
      have h2 := Int.natAbs_tmod x.toInt n.toInt
      have h5 := Nat.mod_le x.toInt.natAbs n.toInt.natAbs
      have h3 := hxf.1; have h4 := hxf.2; omega
    rw [Release.MachineInt.moduloS, Release.MachineInt.signedMod, require_true (by omega), bind_ok]
    simp only [MachineInt.i128, hf, if_true, bind_ok]
    rw [Release.MachineInt.negLoop n.toInt hn hnf.1 _ _ hr h1 (by push_cast; omega)]
    rfl
  · rw [C10_signed_negative_modulus h128 x n hn, if_neg]
    rintro ⟨_, h⟩; omega

/-- **C104, disagreement.**  Sums, differences that wrap: a wrong residue, or no answer at all. -/
theorem C104_mod_refuted :
    Release.MachineInt.addModU (200#8) (100#8) (7#8) = .ok 2#8 ∧ (200 + 100) % 7 = 6 ∧
    Release.MachineInt.subModU (249#8) (250#8) (251#8) = .ok 5#8 ∧ ((249 : Int) - 250) % 251 = 250 ∧
    Release.MachineInt.subModU (0#8) (200#8) (128#8) = .error .diverge := by
  refine ⟨by decide +kernel, by decide, ?_, by decide, ?_⟩
  · decide +kernel
  · refine (C104_sub_mod (0#8) (200#8) (128#8)).2 fun k => ?_
    show (0 + k * 128) % 256 < 200
    omega

/-- **C104.**  The Euclidean inverse of public integers computes in the release build what that of secret integers
computes in the debug build. -/
theorem C104_inverse (x n : BitVec w) :
    MachineInt.euclidInvert Release.MachineInt.pubU x n = MachineInt.euclidInvert MachineInt.secU x n ∧
    MachineInt.euclidInvert Release.MachineInt.pubS x n = MachineInt.euclidInvert MachineInt.secS x n ∧
    MachineInt.euclidInvert Release.MachineInt.secU x n = MachineInt.euclidInvert MachineInt.secU x n ∧
    MachineInt.euclidInvert Release.MachineInt.secS x n = MachineInt.euclidInvert MachineInt.secS x n :=
  ⟨rfl, rfl, rfl, rfl⟩

/-- **C104, disagreement.**  So it may return a number that is not the inverse, where the debug build panics. -/
theorem C104_inverse_refuted :
    ∃ x n y : BitVec 8, Nat.gcd x.toNat n.toNat = 1 ∧ 0 < x.toNat ∧ x.toNat < n.toNat ∧
      MachineInt.euclidInvert Release.MachineInt.pubU x n = .ok y ∧ (y.toNat * x.toNat) % n.toNat ≠ 1 := by
  obtain ⟨x, n, y, h1, h2, h3, h4, h5⟩ := C11_inv_wrong_refuted
  exact ⟨x, n, y, h1, h2, h3, (C104_inverse x n).1.trans h4, h5⟩

example : ∃ r, Release.MachineInt.mulModU (200#8) (100#8) (32#8) = .ok r ∧ r.toNat = (200 * 100) % 32 :=
  (C104_pow_two (200#8) (100#8) (32#8) 5 rfl).2.1
example : ∃ r, Release.MachineInt.addModS (BitVec.intMax 128) (BitVec.intMax 128) (7#128) = .ok r ∧ r.toInt = 5 :=
  (C104_signed (by decide) (by decide) (BitVec.intMax 128) (BitVec.intMax 128) (7#128) (by decide)).1
example : MachineInt.moduloS (-3#8) (-5#8) = panic :=
  (C104_signed_negative_refuted (by decide) (-3#8) (-5#8) (by decide) (by decide)).2

/-! ## C105: bit access and lengths in the release build -/

/-- **C105.**  `get_bit` of unsigned integers takes the index modulo the width. -/
theorem C105_get_bit (hw : 0 < w) (O : IntOps w) (hO : O = Release.MachineInt.pubU ∨ O = Release.MachineInt.secU)
    (x : BitVec w) (i : Nat) :
    MachineInt.getBit O x i = .ok (if x.getLsbD (i % w) then 1#w else 0#w) :=
  Release.MachineInt.getBit_unsigned O hO hw x i

/-- **C105.**  `set_bit` with an index inside the word and any "bit" `b`: the bits below `i` are kept, bit `i` becomes the
lowest bit of `b`, the remaining bits of `b` are or-ed into the bits above. -/
theorem C105_set_bit (hw : w ≤ 128) (x b : BitVec w) (i : Nat) (hi : i < w) :
    ∃ y, Release.MachineInt.setBit x b i = .ok y ∧ ∀ k, k < w →
      y.getLsbD k = if k < i then x.getLsbD k else if k = i then b.getLsbD 0 else (x.getLsbD k || b.getLsbD (k - i)) :=
  Release.MachineInt.setBit_lt hw x b i hi

/-- **C105.**  `set_bit` with an index outside the word: bits can be set (those at the index modulo the width) but not
cleared. -/
theorem C105_set_bit_outside (hw : w ∣ 128) (x b : BitVec w) (i : Nat) (hi : w ≤ i % 128) :
    Release.MachineInt.setBit x b i = .ok (x ||| b <<< (i % w)) ∧ Release.MachineInt.setBit x 0#w i = .ok x := by
  have h : ∀ b, Release.MachineInt.setBit x b i = .ok (x ||| b <<< (i % w)) := by
    intro b
    rw [Release.MachineInt.setBit_mod hw, Release.MachineInt.setBit_ge x b _ hi (Nat.mod_lt _ (by omega)),
      Nat.mod_mod_of_dvd _ hw]
  exact ⟨h b, by rw [h]; simp⟩

/-- **C105.**  `extended_euclid` with a first argument that is too long: the coefficients from the degree of the modulus on
are dropped, whatever they are. -/
theorem C105_extended_euclid (N : NumOps w) (x y : List (BitVec w)) (n : BitVec w) :
    Release.Poly.extendedEuclid N x y n
      = Release.Poly.extendedEuclid N (x.take (Poly.leadingCoefficient y).1) y n := by
  have h : Poly.makeFixedLength x (Poly.leadingCoefficient y).1
      = Poly.makeFixedLength (x.take (Poly.leadingCoefficient y).1) (Poly.leadingCoefficient y).1 := by
    rw [Poly.makeFixedLength, Poly.overwrite_take, List.length_replicate]; rfl
  rw [Release.Poly.extendedEuclid, Release.Poly.extendedEuclid, ← h]

/-- **C105, disagreement.**  Hence "the inverse of `1 + X` modulo `1 + X`" is `1`. -/
theorem C105_extended_euclid_refuted :
    Release.Poly.extendedEuclid Release.Poly.numPubU [1#8, 1#8] [1#8, 1#8] 3#8 = .ok (some [1#8]) ∧
    Poly.extendedEuclid Poly.numPubU [1#8, 1#8] [1#8, 1#8] 3#8 = panic := by
  refine ⟨by decide +kernel, by decide +kernel⟩

/-- **C105.**  Element-wise addition, subtraction and multiplication of sequences without the length assertion: a longer
second operand is cut off, a shorter one makes the call panic. -/
theorem C105_pub_seq (x y : List (BitVec w)) :
    (x.length ≤ y.length →
      Release.VecInt.pubSeqAdd x y = .ok (List.zipWith (· + ·) x y) ∧
      Release.VecInt.pubSeqSub x y = .ok (List.zipWith (· - ·) x y) ∧
      Release.VecInt.pubSeqMul x y = .ok (List.zipWith (· * ·) x y)) ∧
    (y.length < x.length →
      Release.VecInt.pubSeqAdd x y = panic ∧ Release.VecInt.pubSeqSub x y = panic ∧ Release.VecInt.pubSeqMul x y = panic) := by
  have e : ∀ (g : BitVec w → BitVec w → BitVec w → M (BitVec w)) (f : BitVec w → BitVec w → BitVec w),
      Release.VecInt.vecPoly g f x y 0#w = VecInt.zipLoop (fun a b => .ok (f a b)) x y (Seq.new x.length) := by
    intro g f; simp [Release.VecInt.vecPoly]
  have hl : (Seq.new x.length : List (BitVec w)).length = x.length := Seq.length_new _
  refine ⟨fun h => ⟨?_, ?_, ?_⟩, fun h => ⟨?_, ?_, ?_⟩⟩
  · exact (e _ _).trans (Release.VecInt.zipLoop_le h hl)
  · exact (e _ _).trans (Release.VecInt.zipLoop_le h hl)
  · exact (e _ _).trans (Release.VecInt.zipLoop_le h hl)
  · exact (e _ _).trans (Release.VecInt.zipLoop_gt h hl)
  · exact (e _ _).trans (Release.VecInt.zipLoop_gt h hl)
  · exact (e _ _).trans (Release.VecInt.zipLoop_gt h hl)

example : MachineInt.getBit Release.MachineInt.pubU (0x02#8) 9 = .ok 1#8 ∧ MachineInt.getBit MachineInt.pubU (0x02#8) 9 = panic :=
  ⟨C105_get_bit (by decide) _ (Or.inl rfl) _ _, by decide⟩
example : Release.MachineInt.setBit (0xff#8) 0#8 9 = .ok 0xff#8 ∧ Release.MachineInt.setBit (0x00#8) 1#8 9 = .ok 0x02#8 :=
  ⟨(C105_set_bit_outside (by decide) (0xff#8) 0#8 9 (by decide)).2, (C105_set_bit_outside (by decide) (0x00#8) 1#8 9 (by decide)).1⟩
example : ∃ y, Release.MachineInt.setBit (0x00#8) 3#8 2 = .ok y ∧ y.getLsbD 3 = true :=
  (C105_set_bit (by decide) (0x00#8) 3#8 2 (by decide)).imp fun y h => ⟨h.1, h.2 3 (by decide)⟩
example : Release.VecInt.pubSeqAdd [1#8] [2#8, 3#8] = .ok [3#8] := ((C105_pub_seq [1#8] [2#8, 3#8]).1 (by decide)).1

end Hacspec.Props
